import Verif.Thm.HnswInv
import Verif.Spec.TopK

/-! Insert, delete, parallel build and search of the HNSW index: what each does to the contents and the links. -/
namespace Verif.Hnsw
open Verif.Base Verif.Spec

variable {V : Type}

/-- What is stored under an id: the kept vector and whether it is deleted. -/
def look (h : Index V) (x : String) : Option (V × Bool) := (getNode h x).map (fun n => (n.vec, n.deleted))

structure Inv (h : Index V) : Prop where
  nd : (h.nodes.map Node.id).Nodup
  refs : Refs h
  entry : h.entry = "" ∨ Stored h h.entry
  base : ∀ x, Stored h x → HasLayer h x 0

/-- Links at the bottom go both ways and connect everything. -/
structure Conn (h : Index V) : Prop where
  sym : ∀ x y, Link h 0 x y → Link h 0 y x
  conn : ∀ x y, Stored h x → Stored h y → Reach (Link h 0) x y
  start : h.entry = "" → h.nodes = []

theorem look_isSome (h : Index V) (x : String) : (look h x).isSome = true ↔ Stored h x := by simp [look, Stored]

theorem get_addNode (E : Env V) (h : Index V) (id : String) (v : V) (level : Nat) (x : String) :
    getNode (addNode E h id v level) x =
      (getNode h x).or (if x = id then some ⟨id, E.keep v, List.replicate (level + 1) [], false⟩ else none) := by
  unfold getNode addNode
  rw [List.find?_append]
  congr 1
  by_cases hx : x = id
  · subst hx; simp
  · rw [if_neg hx, List.find?_cons_of_neg (by simpa using Ne.symm hx)]
    rfl

theorem get_none {h : Index V} {x : String} (hx : ¬ Stored h x) : getNode h x = none := by
  unfold Stored at hx
  simpa using hx

theorem nbrsAt_addNode (E : Env V) (h : Index V) (id : String) (v : V) (level : Nat) (hn : ¬ Stored h id) (x : String) (K : Nat) :
    nbrsAt (addNode E h id v level) x K = if x = id then (if K ≤ level then some [] else none) else nbrsAt h x K := by
  unfold nbrsAt
  rw [get_addNode]
  by_cases hx : x = id
  · subst hx
    rw [get_none hn, if_pos rfl, if_pos rfl]
    simp only [Option.none_or, Option.bind_some, List.getElem?_replicate, Nat.lt_succ_iff]
  · rw [if_neg hx, if_neg hx, Option.or_none]

theorem stored_addNode (E : Env V) (h : Index V) (id : String) (v : V) (level : Nat) (x : String) :
    Stored (addNode E h id v level) x ↔ Stored h x ∨ x = id := by
  rw [stored_mem, stored_mem]
  simp [addNode]

theorem raise_spec {h : Index V} {e : Node V} (he : getNode h h.entry = some e) (id : String) (level : Nat) :
    ∃ en, raiseEntry h id level = some { h with entry := en } ∧ (en = id ∨ en = h.entry) := by
  unfold raiseEntry
  rw [he]
  simp only
  split_ifs
  · exact ⟨id, rfl, Or.inl rfl⟩
  · exact ⟨h.entry, rfl, Or.inr rfl⟩

/-- Changing the entry point changes nothing else. -/
theorem refs_entry {h : Index V} {en : String} : Refs { h with entry := en } ↔ Refs h := Iff.rfl

theorem insertNew_spec (E : Env V) (pruning : Bool) (h : Index V) (id : String) (v : V) (level : Nat) (hi : Inv h) (hn : ¬ Stored h id) :
    ∃ h', insertNew E pruning h id v level = some h' ∧ Inv h' ∧ (h'.M = h.M ∧ h'.maxM = h.maxM ∧ h'.efC = h.efC) ∧
      h'.nodes.map Node.id = h.nodes.map Node.id ++ [id] ∧
      (∀ x, look h' x = if x = id then some (E.keep v, false) else look h x) ∧
      (h'.entry = id ∨ (h'.entry = h.entry ∧ h.entry ≠ "")) ∧
      (pruning = true → Bounded h → Bounded h') ∧
      (Layered h → (h.entry = "" ∨ ∃ e, getNode h h.entry = some e ∧ level ≤ e.level) → Layered h') ∧
      (0 < h.M → 0 < h.maxM → id ≠ "" → (pruning = false ∨ h.nodes.length ≤ h.maxM) → Conn h → Conn h') ∧
      (∀ e, h.entry ≠ "" → getNode h h.entry = some e → e.level < level → 0 < h.M → Link h' level id h.entry ∧ ¬ HasLayer h' h.entry level) := by
  have hst := stored_addNode E h id v level
  have hat := nbrsAt_addNode E h id v level hn
  have hget := get_addNode E h id v level
  have hids : (addNode E h id v level).nodes.map Node.id = h.nodes.map Node.id ++ [id] := by simp [addNode]
  have hpar : (addNode E h id v level).M = h.M ∧ (addNode E h id v level).maxM = h.maxM ∧ (addNode E h id v level).efC = h.efC ∧
      (addNode E h id v level).entry = h.entry := ⟨rfl, rfl, rfl, rfl⟩
  unfold insertNew
  generalize addNode E h id v level = h1 at *
  have hnid : ∀ x K l, nbrsAt h x K = some l → x ≠ id := by
    rintro x K l hl rfl
    exact hn (stored_left (hasLayer_of_list hl))
  have hlink : ∀ K x y, Link h1 K x y ↔ Link h K x y := by
    intro K x y
    unfold Link
    constructor
    · rintro ⟨l, hl, hy⟩
      rw [hat] at hl
      by_cases hx : x = id
      · rw [if_pos hx] at hl
        split_ifs at hl
        rw [← Option.some.inj hl] at hy
        simp at hy
      · rw [if_neg hx] at hl
        exact ⟨l, hl, hy⟩
    · rintro ⟨l, hl, hy⟩
      exact ⟨l, by rw [hat, if_neg (hnid x K l hl)]; exact hl, hy⟩
  have hr1 : Refs h1 := by
    intro x K l hl
    rw [hat] at hl
    by_cases hx : x = id
    · rw [if_pos hx] at hl
      split_ifs at hl
      rw [← Option.some.inj hl]
      exact ⟨List.nodup_nil, by simp⟩
    · rw [if_neg hx] at hl
      obtain ⟨a, b⟩ := hi.refs x K l hl
      exact ⟨a, fun y hy => ⟨(b y hy).1, (hst y).2 (Or.inl (b y hy).2)⟩⟩
  have hnd1 : (h1.nodes.map Node.id).Nodup := by
    rw [hids, List.nodup_append]
    refine ⟨hi.nd, List.nodup_singleton id, ?_⟩
    intro a ha b hb
    rw [List.mem_singleton] at hb
    rintro rfl
    exact hn ((stored_mem h a).2 ha |> (fun hh => hb ▸ hh))
  have hlay1 : ∀ x K, HasLayer h1 x K ↔ (x = id ∧ K ≤ level) ∨ HasLayer h x K := by
    intro x K
    unfold HasLayer
    rw [hat]
    by_cases hx : x = id
    · rw [if_pos hx]
      have : (nbrsAt h x K).isSome = false := by
        cases hc : nbrsAt h x K with
        | none => rfl
        | some l => exact absurd hx (hnid x K l hc)
      rw [this]
      split_ifs with hK
      · simp [hx, hK]
      · simp [hx, hK]
    · rw [if_neg hx]
      simp [hx]
  have hbase1 : ∀ x, Stored h1 x → HasLayer h1 x 0 := by
    intro x hx
    rw [hlay1]
    rcases (hst x).1 hx with h2 | h2
    · exact Or.inr (hi.base x h2)
    · exact Or.inl ⟨h2, Nat.zero_le _⟩
  have hlook1 : ∀ x, look h1 x = if x = id then some (E.keep v, false) else look h x := by
    intro x
    unfold look
    rw [hget]
    by_cases hx : x = id
    · subst hx
      rw [get_none hn]; simp
    · rw [if_neg hx, if_neg hx, Option.or_none]
  have hbd1 : Bounded h → Bounded h1 := by
    intro hb x K l hl
    rw [hat] at hl
    by_cases hx : x = id
    · rw [if_pos hx] at hl
      split_ifs at hl
      rw [← Option.some.inj hl]
      exact Nat.zero_le _
    · rw [if_neg hx] at hl
      have := hb x K l hl
      unfold maxConn at *
      rw [hpar.1, hpar.2.1]
      exact this
  have hly1 : Layered h → Layered h1 := by
    intro hl x K y hxy
    rw [hlay1]
    exact Or.inr (hl x K y ((hlink K x y).1 hxy))
  by_cases hent : h.entry = ""
  · rw [if_pos hent]
    refine ⟨_, rfl, ⟨hnd1, hr1, Or.inr ((hst id).2 (Or.inr rfl)), hbase1⟩, ⟨hpar.1, hpar.2.1, hpar.2.2.1⟩, hids, hlook1, Or.inl rfl,
      fun _ => hbd1, fun hl _ => hly1 hl, ?_, fun e hne => absurd hent hne⟩
    intro _ _ hidne _ hc
    have hnil := hc.start hent
    have hnolink : ∀ x y, ¬ Link h1 0 x y := by
      intro x y hxy
      obtain ⟨l, hl, -⟩ := (hlink 0 x y).1 hxy
      have := stored_left (hasLayer_of_list hl)
      rw [stored_mem, hnil] at this
      simp at this
    have honly : ∀ x, Stored h1 x → x = id := by
      intro x hx
      rcases (hst x).1 hx with h2 | h2
      · rw [stored_mem, hnil] at h2; simp at h2
      · exact h2
    refine ⟨fun x y hxy => absurd hxy (hnolink x y), ?_, fun hh => absurd hh hidne⟩
    intro x y hx hy
    have hx' : x = id := honly x hx
    have hy' : y = id := honly y hy
    rw [hx', hy']
    exact Reach.refl _
  · rw [if_neg hent]
    have hes : Stored h h.entry := hi.entry.resolve_left hent
    obtain ⟨e, he⟩ := Option.isSome_iff_exists.1 hes
    have hene : h.entry ≠ id := fun hh => hn (hh ▸ hes)
    have he1 : getNode h1 h.entry = some e := by rw [hget, he]; rfl
    rw [he1]
    simp only
    have hest : Stored h1 h.entry := stored_of_get he1
    obtain ⟨cur, d1, d2, d3, d4, d5⟩ := descend_spec E h1 v hr1 level (e.level - level) [h.entry] rfl (by simpa using hest)
    rw [d1]
    simp only
    have hfresh : ∀ x K l, nbrsAt h1 x K = some l → id ∉ l := by
      intro x K l hl hm
      obtain ⟨l', hl', hm'⟩ := (hlink K x id).1 ⟨l, hl, hm⟩
      exact hn ((hi.refs x K l' hl').2 id hm').2
    have hcurid : ∀ c ∈ cur, c ≠ id := d4 (fun c => c ≠ id) (by simpa using hene) (by
      rintro K a b - ⟨l, hl, hm⟩ rfl
      exact hfresh a K l hl hm)
    have hcne : cur ≠ [] := by intro hh; rw [hh] at d2; simp at d2
    have hcnd : cur.Nodup := by
      obtain ⟨c, rfl⟩ := List.length_eq_one_iff.1 d2
      exact List.nodup_singleton c
    obtain ⟨h2, g1, g2, g3, g4, g5, g6, g7, g8⟩ := linkLayers_spec E pruning v id level cur h1 hr1
      (fun K hK => by rw [hat, if_pos rfl, if_pos hK]) (fun x K l _ hl => hfresh x K l hl) hcnd (fun c hc => ⟨d3 c hc, hcurid c hc⟩)
    rw [g1]
    simp only
    have hent2 : h2.entry = h.entry := g2.hentry.trans hpar.2.2.2
    obtain ⟨e2, he2⟩ := Option.isSome_iff_exists.1 ((g2.stored h2.entry).2 (by rw [hent2]; exact hest))
    obtain ⟨en, r1, r2⟩ := raise_spec he2 id level
    rw [r1]
    have hlook2 : ∀ x, look h2 x = look h1 x := by
      intro x
      have := congrArg (Option.map (fun t : V × Bool × Nat => (t.1, t.2.1))) (g2.hget x)
      rw [Option.map_map, Option.map_map] at this
      exact this
    have helen : 1 ≤ e.nbrs.length := by
      have := hi.base _ hes
      rw [hasLayer_iff, he] at this
      obtain ⟨n, hn', hlt⟩ := this
      rw [← Option.some.inj hn'] at hlt
      exact hlt
    refine ⟨_, rfl, ⟨?_, g3, ?_, ?_⟩, ⟨g2.hM.trans hpar.1, g2.hmaxM.trans hpar.2.1, g2.hef.trans hpar.2.2.1⟩, g2.hids.trans hids, ?_, ?_,
      fun hp hb => g4 hp (hbd1 hb), ?_, ?_, ?_⟩
    · rw [g2.hids]; exact hnd1
    · right
      rcases r2 with rfl | rfl
      · exact (g2.stored _).2 ((hst _).2 (Or.inr rfl))
      · rw [hent2]
        exact (g2.stored _).2 hest
    · intro x hx
      exact (g2.hasLayer x 0).2 (hbase1 x ((g2.stored x).1 hx))
    · intro x
      exact (hlook2 x).trans (hlook1 x)
    · rcases r2 with r2 | r2
      · exact Or.inl r2
      · exact Or.inr ⟨r2.trans hent2, hent⟩
    · intro hl hguard
      refine g5 ?_ (hly1 hl)
      rcases hguard with hg | ⟨e', he', hle⟩
      · exact absurd hg hent
      · obtain rfl : e' = e := by rw [he] at he'; exact (Option.some.inj he').symm
        have hetop : HasLayer h1 h.entry e'.level := by
          rw [hlay1]
          right
          rw [hasLayer_iff]
          exact ⟨e', he, by unfold Node.level; omega⟩
        by_cases h0 : e'.level - level = 0
        · rw [h0] at d1
          simp only [descend, Option.some.injEq] at d1
          subst d1
          intro c hc
          rw [List.mem_singleton] at hc
          rw [hc]
          exact hasLayer_mono hetop hle
        · intro c hc
          refine hasLayer_mono (d5 (hly1 hl) (by omega) ?_ c hc) (Nat.le_succ _)
          intro c' hc'
          rw [List.mem_singleton] at hc'
          rw [hc', show level + (e'.level - level) = e'.level by omega]
          exact hetop
    · intro hM hMM hidne hsm hc
      obtain ⟨nbs, k1, k2, k3⟩ := g6 hcne (by rw [hpar.1]; exact hM) (by rw [hpar.2.1]; exact hMM) (by
        rcases hsm with hsm | hsm
        · exact Or.inl hsm
        · right
          rw [hpar.2.1]
          have := congrArg List.length hids
          simp only [List.length_map, List.length_append, List.length_singleton] at this
          omega)
      have hnb : ∀ n ∈ nbs, Stored h n ∧ HasLayer h1 n 0 := by
        intro n hn'
        obtain ⟨a, b⟩ := k2 n hn'
        exact ⟨((hst n).1 a).resolve_right b, hbase1 n a⟩
      have hL : ∀ x y, Link h2 0 x y ↔ Link h 0 x y ∨ (x = id ∧ y ∈ nbs) ∨ (y = id ∧ x ∈ nbs) := by
        intro x y
        rw [k3, hlink]
        constructor
        · rintro (h5 | h5 | ⟨h5, h6, -⟩)
          · exact Or.inl h5
          · exact Or.inr (Or.inl h5)
          · exact Or.inr (Or.inr ⟨h5, h6⟩)
        · rintro (h5 | h5 | ⟨h5, h6⟩)
          · exact Or.inl h5
          · exact Or.inr (Or.inl h5)
          · exact Or.inr (Or.inr ⟨h5, h6, (hnb x h6).2⟩)
      have hsym : ∀ x y, Link h2 0 x y → Link h2 0 y x := by
        intro x y hxy
        rw [hL] at *
        rcases hxy with h5 | ⟨h5, h6⟩ | ⟨h5, h6⟩
        · exact Or.inl (hc.sym x y h5)
        · exact Or.inr (Or.inr ⟨h5, h6⟩)
        · exact Or.inr (Or.inl ⟨h5, h6⟩)
      obtain ⟨nb, hnbm⟩ := List.exists_mem_of_ne_nil _ k1
      have hto : ∀ x, Stored h1 x → Reach (Link h2 0) x nb := by
        intro x hx
        rcases (hst x).1 hx with h5 | h5
        · obtain ⟨n, w⟩ := hc.conn x nb h5 (hnb nb hnbm).1
          exact ⟨n, w.mono (fun a b hab => (hL a b).2 (Or.inl hab))⟩
        · subst h5
          exact Reach.single ((hL _ _).2 (Or.inr (Or.inl ⟨rfl, hnbm⟩)))
      refine ⟨hsym, ?_, ?_⟩
      · intro x y hx hy
        exact (hto x ((g2.stored x).1 hx)).trans ((hto y ((g2.stored y).1 hy)).symm hsym)
      · intro hh
        exfalso
        rcases r2 with r2 | r2
        · exact hidne (r2.symm.trans hh)
        · exact hent (hent2.symm.trans (r2.symm.trans hh))
    · intro e' hne he' hlt hM
      obtain rfl : e' = e := by rw [he] at he'; exact (Option.some.inj he').symm
      have h0 : e'.level - level = 0 := by omega
      rw [h0] at d1
      simp only [descend, Option.some.injEq] at d1
      subst d1
      have hno : ¬ HasLayer h1 h.entry level := by
        rw [hlay1, not_or]
        refine ⟨fun hh => hene hh.1, ?_⟩
        rw [hasLayer_iff]
        rintro ⟨n, hn', hlt'⟩
        rw [he] at hn'
        rw [← Option.some.inj hn'] at hlt'
        unfold Node.level at hlt
        omega
      obtain ⟨l, c, u1, u2, u3⟩ := g8 (by
        unfold maxConn
        rw [if_neg (by omega), hpar.1]
        exact hM) hcne (by simpa using hno)
      rw [List.mem_singleton] at u3
      subst u3
      exact ⟨⟨l, u1, u2⟩, fun hh => hno ((g2.hasLayer h.entry level).1 hh)⟩

/-! ### Delete -/

theorem get_mark (h : Index V) (id x : String) :
    getNode (markDeleted h id) x = (getNode h x).map (fun n => if n.id = id then { n with deleted := true } else n) := by
  unfold getNode markDeleted
  rw [List.find?_map]
  congr 2
  funext n
  simp only [Function.comp]
  split_ifs <;> rfl

theorem ids_mark (h : Index V) (id : String) : (markDeleted h id).nodes.map Node.id = h.nodes.map Node.id := by
  unfold markDeleted
  rw [List.map_map]
  apply List.map_congr_left
  intro n _
  simp only [Function.comp]
  split_ifs <;> rfl

theorem nbrsAt_mark (h : Index V) (id x : String) (K : Nat) : nbrsAt (markDeleted h id) x K = nbrsAt h x K := by
  unfold nbrsAt
  rw [get_mark]
  cases getNode h x with
  | none => rfl
  | some n =>
    simp only [Option.map_some, Option.bind_some]
    split_ifs <;> rfl

/-- Nothing that concerns links or the set of nodes has changed, and the entry point is still stored. -/
structure Same (h h' : Index V) : Prop where
  par : h'.M = h.M ∧ h'.maxM = h.maxM ∧ h'.efC = h.efC
  ids : h'.nodes.map Node.id = h.nodes.map Node.id
  nbrs : ∀ x K, nbrsAt h' x K = nbrsAt h x K

theorem Same.stored {h h' : Index V} (s : Same h h') (x : String) : Stored h' x ↔ Stored h x := by
  rw [stored_mem, stored_mem, s.ids]

theorem Same.hasLayer {h h' : Index V} (s : Same h h') (x : String) (K : Nat) : HasLayer h' x K ↔ HasLayer h x K := by
  unfold HasLayer; rw [s.nbrs]

theorem Same.link {h h' : Index V} (s : Same h h') (K : Nat) (x y : String) : Link h' K x y ↔ Link h K x y := by
  unfold Link; rw [s.nbrs]

theorem Same.inv {h h' : Index V} (s : Same h h') (hi : Inv h) (he : h'.entry = "" ∨ Stored h h'.entry) : Inv h' where
  nd := by rw [s.ids]; exact hi.nd
  refs := by
    intro x K l hl
    rw [s.nbrs] at hl
    obtain ⟨a, b⟩ := hi.refs x K l hl
    exact ⟨a, fun y hy => ⟨(b y hy).1, (s.stored y).2 (b y hy).2⟩⟩
  entry := he.imp id (fun hh => (s.stored _).2 hh)
  base := fun x hx => (s.hasLayer x 0).2 (hi.base x ((s.stored x).1 hx))

theorem Same.bounded {h h' : Index V} (s : Same h h') (hb : Bounded h) : Bounded h' := by
  intro x K l hl
  rw [s.nbrs] at hl
  have := hb x K l hl
  unfold maxConn at *
  rw [s.par.1, s.par.2.1]
  exact this

theorem Same.layered {h h' : Index V} (s : Same h h') (hb : Layered h) : Layered h' := fun x K y hl =>
  (s.hasLayer y K).2 (hb x K y ((s.link K x y).1 hl))

theorem Same.conn {h h' : Index V} (s : Same h h') (hc : Conn h) (he : h'.entry = "" → h'.nodes = []) : Conn h' where
  sym := fun x y hxy => (s.link 0 y x).2 (hc.sym x y ((s.link 0 x y).1 hxy))
  conn := fun x y hx hy => by
    obtain ⟨n, w⟩ := hc.conn x y ((s.stored x).1 hx) ((s.stored y).1 hy)
    exact ⟨n, w.mono (fun a b hab => (s.link 0 a b).2 hab)⟩
  start := he

theorem delete_spec (order : List (Node V) → List (Node V)) (ho : ∀ l, (order l).Perm l) (h : Index V) (id : String) (hi : Inv h) :
    Same h (delete order h id).1 ∧ (Inv (delete order h id).1) ∧
      ((delete order h id).2 = true ↔ ¬ Stored h id) ∧
      (∀ x, look (delete order h id).1 x = if x = id then (look h x).map (fun p => (p.1, true)) else look h x) ∧
      ((∀ x, Stored h x → x ≠ "") → (delete order h id).1.entry = "" → h.entry = "") := by
  unfold delete
  cases hg : getNode h id with
  | none =>
    refine ⟨⟨⟨rfl, rfl, rfl⟩, rfl, fun _ _ => rfl⟩, hi, by simp [Stored, hg], ?_, fun _ h => h⟩
    intro x
    simp only
    by_cases hx : x = id
    · rw [if_pos hx, hx]; simp [look, hg]
    · rw [if_neg hx]
  | some n =>
    simp only
    have hsm : Same h (markDeleted h id) := ⟨⟨rfl, rfl, rfl⟩, ids_mark h id, nbrsAt_mark h id⟩
    have hlk : ∀ x, look (markDeleted h id) x = if x = id then (look h x).map (fun p => (p.1, true)) else look h x := by
      intro x
      unfold look
      rw [get_mark]
      cases hgx : getNode h x with
      | none => simp
      | some m =>
        have hidm := get_id hgx
        simp only [Option.map_some, hidm]
        split_ifs <;> rfl
    have hinv : Inv (markDeleted h id) := hsm.inv hi hi.entry
    have hsid : Stored h id := stored_of_get hg
    by_cases he : h.entry = id
    · rw [if_pos he]
      unfold moveEntry
      cases hf : (order (markDeleted h id).nodes).find? (fun n => !n.deleted) with
      | none =>
        exact ⟨hsm, hinv, by simpa using hsid, hlk, fun _ h => h⟩
      | some m =>
        have hm : m ∈ (markDeleted h id).nodes := (ho _).mem_iff.1 (List.mem_of_find?_eq_some hf)
        have hms : Stored h m.id := (hsm.stored m.id).1 ((stored_mem _ _).2 (List.mem_map.2 ⟨m, hm, rfl⟩))
        have hsm2 : Same h { markDeleted h id with entry := m.id } := ⟨hsm.par, hsm.ids, hsm.nbrs⟩
        exact ⟨hsm2, hsm2.inv hi (Or.inr hms), by simpa using hsid, hlk, fun hne hh => absurd hh (hne _ hms)⟩
    · rw [if_neg he]
      exact ⟨hsm, hinv, by simpa using hsid, hlk, fun _ h => h⟩

/-! ### Search -/

theorem hit_iff (E : Env V) (h : Index V) (q : V) (x : String) (i : Item) :
    hit E h q x = some i ↔ i.id = x ∧ ∃ v, look h x = some (v, false) ∧ i.dist = E.dist q v := by
  unfold hit look
  cases getNode h x with
  | none => simp
  | some n =>
    simp only [Option.map_some]
    cases hd : n.deleted with
    | true => simp
    | false =>
      obtain ⟨a, b⟩ := i
      simp only [Bool.false_eq_true, if_false, Option.some.injEq, Item.mk.injEq, Prod.mk.injEq]
      constructor
      · rintro ⟨rfl, rfl⟩
        exact ⟨rfl, n.vec, ⟨rfl, trivial⟩, rfl⟩
      · rintro ⟨rfl, v, ⟨rfl, -⟩, rfl⟩
        exact ⟨rfl, rfl⟩

theorem hits_ids (E : Env V) (h : Index V) (q : V) (l : List String) : ((l.filterMap (hit E h q)).map Item.id).Sublist l := by
  induction l with
  | nil => exact List.Sublist.refl _
  | cons x xs ih =>
    cases hx : hit E h q x with
    | none => rw [List.filterMap_cons_none hx]; exact List.Sublist.cons _ ih
    | some i =>
      rw [List.filterMap_cons_some hx, List.map_cons, ((hit_iff E h q x i).1 hx).1]
      exact List.Sublist.cons_cons _ ih

theorem search_spec (E : Env V) (h : Index V) (q : V) (k ef : Nat) (hi : Inv h) :
    ∃ out, search E h q k ef = some out ∧ (out.map Item.id).Nodup ∧ out.length ≤ k ∧ out.Pairwise (fun a b => a.dist ≤ b.dist) ∧
      (∀ i ∈ out, ∃ v, look h i.id = some (v, false) ∧ i.dist = E.dist q v) ∧
      (∀ P : String → Prop, P h.entry → (∀ K a b, P a → Link h K a b → P b) → ∀ i ∈ out, P i.id) ∧
      (h.nodes.length ≤ ef → Conn h → ∃ pool : List Item, (pool.map Item.id).Nodup ∧
        (∀ i, i ∈ pool ↔ ∃ v, look h i.id = some (v, false) ∧ i.dist = E.dist q v) ∧ IsTopK (fun i => -i.dist) pool k out) := by
  unfold search
  by_cases hent : h.entry = ""
  · rw [if_pos hent]
    refine ⟨[], rfl, by simp, by simp, by simp, by simp, by simp, ?_⟩
    intro _ hc
    have hnil := hc.start hent
    refine ⟨[], by simp, ?_, ⟨by simp, ⟨[], by simp, by simp⟩, by simp⟩⟩
    intro i
    simp only [List.not_mem_nil, false_iff]
    rintro ⟨v, hv, -⟩
    have : Stored h i.id := (look_isSome h i.id).1 (by rw [hv]; rfl)
    rw [stored_mem, hnil] at this
    simp at this
  · rw [if_neg hent]
    have hes : Stored h h.entry := hi.entry.resolve_left hent
    obtain ⟨e, he⟩ := Option.isSome_iff_exists.1 hes
    rw [he]
    simp only
    obtain ⟨cur, d1, d2, d3, d4, -⟩ := descend_spec E h q hi.refs 0 e.level [h.entry] rfl (by simpa using hes)
    rw [d1]
    simp only
    have hcnd : cur.Nodup := by
      obtain ⟨c, rfl⟩ := List.length_eq_one_iff.1 d2
      exact List.nodup_singleton c
    have hres : ∀ a b, Link h 0 a b → Stored h b := fun a b hab => link_stored hi.refs hab
    obtain ⟨r, s1, s2, s3, -⟩ := searchLayer_spec E h q cur ef 0 hres hcnd d3
    have hcomp := searchLayer_complete E h q cur ef 0 hres hcnd d3
    rw [s1]
    simp only
    have hp := exchangeSort_perm Item.before (r.filterMap (hit E h q))
    have hsrt := exchangeSort_sorted Item.dist Item.before before_iff (r.filterMap (hit E h q))
    have hpn : ((r.filterMap (hit E h q)).map Item.id).Nodup := (hits_ids E h q r).nodup s2
    have hmem : ∀ i ∈ (exchangeSort Item.before (r.filterMap (hit E h q))).take k, ∃ x ∈ r, hit E h q x = some i := by
      intro i hx
      have := hp.mem_iff.1 (List.mem_of_mem_take hx)
      exact List.mem_filterMap.1 this
    refine ⟨_, rfl, ?_, by rw [List.length_take]; exact Nat.min_le_left _ _, hsrt.sublist (List.take_sublist _ _), ?_, ?_, ?_⟩
    · exact ((List.take_sublist k _).map Item.id).nodup ((hp.map Item.id).nodup_iff.2 hpn)
    · intro i hx
      obtain ⟨x, -, hx⟩ := hmem i hx
      obtain ⟨a, v, b, c⟩ := (hit_iff E h q x i).1 hx
      exact ⟨v, by rw [a]; exact b, c⟩
    · intro P hP hcl i hx
      obtain ⟨x, hxr, hx⟩ := hmem i hx
      obtain ⟨a, -⟩ := (hit_iff E h q x i).1 hx
      rw [a]
      obtain ⟨-, c, hc, hre⟩ := s3 x hxr
      exact reach_closed P (d4 P (by simpa using hP) hcl c hc) (fun a b ha hab => hcl 0 a b ha hab) hre
    · intro hef hc
      refine ⟨r.filterMap (hit E h q), hpn, ?_, ?_⟩
      · intro i
        rw [List.mem_filterMap]
        constructor
        · rintro ⟨x, -, hx⟩
          obtain ⟨a, v, b, c⟩ := (hit_iff E h q x i).1 hx
          exact ⟨v, by rw [a]; exact b, c⟩
        · rintro ⟨v, b, c⟩
          have hs : Stored h i.id := (look_isSome h i.id).1 (by rw [b]; rfl)
          obtain ⟨c0, hc0⟩ := List.length_eq_one_iff.1 d2
          have hc0s := d3 c0 (by rw [hc0]; exact List.mem_cons_self)
          exact ⟨i.id, hcomp hef r s1 c0 (by rw [hc0]; exact List.mem_cons_self) i.id (hc.conn c0 i.id hc0s hs),
            (hit_iff E h q i.id i).2 ⟨rfl, v, b, c⟩⟩
      · refine isTopK_take (fun i : Item => -i.dist) _ _ k ⟨hp, ?_⟩
        exact hsrt.imp (fun hab => neg_le_neg hab)

end Verif.Hnsw
