import Verif.Thm.HnswLayer
import Mathlib.Data.List.Nodup

/-! How inserting changes the links of the HNSW index. -/
namespace Verif.Hnsw
open Verif.Base Verif.Spec

variable {V : Type}

/-- Every link of the index: no repetition, not to itself, to a stored node. -/
def Refs (h : Index V) : Prop := ∀ x K l, nbrsAt h x K = some l → l.Nodup ∧ ∀ y ∈ l, y ≠ x ∧ Stored h y

/-- A node has a layer. -/
def HasLayer (h : Index V) (x : String) (K : Nat) : Prop := (nbrsAt h x K).isSome = true

/-- Every link leads to a node that exists on its layer. -/
def Layered (h : Index V) : Prop := ∀ x K y, Link h K x y → HasLayer h y K

/-- No list is longer than allowed. -/
def Bounded (h : Index V) : Prop := ∀ x K l, nbrsAt h x K = some l → l.length ≤ maxConn h K

/-- Nothing but neighbour lists has changed. -/
structure Skel (h h' : Index V) : Prop where
  hM : h'.M = h.M
  hmaxM : h'.maxM = h.maxM
  hef : h'.efC = h.efC
  hentry : h'.entry = h.entry
  hids : h'.nodes.map Node.id = h.nodes.map Node.id
  hget : ∀ x, (getNode h' x).map (fun n => (n.vec, n.deleted, n.nbrs.length)) = (getNode h x).map (fun n => (n.vec, n.deleted, n.nbrs.length))

theorem Skel.refl (h : Index V) : Skel h h := ⟨rfl, rfl, rfl, rfl, rfl, fun _ => rfl⟩

theorem Skel.trans {a b c : Index V} (h : Skel a b) (h' : Skel b c) : Skel a c :=
  ⟨h'.hM.trans h.hM, h'.hmaxM.trans h.hmaxM, h'.hef.trans h.hef, h'.hentry.trans h.hentry, h'.hids.trans h.hids,
    fun x => (h'.hget x).trans (h.hget x)⟩

theorem Skel.stored {h h' : Index V} (s : Skel h h') (x : String) : Stored h' x ↔ Stored h x := by
  rw [stored_mem, stored_mem, s.hids]

theorem Skel.length {h h' : Index V} (s : Skel h h') : h'.nodes.length = h.nodes.length := by
  have := congrArg List.length s.hids
  simpa using this

theorem Skel.conn {h h' : Index V} (s : Skel h h') (K : Nat) : maxConn h' K = maxConn h K := by
  simp [maxConn, s.hM, s.hmaxM]

theorem hasLayer_iff (h : Index V) (x : String) (K : Nat) : HasLayer h x K ↔ ∃ n, getNode h x = some n ∧ K < n.nbrs.length := by
  unfold HasLayer nbrsAt
  cases getNode h x with
  | none => simp
  | some n => simp

theorem Skel.hasLayer {h h' : Index V} (s : Skel h h') (x : String) (K : Nat) : HasLayer h' x K ↔ HasLayer h x K := by
  have hg := s.hget x
  rw [hasLayer_iff, hasLayer_iff]
  cases h1 : getNode h x with
  | none =>
    cases h2 : getNode h' x with
    | none => simp
    | some n => rw [h1, h2] at hg; simp at hg
  | some m =>
    cases h2 : getNode h' x with
    | none => rw [h1, h2] at hg; simp at hg
    | some n =>
      rw [h1, h2] at hg
      simp at hg
      simp [hg.2.2]

theorem get_id {h : Index V} {x : String} {n : Node V} (hn : getNode h x = some n) : n.id = x := by
  have := List.find?_some hn
  simpa using this

theorem get_setNbrs (h : Index V) (a : String) (L : Nat) (l : List String) (x : String) :
    getNode (setNbrs h a L l) x = (getNode h x).map (fun n => if n.id = a then { n with nbrs := n.nbrs.set L l } else n) := by
  unfold getNode setNbrs
  rw [List.find?_map]
  congr 2
  funext n
  simp only [Function.comp]
  split_ifs <;> rfl

theorem nbrsAt_setNbrs (h : Index V) (a : String) (L : Nat) (l : List String) (x : String) (K : Nat) :
    nbrsAt (setNbrs h a L l) x K = if x = a ∧ K = L then (nbrsAt h a L).map (fun _ => l) else nbrsAt h x K := by
  unfold nbrsAt
  rw [get_setNbrs]
  cases hn : getNode h x with
  | none =>
    by_cases hc : x = a ∧ K = L
    · rw [if_pos hc]
      rw [hc.1] at hn
      simp [hn]
    · rw [if_neg hc]
      rfl
  | some n =>
    have hid := get_id hn
    by_cases hc : x = a ∧ K = L
    · obtain ⟨rfl, rfl⟩ := hc
      simp only [hn, Option.map_some, hid, if_true, Option.bind_some, and_self]
      by_cases hl : K < n.nbrs.length
      · rw [List.getElem?_set_self hl, List.getElem?_eq_getElem hl]
        rfl
      · rw [List.getElem?_eq_none (by simpa using hl), List.getElem?_eq_none (by simpa using hl)]
        rfl
    · rw [if_neg hc]
      by_cases hxa : x = a
      · have hKL : K ≠ L := fun hh => hc ⟨hxa, hh⟩
        simp only [Option.map_some, hid, hxa, if_true, Option.bind_some]
        rw [List.getElem?_set_ne (Ne.symm hKL)]
      · simp only [Option.map_some, hid, hxa, if_false, Option.bind_some]

theorem skel_setNbrs (h : Index V) (a : String) (L : Nat) (l : List String) : Skel h (setNbrs h a L l) where
  hM := rfl
  hmaxM := rfl
  hef := rfl
  hentry := rfl
  hids := by
    unfold setNbrs
    rw [List.map_map]
    apply List.map_congr_left
    intro n _
    simp only [Function.comp]
    split_ifs <;> rfl
  hget := by
    intro x
    rw [get_setNbrs]
    cases getNode h x with
    | none => rfl
    | some n =>
      simp only [Option.map_some]
      split_ifs <;> simp

/-- Replacing a list keeps the links in order when the new list is. -/
theorem refs_setNbrs {h : Index V} (hr : Refs h) {a : String} {L : Nat} {l : List String} (hnd : l.Nodup)
    (hl : ∀ y ∈ l, y ≠ a ∧ Stored h y) : Refs (setNbrs h a L l) := by
  intro x K l' hl'
  rw [nbrsAt_setNbrs] at hl'
  have hst := (skel_setNbrs h a L l).stored
  by_cases hc : x = a ∧ K = L
  · rw [if_pos hc] at hl'
    obtain ⟨l0, -, rfl⟩ := Option.map_eq_some_iff.1 hl'
    exact ⟨hnd, fun y hy => ⟨by rw [hc.1]; exact (hl y hy).1, (hst y).2 (hl y hy).2⟩⟩
  · rw [if_neg hc] at hl'
    obtain ⟨h1, h2⟩ := hr x K l' hl'
    exact ⟨h1, fun y hy => ⟨(h2 y hy).1, (hst y).2 (h2 y hy).2⟩⟩

theorem pairs_spec (E : Env V) (h : Index V) (q : V) (cs : List String) (hst : ∀ c ∈ cs, Stored h c) :
    ∃ ps, pairs E h q cs = some ps ∧ ps.map Item.id = cs := by
  induction cs with
  | nil => exact ⟨[], rfl, rfl⟩
  | cons c cs ih =>
    obtain ⟨ps, h1, h2⟩ := ih (fun x hx => hst x (List.mem_cons_of_mem _ hx))
    obtain ⟨n, hn⟩ := Option.isSome_iff_exists.1 (hst c List.mem_cons_self)
    rw [pairs, h1, hn]
    by_cases hq : c = "query"
    · exact ⟨⟨c, 0⟩ :: ps, by simp [hq], by simp [h2]⟩
    · exact ⟨⟨c, E.dist q n.vec⟩ :: ps, by simp [hq], by simp [h2]⟩

/-- Choosing neighbours takes the first `m` of a rearrangement. -/
theorem selectNbrs_spec (E : Env V) (h : Index V) (q : V) (cs : List String) (m : Nat) (hst : ∀ c ∈ cs, Stored h c) :
    ∃ s : List String, s.Perm cs ∧ selectNbrs E h q cs m = some (s.take m) := by
  unfold selectNbrs
  by_cases hl : cs.length ≤ m
  · rw [if_pos hl]
    exact ⟨cs, List.Perm.refl _, by rw [List.take_of_length_le hl]⟩
  · rw [if_neg hl]
    obtain ⟨ps, h1, h2⟩ := pairs_spec E h q cs hst
    rw [h1]
    refine ⟨(exchangeSort Item.before ps).map Item.id, ?_, by simp [List.map_take]⟩
    rw [← h2]
    exact (exchangeSort_perm Item.before ps).map _

theorem addConn_skel (h : Index V) (a b : String) (L : Nat) : Skel h (addConn h a b L) := by
  unfold addConn
  cases nbrsAt h a L with
  | none => exact Skel.refl h
  | some l =>
    simp only
    split_ifs
    · exact Skel.refl h
    · exact skel_setNbrs h a L _

theorem addConn_nbrs (h : Index V) (a b : String) (L : Nat) (x : String) (K : Nat) (hc : ¬ (x = a ∧ K = L)) :
    nbrsAt (addConn h a b L) x K = nbrsAt h x K := by
  unfold addConn
  cases nbrsAt h a L with
  | none => rfl
  | some l =>
    simp only
    split_ifs
    · rfl
    · rw [nbrsAt_setNbrs, if_neg hc]

theorem addConn_list (h : Index V) (a b : String) (L : Nat) (l : List String) (hl : nbrsAt h a L = some l) :
    ∃ l', nbrsAt (addConn h a b L) a L = some l' ∧ ∀ y, y ∈ l' ↔ y ∈ l ∨ y = b := by
  unfold addConn
  rw [hl]
  simp only
  split_ifs with hb
  · exact ⟨l, hl, fun y => ⟨Or.inl, fun hh => hh.elim id (fun hh => hh ▸ hb)⟩⟩
  · refine ⟨l ++ [b], ?_, fun y => by simp⟩
    rw [nbrsAt_setNbrs, if_pos ⟨rfl, rfl⟩, hl]
    rfl

theorem addConn_refs {h : Index V} (hr : Refs h) {a b : String} {L : Nat} (hab : b ≠ a) (hb : Stored h b) : Refs (addConn h a b L) := by
  unfold addConn
  cases hl : nbrsAt h a L with
  | none => exact hr
  | some l =>
    simp only
    split_ifs with hm
    · exact hr
    · obtain ⟨h1, h2⟩ := hr a L l hl
      refine refs_setNbrs hr ?_ ?_
      · rw [List.nodup_append]
        exact ⟨h1, List.nodup_singleton b, fun x hx y hy => by
          rw [List.mem_singleton] at hy
          rintro rfl
          exact hm (hy ▸ hx)⟩
      · intro y hy
        rcases List.mem_append.1 hy with hy | hy
        · exact h2 y hy
        · rw [List.mem_singleton] at hy
          exact hy ▸ ⟨hab, hb⟩

/-- In an index with at most `m + 1` nodes no list is longer than `m`. -/
theorem list_small {h : Index V} (hr : Refs h) {m : Nat} (hn : h.nodes.length ≤ m + 1) {x : String} {K : Nat} {l : List String}
    (hl : nbrsAt h x K = some l) : l.length ≤ m := by
  obtain ⟨h1, h2⟩ := hr x K l hl
  have hx : x ∈ h.nodes.map Node.id := by
    rw [← stored_mem]
    unfold nbrsAt at hl
    cases hg : getNode h x with
    | none => rw [hg] at hl; simp at hl
    | some n => exact stored_of_get hg
  have hnd : (x :: l).Nodup := List.nodup_cons.2 ⟨fun hm => (h2 x hm).1 rfl, h1⟩
  have hsub : x :: l ⊆ h.nodes.map Node.id := by
    intro y hy
    rcases List.mem_cons.1 hy with rfl | hy
    · exact hx
    · exact (stored_mem h y).1 (h2 y hy).2
  have := (List.subperm_of_subset hnd hsub).length_le
  simp only [List.length_cons, List.length_map] at this
  omega

theorem linkOne_spec (E : Env V) (pruning : Bool) (id : String) (L : Nat) (nb : String) (h : Index V) (hr : Refs h)
    (hid : Stored h id) (hnb : Stored h nb) (hne : id ≠ nb) :
    ∃ h', linkOne E pruning id L nb h = some h' ∧ Skel h h' ∧ Refs h' ∧
      (∀ x K, ¬ (x = nb ∧ K = L) → nbrsAt h' x K = nbrsAt h x K) ∧
      (∀ l, nbrsAt h nb L = some l → ∃ l', nbrsAt h' nb L = some l' ∧ (∀ y ∈ l', y ∈ l ∨ y = id) ∧
        (pruning = true → l'.length ≤ maxConn h L) ∧
        ((pruning = false ∨ h.nodes.length ≤ maxConn h L + 1) → ∀ y, y ∈ l' ↔ y ∈ l ∨ y = id)) := by
  unfold linkOne
  have hs := addConn_skel h nb id L
  have hr1 : Refs (addConn h nb id L) := addConn_refs hr hne hid
  have hfr := addConn_nbrs h nb id L
  have hli := addConn_list h nb id L
  generalize addConn h nb id L = h1 at *
  cases pruning with
  | false =>
    refine ⟨h1, rfl, hs, hr1, hfr, ?_⟩
    intro l hl
    obtain ⟨l', a1, a2⟩ := hli l hl
    exact ⟨l', a1, fun y hy => (a2 y).1 hy, by simp, fun _ => a2⟩
  | true =>
    simp only [if_true]
    unfold prune
    obtain ⟨n, hn⟩ := Option.isSome_iff_exists.1 ((hs.stored nb).2 hnb)
    rw [hn]
    simp only
    have hat : nbrsAt h1 nb L = n.nbrs[L]? := by unfold nbrsAt; rw [hn]; rfl
    cases hl1 : n.nbrs[L]? with
    | none =>
      refine ⟨h1, rfl, hs, hr1, hfr, ?_⟩
      intro l hl
      obtain ⟨l', a1, -⟩ := hli l hl
      rw [hat, hl1] at a1
      simp at a1
    | some l1 =>
      simp only
      rw [hl1] at hat
      by_cases hlen : l1.length > maxConn h1 L
      · rw [if_pos hlen]
        obtain ⟨b1, b2⟩ := hr1 nb L l1 hat
        obtain ⟨s, c1, c2⟩ := selectNbrs_spec E h1 n.vec l1 (maxConn h1 L) (fun c hc => (b2 c hc).2)
        rw [c2]
        have hsub : ∀ y ∈ s.take (maxConn h1 L), y ∈ l1 := fun y hy => c1.mem_iff.1 (List.mem_of_mem_take hy)
        refine ⟨setNbrs h1 nb L (s.take (maxConn h1 L)), rfl, hs.trans (skel_setNbrs _ _ _ _), ?_, ?_, ?_⟩
        · exact refs_setNbrs hr1 ((List.take_sublist _ _).nodup (c1.nodup_iff.2 b1)) (fun y hy => b2 y (hsub y hy))
        · intro x K hxK
          rw [nbrsAt_setNbrs, if_neg hxK, hfr x K hxK]
        · intro l hl
          obtain ⟨l', a1, a2⟩ := hli l hl
          obtain rfl : l' = l1 := by rw [hat] at a1; exact (Option.some.inj a1).symm
          refine ⟨s.take (maxConn h1 L), by rw [nbrsAt_setNbrs, if_pos ⟨rfl, rfl⟩, hat]; rfl, ?_, ?_, ?_⟩
          · exact fun y hy => (a2 y).1 (hsub y hy)
          · intro _
            rw [List.length_take, hs.conn]
            exact Nat.min_le_left _ _
          · intro hsm
            exfalso
            rcases hsm with hsm | hsm
            · cases hsm
            · have := list_small hr1 (m := maxConn h L) (by rw [hs.length]; exact hsm) hat
              rw [hs.conn] at hlen
              omega
      · rw [if_neg hlen]
        refine ⟨h1, rfl, hs, hr1, hfr, ?_⟩
        intro l hl
        obtain ⟨l', a1, a2⟩ := hli l hl
        obtain rfl : l' = l1 := by rw [hat] at a1; exact (Option.some.inj a1).symm
        refine ⟨l', a1, fun y hy => (a2 y).1 hy, fun _ => ?_, fun _ => a2⟩
        rw [hs.conn] at hlen
        omega

theorem connect_spec (E : Env V) (pruning : Bool) (id : String) (L : Nat) (nbs : List String) :
    ∀ h : Index V, Refs h → Stored h id → (∀ n ∈ nbs, Stored h n ∧ n ≠ id) →
    ∃ h', connect E pruning id L nbs h = some h' ∧ Skel h h' ∧ Refs h' ∧
      (∀ x K, ¬ (x ∈ nbs ∧ K = L) → nbrsAt h' x K = nbrsAt h x K) ∧
      (∀ x l', nbrsAt h' x L = some l' → ∃ l, nbrsAt h x L = some l ∧ (∀ y ∈ l', y ∈ l ∨ (y = id ∧ x ∈ nbs)) ∧
        (pruning = true → l.length ≤ maxConn h L → l'.length ≤ maxConn h L) ∧
        ((pruning = false ∨ h.nodes.length ≤ maxConn h L + 1) → ∀ y, y ∈ l' ↔ y ∈ l ∨ (y = id ∧ x ∈ nbs))) := by
  induction nbs with
  | nil =>
    intro h hr _ _
    refine ⟨h, rfl, Skel.refl h, hr, fun _ _ _ => rfl, ?_⟩
    intro x l' hl'
    exact ⟨l', hl', fun y hy => Or.inl hy, fun _ h => h, fun _ y => by simp⟩
  | cons nb nbs ih =>
    intro h hr hid hnbs
    obtain ⟨hnb, hne⟩ := hnbs nb List.mem_cons_self
    obtain ⟨h1, a1, a2, a3, a4, a5⟩ := linkOne_spec E pruning id L nb h hr hid hnb (Ne.symm hne)
    rw [connect, a1]
    simp only
    obtain ⟨h2, b1, b2, b3, b4, b5⟩ := ih h1 a3 ((a2.stored id).2 hid) (fun n hn =>
      ⟨(a2.stored n).2 (hnbs n (List.mem_cons_of_mem _ hn)).1, (hnbs n (List.mem_cons_of_mem _ hn)).2⟩)
    refine ⟨h2, b1, a2.trans b2, b3, ?_, ?_⟩
    · intro x K hxK
      rw [b4 x K (fun hh => hxK ⟨List.mem_cons_of_mem _ hh.1, hh.2⟩), a4 x K (fun hh => hxK ⟨hh.1 ▸ List.mem_cons_self, hh.2⟩)]
    · intro x l2 hl2
      obtain ⟨l1, c1, c2, c3, c4⟩ := b5 x l2 hl2
      rw [a2.conn] at c3 c4
      rw [a2.length] at c4
      by_cases hx : x = nb
      · have hsome : HasLayer h x L := (a2.hasLayer x L).1 (by unfold HasLayer; rw [c1]; rfl)
        obtain ⟨l, hl⟩ := Option.isSome_iff_exists.1 hsome
        obtain ⟨l1', d1, d2, d3, d4⟩ := a5 l (hx ▸ hl)
        obtain rfl : l1' = l1 := by rw [← hx, c1] at d1; exact (Option.some.inj d1).symm
        refine ⟨l, hl, ?_, fun hp _ => c3 hp (d3 hp), ?_⟩
        · intro y hy
          rcases c2 y hy with h1 | h1
          · rcases d2 y h1 with h3 | h3
            · exact Or.inl h3
            · exact Or.inr ⟨h3, hx ▸ List.mem_cons_self⟩
          · exact Or.inr ⟨h1.1, List.mem_cons_of_mem _ h1.2⟩
        · intro hsm y
          rw [c4 hsm y, d4 hsm y]
          simp only [List.mem_cons, hx, true_or, and_true]
          tauto
      · have heq : nbrsAt h1 x L = nbrsAt h x L := a4 x L (fun hh => hx hh.1)
        rw [heq] at c1
        refine ⟨l1, c1, ?_, c3, ?_⟩
        · intro y hy
          rcases c2 y hy with h1 | h1
          · exact Or.inl h1
          · exact Or.inr ⟨h1.1, List.mem_cons_of_mem _ h1.2⟩
        · intro hsm y
          rw [c4 hsm y]
          simp only [List.mem_cons, hx, false_or]

theorem link_stored {h : Index V} (hr : Refs h) {K : Nat} {a b : String} (hl : Link h K a b) : Stored h b := by
  obtain ⟨l, h1, h2⟩ := hl
  exact ((hr a K l h1).2 b h2).2

theorem stored_left {h : Index V} {x : String} {K : Nat} (hl : HasLayer h x K) : Stored h x := by
  rw [hasLayer_iff] at hl
  obtain ⟨n, hn, -⟩ := hl
  exact stored_of_get hn

theorem hasLayer_of_list {h : Index V} {x : String} {K : Nat} {l : List String} (hl : nbrsAt h x K = some l) : HasLayer h x K := by
  unfold HasLayer; rw [hl]; rfl

theorem hasLayer_mono {h : Index V} {x : String} {K L : Nat} (hl : HasLayer h x L) (hKL : K ≤ L) : HasLayer h x K := by
  rw [hasLayer_iff] at *
  obtain ⟨n, hn, hlt⟩ := hl
  exact ⟨n, hn, by omega⟩

/-- Linking a new node on the layers from `L` down. -/
theorem linkLayers_spec (E : Env V) (pruning : Bool) (v : V) (id : String) (L : Nat) :
    ∀ (cur : List String) (h : Index V), Refs h → (∀ K, K ≤ L → nbrsAt h id K = some []) →
    (∀ x K l, K ≤ L → nbrsAt h x K = some l → id ∉ l) → cur.Nodup → (∀ c ∈ cur, Stored h c ∧ c ≠ id) →
    ∃ h', linkLayers E pruning v id L cur h = some h' ∧ Skel h h' ∧ Refs h' ∧
      (pruning = true → Bounded h → Bounded h') ∧
      ((∀ c ∈ cur, HasLayer h c L) → Layered h → Layered h') ∧
      (cur ≠ [] → 0 < h.M → 0 < h.maxM → (pruning = false ∨ h.nodes.length ≤ h.maxM + 1) →
        ∃ nbs, nbs ≠ [] ∧ (∀ n ∈ nbs, Stored h n ∧ n ≠ id) ∧
          ∀ x y, Link h' 0 x y ↔ Link h 0 x y ∨ (x = id ∧ y ∈ nbs) ∨ (y = id ∧ x ∈ nbs ∧ HasLayer h x 0)) ∧
      (∀ x K, L < K → nbrsAt h' x K = nbrsAt h x K) ∧
      (0 < maxConn h L → cur ≠ [] → (∀ c ∈ cur, ¬ HasLayer h c L) → ∃ l c, nbrsAt h' id L = some l ∧ c ∈ l ∧ c ∈ cur) := by
  induction L with
  | zero =>
    intro cur h hr hown hfr hnd hcur
    unfold linkLayers
    have hids : Stored h id := stored_left (hasLayer_of_list (hown 0 (le_refl _)))
    obtain ⟨r, s1, s2, s3, s4, s5, s6, s7, s8⟩ := searchLayer_spec E h v cur h.efC 0 (fun a b hab => link_stored hr hab) hnd
      (fun e he => (hcur e he).1)
    rw [s1]
    simp only
    have hrid : ∀ x ∈ r, x ≠ id := by
      intro x hx
      obtain ⟨-, e, he, hre⟩ := s3 x hx
      refine reach_closed (fun y => y ≠ id) (hcur e he).2 ?_ hre
      rintro a b - ⟨l, h1, h2⟩ rfl
      exact hfr a 0 l (le_refl _) h1 h2
    obtain ⟨s, t1, t2⟩ := selectNbrs_spec E h v r (maxConn h 0) (fun c hc => (s3 c hc).1)
    rw [t2]
    simp only
    have hsub : ∀ y ∈ s.take (maxConn h 0), y ∈ r := fun y hy => t1.mem_iff.1 (List.mem_of_mem_take hy)
    have hnbnd : (s.take (maxConn h 0)).Nodup := (List.take_sublist _ _).nodup (t1.nodup_iff.2 s2)
    have hnbl : (s.take (maxConn h 0)).length = min (maxConn h 0) r.length := by rw [List.length_take, t1.length_eq]
    generalize s.take (maxConn h 0) = nbs at *
    have sk1 := skel_setNbrs h id 0 nbs
    have hr1 : Refs (setNbrs h id 0 nbs) := refs_setNbrs hr hnbnd (fun y hy => ⟨hrid y (hsub y hy), (s3 y (hsub y hy)).1⟩)
    have hat1 : nbrsAt (setNbrs h id 0 nbs) id 0 = some nbs := by
      rw [nbrsAt_setNbrs, if_pos ⟨rfl, rfl⟩, hown 0 (le_refl _)]; rfl
    have hat2 : ∀ x K, ¬ (x = id ∧ K = 0) → nbrsAt (setNbrs h id 0 nbs) x K = nbrsAt h x K := by
      intro x K hc; rw [nbrsAt_setNbrs, if_neg hc]
    generalize setNbrs h id 0 nbs = h1 at *
    obtain ⟨h2, c1, c2, c3, c4, c5⟩ := connect_spec E pruning id 0 nbs h1 hr1 ((sk1.stored id).2 hids) (fun n hn =>
      ⟨(sk1.stored n).2 (s3 n (hsub n hn)).1, hrid n (hsub n hn)⟩)
    rw [c1]
    have hidn : id ∉ nbs := fun hh => hrid id (hsub id hh) rfl
    have hid2 : nbrsAt h2 id 0 = some nbs := by rw [c4 id 0 (fun hh => hidn hh.1), hat1]
    refine ⟨h2, rfl, sk1.trans c2, c3, ?_, ?_, ?_, ?_, ?_⟩
    · intro hp hbd x K l hl
      rw [(sk1.trans c2).conn]
      by_cases hK : K = 0
      · subst hK
        obtain ⟨l1, d1, d2, d3, -⟩ := c5 x l hl
        rw [sk1.conn] at d3
        refine d3 hp ?_
        by_cases hx : x = id
        · rw [hx, hat1] at d1
          rw [← Option.some.inj d1, hnbl]
          exact Nat.min_le_left _ _
        · exact hbd x 0 l1 (by rw [← hat2 x 0 (fun hh => hx hh.1)]; exact d1)
      · exact hbd x K l (by rw [← hat2 x K (fun hh => hK hh.2), ← c4 x K (fun hh => hK hh.2)]; exact hl)
    · intro hcl hly x K y hxy
      rw [(sk1.trans c2).hasLayer]
      obtain ⟨l, hl, hy⟩ := hxy
      by_cases hK : K = 0
      · subst hK
        obtain ⟨l1, d1, d2, -, -⟩ := c5 x l hl
        rcases d2 y hy with h5 | h5
        · by_cases hx : x = id
          · rw [hx, hat1] at d1
            obtain rfl := Option.some.inj d1
            obtain ⟨-, e, he, hre⟩ := s3 y (hsub y h5)
            exact reach_closed (fun z => HasLayer h z 0) (hcl e he) (fun a b _ hab => hly a 0 b hab) hre
          · exact hly x 0 y ⟨l1, by rw [← hat2 x 0 (fun hh => hx hh.1)]; exact d1, h5⟩
        · rw [h5.1]
          exact hasLayer_of_list (hown 0 (le_refl _))
      · exact hly x K y ⟨l, by rw [← hat2 x K (fun hh => hK hh.2), ← c4 x K (fun hh => hK hh.2)]; exact hl, hy⟩
    · intro hne hM hMM hsm
      have hmc : maxConn h 0 = h.maxM := rfl
      refine ⟨nbs, ?_, fun n hn => ⟨(s3 n (hsub n hn)).1, hrid n (hsub n hn)⟩, ?_⟩
      · intro hh
        rw [hh, hmc] at hnbl
        have := s8 hne
        have h0 : 0 < r.length := List.length_pos_iff.2 this
        simp only [List.length_nil] at hnbl
        omega
      · have hsm1 : pruning = false ∨ h1.nodes.length ≤ maxConn h1 0 + 1 := by
          rw [sk1.length, sk1.conn]; exact hsm
        intro x y
        constructor
        · rintro ⟨l, hl, hy⟩
          obtain ⟨l1, d1, d2, -, -⟩ := c5 x l hl
          rcases d2 y hy with h5 | h5
          · by_cases hx : x = id
            · rw [hx, hat1] at d1
              obtain rfl := Option.some.inj d1
              exact Or.inr (Or.inl ⟨hx, h5⟩)
            · exact Or.inl ⟨l1, by rw [← hat2 x 0 (fun hh => hx hh.1)]; exact d1, h5⟩
          · refine Or.inr (Or.inr ⟨h5.1, h5.2, ?_⟩)
            rw [← (sk1.trans c2).hasLayer]
            exact hasLayer_of_list hl
        · rintro (⟨l, hl, hy⟩ | ⟨rfl, hy⟩ | ⟨rfl, hx, hxl⟩)
          · have hxid : x ≠ id := by
              rintro rfl
              rw [hown 0 (le_refl _)] at hl
              rw [← Option.some.inj hl] at hy
              simp at hy
            have hl2 : HasLayer h2 x 0 := ((sk1.trans c2).hasLayer x 0).2 (hasLayer_of_list hl)
            obtain ⟨l2, hl2⟩ := Option.isSome_iff_exists.1 hl2
            obtain ⟨l1, d1, -, -, d4⟩ := c5 x l2 hl2
            rw [hat2 x 0 (fun hh => hxid hh.1), hl] at d1
            obtain rfl := Option.some.inj d1
            exact ⟨l2, hl2, (d4 hsm1 y).2 (Or.inl hy)⟩
          · exact ⟨nbs, hid2, hy⟩
          · have hl2 : HasLayer h2 x 0 := ((sk1.trans c2).hasLayer x 0).2 hxl
            obtain ⟨l2, hl2⟩ := Option.isSome_iff_exists.1 hl2
            obtain ⟨l1, d1, -, -, d4⟩ := c5 x l2 hl2
            exact ⟨l2, hl2, (d4 hsm1 y).2 (Or.inr ⟨rfl, hx⟩)⟩
    · intro x K hK
      rw [c4 x K (fun hh => by omega), hat2 x K (fun hh => by omega)]
    · intro hM hne hno
      obtain ⟨c, hc⟩ := List.exists_mem_of_ne_nil _ (s8 hne)
      have hcur' : ∀ y ∈ r, y ∈ cur := by
        intro y hy
        obtain ⟨-, e, he, hre⟩ := s3 y hy
        refine reach_closed (fun z => z ∈ cur) he ?_ hre
        rintro a b ha ⟨l, hl, -⟩
        exact absurd (hasLayer_of_list hl) (hno a ha)
      have hlen : 0 < nbs.length := by
        have h0 : 0 < r.length := List.length_pos_of_mem hc
        rw [hnbl]; omega
      obtain ⟨c', hc'⟩ := List.exists_mem_of_length_pos hlen
      exact ⟨nbs, c', hid2, hc', hcur' c' (hsub c' hc')⟩
  | succ L ih =>
    intro cur h hr hown hfr hnd hcur
    unfold linkLayers
    have hids : Stored h id := stored_left (hasLayer_of_list (hown 0 (Nat.zero_le _)))
    obtain ⟨r, s1, s2, s3, s4, s5, s6, s7, s8⟩ := searchLayer_spec E h v cur h.efC (L + 1) (fun a b hab => link_stored hr hab) hnd
      (fun e he => (hcur e he).1)
    rw [s1]
    simp only
    have hrid : ∀ x ∈ r, x ≠ id := by
      intro x hx
      obtain ⟨-, e, he, hre⟩ := s3 x hx
      refine reach_closed (fun y => y ≠ id) (hcur e he).2 ?_ hre
      rintro a b - ⟨l, h1, h2⟩ rfl
      exact hfr a (L + 1) l (le_refl _) h1 h2
    obtain ⟨s, t1, t2⟩ := selectNbrs_spec E h v r (maxConn h (L + 1)) (fun c hc => (s3 c hc).1)
    rw [t2]
    simp only
    have hsub : ∀ y ∈ s.take (maxConn h (L + 1)), y ∈ r := fun y hy => t1.mem_iff.1 (List.mem_of_mem_take hy)
    have hnbnd : (s.take (maxConn h (L + 1))).Nodup := (List.take_sublist _ _).nodup (t1.nodup_iff.2 s2)
    have hnbl : (s.take (maxConn h (L + 1))).length = min (maxConn h (L + 1)) r.length := by rw [List.length_take, t1.length_eq]
    generalize s.take (maxConn h (L + 1)) = nbs at *
    have sk1 := skel_setNbrs h id (L + 1) nbs
    have hr1 : Refs (setNbrs h id (L + 1) nbs) := refs_setNbrs hr hnbnd (fun y hy => ⟨hrid y (hsub y hy), (s3 y (hsub y hy)).1⟩)
    have hat1 : nbrsAt (setNbrs h id (L + 1) nbs) id (L + 1) = some nbs := by
      rw [nbrsAt_setNbrs, if_pos ⟨rfl, rfl⟩, hown (L + 1) (le_refl _)]; rfl
    have hat2 : ∀ x K, ¬ (x = id ∧ K = L + 1) → nbrsAt (setNbrs h id (L + 1) nbs) x K = nbrsAt h x K := by
      intro x K hc; rw [nbrsAt_setNbrs, if_neg hc]
    generalize setNbrs h id (L + 1) nbs = h1 at *
    obtain ⟨h2, c1, c2, c3, c4, c5⟩ := connect_spec E pruning id (L + 1) nbs h1 hr1 ((sk1.stored id).2 hids) (fun n hn =>
      ⟨(sk1.stored n).2 (s3 n (hsub n hn)).1, hrid n (hsub n hn)⟩)
    rw [c1]
    simp only
    have sk2 := sk1.trans c2
    have hlow : ∀ x K, K ≤ L → nbrsAt h2 x K = nbrsAt h x K := by
      intro x K hK
      rw [c4 x K (fun hh => by omega), hat2 x K (fun hh => by omega)]
    have hidn : id ∉ nbs := fun hh => hrid id (hsub id hh) rfl
    have hid2 : nbrsAt h2 id (L + 1) = some nbs := by rw [c4 id (L + 1) (fun hh => hidn hh.1), hat1]
    obtain ⟨h3, e1, e2, e3, e4, e5, e6, e7, e8⟩ := ih nbs h2 c3 (fun K hK => by rw [hlow id K hK]; exact hown K (by omega))
      (fun x K l hK hl => hfr x K l (by omega) (by rw [← hlow x K hK]; exact hl)) hnbnd
      (fun c hc => ⟨(sk2.stored c).2 (s3 c (hsub c hc)).1, hrid c (hsub c hc)⟩)
    refine ⟨h3, e1, sk2.trans e2, e3, ?_, ?_, ?_, ?_, ?_⟩
    · intro hp hbd
      refine e4 hp ?_
      intro x K l hl
      rw [sk2.conn]
      by_cases hK : K = L + 1
      · subst hK
        obtain ⟨l1, d1, d2, d3, -⟩ := c5 x l hl
        rw [sk1.conn] at d3
        refine d3 hp ?_
        by_cases hx : x = id
        · rw [hx, hat1] at d1
          rw [← Option.some.inj d1, hnbl]
          exact Nat.min_le_left _ _
        · exact hbd x (L + 1) l1 (by rw [← hat2 x (L + 1) (fun hh => hx hh.1)]; exact d1)
      · exact hbd x K l (by rw [← hat2 x K (fun hh => hK hh.2), ← c4 x K (fun hh => hK hh.2)]; exact hl)
    · intro hcl hly
      have hnbh : ∀ y ∈ nbs, HasLayer h y (L + 1) := by
        intro y hy
        obtain ⟨-, e, he, hre⟩ := s3 y (hsub y hy)
        exact reach_closed (fun z => HasLayer h z (L + 1)) (hcl e he) (fun a b _ hab => hly a (L + 1) b hab) hre
      refine e5 (fun c hc => (sk2.hasLayer c L).2 (hasLayer_mono (hnbh c hc) (by omega))) ?_
      intro x K y hxy
      rw [sk2.hasLayer]
      obtain ⟨l, hl, hy⟩ := hxy
      by_cases hK : K = L + 1
      · subst hK
        obtain ⟨l1, d1, d2, -, -⟩ := c5 x l hl
        rcases d2 y hy with h5 | h5
        · by_cases hx : x = id
          · rw [hx, hat1] at d1
            obtain rfl := Option.some.inj d1
            exact hnbh y h5
          · exact hly x (L + 1) y ⟨l1, by rw [← hat2 x (L + 1) (fun hh => hx hh.1)]; exact d1, h5⟩
        · rw [h5.1]
          exact hasLayer_of_list (hown (L + 1) (le_refl _))
      · exact hly x K y ⟨l, by rw [← hat2 x K (fun hh => hK hh.2), ← c4 x K (fun hh => hK hh.2)]; exact hl, hy⟩
    · intro hne hM hMM hsm
      have hnb : nbs ≠ [] := by
        intro hh
        have hmc : maxConn h (L + 1) = h.M := by simp [maxConn]
        rw [hh, hmc] at hnbl
        have := s8 hne
        have h0 : 0 < r.length := List.length_pos_iff.2 this
        simp only [List.length_nil] at hnbl
        omega
      obtain ⟨nbs', f1, f2, f3⟩ := e6 hnb (by rw [sk2.hM]; exact hM) (by rw [sk2.hmaxM]; exact hMM)
        (by rw [sk2.length, sk2.hmaxM]; exact hsm)
      refine ⟨nbs', f1, fun n hn => ⟨(sk2.stored n).1 (f2 n hn).1, (f2 n hn).2⟩, ?_⟩
      intro x y
      rw [f3 x y, sk2.hasLayer]
      have : Link h2 0 x y ↔ Link h 0 x y := by
        unfold Link
        rw [hlow x 0 (Nat.zero_le _)]
      rw [this]
    · intro x K hK
      rw [e7 x K (by omega), c4 x K (fun hh => by omega), hat2 x K (fun hh => by omega)]
    · intro hM hne hno
      obtain ⟨c, hc⟩ := List.exists_mem_of_ne_nil _ (s8 hne)
      have hcur' : ∀ y ∈ r, y ∈ cur := by
        intro y hy
        obtain ⟨-, e, he, hre⟩ := s3 y hy
        refine reach_closed (fun z => z ∈ cur) he ?_ hre
        rintro a b ha ⟨l, hl, -⟩
        exact absurd (hasLayer_of_list hl) (hno a ha)
      have hlen : 0 < nbs.length := by
        have h0 : 0 < r.length := List.length_pos_of_mem hc
        rw [hnbl]; omega
      obtain ⟨c', hc'⟩ := List.exists_mem_of_length_pos hlen
      exact ⟨nbs, c', by rw [e7 id (L + 1) (by omega), hid2], hc', hcur' c' (hsub c' hc')⟩

/-- The way down through the upper layers ends at one stored node. -/
theorem descend_spec (E : Env V) (h : Index V) (q : V) (hr : Refs h) (bottom : Nat) (n : Nat) :
    ∀ cur : List String, cur.length = 1 → (∀ c ∈ cur, Stored h c) →
    ∃ cur', descend E h q bottom n cur = some cur' ∧ cur'.length = 1 ∧ (∀ c ∈ cur', Stored h c) ∧
      (∀ P : String → Prop, (∀ c ∈ cur, P c) → (∀ K a b, P a → Link h K a b → P b) → ∀ c ∈ cur', P c) ∧
      (Layered h → 0 < n → (∀ c ∈ cur, HasLayer h c (bottom + n)) → ∀ c ∈ cur', HasLayer h c (bottom + 1)) := by
  induction n with
  | zero =>
    intro cur hl hst
    exact ⟨cur, rfl, hl, hst, fun P hP _ => hP, fun _ h0 => absurd h0 (lt_irrefl 0)⟩
  | succ n ih =>
    intro cur hl hst
    rw [descend]
    have hnd : cur.Nodup := by
      obtain ⟨c, rfl⟩ := List.length_eq_one_iff.1 hl
      exact List.nodup_singleton c
    obtain ⟨r, s1, s2, s3, s4, s5, s6, s7, s8⟩ := searchLayer_spec E h q cur 1 (bottom + n + 1) (fun a b hab => link_stored hr hab) hnd hst
    rw [s1]
    simp only
    have hne : r ≠ [] := s8 (by intro hh; rw [hh] at hl; simp at hl)
    have hsub : ∀ c ∈ r.take 1, c ∈ r := fun c hc => List.mem_of_mem_take hc
    obtain ⟨cur', e1, e2, e3, e4, e5⟩ := ih (r.take 1) (by
      rw [List.length_take]
      have := List.length_pos_iff.2 hne
      omega) (fun c hc => (s3 c (hsub c hc)).1)
    refine ⟨cur', e1, e2, e3, ?_, ?_⟩
    · intro P hP hcl
      refine e4 P ?_ hcl
      intro c hc
      obtain ⟨-, e, he, hre⟩ := s3 c (hsub c hc)
      exact reach_closed P (hP e he) (fun a b ha hab => hcl _ a b ha hab) hre
    · intro hly _ hcl
      have hstep : ∀ c ∈ r.take 1, HasLayer h c (bottom + n + 1) := by
        intro c hc
        obtain ⟨-, e, he, hre⟩ := s3 c (hsub c hc)
        exact reach_closed (fun z => HasLayer h z (bottom + n + 1)) (hcl e he) (fun a b _ hab => hly a _ b hab) hre
      by_cases hn : n = 0
      · subst hn
        have : cur' = r.take 1 := by simpa [descend] using e1.symm
        rw [this]
        exact hstep
      · exact e5 hly (by omega) (fun c hc => hasLayer_mono (hstep c hc) (by omega))

end Verif.Hnsw
