import Verif.Model.Documents
import Mathlib.Data.List.Nodup
import Mathlib.Data.List.Sort

/-!
# C229: document records

The specification speaks about calls and what they answer: which call was the last to write a document, what reading it gives, and
which documents a listing shows.
-/

namespace Verif.Documents

open Verif.Spec Verif.Base

/-- What a caller gets back for what was given: integers become floating-point numbers, everything else stays. -/
def AsRead (round : Int → ℚ) (d r : Doc) : Prop :=
  r.id = d.id ∧ r.title = d.title ∧ r.source = d.source ∧ r.content = d.content ∧ r.version = d.version ∧ r.author = d.author ∧
  r.acl = d.acl ∧ (r.info = none ↔ d.info = none) ∧
  ∀ m m', d.info = some m → r.info = some m' → m'.map Prod.fst = m.map Prod.fst ∧
    ∀ i (h : i < m.length) (h' : i < m'.length),
      (∀ z, m[i].2 = .int z → m'[i].2 = .float (round z)) ∧ ((∀ z, m[i].2 ≠ .int z) → m'[i].2 = m[i].2)

/-- The call writes or deletes the document. -/
def Touches (id : String) : Op → Prop
  | .create d => d.id = id
  | .update d => d.id = id
  | .delete i => i = id
  | _ => False

/-! ### Helpers -/

theorem asRead_shown (round : Int → ℚ) (r : Row) : AsRead round r.doc (shown round r).doc := by
  refine ⟨rfl, rfl, rfl, rfl, rfl, rfl, rfl, ?_, ?_⟩
  · simp [shown]
  · intro m m' hm hm'
    simp only [shown, hm, Option.map_some, Option.some.injEq] at hm'
    subst hm'
    refine ⟨by simp [Function.comp_def], ?_⟩
    intro i h h'
    simp only [List.getElem_map]
    refine ⟨fun z hz => by rw [hz]; rfl, fun hz => ?_⟩
    cases hv : m[i].2 <;> simp_all [decode]

/-- Ids are unique. -/
def Uniq (s : State) : Prop := (s.rows.map fun r => r.doc.id).Nodup

theorem ids_update (rows : List Row) (d : Doc) (t : Nat) :
    (rows.map fun r => if r.doc.id = d.id then (⟨d, r.created, t⟩ : Row) else r).map (fun r => r.doc.id) = rows.map fun r => r.doc.id := by
  rw [List.map_map]
  refine List.map_congr_left fun r _ => ?_
  simp only [Function.comp]
  split
  · rename_i h; exact h.symm
  · rfl

theorem step_uniq (s : State) (h : Uniq s) (o : Op) : Uniq (step s o) := by
  unfold Uniq at *
  cases o with
  | create d =>
    simp only [step, create]
    split_ifs with h1 h2 h3
    · exact h
    · exact h
    · exact h
    · simp only [List.map_append, List.map_cons, List.map_nil]
      rw [List.nodup_append]
      refine ⟨h, by simp, ?_⟩
      intro a ha b hb
      simp only [List.mem_singleton] at hb
      subst hb
      rintro rfl
      obtain ⟨r, hr, hid⟩ := List.mem_map.1 ha
      exact h3 (List.any_eq_true.2 ⟨r, hr, by simpa using hid⟩)
  | update d =>
    simp only [step, update]
    split_ifs
    · exact h
    · exact h
    · simp only [ids_update]; exact h
    · exact h
  | delete id =>
    simp only [step, delete]
    split_ifs
    · exact h
    · exact (List.filter_sublist.map _).nodup h
  | tick n => exact h
  | close => exact h

theorem run_uniq (ops : List Op) : Uniq (run ops) := by
  unfold run
  have : ∀ s, Uniq s → Uniq (ops.foldl step s) := by
    induction ops with
    | nil => intro s h; exact h
    | cons o ops ih => intro s h; exact ih _ (step_uniq s h o)
  exact this {} (by simp [Uniq])

theorem find_quiet (s : State) (o : Op) (id : String) (h : ¬ Touches id o) :
    (step s o).rows.find? (fun r => decide (r.doc.id = id)) = s.rows.find? (fun r => decide (r.doc.id = id)) := by
  cases o with
  | create d =>
    simp only [step, create]
    split_ifs
    · rfl
    · rfl
    · rfl
    · rw [List.find?_append]
      have : ¬ d.id = id := h
      simp [this]
  | update d =>
    simp only [step, update]
    split_ifs
    · rfl
    · rfl
    · have hd : ¬ d.id = id := h
      generalize s.rows = rows
      induction rows with
      | nil => rfl
      | cons r rs ih =>
        rw [List.map_cons, List.find?_cons, List.find?_cons, ih]
        by_cases hr : r.doc.id = d.id
        · have hr' : ¬ r.doc.id = id := by rw [hr]; exact hd
          simp [hr, hd]
        · simp [hr]
    · rfl
  | delete i =>
    simp only [step, delete]
    split_ifs
    · rfl
    · have hi : ¬ i = id := h
      rw [List.find?_filter]
      congr 1
      funext r
      by_cases hr : r.doc.id = id
      · have : r.doc.id ≠ i := by rw [hr]; exact fun e => hi e.symm
        simp [hr, this]
        rw [hr] at this
        exact fun e => this e
      · simp [hr]
  | tick n => rfl
  | close => rfl

theorem find_quiets (ops : List Op) (id : String) (h : ∀ o ∈ ops, ¬ Touches id o) : ∀ s : State,
    (ops.foldl step s).rows.find? (fun r => decide (r.doc.id = id)) = s.rows.find? (fun r => decide (r.doc.id = id)) := by
  induction ops with
  | nil => intro s; rfl
  | cons o ops ih =>
    intro s
    rw [List.foldl_cons, ih (fun x hx => h x (List.mem_cons_of_mem _ hx)), find_quiet s o id (h o List.mem_cons_self)]

theorem closed_quiets (ops : List Op) (h : Op.close ∉ ops) : ∀ s : State, (ops.foldl step s).closed = s.closed := by
  induction ops with
  | nil => intro s; rfl
  | cons o ops ih =>
    intro s
    rw [List.foldl_cons, ih (fun hx => h (List.mem_cons_of_mem _ hx))]
    cases o with
    | create d => simp only [step, create]; split_ifs <;> rfl
    | update d => simp only [step, update]; split_ifs <;> rfl
    | delete i => simp only [step, delete]; split_ifs <;> rfl
    | tick n => rfl
    | close => exact absurd List.mem_cons_self h

theorem any_find (s : State) (id : String) :
    s.rows.any (fun r => decide (r.doc.id = id)) = true ↔ ∃ r, s.rows.find? (fun r => decide (r.doc.id = id)) = some r := by
  rw [← Option.isSome_iff_exists, List.find?_isSome, List.any_eq_true]

theorem get_open (round : Int → ℚ) (s : State) (hc : s.closed = false) (id : String) :
    (∃ r, get round s id = .ok r) ↔ s.rows.any (fun r => decide (r.doc.id = id)) = true := by
  rw [any_find]
  unfold get
  rw [if_neg (by simp [hc])]
  cases s.rows.find? (fun r => decide (r.doc.id = id)) <;> simp

theorem find_updated (rows : List Row) (d : Doc) (t : Nat) (r0 : Row)
    (h : rows.find? (fun r => decide (r.doc.id = d.id)) = some r0) :
    (rows.map fun r => if r.doc.id = d.id then (⟨d, r.created, t⟩ : Row) else r).find? (fun r => decide (r.doc.id = d.id)) =
      some ⟨d, r0.created, t⟩ := by
  induction rows with
  | nil => simp at h
  | cons r rs ih =>
    rw [List.map_cons, List.find?_cons]
    by_cases hr : r.doc.id = d.id
    · rw [List.find?_cons, decide_eq_true hr] at h
      simp only [Option.some.injEq] at h
      subst h
      simp [hr]
    · rw [List.find?_cons, decide_eq_false hr] at h
      simp only [hr, if_false, decide_false]
      exact ih h

/-! ### C229 -/

/-- A document reads back as the last accepted write gave it, however many other calls come after and however much time passes, with
the time of the creation and of the last write. -/
theorem C229_read (round : Int → ℚ) (ops1 ops2 : List Op) (d : Doc) (hq : ∀ o ∈ ops2, ¬ Touches d.id o) (hc : Op.close ∉ ops2) :
    ((create (run ops1) d).2 = none → ∃ r, get round (run (ops1 ++ [.create d] ++ ops2)) d.id = .ok r ∧ AsRead round d r.doc ∧
      r.created = (run ops1).now ∧ r.updated = (run ops1).now) ∧
    ((update (run ops1) d).2 = none → ∃ r r0, get round (run (ops1 ++ [.update d] ++ ops2)) d.id = .ok r ∧ AsRead round d r.doc ∧
      get round (run ops1) d.id = .ok r0 ∧ r.created = r0.created ∧ r.updated = (run ops1).now) := by
  have hrun : ∀ o, run (ops1 ++ [o] ++ ops2) = ops2.foldl step (step (run ops1) o) := by
    intro o; simp [run, List.foldl_append]
  constructor
  · intro hok
    rw [hrun]
    unfold get
    rw [closed_quiets ops2 hc, find_quiets ops2 d.id hq]
    simp only [step, create] at hok ⊢
    split_ifs at hok ⊢ with h1 h2 h3
    have hnone : (run ops1).rows.find? (fun r => decide (r.doc.id = d.id)) = none := by
      by_contra hne
      obtain ⟨r, hr⟩ := Option.ne_none_iff_exists'.1 hne
      exact h3 ((any_find _ _).2 ⟨r, hr⟩)
    simp only [List.find?_append, hnone, Option.none_or]
    refine ⟨shown round ⟨d, (run ops1).now, (run ops1).now⟩, ?_, asRead_shown round _, rfl, rfl⟩
    simp [h1]
  · intro hok
    rw [hrun]
    unfold get
    rw [closed_quiets ops2 hc, find_quiets ops2 d.id hq]
    simp only [step, update] at hok ⊢
    split_ifs at hok ⊢ with h1 h2 h3
    obtain ⟨r0, hr0⟩ := (any_find _ _).1 h3
    simp only [find_updated _ d _ r0 hr0, hr0]
    refine ⟨shown round ⟨d, r0.created, (run ops1).now⟩, shown round r0, ?_, asRead_shown round _, ?_, rfl, rfl⟩
    · simp [h1]
    · simp [h1]

/-- Which calls are accepted: a creation exactly when there is no such document, an update exactly when there is one, both only for
metadata that have a JSON form; a deletion always.  Refused calls change nothing, and a deleted document is not found until it is
created again. -/
theorem C229_accepted (round : Int → ℚ) (ops : List Op) (ho : (run ops).closed = false) (d : Doc) (id : String) :
    ((create (run ops) d).2 = none ↔ (∀ m, d.info = some m → ∀ kv ∈ m, kv.2 ≠ .bad) ∧ get round (run ops) d.id = .error .notFound) ∧
    ((update (run ops) d).2 = none ↔ (∀ m, d.info = some m → ∀ kv ∈ m, kv.2 ≠ .bad) ∧ ∃ r, get round (run ops) d.id = .ok r) ∧
    (delete (run ops) id).2 = none ∧
    ((create (run ops) d).2 ≠ none → (create (run ops) d).1 = run ops) ∧
    ((update (run ops) d).2 ≠ none → (update (run ops) d).1 = run ops) ∧
    (∀ ops2 : List Op, (∀ o ∈ ops2, ¬ Touches id o) → Op.close ∉ ops2 →
      get round (run (ops ++ [.delete id] ++ ops2)) id = .error .notFound) := by
  have hm : marshals d = true ↔ ∀ m, d.info = some m → ∀ kv ∈ m, kv.2 ≠ .bad := by
    unfold marshals
    cases d.info with
    | none => simp
    | some m => simp
  have hnf : get round (run ops) d.id = .error .notFound ↔ ¬ (run ops).rows.any (fun r => decide (r.doc.id = d.id)) = true := by
    rw [← get_open round _ ho]
    unfold get
    rw [if_neg (by simp [ho])]
    cases (run ops).rows.find? (fun r => decide (r.doc.id = d.id)) <;> simp
  refine ⟨?_, ?_, ?_, ?_, ?_, ?_⟩
  · rw [hnf, ← hm]
    clear hm hnf
    simp only [create, ho, Bool.false_eq_true, if_false]
    split_ifs with h2 h3 <;> simp_all
  · rw [get_open round _ ho, ← hm]
    clear hm hnf
    simp only [update, ho, Bool.false_eq_true, if_false]
    split_ifs with h2 h3 <;> simp_all
  · simp [delete, ho]
  · simp only [create]
    split_ifs <;> simp
  · simp only [update]
    split_ifs <;> simp
  · intro ops2 hq hc
    have hrun : run (ops ++ [.delete id] ++ ops2) = ops2.foldl step (step (run ops) (.delete id)) := by
      simp [run, List.foldl_append]
    rw [hrun]
    unfold get
    rw [closed_quiets ops2 hc, find_quiets ops2 id hq]
    simp only [step, delete, ho, Bool.false_eq_true, if_false]
    have : ((run ops).rows.filter fun r => decide (r.doc.id ≠ id)).find? (fun r => decide (r.doc.id = id)) = none := by
      rw [List.find?_eq_none]
      intro r hr
      simpa using (List.mem_filter.1 hr).2
    rw [this]

/-- A listing shows the newest documents of the author, or of all authors when none is named: as many as asked for, each as reading
it alone shows it; a negative limit means all. -/
theorem C229_list (round : Int → ℚ) (sort : List Row → List Row)
    (hs : ∀ l, SortedFrom (fun a b : Row => b.created ≤ a.created) l (sort l)) (ops : List Op) (ho : (run ops).closed = false)
    (author : String) (limit : Int) :
    ∃ pool out, list round sort (run ops) author limit = .ok out ∧
      (∀ r, r ∈ pool ↔ get round (run ops) r.doc.id = .ok r ∧ (author = "" ∨ r.doc.author = author)) ∧
      (pool.map fun r => r.doc.id).Nodup ∧
      IsTopK (fun r : Row => r.created) pool (if limit < 0 then pool.length else limit.toNat) out := by
  refine ⟨((run ops).rows.filter fun r => decide (author = "" ∨ r.doc.author = author)).map (shown round),
    (if limit < 0 then sort ((run ops).rows.filter fun r => decide (author = "" ∨ r.doc.author = author))
      else (sort ((run ops).rows.filter fun r => decide (author = "" ∨ r.doc.author = author))).take limit.toNat).map (shown round), ?_, ?_, ?_, ?_⟩
  · unfold list
    rw [if_neg (by simp [ho])]
  · intro r
    have hu := run_uniq ops
    rw [List.mem_map]
    unfold get
    rw [if_neg (by simp [ho])]
    constructor
    · rintro ⟨x, hx, rfl⟩
      obtain ⟨hx, ha⟩ := List.mem_filter.1 hx
      have hid : (shown round x).doc.id = x.doc.id := rfl
      have hfind : (run ops).rows.find? (fun r => decide (r.doc.id = x.doc.id)) = some x := by
        unfold Uniq at hu
        revert hx hu
        generalize (run ops).rows = l
        induction l with
        | nil => simp
        | cons y ys ih =>
          intro hu hx
          rw [List.map_cons, List.nodup_cons] at hu
          rw [List.find?_cons]
          rcases List.mem_cons.1 hx with rfl | hx
          · simp
          · have : y.doc.id ≠ x.doc.id := fun e => hu.1 (e ▸ List.mem_map_of_mem (f := fun r : Row => r.doc.id) hx)
            simp [this, ih hu.2 hx]
      rw [hid, hfind]
      exact ⟨rfl, by simpa [shown] using ha⟩
    · rintro ⟨hg, ha⟩
      cases hf : (run ops).rows.find? (fun x => decide (x.doc.id = r.doc.id)) with
      | none => rw [hf] at hg; simp at hg
      | some x =>
        rw [hf] at hg
        simp only [Except.ok.injEq] at hg
        subst hg
        exact ⟨x, List.mem_filter.2 ⟨List.mem_of_find?_eq_some hf, by simpa [shown] using ha⟩, rfl⟩
  · rw [List.map_map]
    exact (List.filter_sublist.map _).nodup (run_uniq ops)
  · have key : ∀ (pool : List Row), IsTopK (fun r : Row => r.created) (pool.map (shown round))
        (if limit < 0 then (pool.map (shown round)).length else limit.toNat)
        ((if limit < 0 then sort pool else (sort pool).take limit.toNat).map (shown round)) := by
      intro pool
      have hp := hs pool
      have hlen : (sort pool).length = pool.length := hp.1.length_eq
      have e : (if limit < 0 then sort pool else (sort pool).take limit.toNat) =
          (sort pool).take (if limit < 0 then pool.length else limit.toNat) := by
        split
        · rw [← hlen, List.take_length]
        · rfl
      rw [e, List.map_take, List.length_map]
      have hperm : ((sort pool).map (shown round)).Perm (pool.map (shown round)) := hp.1.map _
      have hord : ((sort pool).map (shown round)).Pairwise (fun a b => b.created ≤ a.created) := by
        rw [List.pairwise_map]
        exact hp.2
      generalize (if limit < 0 then pool.length else limit.toNat) = k
      refine ⟨hord.sublist (List.take_sublist _ _), ⟨((sort pool).map (shown round)).drop k, ?_, ?_⟩, ?_⟩
      · rw [List.take_append_drop]; exact hperm
      · intro r hr o ho
        have := hord
        rw [← List.take_append_drop k ((sort pool).map (shown round)), List.pairwise_append] at this
        exact this.2.2 o ho r hr
      · rw [List.length_take, hperm.length_eq]
    exact key _

/-! ### Where the code departs -/

/-- A document whose metadata hold an integer does not read back as given: the value is a floating-point number, and another number
where the integer has no exact one. -/
theorem C229_integer_violated (round : Int → ℚ) (ops : List Op) (d : Doc) (k : String) (z : Int) (hi : d.info = some [(k, .int z)])
    (hok : (create (run ops) d).2 = none) :
    ∃ r, get round (run (ops ++ [.create d])) d.id = .ok r ∧ r.doc.info = some [(k, .float (round z))] ∧ r.doc ≠ d := by
  have := (C229_read round ops [] d (by simp) (by simp)).1 hok
  rw [List.append_nil] at this
  obtain ⟨r, hr, ha, _⟩ := this
  obtain ⟨_, _, _, _, _, _, _, hnone, hval⟩ := ha
  cases hm : r.doc.info with
  | none => rw [hnone.1 hm] at hi; cases hi
  | some m' =>
    obtain ⟨hk, hv⟩ := hval _ _ hi hm
    match m', hk, hv with
    | [kv], hk, hv =>
      have h1 := (hv 0 (by simp) (by simp)).1 z rfl
      have h2 : kv.1 = k := by simpa using hk
      have h3 : kv = (k, .float (round z)) := Prod.ext h2 (by simpa using h1)
      refine ⟨r, hr, by rw [hm, h3], ?_⟩
      intro he
      rw [he, hi, h3] at hm
      simp at hm

/-- Documents created within one second are listed in either order: the older one may come first. -/
theorem C229_newest_violated (round : Int → ℚ) (a b : Doc) (hab : a.id ≠ b.id)
    (ha : ∀ m, a.info = some m → ∀ kv ∈ m, kv.2 ≠ .bad) (hb : ∀ m, b.info = some m → ∀ kv ∈ m, kv.2 ≠ .bad) :
    ∃ sort : List Row → List Row, (∀ l, SortedFrom (fun a b : Row => b.created ≤ a.created) l (sort l)) ∧
      ∃ out, list round sort (run [.create a, .create b]) "" 1 = .ok out ∧ out.map (fun r => r.doc.id) = [a.id] := by
  have hma : marshals a = true := by
    unfold marshals
    cases h : a.info with
    | none => simp
    | some m => simpa using ha m h
  have hmb : marshals b = true := by
    unfold marshals
    cases h : b.info with
    | none => simp
    | some m => simpa using hb m h
  refine ⟨fun l => l.insertionSort (fun a b : Row => b.created ≤ a.created), fun l => ⟨List.perm_insertionSort _ l, ?_⟩, ?_⟩
  · haveI : Std.Total (fun a b : Row => b.created ≤ a.created) := ⟨fun a b => Nat.le_total _ _⟩
    haveI : IsTrans Row (fun a b : Row => b.created ≤ a.created) := ⟨fun a b c h1 h2 => Nat.le_trans h2 h1⟩
    exact List.pairwise_insertionSort _ l
  · refine ⟨[shown round ⟨a, 0, 0⟩], ?_, rfl⟩
    simp [run, step, create, list, hma, hmb, hab, List.insertionSort, List.orderedInsert]

/-- Listing the documents of a closed store fails, but not with the error that says that the store is closed, which the other calls
give. -/
theorem C229_closed_violated (round : Int → ℚ) (sort : List Row → List Row) (s : State) (hc : s.closed = true) (d : Doc) (id author : String)
    (limit : Int) :
    list round sort s author limit = .error .io ∧ get round s id = .error .closed ∧ (create s d).2 = some .closed ∧
    (update s d).2 = some .closed ∧ (delete s id).2 = some .closed := by
  simp [list, get, create, update, delete, hc]

/-! ### The hypotheses can be met -/

def doc1 : Doc := { id := "d", title := "T", version := 3, author := "ann", info := some [("pages", .int 7), ("lang", .str "en")], acl := some ["u"] }

example : (create (run [.tick 5]) doc1).2 = none ∧ (run [.tick 5, .create doc1]).closed = false ∧
    (update (run [.tick 5, .create doc1, .tick 2]) { doc1 with title := "U" }).2 = none := by decide +kernel

example : (match get (fun z => (z : ℚ)) (run [.tick 5, .create doc1, .tick 2, .update { doc1 with title := "U" }, .create { id := "e" }]) "d" with
    | .ok r => decide (r = ⟨{ doc1 with title := "U", info := some [("pages", .float 7), ("lang", .str "en")] }, 5, 7⟩)
    | .error _ => false) = true := by decide +kernel

end Verif.Documents
