import Verif.Model.Fts
import Mathlib.Data.List.Nodup
import Mathlib.Data.List.Perm.Subperm
import Mathlib.Data.List.Sort
import Mathlib.Tactic.Common

/-!
# The full-text index: C76, C133, C134
-/

namespace Verif.Fts

open Verif.Base

variable {T A : Type} [DecidableEq T]

/-! ## What the user sees: a table from identifiers to texts -/

/-- A table, as a user thinks of it. -/
abbrev Tab (A : Type) := String → Option (String × A)

def Tab.set (m : Tab A) (id content : String) (a : A) : Tab A := fun x => if x = id then some (content, a) else m x

def Tab.drop (m : Tab A) (p : String → String → A → Bool) : Tab A := fun x =>
  match m x with
  | some (c, a) => if p x c a then none else some (c, a)
  | none => none

/-- Writes to `embeddings`, as a user thinks of them. -/
def chunkTab (m : Tab A) : ChunkOp A → Tab A
  | .upsert id content a => m.set id content a
  | .delete p => m.drop p

/-- Writes to `messages`, as a user thinks of them. -/
def messageTab (m : Tab A) : MessageOp A → Tab A
  | .add id content a => if (m id).isSome then m else m.set id content a
  | .save id content a => m.set id content a
  | .update id content a => if (m id).isSome then m.set id content a else m
  | .delete p => m.drop p

/-- The text satisfies the query. -/
def Contains (tok : String → List T) (q : Query T) (content : String) : Prop := q.eval (fun t => decide (t ∈ tok content)) = true

/-! ## Row identifiers -/

theorem foldl_max_ge (l : List Nat) (x : Nat) : x ≤ l.foldl max x ∧ ∀ y ∈ l, y ≤ l.foldl max x := by
  induction l generalizing x with
  | nil => simp
  | cons z l ih =>
    obtain ⟨h1, h2⟩ := ih (max x z)
    rw [List.foldl_cons]
    refine ⟨(le_max_left _ _).trans h1, ?_⟩
    intro y hy
    rcases List.mem_cons.1 hy with rfl | hy
    · exact (le_max_right _ _).trans h1
    · exact h2 y hy

theorem nextRow_gt (rows : List (FRow A)) (r : FRow A) (h : r ∈ rows) : r.rowid < nextRow rows := by
  unfold nextRow
  have := (foldl_max_ge (rows.map fun r => r.rowid) 0).2 r.rowid (List.mem_map_of_mem h)
  omega

theorem nextRow_append (rows : List (FRow A)) (r : FRow A) : r.rowid < nextRow (rows ++ [r]) :=
  nextRow_gt _ _ (by simp)

/-! ## The triggers -/

theorem removeAll_rows (tok : String → List T) : ∀ (rs : List (FRow A)) (s : FSt T A), (removeAll tok s rs).rows = s.rows
  | [], _ => rfl
  | r :: rs, s => by rw [removeAll, removeAll_rows tok rs]; rfl

theorem removeAll_postings (tok : String → List T) (i : Nat) (t : T) : ∀ (rs : List (FRow A)) (s : FSt T A),
    (i, t) ∈ (removeAll tok s rs).postings ↔ (i, t) ∈ s.postings ∧ ∀ r ∈ rs, ¬ (r.rowid = i ∧ t ∈ tok r.content)
  | [], s => by simp [removeAll]
  | r :: rs, s => by
    rw [removeAll, removeAll_postings tok i t rs]
    simp only [unindex, List.mem_filter, List.mem_cons, forall_eq_or_imp, Bool.not_eq_true', decide_eq_false_iff_not]
    constructor
    · rintro ⟨⟨h1, h2⟩, h3⟩
      exact ⟨h1, fun ⟨h4, h5⟩ => h2 ⟨h4.symm, h5⟩, h3⟩
    · rintro ⟨h1, h2, h3⟩
      exact ⟨⟨h1, fun ⟨h4, h5⟩ => h2 ⟨h4.symm, h5⟩⟩, h3⟩

theorem removeAll_sizes (tok : String → List T) (i : Nat) : ∀ (rs : List (FRow A)) (s : FSt T A),
    i ∈ (removeAll tok s rs).sizes ↔ i ∈ s.sizes ∧ ∀ r ∈ rs, r.rowid ≠ i
  | [], s => by simp [removeAll]
  | r :: rs, s => by
    rw [removeAll, removeAll_sizes tok i rs]
    simp only [unindex, List.mem_filter, List.mem_cons, forall_eq_or_imp, decide_eq_true_eq]
    constructor
    · rintro ⟨⟨h1, h2⟩, h3⟩
      exact ⟨h1, fun h => h2 h.symm, h3⟩
    · rintro ⟨h1, h2, h3⟩
      exact ⟨⟨h1, fun h => h2 h.symm⟩, h3⟩

theorem index_postings (tok : String → List T) (s : FSt T A) (j : Nat) (c : String) (i : Nat) (t : T) :
    (i, t) ∈ (index tok s j c).postings ↔ (i, t) ∈ s.postings ∨ (i = j ∧ t ∈ tok c) := by
  simp only [index, List.mem_append, List.mem_map, Prod.mk.injEq]
  constructor
  · rintro (h | ⟨x, hx, rfl, rfl⟩)
    · exact Or.inl h
    · exact Or.inr ⟨rfl, hx⟩
  · rintro (h | ⟨rfl, h⟩)
    · exact Or.inl h
    · exact Or.inr ⟨t, h, rfl, rfl⟩

theorem index_sizes (tok : String → List T) (s : FSt T A) (j : Nat) (c : String) (i : Nat) :
    i ∈ (index tok s j c).sizes ↔ i ∈ s.sizes ∨ i = j := by
  simp only [index, List.mem_append, List.mem_filter, decide_eq_true_eq, List.mem_singleton]
  by_cases h : i = j <;> simp [h]

theorem unindex_postings (tok : String → List T) (s : FSt T A) (j : Nat) (c : String) (i : Nat) (t : T) :
    (i, t) ∈ (unindex tok s j c).postings ↔ (i, t) ∈ s.postings ∧ ¬ (i = j ∧ t ∈ tok c) := by
  simp only [unindex, List.mem_filter, Bool.not_eq_true', decide_eq_false_iff_not]

theorem unindex_sizes (tok : String → List T) (s : FSt T A) (j : Nat) (c : String) (i : Nat) :
    i ∈ (unindex tok s j c).sizes ↔ i ∈ s.sizes ∧ i ≠ j := by
  simp [unindex, List.mem_filter]

theorem updateRows_rows (tok : String → List T) (c : String) : ∀ (rs : List (FRow A)) (s : FSt T A), (updateRows tok c s rs).rows = s.rows
  | [], _ => rfl
  | r :: rs, s => by rw [updateRows, updateRows_rows tok c rs]; rfl

theorem updateRows_postings (tok : String → List T) (c : String) (i : Nat) (t : T) : ∀ (rs : List (FRow A)) (s : FSt T A),
    (rs.map fun r => r.rowid).Nodup →
    ((i, t) ∈ (updateRows tok c s rs).postings ↔
      (∃ r ∈ rs, r.rowid = i ∧ t ∈ tok c) ∨ ((i, t) ∈ s.postings ∧ ∀ r ∈ rs, ¬ (r.rowid = i ∧ t ∈ tok r.content)))
  | [], s, _ => by simp [updateRows]
  | r :: rs, s, hn => by
    rw [List.map_cons, List.nodup_cons] at hn
    rw [updateRows, updateRows_postings tok c i t rs _ hn.2, index_postings, unindex_postings]
    simp only [List.mem_cons, exists_eq_or_imp, forall_eq_or_imp]
    have hd : r.rowid = i → ∀ x ∈ rs, x.rowid ≠ i := by
      intro h x hx he
      exact hn.1 (List.mem_map.2 ⟨x, hx, he.trans h.symm⟩)
    constructor
    · rintro (h | ⟨⟨h1, h2⟩ | ⟨h1, h2⟩, h3⟩)
      · exact Or.inl (Or.inr h)
      · exact Or.inr ⟨h1, fun ⟨h4, h5⟩ => h2 ⟨h4.symm, h5⟩, h3⟩
      · exact Or.inl (Or.inl ⟨h1.symm, h2⟩)
    · rintro ((⟨h1, h2⟩ | h) | ⟨h1, h2, h3⟩)
      · exact Or.inr ⟨Or.inr ⟨h1.symm, h2⟩, fun x hx hh => hd h1 x hx hh.1⟩
      · exact Or.inl h
      · exact Or.inr ⟨Or.inl ⟨h1, fun ⟨h4, h5⟩ => h2 ⟨h4.symm, h5⟩⟩, h3⟩

theorem updateRows_sizes (tok : String → List T) (c : String) (i : Nat) : ∀ (rs : List (FRow A)) (s : FSt T A),
    (i ∈ (updateRows tok c s rs).sizes ↔ i ∈ s.sizes ∨ ∃ r ∈ rs, r.rowid = i)
  | [], s => by simp [updateRows]
  | r :: rs, s => by
    rw [updateRows, updateRows_sizes tok c i rs, index_sizes, unindex_sizes]
    simp only [List.mem_cons, exists_eq_or_imp]
    by_cases h : i = r.rowid
    · simp [h]
    · have h' : r.rowid ≠ i := fun hh => h hh.symm
      simp [h, h']

/-! ## The table behind the rows -/

/-- The rows are the table. -/
def IsTable (s : FSt T A) (m : Tab A) : Prop :=
  (s.rows.map fun r => r.id).Nodup ∧ ∀ id c a, m id = some (c, a) ↔ ∃ r ∈ s.rows, r.id = id ∧ r.content = c ∧ r.attr = a

theorem IsTable.isSome {s : FSt T A} {m : Tab A} (h : IsTable s m) (id : String) :
    (m id).isSome = s.rows.any fun r => decide (r.id = id) := by
  rw [Bool.eq_iff_iff, Option.isSome_iff_exists, List.any_eq_true]
  constructor
  · rintro ⟨⟨c, a⟩, hc⟩
    obtain ⟨r, hr, h1, -⟩ := (h.2 id c a).1 hc
    exact ⟨r, hr, decide_eq_true h1⟩
  · rintro ⟨r, hr, h1⟩
    exact ⟨(r.content, r.attr), (h.2 id _ _).2 ⟨r, hr, of_decide_eq_true h1, rfl, rfl⟩⟩

theorem isTable_put {s : FSt T A} {m : Tab A} (h : IsTable s m) (s' : FSt T A) (i : Nat) (id c : String) (a : A)
    (hrows : s'.rows = s.rows.filter (fun r => r.id ≠ id) ++ [⟨i, id, c, a⟩]) : IsTable s' (m.set id c a) := by
  obtain ⟨hn, hm⟩ := h
  constructor
  · rw [hrows, List.map_append, List.nodup_append]
    refine ⟨hn.sublist (List.filter_sublist.map _), by simp, ?_⟩
    intro x hx y hy
    obtain ⟨r, hr, rfl⟩ := List.mem_map.1 hx
    rw [List.mem_filter] at hr
    simp only [List.map_cons, List.map_nil, List.mem_singleton] at hy
    rw [hy]
    exact of_decide_eq_true hr.2
  · intro x c' a'
    unfold Tab.set
    rw [hrows]
    by_cases hx : x = id
    · rw [if_pos hx, hx]
      constructor
      · intro he
        simp only [Option.some.injEq, Prod.mk.injEq] at he
        exact ⟨_, List.mem_append_right _ (List.mem_singleton.2 rfl), rfl, he.1, he.2⟩
      · rintro ⟨r, hr, h1, h2, h3⟩
        rcases List.mem_append.1 hr with hr | hr
        · exact absurd h1 (of_decide_eq_true (List.mem_filter.1 hr).2)
        · rw [List.mem_singleton] at hr
          subst hr
          simp only at h2 h3
          rw [h2, h3]
    · rw [if_neg hx, hm]
      constructor
      · rintro ⟨r, hr, h1, h2⟩
        exact ⟨r, List.mem_append_left _ (List.mem_filter.2 ⟨hr, decide_eq_true (h1 ▸ hx)⟩), h1, h2⟩
      · rintro ⟨r, hr, h1, h2⟩
        rcases List.mem_append.1 hr with hr | hr
        · exact ⟨r, (List.mem_filter.1 hr).1, h1, h2⟩
        · rw [List.mem_singleton] at hr
          subst hr
          exact absurd h1.symm hx

theorem isTable_drop {s : FSt T A} {m : Tab A} (h : IsTable s m) (s' : FSt T A) (p : String → String → A → Bool)
    (hrows : s'.rows = s.rows.filter fun r => !p r.id r.content r.attr) : IsTable s' (m.drop p) := by
  obtain ⟨hn, hm⟩ := h
  constructor
  · rw [hrows]
    exact hn.sublist (List.filter_sublist.map _)
  · intro x c a
    unfold Tab.drop
    rw [hrows]
    constructor
    · intro he
      cases hx : m x with
      | none => simp [hx] at he
      | some ca =>
        obtain ⟨c', a'⟩ := ca
        rw [hx] at he
        simp only at he
        by_cases hp : p x c' a'
        · rw [if_pos hp] at he; cases he
        · rw [if_neg hp] at he
          simp only [Option.some.injEq, Prod.mk.injEq] at he
          obtain ⟨rfl, rfl⟩ := he
          obtain ⟨r, hr, h1, h2, h3⟩ := (hm x c' a').1 hx
          refine ⟨r, List.mem_filter.2 ⟨hr, ?_⟩, h1, h2, h3⟩
          rw [h1, h2, h3]
          simpa using hp
    · rintro ⟨r, hr, h1, h2, h3⟩
      rw [List.mem_filter] at hr
      rw [(hm x c a).2 ⟨r, hr.1, h1, h2, h3⟩]
      have := hr.2
      rw [h1, h2, h3] at this
      simp only
      rw [if_neg (by simpa using this)]

theorem filter_absent {s : FSt T A} (id : String) (h : s.rows.any (fun r => decide (r.id = id)) = false) :
    s.rows.filter (fun r => decide (r.id ≠ id)) = s.rows := by
  rw [List.filter_eq_self]
  intro r hr
  rw [decide_eq_true_eq]
  intro he
  rw [Bool.eq_false_iff] at h
  exact h (List.any_eq_true.2 ⟨r, hr, decide_eq_true he⟩)

theorem isTable_insert (tok : String → List T) {s : FSt T A} {m : Tab A} (h : IsTable s m) (id c : String) (a : A) :
    IsTable (insert tok s id c a) (if (m id).isSome then m else m.set id c a) := by
  rw [h.isSome]
  unfold insert
  by_cases hany : s.rows.any (fun r => decide (r.id = id)) = true
  · rw [if_pos hany, if_pos hany]
    exact h
  · rw [if_neg hany, if_neg hany]
    exact isTable_put h _ (nextRow s.rows) id c a (by rw [filter_absent id (by simpa using hany)]; rfl)

theorem isTable_update (tok : String → List T) {s : FSt T A} {m : Tab A} (h : IsTable s m) (id c : String) (a : A) :
    IsTable (update tok s id c a) (if (m id).isSome then m.set id c a else m) := by
  obtain ⟨hn, hm⟩ := h
  have hrows : (update tok s id c a).rows = s.rows.map fun r => if r.id = id then { r with content := c, attr := a } else r := by
    unfold update
    rw [updateRows_rows]
  constructor
  · rw [hrows, List.map_map]
    have : ((fun r : FRow A => r.id) ∘ fun r => if r.id = id then { r with content := c, attr := a } else r) = fun r => r.id := by
      funext r
      simp only [Function.comp]
      split <;> rfl
    rw [this]
    exact hn
  · intro x c' a'
    have hmem : ∀ r, r ∈ (update tok s id c a).rows ↔
        (∃ r0 ∈ s.rows, r0.id = id ∧ r = { r0 with content := c, attr := a }) ∨ (r ∈ s.rows ∧ r.id ≠ id) := by
      intro r
      rw [hrows, List.mem_map]
      constructor
      · rintro ⟨r0, hr0, he⟩
        by_cases hi : r0.id = id
        · rw [if_pos hi] at he
          exact Or.inl ⟨r0, hr0, hi, he.symm⟩
        · rw [if_neg hi] at he
          subst he
          exact Or.inr ⟨hr0, hi⟩
      · rintro (⟨r0, hr0, hi, rfl⟩ | ⟨hr, hi⟩)
        · exact ⟨r0, hr0, if_pos hi⟩
        · exact ⟨r, hr, if_neg hi⟩
    have hs : (m id).isSome = true ↔ ∃ r ∈ s.rows, r.id = id := by
      rw [IsTable.isSome (s := s) ⟨hn, hm⟩ id, List.any_eq_true]
      simp
    by_cases hx : x = id
    · subst hx
      by_cases hsome : (m x).isSome = true
      · rw [if_pos hsome]
        unfold Tab.set
        rw [if_pos rfl]
        constructor
        · intro he
          simp only [Option.some.injEq, Prod.mk.injEq] at he
          obtain ⟨r0, hr0, hi⟩ := hs.1 hsome
          exact ⟨_, (hmem _).2 (Or.inl ⟨r0, hr0, hi, rfl⟩), hi, he.1, he.2⟩
        · rintro ⟨r, hr, h1, h2, h3⟩
          rcases (hmem r).1 hr with ⟨r0, hr0, hi, rfl⟩ | ⟨_, hi⟩
          · simp only at h2 h3
            rw [h2, h3]
          · exact absurd h1 hi
      · rw [if_neg hsome]
        constructor
        · intro he
          rw [he] at hsome
          simp at hsome
        · rintro ⟨r, hr, h1, h2, h3⟩
          rcases (hmem r).1 hr with ⟨r0, hr0, hi, rfl⟩ | ⟨_, hi⟩
          · exact absurd (hs.2 ⟨r0, hr0, hi⟩) hsome
          · exact absurd h1 hi
    · have : (if (m id).isSome = true then m.set id c a else m) x = m x := by
        split
        · unfold Tab.set
          rw [if_neg hx]
        · rfl
      rw [this, hm]
      constructor
      · rintro ⟨r, hr, h1, h2⟩
        exact ⟨r, (hmem r).2 (Or.inr ⟨hr, h1 ▸ hx⟩), h1, h2⟩
      · rintro ⟨r, hr, h1, h2⟩
        rcases (hmem r).1 hr with ⟨r0, hr0, hi, rfl⟩ | ⟨hr', _⟩
        · exact absurd (h1.symm.trans hi) hx
        · exact ⟨r, hr', h1, h2⟩

theorem isTable_message (tok : String → List T) (s : FSt T A) (m : Tab A) (h : IsTable s m) (op : MessageOp A) :
    IsTable (messageStep tok s op) (messageTab m op) := by
  cases op with
  | add id c a => exact isTable_insert tok h id c a
  | save id c a =>
    simp only [messageStep, messageTab, save]
    by_cases hany : s.rows.any (fun r => decide (r.id = id)) = true
    · rw [if_pos hany]
      have := isTable_update tok h id c a
      rw [if_pos (by rw [h.isSome]; exact hany)] at this
      exact this
    · rw [if_neg hany]
      have := isTable_insert tok h id c a
      rw [if_neg (by rw [h.isSome]; exact hany)] at this
      exact this
  | update id c a => exact isTable_update tok h id c a
  | delete p => exact isTable_drop h _ p (by simp only [messageStep, delete]; rw [removeAll_rows])

theorem isTable_chunk (tok : String → List T) (s : FSt T A) (m : Tab A) (h : IsTable s m) (op : ChunkOp A) :
    IsTable (chunkStep tok s op) (chunkTab m op) := by
  cases op with
  | upsert id c a => exact isTable_put h _ (nextRow s.rows) id c a rfl
  | delete p => exact isTable_drop h _ p (by simp only [chunkStep, delete]; rw [removeAll_rows])

theorem isTable_init : IsTable ({} : FSt T A) (fun _ => none) := ⟨by simp, by simp⟩

/-! ## The index -/

/-- No row identifier twice. -/
def Rowids (s : FSt T A) : Prop := (s.rows.map fun r => r.rowid).Nodup

/-- Every row is in the index with all its terms. -/
def Covered (tok : String → List T) (s : FSt T A) : Prop :=
  ∀ r ∈ s.rows, r.rowid ∈ s.sizes ∧ ∀ t ∈ tok r.content, (r.rowid, t) ∈ s.postings

/-- What the index has for a row is in its text. -/
def Faithful (tok : String → List T) (s : FSt T A) : Prop :=
  ∀ r ∈ s.rows, ∀ t, (r.rowid, t) ∈ s.postings → t ∈ tok r.content

/-- The index has no entries without a row. -/
def Clean (s : FSt T A) : Prop := ∀ p ∈ s.postings, ∃ r ∈ s.rows, r.rowid = p.1

theorem rowid_inj {s : FSt T A} (h : Rowids s) {r r' : FRow A} (hr : r ∈ s.rows) (hr' : r' ∈ s.rows) (he : r.rowid = r'.rowid) : r = r' :=
  List.inj_on_of_nodup_map h hr hr' he

theorem rowids_put {s : FSt T A} (h : Rowids s) (s' : FSt T A) (p : FRow A → Bool) (id c : String) (a : A)
    (hrows : s'.rows = s.rows.filter p ++ [⟨nextRow s.rows, id, c, a⟩]) : Rowids s' := by
  unfold Rowids
  rw [hrows, List.map_append, List.nodup_append]
  refine ⟨List.Nodup.sublist (List.filter_sublist.map _) h, by simp, ?_⟩
  intro x hx y hy
  obtain ⟨r, hr, rfl⟩ := List.mem_map.1 hx
  simp only [List.map_cons, List.map_nil, List.mem_singleton] at hy
  rw [hy]
  exact (nextRow_gt _ _ (List.mem_filter.1 hr).1).ne

theorem rowids_delete (tok : String → List T) {s : FSt T A} (h : Rowids s) (p : String → String → A → Bool) : Rowids (delete tok s p) := by
  unfold Rowids delete
  rw [removeAll_rows]
  exact List.Nodup.sublist (List.filter_sublist.map _) h

theorem rowids_update (tok : String → List T) {s : FSt T A} (h : Rowids s) (id c : String) (a : A) : Rowids (update tok s id c a) := by
  unfold Rowids update
  rw [updateRows_rows, List.map_map]
  have : ((fun r : FRow A => r.rowid) ∘ fun r => if r.id = id then { r with content := c, attr := a } else r) = fun r => r.rowid := by
    funext r
    simp only [Function.comp]
    split <;> rfl
  rw [this]
  exact h

theorem put_covered (tok : String → List T) {s : FSt T A} (hc : Covered tok s) (p : FRow A → Bool) (id c : String) (a : A) :
    Covered tok (index tok { s with rows := s.rows.filter p ++ [⟨nextRow s.rows, id, c, a⟩] } (nextRow s.rows) c) := by
  intro r hr
  rcases List.mem_append.1 hr with hr | hr
  · obtain ⟨h1, h2⟩ := hc r (List.mem_filter.1 hr).1
    exact ⟨(index_sizes ..).2 (Or.inl h1), fun t ht => (index_postings ..).2 (Or.inl (h2 t ht))⟩
  · rw [List.mem_singleton] at hr
    subst hr
    exact ⟨(index_sizes ..).2 (Or.inr rfl), fun t ht => (index_postings ..).2 (Or.inr ⟨rfl, ht⟩)⟩

theorem delete_covered (tok : String → List T) {s : FSt T A} (hr : Rowids s) (hc : Covered tok s) (p : String → String → A → Bool) :
    Covered tok (delete tok s p) := by
  intro r h
  have h' : r ∈ s.rows.filter fun r => !p r.id r.content r.attr := by
    unfold delete at h
    rw [removeAll_rows] at h
    exact h
  rw [List.mem_filter] at h'
  have hne : ∀ x ∈ s.rows.filter (fun r => p r.id r.content r.attr), x.rowid ≠ r.rowid := by
    intro x hx he
    rw [List.mem_filter] at hx
    have := rowid_inj hr hx.1 h'.1 he
    subst this
    have := h'.2
    rw [hx.2] at this
    cases this
  obtain ⟨h1, h2⟩ := hc r h'.1
  unfold delete
  exact ⟨(removeAll_sizes ..).2 ⟨h1, hne⟩, fun t ht => (removeAll_postings ..).2 ⟨h2 t ht, fun x hx hh => hne x hx hh.1⟩⟩

theorem delete_faithful (tok : String → List T) {s : FSt T A} (hf : Faithful tok s) (p : String → String → A → Bool) :
    Faithful tok (delete tok s p) := by
  intro r h t ht
  have h' : r ∈ s.rows.filter fun r => !p r.id r.content r.attr := by
    unfold delete at h
    rw [removeAll_rows] at h
    exact h
  unfold delete at ht
  exact hf r (List.mem_filter.1 h').1 t ((removeAll_postings ..).1 ht).1

theorem delete_clean (tok : String → List T) {s : FSt T A} (hf : Faithful tok s) (hc : Clean s) (p : String → String → A → Bool) :
    Clean (delete tok s p) := by
  rintro ⟨i, t⟩ ht
  unfold delete at ht ⊢
  rw [removeAll_postings] at ht
  obtain ⟨r, hr, he⟩ := hc _ ht.1
  refine ⟨r, ?_, he⟩
  rw [removeAll_rows]
  refine List.mem_filter.2 ⟨hr, ?_⟩
  by_contra hp
  have hp' : p r.id r.content r.attr = true := by simpa using hp
  exact ht.2 r (List.mem_filter.2 ⟨hr, hp'⟩) ⟨he, hf r hr t (by rw [he]; exact ht.1)⟩

/-- Everything is as it should be. -/
structure Exact (tok : String → List T) (s : FSt T A) : Prop where
  rowids : Rowids s
  covered : Covered tok s
  faithful : Faithful tok s
  clean : Clean s

theorem exact_init (tok : String → List T) : Exact tok ({} : FSt T A) :=
  ⟨by simp [Rowids], by simp [Covered], by simp [Faithful], by simp [Clean]⟩

theorem exact_put (tok : String → List T) {s : FSt T A} (h : Exact tok s) (id c : String) (a : A) :
    Exact tok (index tok { s with rows := s.rows ++ [⟨nextRow s.rows, id, c, a⟩] } (nextRow s.rows) c) := by
  have hfil : s.rows.filter (fun _ => true) = s.rows := by simp
  have hold : ∀ t, (nextRow s.rows, t) ∉ s.postings := by
    intro t ht
    obtain ⟨r, hr, he⟩ := h.clean _ ht
    exact absurd he (nextRow_gt _ _ hr).ne
  refine ⟨?_, ?_, ?_, ?_⟩
  · exact rowids_put h.rowids _ (fun _ => true) id c a (by rw [hfil]; rfl)
  · have := put_covered tok h.covered (fun _ => true) id c a
    rw [hfil] at this
    exact this
  · intro r hr t ht
    rw [index_postings] at ht
    rcases List.mem_append.1 hr with hr | hr
    · rcases ht with ht | ⟨he, -⟩
      · exact h.faithful r hr t ht
      · exact absurd he (nextRow_gt _ _ hr).ne
    · rw [List.mem_singleton] at hr
      subst hr
      rcases ht with ht | ⟨-, ht⟩
      · exact absurd ht (hold t)
      · exact ht
  · rintro ⟨i, t⟩ ht
    rw [index_postings] at ht
    rcases ht with ht | ⟨rfl, -⟩
    · obtain ⟨r, hr, he⟩ := h.clean _ ht
      exact ⟨r, List.mem_append_left _ hr, he⟩
    · exact ⟨_, List.mem_append_right _ (List.mem_singleton.2 rfl), rfl⟩

theorem exact_insert (tok : String → List T) {s : FSt T A} (h : Exact tok s) (id c : String) (a : A) : Exact tok (insert tok s id c a) := by
  unfold insert
  split
  · exact h
  · exact exact_put tok h id c a

theorem exact_delete (tok : String → List T) {s : FSt T A} (h : Exact tok s) (p : String → String → A → Bool) : Exact tok (delete tok s p) :=
  ⟨rowids_delete tok h.rowids p, delete_covered tok h.rowids h.covered p, delete_faithful tok h.faithful p,
    delete_clean tok h.faithful h.clean p⟩

theorem exact_update (tok : String → List T) {s : FSt T A} (h : Exact tok s) (id c : String) (a : A) : Exact tok (update tok s id c a) := by
  have hn : ((s.rows.filter fun r => decide (r.id = id)).map fun r => r.rowid).Nodup :=
    List.Nodup.sublist (List.filter_sublist.map _) h.rowids
  have hmem : ∀ r, r ∈ (update tok s id c a).rows → (∃ r0 ∈ s.rows, r0.id = id ∧ r = { r0 with content := c, attr := a }) ∨ (r ∈ s.rows ∧ r.id ≠ id) := by
    intro r hr
    unfold update at hr
    rw [updateRows_rows, List.mem_map] at hr
    obtain ⟨r0, hr0, he⟩ := hr
    by_cases hi : r0.id = id
    · rw [if_pos hi] at he
      exact Or.inl ⟨r0, hr0, hi, he.symm⟩
    · rw [if_neg hi] at he
      subst he
      exact Or.inr ⟨hr0, hi⟩
  have hpost : ∀ i t, (i, t) ∈ (update tok s id c a).postings ↔ (∃ r ∈ s.rows.filter (fun r => decide (r.id = id)), r.rowid = i ∧ t ∈ tok c) ∨
      ((i, t) ∈ s.postings ∧ ∀ r ∈ s.rows.filter (fun r => decide (r.id = id)), ¬ (r.rowid = i ∧ t ∈ tok r.content)) := by
    intro i t
    unfold update
    rw [updateRows_postings tok c i t _ _ hn]
  refine ⟨rowids_update tok h.rowids id c a, ?_, ?_, ?_⟩
  · intro r hr
    rcases hmem r hr with ⟨r0, hr0, hi, rfl⟩ | ⟨hr', hi⟩
    · constructor
      · unfold update
        rw [updateRows_sizes]
        exact Or.inl (h.covered r0 hr0).1
      · intro t ht
        rw [hpost]
        exact Or.inl ⟨r0, List.mem_filter.2 ⟨hr0, decide_eq_true hi⟩, rfl, ht⟩
    · constructor
      · unfold update
        rw [updateRows_sizes]
        exact Or.inl (h.covered r hr').1
      · intro t ht
        rw [hpost]
        refine Or.inr ⟨(h.covered r hr').2 t ht, ?_⟩
        rintro x hx ⟨he, -⟩
        rw [List.mem_filter] at hx
        have := rowid_inj h.rowids hx.1 hr' he
        subst this
        exact hi (of_decide_eq_true hx.2)
  · intro r hr t ht
    rw [hpost] at ht
    rcases hmem r hr with ⟨r0, hr0, hi, rfl⟩ | ⟨hr', hi⟩
    · rcases ht with ⟨x, -, -, ht⟩ | ⟨ht, hno⟩
      · exact ht
      · exact absurd ⟨rfl, h.faithful r0 hr0 t ht⟩ (hno r0 (List.mem_filter.2 ⟨hr0, decide_eq_true hi⟩))
    · rcases ht with ⟨x, hx, he, -⟩ | ⟨ht, -⟩
      · rw [List.mem_filter] at hx
        have := rowid_inj h.rowids hx.1 hr' he
        subst this
        exact absurd (of_decide_eq_true hx.2) hi
      · exact h.faithful r hr' t ht
  · rintro ⟨i, t⟩ ht
    rw [hpost] at ht
    have hback : ∀ r ∈ s.rows, ∃ r' ∈ (update tok s id c a).rows, r'.rowid = r.rowid := by
      intro r hr
      unfold update
      rw [updateRows_rows]
      refine ⟨_, List.mem_map_of_mem hr, ?_⟩
      split <;> rfl
    rcases ht with ⟨x, hx, he, -⟩ | ⟨ht, -⟩
    · obtain ⟨r', hr', h'⟩ := hback x (List.mem_filter.1 hx).1
      exact ⟨r', hr', h'.trans he⟩
    · obtain ⟨r, hr, he⟩ := h.clean _ ht
      obtain ⟨r', hr', h'⟩ := hback r hr
      exact ⟨r', hr', h'.trans he⟩

theorem exact_message (tok : String → List T) {s : FSt T A} (h : Exact tok s) (op : MessageOp A) : Exact tok (messageStep tok s op) := by
  cases op with
  | add id c a => exact exact_insert tok h id c a
  | save id c a =>
    simp only [messageStep, save]
    split
    · exact exact_update tok h id c a
    · exact exact_insert tok h id c a
  | update id c a => exact exact_update tok h id c a
  | delete p => exact exact_delete tok h p

/-- The state after a history of writes to `messages`. -/
def messages (tok : String → List T) (ops : List (MessageOp A)) : FSt T A := ops.foldl (messageStep tok) {}

/-- The table after a history, as a user thinks of it. -/
def messagesTab (ops : List (MessageOp A)) : Tab A := ops.foldl messageTab (fun _ => none)

/-- The state after a history of writes to `embeddings`. -/
def chunks (tok : String → List T) (ops : List (ChunkOp A)) : FSt T A := ops.foldl (chunkStep tok) {}

/-- The table after a history, as a user thinks of it. -/
def chunksTab (ops : List (ChunkOp A)) : Tab A := ops.foldl chunkTab (fun _ => none)

theorem messages_exact (tok : String → List T) (ops : List (MessageOp A)) :
    Exact tok (messages tok ops) ∧ IsTable (messages tok ops) (messagesTab ops) := by
  unfold messages messagesTab
  have : ∀ (ops : List (MessageOp A)) (s : FSt T A) (m : Tab A), Exact tok s → IsTable s m →
      Exact tok (ops.foldl (messageStep tok) s) ∧ IsTable (ops.foldl (messageStep tok) s) (ops.foldl messageTab m) := by
    intro ops
    induction ops with
    | nil => intro s m h h'; exact ⟨h, h'⟩
    | cons op ops ih =>
      intro s m h h'
      rw [List.foldl_cons, List.foldl_cons]
      exact ih _ _ (exact_message tok h op) (isTable_message tok s m h' op)
  exact this ops _ _ (exact_init tok) isTable_init

theorem chunks_table (tok : String → List T) (ops : List (ChunkOp A)) : IsTable (chunks tok ops) (chunksTab ops) := by
  unfold chunks chunksTab
  have : ∀ (ops : List (ChunkOp A)) (s : FSt T A) (m : Tab A), IsTable s m → IsTable (ops.foldl (chunkStep tok) s) (ops.foldl chunkTab m) := by
    intro ops
    induction ops with
    | nil => intro s m h'; exact h'
    | cons op ops ih =>
      intro s m h'
      exact ih _ _ (isTable_chunk tok s m h' op)
  exact this ops _ _ isTable_init

theorem eval_congr (q : Query T) (f g : T → Bool) (h : ∀ t, f t = g t) : q.eval f = q.eval g := by
  have : f = g := funext h
  rw [this]

theorem hits_exact (tok : String → List T) {s : FSt T A} (hc : Covered tok s) (hf : Faithful tok s) (q : Query T) (r : FRow A)
    (hr : r ∈ s.rows) : hits s q r.rowid = true ↔ Contains tok q r.content := by
  unfold hits Contains
  rw [eval_congr q _ (fun t => decide (t ∈ tok r.content))]
  intro t
  rw [Bool.eq_iff_iff, decide_eq_true_eq, decide_eq_true_eq]
  exact ⟨hf r hr t, (hc r hr).2 t⟩

/-- What a keyword search should answer: rows that satisfy the query and the condition, each once; all of them when the limit
allows; never an error. -/
structure Answers (tok : String → List T) (m : Tab A) (q : Query T) (cond : String → String → A → Prop) (limit : Nat)
    (out : List (FRow A)) : Prop where
  sound : ∀ r ∈ out, m r.id = some (r.content, r.attr) ∧ Contains tok q r.content ∧ cond r.id r.content r.attr
  nodup : (out.map fun r => r.id).Nodup
  short : out.length ≤ limit
  complete : out.length < limit → ∀ id c a, m id = some (c, a) → Contains tok q c → cond id c a → id ∈ out.map fun r => r.id

theorem joined_answers (tok : String → List T) {s : FSt T A} {m : Tab A} (hm : IsTable s m) (hc : Covered tok s) (hf : Faithful tok s)
    (order : List (FRow A) → List (FRow A)) (horder : ∀ l, (order l).Perm l) (q : Query T) (cond : String → String → A → Bool) (limit : Nat) :
    ∃ out, joined order s q (fun r => cond r.id r.content r.attr) limit = .ok out ∧ Answers tok m q (fun i c a => cond i c a = true) limit out := by
  have hfound : ∀ r, r ∈ s.rows.filter (fun r => hits s q r.rowid && cond r.id r.content r.attr) ↔
      r ∈ s.rows ∧ Contains tok q r.content ∧ cond r.id r.content r.attr = true := by
    intro r
    rw [List.mem_filter, Bool.and_eq_true]
    constructor
    · rintro ⟨h1, h2, h3⟩
      exact ⟨h1, (hits_exact tok hc hf q r h1).1 h2, h3⟩
    · rintro ⟨h1, h2, h3⟩
      exact ⟨h1, (hits_exact tok hc hf q r h1).2 h2, h3⟩
  refine ⟨(order (s.rows.filter fun r => hits s q r.rowid && cond r.id r.content r.attr)).take limit, ?_, ?_, ?_, ?_, ?_⟩
  · unfold joined
    simp only
    rw [if_pos]
    rw [List.all_eq_true]
    intro r hr
    exact decide_eq_true (hc r (List.mem_filter.1 hr).1).1
  · intro r hr
    have hr := (horder _).mem_iff.1 (List.mem_of_mem_take hr)
    rw [hfound] at hr
    exact ⟨(hm.2 _ _ _).2 ⟨r, hr.1, rfl, rfl, rfl⟩, hr.2⟩
  · refine List.Nodup.sublist ((List.take_sublist _ _).map _) ?_
    rw [((horder _).map _).nodup_iff]
    exact List.Nodup.sublist (List.filter_sublist.map _) hm.1
  · rw [List.length_take]
    exact Nat.min_le_left _ _
  · intro hlt id c a hid hcon hcond
    obtain ⟨r, hr, rfl, rfl, rfl⟩ := (hm.2 _ _ _).1 hid
    have hall : (order (s.rows.filter fun r => hits s q r.rowid && cond r.id r.content r.attr)).take limit =
        order (s.rows.filter fun r => hits s q r.rowid && cond r.id r.content r.attr) := by
      apply List.take_of_length_le
      rw [List.length_take] at hlt
      omega
    rw [hall]
    refine List.mem_map_of_mem ?_
    rw [(horder _).mem_iff, hfound]
    exact ⟨hr, hcon, hcond⟩

/-! ## Messages -/

/-- **C134, messages.** After every history of adding, saving, updating and deleting messages (single ones, a session, a bucket), a
keyword search answers with messages whose current text satisfies the query, each once, and with all of them when the limit
allows.  It never fails. -/
theorem C134_messages (tok : String → List T) (ops : List (MessageOp A)) (order : List (FRow A) → List (FRow A))
    (horder : ∀ l, (order l).Perm l) (q : Query T) (cond : String → String → A → Bool) (limit : Nat) :
    ∃ out, joined order (messages tok ops) q (fun r => cond r.id r.content r.attr) limit = .ok out ∧
      Answers tok (messagesTab ops) q (fun i c a => cond i c a = true) limit out := by
  obtain ⟨he, hm⟩ := messages_exact tok ops
  exact joined_answers tok hm he.covered he.faithful order horder q cond limit

/-! ## Chunks -/

theorem chunks_covered (tok : String → List T) (ops : List (ChunkOp A)) : Rowids (chunks tok ops) ∧ Covered tok (chunks tok ops) := by
  unfold chunks
  have : ∀ (ops : List (ChunkOp A)) (s : FSt T A), Rowids s ∧ Covered tok s → Rowids (ops.foldl (chunkStep tok) s) ∧ Covered tok (ops.foldl (chunkStep tok) s) := by
    intro ops
    induction ops with
    | nil => intro s h; exact h
    | cons op ops ih =>
      intro s h
      rw [List.foldl_cons]
      apply ih
      cases op with
      | upsert id c a => exact ⟨rowids_put h.1 _ _ id c a rfl, put_covered tok h.2 _ id c a⟩
      | delete p => exact ⟨rowids_delete tok h.1 p, delete_covered tok h.1 h.2 p⟩
  exact this ops _ ⟨by simp [Rowids], by simp [Covered]⟩

/-- Queries without NOT. -/
def Query.positive : Query T → Bool
  | .term _ => true
  | .and a b => a.positive && b.positive
  | .or a b => a.positive && b.positive
  | .not _ _ => false

theorem eval_mono (q : Query T) (hq : q.positive = true) (f g : T → Bool) (h : ∀ t, f t = true → g t = true) (hf : q.eval f = true) :
    q.eval g = true := by
  induction q with
  | term t => exact h t hf
  | and a b iha ihb =>
    simp only [Query.positive, Query.eval, Bool.and_eq_true] at *
    exact ⟨iha hq.1 hf.1, ihb hq.2 hf.2⟩
  | or a b iha ihb =>
    simp only [Query.positive, Query.eval, Bool.and_eq_true, Bool.or_eq_true] at *
    exact hf.imp (iha hq.1) (ihb hq.2)
  | not a b _ _ => cases hq

/-- **C76, nothing missed (partial).** After every history of writes to `embeddings`, the full-text search in one query finds every
record whose current text satisfies a query without NOT, when the limit allows, and does not fail. -/
theorem C76_found_partial (tok : String → List T) (ops : List (ChunkOp A)) (order : List (FRow A) → List (FRow A))
    (horder : ∀ l, (order l).Perm l) (q : Query T) (hq : q.positive = true) (cond : String → String → A → Bool) (limit : Nat) :
    ∃ out, joined order (chunks tok ops) q (fun r => cond r.id r.content r.attr) limit = .ok out ∧
      (out.length < limit → ∀ id c a, chunksTab ops id = some (c, a) → Contains tok q c → cond id c a = true → id ∈ out.map fun r => r.id) := by
  obtain ⟨hr, hc⟩ := chunks_covered tok ops
  have hm := chunks_table tok ops
  generalize chunks tok ops = s at hr hc hm ⊢
  refine ⟨(order (s.rows.filter fun r => hits s q r.rowid && cond r.id r.content r.attr)).take limit, ?_, ?_⟩
  · unfold joined
    simp only
    rw [if_pos]
    rw [List.all_eq_true]
    intro r hr
    exact decide_eq_true (hc r (List.mem_filter.1 hr).1).1
  · intro hlt id c a hid hcon hcond
    obtain ⟨r, hr, rfl, rfl, rfl⟩ := (hm.2 _ _ _).1 hid
    rw [List.take_of_length_le (by rw [List.length_take] at hlt; omega)]
    refine List.mem_map_of_mem ?_
    rw [(horder _).mem_iff, List.mem_filter, Bool.and_eq_true]
    refine ⟨hr, ?_, hcond⟩
    refine eval_mono q hq _ _ ?_ hcon
    intro t ht
    exact decide_eq_true ((hc r hr).2 t (of_decide_eq_true ht))

/-- No identifier is written twice without being deleted in between. -/
def FreshOnly : Tab A → List (ChunkOp A) → Prop
  | _, [] => True
  | m, .upsert id c a :: ops => m id = none ∧ FreshOnly (m.set id c a) ops
  | m, .delete p :: ops => FreshOnly (m.drop p) ops

theorem chunks_exact_fresh (tok : String → List T) : ∀ (ops : List (ChunkOp A)) (s : FSt T A) (m : Tab A), Exact tok s → IsTable s m →
    FreshOnly m ops → Exact tok (ops.foldl (chunkStep tok) s)
  | [], _, _, h, _, _ => h
  | .upsert id c a :: ops, s, m, h, hm, hfresh => by
    rw [List.foldl_cons]
    refine chunks_exact_fresh tok ops _ _ ?_ (isTable_chunk tok s m hm (.upsert id c a)) hfresh.2
    simp only [chunkStep, replace]
    rw [filter_absent id]
    · exact exact_put tok h id c a
    · rw [← hm.isSome, hfresh.1]
      rfl
  | .delete p :: ops, s, m, h, hm, hfresh => by
    rw [List.foldl_cons]
    exact chunks_exact_fresh tok ops _ _ (exact_delete tok h p) (isTable_chunk tok s m hm (.delete p)) hfresh

/-- **C76, exact (partial).** When no identifier is written twice without being deleted in between, keyword search over `embeddings`
is exact, and `HybridSearch` ranks exactly the row identifiers of records whose text satisfies the query. -/
theorem C76_fresh_partial (tok : String → List T) (ops : List (ChunkOp A)) (hfresh : FreshOnly (fun _ => none) ops)
    (order : List (FRow A) → List (FRow A)) (horder : ∀ l, (order l).Perm l) (q : Query T) (cond : String → String → A → Bool) (limit : Nat) :
    (∃ out, joined order (chunks tok ops) q (fun r => cond r.id r.content r.attr) limit = .ok out ∧
      Answers tok (chunksTab ops) q (fun i c a => cond i c a = true) limit out) ∧
    (∀ i ∈ matching (chunks tok ops) q, i ∈ (chunks tok ops).sizes) ∧
    (∀ i ∈ matching (chunks tok ops) q, ∃ r ∈ (chunks tok ops).rows, r.rowid = i ∧ Contains tok q r.content) := by
  have he : Exact tok (chunks tok ops) := chunks_exact_fresh tok ops _ _ (exact_init tok) isTable_init hfresh
  have hrow : ∀ i ∈ matching (chunks tok ops) q, ∃ r ∈ (chunks tok ops).rows, r.rowid = i ∧ Contains tok q r.content := by
    intro i hi
    unfold matching at hi
    rw [List.mem_filter, List.mem_dedup] at hi
    obtain ⟨p, hp, rfl⟩ := List.mem_map.1 hi.1
    obtain ⟨r, hr, h⟩ := he.clean p hp
    refine ⟨r, hr, h, (hits_exact tok he.covered he.faithful q r hr).1 ?_⟩
    rw [h]
    exact hi.2
  refine ⟨joined_answers tok (chunks_table tok ops) he.covered he.faithful order horder q cond limit, ?_, hrow⟩
  intro i hi
  obtain ⟨r, hr, rfl, -⟩ := hrow i hi
  exact (he.covered r hr).1

/-- Only writes. -/
def NoDelete (ops : List (ChunkOp A)) : Prop := ∀ op ∈ ops, ∃ id c a, op = .upsert id c a

/-- **C76, exact (partial).** When nothing was ever deleted, keyword search over `embeddings` by one query is exact, however often
records were written again. -/
theorem C76_upserts_partial (tok : String → List T) (ops : List (ChunkOp A)) (hno : NoDelete ops)
    (order : List (FRow A) → List (FRow A)) (horder : ∀ l, (order l).Perm l) (q : Query T) (cond : String → String → A → Bool) (limit : Nat) :
    ∃ out, joined order (chunks tok ops) q (fun r => cond r.id r.content r.attr) limit = .ok out ∧
      Answers tok (chunksTab ops) q (fun i c a => cond i c a = true) limit out := by
  refine joined_answers tok (chunks_table tok ops) (chunks_covered tok ops).2 ?_ order horder q cond limit
  unfold chunks
  have : ∀ (ops : List (ChunkOp A)) (s : FSt T A), NoDelete ops → Faithful tok s → (∀ p ∈ s.postings, p.1 < nextRow s.rows) →
      Faithful tok (ops.foldl (chunkStep tok) s) := by
    intro ops
    induction ops with
    | nil => intro s _ h _; exact h
    | cons op ops ih =>
      intro s hn h hlt
      rw [List.foldl_cons]
      obtain ⟨id, c, a, rfl⟩ := hn op (by simp)
      apply ih _ (fun o ho => hn o (by simp [ho]))
      · intro r hr t ht
        simp only [chunkStep, replace] at hr ht
        rw [index_postings] at ht
        rcases List.mem_append.1 hr with hr | hr
        · rcases ht with ht | ⟨he, -⟩
          · exact h r (List.mem_filter.1 hr).1 t ht
          · exact absurd he (nextRow_gt _ _ (List.mem_filter.1 hr).1).ne
        · rw [List.mem_singleton] at hr
          subst hr
          rcases ht with ht | ⟨-, ht⟩
          · exact absurd (hlt _ ht) (lt_irrefl _)
          · exact ht
      · rintro ⟨i, t⟩ ht
        simp only [chunkStep, replace] at ht ⊢
        rw [index_postings] at ht
        have hnew : nextRow s.rows < nextRow (s.rows.filter (fun r => decide (r.id ≠ id)) ++ [⟨nextRow s.rows, id, c, a⟩]) :=
          nextRow_append _ ⟨nextRow s.rows, id, c, a⟩
        rcases ht with ht | ⟨rfl, -⟩
        · exact (hlt _ ht).trans hnew
        · exact hnew
  exact this ops _ hno (by simp [Faithful]) (by simp)

/-! ## What goes wrong -/

/-- Words are separated by blanks here. -/
def splitWords : List Char → List Char → List String
  | [], acc => [String.ofList acc.reverse]
  | c :: cs, acc => if c = ' ' then String.ofList acc.reverse :: splitWords cs [] else splitWords cs (c :: acc)

def words (s : String) : List String := splitWords s.toList []

/-- Writing a text and deleting by identifier. -/
def up (id c : String) : ChunkOp Unit := .upsert id c ()
def del (id : String) : ChunkOp Unit := .delete fun x _ _ => x == id

/-- **C76, violated.** After writing "b" twice and deleting it, the next new record is found by a word it never contained. -/
theorem C76_stale_violated :
    (joined id (chunks (A := Unit) words [up "a" "alpha", up "b" "beta", up "b" "gamma", del "b", up "c" "delta"]) (.term "beta") (fun _ => true) 10).map
      (fun l => l.map fun r => (r.id, r.content)) = .ok [("c", "delta")] := by decide +kernel

/-- **C76, violated.** And a query with NOT misses it. -/
theorem C76_not_violated :
    (joined id (chunks (A := Unit) words [up "a" "alpha", up "b" "beta", up "b" "gamma", del "b", up "c" "delta"]) (.not (.term "delta") (.term "beta"))
      (fun _ => true) 10).map (fun l => l.map fun r => (r.id, r.content)) = .ok [] := by decide +kernel

/-- **C133, violated.** When that record is deleted too, ranking fails, and `HybridSearch` finds nothing although a record matches. -/
theorem C133_malformed_violated :
    (fetched id (chunks (A := Unit) words [up "a" "alpha", up "b" "beta", up "b" "gamma", del "b", up "c" "delta", del "c"])
      (.or (.term "alpha") (.term "beta")) 10) = [] ∧
    (fetched id (chunks (A := Unit) words [up "a" "alpha"]) (.or (.term "alpha") (.term "beta")) 10).map (fun r => r.id) = ["a"] := by
  constructor
  · have : ((fetched id (chunks (A := Unit) words [up "a" "alpha", up "b" "beta", up "b" "gamma", del "b", up "c" "delta", del "c"])
      (.or (.term "alpha") (.term "beta")) 10).map fun r => r.id) = [] := by decide +kernel
    exact List.map_eq_nil_iff.1 this
  · decide +kernel

/-- Row identifiers in ascending order, which is how SQLite orders equal ranks. -/
def Ascending (order : List Nat → List Nat) : Prop := ∀ l, (order l).Perm l ∧ (order l).Pairwise (· ≤ ·)

theorem again_state (tok : String → List T) (id c : String) (a : A) (n : Nat) :
    (chunks tok (List.replicate (n + 1) (.upsert id c a))).rows = [⟨n + 1, id, c, a⟩] ∧
    (∀ i t, (i, t) ∈ (chunks tok (List.replicate (n + 1) (.upsert id c a))).postings ↔ 1 ≤ i ∧ i ≤ n + 1 ∧ t ∈ tok c) ∧
    (∀ i, i ∈ (chunks tok (List.replicate (n + 1) (.upsert id c a))).sizes ↔ 1 ≤ i ∧ i ≤ n + 1) := by
  have hsnoc : ∀ k, chunks tok (List.replicate (k + 1) (.upsert id c a)) = replace tok (chunks tok (List.replicate k (.upsert id c a))) id c a := by
    intro k
    unfold chunks
    rw [List.replicate_succ', List.foldl_append]
    rfl
  induction n with
  | zero =>
    rw [hsnoc]
    refine ⟨rfl, ?_, ?_⟩
    · intro i t
      unfold replace
      rw [index_postings]
      simp only [chunks, List.replicate_zero, List.foldl_nil, List.not_mem_nil, false_or]
      show i = 1 ∧ _ ↔ _
      constructor
      · rintro ⟨rfl, h⟩; exact ⟨le_refl _, le_refl _, h⟩
      · rintro ⟨h1, h2, h3⟩; exact ⟨by omega, h3⟩
    · intro i
      unfold replace
      rw [index_sizes]
      simp only [chunks, List.replicate_zero, List.foldl_nil, List.not_mem_nil, false_or]
      show i = 1 ↔ _
      omega
  | succ n ih =>
    obtain ⟨h1, h2, h3⟩ := ih
    rw [hsnoc]
    generalize chunks tok (List.replicate (n + 1) (.upsert id c a)) = s at h1 h2 h3
    have hnext : nextRow s.rows = n + 2 := by
      rw [h1]
      simp [nextRow]
    refine ⟨?_, ?_, ?_⟩
    · show s.rows.filter _ ++ _ = _
      rw [hnext, h1]
      simp
    · intro i t
      unfold replace
      rw [index_postings, hnext]
      simp only [h2]
      constructor
      · rintro (⟨h4, h5, h6⟩ | ⟨rfl, h6⟩)
        · exact ⟨h4, by omega, h6⟩
        · exact ⟨by omega, by omega, h6⟩
      · rintro ⟨h4, h5, h6⟩
        by_cases h : i = n + 2
        · exact Or.inr ⟨h, h6⟩
        · exact Or.inl ⟨h4, by omega, h6⟩
    · intro i
      unfold replace
      rw [index_sizes, hnext]
      simp only [h3]
      omega

/-- **C133, violated.** A record written more than three times TopK times with the same text cannot be found by keyword in
`HybridSearch` (nor in `SearchTextOnly`, which is `HybridSearch` without a vector): the entries left behind by the earlier writes
take all the places. -/
theorem C133_rewritten_violated (tok : String → List T) (id c : String) (a : A) (q : Query T) (topK : Int) (hk : 0 < topK) (n : Nat)
    (hn : topK * 3 ≤ n) (order : List Nat → List Nat) (horder : Ascending order) :
    fetched order (chunks tok (List.replicate (n + 1) (.upsert id c a))) q topK = [] := by
  obtain ⟨h1, h2, h3⟩ := again_state tok id c a n
  generalize chunks tok (List.replicate (n + 1) (.upsert id c a)) = s at h1 h2 h3 ⊢
  unfold fetched
  rw [List.filter_eq_nil_iff]
  intro r hr
  rw [h1, List.mem_singleton] at hr
  subst hr
  rw [decide_eq_true_eq]
  intro hmem
  simp only at hmem
  unfold ranked at hmem
  simp only at hmem
  rw [if_neg (by omega : ¬ topK * 3 ≤ 0)] at hmem
  split at hmem
  · obtain ⟨hperm, hsort⟩ := horder (matching s q)
    -- the last identifier matches, so all smaller ones do
    have hlast : n + 1 ∈ matching s q := hperm.mem_iff.1 (List.mem_of_mem_take hmem)
    have hsame : ∀ i, 1 ≤ i → i ≤ n + 1 → hits s q i = hits s q (n + 1) := by
      intro i hi1 hi2
      unfold hits
      apply eval_congr
      intro t
      rw [Bool.eq_iff_iff, decide_eq_true_eq, decide_eq_true_eq, h2, h2]
      constructor
      · rintro ⟨-, -, h⟩; exact ⟨by omega, by omega, h⟩
      · rintro ⟨-, -, h⟩; exact ⟨hi1, hi2, h⟩
    have hall : ∀ i, 1 ≤ i → i ≤ n + 1 → i ∈ matching s q := by
      intro i hi1 hi2
      unfold matching at hlast ⊢
      rw [List.mem_filter, List.mem_dedup] at hlast ⊢
      obtain ⟨⟨j, t⟩, hp, hj⟩ := List.mem_map.1 hlast.1
      refine ⟨List.mem_map.2 ⟨(i, t), (h2 i t).2 ⟨hi1, hi2, ((h2 j t).1 hp).2.2⟩, rfl⟩, ?_⟩
      rw [hsame i hi1 hi2]
      exact hlast.2
    -- position of n+1 in the order is after n others
    have hnd : (order (matching s q)).Nodup := by
      rw [hperm.nodup_iff]
      unfold matching
      exact (List.nodup_dedup _).filter _
    have hsplit := List.take_append_drop (topK * 3).toNat (order (matching s q))
    have hlen : (topK * 3).toNat < (order (matching s q)).length := by
      have : (List.range' 1 (n + 1)).Subperm (order (matching s q)) := by
        refine List.subperm_of_subset (List.nodup_range') ?_
        intro i hi
        rw [List.mem_range'_1] at hi
        exact hperm.mem_iff.2 (hall i (by omega) (by omega))
      have := this.length_le
      rw [List.length_range'] at this
      omega
    have hdrop : (order (matching s q)).drop (topK * 3).toNat ≠ [] := by
      intro h0
      have := congrArg List.length h0
      rw [List.length_drop] at this
      simp only [List.length_nil] at this
      omega
    obtain ⟨y, hy⟩ := List.exists_mem_of_ne_nil _ hdrop
    rw [← hsplit, List.pairwise_append] at hsort
    have hle := hsort.2.2 (n + 1) hmem y hy
    have hy' : y ∈ matching s q := hperm.mem_iff.1 (List.mem_of_mem_drop hy)
    have hyle : y ≤ n + 1 := by
      unfold matching at hy'
      rw [List.mem_filter, List.mem_dedup] at hy'
      obtain ⟨⟨j, t⟩, hp, hj⟩ := List.mem_map.1 hy'.1
      have := ((h2 j t).1 hp).2.1
      simp only at hj
      omega
    have hyeq : y = n + 1 := by omega
    subst hyeq
    rw [← hsplit, List.nodup_append] at hnd
    exact hnd.2.2 _ hmem _ hy rfl
  · simp at hmem

/-- **C133 (partial).** Without rewriting, `HybridSearch` fetches exactly the records whose text satisfies the query, as long as they
fit in three times TopK places (30 without a limit). -/
theorem C133_fresh_partial (tok : String → List T) (ops : List (ChunkOp A)) (hfresh : FreshOnly (fun _ => none) ops) (q : Query T) (topK : Int)
    (order : List Nat → List Nat) (horder : ∀ l, (order l).Perm l)
    (hfit : (matching (chunks tok ops) q).length ≤ if topK * 3 ≤ 0 then 30 else (topK * 3).toNat) (hq : ∀ c, Contains tok q c → tok c ≠ []) :
    ∀ id c a, (∃ r ∈ fetched order (chunks tok ops) q topK, r.id = id ∧ r.content = c ∧ r.attr = a) ↔
      chunksTab ops id = some (c, a) ∧ Contains tok q c := by
  have he : Exact tok (chunks tok ops) := chunks_exact_fresh tok ops _ _ (exact_init tok) isTable_init hfresh
  have hm := chunks_table tok ops
  have h2 := (C76_fresh_partial tok ops hfresh id (fun l => List.Perm.refl l) q (fun _ _ _ => true) 0).2
  generalize chunks tok ops = s at he hm hfit h2 ⊢
  intro id c a
  have hranked : ∀ i, i ∈ ranked order s q topK ↔ i ∈ matching s q := by
    intro i
    unfold ranked
    simp only
    rw [if_pos (List.all_eq_true.2 fun i hi => decide_eq_true (h2.1 i hi)), List.take_of_length_le (by rw [(horder _).length_eq]; exact hfit),
      (horder _).mem_iff]
  have hiff : ∀ r ∈ s.rows, r.rowid ∈ matching s q ↔ Contains tok q r.content := by
    intro r hr
    rw [← hits_exact tok he.covered he.faithful q r hr]
    unfold matching
    rw [List.mem_filter, List.mem_dedup]
    constructor
    · exact fun h => h.2
    · intro h
      refine ⟨?_, h⟩
      have hne := hq r.content ((hits_exact tok he.covered he.faithful q r hr).1 h)
      obtain ⟨t, ht⟩ := List.exists_mem_of_ne_nil _ hne
      exact List.mem_map.2 ⟨(r.rowid, t), (he.covered r hr).2 t ht, rfl⟩
  rw [hm.2]
  constructor
  · rintro ⟨r, hr, h3, h4, h5⟩
    unfold fetched at hr
    rw [List.mem_filter, decide_eq_true_eq, hranked] at hr
    exact ⟨⟨r, hr.1, h3, h4, h5⟩, h4 ▸ (hiff r hr.1).1 hr.2⟩
  · rintro ⟨⟨r, hr, h3, h4, h5⟩, hcon⟩
    refine ⟨r, ?_, h3, h4, h5⟩
    unfold fetched
    rw [List.mem_filter, decide_eq_true_eq, hranked]
    exact ⟨hr, (hiff r hr).2 (h4 ▸ hcon)⟩

/-! ## The hypotheses can be met -/

example : FreshOnly (A := Unit) (fun _ => none) [up "a" "alpha beta", up "b" "beta", del "a", up "a" "gamma"] := by
  simp [FreshOnly, up, del, Tab.set, Tab.drop]

example : NoDelete [up "a" "alpha", up "a" "beta"] := by
  intro op hop
  simp only [List.mem_cons, List.not_mem_nil, or_false] at hop
  rcases hop with rfl | rfl <;> exact ⟨_, _, _, rfl⟩

example : (joined id (messages (A := Unit) words [.add "a" "x y" (), .add "a" "z" (), .save "b" "x" (), .update "a" "x z" (), .delete fun i _ _ => i == "b"])
    (.term "x") (fun _ => true) 10).map (fun l => l.map fun r => (r.id, r.content)) = .ok [("a", "x z")] := by decide +kernel

example : Contains words (.and (.term "x") (.not (.term "y") (.term "z"))) "x y" := by
  unfold Contains
  decide +kernel

/-- Insertion sort orders row identifiers. -/
def asc (l : List Nat) : List Nat := l.insertionSort (· ≤ ·)

example : Ascending asc := fun l => ⟨List.perm_insertionSort _ l, List.pairwise_insertionSort _ l⟩

example : (fetched asc (chunks (A := Unit) words [up "a" "hello world", up "a" "hello world", up "a" "hello world"]) (.term "hello") 1).map (fun r => r.id) = ["a"] ∧
    (fetched asc (chunks (A := Unit) words [up "a" "hello world", up "a" "hello world", up "a" "hello world", up "a" "hello world"]) (.term "hello") 1).map
      (fun r => r.id) = [] := by decide +kernel

end Verif.Fts
