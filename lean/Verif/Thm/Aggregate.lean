import Verif.Model.Aggregate
import Verif.Thm.Store
import Mathlib.Tactic.Common
import Mathlib.Data.List.Nodup
import Verif.Base.Sort
import Mathlib.Tactic.Linarith
import Mathlib.Algebra.BigOperators.Group.List.Basic

/-!
# Aggregations: C24
-/

namespace Verif.Aggregate

open Verif.Model.Store Verif.Thm.Store Verif.Base
open Verif.Model.Filter (Lib extract plainField)

variable {W HI VI : Type}

/-- A group before it is given back. -/
abbrev Raw := List (Option String) × Nat

/-! ## Specification -/

/-- The record has the value under the name; a number is meant by any text that reads as it. -/
def Has (lib : Lib ℚ) (r : Row W) (f : String) : Val → Prop
  | .text t => ∃ m, r.metadata = some m ∧ m.lookup f = some t
  | .number x => ∃ m s, r.metadata = some m ∧ m.lookup f = some s ∧ lib.parse s = some x

/-- The records a request speaks about: those of the collection, if one is named, that have all the
filter values. -/
def Matches (lib : Lib ℚ) (db : DB W) (q : Req) (r : Row W) : Prop :=
  (q.collection = "" ∨ ∃ c ∈ db.collections, c.name = q.collection ∧ r.cid = c.id) ∧
    ∀ f ∈ q.filters, Has lib r f.1 f.2

/-- The matching records. -/
noncomputable def matching (lib : Lib ℚ) (db : DB W) (q : Req) : List (Row W) :=
  open Classical in db.embeddings.filter (fun r => decide (Matches lib db q r))

/-- The value of a field of a record. -/
def fieldOf (f : String) (r : Row W) : Option String := r.metadata.bind fun m => m.lookup f

/-- The numbers the matching records have in the field. -/
noncomputable def numbers (lib : Lib ℚ) (db : DB W) (q : Req) : List ℚ :=
  (matching lib db q).filterMap fun r => (fieldOf q.field r).bind lib.parse

/-- Names are plain and filter values are texts. -/
def Plain (q : Req) : Prop :=
  (∀ f ∈ q.filters, plainField f.1 = true ∧ ∃ t, f.2 = .text t) ∧ (∀ f ∈ q.groupBy, plainField f = true) ∧
    (q.field ≠ "" → plainField q.field = true)

/-- Every record of the collection asked for has metadata. -/
def AllMeta (db : DB W) (q : Req) : Prop :=
  ∀ r ∈ db.embeddings, inScope db q.collection r = true → r.metadata ≠ none

/-! ## The queries select the matching records -/

theorem inScope_iff (db : DB W) (wf : WF db) (c : String) (r : Row W) :
    inScope db c r = true ↔ (c = "" ∨ ∃ x ∈ db.collections, x.name = c ∧ r.cid = x.id) := by
  unfold inScope
  by_cases hc : c = ""
  · simp [hc]
  · simp only [hc, if_false, false_or]
    cases hf : db.collections.find? (fun x => x.name = c) with
    | none =>
      rw [List.find?_eq_none] at hf
      simp only [Bool.false_eq_true, false_iff, not_exists]
      rintro x ⟨hx, hn, _⟩
      exact absurd hn (by simpa using hf x hx)
    | some y =>
      have h1 := List.mem_of_find?_eq_some hf
      have h2 : y.name = c := by simpa using List.find?_some hf
      simp only [decide_eq_true_eq]
      constructor
      · intro h; exact ⟨y, h1, h2, h⟩
      · rintro ⟨x, hx, hn, hcid⟩
        rw [hcid, nodup_inj (fun c : Coll => c.name) wf.collNames hx h1 (by simp [hn, h2])]

theorem extract_plain (lib : Lib ℚ) (f : String) (m : Meta) (h : plainField f = true) :
    extract lib f m = m.lookup f := by simp [extract, h]

theorem holds_iff (lib : Lib ℚ) (q : Req) (hp : Plain q) (r : Row W) (m : Meta) (hm : r.metadata = some m) :
    (q.filters.all (holds lib m) = true) ↔ ∀ f ∈ q.filters, Has lib r f.1 f.2 := by
  rw [List.all_eq_true]
  constructor
  · intro h f hf
    obtain ⟨hpl, t, ht⟩ := hp.1 f hf
    have := h f hf
    unfold holds at this
    rw [extract_plain lib _ _ hpl, ht] at this
    rw [ht]
    refine ⟨m, hm, ?_⟩
    cases hl : m.lookup f.1 with
    | none => rw [hl] at this; simp at this
    | some s => rw [hl] at this; simpa using this
  · intro h f hf
    obtain ⟨hpl, t, ht⟩ := hp.1 f hf
    have := h f hf
    rw [ht] at this
    obtain ⟨m', hm', hl⟩ := this
    rw [hm] at hm'
    injection hm' with hm'
    unfold holds
    rw [extract_plain lib _ _ hpl, ht, hm', hl]
    simp

theorem selected_eq (lib : Lib ℚ) (db : DB W) (wf : WF db) (q : Req) (hp : Plain q)
    (hm : q.filters = [] ∨ AllMeta db q) :
    selected lib q ((db.embeddings.filter (inScope db q.collection)).map fun r => r.metadata.getD [])
      = (matching lib db q).map fun r => r.metadata.getD [] := by
  unfold selected matching
  rw [List.filter_map, List.filter_filter]
  congr 1
  apply List.filter_congr
  intro r hr
  rw [Bool.eq_iff_iff]
  simp only [Function.comp_apply, Bool.and_eq_true, decide_eq_true_eq]
  rw [inScope_iff db wf]
  unfold Matches
  constructor
  · rintro ⟨h1, h2⟩
    refine ⟨h2, ?_⟩
    rcases hm with hm | hm
    · simp [hm]
    · have := hm r hr ((inScope_iff db wf _ r).2 h2)
      cases hmd : r.metadata with
      | none => exact absurd hmd this
      | some m =>
        rw [hmd] at h1
        exact (holds_iff lib q hp r m hmd).1 h1
  · rintro ⟨h2, h1⟩
    refine ⟨?_, h2⟩
    rcases hm with hm | hm
    · simp [hm]
    · have := hm r hr ((inScope_iff db wf _ r).2 h2)
      cases hmd : r.metadata with
      | none => exact absurd hmd this
      | some m => exact (holds_iff lib q hp r m hmd).2 h1

theorem visited_ok (db : DB W) (q : Req) (reads : Bool) (h : reads = true → AllMeta db q) :
    visited db q reads = .ok ((db.embeddings.filter (inScope db q.collection)).map fun r => r.metadata.getD []) := by
  unfold visited
  simp only
  rw [if_neg]
  simp only [Bool.and_eq_true, List.any_eq_true, List.mem_filter, beq_iff_eq, not_and, not_exists]
  intro hr r hr1
  exact h hr r hr1.1 hr1.2

/-- **C24 (partial), count.** For every store and request whose names are plain and whose filter
values are texts, the count is the number of matching records; with filters, every record of the
collection must have metadata. -/
theorem C24_count_partial (lib : Lib ℚ) (sort : Option Nat → List Raw → List Raw) (s : St W HI VI) (q : Req)
    (hs : s.closed = false) (wf : WF s.db) (hk : q.kind = .count) (hp : Plain q) (hm : q.filters = [] ∨ AllMeta s.db q) :
    aggregate lib sort s q = .ok [{ value := ((matching lib s.db q).length : ℚ), count := (matching lib s.db q).length }] := by
  have hv := visited_ok s.db q (!q.filters.isEmpty) (by
    intro h
    rcases hm with hm | hm
    · simp [hm] at h
    · exact hm)
  have hval : valid q = true := by simp [valid, hk]
  unfold aggregate
  simp only [hs, hval, hk, Bool.false_eq_true, if_false, Bool.not_true, aggCount, hv]
  rw [selected_eq lib s.db wf q hp hm]
  simp

theorem values_eq (lib : Lib ℚ) (db : DB W) (wf : WF db) (q : Req) (hp : Plain q) (hm : AllMeta db q)
    (hf : q.field ≠ "") (hlib : ∀ s x, lib.parse s = some x → lib.cast s = x)
    (hnum : ∀ r ∈ matching lib db q, ∀ t, fieldOf q.field r = some t → (lib.parse t).isSome) :
    values lib q ((db.embeddings.filter (inScope db q.collection)).map fun r => r.metadata.getD []) = numbers lib db q := by
  unfold values numbers
  rw [selected_eq lib db wf q hp (Or.inr hm), List.filterMap_map]
  apply List.filterMap_congr
  intro r hr
  have hr' : r ∈ db.embeddings ∧ Matches lib db q r := by
    unfold matching at hr
    simpa using hr
  have hmd := hm r hr'.1 ((inScope_iff db wf _ r).2 hr'.2.1)
  cases hmm : r.metadata with
  | none => exact absurd hmm hmd
  | some m =>
    simp only [Function.comp_apply, hmm, Option.getD_some, extract_plain lib _ _ (hp.2.2 hf), fieldOf, Option.bind_some]
    cases hl : m.lookup q.field with
    | none => rfl
    | some t =>
      have := hnum r hr t (by simp [fieldOf, hmm, hl])
      obtain ⟨x, hx⟩ := Option.isSome_iff_exists.1 this
      simp [hx, hlib t x hx]

theorem fold_min_spec : ∀ (xs : List ℚ) (x : ℚ),
    (xs.foldl min x ∈ x :: xs) ∧ ∀ y ∈ x :: xs, xs.foldl min x ≤ y
  | [], x => by simp
  | z :: xs, x => by
    have ih := fold_min_spec xs (min x z)
    simp only [List.foldl_cons]
    refine ⟨?_, ?_⟩
    · rcases List.mem_cons.1 ih.1 with h | h
      · rw [h]
        rcases min_choice x z with h2 | h2 <;> rw [h2] <;> simp
      · simp [h]
    · intro y hy
      have h0 := ih.2 (min x z) (by simp)
      simp only [List.mem_cons] at hy
      rcases hy with rfl | rfl | hy
      · exact h0.trans (min_le_left _ _)
      · exact h0.trans (min_le_right _ _)
      · exact ih.2 y (by simp [hy])

theorem fold_max_spec : ∀ (xs : List ℚ) (x : ℚ),
    (xs.foldl max x ∈ x :: xs) ∧ ∀ y ∈ x :: xs, y ≤ xs.foldl max x
  | [], x => by simp
  | z :: xs, x => by
    have ih := fold_max_spec xs (max x z)
    simp only [List.foldl_cons]
    refine ⟨?_, ?_⟩
    · rcases List.mem_cons.1 ih.1 with h | h
      · rw [h]
        rcases max_choice x z with h2 | h2 <;> rw [h2] <;> simp
      · simp [h]
    · intro y hy
      have h0 := ih.2 (max x z) (by simp)
      simp only [List.mem_cons] at hy
      rcases hy with rfl | rfl | hy
      · exact (le_max_left _ _).trans h0
      · exact (le_max_right _ _).trans h0
      · exact ih.2 y (by simp [hy])

/-- **C24 (partial), numbers.** Under the same conditions, and when the field of every matching record that has
it reads as a number, SUM, AVG, MIN and MAX are those of the numbers of the matching records (0 when there
are none), and the count is how many there are. -/
theorem C24_numbers_partial (lib : Lib ℚ) (sort : Option Nat → List Raw → List Raw) (s : St W HI VI) (q : Req)
    (hs : s.closed = false) (wf : WF s.db) (hp : Plain q) (hm : AllMeta s.db q) (hf : q.field ≠ "")
    (hlib : ∀ s x, lib.parse s = some x → lib.cast s = x)
    (hnum : ∀ r ∈ matching lib s.db q, ∀ t, fieldOf q.field r = some t → (lib.parse t).isSome)
    (hk : q.kind = .sum ∨ q.kind = .avg ∨ q.kind = .min ∨ q.kind = .max) :
    ∃ x, aggregate lib sort s q = .ok [{ value := x, count := (numbers lib s.db q).length }] ∧
      (numbers lib s.db q = [] → x = 0) ∧
      (q.kind = .sum → x = (numbers lib s.db q).sum) ∧
      (q.kind = .avg → x * (numbers lib s.db q).length = (numbers lib s.db q).sum) ∧
      (q.kind = .min → numbers lib s.db q ≠ [] → x ∈ numbers lib s.db q ∧ ∀ y ∈ numbers lib s.db q, x ≤ y) ∧
      (q.kind = .max → numbers lib s.db q ≠ [] → x ∈ numbers lib s.db q ∧ ∀ y ∈ numbers lib s.db q, y ≤ x) := by
  have hv := visited_ok s.db q true (fun _ => hm)
  have hval : valid q = true := by
    unfold valid
    rcases hk with h | h | h | h <;> simp [h, hf]
  have hvals := values_eq lib s.db wf q hp hm hf hlib hnum
  have hagg : ∀ f, aggNumber lib s.db q f = .ok [{ value := (f (numbers lib s.db q)).getD 0, count := (numbers lib s.db q).length }] := by
    intro f
    simp only [aggNumber, hv, hvals]
  unfold aggregate
  simp only [hs, hval, Bool.false_eq_true, if_false, Bool.not_true]
  generalize numbers lib s.db q = ns at hagg
  rcases hk with h | h | h | h
  · simp only [h, hagg]
    refine ⟨_, rfl, ?_, ?_, by simp, by simp, by simp⟩
    · rintro rfl; rfl
    · intro _; cases ns <;> simp [sqlSum]
  · simp only [h, hagg]
    refine ⟨_, rfl, ?_, by simp, ?_, by simp, by simp⟩
    · rintro rfl; rfl
    · intro _
      cases ns with
      | nil => simp
      | cons y ys =>
        simp only [sqlAvg, Option.getD_some]
        rw [div_mul_cancel₀]
        simp only [List.length_cons]
        positivity
  · simp only [h, hagg]
    refine ⟨_, rfl, ?_, by simp, by simp, ?_, by simp⟩
    · rintro rfl; rfl
    · intro _ hne
      cases ns with
      | nil => exact absurd rfl hne
      | cons y ys => exact fold_min_spec ys y
  · simp only [h, hagg]
    refine ⟨_, rfl, ?_, by simp, by simp, by simp, ?_⟩
    · rintro rfl; rfl
    · intro _ hne
      cases ns with
      | nil => exact absurd rfl hne
      | cons y ys => exact fold_max_spec ys y

/-! ## Groups -/

/-- The key of a record. -/
def groupKey (q : Req) (r : Row W) : List (Option String) := q.groupBy.map fun f => fieldOf f r

/-- The matching records with a key. -/
noncomputable def group (lib : Lib ℚ) (db : DB W) (q : Req) (k : List (Option String)) : List (Row W) :=
  (matching lib db q).filter fun r => groupKey q r = k

theorem mem_distinct {α : Type} [DecidableEq α] {x : α} : ∀ {l : List α}, x ∈ distinct l ↔ x ∈ l
  | [] => by simp [distinct]
  | y :: l => by
    simp only [distinct]
    split
    · rename_i h
      rw [mem_distinct]
      constructor
      · intro hx; simp [hx]
      · intro hx
        rcases List.mem_cons.1 hx with rfl | hx
        · exact h
        · exact hx
    · simp [mem_distinct]

theorem nodup_distinct {α : Type} [DecidableEq α] : ∀ (l : List α), (distinct l).Nodup
  | [] => by simp [distinct]
  | y :: l => by
    simp only [distinct]
    split
    · exact nodup_distinct l
    · rename_i h
      rw [List.nodup_cons]
      exact ⟨fun hm => h (mem_distinct.1 hm), nodup_distinct l⟩

theorem sum_count {α : Type} [DecidableEq α] (keys : List α) : ∀ (ds : List α), ds.Nodup → (∀ k ∈ keys, k ∈ ds) →
    (ds.map fun k => keys.count k).sum = keys.length := by
  induction keys with
  | nil => intro ds _ _; simp
  | cons k keys ih =>
    intro ds hn hall
    have h1 := ih ds hn (fun x hx => hall x (by simp [hx]))
    have h2 : (ds.map fun x => (k :: keys).count x).sum
        = (ds.map fun x => keys.count x).sum + (ds.map fun x => if k = x then 1 else 0).sum := by
      rw [← List.sum_map_add]
      congr 1
      apply List.map_congr_left
      intro x _
      rw [List.count_cons]
      simp
    have h3 : ∀ (ds : List α), ds.Nodup → k ∈ ds → (ds.map fun x => if k = x then 1 else 0).sum = 1 := by
      intro ds
      induction ds with
      | nil => intro _ h; simp at h
      | cons d ds ihd =>
        intro hn hm
        rw [List.nodup_cons] at hn
        simp only [List.map_cons, List.sum_cons]
        by_cases hd : k = d
        · have hz : (ds.map fun x => if k = x then 1 else 0).sum = 0 := by
            apply List.sum_eq_zero
            intro x hx
            obtain ⟨y, hy, rfl⟩ := List.mem_map.1 hx
            rw [if_neg]
            rintro rfl
            exact hn.1 (hd ▸ hy)
          rw [hz, if_pos hd]
        · rw [if_neg hd, ihd hn.2 (by simpa [hd] using hm)]
    rw [h2, h1, h3 ds hn (hall k (by simp))]
    simp

theorem keys_eq (lib : Lib ℚ) (db : DB W) (wf : WF db) (q : Req) (hp : Plain q) (hm : AllMeta db q) :
    (selected lib q ((db.embeddings.filter (inScope db q.collection)).map fun r => r.metadata.getD [])).map (keyOf lib q)
      = (matching lib db q).map (groupKey q) := by
  rw [selected_eq lib db wf q hp (Or.inr hm), List.map_map]
  apply List.map_congr_left
  intro r hr
  have hr' : r ∈ db.embeddings ∧ Matches lib db q r := by
    unfold matching at hr
    simpa using hr
  have hmd := hm r hr'.1 ((inScope_iff db wf _ r).2 hr'.2.1)
  cases hmm : r.metadata with
  | none => exact absurd hmm hmd
  | some m =>
    simp only [Function.comp_apply, keyOf, groupKey, hmm, Option.getD_some]
    apply List.map_congr_left
    intro f hf
    rw [extract_plain lib _ _ (hp.2.1 f hf)]
    simp [fieldOf, hmm]

theorem count_group (lib : Lib ℚ) (db : DB W) (q : Req) (k : List (Option String)) :
    ((matching lib db q).map (groupKey q)).count k = (group lib db q k).length := by
  unfold group
  generalize matching lib db q = rows
  induction rows with
  | nil => rfl
  | cons r rows ih =>
    by_cases h : groupKey q r = k <;> simp [h, ih]

/-- The key of a record as it is given back: a text that reads as a number is that number. -/
def shownKey (lib : Lib ℚ) (q : Req) (r : Row W) : List Key :=
  q.groupBy.map fun f => match fieldOf f r with
    | none => .nil
    | some s => match lib.parse s with
      | some x => .number x
      | none => .text s

theorem shownKey_eq (lib : Lib ℚ) (q : Req) (r : Row W) : shownKey lib q r = (groupKey q r).map (showKey lib) := by
  unfold shownKey groupKey
  rw [List.map_map]
  rfl

/-- The groups before HAVING, ORDER BY and LIMIT. -/
noncomputable def allGroups (lib : Lib ℚ) (db : DB W) (q : Req) : List Raw :=
  (distinct ((matching lib db q).map (groupKey q))).map fun k => (k, (group lib db q k).length)

theorem allGroups_keys (lib : Lib ℚ) (db : DB W) (q : Req) :
    (allGroups lib db q).map (fun g => g.1) = distinct ((matching lib db q).map (groupKey q)) := by
  unfold allGroups
  rw [List.map_map]
  have : ((fun g : Raw => g.1) ∘ fun k => ((k, (group lib db q k).length) : Raw)) = id := rfl
  rw [this, List.map_id]

theorem mem_allGroups (lib : Lib ℚ) (db : DB W) (q : Req) {g : Raw} (h : g ∈ allGroups lib db q) :
    g.2 = (group lib db q g.1).length ∧ ∃ r ∈ matching lib db q, groupKey q r = g.1 := by
  unfold allGroups at h
  obtain ⟨k, hk', rfl⟩ := List.mem_map.1 h
  obtain ⟨r, hr, hrk⟩ := List.mem_map.1 (mem_distinct.1 hk')
  exact ⟨rfl, r, hr, hrk⟩

theorem allGroups_mem (lib : Lib ℚ) (db : DB W) (q : Req) {r : Row W} (h : r ∈ matching lib db q) :
    (groupKey q r, (group lib db q (groupKey q r)).length) ∈ allGroups lib db q :=
  List.mem_map.2 ⟨groupKey q r, mem_distinct.2 (List.mem_map_of_mem h), rfl⟩

theorem aggGroup_eq (lib : Lib ℚ) (sort : Option Nat → List Raw → List Raw) (s : St W HI VI) (q : Req)
    (hs : s.closed = false) (wf : WF s.db) (hk : q.kind = .groupBy) (hg : q.groupBy ≠ []) (hn : q.groupBy.all nameOk = true)
    (hc : ∀ f ∈ q.groupBy, f.toLower ≠ "count") (hp : Plain q) (hm : AllMeta s.db q) :
    aggregate lib sort s q = .ok
      ((let kept := match q.having with
        | none => allGroups lib s.db q
        | some p => (allGroups lib s.db q).filter fun g => p g.1 g.2
       if q.limit > 0 then (sort none kept).take q.limit.toNat else sort none kept).map fun g =>
        { keys := g.1.map (showKey lib), value := g.2, count := g.2 }) := by
  have hv := visited_ok s.db q true (fun _ => hm)
  have hval : valid q = true := by simp [valid, hk, hg]
  have ho : orderedBy q = none := by
    unfold orderedBy
    rw [List.findIdx?_eq_none_iff]
    intro f hf
    simpa using hc f hf
  unfold aggregate
  simp only [hs, hval, hk, Bool.false_eq_true, if_false, Bool.not_true, aggGroup, hv, hn, ho]
  rw [keys_eq lib s.db wf q hp hm]
  simp only [count_group]
  rfl

/-- The records whose key is given back as this one. -/
noncomputable def shownGroup (lib : Lib ℚ) (db : DB W) (q : Req) (k : List Key) : List (Row W) :=
  (matching lib db q).filter fun r => shownKey lib q r = k

/-- No two matching records have different texts that are given back as one key. -/
def Apart (lib : Lib ℚ) (db : DB W) (q : Req) : Prop :=
  ∀ r ∈ matching lib db q, ∀ r' ∈ matching lib db q, shownKey lib q r = shownKey lib q r' → groupKey q r = groupKey q r'

theorem shownGroup_eq (lib : Lib ℚ) (db : DB W) (q : Req) (ha : Apart lib db q) (r : Row W) (hr : r ∈ matching lib db q) :
    shownGroup lib db q (shownKey lib q r) = group lib db q (groupKey q r) := by
  unfold shownGroup group
  apply List.filter_congr
  intro r' hr'
  rw [decide_eq_decide]
  constructor
  · exact fun h => ha r' hr' r hr h
  · intro h; rw [shownKey_eq, shownKey_eq, h]

/-- The names and orderings with which grouping works: names that SQLite takes as column names and none called `count`. -/
def GroupNames (q : Req) : Prop := q.groupBy ≠ [] ∧ ∀ f ∈ q.groupBy, nameOk f = true ∧ f.toLower ≠ "count"

theorem nodup_shown (lib : Lib ℚ) (db : DB W) (q : Req) (ha : Apart lib db q) (l : List Raw)
    (hn : (l.map fun g => g.1).Nodup) (hl : ∀ g ∈ l, ∃ r ∈ matching lib db q, groupKey q r = g.1) :
    (l.map fun g => g.1.map (showKey lib)).Nodup := by
  have : (l.map fun g => g.1.map (showKey lib)) = (l.map fun g => g.1).map (List.map (showKey lib)) := by
    rw [List.map_map]; rfl
  rw [this]
  apply List.Nodup.map_on _ hn
  intro x hx y hy hxy
  obtain ⟨g, hg, rfl⟩ := List.mem_map.1 hx
  obtain ⟨g', hg', rfl⟩ := List.mem_map.1 hy
  obtain ⟨r, hr, hrg⟩ := hl g hg
  obtain ⟨r', hr', hrg'⟩ := hl g' hg'
  rw [← hrg, ← hrg']
  exact ha r hr r' hr' (by rw [shownKey_eq, shownKey_eq, hrg, hrg', hxy])

/-- **C24 (partial), groups.** Without a condition on the groups and without a limit, grouping returns each key of a matching
record exactly once, with the number of the matching records that have it as count and value, most frequent first, and the
counts add up to the number of matching records. Needed: every record of the collection has metadata, the field names are
plain, are not SQL words and are not `count`, and no two different texts read as the same number. -/
theorem C24_groups_partition_partial (lib : Lib ℚ) (sort : Option Nat → List Raw → List Raw) (s : St W HI VI) (q : Req)
    (hsort : ∀ l, SortedFrom (fun a b => b.2 ≤ a.2) l (sort none l))
    (hs : s.closed = false) (wf : WF s.db) (hk : q.kind = .groupBy) (hg : GroupNames q) (hp : Plain q)
    (hm : AllMeta s.db q) (ha : Apart lib s.db q) (hh : q.having = none) (hl : q.limit ≤ 0) :
    ∃ out, aggregate lib sort s q = .ok out ∧ (out.map fun g => g.keys).Nodup ∧
      (∀ r ∈ matching lib s.db q, ∃ g ∈ out, g.keys = shownKey lib q r) ∧
      (∀ g ∈ out, g.count = (shownGroup lib s.db q g.keys).length ∧ g.value = g.count ∧ 0 < g.count) ∧
      out.Pairwise (fun a b => b.count ≤ a.count) ∧
      (out.map fun g => g.count).sum = (matching lib s.db q).length := by
  have h := aggGroup_eq lib sort s q hs wf hk hg.1 (List.all_eq_true.2 fun f hf => (hg.2 f hf).1) (fun f hf => (hg.2 f hf).2) hp hm
  rw [hh] at h
  simp only [if_neg (not_lt.2 hl)] at h
  have hperm := (hsort (allGroups lib s.db q)).1
  refine ⟨_, h, ?_, ?_, ?_, ?_, ?_⟩
  · rw [List.map_map]
    apply nodup_shown lib s.db q ha
    · rw [(hperm.map _).nodup_iff, allGroups_keys]
      exact nodup_distinct _
    · intro g hgm
      exact (mem_allGroups lib s.db q (hperm.mem_iff.1 hgm)).2
  · intro r hr
    refine ⟨_, List.mem_map.2 ⟨_, hperm.mem_iff.2 (allGroups_mem lib s.db q hr), rfl⟩, (shownKey_eq lib q r).symm⟩
  · intro g hgm
    obtain ⟨g, hg1, rfl⟩ := List.mem_map.1 hgm
    obtain ⟨h1, r, hr, hrk⟩ := mem_allGroups lib s.db q (hperm.mem_iff.1 hg1)
    have h2 := shownGroup_eq lib s.db q ha r hr
    refine ⟨?_, rfl, ?_⟩
    · show g.2 = (shownGroup lib s.db q (g.1.map (showKey lib))).length
      rw [← hrk, ← shownKey_eq, h2, h1, hrk]
    · show 0 < g.2
      rw [h1]
      apply List.length_pos_of_mem (a := r)
      unfold group
      simp [hr, hrk]
  · rw [List.pairwise_map]
    exact (hsort _).2
  · rw [List.map_map, (hperm.map _).sum_eq]
    unfold allGroups
    rw [List.map_map]
    have : (((fun g : Result => g.count) ∘ fun g : Raw => ({ keys := g.1.map (showKey lib), value := (g.2 : ℚ), count := g.2 } : Result)) ∘
        fun k => ((k, (group lib s.db q k).length) : Raw))
        = fun k => ((matching lib s.db q).map (groupKey q)).count k := by
      funext k
      simp only [Function.comp_apply]
      rw [count_group]
    rw [this]
    have hsc := sum_count ((matching lib s.db q).map (groupKey q)) (distinct ((matching lib s.db q).map (groupKey q)))
      (nodup_distinct _) (fun k hk => mem_distinct.2 hk)
    rw [List.length_map] at hsc
    rw [← hsc]
    congr!

/-- **C24 (partial), groups with HAVING and LIMIT.** With any condition on the groups and any limit, what is returned are
groups that satisfy the condition, each once with its true count, most frequent first, at most the limit, and no group left
out is more frequent than one returned. -/
theorem C24_groups_limited_partial (lib : Lib ℚ) (sort : Option Nat → List Raw → List Raw) (s : St W HI VI) (q : Req)
    (hsort : ∀ l, SortedFrom (fun a b => b.2 ≤ a.2) l (sort none l))
    (hs : s.closed = false) (wf : WF s.db) (hk : q.kind = .groupBy) (hg : GroupNames q) (hp : Plain q)
    (hm : AllMeta s.db q) (ha : Apart lib s.db q) (p : List (Option String) → Nat → Bool) (hh : q.having = some p) (hl : 0 < q.limit) :
    ∃ out, aggregate lib sort s q = .ok out ∧ (out.map fun g => g.keys).Nodup ∧ out.length ≤ q.limit.toNat ∧
      (∀ g ∈ out, g.count = (shownGroup lib s.db q g.keys).length ∧ g.value = g.count ∧
        ∃ r ∈ matching lib s.db q, shownKey lib q r = g.keys ∧ p (groupKey q r) g.count = true) ∧
      out.Pairwise (fun a b => b.count ≤ a.count) ∧
      (∀ r ∈ matching lib s.db q, p (groupKey q r) (group lib s.db q (groupKey q r)).length = true →
        (∃ g ∈ out, g.keys = shownKey lib q r) ∨
          (out.length = q.limit.toNat ∧ ∀ g ∈ out, (group lib s.db q (groupKey q r)).length ≤ g.count)) := by
  have h := aggGroup_eq lib sort s q hs wf hk hg.1 (List.all_eq_true.2 fun f hf => (hg.2 f hf).1) (fun f hf => (hg.2 f hf).2) hp hm
  rw [hh] at h
  simp only [if_pos hl] at h
  generalize hkept : (allGroups lib s.db q).filter (fun g => p g.1 g.2) = kept at h
  have hperm := (hsort kept).1
  have hpw := (hsort kept).2
  have hsub : ((sort none kept).take q.limit.toNat).Sublist (sort none kept) := List.take_sublist _ _
  have hkeysNodup : (kept.map fun g => g.1).Nodup := by
    rw [← hkept]
    refine (List.filter_sublist.map _).nodup ?_
    rw [allGroups_keys]
    exact nodup_distinct _
  have hin : ∀ g ∈ (sort none kept).take q.limit.toNat, g ∈ allGroups lib s.db q ∧ p g.1 g.2 = true := by
    intro g hgm
    have hgm := hperm.mem_iff.1 (hsub.subset hgm)
    rw [← hkept, List.mem_filter] at hgm
    exact hgm
  refine ⟨_, h, ?_, by rw [List.length_map]; exact List.length_take_le _ _, ?_, ?_, ?_⟩
  · rw [List.map_map]
    apply nodup_shown lib s.db q ha
    · exact (hsub.map _).nodup ((hperm.map _).nodup_iff.2 hkeysNodup)
    · intro g hgm
      exact (mem_allGroups lib s.db q (hin g hgm).1).2
  · intro g hgm
    obtain ⟨g, hg1, rfl⟩ := List.mem_map.1 hgm
    obtain ⟨hga, hgp⟩ := hin g hg1
    obtain ⟨h1, r, hr, hrk⟩ := mem_allGroups lib s.db q hga
    have h2 := shownGroup_eq lib s.db q ha r hr
    refine ⟨?_, rfl, r, hr, ?_, ?_⟩
    · show g.2 = (shownGroup lib s.db q (g.1.map (showKey lib))).length
      rw [← hrk, ← shownKey_eq, h2, h1, hrk]
    · rw [shownKey_eq, hrk]
    · rw [hrk]; exact hgp
  · rw [List.pairwise_map]
    exact hpw.sublist hsub
  · intro r hr hpr
    have hmem : (groupKey q r, (group lib s.db q (groupKey q r)).length) ∈ sort none kept := by
      rw [hperm.mem_iff, ← hkept, List.mem_filter]
      exact ⟨allGroups_mem lib s.db q hr, hpr⟩
    rw [← List.take_append_drop q.limit.toNat (sort none kept)] at hmem
    rcases List.mem_append.1 hmem with h1 | h2
    · exact Or.inl ⟨_, List.mem_map_of_mem h1, (shownKey_eq lib q r).symm⟩
    · right
      constructor
      · rw [List.length_map, List.length_take]
        have : (List.drop q.limit.toNat (sort none kept)).length ≠ 0 := by
          have := List.length_pos_of_mem h2
          omega
        rw [List.length_drop] at this
        omega
      · intro g hgm
        obtain ⟨g, hg1, rfl⟩ := List.mem_map.1 hgm
        rw [← List.take_append_drop q.limit.toNat (sort none kept), List.pairwise_append] at hpw
        exact hpw.2.2 g hg1 _ h2

/-! ## What fails -/

/-- **C24, violated.** One record without metadata in the collection makes every SUM, AVG, MIN, MAX and grouping over it
fail. -/
theorem C24_nil_metadata_violated (lib : Lib ℚ) (sort : Option Nat → List Raw → List Raw) (s : St W HI VI) (q : Req)
    (hs : s.closed = false) (hv : valid q = true) (hk : q.kind ≠ .count) (hu : q.kind ≠ .unknown) (r : Row W)
    (hr : r ∈ s.db.embeddings) (hsc : inScope s.db q.collection r = true) (hm : r.metadata = none) :
    aggregate lib sort s q = .error .sql := by
  have hvis : visited s.db q true = .error .sql := by
    unfold visited
    simp only
    rw [if_pos]
    simp only [Bool.true_and, List.any_eq_true, List.mem_filter, beq_iff_eq]
    exact ⟨r, ⟨hr, hsc⟩, hm⟩
  unfold aggregate
  simp only [hs, hv, Bool.false_eq_true, if_false, Bool.not_true]
  cases hkk : q.kind with
  | count => exact absurd hkk hk
  | sum => simp [aggNumber, hvis]
  | avg => simp [aggNumber, hvis]
  | min => simp [aggNumber, hvis]
  | max => simp [aggNumber, hvis]
  | groupBy =>
    simp only [aggGroup, hvis]
    split <;> rfl
  | empty => simp [valid, hkk] at hv
  | unknown => exact absurd hkk hu

/-- **C24, violated.** A filter with a number (or a boolean) never matches, whatever the records hold: the count is 0. -/
theorem C24_number_filter_violated (lib : Lib ℚ) (sort : Option Nat → List Raw → List Raw) (s : St W HI VI) (q : Req)
    (hs : s.closed = false) (hk : q.kind = .count) (f : String) (x : ℚ) (hf : (f, Val.number x) ∈ q.filters)
    (hm : AllMeta s.db q) : aggregate lib sort s q = .ok [{ value := 0, count := 0 }] := by
  have hv := visited_ok s.db q (!q.filters.isEmpty) (fun _ => hm)
  have hval : valid q = true := by simp [valid, hk]
  have hsel : ∀ ms, selected lib q ms = [] := by
    intro ms
    unfold selected
    rw [List.filter_eq_nil_iff]
    intro m _ hall
    rw [List.all_eq_true] at hall
    have := hall _ hf
    unfold holds at this
    split at this
    · rename_i h; simp at h
    · simp at this
    · simp at this
  unfold aggregate
  simp only [hs, hval, hk, Bool.false_eq_true, if_false, Bool.not_true, aggCount, hv, hsel]
  simp

/-! Two records with a price, one of which is not a number. -/

def lib0 : Lib ℚ :=
  { parse := fun s => if s = "10" then some 10 else if s = "4" then some 4 else none
    fmtNum := fun _ => "", fmtList := fun _ => "", regex := fun _ _ => false
    cast := fun s => if s = "10" then 10 else if s = "4" then 4 else 0
    affinity := fun _ => none, sqlText := fun _ => "", zero := 0, one := 1, oddPath := fun _ _ => none }

def st0 (second : String) : St Nat Unit Unit :=
  { db := { collections := [⟨1, "default", 2⟩], nextColl := 2, documents := [],
            embeddings := [⟨"a", 1, [1], "x", none, some [("price", "10"), ("k", "u")], none⟩,
                           ⟨"b", 1, [2], "y", none, some [("price", second), ("k", "u")], none⟩] },
    dim := 1, closed := false, hnsw := none, ivf := none }

/-- **C24, violated.** A value that is not a number counts as 0: the minimum and the average of 10
and "n/a" are 0 and 5. -/
theorem C24_text_is_zero_violated :
    aggregate lib0 (fun _ l => l) (st0 "n/a") { kind := .min, field := "price" } = .ok [{ value := 0, count := 2 }] ∧
    aggregate lib0 (fun _ l => l) (st0 "n/a") { kind := .avg, field := "price" } = .ok [{ value := 5, count := 2 }] := by
  constructor <;> decide +kernel

/-- **C24, violated.** Grouping by a field whose name is an SQL word (`order`, `group`, `index`, `values`, …) fails in every
store. -/
theorem C24_sql_word_violated (lib : Lib ℚ) (sort : Option Nat → List Raw → List Raw) (s : St W HI VI) (q : Req)
    (hs : s.closed = false) (hk : q.kind = .groupBy) (f : String) (hf : f ∈ q.groupBy) (hr : f ∈ reserved) :
    aggregate lib sort s q = .error .sql := by
  have hno : nameOk f = false := by
    have : ∀ f ∈ reserved, nameOk f = false := by decide +kernel
    exact this f hr
  have hval : valid q = true := by
    have : q.groupBy ≠ [] := List.ne_nil_of_mem hf
    simp [valid, hk, this]
  have hall : q.groupBy.all nameOk = false := by
    rw [List.all_eq_false]
    exact ⟨f, hf, by simp [hno]⟩
  unfold aggregate
  simp only [hs, hval, hk, Bool.false_eq_true, if_false, Bool.not_true, aggGroup, hall]
  rfl

/-- A number read from a text the way the library reads it: "1" and "1.0" are the same. -/
def lib1 : Lib ℚ := { lib0 with parse := fun s => if s = "10" then some 10 else if s = "10.0" then some 10 else none }

/-- **C24, violated.** Two texts of the same number make two groups with the same key. -/
theorem C24_same_key_twice_violated :
    aggregate lib1 (fun _ l => l) (st0 "10.0") { kind := .groupBy, groupBy := ["price"] }
      = .ok [{ keys := [.number 10], value := 1, count := 1 }, { keys := [.number 10], value := 1, count := 1 }] := by
  decide +kernel

/-- The ORDER BY of SQLite. -/
def sort0 : Option Nat → List Raw → List Raw
  | none, l => exchangeSort (fun a b => decide (b.2 < a.2)) l
  | some i, l => exchangeSort (fun a b => decide ((b.1[i]?.join.getD "").toList < (a.1[i]?.join.getD "").toList)) l

/-- Three records with a field called `count`. -/
def st1 : St Nat Unit Unit :=
  { db := { collections := [⟨1, "default", 2⟩], nextColl := 2, documents := [],
            embeddings := [⟨"a", 1, [1], "x", none, some [("count", "a"), ("kind", "a")], none⟩,
                           ⟨"b", 1, [2], "y", none, some [("count", "a"), ("kind", "a")], none⟩,
                           ⟨"c", 1, [2], "y", none, some [("count", "z"), ("kind", "z")], none⟩] },
    dim := 1, closed := false, hnsw := none, ivf := none }

/-- **C24, violated.** Grouping by a field called `count` orders the groups by that field, not by how many records they have;
with a limit the most frequent group is left out. -/
theorem C24_count_field_violated :
    aggregate lib0 sort0 st1 { kind := .groupBy, groupBy := ["count"], limit := 1 }
      = .ok [{ keys := [.text "z"], value := 1, count := 1 }] ∧
    aggregate lib0 sort0 st1 { kind := .groupBy, groupBy := ["kind"], limit := 1 }
      = .ok [{ keys := [.text "a"], value := 2, count := 2 }] := by
  constructor <;> decide +kernel

example : ∀ l, SortedFrom (fun a b : Raw => b.2 ≤ a.2) l (sort0 none l) := by
  intro l
  refine ⟨exchangeSort_perm _ _, ?_⟩
  have := exchangeSort_sorted (fun g : Raw => OrderDual.toDual g.2) (fun a b => decide (b.2 < a.2)) (by intro a b; simp) l
  exact this

example : GroupNames { kind := .groupBy, groupBy := ["kind", "lang"] } := by
  refine ⟨by simp, ?_⟩
  decide +kernel

example : WF (st0 "4").db ∧ AllMeta (st0 "4").db { kind := .sum, field := "price", collection := "default", filters := [("k", .text "u")] } ∧
    Plain { kind := .sum, field := "price", collection := "default", filters := [("k", .text "u")] } ∧
    (∀ s x, lib0.parse s = some x → lib0.cast s = x) := by
  refine ⟨⟨by decide, by decide, by decide, by decide, by decide, by decide, by decide⟩, ?_, ?_, ?_⟩
  · intro r hr _; revert r; decide
  · refine ⟨?_, by simp, fun _ => by decide +kernel⟩
    intro f hf
    simp only [List.mem_singleton] at hf
    subst hf
    exact ⟨by decide +kernel, _, rfl⟩
  · intro s x h
    simp only [lib0] at h ⊢
    split at h
    · simp_all
    · split at h <;> simp_all

example : aggregate lib0 (fun _ l => l) (st0 "4") { kind := .sum, field := "price", collection := "default", filters := [("k", .text "u")] }
    = .ok [{ value := 14, count := 2 }] := by decide +kernel

end Verif.Aggregate
