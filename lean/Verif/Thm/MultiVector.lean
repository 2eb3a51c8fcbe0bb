import Verif.Model.MultiVector
import Verif.Thm.Diversity
import Mathlib.Data.String.Basic
import Mathlib.Data.List.TakeWhile

/-!
# Entities with several vectors: C75, C130, C131
-/

namespace Verif.MultiVector

open Verif.Model.Store Verif.Model.Search Verif.Base Verif.Spec Verif.Thm.Search Verif.Diversity

variable {W HI : Type}

/-! ## Aggregation -/

/-- What each method means. -/
def Aggregates : Method → List ℚ → ℚ → Prop
  | .max, l, x => x ∈ l ∧ ∀ y ∈ l, y ≤ x
  | .min, l, x => x ∈ l ∧ ∀ y ∈ l, x ≤ y
  | .sum, l, x => x = l.sum
  | .average, l, x => x * l.length = l.sum
  | .weighted, l, x => x * l.length = l.sum

theorem foldl_max (l : List ℚ) (x : ℚ) : l.foldl (fun a b => if b > a then b else a) x ∈ x :: l ∧
    ∀ y ∈ x :: l, y ≤ l.foldl (fun a b => if b > a then b else a) x := by
  induction l generalizing x with
  | nil => simp
  | cons z l ih =>
    simp only [List.foldl_cons]
    by_cases h : z > x
    · rw [if_pos h]
      obtain ⟨h1, h2⟩ := ih z
      refine ⟨List.mem_cons_of_mem _ h1, ?_⟩
      intro y hy
      rcases List.mem_cons.1 hy with rfl | hy
      · exact (le_of_lt h).trans (h2 z (by simp))
      · exact h2 y hy
    · rw [if_neg h]
      obtain ⟨h1, h2⟩ := ih x
      refine ⟨?_, ?_⟩
      · rcases List.mem_cons.1 h1 with h1 | h1
        · rw [h1]; simp
        · simp [h1]
      · intro y hy
        rcases List.mem_cons.1 hy with rfl | hy
        · exact h2 _ (by simp)
        · rcases List.mem_cons.1 hy with rfl | hy
          · exact (not_lt.1 h).trans (h2 x (by simp))
          · exact h2 y (by simp [hy])

theorem foldl_min (l : List ℚ) (x : ℚ) : l.foldl (fun a b => if b < a then b else a) x ∈ x :: l ∧
    ∀ y ∈ x :: l, l.foldl (fun a b => if b < a then b else a) x ≤ y := by
  induction l generalizing x with
  | nil => simp
  | cons z l ih =>
    simp only [List.foldl_cons]
    by_cases h : z < x
    · rw [if_pos h]
      obtain ⟨h1, h2⟩ := ih z
      refine ⟨List.mem_cons_of_mem _ h1, ?_⟩
      intro y hy
      rcases List.mem_cons.1 hy with rfl | hy
      · exact (h2 z (by simp)).trans h.le
      · exact h2 y hy
    · rw [if_neg h]
      obtain ⟨h1, h2⟩ := ih x
      refine ⟨?_, ?_⟩
      · rcases List.mem_cons.1 h1 with h1 | h1
        · rw [h1]; simp
        · simp [h1]
      · intro y hy
        rcases List.mem_cons.1 hy with rfl | hy
        · exact h2 _ (by simp)
        · rcases List.mem_cons.1 hy with rfl | hy
          · exact (h2 x (by simp)).trans (not_lt.1 h)
          · exact h2 y (by simp [hy])

/-- **C75, aggregation.** Maximum, minimum, sum and mean of the scores, for every list of scores. -/
theorem C75_aggregate (m : Method) (l : List ℚ) (hne : l ≠ []) : Aggregates m l (aggregate m l) := by
  cases l with
  | nil => exact absurd rfl hne
  | cons x xs =>
    have h0 : ((x :: xs).length : ℚ) ≠ 0 := by
      simp only [List.length_cons]
      positivity
    cases m with
    | max => exact foldl_max xs x
    | min => exact foldl_min xs x
    | sum => rfl
    | average => simp only [Aggregates, aggregate]; field_simp
    | weighted => simp only [Aggregates, aggregate]; field_simp

/-! ## Search -/

/-- The scores of the results of one field, by entity, weighted. -/
def ofField (weights : List (String × ℚ)) (f : String) (hs : List (Hit W)) : List (String × ℚ) :=
  hs.filterMap fun h => (h.metadata.bind fun m => m.lookup "_entity_id").map fun e => (e, h.score * (getA weights f).getD 1)

/-- All the scores that count: those of the searches in the fields asked for. -/
def contributions (c : Cfg W) (via : Serve W) (s : MSt W HI) (o : MOpts) (queries : List (String × List W)) : List (String × ℚ) :=
  (queries.filter fun q => o.fields = [] ∨ q.1 ∈ o.fields).flatMap fun q =>
    match fieldSearch c via s o q.1 q.2 with
    | .ok hs => ofField o.weights q.1 hs
    | .error _ => []

/-- The scores of one entity. -/
def scoresOf (l : List (String × ℚ)) (e : String) : List ℚ := (l.filter fun x => x.1 = e).map fun x => x.2

/-- The map holds exactly these scores. -/
def Rep (acc : Acc W) (l : List (String × ℚ)) : Prop :=
  KeysOk acc ∧ ∀ e, (getA acc e).map (fun x => x.2) = if scoresOf l e = [] then none else some (scoresOf l e)

theorem scoresOf_append (l l' : List (String × ℚ)) (e : String) : scoresOf (l ++ l') e = scoresOf l e ++ scoresOf l' e := by
  simp [scoresOf]

theorem addResult_eq (w : Option ℚ) (acc : Acc W) (h : Hit W) : addResult w acc h =
    match h.metadata.bind (fun m => m.lookup "_entity_id") with
    | none => acc
    | some e => match getA acc e with
      | none => putA acc e (h, [h.score * w.getD 1])
      | some (h0, scores) => putA acc e (h0, scores ++ [h.score * w.getD 1]) := by
  unfold addResult
  cases w with
  | none =>
    simp only [Option.getD_none, mul_one]
    rfl
  | some w => rfl

theorem rep_add (weights : List (String × ℚ)) (f : String) (acc : Acc W) (l : List (String × ℚ)) (h : Hit W) (hr : Rep acc l) :
    Rep (addResult (getA weights f) acc h) (l ++ ofField weights f [h]) := by
  rw [addResult_eq]
  unfold ofField
  cases he : h.metadata.bind (fun m => m.lookup "_entity_id") with
  | none =>
    simp only [List.filterMap_cons, he, Option.map_none, List.filterMap_nil, List.append_nil]
    exact hr
  | some e =>
    simp only [List.filterMap_cons, he, Option.map_some, List.filterMap_nil]
    generalize h.score * (getA weights f).getD 1 = x
    obtain ⟨hk, hg⟩ := hr
    have hone : ∀ e', scoresOf [(e, x)] e' = if e' = e then [x] else [] := by
      intro e'
      unfold scoresOf
      by_cases h : e' = e
      · simp [h]
      · have h2 : e ≠ e' := fun h' => h h'.symm
        simp [h, h2]
    have hge := hg e
    cases hac : getA acc e with
    | none =>
      rw [hac] at hge
      have hnil : scoresOf l e = [] := by
        by_contra hne
        rw [if_neg hne] at hge
        cases hge
      refine ⟨keys_put hk _ _, ?_⟩
      intro e'
      rw [get_put, scoresOf_append, hone]
      by_cases h' : e' = e
      · subst h'
        simp [hnil]
      · rw [if_neg h', if_neg h', List.append_nil]
        exact hg e'
    | some p =>
      obtain ⟨h0, scores⟩ := p
      rw [hac] at hge
      have hsc : scoresOf l e = scores := by
        by_cases hne : scoresOf l e = []
        · rw [if_pos hne] at hge; cases hge
        · rw [if_neg hne] at hge
          simpa using hge.symm
      refine ⟨keys_put hk _ _, ?_⟩
      intro e'
      simp only
      rw [get_put, scoresOf_append, hone]
      by_cases h' : e' = e
      · subst h'
        simp [hsc]
      · rw [if_neg h', if_neg h', List.append_nil]
        exact hg e'

theorem rep_fold (weights : List (String × ℚ)) (f : String) : ∀ (hs : List (Hit W)) (acc : Acc W) (l : List (String × ℚ)), Rep acc l →
    Rep (hs.foldl (addResult (getA weights f)) acc) (l ++ ofField weights f hs)
  | [], acc, l, hr => by simpa [ofField] using hr
  | h :: hs, acc, l, hr => by
    have := rep_fold weights f hs _ _ (rep_add weights f acc l h hr)
    rw [List.append_assoc] at this
    have e : ofField weights f [h] ++ ofField weights f hs = ofField weights f (h :: hs) := by
      unfold ofField
      rw [← List.filterMap_append]
      rfl
    rw [e] at this
    exact this

theorem rep_collect (c : Cfg W) (via : Serve W) (s : MSt W HI) (o : MOpts) : ∀ (queries : List (String × List W)) (acc : Acc W)
    (l : List (String × ℚ)), Rep acc l → Rep (collect c via s o queries acc) (l ++ contributions c via s o queries)
  | [], acc, l, hr => by simpa [collect, contributions] using hr
  | (f, v) :: rest, acc, l, hr => by
    simp only [collect]
    by_cases hf : o.fields.length > 0 ∧ f ∉ o.fields
    · rw [if_pos hf]
      have := rep_collect c via s o rest acc l hr
      have e : contributions c via s o ((f, v) :: rest) = contributions c via s o rest := by
        unfold contributions
        rw [List.filter_cons_of_neg]
        have h1 : o.fields ≠ [] := by
          intro h
          rw [h] at hf
          simp at hf
        simp [h1, hf.2]
      rw [e]
      exact this
    · rw [if_neg hf]
      have hp : o.fields = [] ∨ f ∈ o.fields := by
        by_contra hc
        push Not at hc
        exact hf ⟨List.length_pos_of_ne_nil hc.1, hc.2⟩
      have e : contributions c via s o ((f, v) :: rest) = (match fieldSearch c via s o f v with
          | .ok hs => ofField o.weights f hs
          | .error _ => []) ++ contributions c via s o rest := by
        unfold contributions
        rw [List.filter_cons_of_pos (by simpa using hp), List.flatMap_cons]
      rw [e]
      cases hs : fieldSearch c via s o f v with
      | error er =>
        simp only [List.nil_append]
        exact rep_collect c via s o rest acc l hr
      | ok found =>
        simp only
        rw [← List.append_assoc]
        exact rep_collect c via s o rest _ _ (rep_fold o.weights f found acc l hr)

/-- **C75, search.** For every store, index, queries and options: a search answers with the TopK (all when no limit is set), best
first, of a pool that has each entity found in one of the fields asked for exactly once, with the maximum, minimum, sum or mean
of its weighted scores. -/
theorem C75_search_partial (c : Cfg W) (via : Serve W) (visit : Acc W → Acc W) (hvisit : ∀ a, (visit a).Perm a) (s : MSt W HI)
    (queries : List (String × List W)) (o : MOpts) (out : List (Hit W)) (h : searchMulti c via visit s queries o = .ok out) :
    ∃ pool : List (Hit W), (pool.map fun x => x.id).Nodup ∧
      (∀ e, e ∈ pool.map (fun x => x.id) ↔ scoresOf (contributions c via s o queries) e ≠ []) ∧
      (∀ x ∈ pool, Aggregates o.method (scoresOf (contributions c via s o queries) x.id) x.score) ∧
      Answer pool o.base.topK out := by
  unfold searchMulti at h
  by_cases hc : s.closed
  · simp [hc] at h
  · rw [if_neg hc] at h
    simp only [Except.ok.injEq] at h
    have hrep := rep_collect c via s o queries [] [] ⟨List.nodup_nil, by intro e; simp [getA, scoresOf]⟩
    rw [List.nil_append] at hrep
    generalize collect c via s o queries [] = acc at h hrep
    obtain ⟨hk, hg⟩ := hrep
    have hids : ((visit acc).map fun x => ({ x.2.1 with id := x.1, score := aggregate o.method x.2.2 } : Hit W)).map (fun x => x.id) =
        (visit acc).map Prod.fst := by
      rw [List.map_map]
      rfl
    refine ⟨(visit acc).map fun x => ({ x.2.1 with id := x.1, score := aggregate o.method x.2.2 } : Hit W), ?_, ?_, ?_, ?_⟩
    · rw [hids, ((hvisit acc).map _).nodup_iff]
      exact hk
    · intro e
      rw [hids, ((hvisit acc).map _).mem_iff]
      have hge := hg e
      constructor
      · intro he hnil
        obtain ⟨⟨e', v⟩, hm, rfl⟩ := List.mem_map.1 he
        rw [mem_get hk] at hm
        rw [hm, if_pos hnil] at hge
        cases hge
      · intro hne
        rw [if_neg hne] at hge
        cases hac : getA acc e with
        | none => rw [hac] at hge; cases hge
        | some v => exact List.mem_map.2 ⟨(e, v), (mem_get hk e v).2 hac, rfl⟩
    · intro x hx
      obtain ⟨⟨e, v⟩, hm, rfl⟩ := List.mem_map.1 hx
      rw [(hvisit acc).mem_iff, mem_get hk] at hm
      have hge := hg e
      rw [hm] at hge
      simp only [Option.map_some] at hge
      by_cases hnil : scoresOf (contributions c via s o queries) e = []
      · rw [if_pos hnil] at hge; cases hge
      · rw [if_neg hnil] at hge
        injection hge with hge
        show Aggregates o.method (scoresOf (contributions c via s o queries) e) (aggregate o.method v.2)
        rw [hge]
        exact C75_aggregate o.method _ hnil
    · rw [← h]
      apply answer_cut (exchangeSort fun a b => decide (a.score > b.score))
      intro l
      refine ⟨exchangeSort_perm _ l, ?_⟩
      exact exchangeSort_sorted (fun x : Hit W => OrderDual.toDual x.score) _ (by intro a b; simp) l

open Classical in
/-- **C75 (partial).** When the store is searched without an index and TopK is at least the number of rows, what counts for a
field is every row in scope of this field that belongs to an entity: nothing is missed. -/
theorem C75_complete_partial (c : Cfg W) (hsort : SortsDesc c.sort) (s : MSt W HI) (wf : Verif.Thm.Store.WF (store s).db) (o : MOpts)
    (f : String) (v : List W) (hs : List (Hit W)) (hth : o.base.threshold ≤ 0) (hk : (s.rows.length : Int) ≤ o.base.topK)
    (hk1 : 0 < o.base.topK) (h : fieldSearch c .linear s o f v = .ok hs) :
    ∃ q, prepareQuery c (store s) v = .ok q ∧
      hs.Perm ((((store s).db.embeddings.filter fun r =>
        InScope (store s).db { o.base with filter := putA o.base.filter "_vector_field" f } r)).map
          (hitOf c (store s).db { o.base with filter := putA o.base.filter "_vector_field" f } q)) := by
  obtain ⟨q, hq, htop⟩ := C09_linear_topK c hsort (store s) wf v _ hs h
  refine ⟨q, hq, ?_⟩
  obtain ⟨rest, hperm, -⟩ := htop.best
  have hsize := htop.size
  have hlen : ∀ p : Row W → Bool, ((store s).db.embeddings.filter p).length ≤ s.rows.length := by
    intro p
    refine (List.length_filter_le _ _).trans ?_
    simp [store]
  have hask : asked { o.base with filter := putA o.base.filter "_vector_field" f } = o.base.topK.toNat := by
    unfold asked
    simp only
    rw [if_neg (by omega)]
  rw [hask, Nat.min_eq_right (by
    rw [List.length_map]
    refine (hlen _).trans ?_
    omega)] at hsize
  have hrest : rest = [] := by
    have := hperm.length_eq
    rw [List.length_append, hsize] at this
    exact List.length_eq_zero_iff.1 (by omega)
  rw [hrest, List.append_nil] at hperm
  refine hperm.trans (List.Perm.of_eq ?_)
  congr 1
  apply List.filter_congr
  intro r _
  rw [Bool.eq_iff_iff]
  simp only [decide_eq_true_eq]
  constructor
  · exact fun h => h.1
  · exact fun h => ⟨h, fun h' => absurd h' (not_lt.2 hth)⟩

/-! ### Examples for the search -/

/-- Two fields with two entities each. -/
def twoFields : MSt Nat Unit :=
  { collections := [⟨1, "default", 0⟩], documents := [], dim := 1
    rows := [fieldRow { id := "a", vectors := [] } "x" [10], fieldRow { id := "a", vectors := [] } "y" [0],
      fieldRow { id := "b", vectors := [] } "x" [9], fieldRow { id := "b", vectors := [] } "y" [9]] }

/-- **C75, violated.** The mean is taken over the fields where the entity was among the TopK of the field, not over the fields asked
for: "a" with the scores 10 and 0 comes before "b" with 9 and 9 when one result is asked for, after it when two are. -/
theorem C75_missing_field_violated :
    (searchMulti cfg0 .linear id twoFields [("x", [1]), ("y", [1])] { base := { topK := 1 } }).map (fun l => l.map fun h => (h.id, h.score)) =
      .ok [("a", 10)] ∧
    (searchMulti cfg0 .linear id twoFields [("x", [1]), ("y", [1])] { base := { topK := 2 } }).map (fun l => l.map fun h => (h.id, h.score)) =
      .ok [("b", 9), ("a", 5)] := by decide +kernel

/-- **C75, violated.** A search that fails for every field is an empty answer, not an error. -/
theorem C75_errors_hidden_violated (c : Cfg W) (via : Serve W) (visit : Acc W → Acc W) (hvisit : ∀ a, (visit a).Perm a) (s : MSt W HI)
    (hopen : s.closed = false) (queries : List (String × List W)) (o : MOpts)
    (hfail : ∀ q ∈ queries, ∃ e, fieldSearch c via s o q.1 q.2 = .error e) : searchMulti c via visit s queries o = .ok [] := by
  have hcol : ∀ (qs : List (String × List W)), (∀ q ∈ qs, ∃ e, fieldSearch c via s o q.1 q.2 = .error e) → collect c via s o qs [] = [] := by
    intro qs
    induction qs with
    | nil => intro _; rfl
    | cons q qs ih =>
      intro h
      obtain ⟨f, v⟩ := q
      obtain ⟨e, he⟩ := h (f, v) (by simp)
      simp only [collect]
      have := ih (fun q hq => h q (by simp [hq]))
      split
      · exact this
      · rw [he]; exact this
  have hv : visit [] = [] := List.Perm.eq_nil (hvisit [])
  unfold searchMulti
  rw [if_neg (by simp [hopen]), hcol queries hfail, hv]
  simp [exchangeSort]

/-- **C75, violated.** A row that has a metadata value other than a text cannot be found: it is in no result. -/
theorem C75_number_metadata_violated (c : Cfg W) (hsort : SortsDesc c.sort) (via : Serve W) (s : MSt W HI)
    (wf : Verif.Thm.Store.WF (store s).db) (o : MOpts) (f : String) (v : List W) (hs : List (Hit W))
    (h : fieldSearch c via s o f v = .ok hs) (r : MRow W) (hr : r ∈ s.rows) (m : List (String × Val)) (hm : r.json = some m)
    (hnum : ∃ kv ∈ m, kv.2.text = none) : r.id ∉ hs.map fun x => x.id := by
  intro hin
  obtain ⟨x, hx, hid⟩ := List.mem_map.1 hin
  obtain ⟨q, hq, rfl⟩ := prepared h
  obtain ⟨r', hr', rfl, -, hf, -, -⟩ := serve_mem c hsort via (store s) wf q _ x hx
  have h1 := hf ("_vector_field", f) (by simp [putA]) (by simp)
  obtain ⟨m', hm', -⟩ := h1
  have hrv : view r ∈ (store s).db.embeddings := List.mem_map_of_mem hr
  have hrr : r' = view r := by
    refine Verif.Thm.Store.nodup_inj (fun r : Row W => r.id) wf.embIds hr' hrv ?_
    simpa [hitOf, scan, view] using hid
  rw [hrr] at hm'
  simp only [view, hm, decode] at hm'
  obtain ⟨kv, hkv, ht⟩ := hnum
  rw [if_neg] at hm'
  · cases hm'
  · intro hall
    have := List.all_eq_true.1 hall kv hkv
    rw [ht] at this
    cases this

/-- **C130, violated.** A search writes the last field searched into the caller's filter, so a later search of the caller with the
same filter finds only rows of this field. -/
theorem C130_filter_violated (queries : List (String × List W)) (f : String) (v : List W) (m : Meta) :
    (filterAfter {} (queries ++ [(f, v)]) (some m)).bind (fun m => getA m "_vector_field") = some f := by
  have : ∀ (qs : List (String × List W)) (m : Meta), ∃ m', filterAfter {} (qs ++ [(f, v)]) (some m) = some (putA m' "_vector_field" f) := by
    intro qs
    induction qs with
    | nil => intro m; exact ⟨m, by simp [filterAfter]⟩
    | cons q qs ih =>
      intro m
      obtain ⟨g, w⟩ := q
      obtain ⟨m', h⟩ := ih (putA m "_vector_field" g)
      exact ⟨m', by simp only [List.cons_append, filterAfter]; simpa using h⟩
  obtain ⟨m', h⟩ := this queries m
  rw [h]
  simp [get_put]

/-- **C130 (partial).** A nil filter stays nil. -/
theorem C130_nil_partial (queries : List (String × List W)) (o : MOpts) : filterAfter o queries none = none := by
  induction queries with
  | nil => rfl
  | cons q qs ih =>
    obtain ⟨f, v⟩ := q
    simp only [filterAfter]
    split
    · exact ih
    · exact ih

/-! ## Composite identifiers -/

/-- Three underscores occur in the text. -/
def HasSep (l : List Char) : Prop := ['_', '_', '_'] <:+: l

/-- An entity identifier that never meets a separator. -/
def CleanID (e : String) : Prop := ¬ HasSep e.toList ∧ e.toList.getLast? ≠ some '_'

/-- A field name without an underscore. -/
def CleanField (f : String) : Prop := '_' ∉ f.toList

theorem split_clean {e e' f f' : List Char} (he : ¬ HasSep e ∧ e.getLast? ≠ some '_') (hlt : e'.length < e.length)
    (h : e ++ (['_', '_', '_'] ++ f) = e' ++ (['_', '_', '_'] ++ f')) : False := by
  obtain ⟨d, hd⟩ : ∃ d, e = e' ++ d := by
    have : e' <+: e := by
      apply List.prefix_of_prefix_length_le (l₃ := e ++ (['_', '_', '_'] ++ f))
      · rw [h]; exact List.prefix_append _ _
      · exact List.prefix_append _ _
      · omega
    obtain ⟨d, hd⟩ := this
    exact ⟨d, hd.symm⟩
  subst hd
  rw [List.append_assoc] at h
  have h := List.append_cancel_left h
  match d, h, hlt, he with
  | [], _, hlt, _ => simp at hlt
  | [a], h, _, he =>
    simp only [List.cons_append, List.nil_append, List.cons.injEq] at h
    obtain ⟨rfl, -⟩ := h
    exact he.2 (by simp)
  | [a, b], h, _, he =>
    simp only [List.cons_append, List.nil_append, List.cons.injEq] at h
    obtain ⟨rfl, rfl, -⟩ := h
    exact he.2 (by simp)
  | a :: b :: x :: d, h, _, he =>
    simp only [List.cons_append, List.nil_append, List.cons.injEq] at h
    obtain ⟨rfl, rfl, rfl, -⟩ := h
    exact he.1 ⟨e', d, by simp⟩

theorem split_field {e e' f f' : List Char} (hf : '_' ∉ f') (hlt : e'.length < e.length)
    (h : e ++ (['_', '_', '_'] ++ f) = e' ++ (['_', '_', '_'] ++ f')) : False := by
  apply hf
  obtain ⟨d, hd⟩ : ∃ d, e = e' ++ d := by
    have : e' <+: e := by
      apply List.prefix_of_prefix_length_le (l₃ := e ++ (['_', '_', '_'] ++ f))
      · rw [h]; exact List.prefix_append _ _
      · exact List.prefix_append _ _
      · omega
    obtain ⟨d, hd⟩ := this
    exact ⟨d, hd.symm⟩
  subst hd
  rw [List.append_assoc] at h
  have h := List.append_cancel_left h
  match d, h, hlt with
  | [], _, hlt => simp at hlt
  | [a], h, _ =>
    simp only [List.cons_append, List.nil_append, List.cons.injEq] at h
    obtain ⟨-, -, -, rfl⟩ := h
    simp
  | [a, b], h, _ =>
    simp only [List.cons_append, List.nil_append, List.cons.injEq] at h
    obtain ⟨-, -, -, rfl⟩ := h
    simp
  | a :: b :: x :: d, h, _ =>
    simp only [List.cons_append, List.nil_append, List.cons.injEq] at h
    obtain ⟨-, -, -, rfl⟩ := h
    simp

/-- **C75, identifiers (partial).** Different pairs of entity and field have different rows when the entity identifiers contain no
three underscores and do not end with one, or when the field names contain no underscore. -/
theorem C75_composite_partial (e e' f f' : String) (h : compositeID e f = compositeID e' f')
    (hg : (CleanID e ∧ CleanID e') ∨ (CleanField f ∧ CleanField f')) : e = e' ∧ f = f' := by
  have hl : e.toList ++ (['_', '_', '_'] ++ f.toList) = e'.toList ++ (['_', '_', '_'] ++ f'.toList) := by
    have := congrArg String.toList h
    simpa [compositeID, String.toList_append] using this
  have hlen : e.toList.length = e'.toList.length := by
    rcases Nat.lt_trichotomy e.toList.length e'.toList.length with h1 | h1 | h1
    · exfalso
      rcases hg with ⟨_, h2⟩ | ⟨h2, _⟩
      · exact split_clean h2 h1 hl.symm
      · exact split_field h2 h1 hl.symm
    · exact h1
    · exfalso
      rcases hg with ⟨h2, _⟩ | ⟨_, h2⟩
      · exact split_clean h2 h1 hl
      · exact split_field h2 h1 hl
  obtain ⟨h1, h2⟩ := List.append_inj hl hlen
  exact ⟨String.toList_inj.1 h1, String.toList_inj.1 (List.append_cancel_left h2)⟩

/-- Within one entity different fields always have different rows. -/
theorem composite_field (e f f' : String) (h : compositeID e f = compositeID e f') : f = f' := by
  have := congrArg String.toList h
  simp only [compositeID, String.toList_append, List.append_assoc] at this
  exact String.toList_inj.1 (List.append_cancel_left (List.append_cancel_left this))

/-- **C75, violated.** Different pairs can have the same row: field "b___c" of "a" and field "c" of "a___b", for all texts. -/
theorem C75_collision_violated (a b c : String) : compositeID a (b ++ "___" ++ c) = compositeID (a ++ "___" ++ b) c := by
  simp [compositeID, String.append_assoc]

/-! ## Writing -/

/-- Nothing stands in the way of the rows of this entity. -/
def Writable (encodes : List W → Bool) (fk : Bool) (s : MSt W HI) (e : Entity W) : Prop :=
  (∀ kv ∈ e.metadata, kv.2 ≠ .bad) ∧ (∀ fv ∈ e.vectors, encodes fv.2 = true) ∧
  (fk = true → (∃ c ∈ s.collections, c.id = 1) ∧ ∃ d ∈ s.documents, d.id = e.id)

theorem fieldMeta_ok (e : Entity W) (f : String) (h : ∀ kv ∈ e.metadata, kv.2 ≠ .bad) :
    ((fieldMeta e f).any fun kv => decide (kv.2 = .bad)) = false := by
  rw [Bool.eq_false_iff]
  intro hany
  obtain ⟨kv, hkv, hb⟩ := List.any_eq_true.1 hany
  have hb : kv.2 = .bad := by simpa using hb
  simp only [fieldMeta, putA, delA, List.mem_cons, List.mem_filter] at hkv
  rcases hkv with rfl | ⟨rfl | ⟨h1, _⟩, _⟩
  · cases hb
  · cases hb
  · exact h kv h1 hb

theorem upsertLoop_spec (encodes : List W → Bool) (hInsert : HI → String → List W → HI) (fk : Bool) (s : MSt W HI) (e : Entity W)
    (hmeta : ∀ kv ∈ e.metadata, kv.2 ≠ .bad)
    (hfk : fk = true → (∃ c ∈ s.collections, c.id = 1) ∧ ∃ d ∈ s.documents, d.id = e.id) :
    ∀ (vs : List (String × List W)) (rows : List (MRow W)) (h : Option HI), (∀ fv ∈ vs, encodes fv.2 = true) → (vs.map Prod.fst).Nodup →
    ∃ h', upsertLoop encodes hInsert fk s e vs rows h =
      (.ok (rows.filter (fun r => r.id ∉ vs.map fun fv => compositeID e.id fv.1) ++ vs.map fun fv => fieldRow e fv.1 fv.2), h')
  | [], rows, h, _, _ => ⟨h, by simp [upsertLoop]⟩
  | (f, v) :: vs, rows, h, henc, hn => by
    have h1 := fieldMeta_ok e f hmeta
    have h2 : encodes v = true := henc (f, v) (by simp)
    have h3 : (fk && !fkHolds (store s).db (view (fieldRow e f v))) = false := by
      cases hf : fk with
      | false => rfl
      | true =>
        obtain ⟨⟨c, hc, hc1⟩, d, hd, hd1⟩ := hfk hf
        have : fkHolds (store s).db (view (fieldRow e f v)) = true := by
          simp only [fkHolds, store, view, fieldRow, Bool.and_eq_true, List.any_eq_true, decide_eq_true_eq]
          exact ⟨⟨c, hc, decide_eq_true hc1⟩, d, hd, hd1⟩
        rw [this]; rfl
    rw [List.map_cons, List.nodup_cons] at hn
    obtain ⟨h', ih⟩ := upsertLoop_spec encodes hInsert fk s e hmeta hfk vs (rows.filter (fun r => r.id ≠ compositeID e.id f) ++ [fieldRow e f v])
      (h.map fun x => hInsert x (compositeID e.id f) v) (fun fv hfv => henc fv (by simp [hfv])) hn.2
    refine ⟨h', ?_⟩
    simp only [upsertLoop]
    rw [if_neg (by rw [h1]; simp), if_neg (by rw [h2]; simp), if_neg (by rw [h3]; simp), ih]
    congr 2
    rw [List.filter_append, List.filter_filter]
    have hkeep : [fieldRow e f v].filter (fun r => decide (r.id ∉ vs.map fun fv => compositeID e.id fv.1)) = [fieldRow e f v] := by
      rw [List.filter_eq_self]
      intro r hr
      simp only [List.mem_singleton] at hr
      subst hr
      rw [decide_eq_true_eq]
      intro hm
      obtain ⟨fv, hfv, he⟩ := List.mem_map.1 hm
      exact hn.1 (List.mem_map.2 ⟨fv, hfv, composite_field _ _ _ he⟩)
    rw [hkeep]
    simp only [List.map_cons, List.append_assoc, List.singleton_append]
    have hfilter : rows.filter (fun a => decide (a.id ∉ vs.map fun fv => compositeID e.id fv.1) && decide (a.id ≠ compositeID e.id f)) =
        rows.filter (fun r => decide (r.id ∉ compositeID e.id f :: vs.map fun fv => compositeID e.id fv.1)) := by
      apply List.filter_congr
      intro r _
      rw [Bool.eq_iff_iff, Bool.and_eq_true, decide_eq_true_eq, decide_eq_true_eq, decide_eq_true_eq, List.mem_cons, not_or]
      exact and_comm
    rw [hfilter]

/-- The rows after writing: those of other identifiers as before, then one row for each field. -/
theorem upsert_rows (encodes : List W → Bool) (hInsert : HI → String → List W → HI) (fk : Bool) (s : MSt W HI) (hopen : s.closed = false)
    (e : Entity W) (hn : (e.vectors.map Prod.fst).Nodup) (hw : Writable encodes fk s e) :
    (upsert encodes hInsert fk false s e).2 = .ok ∧
    (upsert encodes hInsert fk false s e).1.rows = s.rows.filter (fun r => r.id ∉ e.vectors.map fun fv => compositeID e.id fv.1) ++
      e.vectors.map (fun fv => fieldRow e fv.1 fv.2) ∧ (upsert encodes hInsert fk false s e).1.closed = false := by
  obtain ⟨h', h⟩ := upsertLoop_spec encodes hInsert fk s e hw.1 hw.2.2 e.vectors s.rows s.hnsw hw.2.1 hn
  unfold upsert
  rw [if_neg (by simp [hopen]), h]
  exact ⟨rfl, rfl, hopen⟩

/-- **C131, violated.** On a connection that enforces foreign keys no entity can be stored unless a document of the same identifier
exists: the write fails and the rows stay as they were. -/
theorem C131_document_violated (encodes : List W → Bool) (hInsert : HI → String → List W → HI) (s : MSt W HI) (hopen : s.closed = false)
    (e : Entity W) (hne : e.vectors ≠ []) (hm : ∀ kv ∈ e.metadata, kv.2 ≠ .bad) (henc : ∀ fv ∈ e.vectors, encodes fv.2 = true)
    (hdoc : ∀ d ∈ s.documents, d.id ≠ e.id) :
    upsert encodes hInsert true false s e = (s, .err .constraint) := by
  unfold upsert
  rw [if_neg (by simp [hopen])]
  cases hv : e.vectors with
  | nil => exact absurd hv hne
  | cons fv vs =>
    obtain ⟨f, v⟩ := fv
    simp only [upsertLoop]
    rw [if_neg (by rw [fieldMeta_ok e f hm]; simp), if_neg (by rw [henc (f, v) (by rw [hv]; simp)]; simp), if_pos]
    have : fkHolds (store s).db (view (fieldRow e f v)) = false := by
      simp only [fkHolds, view, fieldRow, store]
      rw [Bool.and_eq_false_iff]
      right
      rw [Bool.eq_false_iff]
      intro h
      obtain ⟨d, hd, he⟩ := List.any_eq_true.1 h
      exact hdoc d hd (by simpa using he)
    rw [this]
    rfl

/-- **C131 (partial).** A write that fails leaves the rows as they were. -/
theorem C131_atomic_partial (encodes : List W → Bool) (hInsert : HI → String → List W → HI) (fk fault : Bool) (s : MSt W HI)
    (e : Entity W) (er : Err) (h : (upsert encodes hInsert fk fault s e).2 = .err er) :
    (upsert encodes hInsert fk fault s e).1.rows = s.rows := by
  unfold upsert at h ⊢
  by_cases hc : s.closed
  · rw [if_pos hc]
  · rw [if_neg hc] at h ⊢
    cases hl : upsertLoop encodes hInsert fk s e e.vectors s.rows s.hnsw with
    | mk r hn =>
      rw [hl] at h
      cases r with
      | error er => rfl
      | ok rows =>
        simp only at h ⊢
        cases fault with
        | true => rfl
        | false => simp at h

/-- **C131, violated.** But not the index: it keeps the vectors of the fields before the one that failed. -/
theorem C131_index_violated : ∃ (encodes : List Nat → Bool) (s : MSt Nat (List String)) (e : Entity Nat),
    (upsert encodes (fun h id _ => h ++ [id]) false false s e).2 = .err .invalidVector ∧
    (upsert encodes (fun h id _ => h ++ [id]) false false s e).1.rows = [] ∧
    (upsert encodes (fun h id _ => h ++ [id]) false false s e).1.hnsw = some ["a___x"] :=
  ⟨fun v => v ≠ [], { collections := [], documents := [], rows := [], hnsw := some [] }, { id := "a", vectors := [("x", [1]), ("y", [])] },
    by decide, by decide, by decide⟩

/-- **C75, writing (partial).** Writing an entity leaves the rows of another entity as they are, under the guard on identifiers. -/
theorem C75_others_kept_partial (encodes : List W → Bool) (hInsert : HI → String → List W → HI) (fk : Bool) (s : MSt W HI)
    (hopen : s.closed = false) (e : Entity W) (hn : (e.vectors.map Prod.fst).Nodup) (hw : Writable encodes fk s e) (r : MRow W)
    (hr : r ∈ s.rows) (e' f' : String) (hid : r.id = compositeID e' f') (hne : e' ≠ e.id)
    (hg : (CleanID e.id ∧ CleanID e') ∨ (CleanField f' ∧ ∀ fv ∈ e.vectors, CleanField fv.1)) :
    r ∈ (upsert encodes hInsert fk false s e).1.rows := by
  rw [(upsert_rows encodes hInsert fk s hopen e hn hw).2.1]
  apply List.mem_append_left
  rw [List.mem_filter]
  refine ⟨hr, ?_⟩
  rw [decide_eq_true_eq]
  intro hm
  obtain ⟨fv, hfv, he⟩ := List.mem_map.1 hm
  rw [hid] at he
  have := C75_composite_partial e.id e' fv.1 f' he (by
    rcases hg with hg | ⟨h1, h2⟩
    · exact Or.inl hg
    · exact Or.inr ⟨h2 fv hfv, h1⟩)
  exact hne this.1.symm

/-! ## Reading back -/

theorem entityOf_fieldRow (e : Entity W) (f : String) (v : List W) : entityOf (fieldRow e f v) = some e.id := by
  simp [entityOf, fieldRow, fieldMeta, get_put]

theorem getA_fold {β : Type} : ∀ (m acc : List (String × β)), KeysOk m → ∀ k,
    getA (m.foldl (fun a kv => putA a kv.1 kv.2) acc) k = (getA m k).or (getA acc k)
  | [], acc, _, k => by simp [getA]
  | (x, v) :: m, acc, hk, k => by
    unfold KeysOk at hk
    rw [List.map_cons, List.nodup_cons] at hk
    rw [List.foldl_cons, getA_fold m _ hk.2 k, get_put]
    have hcons : getA ((x, v) :: m) k = if k = x then some v else getA m k := by
      unfold getA
      by_cases h : k = x
      · simp [h]
      · rw [if_neg h, List.find?_cons_of_neg (by simpa using fun h' => h h'.symm)]
    rw [hcons]
    by_cases h : k = x
    · rw [if_pos h, if_pos h, h]
      have : getA m x = none := by
        cases hg : getA m x with
        | none => rfl
        | some w => exact absurd (List.mem_map.2 ⟨(x, w), (mem_get hk.2 x w).2 hg, rfl⟩) hk.1
      rw [this]
      rfl
    · rw [if_neg h, if_neg h]

/-- The metadata without the two entries of the library. -/
def Cleaned (e : Entity W) (k : String) : Option Val :=
  if k = "_entity_id" ∨ k = "_vector_field" then none else getA e.metadata k

theorem cleaned_get (e : Entity W) (f k : String) : getA (delA (delA (fieldMeta e f) "_entity_id") "_vector_field") k = Cleaned e k := by
  unfold Cleaned fieldMeta
  rw [get_del, get_del, get_put, get_put]
  by_cases h1 : k = "_vector_field"
  · rw [if_pos h1, if_pos (Or.inr h1)]
  · rw [if_neg h1]
    by_cases h2 : k = "_entity_id"
    · rw [if_pos h2, if_pos (Or.inl h2)]
    · rw [if_neg h2, if_neg h1, if_neg h2, if_neg (by tauto)]

theorem fold_read_id (rs : List (MRow W)) : ∀ acc : Entity W, (rs.foldl readRow acc).id = acc.id := by
  induction rs with
  | nil => intro _; rfl
  | cons r rs ih => intro acc; rw [List.foldl_cons, ih]; rfl

theorem fold_read_vectors (e : Entity W) : ∀ (vs : List (String × List W)) (acc : Entity W),
    ((vs.map fun fv => fieldRow e fv.1 fv.2).foldl readRow acc).vectors = vs.foldl (fun a fv => putA a fv.1 fv.2) acc.vectors
  | [], _ => rfl
  | fv :: vs, acc => by
    rw [List.map_cons, List.foldl_cons, fold_read_vectors e vs, List.foldl_cons]
    simp [readRow, fieldRow, fieldMeta, get_put]

theorem fold_read_content (e : Entity W) : ∀ (vs : List (String × List W)) (acc : Entity W),
    ((vs.map fun fv => fieldRow e fv.1 fv.2).foldl readRow acc).content =
      if vs ≠ [] ∧ acc.content = "" then e.content else acc.content
  | [], _ => by simp
  | fv :: vs, acc => by
    rw [List.map_cons, List.foldl_cons, fold_read_content e vs]
    simp only [readRow, fieldRow]
    by_cases h : acc.content = "" <;> simp [h]

theorem fold_read_metadata (e : Entity W) (hk : KeysOk e.metadata) : ∀ (vs : List (String × List W)) (acc : Entity W) (k : String),
    getA ((vs.map fun fv => fieldRow e fv.1 fv.2).foldl readRow acc).metadata k =
      if vs = [] then getA acc.metadata k else (Cleaned e k).or (getA acc.metadata k)
  | [], _, _ => by simp
  | fv :: vs, acc, k => by
    rw [List.map_cons, List.foldl_cons, fold_read_metadata e hk vs]
    have h1 : getA (readRow acc (fieldRow e fv.1 fv.2)).metadata k = (Cleaned e k).or (getA acc.metadata k) := by
      simp only [readRow, fieldRow, Option.getD_some]
      have hk' : KeysOk (delA (delA (fieldMeta e fv.1) "_entity_id") "_vector_field") :=
        keys_del (keys_del (keys_put (keys_put hk _ _) _ _) _) _
      rw [getA_fold _ _ hk', cleaned_get]
    rw [h1, if_neg (List.cons_ne_nil _ _)]
    by_cases hv : vs = []
    · rw [if_pos hv]
    · rw [if_neg hv]
      cases Cleaned e k <;> rfl

/-- **C75, round trip (partial).** An entity with at least one vector that is written to a store where every record has metadata, and
that has no vector of a field that is not written again, is read back with the same identifier, content and vectors, and with the
same metadata but for the two names used by the library. -/
theorem C75_round_trip_partial [DecidableEq W] (encodes : List W → Bool) (hInsert : HI → String → List W → HI) (fk : Bool)
    (s : MSt W HI) (hopen : s.closed = false) (e : Entity W) (hn : (e.vectors.map Prod.fst).Nodup) (hk : KeysOk e.metadata)
    (hw : Writable encodes fk s e) (hne : e.vectors ≠ []) (hjson : ∀ r ∈ s.rows, r.json.isSome)
    (hold : ∀ r ∈ s.rows, entityOf r = some e.id → r.id ∈ e.vectors.map fun fv => compositeID e.id fv.1) :
    (upsert encodes hInsert fk false s e).2 = .ok ∧
    ∃ out, get (upsert encodes hInsert fk false s e).1 e.id = .ok out ∧ out.id = e.id ∧ out.content = e.content ∧
      (∀ f, getA out.vectors f = getA e.vectors f) ∧ (∀ k, getA out.metadata k = Cleaned e k) := by
  obtain ⟨h1, h2, h3⟩ := upsert_rows encodes hInsert fk s hopen e hn hw
  refine ⟨h1, ?_⟩
  have hall : (upsert encodes hInsert fk false s e).1.rows.all (fun r => r.json.isSome) = true := by
    rw [h2, List.all_eq_true]
    intro r hr
    rcases List.mem_append.1 hr with hr | hr
    · exact hjson r (List.mem_of_mem_filter hr)
    · obtain ⟨fv, _, rfl⟩ := List.mem_map.1 hr
      rfl
  have hrows : entityRows (upsert encodes hInsert fk false s e).1.rows e.id = .ok (e.vectors.map fun fv => fieldRow e fv.1 fv.2) := by
    unfold entityRows
    simp only
    rw [if_pos hall, List.takeWhile_eq_self_iff.2 (List.all_eq_true.1 hall), h2, List.filter_append]
    congr 1
    have hA : (s.rows.filter fun r => decide (r.id ∉ e.vectors.map fun fv => compositeID e.id fv.1)).filter (fun r => decide (entityOf r = some e.id)) = [] := by
      rw [List.filter_eq_nil_iff]
      intro r hr
      rw [List.mem_filter] at hr
      intro hent
      exact (by simpa using hr.2 : r.id ∉ _) (hold r hr.1 (by simpa using hent))
    rw [hA, List.nil_append, List.filter_eq_self]
    intro r hr
    obtain ⟨fv, _, rfl⟩ := List.mem_map.1 hr
    simp [entityOf_fieldRow]
  have hvec : ((e.vectors.map fun fv => fieldRow e fv.1 fv.2).foldl readRow { id := e.id, vectors := [] }).vectors =
      e.vectors.foldl (fun a fv => putA a fv.1 fv.2) [] := fold_read_vectors e _ _
  have hget : ∀ f, getA (e.vectors.foldl (fun a fv => putA a fv.1 fv.2) []) f = getA e.vectors f := by
    intro f
    rw [getA_fold _ _ hn]
    cases getA e.vectors f <;> simp [getA]
  refine ⟨(e.vectors.map fun fv => fieldRow e fv.1 fv.2).foldl readRow { id := e.id, vectors := [] }, ?_, ?_, ?_, ?_, ?_⟩
  · unfold get
    rw [if_neg (by simp [h3]), hrows]
    simp only
    rw [if_neg]
    rw [hvec]
    intro h0
    have hnil := List.length_eq_zero_iff.1 h0
    cases hv : e.vectors with
    | nil => exact hne hv
    | cons fv vs =>
      have := hget fv.1
      rw [hnil, hv] at this
      simp [getA] at this
  · exact fold_read_id _ _
  · rw [fold_read_content]
    simp [hne]
  · intro f
    rw [hvec]
    exact hget f
  · intro k
    rw [fold_read_metadata e hk, if_neg hne]
    cases Cleaned e k <;> simp [getA]

/-- **C75, violated.** Writing an entity again with fewer fields keeps the vector of the field that is gone, for every such row. -/
theorem C75_stale_field_violated (encodes : List W → Bool) (hInsert : HI → String → List W → HI) (fk : Bool) (s : MSt W HI)
    (hopen : s.closed = false) (e : Entity W) (hn : (e.vectors.map Prod.fst).Nodup) (hw : Writable encodes fk s e) (r : MRow W)
    (hr : r ∈ s.rows) (f : String) (hid : r.id = compositeID e.id f) (hgone : f ∉ e.vectors.map Prod.fst) :
    r ∈ (upsert encodes hInsert fk false s e).1.rows := by
  rw [(upsert_rows encodes hInsert fk s hopen e hn hw).2.1]
  apply List.mem_append_left
  rw [List.mem_filter]
  refine ⟨hr, ?_⟩
  rw [decide_eq_true_eq]
  intro hm
  obtain ⟨fv, hfv, he⟩ := List.mem_map.1 hm
  rw [hid] at he
  exact hgone (composite_field _ _ _ he ▸ List.mem_map_of_mem hfv)

/-- An empty store. -/
def empty : MSt Nat Unit := { collections := [⟨1, "default", 0⟩], documents := [], rows := [] }

/-- Writing without an index. -/
def put (s : MSt Nat Unit) (e : Entity Nat) : MSt Nat Unit := (upsert (fun v => v ≠ []) (fun h _ _ => h) false false s e).1

/-- The fields read back. -/
def fieldsOf (s : MSt Nat Unit) (id : String) : Option (List (String × List Nat)) :=
  match get s id with
  | .ok e => some e.vectors
  | .error _ => none

/-- **C75, violated.** So reading it gives a vector that the entity last written does not have. -/
theorem C75_stale_read_violated :
    fieldsOf (put (put empty { id := "a", vectors := [("x", [1]), ("y", [2])] }) { id := "a", vectors := [("x", [3])] }) "a" =
      some [("x", [3]), ("y", [2])] := by decide +kernel

/-- **C75, violated.** Writing one entity can destroy another. -/
theorem C75_overwrite_violated :
    fieldsOf (put empty { id := "a", vectors := [("b___c", [1])] }) "a" = some [("b___c", [1])] ∧
    fieldsOf (put (put empty { id := "a", vectors := [("b___c", [1])] }) { id := "a___b", vectors := [("c", [2])] }) "a" = none := by
  decide +kernel

/-- **C75, violated.** An entity without vectors is stored with success, and is not there. -/
theorem C75_no_vectors_violated [DecidableEq W] (encodes : List W → Bool) (hInsert : HI → String → List W → HI) (fk : Bool)
    (s : MSt W HI) (hopen : s.closed = false) (e : Entity W) (hv : e.vectors = []) (hjson : ∀ r ∈ s.rows, r.json.isSome)
    (hold : ∀ r ∈ s.rows, entityOf r ≠ some e.id) :
    (upsert encodes hInsert fk false s e).2 = .ok ∧ get (upsert encodes hInsert fk false s e).1 e.id = .error .notFound := by
  have hall : s.rows.all (fun r => r.json.isSome) = true := List.all_eq_true.2 hjson
  have hrows : entityRows s.rows e.id = .ok [] := by
    unfold entityRows
    simp only
    rw [if_pos hall, List.takeWhile_eq_self_iff.2 (List.all_eq_true.1 hall)]
    congr 1
    rw [List.filter_eq_nil_iff]
    intro r hr
    simpa using hold r hr
  unfold upsert
  rw [if_neg (by simp [hopen]), hv]
  simp only [upsertLoop, Bool.false_eq_true, if_false, true_and]
  unfold get
  simp only [hopen, Bool.false_eq_true, if_false, hrows]
  rfl

/-- **C75, violated.** One record without metadata before every record of the entity makes the entity unreadable. -/
theorem C75_plain_record_violated [DecidableEq W] (s : MSt W HI) (hopen : s.closed = false) (r : MRow W) (rest before : List (MRow W))
    (hrows : s.rows = before ++ r :: rest) (hr : r.json = none) (id : String) (hb : ∀ x ∈ before, entityOf x ≠ some id) :
    get s id = .error .io := by
  have hseen : ((s.rows.takeWhile fun r => r.json.isSome).filter fun r => decide (entityOf r = some id)) = [] := by
    rw [List.filter_eq_nil_iff]
    intro x hx
    have : x ∈ before := by
      rw [hrows] at hx
      clear hrows hb
      induction before with
      | nil => simp [hr] at hx
      | cons b before ih =>
        rw [List.cons_append, List.takeWhile_cons] at hx
        split at hx
        · rcases List.mem_cons.1 hx with rfl | hx
          · simp
          · exact List.mem_cons_of_mem _ (ih hx)
        · simp at hx
    simpa using hb x this
  have hall : s.rows.all (fun r => r.json.isSome) = false := by
    rw [Bool.eq_false_iff]
    intro h
    have := List.all_eq_true.1 h r (by rw [hrows]; simp)
    rw [hr] at this
    cases this
  unfold get entityRows
  rw [if_neg (by simp [hopen])]
  simp only [hall, hseen, Bool.false_eq_true, if_false, if_true]

/-- **C75, violated.** And one record without metadata after the first record of the entity cuts the rest off. -/
theorem C75_cut_off_violated :
    fieldsOf { empty with rows := [fieldRow { id := "a", vectors := [] } "x" [1], { id := "r", vector := [5] }, fieldRow { id := "a", vectors := [] } "y" [2]] } "a" =
      some [("x", [1])] := by decide +kernel

/-! ## Deleting -/

/-- **C132, deleting (partial).** When every record has metadata, deleting an entity removes exactly its rows, and it is not found
afterwards; the index is told each of their identifiers. -/
theorem C132_delete_partial [DecidableEq W] (hDelete : HI → String → HI) (s : MSt W HI) (hopen : s.closed = false) (id : String)
    (hjson : ∀ r ∈ s.rows, r.json.isSome) :
    (delete hDelete s id).2 = .ok ∧
    (∀ r, r ∈ (delete hDelete s id).1.rows ↔ r ∈ s.rows ∧ entityOf r ≠ some id) ∧
    get (delete hDelete s id).1 id = .error .notFound ∧
    (delete hDelete s id).1.hnsw = s.hnsw.map fun h => ((s.rows.filter fun r => entityOf r = some id).map fun r => r.id).foldl hDelete h := by
  have hall : s.rows.all (fun r => r.json.isSome) = true := List.all_eq_true.2 hjson
  have hrows : entityRows s.rows id = .ok (s.rows.filter fun r => entityOf r = some id) := by
    unfold entityRows
    simp only
    rw [if_pos hall, List.takeWhile_eq_self_iff.2 (List.all_eq_true.1 hall)]
  have hd : delete hDelete s id = ({ s with rows := s.rows.filter (fun r => entityOf r ≠ some id)
                                            hnsw := s.hnsw.map fun h => ((s.rows.filter fun r => entityOf r = some id).map fun r => r.id).foldl hDelete h }, .ok) := by
    unfold delete
    rw [if_neg (by simp [hopen]), hrows]
    simp only [hall, if_true]
  rw [hd]
  refine ⟨rfl, ?_, ?_, rfl⟩
  · intro r
    simp [List.mem_filter]
  · have hall' : (s.rows.filter fun r => decide (entityOf r ≠ some id)).all (fun r => r.json.isSome) = true :=
      List.all_eq_true.2 fun r hr => hjson r (List.mem_of_mem_filter hr)
    have : entityRows (s.rows.filter fun r => decide (entityOf r ≠ some id)) id = .ok [] := by
      unfold entityRows
      simp only
      rw [if_pos hall', List.takeWhile_eq_self_iff.2 (List.all_eq_true.1 hall'), List.filter_filter]
      congr 1
      rw [List.filter_eq_nil_iff]
      intro r _
      simp
    unfold get
    simp only [hopen, Bool.false_eq_true, if_false, this]
    rfl

/-- **C132, violated.** With one record without metadata anywhere in the store no entity can be deleted. -/
theorem C132_plain_record_violated [DecidableEq W] (hDelete : HI → String → HI) (s : MSt W HI) (hopen : s.closed = false) (id : String)
    (r : MRow W) (hr : r ∈ s.rows) (hj : r.json = none) : delete hDelete s id = (s, .err .io) := by
  have hall : s.rows.all (fun r => r.json.isSome) = false := by
    rw [Bool.eq_false_iff]
    intro h
    have := List.all_eq_true.1 h r hr
    rw [hj] at this
    cases this
  unfold delete
  rw [if_neg (by simp [hopen])]
  have : entityRows s.rows id = .error .io ∨ ∃ rs, entityRows s.rows id = .ok rs := by
    unfold entityRows
    simp only [hall, Bool.false_eq_true, if_false]
    split
    · exact Or.inl rfl
    · exact Or.inr ⟨_, rfl⟩
  rcases this with h | ⟨rs, h⟩
  · rw [h]
  · rw [h]
    simp [hall]

/-! ## The hypotheses can be met -/

/-- An entity with two vectors, text and metadata. -/
def sample : Entity Nat := { id := "a", vectors := [("x", [1]), ("y", [2, 3])], metadata := [("k", .str "v"), ("n", .other "1")], content := "t" }

/-- A store with another entity. -/
def other : MSt Nat Unit := put empty { id := "b", vectors := [("x", [9])] }

example : Writable (fun v => v ≠ []) false other sample := by
  refine ⟨by decide, by decide, by simp⟩

example : Writable (fun v => v ≠ []) true { other with documents := [⟨"a", "", none⟩] } sample :=
  ⟨by decide, by decide, fun _ => ⟨⟨_, List.mem_singleton.2 rfl, rfl⟩, _, List.mem_singleton.2 rfl, rfl⟩⟩

example : (sample.vectors.map Prod.fst).Nodup ∧ KeysOk sample.metadata ∧ sample.vectors ≠ [] ∧ (∀ r ∈ other.rows, r.json.isSome) ∧
    (∀ r ∈ other.rows, entityOf r = some sample.id → r.id ∈ sample.vectors.map fun fv => compositeID sample.id fv.1) := by
  unfold KeysOk
  decide +kernel

example : (match get (put other sample) "a" with
    | .ok e => some (e.vectors, e.content, e.metadata)
    | .error _ => none) = some ([("y", [2, 3]), ("x", [1])], "t", [("n", .other "1"), ("k", .str "v")]) := by decide +kernel

example : CleanField "title" ∧ CleanField "body" := by unfold CleanField; decide +kernel

example : CleanID "doc_1" := by
  refine ⟨?_, by decide +kernel⟩
  unfold HasSep
  decide +kernel

example : (delete (fun h _ => h) (put other sample) "a").1.rows.map (fun r => r.id) = ["b___x"] := by decide +kernel

example : ∃ out, searchMulti cfg0 .linear id twoFields [("x", [1]), ("y", [1])] { method := .max, weights := [("y", 2)], base := { topK := 5 } } = .ok out ∧
    out.map (fun h => (h.id, h.score)) = [("b", 18), ("a", 10)] := ⟨_, rfl, by decide +kernel⟩

example : Verif.Thm.Store.WF (store twoFields).db ∧ ∃ hs, fieldSearch cfg0 .linear twoFields { base := { topK := 4 } } "x" [1] = .ok hs ∧ hs.length = 2 := by
  refine ⟨⟨?_, ?_, ?_, ?_, ?_, ?_, ?_⟩, _, rfl, ?_⟩ <;> decide +kernel

end Verif.MultiVector
