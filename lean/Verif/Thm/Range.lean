import Verif.Model.Range
import Verif.Thm.Search
import Verif.Thm.Aggregate
import Verif.Thm.Similarity

/-!
# Range search (C25) and faceted search (C123, C124)
-/

namespace Verif.Range

open Verif.Model.Store Verif.Model.Search Verif.Base Verif.Spec Verif.Thm.Search
open Verif.Model.Filter (Lib extract plainField)

variable {W HI VI : Type}

/-! ## C25 -/

/-- The record as a range search shows it: with its distance for a score. -/
def ranged (db : DB W) (d : List W → ℚ) (r : Row W) : Hit W := { scan db r with score := d r.vector }

open Classical in
/-- The records that a range search should find: in scope, with a vector, at most `radius` away. -/
noncomputable def inRange (db : DB W) (o : Opts) (d : List W → ℚ) (radius : ℚ) : List (Row W) :=
  db.embeddings.filter fun r => InScope db o r ∧ r.vector ≠ [] ∧ d r.vector ≤ radius

theorem fetch_mem (db : DB W) (wf : Verif.Thm.Store.WF db) (o : Opts) :
    fetchCandidates db o = (open Classical in db.embeddings.filter fun r => InScope db o r).map (scan db) := by
  classical
  unfold fetchCandidates
  rw [List.filter_map, List.filter_filter]
  congr 1
  apply List.filter_congr
  intro r _
  rw [Bool.eq_iff_iff]
  simp only [Bool.and_eq_true, Function.comp, decide_eq_true_iff]
  rw [sqlMatch_iff _ wf, matchesFilter_iff, InScope, filterOK_iff]
  constructor
  · rintro ⟨h3, h1, h2⟩; exact ⟨h1, h2, h3⟩
  · rintro ⟨h1, h2, h3⟩; exact ⟨h3, h1, h2⟩

theorem within_eq (c : Cfg W) (db : DB W) (wf : Verif.Thm.Store.WF db) (o : Opts) (query : List W) (radius : ℚ) (d : List W → ℚ)
    (hd : ∀ r ∈ db.embeddings, InScope db o r → r.vector ≠ [] → distance (c.sim query r.vector) = d r.vector) :
    within c query radius (fetchCandidates db o) = (inRange db o d radius).map (ranged db d) := by
  classical
  rw [fetch_mem db wf, within, List.filterMap_map, inRange]
  generalize hl : db.embeddings = l at hd
  clear hl
  induction l with
  | nil => rfl
  | cons r l ih =>
    have ih := ih (fun x hx => hd x (List.mem_cons_of_mem _ hx))
    by_cases hs : InScope db o r
    · rw [List.filter_cons_of_pos (by simpa using hs), List.filterMap_cons]
      by_cases hv : r.vector = []
      · rw [List.filter_cons_of_neg (by simp [hv])]
        simp only [Function.comp_apply, scan, hv, List.length_nil, if_true]
        exact ih
      · have hlen : r.vector.length ≠ 0 := by simpa using hv
        have hdr := hd r (by simp) hs hv
        by_cases hr : d r.vector ≤ radius
        · rw [List.filter_cons_of_pos (by simpa using ⟨hs, hv, hr⟩)]
          simp only [Function.comp_apply, scan, if_neg hlen, hdr, if_pos hr, List.map_cons]
          rw [← ih]
          rfl
        · rw [List.filter_cons_of_neg (by simp [hr])]
          simp only [Function.comp_apply, scan, if_neg hlen, hdr, if_neg hr]
          exact ih
    · rw [List.filter_cons_of_neg (by simpa using hs), List.filter_cons_of_neg (by simp [hs])]
      exact ih

/-- What a range search owes: without a limit all the records in range, nearest first, with one the nearest of them. -/
def Answers (db : DB W) (o : Opts) (d : List W → ℚ) (radius : ℚ) (out : List (Hit W)) : Prop :=
  (o.topK ≤ 0 → out.Perm ((inRange db o d radius).map (ranged db d)) ∧ out.Pairwise (fun a b => a.score ≤ b.score)) ∧
  (0 < o.topK → IsTopK (fun h : Hit W => -h.score) ((inRange db o d radius).map (ranged db d)) o.topK.toNat out)

/-- Whenever the number read off the score is the distance, the range search is right. -/
theorem range_exact (c : Cfg W) (sortAsc : List (Hit W) → List (Hit W))
    (hsort : ∀ l, SortedFrom (fun a b => a.score ≤ b.score) l (sortAsc l)) (s : St W HI VI) (hs : s.closed = false)
    (wf : Verif.Thm.Store.WF s.db) (query : List W) (radius : ℚ) (hr : 0 < radius) (o : Opts) (d : List W → ℚ)
    (hd : ∀ r ∈ s.db.embeddings, InScope s.db o r → r.vector ≠ [] → distance (c.sim query r.vector) = d r.vector) :
    ∃ out, rangeSearch c sortAsc s query radius o = .ok out ∧ Answers s.db o d radius out := by
  unfold rangeSearch
  rw [hs, if_neg (by simp), if_neg (not_le.2 hr), within_eq c s.db wf o query radius d hd]
  refine ⟨_, rfl, ?_, ?_⟩
  · intro hk
    rw [if_neg (by omega)]
    exact hsort _
  · intro hk
    have h2 : SortedFrom (fun a b : Hit W => -b.score ≤ -a.score) ((inRange s.db o d radius).map (ranged s.db d))
        (sortAsc ((inRange s.db o d radius).map (ranged s.db d))) := by
      refine ⟨(hsort _).1, (hsort _).2.imp ?_⟩
      intro a b hab
      linarith
    have := isTopK_take (fun h : Hit W => -h.score) _ _ o.topK.toNat h2
    split
    · exact this
    · rename_i hn
      rw [List.take_of_length_le (by omega)] at this
      exact this

/-- **C25 (partial), Euclidean distance.** On a store whose score is the negated distance, for every query, radius, scope and
limit, a range search finds exactly the records of the scope at most `radius` away, nearest first, all of them unless a limit
is given. -/
theorem C25_euclid_partial (c : Cfg W) (sortAsc : List (Hit W) → List (Hit W))
    (hsort : ∀ l, SortedFrom (fun a b => a.score ≤ b.score) l (sortAsc l)) (s : St W HI VI) (hs : s.closed = false)
    (wf : Verif.Thm.Store.WF s.db) (query : List W) (radius : ℚ) (hr : 0 < radius) (o : Opts) (d : List W → ℚ)
    (hpos : ∀ v, 0 ≤ d v) (hd : ∀ v, c.sim query v = -d v) :
    ∃ out, rangeSearch c sortAsc s query radius o = .ok out ∧ Answers s.db o d radius out := by
  apply range_exact c sortAsc hsort s hs wf query radius hr o d
  intro r _ _ _
  have := hpos r.vector
  rw [hd, distance, if_pos (by linarith)]
  simp

/-- **C25 (partial), cosine.** On a store whose score is one minus the distance, the same holds when every record of the scope
has positive similarity to the query. -/
theorem C25_cosine_partial (c : Cfg W) (sortAsc : List (Hit W) → List (Hit W))
    (hsort : ∀ l, SortedFrom (fun a b => a.score ≤ b.score) l (sortAsc l)) (s : St W HI VI) (hs : s.closed = false)
    (wf : Verif.Thm.Store.WF s.db) (query : List W) (radius : ℚ) (hr : 0 < radius) (o : Opts)
    (hpos : ∀ r ∈ s.db.embeddings, InScope s.db o r → r.vector ≠ [] → 0 < c.sim query r.vector) :
    ∃ out, rangeSearch c sortAsc s query radius o = .ok out ∧ Answers s.db o (fun v => 1 - c.sim query v) radius out := by
  apply range_exact c sortAsc hsort s hs wf query radius hr o
  intro r h1 h2 h3
  rw [distance, if_neg (not_le.2 (hpos r h1 h2 h3))]

/-- **C25, violated.** With cosine similarity every record of the scope that is orthogonal to the query, or has another
dimension (similarity 0, so at distance 1), is found for every positive radius, however small, and shown at distance 0. -/
theorem C25_orthogonal_violated (c : Cfg W) (sortAsc : List (Hit W) → List (Hit W))
    (hsort : ∀ l, SortedFrom (fun a b => a.score ≤ b.score) l (sortAsc l)) (s : St W HI VI) (hs : s.closed = false)
    (wf : Verif.Thm.Store.WF s.db) (query : List W) (radius : ℚ) (hr : 0 < radius) (o : Opts) (ho : o.topK ≤ 0) (r : Row W)
    (hm : r ∈ s.db.embeddings) (hin : InScope s.db o r) (hv : r.vector ≠ []) (h0 : c.sim query r.vector = 0) :
    ∃ out, rangeSearch c sortAsc s query radius o = .ok out ∧ { scan s.db r with score := 0 } ∈ out := by
  obtain ⟨out, h1, h2⟩ := range_exact c sortAsc hsort s hs wf query radius hr o (fun v => distance (c.sim query v))
    (fun _ _ _ _ => rfl)
  refine ⟨out, h1, ?_⟩
  rw [(h2.1 ho).1.mem_iff]
  refine List.mem_map.2 ⟨r, ?_, ?_⟩
  · unfold inRange
    rw [List.mem_filter]
    refine ⟨hm, ?_⟩
    simp only [decide_eq_true_iff]
    refine ⟨hin, hv, ?_⟩
    rw [h0, distance]
    simpa using hr.le
  · simp [ranged, h0, distance]

/-- **C25, violated.** With cosine similarity a record that points away from the query (similarity −x, so at distance
1 + x) is shown at distance x, so it is found although it is farther than the radius. -/
theorem C25_opposite_violated (c : Cfg W) (sortAsc : List (Hit W) → List (Hit W))
    (hsort : ∀ l, SortedFrom (fun a b => a.score ≤ b.score) l (sortAsc l)) (s : St W HI VI) (hs : s.closed = false)
    (wf : Verif.Thm.Store.WF s.db) (query : List W) (radius : ℚ) (hr : 0 < radius) (o : Opts) (ho : o.topK ≤ 0) (r : Row W)
    (hm : r ∈ s.db.embeddings) (hin : InScope s.db o r) (hv : r.vector ≠ []) (hneg : c.sim query r.vector ≤ 0)
    (hx : -c.sim query r.vector ≤ radius) (hfar : radius < 1 - c.sim query r.vector) :
    ∃ out, rangeSearch c sortAsc s query radius o = .ok out ∧ (∃ h ∈ out, h.id = r.id ∧ h.vector = r.vector) ∧
      r ∉ inRange s.db o (fun v => 1 - c.sim query v) radius := by
  obtain ⟨out, h1, h2⟩ := range_exact c sortAsc hsort s hs wf query radius hr o (fun v => distance (c.sim query v))
    (fun _ _ _ _ => rfl)
  refine ⟨out, h1, ⟨ranged s.db (fun v => distance (c.sim query v)) r, ?_, rfl, rfl⟩, ?_⟩
  · rw [(h2.1 ho).1.mem_iff]
    refine List.mem_map.2 ⟨r, ?_, rfl⟩
    unfold inRange
    rw [List.mem_filter]
    refine ⟨hm, ?_⟩
    simp only [decide_eq_true_iff]
    refine ⟨hin, hv, ?_⟩
    rw [distance, if_pos hneg]
    exact hx
  · unfold inRange
    rw [List.mem_filter]
    simp only [decide_eq_true_iff, not_and, not_le]
    intro _ _ _
    exact hfar

/-- A radius that is not positive is refused. -/
theorem C25_radius (c : Cfg W) (sortAsc : List (Hit W) → List (Hit W)) (s : St W HI VI) (hs : s.closed = false) (query : List W)
    (radius : ℚ) (hr : radius ≤ 0) (o : Opts) : rangeSearch c sortAsc s query radius o = .error .radius := by
  simp [rangeSearch, hs, hr]

/-- **C25, batches.** The answer to a batch is the answers to its queries, in order. -/
theorem C25_batch (c : Cfg W) (sortAsc : List (Hit W) → List (Hit W)) (s : St W HI VI) (radius : ℚ) (o : Opts) :
    ∀ (qs : List (List W)) (outs : List (List (Hit W))), batchRangeSearch c sortAsc s radius o qs = .ok outs ↔
      List.Forall₂ (fun q out => rangeSearch c sortAsc s q radius o = .ok out) qs outs
  | [], outs => by
    cases outs <;> simp [batchRangeSearch]
  | q :: qs, outs => by
    have ih := C25_batch c sortAsc s radius o qs
    cases hq : rangeSearch c sortAsc s q radius o with
    | error e =>
      simp only [batchRangeSearch, hq]
      constructor
      · intro h; cases h
      · intro h
        cases h with
        | cons h1 h2 => rw [hq] at h1; cases h1
    | ok r =>
      cases hb : batchRangeSearch c sortAsc s radius o qs with
      | error e =>
        simp only [batchRangeSearch, hq, hb]
        constructor
        · intro h; cases h
        · intro h
          cases h with
          | cons h1 h2 => rw [(ih _).2 h2] at hb; cases hb
      | ok rs =>
        simp only [batchRangeSearch, hq, hb]
        constructor
        · intro h
          injection h with h
          subst h
          exact .cons hq ((ih rs).1 hb)
        · intro h
          cases h with
          | cons h1 h2 =>
            rw [hq] at h1
            rw [(ih _).2 h2] at hb
            injection h1 with h1
            injection hb with hb
            rw [h1, hb]

/-! A store of four unit vectors with the negated distance of the first components, and one with a cosine. -/

/-- Distance of the first components, negated. -/
def cfgE : Cfg Nat := { cfg0 with sim := fun a b => -|((a.headD 0 : ℚ) - (b.headD 0 : ℚ))| }

def asc (l : List (Hit Nat)) : List (Hit Nat) := exchangeSort (fun a b => decide (a.score < b.score)) l

theorem asc_sorts : ∀ l, SortedFrom (fun a b : Hit Nat => a.score ≤ b.score) l (asc l) := by
  intro l
  exact ⟨exchangeSort_perm _ _, exchangeSort_sorted (fun g : Hit Nat => g.score) (fun a b => decide (a.score < b.score)) (by intro a b; simp) l⟩

example : (rangeSearch cfgE asc store1 [2, 0] 1 {}).map (fun hs => hs.map fun h => (h.id, h.score)) = .ok [("a", 1), ("b", 1)] := by
  decide +kernel

example : ∀ v : List Nat, 0 ≤ |((([2, 0] : List Nat).headD 0 : ℚ) - (v.headD 0 : ℚ))| := fun v => abs_nonneg _

/-- An orthogonal record comes before a parallel one at distance 1/10. -/
def cfgC : Cfg Nat := { cfg0 with sim := fun _ b => if b.headD 0 = 1 then 9/10 else 0 }

example : (rangeSearch cfgC asc store1 [1, 1] (1/5) {}).map (fun hs => hs.map fun h => (h.id, h.score))
    = .ok [("b", 0), ("e", 0), ("a", 1/10)] := by
  decide +kernel

/-! ## C123 -/

/-- The records that a faceted search without conditions speaks about. -/
def InColl' (db : DB W) (o : Opts) (r : Row W) : Prop := o.collection ≠ "" → Verif.Thm.StoreProps.InColl db r o.collection

/-- **C123, violated.** For every store, query and limit, a faceted search with any facet that says something (or with a
metadata filter) fails. -/
theorem C123_any_facet_violated (lib : Lib ℚ) (c : Cfg W) (order : List (Row W) → List (Row W))
    (sort : List (String × Nat) → List (String × Nat)) (s : St W HI VI) (hs : s.closed = false) (query : List W) (o : FacetOpts)
    (h : (∃ f ∈ o.facets, conditioned f.2 = true) ∨ o.base.filter ≠ []) :
    searchWithFacets lib c order sort s query o = .error .sql := by
  have : (o.facets.any (fun f => conditioned f.2) || !o.base.filter.isEmpty) = true := by
    rw [Bool.or_eq_true]
    rcases h with ⟨f, hf, hc⟩ | h
    · exact Or.inl (List.any_eq_true.2 ⟨f, hf, hc⟩)
    · right; simpa using h
  simp [searchWithFacets, hs, facetCandidates, this]

theorem collName_iff (db : DB W) (wf : Verif.Thm.Store.WF db) (r : Row W) (n : String) :
    collName db r = some n ↔ Verif.Thm.StoreProps.InColl db r n := by
  unfold collName
  constructor
  · intro h
    rw [Option.map_eq_some_iff] at h
    obtain ⟨x, hx, hn⟩ := h
    exact ⟨x, List.mem_of_find?_eq_some hx, hn, by simpa using List.find?_some hx⟩
  · rintro ⟨x, hx, hn, hi⟩
    cases hf : db.collections.find? (fun c => c.id = r.cid) with
    | none =>
      rw [List.find?_eq_none] at hf
      exact absurd hi (by simpa using hf x hx)
    | some y =>
      have h1 := List.mem_of_find?_eq_some hf
      have h2 : y.id = r.cid := by simpa using List.find?_some hf
      have : y = x := Verif.Thm.Store.nodup_inj (fun c : Coll => c.id) wf.collIds h1 hx (by simp [h2, hi])
      rw [this]
      simp [hn]

open Classical in
/-- **C123 (partial).** Without conditions, and while the records of the scope are not more than ten times the limit, a faceted
search gives the best records of the scope above the threshold. -/
theorem C123_plain_partial (lib : Lib ℚ) (c : Cfg W) (hsort : SortsDesc c.sort) (order : List (Row W) → List (Row W))
    (horder : ∀ l, (order l).Perm l) (sort : List (String × Nat) → List (String × Nat)) (s : St W HI VI) (hs : s.closed = false)
    (wf : Verif.Thm.Store.WF s.db) (query : List W) (o : FacetOpts) (hf : ∀ f ∈ o.facets, conditioned f.2 = false)
    (hfl : o.base.filter = [])
    (hsmall : o.base.topK ≤ 0 ∨ ((s.db.embeddings.filter (fun r => InColl' s.db o.base r)).length : Int) ≤ o.base.topK * 10) :
    ∃ out facets, searchWithFacets lib c order sort s query o = .ok (out, facets) ∧
      IsTopK (fun x : Hit W => x.score)
        ((s.db.embeddings.filter (fun r => InColl' s.db o.base r ∧
          (0 < o.base.threshold → o.base.threshold ≤ combine c o.base query (scan s.db r)))).map (hitOf c s.db o.base query))
        (asked o.base) out := by
  have hno : (o.facets.any (fun f => conditioned f.2) || !o.base.filter.isEmpty) = false := by
    rw [Bool.or_eq_false_iff]
    refine ⟨?_, by simp [hfl]⟩
    rw [List.any_eq_false]
    intro f hfm
    simp [hf f hfm]
  have hrows : s.db.embeddings.filter (fun r => if o.base.collection ≠ "" then decide (collName s.db r = some o.base.collection) else true)
      = s.db.embeddings.filter (fun r => InColl' s.db o.base r) := by
    apply List.filter_congr
    intro r _
    rw [Bool.eq_iff_iff]
    simp only [decide_eq_true_iff, InColl']
    by_cases hc : o.base.collection = ""
    · simp [hc]
    · simp only [hc, ne_eq, not_false_eq_true, if_true, decide_eq_true_iff, true_implies]
      exact collName_iff s.db wf r _
  generalize hl : s.db.embeddings.filter (fun r => decide (InColl' s.db o.base r)) = rows at hrows hsmall
  have hcut : (if o.base.topK > 0 then (order rows).take (o.base.topK * 10).toNat else order rows) = order rows := by
    split
    · rw [List.take_of_length_le]
      rw [(horder rows).length_eq]
      omega
    · rfl
  refine ⟨scoreCandidates c query ((order rows).map (scan s.db)) o.base,
    if o.returnFacets then o.facets.filterMap (fun f => facetCount lib sort s.db o.maxValues f.1) else [], ?_, ?_⟩
  · simp only [searchWithFacets, hs, Bool.false_eq_true, if_false, facetCandidates, hno, hrows, hcut]
  · unfold scoreCandidates
    simp only
    rw [take_if _ _ (by have := defaultK_pos o.base.topK; omega), asked_eq]
    apply isTopK_take
    refine ⟨(hsort _).1.trans ?_, (hsort _).2⟩
    rw [List.map_map]
    have e2 : ((fun h => { h with score := combine c o.base query h }) ∘ scan s.db) = hitOf c s.db o.base query := rfl
    rw [e2]
    have e3 : (if o.base.threshold > 0 then ((order rows).map (hitOf c s.db o.base query)).filter (fun h => decide (h.score ≥ o.base.threshold))
        else (order rows).map (hitOf c s.db o.base query)) =
        ((order rows).map (hitOf c s.db o.base query)).filter (fun h => decide (0 < o.base.threshold → o.base.threshold ≤ h.score)) := by
      split
      · rename_i ht
        congr 1; funext h; simp [ht]
      · rename_i ht
        symm
        rw [List.filter_eq_self]
        intro h _
        simp [ht]
    rw [e3]
    refine (((horder rows).map (hitOf c s.db o.base query)).filter _).trans ?_
    rw [← hl, List.filter_map, List.filter_filter]
    apply List.Perm.of_eq
    congr 1
    apply List.filter_congr
    intro r _
    rw [Bool.eq_iff_iff]
    simp only [Function.comp_apply, Bool.and_eq_true, decide_eq_true_iff]
    constructor
    · rintro ⟨h1, h2⟩; exact ⟨h2, h1⟩
    · rintro ⟨h1, h2⟩; exact ⟨h2, h1⟩

/-- Eleven records, the last of them the best for every query. -/
def store11 : St Nat Unit Unit :=
  { db := { collections := [⟨1, "default", 1⟩], nextColl := 2, documents := [],
            embeddings := (List.range 11).map fun i => ⟨toString i, 1, [i], "", none, some [], none⟩ },
    dim := 1, closed := false, hnsw := none, ivf := none }

/-- **C123, violated.** With more than ten times as many records as asked for, the best one may be left out: the rows are cut
before they are scored. -/
theorem C123_best_missed_violated :
    ((searchWithFacets Verif.Aggregate.lib0 cfg0 id id store11 [1] { base := { topK := 1 } }).map
      (fun r => r.1.map fun h => (h.id, h.score))) = .ok [("9", 9)] ∧
    ∃ r ∈ store11.db.embeddings, r.id = "10" ∧ 9 < cfg0.sim [1] r.vector := by
  constructor
  · decide +kernel
  · refine ⟨⟨"10", 1, [10], "", none, some [], none⟩, by decide +kernel, rfl, by decide +kernel⟩

example : ∀ f ∈ [("lang", Facet.mk .equals 0 false false "" [])], conditioned f.2 = false := by decide
example : conditioned (.mk .nested 0 false false "" [.mk .range 0 false true "" []]) = true := by decide

/-! ## C124 -/

/-- The records of the store whose field has the value. -/
def having (db : DB W) (f v : String) : List (Row W) :=
  db.embeddings.filter fun r => Verif.Aggregate.fieldOf f r = some v

theorem count_having (lib : Lib ℚ) (db : DB W) (f v : String) (hp : plainField f = true)
    (hm : ∀ r ∈ db.embeddings, r.metadata ≠ none) :
    (db.embeddings.filterMap fun r => extract lib f (r.metadata.getD [])).count v = (having db f v).length := by
  unfold having
  generalize db.embeddings = l at hm
  induction l with
  | nil => rfl
  | cons r l ih =>
    have ih := ih (fun x hx => hm x (List.mem_cons_of_mem _ hx))
    have hr := hm r (by simp)
    cases hmm : r.metadata with
    | none => exact absurd hmm hr
    | some m =>
      have e : Verif.Aggregate.fieldOf f r = m.lookup f := by simp [Verif.Aggregate.fieldOf, hmm]
      have e2 : extract lib f (r.metadata.getD []) = m.lookup f := by
        rw [hmm, Option.getD_some, Verif.Aggregate.extract_plain lib f m hp]
      rw [List.filterMap_cons, e2]
      cases hl : m.lookup f with
      | none =>
        rw [List.filter_cons_of_neg (by simp [e, hl])]
        exact ih
      | some t =>
        by_cases ht : t = v
        · rw [List.filter_cons_of_pos (by simp [e, hl, ht])]
          simp [ht, ih]
        · rw [List.filter_cons_of_neg (by simp [e, hl, ht])]
          simp only [List.count_cons, beq_iff_eq, ht, if_false, Nat.add_zero]
          exact ih

/-- **C124 (partial).** When every record of the store has metadata and the name is plain, a facet lists values of the field,
each once, with the number of records of the whole store that have it, at most the number asked for (10 if not said), no value
left out being more frequent; it is missing only when no record has the field; and the total is the sum of what is listed. -/
theorem C124_counts_partial (lib : Lib ℚ) (sort : List (String × Nat) → List (String × Nat))
    (hsort : ∀ l, SortedFrom (fun a b => b.2 ≤ a.2) l (sort l)) (db : DB W) (max : Int) (f : String) (hp : plainField f = true)
    (hm : ∀ r ∈ db.embeddings, r.metadata ≠ none) :
    (facetCount lib sort db max f = none → ∀ v, having db f v = []) ∧
    ∀ res, facetCount lib sort db max f = some res → res.field = f ∧ (res.values.map fun g => g.1).Nodup ∧
      (∀ g ∈ res.values, g.2 = (having db f g.1).length ∧ 0 < g.2) ∧
      res.values.length ≤ (if max ≤ 0 then 10 else max).toNat ∧
      res.values.Pairwise (fun a b => b.2 ≤ a.2) ∧
      res.total = (res.values.map fun g => g.2).sum ∧
      ∀ v, having db f v ≠ [] → (∃ n, (v, n) ∈ res.values) ∨
        (res.values.length = (if max ≤ 0 then 10 else max).toNat ∧ ∀ g ∈ res.values, (having db f v).length ≤ g.2) := by
  have hany : db.embeddings.any (fun r => r.metadata == none) = false := by
    rw [List.any_eq_false]
    intro r hr
    simpa using hm r hr
  unfold facetCount
  rw [hany]
  simp only [Bool.false_eq_true, if_false]
  generalize hvs : (db.embeddings.filterMap fun r => extract lib f (r.metadata.getD [])) = vs
  have hcount : ∀ v, vs.count v = (having db f v).length := by
    intro v; rw [← hvs]; exact count_having lib db f v hp hm
  generalize hg : ((Verif.Aggregate.distinct vs).map fun v => (v, vs.count v)) = groups
  generalize hn : (if max ≤ 0 then 10 else max).toNat = n
  have hpos : 0 < n := by rw [← hn]; split <;> omega
  have hperm := (hsort groups).1
  have hpw := (hsort groups).2
  have hgm : ∀ g ∈ groups, g.2 = (having db f g.1).length ∧ 0 < g.2 := by
    intro g hgm
    rw [← hg] at hgm
    obtain ⟨v, hv, rfl⟩ := List.mem_map.1 hgm
    refine ⟨hcount v, ?_⟩
    exact List.count_pos_iff.2 (Verif.Aggregate.mem_distinct.1 hv)
  have hmem : ∀ v, having db f v ≠ [] → (v, (having db f v).length) ∈ groups := by
    intro v hv
    rw [← hg, ← hcount]
    refine List.mem_map.2 ⟨v, Verif.Aggregate.mem_distinct.2 ?_, rfl⟩
    rw [← List.count_pos_iff, hcount]
    exact List.length_pos_iff.2 hv
  have hnodup : (groups.map fun g => g.1).Nodup := by
    rw [← hg, List.map_map]
    have : ((fun g : String × Nat => g.1) ∘ fun v => (v, vs.count v)) = id := rfl
    rw [this, List.map_id]
    exact Verif.Aggregate.nodup_distinct _
  constructor
  · intro h v
    by_contra hv
    have h1 := hmem v hv
    rw [← hperm.mem_iff] at h1
    split at h
    · rename_i he
      have he : (sort groups).take n = [] := by simpa using he
      rw [List.take_eq_nil_iff] at he
      rcases he with he | he
      · omega
      · rw [he] at h1; cases h1
    · cases h
  · intro res h
    split at h
    · cases h
    · injection h with h
      subst h
      have hsub : ((sort groups).take n).Sublist (sort groups) := List.take_sublist _ _
      refine ⟨rfl, (hsub.map _).nodup ((hperm.map _).nodup_iff.2 hnodup), ?_, List.length_take_le _ _, hpw.sublist hsub, rfl, ?_⟩
      · intro g hgm'
        exact hgm g (hperm.mem_iff.1 (hsub.subset hgm'))
      · intro v hv
        have h1 := hmem v hv
        rw [← hperm.mem_iff, ← List.take_append_drop n (sort groups), List.mem_append] at h1
        rcases h1 with h1 | h1
        · exact Or.inl ⟨_, h1⟩
        · right
          constructor
          · rw [List.length_take]
            have := List.length_pos_of_mem h1
            rw [List.length_drop] at this
            omega
          · intro g hgt
            rw [← List.take_append_drop n (sort groups), List.pairwise_append] at hpw
            exact hpw.2.2 g hgt _ h1

/-- **C124, violated.** One record without metadata anywhere in the store removes every facet. -/
theorem C124_nil_metadata_violated (lib : Lib ℚ) (sort : List (String × Nat) → List (String × Nat)) (db : DB W) (max : Int)
    (f : String) (r : Row W) (hr : r ∈ db.embeddings) (hm : r.metadata = none) : facetCount lib sort db max f = none := by
  have : db.embeddings.any (fun r => r.metadata == none) = true := List.any_eq_true.2 ⟨r, hr, by simp [hm]⟩
  unfold facetCount
  rw [if_pos this]

/-- Two records in two collections. -/
def store2 : St Nat Unit Unit :=
  { db := { collections := [⟨1, "default", 1⟩, ⟨2, "c", 1⟩], nextColl := 3, documents := [],
            embeddings := [⟨"a", 1, [1], "x", none, some [("k", "u")], none⟩, ⟨"b", 2, [2], "y", none, some [("k", "u")], none⟩] },
    dim := 1, closed := false, hnsw := none, ivf := none }

/-- **C124, violated.** The counts are those of the whole store also when the search is about one collection: the answer has
one record of that collection, the facet counts two. -/
theorem C124_collection_ignored_violated :
    (searchWithFacets Verif.Aggregate.lib0 cfg0 id id store2 [1]
        { base := { topK := 5, collection := "c" }, facets := [("k", .mk .equals 0 false false "" [])], returnFacets := true }).map
      (fun r => (r.1.map fun h => h.id, r.2)) = .ok (["b"], [{ field := "k", values := [("u", 2)], total := 2 }]) := by
  decide +kernel

example : ∀ r ∈ store2.db.embeddings, r.metadata ≠ none := by decide

end Verif.Range
