import Verif.Model.Search
import Verif.Model.Filter
import Verif.Model.Aggregate

/-!
# Range search and faceted search

`/repo/pkg/core/faceted_search.go`.  As in `Verif.Model.Search`, scores are exact rationals and the similarity function is a
parameter.  Rows are read in some order that SQLite picks: parameter `order`.
-/

namespace Verif.Range

open Verif.Model.Store Verif.Model.Search
open Verif.Model.Filter (Lib extract)

variable {W HI VI : Type}

/-- Why there is no answer. -/
inductive Failure where
  | closed | radius | sql
  deriving DecidableEq, Repr

/-- The distance read off a score (/repo/pkg/core/faceted_search.go:372-379). -/
def distance (score : ℚ) : ℚ := if score ≤ 0 then -score else 1 - score

/-- The loop of `RangeSearch` (/repo/pkg/core/faceted_search.go:357-386): empty vectors are skipped, the distance becomes the
score. -/
def within (c : Cfg W) (query : List W) (radius : ℚ) (cands : List (Hit W)) : List (Hit W) :=
  cands.filterMap fun h =>
    if h.vector.length = 0 then none
    else
      let d := distance (c.sim query h.vector)
      if d ≤ radius then some { h with score := d } else none

/-- `RangeSearch` (/repo/pkg/core/faceted_search.go:337-399); `sortAsc` is the `sort.Slice` of lines 389-391. -/
def rangeSearch (c : Cfg W) (sortAsc : List (Hit W) → List (Hit W)) (s : St W HI VI) (query : List W) (radius : ℚ) (o : Opts) :
    Except Failure (List (Hit W)) :=
  if s.closed then .error .closed
  else if radius ≤ 0 then .error .radius
  else
    let results := sortAsc (within c query radius (fetchCandidates s.db o))
    .ok (if o.topK > 0 ∧ (results.length : Int) > o.topK then results.take o.topK.toNat else results)

/-- `BatchRangeSearch` (/repo/pkg/core/faceted_search.go:402-414): stops at the first failure. -/
def batchRangeSearch (c : Cfg W) (sortAsc : List (Hit W) → List (Hit W)) (s : St W HI VI) (radius : ℚ) (o : Opts) :
    List (List W) → Except Failure (List (List (Hit W)))
  | [] => .ok []
  | q :: qs => match rangeSearch c sortAsc s q radius o with
    | .error e => .error e
    | .ok r => match batchRangeSearch c sortAsc s radius o qs with
      | .error e => .error e
      | .ok rs => .ok (r :: rs)

/-! ## Facets -/

/-- `FacetFilterType` (/repo/pkg/core/faceted_search.go:47-57). -/
inductive FacetType where
  | equals | in_ | range | contains | startsWith | exists_ | nested | other
  deriving DecidableEq, Repr

/-- `FacetFilter` (/repo/pkg/core/faceted_search.go:26-44). The bounds are only whether they are given, the values only how
many there are. -/
inductive Facet where
  | mk (type : FacetType) (values : Nat) (min max : Bool) (pattern : String) (nested : List Facet)

mutual
/-- Whether `buildFilterCondition` and `buildNestedCondition` give a condition
(/repo/pkg/core/faceted_search.go:133-222). Every condition they give reads `metadata`. -/
def conditioned : Facet → Bool
  | .mk .equals n _ _ _ _ => n > 0
  | .mk .in_ n _ _ _ _ => n > 0
  | .mk .range _ lo hi _ _ => lo || hi
  | .mk .contains _ _ _ p _ => p ≠ ""
  | .mk .startsWith _ _ _ p _ => p ≠ ""
  | .mk .exists_ _ _ _ _ _ => true
  | .mk .nested _ _ _ _ fs => conditionedAny fs
  | .mk .other _ _ _ _ _ => false
def conditionedAny : List Facet → Bool
  | [] => false
  | f :: fs => conditioned f || conditionedAny fs
end

/-- `FacetedSearchOptions` (/repo/pkg/core/faceted_search.go:12-23). -/
structure FacetOpts where
  base : Opts
  facets : List (String × Facet) := []
  returnFacets : Bool := false
  maxValues : Int := 0

/-- `FacetResult` (/repo/pkg/core/faceted_search.go:69-73). -/
structure FacetResult where
  field : String
  values : List (String × Nat)
  total : Nat
  deriving DecidableEq, Repr

/-- `fetchCandidatesWithFacets` (/repo/pkg/core/faceted_search.go:225-285).  Both tables of the join have a column
`metadata` (store_init.go:79, 103), so SQLite rejects every statement with a condition on it as ambiguous. The LIMIT cuts the
rows before they are scored. -/
def facetCandidates (order : List (Row W) → List (Row W)) (db : DB W) (o : FacetOpts) : Except Failure (List (Hit W)) :=
  if o.facets.any (fun f => conditioned f.2) || !o.base.filter.isEmpty then .error .sql
  else
    let rows := order (db.embeddings.filter fun r =>
      if o.base.collection ≠ "" then collName db r = some o.base.collection else true)
    let cut := if o.base.topK > 0 then rows.take (o.base.topK * 10).toNat else rows
    .ok (cut.map (scan db))

/-- One round of `computeFacetCounts` (/repo/pkg/core/faceted_search.go:288-332): all records, whatever the collection and the
filters; a failing statement and a facet without values are left out. `sort` is `ORDER BY count DESC`. -/
def facetCount (lib : Lib ℚ) (sort : List (String × Nat) → List (String × Nat)) (db : DB W) (max : Int) (field : String) :
    Option FacetResult :=
  if db.embeddings.any (fun r => r.metadata == none) then none
  else
    let vs := db.embeddings.filterMap fun r => extract lib field (r.metadata.getD [])
    let groups := (Verif.Aggregate.distinct vs).map fun v => (v, vs.count v)
    let kept := (sort groups).take (if max ≤ 0 then 10 else max).toNat
    if kept.isEmpty then none
    else some { field := field, values := kept, total := (kept.map fun g => g.2).sum }

/-- `SearchWithFacets` (/repo/pkg/core/faceted_search.go:76-105). -/
def searchWithFacets (lib : Lib ℚ) (c : Cfg W) (order : List (Row W) → List (Row W))
    (sort : List (String × Nat) → List (String × Nat)) (s : St W HI VI) (query : List W) (o : FacetOpts) :
    Except Failure (List (Hit W) × List FacetResult) :=
  if s.closed then .error .closed
  else match facetCandidates order s.db o with
    | .error e => .error e
    | .ok cands =>
      let results := scoreCandidates c query cands o.base
      let facets := if o.returnFacets then o.facets.filterMap (fun f => facetCount lib sort s.db o.maxValues f.1) else []
      .ok (results, facets)

end Verif.Range
