import Verif.Model.Filter
import Verif.Model.Search

/-!
Model of `SearchWithAdvancedFilter` (`/repo/pkg/core/advanced_filter.go:523-619`). Simplifications as in `Model/Filter` and
`Model/Search`; the candidate rows are read in table order.
-/
namespace Verif.Model.FilterSearch
open Verif.Model.Store Verif.Model.Search Verif.Model.Filter

variable {F : Type} [LinearOrder F] {W HI VI : Type}

/-- The scoring loop with the post-filter (/repo/pkg/core/advanced_filter.go:546-565). A nil map reads as an empty one.
`none` is a panic. -/
def keepMatching (l : Lib F) (c : Cfg W) (query : List W) (post : Option (Expr F)) : List (Hit W) → Option (List (Hit W))
  | [] => some []
  | h :: hs =>
    let h' := { h with score := c.sim query h.vector }
    match post with
    | none => (keepMatching l c query post hs).map (fun r => h' :: r)
    | some e =>
      match eval l (h.metadata.getD []) e with
      | none => none
      | some b => (keepMatching l c query post hs).map (fun r => if b then h' :: r else r)

/-- `SearchWithAdvancedFilter` (/repo/pkg/core/advanced_filter.go:523-578) with `fetchCandidatesWithSQL` (581-619). The
query joins `embeddings` and `collections`, which both have a column `metadata` (/repo/pkg/core/store_init.go:79, 103), while
the clause names it without a table (advanced_filter.go:255 and following): SQLite rejects any statement with a
non-empty clause as ambiguous. `none` is a panic. -/
def searchAdvanced (l : Lib F) (c : Cfg W) (s : St W HI VI) (query : List W) (o : Opts) (pre post : Option (Expr F)) :
    Option (Except Err (List (Hit W))) :=
  if s.closed then some (.error .closed)
  else
    match (match pre with
      | none => some none
      | some e => compile e) with
    | none => none
    | some (some _) => some (.error .badFilter)
    | some none =>
      let rows := s.db.embeddings.filter (fun r => o.collection = "" || collName s.db r = some o.collection)
      match keepMatching l c query post (rows.map (scan s.db)) with
      | none => none
      | some hs =>
        let sorted := c.sort hs
        some (.ok (if o.topK > 0 ∧ (sorted.length : Int) > o.topK then sorted.take o.topK.toNat else sorted))

end Verif.Model.FilterSearch
