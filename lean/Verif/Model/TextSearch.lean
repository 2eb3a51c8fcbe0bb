import Verif.Model.Facade
import Verif.Model.Search

/-!
The text searches of `DB` and `Quick` (/repo/pkg/cortexdb/cortexdb.go) on top of the store's searches. The full-text answer
inside `HybridSearchText` is a function of the query, as in `Model/Search`.
-/
namespace Verif.Facade
open Verif.Model.Store Verif.Model.Search

variable {W HI VI : Type}

/-- `SearchTextInCollection`, cortexdb.go:355-375; `SearchText` (349-351) and `Quick.SearchText` (258-266) are the same with
the empty collection. The threshold stays 0, no filter, no text weight. -/
def searchText (c : Cfg W) (via : Serve W) (emb : Option (Embedder W)) (s : St W HI VI) (collection query : String)
    (topK : Int) : Except Out (List (Hit W)) :=
  match emb with
  | none => .error .noEmbedder
  | some E =>
    if query = "" then .error .emptyText
    else
      match E.embed query with
      | none => .error .embedding
      | some v =>
        match search c via s (v.getD []) { collection := collection, topK := topK, queryText := query } with
        | .error e => .error (.store e)
        | .ok hs => .ok hs

/-- `HybridSearchText`, cortexdb.go:379-399. -/
def hybridSearchText (c : Cfg W) (via : Serve W) (fts : String → List String) (emb : Option (Embedder W))
    (s : St W HI VI) (query : String) (topK : Int) : Except Out (List (Hit W)) :=
  match emb with
  | none => .error .noEmbedder
  | some E =>
    if query = "" then .error .emptyText
    else
      match E.embed query with
      | none => .error .embedding
      | some v =>
        match hybridSearch c via s (v.getD []) (fts query) { topK := topK } 0 with
        | .error e => .error (.store e)
        | .ok hs => .ok hs

/-- `Quick.SearchInCollection`, cortexdb.go:214-222; `Quick.Search` (209-211) is the empty collection. -/
def quickSearch (c : Cfg W) (via : Serve W) (s : St W HI VI) (collection : String) (query : List W) (topK : Int) :
    Except Err (List (Hit W)) :=
  search c via s query { collection := collection, topK := topK }

end Verif.Facade
