import Verif.Model.Search

/-!
Model of the comparison of stored metadata with the typed conditions of `SearchWithFilter`. Stored values are strings.
-/
namespace Verif.MetaCompare

open Verif.Model.Search Verif.Model.Store

/-- A condition: a value of `map[string]interface{}`. `other` is a value of any other type (`int64`, `float32`, a slice, ...). -/
inductive Val where
  | nil
  | str (s : String)
  | int (n : Int)
  | f64 (v : Rat)
  | bool (b : Bool)
  | other (type : String)

/-- `compareMetadataValues`, /repo/pkg/core/store_search.go:538-614, for a stored string. `g` is the format `%g`. The fall back (613)
compares values of different types, which are different. -/
def compare (g : Rat → String) (actual : String) (expected : Val) : Bool :=
  match expected with
  | .nil => false
  | .str s => actual = s
  | .int n => actual = toString n
  | .f64 v => actual = g v
  | .bool b => actual = (if b then "true" else "false")
  | .other _ => false

/-- `filterByMetadata`, /repo/pkg/core/store_search.go:503-535, with typed conditions. The conditions are a Go map: distinct keys. -/
def filterTyped {W : Type} (g : Rat → String) (hs : List (Hit W)) (filters : List (String × Val)) : List (Hit W) :=
  if filters.length = 0 then hs
  else hs.filter (fun h => match h.metadata with
    | none => false
    | some m => filters.all (fun kv => ((m.lookup kv.1).map (fun a => compare g a kv.2)).getD false))

end Verif.MetaCompare
