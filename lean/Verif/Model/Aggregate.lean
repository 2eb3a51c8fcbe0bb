import Verif.Model.Store
import Verif.Model.Filter
import Verif.Base.Sort
import Mathlib.Algebra.Order.Field.Rat

/-!
# Aggregations over metadata

`/repo/pkg/core/aggregations.go`.  Numbers are rationals (REAL arithmetic is exact).  With a
collection SQLite visits only the rows of that collection (index on `collection_id`,
store_init.go:110); the first term of the WHERE clause that reads the metadata is evaluated on
every row visited and `json_extract` fails on a record without metadata, whose column is the empty
text.  The names in `OrderBy` and `Having` that refer to other columns than the count and the group
keys are left out.
-/

namespace Verif.Aggregate

open Verif.Model.Store
open Verif.Model.Filter (Lib extract)

variable {W HI VI : Type}

/-- `AggregationType` (/repo/pkg/core/aggregations.go:12-21). -/
inductive Kind where
  | count | sum | avg | min | max | groupBy
  | empty
  | unknown
  deriving DecidableEq, Repr

/-- A filter value as it is bound (/repo/pkg/core/aggregations.go:416-436): text for strings and for
everything marshalled to JSON, a number for int, float64 and bool. -/
inductive Val where
  | text (s : String)
  | number (q : ℚ)
  deriving DecidableEq, Repr

/-- `AggregationRequest` (/repo/pkg/core/aggregations.go:24-33).  `having` is the post-aggregation
condition on the group keys and the count. -/
structure Req where
  kind : Kind
  field : String := ""
  groupBy : List String := []
  filters : List (String × Val) := []
  collection : String := ""
  having : Option (List (Option String) → Nat → Bool) := none
  limit : Int := 0

/-- A group key as it is given back (/repo/pkg/core/aggregations.go:355-366). -/
inductive Key where
  | nil
  | number (q : ℚ)
  | text (s : String)
  deriving DecidableEq, Repr

/-- `AggregationResult` (/repo/pkg/core/aggregations.go:36-40); the keys are in the order of the group-by fields. -/
structure Result where
  keys : List Key := []
  value : ℚ
  count : Nat
  deriving DecidableEq

/-- Why there is no answer. -/
inductive Failure where
  | closed | invalid | sql
  deriving DecidableEq, Repr

/-- `collection_id = (SELECT id FROM collections WHERE name = ?)` (e.g.
/repo/pkg/core/aggregations.go:85-88). -/
def inScope (db : DB W) (collection : String) (r : Row W) : Bool :=
  if collection = "" then true
  else match db.collections.find? (fun c => c.name = collection) with
    | some c => r.cid = c.id
    | none => false

/-- `json_extract(metadata, '$.field') = ?` (/repo/pkg/core/aggregations.go:413): the extracted value
is TEXT, no affinity applies, and a TEXT is never equal to a number. -/
def holds (lib : Lib ℚ) (m : Meta) (f : String × Val) : Bool :=
  match extract lib f.1 m, f.2 with
  | some s, .text t => s = t
  | some _, .number _ => false
  | none, _ => false

/-- The rows a query visits, with their metadata, or a failing statement. `reads` is whether the
query reads the metadata at all. -/
def visited (db : DB W) (q : Req) (reads : Bool) : Except Failure (List Meta) :=
  let rows := db.embeddings.filter (inScope db q.collection)
  if reads && rows.any (fun r => r.metadata == none) then .error .sql
  else .ok (rows.map fun r => r.metadata.getD [])

/-- `addMetadataFilters` (/repo/pkg/core/aggregations.go:411-439). -/
def selected (lib : Lib ℚ) (q : Req) (ms : List Meta) : List Meta :=
  ms.filter fun m => q.filters.all (holds lib m)

/-- The values of `CAST(json_extract(metadata, '$.field') AS REAL)` on the selected rows that have
the field. -/
def values (lib : Lib ℚ) (q : Req) (ms : List Meta) : List ℚ :=
  (selected lib q ms).filterMap fun m => (extract lib q.field m).map lib.cast

/-- `aggregateCount` (/repo/pkg/core/aggregations.go:80-109). -/
def aggCount (lib : Lib ℚ) (db : DB W) (q : Req) : Except Failure (List Result) :=
  match visited db q (!q.filters.isEmpty) with
  | .error e => .error e
  | .ok ms =>
    let n := (selected lib q ms).length
    .ok [{ value := n, count := n }]

/-- `MIN` and `MAX` of SQL; NULL (`none`) without rows. -/
def fold1 (f : ℚ → ℚ → ℚ) : List ℚ → Option ℚ
  | [] => none
  | x :: xs => some (xs.foldl f x)

/-- `aggregateSum`, `aggregateAvg`, `aggregateMinMax` (/repo/pkg/core/aggregations.go:112-251); NULL is
reported as 0. -/
def aggNumber (lib : Lib ℚ) (db : DB W) (q : Req) (f : List ℚ → Option ℚ) : Except Failure (List Result) :=
  match visited db q true with
  | .error e => .error e
  | .ok ms =>
    let vs := values lib q ms
    .ok [{ value := (f vs).getD 0, count := vs.length }]

/-- SQL `SUM` (NULL without rows). -/
def sqlSum : List ℚ → Option ℚ
  | [] => none
  | vs => some vs.sum

/-- SQL `AVG`. -/
def sqlAvg : List ℚ → Option ℚ
  | [] => none
  | vs => some (vs.sum / vs.length)

/-- The key of a row (/repo/pkg/core/aggregations.go:262-267). -/
def keyOf (lib : Lib ℚ) (q : Req) (m : Meta) : List (Option String) :=
  q.groupBy.map fun f => extract lib f m

/-- The distinct values of a list, in some order. -/
def distinct {α : Type} [DecidableEq α] : List α → List α
  | [] => []
  | x :: xs => if x ∈ xs then distinct xs else x :: distinct xs

/-- The words SQLite does not take as the name of a column (`AS word`). -/
def reserved : List String :=
  ["add", "all", "alter", "and", "as", "autoincrement", "between", "case", "check", "collate", "commit", "constraint",
   "create", "default", "deferrable", "delete", "distinct", "drop", "else", "escape", "except", "exists", "foreign", "from",
   "group", "having", "in", "index", "insert", "intersect", "into", "is", "isnull", "join", "limit", "not", "nothing",
   "notnull", "null", "on", "or", "order", "primary", "references", "returning", "select", "set", "table", "then", "to",
   "transaction", "union", "unique", "update", "using", "values", "when", "where"]

/-- Whether `AS field` (/repo/pkg/core/aggregations.go:263) is a column name. -/
def nameOk (f : String) : Bool :=
  (match f.toList with
    | [] => false
    | c :: _ => !c.isDigit) && f.toList.all (fun c => c.isAlphanum || c = '_') && !(reserved.contains f.toLower)

/-- A key value as given back (/repo/pkg/core/aggregations.go:355-366). -/
def showKey (lib : Lib ℚ) : Option String → Key
  | none => .nil
  | some s => match lib.parse s with
    | some x => .number x
    | none => .text s

/-- What the ORDER BY refers to (/repo/pkg/core/aggregations.go:318-322): a column named `count` is found by its first
occurrence, which is a group-by field of that name if there is one. -/
def orderedBy (q : Req) : Option Nat := q.groupBy.findIdx? (fun f => f.toLower = "count")

/-- `aggregateGroupBy` (/repo/pkg/core/aggregations.go:254-386): the aggregate is always `COUNT(*)`
because the request's type is `group_by` here (lines 270-285).  `sort none` is ORDER BY the count, `sort (some i)` ORDER BY
the i-th key. -/
def aggGroup (lib : Lib ℚ) (sort : Option Nat → List (List (Option String) × Nat) → List (List (Option String) × Nat))
    (db : DB W) (q : Req) : Except Failure (List Result) :=
  if !(q.groupBy.all nameOk) then .error .sql
  else match visited db q true with
  | .error e => .error e
  | .ok ms =>
    let keys := (selected lib q ms).map (keyOf lib q)
    let groups := (distinct keys).map fun k => (k, keys.count k)
    let kept := match q.having with
      | none => groups
      | some p => groups.filter fun g => p g.1 g.2
    let sorted := sort (orderedBy q) kept
    let cut := if q.limit > 0 then sorted.take q.limit.toNat else sorted
    .ok (cut.map fun g => { keys := g.1.map (showKey lib), value := g.2, count := g.2 })

/-- `validateAggregationRequest` (/repo/pkg/core/aggregations.go:389-408). -/
def valid (q : Req) : Bool :=
  match q.kind with
  | .empty => false
  | .sum | .avg | .min | .max => q.field ≠ ""
  | .groupBy => !q.groupBy.isEmpty
  | _ => true

/-- `Aggregate` (/repo/pkg/core/aggregations.go:50-77). -/
def aggregate (lib : Lib ℚ) (sort : Option Nat → List (List (Option String) × Nat) → List (List (Option String) × Nat))
    (s : St W HI VI) (q : Req) : Except Failure (List Result) :=
  if s.closed then .error .closed
  else if !valid q then .error .invalid
  else match q.kind with
    | .count => aggCount lib s.db q
    | .sum => aggNumber lib s.db q sqlSum
    | .avg => aggNumber lib s.db q sqlAvg
    | .min => aggNumber lib s.db q (fold1 Min.min)
    | .max => aggNumber lib s.db q (fold1 Max.max)
    | .groupBy => aggGroup lib sort s.db q
    | .empty | .unknown => .error .invalid

end Verif.Aggregate
