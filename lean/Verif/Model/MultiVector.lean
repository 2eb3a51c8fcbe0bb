import Verif.Model.Search
import Verif.Base.Assoc

/-!
# Entities with several vectors

`/repo/pkg/core/multi_vector.go`.

Simplifications:
* The metadata of a row are kept as the JSON object they are stored as; numbers, lists and objects are opaque texts.
* Rows are visited in the order in which they were written (SQLite's row identifiers); `json_extract` fails on a row without
  metadata (the empty text is malformed JSON).  The driver runs a query up to its first row before it returns, so a failure before
  the first row is an error of the query, and a failure after it just ends the rows (`rows.Err` is not asked).
* The order in which a Go map is visited is the order of the list for `Vectors` and query vectors and a parameter for results.
-/

namespace Verif.MultiVector

open Verif.Model.Store Verif.Model.Search Verif.Base

variable {W HI : Type}

/-- A metadata value of type `interface{}`; `other` is the JSON text of a number, a list and so on, `bad` something that
`json.Marshal` refuses. -/
inductive Val where
  | str (s : String)
  | null
  | other (json : String)
  | bad
  deriving DecidableEq

/-- `MultiVectorEntity` (/repo/pkg/core/multi_vector.go:12-24). -/
structure Entity (W : Type) where
  id : String
  vectors : List (String × List W)
  metadata : List (String × Val) := []
  content : String := ""

/-- A row of the table `embeddings`; `json` is `none` for empty metadata text. -/
structure MRow (W : Type) where
  id : String
  cid : Int := 1
  vector : List W
  content : String := ""
  docID : Option String := none
  json : Option (List (String × Val)) := none
  deriving DecidableEq

/-- The store, with rows that keep their JSON. -/
structure MSt (W HI : Type) where
  collections : List Coll
  nextColl : Int := 2
  documents : List Doc
  rows : List (MRow W)
  dim : Nat := 0
  closed : Bool := false
  hnsw : Option HI := none

/-- `json.Unmarshal` of a value into a `string`: `null` leaves it empty, other kinds fail. -/
def Val.text : Val → Option String
  | .str s => some s
  | .null => some ""
  | _ => none

/-- `DecodeMetadata` as used by `scanEmbedding` (/repo/internal/encoding/utils.go:100-111; /repo/pkg/core/store_search.go:394-397):
nil when a value is no string. -/
def decode : Option (List (String × Val)) → Option Meta
  | none => none
  | some m => if m.all (fun kv => kv.2.text.isSome) then some (m.map fun kv => (kv.1, kv.2.text.getD "")) else none

/-- What a search reads from a row. -/
def view (r : MRow W) : Row W :=
  { id := r.id, cid := r.cid, vector := r.vector, content := r.content, docID := r.docID, metadata := decode r.json, acl := none }

/-- The store as `Search` sees it. -/
def store (s : MSt W HI) : St W HI Unit :=
  { db := { collections := s.collections, nextColl := s.nextColl, documents := s.documents, embeddings := s.rows.map view }
    dim := s.dim, closed := s.closed, hnsw := s.hnsw, ivf := none }

/-- The composite identifier (/repo/pkg/core/multi_vector.go:75). -/
def compositeID (entity field : String) : String := entity ++ "___" ++ field

/-- The metadata of the row for a field (/repo/pkg/core/multi_vector.go:78-85). -/
def fieldMeta (e : Entity W) (field : String) : List (String × Val) :=
  putA (putA e.metadata "_entity_id" (.str e.id)) "_vector_field" (.str field)

/-- The row for a field (/repo/pkg/core/multi_vector.go:97-100). -/
def fieldRow (e : Entity W) (field : String) (v : List W) : MRow W :=
  { id := compositeID e.id field, cid := 1, vector := v, content := e.content, docID := some e.id, json := some (fieldMeta e field) }

/-- The loop over the vectors (/repo/pkg/core/multi_vector.go:74-113): the rows of the transaction (or the error) and the
index. -/
def upsertLoop (encodes : List W → Bool) (hInsert : HI → String → List W → HI) (fk : Bool) (s : MSt W HI) (e : Entity W) :
    List (String × List W) → List (MRow W) → Option HI → Except Err (List (MRow W)) × Option HI
  | [], rows, h => (.ok rows, h)
  | (f, v) :: rest, rows, h =>
    if (fieldMeta e f).any (fun kv => kv.2 = .bad) then (.error .io, h)
    else if !encodes v then (.error .invalidVector, h)
    else if fk && !fkHolds (store s).db (view (fieldRow e f v)) then (.error .constraint, h)
    else upsertLoop encodes hInsert fk s e rest (rows.filter (fun r => r.id ≠ compositeID e.id f) ++ [fieldRow e f v])
      (h.map fun x => hInsert x (compositeID e.id f) v)

/-- `UpsertMultiVector` (/repo/pkg/core/multi_vector.go:53-116); `fault` is a failing commit. -/
def upsert (encodes : List W → Bool) (hInsert : HI → String → List W → HI) (fk fault : Bool) (s : MSt W HI) (e : Entity W) :
    MSt W HI × Out :=
  if s.closed then (s, .err .closed)
  else match upsertLoop encodes hInsert fk s e e.vectors s.rows s.hnsw with
    | (.error er, h) => ({ s with hnsw := h }, .err er)
    | (.ok rows, h) => if fault then ({ s with hnsw := h }, .err .io) else ({ s with rows := rows, hnsw := h }, .ok)

/-- `json_extract(metadata, '$._entity_id')`, a text here. -/
def entityOf (r : MRow W) : Option String :=
  match r.json with
  | none => none
  | some m => match getA m "_entity_id" with
    | some (.str s) => some s
    | _ => none

/-- The rows of the query for an entity (/repo/pkg/core/multi_vector.go:266-273, 287 and 344-363). -/
def entityRows (rows : List (MRow W)) (id : String) : Except Err (List (MRow W)) :=
  let seen := (rows.takeWhile fun r => r.json.isSome).filter fun r => entityOf r = some id
  if rows.all (fun r => r.json.isSome) then .ok seen
  else if seen = [] then .error .io
  else .ok seen

/-- One row read (/repo/pkg/core/multi_vector.go:287-325). -/
def readRow (e : Entity W) (r : MRow W) : Entity W :=
  let m := r.json.getD []
  { e with
    vectors := match getA m "_vector_field" with
      | some (.str f) => putA e.vectors f r.vector
      | _ => e.vectors
    content := if e.content = "" then r.content else e.content
    metadata := (delA (delA m "_entity_id") "_vector_field").foldl (fun acc kv => putA acc kv.1 kv.2) e.metadata }

/-- `GetMultiVectorEntity` (/repo/pkg/core/multi_vector.go:257-332). -/
def get (s : MSt W HI) (id : String) [DecidableEq W] : Except Err (Entity W) :=
  if s.closed then .error .closed
  else match entityRows s.rows id with
    | .error e => .error e
    | .ok rs =>
      let e := rs.foldl readRow { id := id, vectors := [] }
      if e.vectors.length = 0 then .error .notFound else .ok e

/-- `DeleteMultiVectorEntity` (/repo/pkg/core/multi_vector.go:335-384).  The `DELETE` visits every row, so it fails on a row without
metadata. -/
def delete (hDelete : HI → String → HI) (s : MSt W HI) (id : String) [DecidableEq W] : MSt W HI × Out :=
  if s.closed then (s, .err .closed)
  else match entityRows s.rows id with
    | .error e => (s, .err e)
    | .ok rs =>
      if s.rows.all (fun r => r.json.isSome) then
        ({ s with rows := s.rows.filter (fun r => entityOf r ≠ some id)
                  hnsw := s.hnsw.map fun h => (rs.map fun r => r.id).foldl hDelete h }, .ok)
      else (s, .err .io)

/-- `AggregationMethod`; any other text means average (/repo/pkg/core/multi_vector.go:42-50, 246-252). -/
inductive Method where
  | max
  | min
  | average
  | sum
  | weighted
  deriving DecidableEq

/-- `aggregateScores` (/repo/pkg/core/multi_vector.go:208-254). -/
def aggregate (m : Method) : List ℚ → ℚ
  | [] => 0
  | x :: xs => match m with
    | .max => xs.foldl (fun a b => if b > a then b else a) x
    | .min => xs.foldl (fun a b => if b < a then b else a) x
    | .sum => (x :: xs).sum
    | .average | .weighted => (x :: xs).sum / (x :: xs).length

/-- `MultiVectorSearchOptions` (/repo/pkg/core/multi_vector.go:27-39). -/
structure MOpts where
  fields : List String := []
  weights : List (String × ℚ) := []
  method : Method := .average
  base : Opts := {}

/-- The results collected so far: the first hit of an entity and its scores. -/
abbrev Acc (W : Type) := List (String × (Hit W × List ℚ))

/-- One result (/repo/pkg/core/multi_vector.go:159-178). -/
def addResult (weight : Option ℚ) (acc : Acc W) (h : Hit W) : Acc W :=
  match h.metadata.bind (fun m => m.lookup "_entity_id") with
  | none => acc
  | some e =>
    let score := match weight with
      | some w => h.score * w
      | none => h.score
    match getA acc e with
    | none => putA acc e (h, [score])
    | some (h0, scores) => putA acc e (h0, scores ++ [score])

/-- The search for one field (/repo/pkg/core/multi_vector.go:147-156). -/
def fieldSearch (c : Cfg W) (via : Serve W) (s : MSt W HI) (o : MOpts) (f : String) (v : List W) : Except Err (List (Hit W)) :=
  search c via (store s) v { o.base with filter := putA o.base.filter "_vector_field" f }

/-- The loop over the query vectors (/repo/pkg/core/multi_vector.go:131-179). -/
def collect (c : Cfg W) (via : Serve W) (s : MSt W HI) (o : MOpts) : List (String × List W) → Acc W → Acc W
  | [], acc => acc
  | (f, v) :: rest, acc =>
    if o.fields.length > 0 ∧ f ∉ o.fields then collect c via s o rest acc
    else match fieldSearch c via s o f v with
      | .error _ => collect c via s o rest acc
      | .ok hs => collect c via s o rest (hs.foldl (addResult (getA o.weights f)) acc)

/-- `SearchMultiVector` (/repo/pkg/core/multi_vector.go:119-205); `visit` is the order in which the map of results is visited. -/
def searchMulti (c : Cfg W) (via : Serve W) (visit : Acc W → Acc W) (s : MSt W HI) (queries : List (String × List W)) (o : MOpts) :
    Except Err (List (Hit W)) :=
  if s.closed then .error .closed
  else
    let results := (visit (collect c via s o queries [])).map fun x => { x.2.1 with id := x.1, score := aggregate o.method x.2.2 }
    let sorted := exchangeSort (fun a b => a.score > b.score) results
    .ok (if o.base.topK > 0 ∧ (sorted.length : Int) > o.base.topK then sorted.take o.base.topK.toNat else sorted)

/-- What the filter map of the caller holds afterwards: a map that is not nil is written to for every field searched
(/repo/pkg/core/multi_vector.go:147-151). -/
def filterAfter (o : MOpts) : List (String × List W) → Option Meta → Option Meta
  | [], m => m
  | (f, _) :: rest, m =>
    if o.fields.length > 0 ∧ f ∉ o.fields then filterAfter o rest m
    else filterAfter o rest (m.map fun m => putA m "_vector_field" f)

end Verif.MultiVector
