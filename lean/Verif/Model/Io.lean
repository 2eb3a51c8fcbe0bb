import Verif.Model.Store

/-!
# Dump and Load

The exported file is the sequence of values in it.  Writing a value as JSON and reading it back is
`wire`: strings are valid Unicode, a finite float32 is printed with enough digits to be read back.
A vector component JSON cannot express (NaN, infinities) is one for which `fin` is false.
-/

namespace Verif.Io

open Verif.Model.Store

variable {W HI VI : Type}

/-- `DumpOptions` (/repo/pkg/core/io.go:32-38).  `sel` is the filter's WHERE clause as a function
of the metadata column, as in `Model/Store`'s `deleteByFilter`; `BatchSize` and `IncludeIndex` are
never read. -/
structure DumpOpts where
  includeVectors : Bool := true
  sel : Option (Option Meta → Option Bool) := none

/-- One exported record (/repo/pkg/core/io.go:231-243, store_search.go:378-413): the access list
column is not selected. -/
def exportRow (db : DB W) (o : DumpOpts) (r : Row W) : Emb W :=
  { id := r.id
    collectionID := 0
    collection := match db.collections.find? (fun c => c.id = r.cid) with
      | some c => c.name
      | none => ""
    vector := if o.includeVectors then some r.vector else none
    content := r.content
    docID := r.docID.getD ""
    metadata := r.metadata
    acl := [] }

/-- `getAllEmbeddings` (/repo/pkg/core/io.go:201-251).  A row on which the clause fails ends the
result with an error (line 250). -/
def getAll (db : DB W) (o : DumpOpts) : Except Err (List (Emb W)) :=
  match o.sel with
  | none => .ok (db.embeddings.map (exportRow db o))
  | some p =>
    if db.embeddings.any (fun r => p r.metadata == none) then .error .badFilter
    else .ok ((db.embeddings.filter (fun r => p r.metadata == some true)).map (exportRow db o))

/-- Whether `json` can encode the record. -/
def jsonOk (fin : W → Bool) (e : Emb W) : Bool := (e.vector.getD []).all fin

/-- A record after `json.Marshal` and `json.Unmarshal` with the tags of
/repo/pkg/core/embedding.go:9-18: `omitempty` drops an empty metadata map. -/
def wire (e : Emb W) : Emb W :=
  { e with metadata := if e.metadata = some [] then none else e.metadata }

/-- An element of the `embeddings` array of a JSON file: a record or `null`. -/
inductive Elem (W : Type) where
  | record (e : Emb W)
  | null
  deriving DecidableEq, Repr

/-- A value of a JSON lines file: a record, a value of another shape (`UnmarshalTypeError`, after
which the decoder goes on), or text that is not JSON, is cut off or cannot be read (after which
every `Decode` gives the same error: encoding/json keeps it in `dec.err`). -/
inductive Item (W : Type) where
  | value (e : Emb W)
  | badType
  | broken
  deriving DecidableEq, Repr

/-- `dumpJSON` (/repo/pkg/core/io.go:98-135): the records written, or an error and nothing
written (`Encoder.Encode` writes a value only when all of it was encoded). -/
def dumpJSON (fin : W → Bool) (s : St W HI VI) (o : DumpOpts) : Except Err (List (Elem W)) :=
  if s.closed then .error .closed
  else
    match getAll s.db o with
    | .error er => .error er
    | .ok es => if es.all (jsonOk fin) then .ok (es.map fun e => .record (wire e)) else .error .io

/-- `dumpJSONL` (/repo/pkg/core/io.go:138-156): what was written and the result. -/
def dumpJSONL (fin : W → Bool) (s : St W HI VI) (o : DumpOpts) : List (Item W) × Except Err Nat :=
  if s.closed then ([], .error .closed)
  else
    match getAll s.db o with
    | .error er => ([], .error er)
    | .ok es =>
      ((es.takeWhile (jsonOk fin)).map fun e => .value (wire e),
        if es.all (jsonOk fin) then .ok es.length else .error .io)

/-- `LoadOptions` (/repo/pkg/core/io.go:270-276). -/
structure LoadOpts where
  skipExisting : Bool := true
  replace : Bool := false
  upsert : Bool := true
  deriving DecidableEq, Repr

/-- What the environment decides for one record: whether the connection enforces foreign keys and
whether the lookup or the write fails. -/
structure Choice where
  fk : Bool
  readFault : Bool
  fault : Bool
  deriving DecidableEq, Repr

/-- `ImportStats` (/repo/pkg/core/io.go:69-74). -/
structure Stats where
  imported : Nat := 0
  skipped : Nat := 0
  failed : Nat := 0
  deriving DecidableEq, Repr

/-- `existing != nil` (/repo/pkg/core/io.go:354-355). -/
def existing (c : Choice) (s : St W HI VI) (id : String) : Bool :=
  match getByID s id with
  | .ok _ => !c.readFault
  | .error _ => false

/-- `processImportEmbedding` (/repo/pkg/core/io.go:351-366): `.ok true` is skipped.  An error of
the lookup is ignored; `Replace` and `Upsert` make no difference. -/
def importOne (env : Env W HI VI) (o : LoadOpts) (c : Choice) (s : St W HI VI) (e : Emb W) :
    St W HI VI × Except Err Bool :=
  if o.skipExisting && existing c s e.id then (s, .ok true)
  else
    match upsert env s c.fk c.fault e with
    | (s', .ok) => (s', .ok false)
    | (s', .err er) => (s', .error er)

/-- The counting after a record (/repo/pkg/core/io.go:306-314, 336-344). -/
def tally (st : Stats) : Except Err Bool → Stats
  | .error _ => { st with failed := st.failed + 1 }
  | .ok true => { st with skipped := st.skipped + 1 }
  | .ok false => { st with imported := st.imported + 1 }

/-- The loop of `loadJSONL` (/repo/pkg/core/io.go:324-345): `n` counts the calls of `Decode`,
`ch` are the environment's decisions; `none` is still running when the fuel is used up. -/
def loopLines (env : Env W HI VI) (o : LoadOpts) (ch : Nat → Choice) :
    Nat → Nat → List (Item W) → St W HI VI → Stats → Option (St W HI VI × Stats)
  | 0, _, _, _, _ => none
  | _ + 1, _, [], s, st => some (s, st)
  | f + 1, n, .broken :: rest, s, st =>
    loopLines env o ch f (n + 1) (.broken :: rest) s { st with failed := st.failed + 1 }
  | f + 1, n, .badType :: rest, s, st =>
    loopLines env o ch f (n + 1) rest s { st with failed := st.failed + 1 }
  | f + 1, n, .value e :: rest, s, st =>
    loopLines env o ch f (n + 1) rest (importOne env o (ch n) s e).1 (tally st (importOne env o (ch n) s e).2)

/-- `Load` in JSON lines format (/repo/pkg/core/io.go:254-267, 321-348). -/
def loadLines (env : Env W HI VI) (o : LoadOpts) (ch : Nat → Choice) (fuel : Nat) (s : St W HI VI)
    (file : List (Item W)) : Option (St W HI VI × Except Err Stats) :=
  if s.closed then some (s, .error .closed)
  else (loopLines env o ch fuel 0 file s {}).map fun r => (r.1, .ok r.2)

/-- How `Load` in JSON format ends. -/
inductive Res where
  | ok (st : Stats)
  | err (e : Err)
  | panic
  deriving DecidableEq, Repr

/-- The loop of `loadJSON` (/repo/pkg/core/io.go:304-315): a `null` element is a nil pointer, which
`processImportEmbedding` dereferences. -/
def loopArray (env : Env W HI VI) (o : LoadOpts) (ch : Nat → Choice) :
    Nat → List (Elem W) → St W HI VI → Stats → St W HI VI × Res
  | _, [], s, st => (s, .ok st)
  | _, .null :: _, s, _ => (s, .panic)
  | n, .record e :: rest, s, st =>
    loopArray env o ch (n + 1) rest (importOne env o (ch n) s e).1 (tally st (importOne env o (ch n) s e).2)

/-- `Load` in JSON format (/repo/pkg/core/io.go:254-267, 290-318); `none` is a file that does not
decode into the expected shape. -/
def loadArray (env : Env W HI VI) (o : LoadOpts) (ch : Nat → Choice) (s : St W HI VI)
    (file : Option (List (Elem W))) : St W HI VI × Res :=
  if s.closed then (s, .err .closed)
  else
    match file with
    | none => (s, .err .io)
    | some es => loopArray env o ch 0 es s {}

end Verif.Io
