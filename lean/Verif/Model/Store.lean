import Mathlib.Data.List.Basic

/-!
Model of the record store of `/repo/pkg/core`: tables, write operations and lookups, as a state machine.

Simplifications that hold for the whole file:
* `W` is the type of a vector component (a float32). Blobs hold the component list itself; the byte level is `Model/Codec`.
* A Go `map[string]string` is an association list; JSON storage of maps and string lists is taken to be faithful
  (strings are valid Unicode). `created_at`, the quantizer and logging are left out.
* A failing storage layer is an explicit argument (`fault`) of each operation. A single SQL statement is atomic, a
  transaction that does not commit changes nothing.
* `fk` says whether the pooled connection that executes the statement has `PRAGMA foreign_keys = ON`: the pragma is
  executed once, on one connection (/repo/pkg/core/store_init.go:42), while the pool may hold 25 (line 34).
* The vector indexes are opaque values with the operations of `Env`; search over them is in `Model/Search`.
* Every operation is one step. Interleavings are treated in `Model/Lock`.
-/
namespace Verif.Model.Store

/-- Metadata map (/repo/pkg/core/embedding.go:16). -/
abbrev Meta := List (String × String)

/-- `Embedding` (/repo/pkg/core/embedding.go:9-18) as passed by a caller. `none` is the nil slice or map. -/
structure Emb (W : Type) where
  id : String
  collectionID : Int := 0
  collection : String := ""
  vector : Option (List W)
  content : String := ""
  docID : String := ""
  metadata : Option Meta := none
  acl : List String := []
  deriving DecidableEq, Repr

/-- A row of table `embeddings` (/repo/pkg/core/store_init.go:97-108). `none` is SQL NULL (for `metadata`, the empty text). -/
structure Row (W : Type) where
  id : String
  cid : Int
  vector : List W
  content : String
  docID : Option String
  metadata : Option Meta
  acl : Option (List String)
  deriving DecidableEq, Repr

/-- A row of table `collections` (/repo/pkg/core/store_init.go:74-82). -/
structure Coll where
  id : Int
  name : String
  dims : Int
  deriving DecidableEq, Repr

/-- A row of table `documents` (/repo/pkg/core/store_init.go:84-95). The columns other than key and access list are one
text. -/
structure Doc where
  id : String
  body : String
  acl : Option (List String) := none
  deriving DecidableEq, Repr

/-- The database file. `nextColl` is the AUTOINCREMENT counter of `collections`. -/
structure DB (W : Type) where
  collections : List Coll
  nextColl : Int
  documents : List Doc
  embeddings : List (Row W)
  deriving DecidableEq, Repr

/-- Errors an operation may return. -/
inductive Err where
  | closed | notFound | invalidVector | tooLarge | adaptation | noCollection | emptyId | emptyFilter
  | badFilter | exists_ | negativeDims | constraint | io
  deriving DecidableEq, Repr

/-- Result of a write operation. -/
inductive Out where
  | ok
  | err (e : Err)
  deriving DecidableEq, Repr

/-- What the store uses from elsewhere: dimension adaptation under the store's policy
(/repo/pkg/core/dimension.go:30-53, `none` is an error) and the index updates. Errors of the index updates are only
logged (/repo/pkg/core/store_crud.go:145-147, 152-154). -/
structure Env (W HI VI : Type) where
  adapt : List W → Nat → Nat → Option (List W)
  hInsert : HI → String → List W → HI
  hDelete : HI → String → HI
  vAdd : VI → String → List W → VI
  vDelete : VI → String → VI
  vTrained : VI → Bool

/-- `SQLiteStore` (/repo/pkg/core/store.go:16-31). `hnsw = none` when the index is disabled or nil. -/
structure St (W HI VI : Type) where
  db : DB W
  dim : Nat
  closed : Bool
  hnsw : Option HI
  ivf : Option VI

/-- Collection named by the embedding (/repo/pkg/core/store_crud.go:91-103, 232-244; collections.go:108-153). -/
def resolveCollection {W : Type} (db : DB W) (e : Emb W) : Except Err Int :=
  if e.collectionID ≠ 0 then .ok e.collectionID
  else if e.collection ≠ "" then
    match db.collections.find? (fun c => c.name = e.collection) with
    | some c => .ok c.id
    | none => .error .noCollection
  else .ok 1

/-- `EncodeVector` at the level of components (/repo/internal/encoding/utils.go:17-27). -/
def encodable {W : Type} : Option (List W) → Except Err (List W)
  | none => .error .invalidVector
  | some v => if v.length > 2147483647 then .error .tooLarge else .ok v

/-- The row bound to the INSERT (/repo/pkg/core/store_crud.go:91-130, 231-270). -/
def prepareRow {W : Type} (db : DB W) (e : Emb W) : Except Err (Row W) :=
  match resolveCollection db e with
  | .error er => .error er
  | .ok cid =>
    match encodable e.vector with
    | .error er => .error er
    | .ok v => .ok { id := e.id, cid := cid, vector := v, content := e.content
                     docID := if e.docID ≠ "" then some e.docID else none
                     metadata := e.metadata
                     acl := if e.acl.length > 0 then some e.acl else none }

/-- The two foreign keys of `embeddings` (/repo/pkg/core/store_init.go:106-107). -/
def fkHolds {W : Type} (db : DB W) (r : Row W) : Bool :=
  db.collections.any (fun c => c.id = r.cid) &&
    (match r.docID with
     | none => true
     | some d => db.documents.any (fun x => x.id = d))

/-- `INSERT OR REPLACE INTO embeddings` (/repo/pkg/core/store_crud.go:133-138). -/
def insertRow {W : Type} (fk : Bool) (db : DB W) (r : Row W) : Except Err (DB W) :=
  if fk && !fkHolds db r then .error .constraint
  else .ok { db with embeddings := db.embeddings.filter (fun x => x.id ≠ r.id) ++ [r] }

/-- `Upsert` (/repo/pkg/core/store_crud.go:15-158). The detected dimension is kept even when the write then fails. -/
def upsert {W HI VI : Type} (env : Env W HI VI) (s : St W HI VI) (fk fault : Bool) (e : Emb W) :
    St W HI VI × Out :=
  if s.closed then (s, .err .closed)
  else
    let inc := (e.vector.getD []).length
    let s1 := if s.dim = 0 then { s with dim := inc } else s
    let vec : Option (Option (List W)) :=
      if inc ≠ s1.dim then (env.adapt (e.vector.getD []) inc s1.dim).map some else some e.vector
    match vec with
    | none => (s1, .err .adaptation)
    | some v =>
      match prepareRow s1.db { e with vector := v } with
      | .error er => (s1, .err er)
      | .ok row =>
        if fault then (s1, .err .io)
        else
          match insertRow fk s1.db row with
          | .error er => (s1, .err er)
          | .ok db' =>
            ({ s1 with
                db := db'
                hnsw := s1.hnsw.map (fun h => env.hInsert h row.id row.vector)
                ivf := s1.ivf.map (fun i => if env.vTrained i then env.vAdd i row.id row.vector else i) }, .ok)

/-- The loop of `UpsertBatch` inside its transaction (/repo/pkg/core/store_crud.go:226-276). `n` is the index, the
storage layer fails at index `fault`. Collections are read outside the transaction (line 236); no statement of the
transaction changes them. -/
def batchLoop {W : Type} (fk : Bool) (fault : Option Nat) (committed : DB W) :
    Nat → DB W → List (Emb W) → Except Err (DB W)
  | n, tx, [] => if fault = some n then .error .io else .ok tx
  | n, tx, e :: es =>
    match prepareRow committed e with
    | .error er => .error er
    | .ok row =>
      if fault = some n then .error .io
      else
        match insertRow fk tx row with
        | .error er => .error er
        | .ok tx' => batchLoop fk fault committed (n + 1) tx' es

/-- `UpsertBatch` (/repo/pkg/core/store_crud.go:161-314): no dimension check, no detection, no adaptation. Indexes are
updated after the commit (lines 286-311). A fault at index `len` is a failing COMMIT. -/
def upsertBatch {W HI VI : Type} (env : Env W HI VI) (s : St W HI VI) (fk : Bool) (fault : Option Nat)
    (es : List (Emb W)) : St W HI VI × Out :=
  if s.closed then (s, .err .closed)
  else if es.length = 0 then (s, .ok)
  else
    match batchLoop fk fault s.db 0 s.db es with
    | .error er => (s, .err er)
    | .ok db' =>
      ({ s with
          db := db'
          hnsw := s.hnsw.map (fun h => es.foldl (fun h e => env.hInsert h e.id (e.vector.getD [])) h)
          ivf := s.ivf.map (fun i =>
            if env.vTrained i then es.foldl (fun i e => env.vAdd i e.id (e.vector.getD [])) i else i) }, .ok)

/-- `Delete` (/repo/pkg/core/store_crud.go:317-358). -/
def delete {W HI VI : Type} (env : Env W HI VI) (s : St W HI VI) (fault : Bool) (id : String) :
    St W HI VI × Out :=
  if s.closed then (s, .err .closed)
  else if id = "" then (s, .err .emptyId)
  else if fault then (s, .err .io)
  else if s.db.embeddings.any (fun r => r.id = id) then
    ({ s with
        db := { s.db with embeddings := s.db.embeddings.filter (fun r => r.id ≠ id) }
        hnsw := s.hnsw.map (fun h => env.hDelete h id)
        ivf := s.ivf.map (fun i => env.vDelete i id) }, .ok)
  else (s, .err .notFound)

/-- `DeleteByDocID` (/repo/pkg/core/store_crud.go:361-379): indexes are not updated. -/
def deleteByDocID {W HI VI : Type} (s : St W HI VI) (fault : Bool) (d : String) : St W HI VI × Out :=
  if s.closed then (s, .err .closed)
  else if d = "" then (s, .err .emptyId)
  else if fault then (s, .err .io)
  else ({ s with db := { s.db with embeddings := s.db.embeddings.filter (fun r => r.docID ≠ some d) } }, .ok)

/-- `unicode.IsSpace`, used by `strings.TrimSpace`. -/
def isSpace (c : Char) : Bool :=
  let n := c.toNat
  (9 ≤ n && n ≤ 13) || n = 32 || n = 0x85 || n = 0xA0 || n = 0x1680 || (0x2000 ≤ n && n ≤ 0x200a) ||
    n = 0x2028 || n = 0x2029 || n = 0x202f || n = 0x205f || n = 0x3000

/-- `strings.TrimSpace(id) == ""` (/repo/pkg/core/store_crud.go:397). -/
def isBlank (s : String) : Bool := s.toList.all isSpace

/-- The chunk loop of `DeleteBatch` (/repo/pkg/core/store_crud.go:408-436). Each chunk is its own statement, without
a surrounding transaction; the storage layer fails at chunk number `fault`. Returns the table, the number of deleted
rows and whether a chunk failed. -/
def deleteChunks {W : Type} (fault : Option Nat) (k : Nat) (rows : List (Row W)) (total : Nat) (ids : List String) :
    List (Row W) × Nat × Bool :=
  if _h : ids = [] then (rows, total, false)
  else if fault = some k then (rows, total, true)
  else
    let chunk := ids.take 500
    let rows' := rows.filter (fun r => !chunk.contains r.id)
    deleteChunks fault (k + 1) rows' (total + (rows.length - rows'.length)) (ids.drop 500)
termination_by ids.length
decreasing_by
  have : ids.length ≠ 0 := fun h0 => _h (List.length_eq_zero_iff.1 h0)
  simp only [List.length_drop]; omega

/-- `DeleteBatch` (/repo/pkg/core/store_crud.go:382-462). -/
def deleteBatch {W HI VI : Type} (env : Env W HI VI) (s : St W HI VI) (fault : Option Nat) (ids : List String) :
    St W HI VI × Out :=
  if s.closed then (s, .err .closed)
  else if ids.length = 0 then (s, .ok)
  else
    let valid := ids.filter (fun i => !isBlank i)
    if valid.length = 0 then (s, .ok)
    else
      let res := deleteChunks fault 0 s.db.embeddings 0 valid
      let s1 := { s with db := { s.db with embeddings := res.1 } }
      if res.2.2 then (s1, .err .io)
      else if res.2.1 = 0 then (s1, .err .notFound)
      else
        ({ s1 with
            hnsw := s.hnsw.map (fun h => valid.foldl env.hDelete h)
            ivf := s.ivf.map (fun i => valid.foldl env.vDelete i) }, .ok)

/-- `DeleteByFilter` (/repo/pkg/core/store_crud.go:465-532). `sel = none` is an empty filter or one whose SQL is the
empty string (lines 466-468, 479-481). `sel m` is what the WHERE clause, which mentions only the metadata column, gives
on a row: `none` makes the statement fail. A failure at the first row found is reported by the SELECT (lines 485-488);
after that the SELECT's failure goes unnoticed (lines 491-496) but the DELETE with the same clause fails (507-510). The
translation of filters to that function is `Model/Filter`. -/
def deleteByFilter {W HI VI : Type} (env : Env W HI VI) (s : St W HI VI) (fault : Bool)
    (sel : Option (Option Meta → Option Bool)) : St W HI VI × Out :=
  match sel with
  | none => (s, .err .emptyFilter)
  | some p =>
    if s.closed then (s, .err .closed)
    else if s.db.embeddings.any (fun r => p r.metadata == none) then (s, .err .badFilter)
    else
      let doomed := (s.db.embeddings.filter (fun r => p r.metadata == some true)).map (fun r => r.id)
      if doomed.length = 0 then (s, .ok)
      else if fault then (s, .err .io)
      else
        ({ s with
            db := { s.db with embeddings := s.db.embeddings.filter (fun r => !(p r.metadata == some true)) }
            hnsw := s.hnsw.map (fun h => doomed.foldl env.hDelete h)
            ivf := s.ivf.map (fun i => doomed.foldl env.vDelete i) }, .ok)

/-- `Clear` (/repo/pkg/core/store_crud.go:535-551): indexes are not updated. -/
def clear {W HI VI : Type} (s : St W HI VI) (fault : Bool) : St W HI VI × Out :=
  if s.closed then (s, .err .closed)
  else if fault then (s, .err .io)
  else ({ s with db := { s.db with embeddings := [] } }, .ok)

/-- `ClearByDocID` (/repo/pkg/core/store_crud.go:554-607): one transaction, empty ids skipped, indexes not updated. -/
def clearByDocID {W HI VI : Type} (s : St W HI VI) (fault : Bool) (ds : List String) : St W HI VI × Out :=
  if s.closed then (s, .err .closed)
  else if ds.length = 0 then (s, .ok)
  else if fault then (s, .err .io)
  else
    let rows := ds.foldl (fun rs d => if d = "" then rs else rs.filter (fun r => r.docID ≠ some d)) s.db.embeddings
    ({ s with db := { s.db with embeddings := rows } }, .ok)

/-- `CreateCollection` (/repo/pkg/core/collections.go:33-105). -/
def createCollection {W HI VI : Type} (s : St W HI VI) (fault : Bool) (name : String) (dims : Int) :
    St W HI VI × Out :=
  if s.closed then (s, .err .closed)
  else if s.db.collections.any (fun c => c.name = name) then (s, .err .exists_)
  else if dims < 0 then (s, .err .negativeDims)
  else if fault then (s, .err .io)
  else
    ({ s with db := { s.db with
        collections := s.db.collections ++ [{ id := s.db.nextColl, name := name, dims := dims }]
        nextColl := s.db.nextColl + 1 } }, .ok)

/-- `DeleteCollection` (/repo/pkg/core/collections.go:216-264): one transaction, indexes not updated. -/
def deleteCollection {W HI VI : Type} (s : St W HI VI) (fault : Bool) (name : String) : St W HI VI × Out :=
  if s.closed then (s, .err .closed)
  else
    match s.db.collections.find? (fun c => c.name = name) with
    | none => (s, .err .noCollection)
    | some c =>
      if fault then (s, .err .io)
      else
        ({ s with db := { s.db with
            embeddings := s.db.embeddings.filter (fun r => r.cid ≠ c.id)
            collections := s.db.collections.filter (fun x => x.id ≠ c.id) } }, .ok)

/-- `GetCollectionStats` (/repo/pkg/core/collections.go:267-308): the count. -/
def collectionCount {W HI VI : Type} (s : St W HI VI) (name : String) : Except Err Nat :=
  if s.closed then .error .closed
  else
    match s.db.collections.find? (fun c => c.name = name) with
    | none => .error .noCollection
    | some c => .ok (s.db.embeddings.filter (fun r => r.cid = c.id)).length

/-- `CreateDocument` (/repo/pkg/core/document.go:26-55): plain INSERT, so an existing id is a constraint error. -/
def createDocument {W HI VI : Type} (s : St W HI VI) (fault : Bool) (d : Doc) : St W HI VI × Out :=
  if s.closed then (s, .err .closed)
  else if fault then (s, .err .io)
  else if s.db.documents.any (fun x => x.id = d.id) then (s, .err .constraint)
  else ({ s with db := { s.db with documents := s.db.documents ++ [d] } }, .ok)

/-- `UpdateDocument` (/repo/pkg/core/document.go:135-173). -/
def updateDocument {W HI VI : Type} (s : St W HI VI) (fault : Bool) (d : Doc) : St W HI VI × Out :=
  if s.closed then (s, .err .closed)
  else if fault then (s, .err .io)
  else if s.db.documents.any (fun x => x.id = d.id) then
    ({ s with db := { s.db with documents := s.db.documents.map (fun x => if x.id = d.id then d else x) } }, .ok)
  else (s, .err .notFound)

/-- `DeleteDocument` (/repo/pkg/core/document.go:97-132). The index entries go first, from a SELECT, then the document
row; the rows of `embeddings` go only through ON DELETE CASCADE, so only on an enforcing connection and only if the
document row exists. -/
def deleteDocument {W HI VI : Type} (env : Env W HI VI) (s : St W HI VI) (fk fault : Bool) (id : String) :
    St W HI VI × Out :=
  if s.closed then (s, .err .closed)
  else
    let chunkIds := (s.db.embeddings.filter (fun r => r.docID = some id)).map (fun r => r.id)
    let s1 := { s with
      hnsw := s.hnsw.map (fun h => chunkIds.foldl env.hDelete h)
      ivf := s.ivf.map (fun i => chunkIds.foldl env.vDelete i) }
    if fault then (s1, .err .io)
    else
      let cascade := fk && s.db.documents.any (fun x => x.id = id)
      ({ s1 with db := { s.db with
          documents := s.db.documents.filter (fun x => x.id ≠ id)
          embeddings := if cascade then s.db.embeddings.filter (fun r => r.docID ≠ some id)
                        else s.db.embeddings } }, .ok)

/-- `Close` (/repo/pkg/core/store_close.go:9-38). -/
def close {W HI VI : Type} (s : St W HI VI) : St W HI VI × Out := ({ s with closed := true }, .ok)

/-- The default collection of `createTables` (/repo/pkg/core/store_init.go:184-187): INSERT OR IGNORE with id 1.
AUTOINCREMENT never reuses ids. -/
def ensureDefault {W : Type} (db : DB W) (dim : Nat) : DB W :=
  if db.collections.any (fun c => c.id = 1 || c.name = "default") then db
  else { db with
    collections := db.collections ++ [{ id := 1, name := "default", dims := dim }]
    nextColl := max db.nextColl 2 }

/-- A new store value on the same file: `NewWithConfig` and `Init` (/repo/pkg/core/store.go:43-73,
store_init.go:13-69), after a close or a crash. The dimension is the configured one; the indexes are whatever
snapshot loading or rebuilding produced. -/
def reopen {W HI VI : Type} (s : St W HI VI) (dim : Nat) (h : Option HI) (v : Option VI) : St W HI VI × Out :=
  ({ db := ensureDefault s.db dim, dim := dim, closed := false, hnsw := h, ivf := v }, .ok)

/-- A fresh store: `Init` on an empty file. -/
def init {W HI VI : Type} (dim : Nat) (h : Option HI) (v : Option VI) : St W HI VI :=
  { db := ensureDefault { collections := [], nextColl := 1, documents := [], embeddings := [] } dim
    dim := dim, closed := false, hnsw := h, ivf := v }

/-- One call of the write API, with the choices the environment makes. -/
inductive Op (W HI VI : Type) where
  | upsert (fk fault : Bool) (e : Emb W)
  | upsertBatch (fk : Bool) (fault : Option Nat) (es : List (Emb W))
  | delete (fault : Bool) (id : String)
  | deleteByDocID (fault : Bool) (d : String)
  | deleteBatch (fault : Option Nat) (ids : List String)
  | deleteByFilter (fault : Bool) (sel : Option (Option Meta → Option Bool))
  | clear (fault : Bool)
  | clearByDocID (fault : Bool) (ds : List String)
  | createCollection (fault : Bool) (name : String) (dims : Int)
  | deleteCollection (fault : Bool) (name : String)
  | createDocument (fault : Bool) (d : Doc)
  | updateDocument (fault : Bool) (d : Doc)
  | deleteDocument (fk fault : Bool) (id : String)
  | close
  | reopen (dim : Nat) (h : Option HI) (v : Option VI)

/-- One step of the store. -/
def step {W HI VI : Type} (env : Env W HI VI) (s : St W HI VI) : Op W HI VI → St W HI VI × Out
  | .upsert fk f e => upsert env s fk f e
  | .upsertBatch fk f es => upsertBatch env s fk f es
  | .delete f id => delete env s f id
  | .deleteByDocID f d => deleteByDocID s f d
  | .deleteBatch f ids => deleteBatch env s f ids
  | .deleteByFilter f sel => deleteByFilter env s f sel
  | .clear f => clear s f
  | .clearByDocID f ds => clearByDocID s f ds
  | .createCollection f n d => createCollection s f n d
  | .deleteCollection f n => deleteCollection s f n
  | .createDocument f d => createDocument s f d
  | .updateDocument f d => updateDocument s f d
  | .deleteDocument fk f id => deleteDocument env s fk f id
  | .close => close s
  | .reopen d h v => reopen s d h v

/-- State after a history. -/
def run {W HI VI : Type} (env : Env W HI VI) (s : St W HI VI) (ops : List (Op W HI VI)) : St W HI VI :=
  ops.foldl (fun s op => (step env s op).1) s

/-- What `GetByID` shows of a row (/repo/pkg/core/store_query.go:22-48, 230-283). -/
structure Rec (W : Type) where
  vector : List W
  content : String
  docID : String
  metadata : Option Meta
  acl : List String
  collection : String
  deriving DecidableEq, Repr

/-- `scanEmbeddingForGet` with the LEFT JOIN on collections (/repo/pkg/core/store_query.go:22-29, 231-283). -/
def toRec {W : Type} (db : DB W) (r : Row W) : Rec W :=
  { vector := r.vector, content := r.content, docID := r.docID.getD "", metadata := r.metadata
    acl := r.acl.getD []
    collection := match db.collections.find? (fun c => c.id = r.cid) with
      | some c => c.name
      | none => "" }

/-- `GetByID` (/repo/pkg/core/store_query.go:14-49). -/
def getByID {W HI VI : Type} (s : St W HI VI) (id : String) : Except Err (Rec W) :=
  if s.closed then .error .closed
  else
    match s.db.embeddings.find? (fun r => r.id = id) with
    | none => .error .notFound
    | some r => .ok (toRec s.db r)

end Verif.Model.Store
