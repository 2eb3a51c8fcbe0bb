/-!
# The store across saves, closes, crashes and reopenings

The committed rows, the vector index in memory and the snapshot of the index kept in the
database.  An index is seen as the entries it holds; that inserting, deleting, batch building and
loading a snapshot have these effects on the entries of the graph and list structures is proved
in `Thm/HnswHist.lean`, `Thm/HnswPar.lean` and `Thm/Ivf.lean`.
-/

namespace Verif.Recover

/-- An entry of an index: identifier, vector, and whether it is marked deleted. -/
structure Entry (V : Type) where
  id : String
  vec : V
  deleted : Bool
  deriving DecidableEq, Repr

/-- Which index the store uses (`Config.IndexType`, pkg/core/embedding.go). -/
inductive Kind where
  | hnsw | ivf
  deriving DecidableEq, Repr

/-- The index in memory; `trained` is always true for HNSW. -/
structure Mem (V : Type) where
  entries : List (Entry V)
  trained : Bool
  deriving DecidableEq, Repr

/-- The store.  `up` is whether a process has it open, `saving` is an index serialised by the
auto-save goroutine and not written yet, `closing` is whether `Close` has saved and not finished. -/
structure State (V : Type) where
  up : Bool
  rows : List (String × V)
  mem : Mem V
  snap : Option (List (Entry V))
  saving : Option (List (Entry V))
  closing : Bool
  deriving DecidableEq, Repr

variable {V : Type}

/-- `INSERT OR REPLACE INTO embeddings` (pkg/core/store_crud.go:130-138, 213-216, 262). -/
def putRow (rows : List (String × V)) (r : String × V) : List (String × V) :=
  rows.filter (fun x => x.1 != r.1) ++ [r]

/-- `HNSW.Insert` refuses an identifier it has, deleted or not (pkg/index/hnsw.go:178-180), and
the store only logs that (pkg/core/store_crud.go:144-148, 288-292); `IVFIndex.Add` appends
(pkg/index/ivf.go:110-134) and is called only on a trained index (store_crud.go:151, 300). -/
def insert (k : Kind) (m : Mem V) (r : String × V) : Mem V :=
  match k with
  | .hnsw => if m.entries.any (fun e => e.id == r.1) then m
             else { m with entries := m.entries ++ [⟨r.1, r.2, false⟩] }
  | .ivf => if m.trained then { m with entries := m.entries ++ [⟨r.1, r.2, false⟩] } else m

/-- `HNSW.Delete` marks the node (pkg/index/hnsw.go:484-506); `IVFIndex.Delete` removes the first
entry with the identifier (pkg/index/ivf.go:398-450). -/
def delete (k : Kind) (m : Mem V) (id : String) : Mem V :=
  match k with
  | .hnsw => { m with entries := m.entries.map fun e => if e.id == id then { e with deleted := true } else e }
  | .ivf => if m.trained then { m with entries := m.entries.eraseP fun e => e.id == id } else m

/-- The index of a store without snapshot: rebuilt from the rows for HNSW
(`rebuildHNSWIndex`, pkg/core/store_index.go:75-170), untrained for IVF (`initIVFIndex`,
pkg/core/store_index.go:173-213). -/
def fresh (k : Kind) (rows : List (String × V)) : Mem V :=
  match k with
  | .hnsw => ⟨rows.foldl (fun es r => (insert .hnsw ⟨es, true⟩ r).entries) [], true⟩
  | .ivf => ⟨[], false⟩

/-- `Init` (pkg/core/store_init.go:13-69): a snapshot, if there is one, is the index
(`loadIndexSnapshot`, pkg/core/store_index.go:51-61, 196-205, 415-463); nothing compares it with
the rows.  Decoding a snapshot that was written does not fail. -/
def load (k : Kind) (s : State V) : Mem V :=
  match s.snap with
  | some es => ⟨es, true⟩
  | none => fresh k s.rows

/-- What happens to a store. -/
inductive Event (V : Type) where
  /-- `Upsert`, `UpsertBatch` (pkg/core/store_crud.go:15-314) that commit. -/
  | write (rs : List (String × V))
  /-- The same, with the process dying after the commit and before the index is updated. -/
  | writeCrash (rs : List (String × V))
  /-- `Delete`, `DeleteBatch`, `DeleteByFilter`, `DeleteDocument`: rows and index
  (pkg/core/store_crud.go:317-358, 382-532, pkg/core/document.go:97-132). -/
  | remove (ids : List String)
  /-- `DeleteByDocID`, `Clear`, `ClearByDocID`, `DeleteCollection`: rows only
  (pkg/core/store_crud.go:361-379, 535-607, pkg/core/collections.go:216-264). -/
  | removeRows (ids : List String)
  /-- `TrainIndex` (pkg/core/store_index.go:216-308) with at least one row. -/
  | train
  /-- The auto-save goroutine serialises the index (pkg/core/store_index.go:361-377, 479-490); it
  holds no store lock. -/
  | saveStart
  /-- … and writes it (pkg/core/store_index.go:379-387). -/
  | saveWrite
  /-- `Close` serialises and writes the index (pkg/core/store_close.go:9-24) … -/
  | closeSave
  /-- … and closes the database (store_close.go:26-33). -/
  | closeDone
  /-- The process dies. -/
  | crash
  /-- A process opens the store. -/
  | reopen
  deriving DecidableEq, Repr

/-- Whether the index would be saved (pkg/core/store_index.go:365-377). -/
def savable (k : Kind) (s : State V) : Bool :=
  match k with
  | .hnsw => true
  | .ivf => s.mem.trained

/-- One event.  Calls while the store is closed or closing do nothing (`Close` holds the store
lock exclusively; only the auto-save goroutine does not need it). -/
def step (k : Kind) (s : State V) : Event V → State V
  | .write rs =>
    if s.up && !s.closing then
      { s with rows := rs.foldl putRow s.rows, mem := rs.foldl (insert k) s.mem }
    else s
  | .writeCrash rs =>
    if s.up && !s.closing then
      { s with rows := rs.foldl putRow s.rows, up := false, saving := none } else s
  | .remove ids =>
    if s.up && !s.closing then
      { s with rows := s.rows.filter (fun r => !ids.contains r.1), mem := ids.foldl (delete k) s.mem }
    else s
  | .removeRows ids =>
    if s.up && !s.closing then { s with rows := s.rows.filter (fun r => !ids.contains r.1) } else s
  | .train =>
    if s.up && !s.closing && decide (k = .ivf) && !s.rows.isEmpty then
      { s with mem := ⟨s.rows.map fun r => ⟨r.1, r.2, false⟩, true⟩ } else s
  | .saveStart => if s.up && savable k s then { s with saving := some s.mem.entries } else s
  | .saveWrite =>
    if s.up then
      match s.saving with
      | some es => { s with snap := some es, saving := none }
      | none => s
    else s
  | .closeSave =>
    if s.up && !s.closing then
      { s with snap := if savable k s then some s.mem.entries else s.snap, closing := true } else s
  | .closeDone =>
    if s.up && s.closing then { s with up := false, closing := false, saving := none } else s
  | .crash => { s with up := false, closing := false, saving := none }
  | .reopen => if s.up then s else { s with up := true, mem := load k s, saving := none }

/-- A store after a history. -/
def run (k : Kind) (s : State V) (es : List (Event V)) : State V := es.foldl (step k) s

/-- A database that was never opened. -/
def init : State V := ⟨false, [], ⟨[], true⟩, none, none, false⟩

end Verif.Recover
