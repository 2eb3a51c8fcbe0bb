import Verif.Model.Store
import Verif.Model.Recover

/-!
# Several stores opened on one file

`core.New` and `Init` (/repo/pkg/core/store.go:34-64, store_init.go:13-69) may be called several times for one path, in one process or in
several. The tables are shared. Everything else of `SQLiteStore` (/repo/pkg/core/store.go:16-31: detected dimension, closed flag, index)
belongs to one store, here called a handle. Simplification: a call of one handle is one step, as in `Verif.Model.Store`; a write that
finds the file locked for longer than the busy timeout fails, which is the `fault` of that call.
-/

namespace Verif.Handles

open Verif.Model.Store

/-- What a handle keeps in memory (/repo/pkg/core/store.go:16-31). -/
structure Local (HI VI : Type) where
  dim : Nat
  closed : Bool
  hnsw : Option HI
  ivf : Option VI

/-- The file and its handles. -/
structure Sys (W HI VI : Type) where
  db : DB W
  loc : Nat → Local HI VI

variable {W HI VI : Type}

/-- The store as handle `i` sees it: every statement goes to the shared file through `s.db` (/repo/pkg/core/store_init.go:27-40). -/
def view (s : Sys W HI VI) (i : Nat) : St W HI VI :=
  { db := s.db, dim := (s.loc i).dim, closed := (s.loc i).closed, hnsw := (s.loc i).hnsw, ivf := (s.loc i).ivf }

/-- A call of handle `i` (/repo/pkg/core/store_crud.go:15-607, collections.go:12-264, document.go:12-132, store_close.go:9-34). -/
def step (env : Env W HI VI) (s : Sys W HI VI) (i : Nat) (op : Op W HI VI) : Sys W HI VI × Out :=
  let r := Verif.Model.Store.step env (view s i) op
  ({ db := r.1.db, loc := fun j => if j = i then { dim := r.1.dim, closed := r.1.closed, hnsw := r.1.hnsw, ivf := r.1.ivf } else s.loc j }, r.2)

/-- The file and its handles after a history of calls, each with the handle it is made on. -/
def run (env : Env W HI VI) (s : Sys W HI VI) (evs : List (Nat × Op W HI VI)) : Sys W HI VI :=
  evs.foldl (fun s e => (step env s e.1 e.2).1) s

/-- No file yet and every handle still to be opened. -/
def init : Sys W HI VI :=
  { db := { collections := [], nextColl := 1, documents := [], embeddings := [] }, loc := fun _ => ⟨0, true, none, none⟩ }

namespace Ix

open Verif.Recover

variable {V : Type}

/-- What a handle keeps of its vector index (/repo/pkg/core/store.go:24-29). -/
structure Local (V : Type) where
  up : Bool
  mem : Mem V
  saving : Option (List (Entry V))
  closing : Bool

/-- The rows and the index snapshot in the file (tables `embeddings` and `index_snapshots`, /repo/pkg/core/store_init.go:96-143), and the
handles. -/
structure Sys (V : Type) where
  rows : List (String × V)
  snap : Option (List (Entry V))
  loc : Nat → Local V

/-- The rows, the snapshot and the index as handle `i` sees them (/repo/pkg/core/store_index.go:357-463). -/
def view (s : Sys V) (i : Nat) : State V :=
  { up := (s.loc i).up, rows := s.rows, mem := (s.loc i).mem, snap := s.snap, saving := (s.loc i).saving, closing := (s.loc i).closing }

/-- An event at handle `i` (/repo/pkg/core/store_crud.go:15-607, store_index.go:216-490, store_close.go:9-34). -/
def step (k : Kind) (s : Sys V) (i : Nat) (e : Event V) : Sys V :=
  let r := Verif.Recover.step k (view s i) e
  { rows := r.rows, snap := r.snap, loc := fun j => if j = i then ⟨r.up, r.mem, r.saving, r.closing⟩ else s.loc j }

/-- The file and its handles after a history. -/
def run (k : Kind) (s : Sys V) (evs : List (Nat × Event V)) : Sys V := evs.foldl (fun s e => step k s e.1 e.2) s

/-- No file yet and every handle still to be opened. -/
def init : Sys V := { rows := [], snap := none, loc := fun _ => ⟨false, ⟨[], true⟩, none, false⟩ }

end Ix

end Verif.Handles
