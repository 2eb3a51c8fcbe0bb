/-!
# Calls that run at the same time: the table and the graph index

Upsert, UpsertBatch, Delete and Search of the store (pkg/core/store_crud.go:15-358, store_search.go:15-260) hold the
store's lock for reading only, so calls of different goroutines interleave. Each of them touches the table and the
index (pkg/index/hnsw.go) one after the other; the table statement and each index call are atomic (SQLite, and the
lock of the index), what happens between them is not. The model interleaves these atomic actions in any order.

Simplifications: a vector is any value; only the graph index is modelled; a record is its id and its vector; the
dimension check, the quantizer and the look-up of the collection come before the actions and are in other models.
Refused arguments are calls without actions.
-/
namespace Verif.Interleave

/-- The table by id, and the index by id: the vector held and whether it is marked deleted (pkg/index/hnsw.go:23-30). -/
structure World (V : Type) where
  rows : String → Option V
  held : String → Option (V × Bool)

/-- The atomic actions. -/
inductive Act (V : Type) where
  /-- the INSERT OR REPLACE of Upsert (pkg/core/store_crud.go:132-141), or the transaction of UpsertBatch (201-281);
  whether the database accepts it -/
  | put (ok : Bool) (rs : List (String × V))
  /-- `hnswIndex.Insert` (store_crud.go:144-148, 286-292; pkg/index/hnsw.go:174-260) -/
  | insert (id : String) (v : V)
  /-- the DELETE of Delete (store_crud.go:329-341); whether the database accepts it -/
  | remove (ok : Bool) (id : String)
  /-- `hnswIndex.Delete` (store_crud.go:344-348; pkg/index/hnsw.go:484-506) -/
  | drop (id : String)
  deriving DecidableEq, Repr

variable {V : Type}

/-- Writing rows. -/
def putRows (rows : String → Option V) (rs : List (String × V)) : String → Option V :=
  rs.foldl (fun m r => fun id => if id = r.1 then some r.2 else m id) rows

/-- An action: what it does, and whether the call goes on. A removal without a row ends the call with an error
(store_crud.go:339-341). An index that holds the id refuses the insertion (pkg/index/hnsw.go:178-180) and the store goes on
with a warning (store_crud.go:145-147). -/
def exec (w : World V) : Act V → World V × Bool
  | .put ok rs => if ok then ({ w with rows := putRows w.rows rs }, true) else (w, false)
  | .insert id v =>
    match w.held id with
    | some _ => (w, true)
    | none => ({ w with held := fun j => if j = id then some (v, false) else w.held j }, true)
  | .remove ok id =>
    match ok, w.rows id with
    | true, some _ => ({ w with rows := fun j => if j = id then none else w.rows j }, true)
    | _, _ => (w, false)
  | .drop id =>
    match w.held id with
    | some (v, _) => ({ w with held := fun j => if j = id then some (v, true) else w.held j }, true)
    | none => (w, true)

/-- The calls. -/
inductive Call (V : Type) where
  /-- `Upsert` (pkg/core/store_crud.go:15-158) -/
  | upsert (ok : Bool) (id : String) (v : V)
  /-- `UpsertBatch` (pkg/core/store_crud.go:161-314) -/
  | upsertBatch (ok : Bool) (rs : List (String × V))
  /-- `Delete` (pkg/core/store_crud.go:317-358) -/
  | delete (ok : Bool) (id : String)
  deriving DecidableEq, Repr

/-- The actions of a call in order. An empty batch returns at once (store_crud.go:169-171), an empty id is refused
(326-328). -/
def Call.acts : Call V → List (Act V)
  | .upsert ok id v => [.put ok [(id, v)], .insert id v]
  | .upsertBatch ok rs => if rs.isEmpty then [] else .put ok rs :: rs.map (fun r => .insert r.1 r.2)
  | .delete ok id => if id = "" then [.remove false id] else [.remove ok id, .drop id]

/-- A goroutine: the actions left of its calls, and the outcomes of the calls that returned, last first. -/
structure Thread (V : Type) where
  todo : List (List (Act V))
  log : List Bool

/-- A goroutine that makes these calls one after the other. -/
def start (cs : List (Call V)) : Thread V := ⟨cs.map Call.acts, []⟩

/-- The next action of a goroutine, or the return of its call. -/
def advance (w : World V) (t : Thread V) : World V × Thread V :=
  match t.todo with
  | [] => (w, t)
  | [] :: cs => (w, ⟨cs, true :: t.log⟩)
  | (a :: as) :: cs =>
    match exec w a with
    | (w', true) => (w', ⟨as :: cs, t.log⟩)
    | (w', false) => (w', ⟨cs, false :: t.log⟩)

/-- The table, the index and the goroutines. -/
structure State (V : Type) where
  world : World V
  threads : List (Thread V)

/-- Goroutine `i` does its next action. -/
def step (s : State V) (i : Nat) : State V :=
  match s.threads[i]? with
  | none => s
  | some t => ⟨(advance s.world t).1, s.threads.set i (advance s.world t).2⟩

/-- A schedule: which goroutine acts, one after the other. -/
def run (s : State V) (sched : List Nat) : State V := sched.foldl step s

/-- All calls have returned. -/
def Done (s : State V) : Prop := ∀ t ∈ s.threads, t.todo = []

/-- A linear search (pkg/core/store_search.go:182-190) reads the table with one SELECT: the records it ranks. -/
def linearSees (w : World V) (id : String) : Option V := w.rows id

/-- A search with the index (store_search.go:128-151) asks the index (in the first state) and then reads the rows of the
candidates (in the second): the records it ranks when the index returns all it holds. -/
def indexSees (w w' : World V) (id : String) : Option V :=
  match w.held id with
  | some (_, false) => w'.rows id
  | _ => none

end Verif.Interleave
