import Verif.Model.Store

/-!
Model of `IncrementalIndex` of `/repo/pkg/core/streaming.go:228-365` on top of the record store: asynchronous writes, the goroutine that flushes them with
`UpsertBatch`, searches that take pending updates out of the queue and put them back, and other calls on the same store.

Simplifications: the embeddings handed over by pointer are values (the caller leaves them alone afterwards); a panic in any goroutine ends the process
(`crashed`), nothing happens afterwards; the quantizer is left out, as in `Model/Store` (with an untrained one a nil update also panics, in line 186). What a
search answers is in `Model/StreamStore`.
-/
namespace Verif.IncStore

open Verif.Model.Store

variable {W HI VI : Type}

/-- `IncrementalIndex` (streaming.go:228-234) with its store, the local variable `batch` of the worker (line 334), the updates that searches hold, and a ghost list of
the updates accepted. `none` is a nil pointer. -/
structure Idx (W HI VI : Type) where
  st : St W HI VI
  queue : List (Option (Emb W))
  held : List (Option (Emb W))
  batch : List (Option (Emb W))
  closed : Bool
  stopped : Bool
  crashed : Bool
  accepted : List (Option (Emb W))

/-- `NewIncrementalIndex`, streaming.go:237-247. -/
def start (st : St W HI VI) : Idx W HI VI := ⟨st, [], [], [], false, false, false, []⟩

/-- Capacity of the channel (streaming.go:240) and size of a full batch (line 351). -/
def cap : Nat := 100

/-- `AddAsync`, streaming.go:250-264; the flag says that nil was returned. -/
def addAsync (x : Idx W HI VI) (e : Option (Emb W)) : Idx W HI VI × Bool :=
  if x.closed then (x, false)
  else if cap ≤ x.queue.length then (x, false)
  else ({ x with queue := x.queue ++ [e], accepted := x.accepted ++ [e] }, true)

/-- `_ = idx.store.UpsertBatch(context.Background(), batch)`, streaming.go:342-344, 351-354, 358-361, with store_crud.go:161-314: the error is dropped and the batch
emptied. A nil embedding is dereferenced when the loop reaches it (store_crud.go:227), after the embeddings before it went through; the transaction is rolled back. A fault at
the nil embedding's place stands for a transaction that could not begin. -/
def flush (env : Env W HI VI) (x : Idx W HI VI) (fk : Bool) (fault : Option Nat) : Idx W HI VI :=
  if x.st.closed then { x with batch := [] }
  else
    let before := x.batch.takeWhile Option.isSome
    if before.length = x.batch.length then { x with st := (upsertBatch env x.st fk fault (x.batch.filterMap id)).1, batch := [] }
    else
      match batchLoop fk fault x.st.db 0 x.st.db (before.filterMap id) with
      | .error _ => { x with batch := [] }
      | .ok _ => { x with crashed := true }

/-- One step of one goroutine. -/
inductive Step (W HI VI : Type) where
  /-- `AddAsync` -/
  | add (e : Option (Emb W))
  /-- a search takes a pending update -/
  | take
  /-- a search puts back the update at position `i` of those held by searches -/
  | requeue (i : Nat)
  /-- the worker receives; the arguments describe the flush, if one is due -/
  | recv (fk : Bool) (fault : Option Nat)
  /-- the ticker of the worker -/
  | tick (fk : Bool) (fault : Option Nat)
  /-- `Close` of the index -/
  | close
  /-- another call on the store -/
  | call (op : Op W HI VI)

/-- streaming.go:250-264 (`add`), 284-311 (`take`, `requeue`; a nil update is not put back), 323-330 (`close`), 333-365 (`recv`, `tick`). A step that cannot happen changes nothing:
receiving from an empty open channel and sending to a full one block. Sending on a closed channel panics. -/
def step (env : Env W HI VI) (x : Idx W HI VI) (s : Step W HI VI) : Idx W HI VI :=
  if x.crashed then x
  else
    match s with
    | .add e => (addAsync x e).1
    | .take =>
      match x.queue with
      | [] => x
      | none :: q => { x with queue := q }
      | some e :: q => { x with queue := q, held := x.held ++ [some e] }
    | .requeue i =>
      match x.held[i]? with
      | none => x
      | some u =>
        if x.closed then { x with crashed := true }
        else if cap ≤ x.queue.length then x
        else { x with queue := x.queue ++ [u], held := x.held.eraseIdx i }
    | .recv fk fault =>
      if x.stopped then x
      else
        match x.queue with
        | [] =>
          if x.closed then
            if x.batch.isEmpty then { x with stopped := true } else { flush env x fk fault with stopped := true }
          else x
        | u :: q =>
          let y := { x with queue := q, batch := x.batch ++ [u] }
          if cap ≤ y.batch.length then flush env y fk fault else y
    | .tick fk fault => if x.stopped || x.batch.isEmpty then x else flush env x fk fault
    | .close => { x with closed := true }
    | .call op => { x with st := (Verif.Model.Store.step env x.st op).1 }

/-- A schedule. -/
def run (env : Env W HI VI) (x : Idx W HI VI) (steps : List (Step W HI VI)) : Idx W HI VI := steps.foldl (step env) x

end Verif.IncStore
