import Verif.Model.Dimension

/-!
# The first records of a store that detects its dimension, written and searched at the same time

`Upsert` (pkg/core/store_crud.go:15-158) and `Search` (pkg/core/store_search.go:15-60) read the dimension under the
lock, give the lock up, and take it again later. The model interleaves the parts that run under the lock (or touch the
database) in any order. `UpsertBatch` neither reads nor sets the dimension and is left out, as are quantizers and
indexes.
-/
namespace Verif.DimRace
open Verif.Model.Dimension

/-- What a goroutine was told. -/
inductive Outcome where
  /-- `Upsert` returned nil -/
  | stored
  /-- the vector does not fit and is not adapted, or the query is not usable -/
  | refused
  /-- the database refused the row -/
  | failed
  /-- the search ranked the records by this vector -/
  | answered (q : List ℝ)

/-- Where a goroutine is in its call. The noise is what padding adds; it differs from call to call
(pkg/core/dimension.go:150-156). -/
inductive Phase where
  /-- before store_crud.go:16 -/
  | up (ok : Bool) (id : String) (v : List ℝ) (noise : Nat → ℝ)
  /-- it read dimension 0 and waits for the lock (store_crud.go:28) -/
  | upLock (ok : Bool) (id : String) (v : List ℝ) (noise : Nat → ℝ)
  /-- it has the dimension `cur` and goes on to adapt and insert (store_crud.go:72-141) -/
  | upPut (ok : Bool) (id : String) (v : List ℝ) (noise : Nat → ℝ) (cur : Nat)
  /-- before store_search.go:16 -/
  | se (q : List ℝ) (noise : Nat → ℝ)
  /-- it read the dimension `d` and goes on to adapt, to validate and to search (store_search.go:27-59) -/
  | seCheck (q : List ℝ) (noise : Nat → ℝ) (d : Nat)
  | done (o : Outcome)

/-- The dimension of the store (0: not known yet), its rows, and the goroutines. -/
structure State where
  policy : Policy
  dim : Nat
  rows : List (String × List ℝ)
  threads : List Phase

/-- INSERT OR REPLACE (store_crud.go:132-141). -/
def put (rows : List (String × List ℝ)) (id : String) (v : List ℝ) : List (String × List ℝ) :=
  rows.filter (fun r => r.1 ≠ id) ++ [(id, v)]

/-- The query after adaptation (store_search.go:26-34). -/
noncomputable def adaptQuery (p : Policy) (noise : Nat → ℝ) (q : List ℝ) (d : Nat) : Except Err (List ℝ) :=
  if d > 0 ∧ q.length ≠ d then adaptVector p noise q q.length d else .ok q

/-- The part of a call up to the next point where another goroutine can come in. `validateSearchInput` reads the dimension
again (store_search.go:290-307); components are numbers here, so only the empty query is invalid. -/
noncomputable def advance (p : Policy) (dim : Nat) (rows : List (String × List ℝ)) : Phase → Nat × List (String × List ℝ) × Phase
  | .up ok id v n => if dim = 0 then (dim, rows, .upLock ok id v n) else (dim, rows, .upPut ok id v n dim)
  | .upLock ok id v n =>
    if dim = 0 then (v.length, rows, .upPut ok id v n v.length) else (dim, rows, .upPut ok id v n dim)
  | .upPut ok id v n cur =>
    match adaptVector p n v v.length cur with
    | .error _ => (dim, rows, .done .refused)
    | .ok w => if ok then (dim, put rows id w, .done .stored) else (dim, rows, .done .failed)
  | .se q n => (dim, rows, .seCheck q n dim)
  | .seCheck q n d =>
    match adaptQuery p n q d with
    | .error _ => (dim, rows, .done .refused)
    | .ok w =>
      if w = [] then (dim, rows, .done .refused)
      else if dim = 0 ∨ w.length = dim then (dim, rows, .done (.answered w))
      else (dim, rows, .done .refused)
  | .done o => (dim, rows, .done o)

/-- Goroutine `i` goes on. -/
noncomputable def step (s : State) (i : Nat) : State :=
  match s.threads[i]? with
  | none => s
  | some t => ⟨s.policy, (advance s.policy s.dim s.rows t).1, (advance s.policy s.dim s.rows t).2.1,
      s.threads.set i (advance s.policy s.dim s.rows t).2.2⟩

/-- A schedule. -/
noncomputable def run (s : State) (sched : List Nat) : State := sched.foldl step s

end Verif.DimRace
