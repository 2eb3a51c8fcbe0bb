import Verif.Model.Router

/-!
Model of `SparseRouter` and of `HybridRouter` as objects with a history, /repo/pkg/semantic-router/hybrid.go, on top of the dense router (`Verif.Router`).

Simplifications: handlers and metadata of routes are left out; the encoder and the similarity of sparse vectors are parameters (`Verif.Lexical` models those of
the package), and the encoder is not fitted again while the router is in use; the locks are in `Verif.Lock`.
-/
namespace Verif.Router

variable {T V W : Type*}

/-- `SparseRouter.Add`, hybrid.go:111-133; a route is its name and its utterances. -/
def sparseAdd [DecidableEq T] (empty : T) (routes : List (T × List T)) (r : Option (T × List T)) : List (T × List T) × Option Err :=
  match r with
  | none => (routes, some .emptyName)
  | some r =>
    if r.1 = empty then (routes, some .emptyName)
    else if r.2 = [] then (routes, some .noUtterances)
    else if routes.any (fun x => decide (x.1 = r.1)) then (routes, some .duplicate)
    else (routes ++ [r], none)

/-- `SparseRouter.Route`, hybrid.go:136-175, with its test for the empty query. -/
def sparseAnswer [DecidableEq T] (empty : T) (sim : W → W → ℚ) (enc : T → W) (threshold : ℚ) (routes : List (T × List T)) (query : T) : Result T :=
  if query = empty then ⟨none, 0, false⟩ else sparseRoute sim enc threshold routes query

/-- `SparseRouter.List`, hybrid.go:188-197. -/
def sparseList (routes : List (T × List T)) : List T := routes.map (·.1)

/-- A `HybridRouter`, hybrid.go:13-25: what changes of it. -/
structure HState (T V : Type*) where
  dense : State T V
  sparse : List (T × List T)
  alpha : ℚ

/-- What `NewHybridRouter` fixes, hybrid.go:200-240. -/
structure HCfg (T W : Type*) where
  threshold : ℚ
  sparseThreshold : ℚ
  sim : W → W → ℚ
  enc : T → W

/-- `HybridRouter.Add`, hybrid.go:311-330: the dense route first; a nil route is skipped. -/
def hybridAdd [DecidableEq T] (c : Cfg T V) (e : T → Option V) (storeUp : Bool) (h : HState T V) (route : Option (Route T V)) (sparse : Option (T × List T)) :
    HState T V × Option Err :=
  let d := match route with
    | none => (h.dense, none)
    | some r => add c e storeUp h.dense r
  let h1 := { h with dense := d.1 }
  match d.2 with
  | some err => (h1, some err)
  | none =>
    match sparse with
    | none => (h1, none)
    | some r =>
      let s := sparseAdd c.empty h1.sparse (some r)
      ({ h1 with sparse := s.1 }, s.2)

/-- The loop over the sparse routes of a batch, hybrid.go:346-351: it stops at the first error. -/
def sparseAddAll [DecidableEq T] (empty : T) : List (T × List T) → List (Option (T × List T)) → List (T × List T) × Option Err
  | routes, [] => (routes, none)
  | routes, r :: rs =>
    match sparseAdd empty routes r with
    | (routes', some err) => (routes', some err)
    | (routes', none) => sparseAddAll empty routes' rs

/-- `HybridRouter.AddBatch`, hybrid.go:333-354. -/
def hybridAddBatch [DecidableEq T] (c : Cfg T V) (e : T → Option V) (storeUp : Bool) (h : HState T V) (dense : List (Route T V))
    (sparse : List (Option (T × List T))) : HState T V × Option Err :=
  let d := if dense.length > 0 then addBatch c e storeUp h.dense dense else (h.dense, none)
  let h1 := { h with dense := d.1 }
  match d.2 with
  | some err => (h1, some err)
  | none =>
    let s := sparseAddAll c.empty h1.sparse sparse
    ({ h1 with sparse := s.1 }, s.2)

/-- `HybridRouteResult`, hybrid.go:28-39; `Score` and `CombinedScore` are the same number. -/
structure HResult (T : Type*) where
  result : Result T
  denseScore : ℚ
  sparseScore : ℚ
  deriving DecidableEq

/-- `HybridRouter.Route`, hybrid.go:357-409, with all fields of its result. -/
def hybridAnswer [DecidableEq T] (g : HCfg T W) (c : Cfg T V) (e : T → Option V) (h : HState T V) (query : T) : HState T V × Except Err (HResult T) :=
  if query = c.empty then (h, .ok ⟨⟨none, 0, false⟩, 0, 0⟩)
  else
    match route c e h.dense query with
    | (d', .error x) => ({ h with dense := d' }, .error x)
    | (d', .ok d) =>
      let s := sparseAnswer c.empty g.sim g.enc g.sparseThreshold h.sparse query
      ({ h with dense := d' }, .ok ⟨hybrid h.alpha g.threshold d s, d.score, s.score⟩)

/-- `HybridRouter.List`, hybrid.go:427-432. -/
def hybridList (h : HState T V) : List T := h.dense.routes.map (·.name)

/-- The calls on a hybrid router; `setAlpha` is hybrid.go:440-442. -/
inductive HOp (T V : Type*) where
  | add (route : Option (Route T V)) (sparse : Option (T × List T)) (e : T → Option V) (storeUp : Bool)
  | addBatch (dense : List (Route T V)) (sparse : List (Option (T × List T))) (e : T → Option V) (storeUp : Bool)
  | route (query : T) (e : T → Option V)
  | setAlpha (alpha : ℚ)

def hstep [DecidableEq T] (g : HCfg T W) (c : Cfg T V) (h : HState T V) : HOp T V → HState T V
  | .add r s e up => (hybridAdd c e up h r s).1
  | .addBatch rs ss e up => (hybridAddBatch c e up h rs ss).1
  | .route q e => (hybridAnswer g c e h q).1
  | .setAlpha a => { h with alpha := a }

def hrun [DecidableEq T] (g : HCfg T W) (c : Cfg T V) (h : HState T V) (ops : List (HOp T V)) : HState T V := ops.foldl (hstep g c) h

/-- A hybrid router as made by `NewHybridRouter`, hybrid.go:200-240: the dense router has no store. -/
def hinit (alpha : ℚ) : HState T V := ⟨⟨[], []⟩, [], alpha⟩

end Verif.Router
