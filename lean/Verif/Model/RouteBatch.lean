import Verif.Model.Router

/-!
Model of the batch calls of /repo/pkg/semantic-router (router.go, hybrid.go) and of `TopTerms` (sparse.go).

The embedder is one partial function for the whole batch. A map is the list of its entries in the order in which it is
visited; `sort.Slice` is a parameter.
-/
namespace Verif.Router

/-- `Router.RouteBatch`, router.go:254-266: one `Route` after the other; the first error ends the call without results. -/
def routeBatch {T V : Type*} [DecidableEq T] (c : Cfg T V) (e : T → Option V) :
    State T V → List T → State T V × Except Err (List (Result T))
  | s, [] => (s, .ok [])
  | s, q :: qs =>
    match route c e s q with
    | (s', .error x) => (s', .error x)
    | (s', .ok r) =>
      match routeBatch c e s' qs with
      | (s'', .error x) => (s'', .error x)
      | (s'', .ok rs) => (s'', .ok (r :: rs))

/-- What a `HybridRouter` has beside its dense router, hybrid.go:212-240; the sparse router has no errors, and its cache holds
what the encoder gives (the encoder is not fitted again while the router is in use). -/
structure Hybrid (T W : Type*) where
  alpha : ℚ
  threshold : ℚ
  sparseThreshold : ℚ
  sim : W → W → ℚ
  enc : T → W
  sparse : List (T × List T)

/-- `HybridRouter.Route`, hybrid.go:357-409, with the call of the dense router and its error. -/
def hybridRoute {T V W : Type*} [DecidableEq T] (h : Hybrid T W) (c : Cfg T V) (e : T → Option V) (s : State T V)
    (query : T) : State T V × Except Err (Result T) :=
  if query = c.empty then (s, .ok ⟨none, 0, false⟩)
  else
    match route c e s query with
    | (s', .error x) => (s', .error x)
    | (s', .ok d) => (s', .ok (hybrid h.alpha h.threshold d (sparseRoute h.sim h.enc h.sparseThreshold h.sparse query)))

/-- `HybridRouter.RouteBatch`, hybrid.go:412-424. -/
def hybridBatch {T V W : Type*} [DecidableEq T] (h : Hybrid T W) (c : Cfg T V) (e : T → Option V) :
    State T V → List T → State T V × Except Err (List (Result T))
  | s, [] => (s, .ok [])
  | s, q :: qs =>
    match hybridRoute h c e s q with
    | (s', .error x) => (s', .error x)
    | (s', .ok r) =>
      match hybridBatch h c e s' qs with
      | (s'', .error x) => (s'', .error x)
      | (s'', .ok rs) => (s'', .ok (r :: rs))

/-- `TopTerms`, sparse.go:479-499. -/
def topTerms {T : Type*} (sort : List (T × ℚ) → List (T × ℚ)) (vec : List (T × ℚ)) (k : Int) : List (T × ℚ) :=
  if vec.length = 0 then []
  else
    let scores := sort vec
    if k > 0 ∧ k < scores.length then scores.take k.toNat else scores

end Verif.Router
