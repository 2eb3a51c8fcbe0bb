import Verif.Model.HybridRouter

/-!
How routers are made and configured: /repo/pkg/semantic-router/router.go:21-97, types.go:64-90, hybrid.go:60-108, 200-308.

Simplifications: as in `Model/Router`; a similarity function may be nil, the other settings are plain values.
-/
namespace Verif.Router

variable {T V W : Type*}

abbrev Sim (V : Type*) := V → V → ℚ

/-- `Config`, types.go:65-79. -/
structure Conf (V : Type*) where
  threshold : ℚ
  sim : Option (Sim V)
  topK : Int
  cache : Bool

/-- `DefaultConfig`, types.go:82-90; `cos` is `core.CosineSimilarity`. -/
def defaultConf (cos : Sim V) : Conf V := ⟨82 / 100, some cos, 1, true⟩

/-- The options, router.go:69-97. -/
inductive COpt (V : Type*) where
  | threshold (t : ℚ)
  | sim (f : Option (Sim V))
  | topK (k : Int)
  | cache (b : Bool)

/-- What each option writes, router.go:72-97. -/
def COpt.apply (c : Conf V) : COpt V → Conf V
  | .threshold t => { c with threshold := t }
  | .sim f => { c with sim := f }
  | .topK k => { c with topK := k }
  | .cache b => { c with cache := b }

/-- The loop over the options, router.go:26-29 and 50-53. -/
def conf (cos : Sim V) (opts : List (COpt V)) : Conf V := opts.foldl COpt.apply (defaultConf cos)

/-- `NewRouter`, router.go:21-36: nothing for a nil embedder. -/
def newRouter (cos : Sim V) (embedder : Bool) (opts : List (COpt V)) : Option (Conf V) :=
  if embedder then some (conf cos opts) else none

/-- The configuration as the methods of the router use it; `TopK` is used by none of them (router.go:100-454). -/
def Conf.cfg (c : Conf V) (empty : T) (f : Sim V) (hasStore : Bool) : Cfg T V := ⟨empty, f, c.threshold, c.cache, hasStore⟩

/-- `Route`, router.go:207-251, with the panic (`none`) of calling a nil similarity function, router.go:231: it is called as soon as one
route has a vector. -/
def answer [DecidableEq T] (c : Conf V) (empty : T) (hasStore : Bool) (e : T → Option V) (s : State T V) (query : T) :
    Option (Except Err (Result T)) :=
  match c.sim with
  | some f => some (route (c.cfg empty f hasStore) e s query).2
  | none =>
    let d : Cfg T V := c.cfg empty (fun _ _ => 0) hasStore
    if query ≠ empty ∧ (e query).isSome ∧ s.routes.any (fun r => decide (((getVectors d e s.stored r).1.getD []).length > 0)) then none
    else some (route d e s query).2

/-- `HybridConfig`, hybrid.go:243-259. -/
structure HConf (V : Type*) where
  alpha : ℚ
  threshold : ℚ
  dense : ℚ
  sparse : ℚ
  sim : Option (Sim V)

/-- `DefaultHybridConfig`, hybrid.go:262-270. -/
def defaultHConf (cos : Sim V) : HConf V := ⟨7 / 10, 6 / 10, 82 / 100, 3 / 10, some cos⟩

/-- The options of the hybrid router, hybrid.go:272-308. -/
inductive HOpt (V : Type*) where
  | alpha (a : ℚ)
  | threshold (t : ℚ)
  | dense (t : ℚ)
  | sparse (t : ℚ)
  | sim (f : Option (Sim V))

/-- What each option writes, hybrid.go:276-308. -/
def HOpt.apply (c : HConf V) : HOpt V → HConf V
  | .alpha a => { c with alpha := a }
  | .threshold t => { c with threshold := t }
  | .dense t => { c with dense := t }
  | .sparse t => { c with sparse := t }
  | .sim f => { c with sim := f }

/-- What a new hybrid router consists of: its dense router's configuration, the threshold of its sparse router, `alpha` and its own
threshold. -/
structure HMade (V : Type*) where
  dense : Conf V
  sparseThreshold : ℚ
  alpha : ℚ
  threshold : ℚ

/-- `NewHybridRouter`, hybrid.go:200-240: nothing for a nil embedder or encoder. -/
def newHybrid (cos : Sim V) (embedder encoder : Bool) (opts : List (HOpt V)) : Option (HMade V) :=
  if embedder = false then none
  else if encoder = false then none
  else
    let c := opts.foldl HOpt.apply (defaultHConf cos)
    (newRouter cos embedder [.threshold c.dense, .sim c.sim]).map (fun d => ⟨d, c.sparse, c.alpha, c.threshold⟩)

end Verif.Router
