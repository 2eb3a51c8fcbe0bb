import Mathlib.Algebra.Order.Field.Rat
import Mathlib.Tactic.Linarith

/-!
Model of /repo/pkg/semantic-router: `Router` (router.go), `SparseRouter` and `HybridRouter` (hybrid.go), the caching
embedder (/repo/pkg/semantic-router/embedder.go), the parameter extraction of `FunctionRouter` (schema.go), and the batch embedding of
/repo/pkg/cortexdb/embedder.go.

Names and texts are of an arbitrary type `T` with an empty one; vectors of an arbitrary type `V`. Scores are rationals
(no rounding, no NaN). Handlers and metadata of routes are left out.
-/
namespace Verif.Router

/-- A route with its embedding cache (`cachedVectors` guarded by `cachedOnce`), types.go:13-31. `none`: `Do` has not
run. After a failed first run the slot holds the nil slice, modelled as `some []`. -/
structure Route (T V : Type*) where
  name : T
  utterances : List T
  cache : Option (List V)
  deriving DecidableEq, Repr

/-- A row of the collection `semantic_routes`: the record's id, `route_name` of its metadata, its content and vector,
router.go:364-373. -/
structure SRow (T V : Type*) where
  id : T
  name : T
  utterance : T
  vector : V
  deriving DecidableEq, Repr

/-- The router. `stored` is the content of the collection `semantic_routes`. -/
structure State (T V : Type*) where
  routes : List (Route T V)
  stored : List (SRow T V)
  deriving DecidableEq, Repr

structure Cfg (T V : Type*) where
  empty : T
  sim : V → V → ℚ
  threshold : ℚ
  cacheOn : Bool
  hasStore : Bool

inductive Err where
  | emptyName | noUtterances | duplicate | persist | notFound | embed
  deriving DecidableEq, Repr

/-- `embedVectors`, router.go:326-348: the batch call, else one by one. The embedder of one call is a partial function
(`none`: an error). -/
def embedVectors {T V : Type*} (e : T → Option V) (us : List T) : Option (List V) := us.mapM e

/-- `UpsertBatch` of the store for one record (/repo/pkg/core/store_crud.go:161-314): the row of that id is replaced; the empty
id is an id like any other. -/
def upsertRow {T V : Type*} [DecidableEq T] (st : List (SRow T V)) (x : SRow T V) : List (SRow T V) :=
  if st.any (fun y => decide (y.id = x.id)) then st.map (fun y => if y.id = x.id then x else y) else st ++ [x]

/-- The records of a route, router.go:363-373: no id is given, so each has the empty one. -/
def rowsOf {T V : Type*} (c : Cfg T V) (r : Route T V) (vs : List V) : List (SRow T V) :=
  (r.utterances.zip vs).map (fun p => ⟨c.empty, r.name, p.1, p.2⟩)

/-- `persistRoute`, router.go:351-376. `storeUp = false`: the batch is refused. -/
def persist {T V : Type*} [DecidableEq T] (c : Cfg T V) (e : T → Option V) (storeUp : Bool) (st : List (SRow T V))
    (r : Route T V) : Option (List (SRow T V)) :=
  match embedVectors e r.utterances with
  | none => none
  | some vs => if storeUp then some ((rowsOf c r vs).foldl upsertRow st) else none

/-- `Add`, router.go:100-132 (a nil route is left out). -/
def add {T V : Type*} [DecidableEq T] (c : Cfg T V) (e : T → Option V) (storeUp : Bool) (s : State T V) (r : Route T V) :
    State T V × Option Err :=
  if r.name = c.empty then (s, some .emptyName)
  else if r.utterances = [] then (s, some .noUtterances)
  else if s.routes.any (fun x => decide (x.name = r.name)) then (s, some .duplicate)
  else
    let s' := { s with routes := s.routes ++ [r] }
    if c.hasStore then
      match persist c e storeUp s.stored r with
      | none => (s', some .persist)
      | some st => ({ s' with stored := st }, none)
    else (s', none)

/-- The checks of `AddBatch`, router.go:141-156: each route against the registered ones. -/
def checkBatch {T V : Type*} [DecidableEq T] (c : Cfg T V) (existing : List (Route T V)) : List (Route T V) → Option Err
  | [] => none
  | r :: rs =>
    if r.name = c.empty then some .emptyName
    else if r.utterances = [] then some .noUtterances
    else if existing.any (fun x => decide (x.name = r.name)) then some .duplicate
    else checkBatch c existing rs

/-- The persisting loop of `AddBatch`, router.go:161-166. -/
def persistAll {T V : Type*} [DecidableEq T] (c : Cfg T V) (e : T → Option V) (storeUp : Bool) (st : List (SRow T V)) :
    List (Route T V) → List (SRow T V) × Bool
  | [] => (st, true)
  | r :: rs => match persist c e storeUp st r with
    | none => (st, false)
    | some st' => persistAll c e storeUp st' rs

/-- `AddBatch`, router.go:135-169. -/
def addBatch {T V : Type*} [DecidableEq T] (c : Cfg T V) (e : T → Option V) (storeUp : Bool) (s : State T V)
    (rs : List (Route T V)) : State T V × Option Err :=
  match checkBatch c s.routes rs with
  | some err => (s, some err)
  | none =>
    let s' := { s with routes := s.routes ++ rs }
    if c.hasStore then
      let p := persistAll c e storeUp s.stored rs
      ({ s' with stored := p.1 }, if p.2 then none else some .persist)
    else (s', none)

/-- `DeleteBatch` of the store (/repo/pkg/core/store_crud.go:382-460): empty ids are skipped (lines 394-404; blank ids too, but the router writes no
other id than the empty one). -/
def deleteRows {T V : Type*} [DecidableEq T] (c : Cfg T V) (st : List (SRow T V)) (ids : List T) : List (SRow T V) :=
  st.filter (fun x => decide (x.id ∉ ids.filter (fun i => decide (i ≠ c.empty))))

/-- `Remove`, router.go:172-204: the first route of that name goes, and the rows of that name are looked up in the store and
deleted by their ids (at most 1000 of them, not modelled; the calls are taken to work, their errors are ignored). -/
def remove {T V : Type*} [DecidableEq T] (c : Cfg T V) (s : State T V) (name : T) : State T V × Option Err :=
  if s.routes.any (fun x => decide (x.name = name)) then
    ({ routes := s.routes.eraseP (fun x => decide (x.name = name))
       stored := if c.hasStore then
          deleteRows c s.stored ((s.stored.filter (fun x => decide (x.name = name))).map (·.id)) else s.stored }, none)
  else (s, some .notFound)

/-- The search of `getRouteVectors`, router.go:296-310: the vectors of the stored rows that have the route's name, if there is
one (at most 1000; in the order of the table, the order of the answer only matters for ties). -/
def fromStore {T V : Type*} [DecidableEq T] (c : Cfg T V) (stored : List (SRow T V)) (name : T) : Option (List V) :=
  let vs := (stored.filter (fun x => decide (x.name = name))).map (·.vector)
  if c.hasStore = true ∧ vs.length > 0 then some vs else none

/-- `getRouteVectors`, router.go:294-323: the stored rows of that name if there are any, else the embeddings, cached if
configured. Returns the vectors (`none`: error) and the route with its cache. `once.Do` runs the first time only; when
that run fails, its error is returned that time, and later calls return the nil slice without error. -/
def getVectors {T V : Type*} [DecidableEq T] (c : Cfg T V) (e : T → Option V) (stored : List (SRow T V))
    (r : Route T V) : Option (List V) × Route T V :=
  match fromStore c stored r.name with
  | some vs => (some vs, r)
  | none =>
    if c.cacheOn then
      match r.cache with
      | some vs => (some vs, r)
      | none => match embedVectors e r.utterances with
        | some vs => (some vs, { r with cache := some vs })
        | none => (none, { r with cache := some [] })
    else (embedVectors e r.utterances, r)

/-- `RouteResult`, types.go:38-51. -/
structure Result (T : Type*) where
  name : Option T
  score : ℚ
  matched : Bool
  deriving DecidableEq, Repr

/-- Inner loop of `Route`, router.go:230-236: strictly better replaces; `best = none` is the nil route, score 0. -/
def scanVectors {T V : Type*} (sim : V → V → ℚ) (q : V) (name : T) : List V → Option T × ℚ → Option T × ℚ
  | [], b => b
  | v :: vs, b => scanVectors sim q name vs (if sim q v > b.2 then (some name, sim q v) else b)

/-- Outer loop of `Route`, router.go:224-237; routes whose vectors cannot be had are skipped. -/
def scanRoutes {T V : Type*} [DecidableEq T] (c : Cfg T V) (e : T → Option V) (stored : List (SRow T V)) (q : V) :
    List (Route T V) → Option T × ℚ → (Option T × ℚ) × List (Route T V)
  | [], b => (b, [])
  | r :: rs, b =>
    let g := getVectors c e stored r
    let b' := match g.1 with
      | none => b
      | some vs => scanVectors c.sim q r.name vs b
    let t := scanRoutes c e stored q rs b'
    (t.1, g.2 :: t.2)

/-- `Route`, router.go:207-251. An empty query gives the zero result. -/
def route {T V : Type*} [DecidableEq T] (c : Cfg T V) (e : T → Option V) (s : State T V) (query : T) :
    State T V × Except Err (Result T) :=
  if query = c.empty then (s, .ok ⟨none, 0, false⟩)
  else match e query with
    | none => (s, .error .embed)
    | some q =>
      let t := scanRoutes c e s.stored q s.routes (none, 0)
      ({ s with routes := t.2 }, .ok ⟨t.1.1, t.1.2, t.1.1.isSome && decide (t.1.2 ≥ c.threshold)⟩)

/-- The loop of `loadRoutesFromStore` over the rows, router.go:404-420: rows without a name are skipped, the others are
collected by name. -/
def gather {T V : Type*} [DecidableEq T] (c : Cfg T V) (acc : List (Route T V)) (x : SRow T V) : List (Route T V) :=
  if x.name = c.empty then acc
  else if acc.any (fun r => decide (r.name = x.name)) then
    acc.map (fun r => if r.name = x.name then { r with utterances := r.utterances ++ [x.utterance] } else r)
  else acc ++ [⟨x.name, [x.utterance], none⟩]

/-- `loadRoutesFromStore`, router.go:379-428: the routes of a router opened anew. The collected vectors are put into
`cachedVectors` but `cachedOnce` is fresh, so nothing is cached. The order in which the map of the routes is gone through is
that of their first rows here (at most 10000 rows, not modelled). -/
def reopen {T V : Type*} [DecidableEq T] (c : Cfg T V) (s : State T V) : State T V :=
  { s with routes := s.stored.foldl (gather c) [] }

inductive Op (T V : Type*) where
  | add (name : T) (utterances : List T) (e : T → Option V) (storeUp : Bool)
  | addBatch (rs : List (T × List T)) (e : T → Option V) (storeUp : Bool)
  | remove (name : T)
  | route (query : T) (e : T → Option V)

/-- A route as given by a caller: nothing cached. -/
def fresh {T V : Type*} (p : T × List T) : Route T V := ⟨p.1, p.2, none⟩

def step {T V : Type*} [DecidableEq T] (c : Cfg T V) (s : State T V) : Op T V → State T V
  | .add n us e up => (add c e up s (fresh (n, us))).1
  | .addBatch rs e up => (addBatch c e up s (rs.map fresh)).1
  | .remove n => (remove c s n).1
  | .route q e => (route c e s q).1

def run {T V : Type*} [DecidableEq T] (c : Cfg T V) (s : State T V) (ops : List (Op T V)) : State T V :=
  ops.foldl (step c) s

def init {T V : Type*} : State T V := ⟨[], []⟩

/-! ### Hybrid -/

/-- The result of `HybridRouter.Route`, hybrid.go:357-409, from the results of the dense and the sparse router (which is
the same loop as the dense one with sparse similarities, hybrid.go:136-175). `none` is the empty route name. -/
def hybrid {T : Type*} (alpha threshold : ℚ) (d s : Result T) : Result T :=
  let combined := alpha * d.score + (1 - alpha) * s.score
  let name :=
    if d.matched then d.name
    else if s.matched then s.name
    else if combined ≥ threshold then
      if d.score > s.score ∧ d.name.isSome then d.name else s.name
    else none
  ⟨name, combined, decide (combined ≥ threshold)⟩

/-- The sparse router's `Route`, hybrid.go:136-175, over its routes with the encoder `enc`. -/
def sparseScan {T W : Type*} (sim : W → W → ℚ) (enc : T → W) (q : W) : List (T × List T) → Option T × ℚ → Option T × ℚ
  | [], b => b
  | r :: rs, b => sparseScan sim enc q rs (scanVectors sim q r.1 (r.2.map enc) b)

def sparseRoute {T W : Type*} (sim : W → W → ℚ) (enc : T → W) (threshold : ℚ) (routes : List (T × List T)) (query : T) :
    Result T :=
  let b := sparseScan sim enc (enc query) routes (none, 0)
  ⟨b.1, b.2, b.1.isSome && decide (b.2 ≥ threshold)⟩

/-! ### Embedding batches -/

/-- `BaseEmbedder.EmbedBatch`, /repo/pkg/cortexdb/embedder.go:49-81. One goroutine per text sends its result; `arrivals`
is the order in which the results come out of the channel (positions of the texts). -/
def collect {T V : Type*} (embed : T → Option V) (texts : List T) (arrivals : List Nat) : List (Option (Option V)) :=
  arrivals.foldl (fun res i => res.set i (texts[i]?.map embed)) (List.replicate texts.length none)

/-- After the loop: the first error in text order, else the results. `none` in a slot is the zero value (nil vector, nil
error), which the caller would see as a nil vector. -/
def embedBatch {T V : Type*} (embed : T → Option V) (texts : List T) (arrivals : List Nat) : Option (List (Option V)) :=
  let res := collect embed texts arrivals
  if res.any (fun x => decide (x.isSome ∧ x.bind (fun y => y.map (fun _ => ())) = none)) then none
  else some (res.map (fun x => x.bind id))

/-- The cache of `CachedEmbedder`, /repo/pkg/semantic-router/embedder.go:58-68, as an association list (latest first). -/
abbrev Cache (T V : Type*) := List (T × V)

def Cache.get {T V : Type*} [DecidableEq T] (c : Cache T V) (t : T) : Option V := c.lookup t

/-- `CachedEmbedder.Embed`, /repo/pkg/semantic-router/embedder.go:74-86. -/
def cachedEmbed {T V : Type*} [DecidableEq T] (embed : T → Option V) (c : Cache T V) (t : T) : Option V × Cache T V :=
  match c.get t with
  | some v => (some v, c)
  | none => match embed t with
    | none => (none, c)
    | some v => (some v, (t, v) :: c)

/-- Positions of the texts that are not cached, /repo/pkg/semantic-router/embedder.go:94-100. -/
def uncached {T V : Type*} [DecidableEq T] (c : Cache T V) (texts : List T) : List (Nat × T) :=
  (texts.zipIdx.filter (fun p => (c.get p.1).isNone)).map (fun p => (p.2, p.1))

/-- Writing vectors to their positions and to the cache, /repo/pkg/semantic-router/embedder.go:126-130 and 114-121. -/
def fill {T V : Type*} : List ((Nat × T) × V) → List (Option V) × Cache T V → List (Option V) × Cache T V
  | [], s => s
  | (p, v) :: rest, s => fill rest (s.1.set p.1 (some v), (p.2, v) :: s.2)

/-- The one by one fallback, /repo/pkg/semantic-router/embedder.go:113-122. -/
def fillEach {T V : Type*} (embed : T → Option V) : List (Nat × T) → List (Option V) × Cache T V →
    Option (List (Option V)) × Cache T V
  | [], s => (some s.1, s.2)
  | p :: rest, s => match embed p.2 with
    | none => (none, s.2)
    | some v => fillEach embed rest (s.1.set p.1 (some v), (p.2, v) :: s.2)

/-- `CachedEmbedder.EmbedBatch`, /repo/pkg/semantic-router/embedder.go:89-133. `batch` is the wrapped `EmbedBatch`; `ord1` and `ord2` are the two
iteration orders over the map `uncached`. -/
def cachedBatch {T V : Type*} [DecidableEq T] (embed : T → Option V) (batch : List T → Option (List V))
    (ord1 ord2 : List (Nat × T) → List (Nat × T)) (c : Cache T V) (texts : List T) : Option (List (Option V)) × Cache T V :=
  let start := texts.map (fun t => c.get t)
  let un := uncached c texts
  if un = [] then (some start, c)
  else match batch ((ord1 un).map (·.2)) with
    | none => fillEach embed (ord2 un) (start, c)
    | some vs =>
      let r := fill ((ord1 un).zip vs) (start, c)
      (some r.1, r.2)

/-! ### Parameter extraction -/

/-- A pattern registered for a parameter: does not compile, or compiles and gives (or not) a first group. -/
inductive Pattern (W : Type*) where
  | invalid
  | ok (group : Option W)
  deriving DecidableEq

/-- A parameter of a function schema as `Extract` sees it, schema.go:14-44: `found` is what `extractValue` gives
(keyword, enum or default). -/
structure Param (T W : Type*) where
  name : T
  required : Bool
  pattern : Option (Pattern W)
  found : Option W
  deriving DecidableEq

/-- `Extract`, schema.go:208-240: one parameter after the other (map order). -/
def extract {T W : Type*} : List (Param T W) → List (T × W) × List T
  | [] => ([], [])
  | p :: ps =>
    let t := extract ps
    match p.pattern with
    | some .invalid => t
    | some (.ok (some w)) => ((p.name, w) :: t.1, t.2)
    | _ => match p.found with
      | some w => ((p.name, w) :: t.1, t.2)
      | none => if p.required then (t.1, p.name :: t.2) else t

/-- `Complete` of the function call, schema.go:166-172. -/
def complete {T W : Type*} (ps : List (Param T W)) : Bool := (extract ps).2.isEmpty

end Verif.Router
