import Verif.Model.Graph

/-!
Model of /repo/pkg/graph/graph_traversal.go and of the component count in graph_algorithms.go.

The loops over a work queue run on fuel: the answer `none` means that the fuel ran out, which the theorems exclude.
-/
namespace Verif.Graph

/-- The text of a direction (graph.go:327-350). -/
def parseDir (d : String) : Dir :=
  if d = "" then .both else if d = "out" then .out else if d = "in" then .in_ else if d = "both" then .both else .bad

/-- `TraversalOptions`, graph_traversal.go:12-18. -/
structure Opts where
  maxDepth : Int
  edgeTypes : List String
  nodeTypes : List String
  direction : String
  limit : Int
  deriving DecidableEq, Repr

/-- graph_traversal.go:30-32. -/
def Opts.depth (o : Opts) : Nat := if o.maxDepth ≤ 0 then 1 else o.maxDepth.toNat

/-- The end of the edge that is not `u` (graph_traversal.go:67-72). -/
def other (u : String) (e : Edge) : String := if e.src = u then e.dst else e.src

/-- The variables of the loop in `Neighbors`. -/
structure Scan where
  visited : List String
  ids : List String
  queue : List (String × Nat)
  stop : Bool
  deriving DecidableEq, Repr

/-- A neighbour is found, graph_traversal.go:79-90. -/
def discover (o : Opts) (u : String) (d : Nat) (st : Scan) (e : Edge) : Scan :=
  { visited := st.visited ++ [other u e]
    ids := st.ids ++ [other u e]
    queue := if d + 1 < o.depth then st.queue ++ [(other u e, d + 1)] else st.queue
    stop := false }

/-- The loop over the edges of one node, graph_traversal.go:60-96; `stop` is the early return at the limit. -/
def scan (o : Opts) (u : String) (d : Nat) : Scan → List Edge → Scan
  | st, [] => st
  | st, e :: es =>
    if o.edgeTypes ≠ [] ∧ e.etype ∉ o.edgeTypes then scan o u d st es
    else if other u e ∈ st.visited then scan o u d st es
    else if o.limit > 0 ∧ ((discover o u d st e).ids.length : Int) ≥ o.limit then { discover o u d st e with stop := true }
    else scan o u d (discover o u d st e) es

/-- The outer loop, graph_traversal.go:46-97: the ids found, `some none` for the error of an unknown direction. -/
def neighborLoop (s : State) (o : Opts) : Nat → Scan → Option (Option (List String))
  | fuel, st =>
    match st.queue with
    | [] => some (some st.ids)
    | (u, d) :: q =>
      match fuel with
      | 0 => none
      | fuel + 1 =>
        if d ≥ o.depth then neighborLoop s o fuel { st with queue := q }
        else
          match getEdges s u (parseDir o.direction) with
          | none => some none
          | some es =>
            let st' := scan o u d { st with queue := q } es
            if st'.stop then some (some st'.ids) else neighborLoop s o fuel st'

/-- `loadNeighborNodes`, graph_traversal.go:368-387. -/
def loadNeighbors (s : State) (types ids : List String) : List Node :=
  (ids.filterMap (getNode s)).filter (fun n => decide (types = [] ∨ n.ntype ∈ types))

/-- Enough fuel for any walk over the stored edges. -/
def fuelA (s : State) : Nat := 2 * s.edges.length + 2

/-- `Neighbors`, graph_traversal.go:29-100. -/
def neighbors (s : State) (id : String) (o : Opts) : Option (Option (List Node)) :=
  (neighborLoop s o (fuelA s) { visited := [id], ids := [], queue := [(id, 0)], stop := false }).map
    (fun r => r.map (loadNeighbors s o.nodeTypes))

/-! ### ShortestPath -/

/-- `queueItem`, graph_traversal.go:117-123; the edges are kept as their ids. -/
structure Item where
  node : String
  path : List String
  edges : List String
  distance : Nat
  weight : ℚ
  deriving DecidableEq, Repr

/-- graph_traversal.go:183-199. -/
def pushEdges (s : State) (visited : List String) (c : Item) : List Item :=
  ((s.edges.filter (fun e => decide (e.src = c.node))).filter (fun e => decide (e.dst ∉ visited))).map (fun e =>
    { node := e.dst, path := c.path ++ [e.dst], edges := c.edges ++ [e.id], distance := c.distance + 1,
      weight := c.weight + e.weight })

/-- graph_traversal.go:134-200: the item found, `some none` when the queue runs empty. -/
def pathLoop (s : State) (target : String) : Nat → List String → List Item → Option (Option Item)
  | _, _, [] => some none
  | 0, _, _ :: _ => none
  | fuel + 1, visited, c :: q =>
    if c.node = target then some (some c)
    else if c.node ∈ visited then pathLoop s target fuel visited q
    else pathLoop s target fuel (c.node :: visited) (q ++ pushEdges s (c.node :: visited) c)

/-- `PathResult`, graph_traversal.go:21-26. -/
structure Path where
  nodes : List Node
  edges : List Edge
  distance : Nat
  weight : ℚ
  deriving DecidableEq, Repr

/-- All look-ups, or nothing if one fails. -/
def lookups {α : Type} (f : String → Option α) : List String → Option (List α)
  | [] => some []
  | i :: is => match f i, lookups f is with
    | some a, some l => some (a :: l)
    | _, _ => none

/-- graph_traversal.go:138-170. -/
def loadPath (s : State) (c : Item) : Option Path :=
  match lookups (getNode s) c.path, lookups (fun i => s.edges.find? (fun e => decide (e.id = i))) c.edges with
  | some ns, some es => some ⟨ns, es, c.distance, c.weight⟩
  | _, _ => none

inductive PathAnswer where
  | path (p : Path)
  | noPath
  | notFound
  deriving DecidableEq, Repr

/-- `ShortestPath`, graph_traversal.go:103-203. -/
def shortestPath (s : State) (a b : String) : Option PathAnswer :=
  if a = b then
    match getNode s a with
    | none => some .notFound
    | some n => some (.path ⟨[n], [], 0, 0⟩)
  else
    match pathLoop s b (fuelA s) [] [⟨a, [a], [], 0, 0⟩] with
    | none => none
    | some none => some .noPath
    | some (some c) =>
      match loadPath s c with
      | none => some .notFound
      | some p => some (.path p)

/-! ### Connected -/

/-- graph_traversal.go:267-304. -/
def connLoop (s : State) (M : Nat) (target : String) : Nat → List String → List (String × Nat) → Option Bool
  | _, _, [] => some false
  | 0, _, _ :: _ => none
  | fuel + 1, visited, (u, d) :: q =>
    if u = target then some true
    else if d ≥ M then connLoop s M target fuel visited q
    else if u ∈ visited then connLoop s M target fuel visited q
    else connLoop s M target fuel (u :: visited)
      (q ++ (((s.edges.filter (fun e => decide (e.src = u ∨ e.dst = u))).map (other u)).filter
        (fun v => decide (v ∉ u :: visited))).map (fun v => (v, d + 1)))

/-- `Connected`, graph_traversal.go:252-307. -/
def connected (s : State) (a b : String) (maxDepth : Int) : Option Bool :=
  if a = b then some true
  else connLoop s (if maxDepth ≤ 0 then 6 else maxDepth.toNat) b (fuelA s) [] [(a, 0)]

/-! ### Subgraph -/

/-- `Subgraph`, graph_traversal.go:206-243. -/
def subgraph (s : State) (ids : List String) : List Node × List Edge :=
  (ids.filterMap (getNode s),
   ids.flatMap (fun i => (s.edges.filter (fun e => decide (e.src = i))).filter (fun e => decide (e.dst ∈ ids))))

/-! ### Statistics -/

/-- The adjacency lists of graph_algorithms.go:404-411. -/
def adjBoth (s : State) (u : String) : List String :=
  s.edges.flatMap (fun e => (if e.src = u then [e.dst] else []) ++ (if e.dst = u then [e.src] else []))

/-- The inner loop, graph_algorithms.go:436-446. -/
def flood (s : State) : Nat → List String → List String → Option (List String)
  | _, visited, [] => some visited
  | 0, _, _ :: _ => none
  | fuel + 1, visited, u :: q =>
    let r := (adjBoth s u).foldl (fun (x : List String × List String) v => if v ∈ x.1 then x else (x.1 ++ [v], x.2 ++ [v])) (visited, q)
    flood s fuel r.1 r.2

/-- The outer loop, graph_algorithms.go:429-448. -/
def countComponents (s : State) : List String → List String → Nat → Option Nat
  | [], _, n => some n
  | i :: is, visited, n =>
    if i ∈ visited then countComponents s is visited n
    else match flood s (fuelA s) (visited ++ [i]) [i] with
      | none => none
      | some v => countComponents s is v (n + 1)

/-- `GraphStatistics`, graph_algorithms.go:364-370. -/
structure Stats where
  nodeCount : Nat
  edgeCount : Nat
  averageDegree : ℚ
  density : ℚ
  components : Nat
  deriving DecidableEq, Repr

/-- `GetGraphStatistics`, graph_algorithms.go:373-453. -/
def statistics (s : State) : Option Stats :=
  if s.nodes.length = 0 then some ⟨0, 0, 0, 0, 0⟩
  else
    (countComponents s (s.nodes.map Node.id) [] 0).map (fun c =>
      { nodeCount := s.nodes.length
        edgeCount := s.edges.length
        averageDegree := 2 * (s.edges.length : ℚ) / s.nodes.length
        density := if (s.nodes.length : ℚ) * ((s.nodes.length : ℚ) - 1) > 0 then
          s.edges.length / ((s.nodes.length : ℚ) * ((s.nodes.length : ℚ) - 1)) else 0
        components := c })

end Verif.Graph
