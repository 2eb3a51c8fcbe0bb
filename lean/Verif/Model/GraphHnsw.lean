import Verif.Model.GraphTraverse
import Mathlib.Data.List.Dedup

/-!
Model of /repo/pkg/graph/graph_hnsw.go: the graph store's own vector index.

Simplifications: scores are rationals; the maps `vectors` and `graph` are an association list and a function; the random
level is an argument; `sort.Slice`, the similarity function and the order in which a map is visited are parameters; the
capacity of slices is left out.
-/
namespace Verif.GHnsw
open Verif.Graph

/-- `SimpleHNSW`, graph_hnsw.go:15-25. -/
structure Index where
  maxConns : Nat
  vectors : List (String × List ℚ)
  conns : Nat → String → Option (List String)
  entry : String

/-- `NewSimpleHNSW`, graph_hnsw.go:33-43; `maxLevels` is 16. -/
def new (maxConns : Nat) : Index := ⟨maxConns, [], fun _ _ => none, ""⟩

def maxLevels : Nat := 16

/-- `searchCandidate`, graph_hnsw.go:170-173. -/
structure Cand where
  id : String
  score : ℚ
  deriving DecidableEq, Repr

/-- The parts that come from outside: the similarity function and the outcome of `sort.Slice`. -/
structure Env where
  sim : List ℚ → List ℚ → ℚ
  sort : List Cand → List Cand

/-- `h.vectors[id]`. -/
def vec (h : Index) (id : String) : Option (List ℚ) := (h.vectors.find? (fun p => decide (p.1 = id))).map Prod.snd

/-- The key under which a candidate is remembered as expanded (graph_hnsw.go:130-131): the same map holds ids. -/
def mark (id : String) : String := id ++ "_expanded"

/-- The loop over the connections of a candidate, graph_hnsw.go:135-146. -/
def explore (E : Env) (h : Index) (query : List ℚ) (self : String) :
    List String → List Cand × List String → List Cand × List String
  | [], x => x
  | c :: cs, x =>
    if c ∈ x.2 ∨ c = self then explore E h query self cs x
    else
      match vec h c with
      | none => explore E h query self cs x
      | some v => explore E h query self cs (x.1 ++ [⟨c, E.sim query v⟩], c :: x.2)

/-- The beam search, graph_hnsw.go:118-156: the candidates when the loop ends; `none` is out of fuel. -/
def beam (E : Env) (h : Index) (query : List ℚ) (ef level : Nat) : Nat → List Cand → List String → Option (List Cand)
  | fuel, cands, visited =>
    if cands.length ≥ ef * 2 ∨ cands = [] then some cands
    else
      match (E.sort cands).find? (fun c => decide (mark c.id ∉ visited)) with
      | none => some (E.sort cands)
      | some c =>
        match fuel with
        | 0 => none
        | fuel + 1 =>
          let x := explore E h query c.id ((h.conns level c.id).getD []) (E.sort cands, mark c.id :: visited)
          beam E h query ef level fuel x.1 x.2

/-- `searchLevel`, graph_hnsw.go:99-168. -/
def searchLevel (E : Env) (h : Index) (query : List ℚ) (entry : String) (ef level : Nat) : Option (List Cand) :=
  if entry = "" then some []
  else
    match vec h entry with
    | none => some []
    | some v =>
      (beam E h query ef level (h.vectors.length + 1) [⟨entry, E.sim query v⟩] [entry]).map (fun l => (E.sort l).take ef)

/-- Replacing one entry of a map of maps. -/
def setConns (h : Index) (level : Nat) (id : String) (l : List String) : Index :=
  { h with conns := fun k i => if k = level ∧ i = id then some l else h.conns k i }

/-- One half of `addConnection`: `none` when the two are already connected. -/
def addHalf (h : Index) (level : Nat) (a b : String) : Option Index :=
  let l := (h.conns level a).getD []
  if l.length < h.maxConns then
    if b ∈ l then none else some (setConns h level a (l ++ [b]))
  else some (setConns h level a l)

/-- `addConnection`, graph_hnsw.go:176-208: finding an existing connection leaves the function. -/
def addConnection (h : Index) (level : Nat) (a b : String) : Index :=
  match addHalf h level a b with
  | none => h
  | some h1 =>
    match addHalf h1 level b a with
    | none => h1
    | some h2 => h2

/-- `getNodeLevel`, graph_hnsw.go:211-218, counting down. -/
def levelFrom (h : Index) (id : String) : Nat → Nat
  | 0 => 0
  | l + 1 => if (h.conns (l + 1) id).getD [] ≠ [] then l + 1 else levelFrom h id l

def nodeLevel (h : Index) (id : String) : Nat := levelFrom h id (maxLevels - 1)

/-- graph_hnsw.go:59-70. -/
def register (h : Index) (id : String) (v : List ℚ) (level : Nat) : Index :=
  { h with
    vectors := h.vectors.filter (fun p => decide (p.1 ≠ id)) ++ [(id, v)]
    conns := fun k i => if k ≤ level ∧ i = id then some ((h.conns k i).getD []) else h.conns k i }

/-- graph_hnsw.go:73-75. -/
def moveEntry (h : Index) (id : String) (level : Nat) : Index :=
  if h.entry = "" ∨ level > nodeLevel h h.entry then { h with entry := id } else h

/-- graph_hnsw.go:86-91. -/
def connectAll (id : String) (level : Nat) : Nat → List Cand → Index → Index
  | _, [], h => h
  | left, c :: cs, h =>
    if c.id ≠ id ∧ 0 < left then connectAll id level (left - 1) cs (addConnection h level id c.id)
    else connectAll id level left cs h

/-- graph_hnsw.go:78-92, from the given level down to 0. -/
def connectLevels (E : Env) (id : String) (v : List ℚ) : Nat → Index → Option Index
  | l, h =>
    match searchLevel E h v h.entry 1 l with
    | none => none
    | some cands =>
      let h' := connectAll id l (if l = 0 then h.maxConns * 2 else h.maxConns) cands h
      match l with
      | 0 => some h'
      | l' + 1 => connectLevels E id v l' h'

/-- `Add`, graph_hnsw.go:55-96. -/
def add (E : Env) (h : Index) (id : String) (v : List ℚ) (level : Nat) : Option Index :=
  connectLevels E id v level (moveEntry (register h id v level) id level)

/-- `Search`, graph_hnsw.go:221-259, for a count that is not negative (a negative one slices out of range). The candidate kept
from the upper levels is the best one there. -/
def descend (E : Env) (h : Index) (query : List ℚ) : Nat → String → Option String
  | 0, cur => some cur
  | l + 1, cur =>
    match searchLevel E h query h.entry 1 (l + 1) with
    | none => none
    | some [] => descend E h query l cur
    | some (c :: _) => descend E h query l c.id

def search (E : Env) (h : Index) (query : List ℚ) (k : Nat) : Option (List Cand) :=
  if h.entry = "" then some []
  else
    match descend E h query (nodeLevel h h.entry) h.entry with
    | none => none
    | some e => (searchLevel E h query e (if k * 2 < 50 then 50 else k * 2) 0).map (List.take k)

/-- Removing the first occurrence, graph_hnsw.go:276-281. -/
def dropConn (h : Index) (level : Nat) (a id : String) : Index :=
  match h.conns level a with
  | none => h
  | some l => if id ∈ l then setConns h level a (l.erase id) else h

/-- graph_hnsw.go:269-286, one level. -/
def unlink (h : Index) (level : Nat) (id : String) : Index :=
  match h.conns level id with
  | none => h
  | some l =>
    let h' := l.foldl (fun g c => dropConn g level c id) h
    { h' with conns := fun k i => if k = level ∧ i = id then none else h'.conns k i }

/-- `Remove`, graph_hnsw.go:262-296; `order` is the order in which the vectors are visited. -/
def remove (order : List String → List String) (h : Index) (id : String) : Index :=
  let h1 : Index := { h with vectors := h.vectors.filter (fun p => decide (p.1 ≠ id)) }
  let h2 := (List.range maxLevels).foldl (fun g l => unlink g l id) h1
  if h2.entry = id then
    (order (h2.vectors.map Prod.fst)).foldl (fun g i =>
      if g.entry = "" ∨ nodeLevel g i > nodeLevel g g.entry then { g with entry := i } else g) { h2 with entry := "" }
  else h2

inductive Op where
  | add (id : String) (v : List ℚ) (level : Nat)
  | remove (order : List String → List String) (id : String)

def step (E : Env) (h : Index) : Op → Option Index
  | .add id v level => add E h id v level
  | .remove order id => some (remove order h id)

def run (E : Env) : Index → List Op → Option Index
  | h, [] => some h
  | h, o :: os =>
    match step E h o with
    | none => none
    | some h' => run E h' os

/-! ### The searches of the graph store -/

/-- `HNSWSearch`, graph_hnsw.go:333-360, after the index has answered. -/
def hnswCollect (s : State) (k : Nat) (threshold : ℚ) : List Cand → List (Node × ℚ) → List (Node × ℚ)
  | [], acc => acc
  | c :: cs, acc =>
    if c.score ≥ threshold ∧ acc.length < k then
      match getNode s c.id with
      | none => hnswCollect s k threshold cs acc
      | some n => hnswCollect s k threshold cs (acc ++ [(n, c.score)])
    else hnswCollect s k threshold cs acc

/-- `HNSWSearch`, graph_hnsw.go:333-360 for an index that is enabled. -/
def hnswSearch (E : Env) (h : Index) (s : State) (query : List ℚ) (k : Nat) (threshold : ℚ) : Option (List (Node × ℚ)) :=
  (search E h query (k * 2)).map (fun cs => hnswCollect s k threshold cs [])

/-- `HybridResult` as `HNSWHybridSearch` fills it. -/
structure TResult where
  node : Node
  vectorScore : ℚ
  graphScore : ℚ
  total : ℚ
  deriving DecidableEq, Repr

/-- graph_hnsw.go:383-395: the best inverse path length over the centres; `none` is out of fuel. -/
def centreScore (s : State) (target : String) : List String → ℚ → Option ℚ
  | [], best => some best
  | c :: cs, best =>
    match shortestPath s c target with
    | none => none
    | some (.path p) =>
      if p.nodes.length > 0 ∧ 1 / (p.nodes.length : ℚ) > best then centreScore s target cs (1 / (p.nodes.length : ℚ))
      else centreScore s target cs best
    | some _ => centreScore s target cs best

/-- The numbers of a query that `HNSWHybridSearch` reads. -/
structure TQuery where
  vector : List ℚ
  centres : List String
  topK : Nat
  vectorThreshold : ℚ
  totalThreshold : ℚ
  vectorWeight : ℚ
  graphWeight : ℚ

/-- graph_hnsw.go:373-408. -/
def scoreCands (s : State) (q : TQuery) : List Cand → Option (List TResult)
  | [] => some []
  | c :: cs =>
    match scoreCands s q cs with
    | none => none
    | some rest =>
      if c.score ≥ q.vectorThreshold then
        match getNode s c.id with
        | none => some rest
        | some n =>
          match centreScore s c.id q.centres 0 with
          | none => none
          | some g =>
            let total := q.vectorWeight * c.score + q.graphWeight * g
            if total ≥ q.totalThreshold then some (⟨n, c.score, g, total⟩ :: rest) else some rest
      else some rest

/-- `HNSWHybridSearch`, graph_hnsw.go:363-419 for an index that is enabled. -/
def hnswHybridSearch (E : Env) (sort : List TResult → List TResult) (h : Index) (s : State) (q : TQuery) : Option (List TResult) :=
  match search E h q.vector (q.topK * 3) with
  | none => none
  | some cs => (scoreCands s q cs).map (fun l => (sort l).take q.topK)

end Verif.GHnsw
