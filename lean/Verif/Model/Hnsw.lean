import Verif.Base.Heap
import Verif.Base.Sort

/-!
Model of /repo/pkg/index/hnsw.go: the HNSW vector index of the store.

Simplifications: the vectors are an abstract type and distances are rationals (no NaN); the random level is an argument; the
map of nodes is an association list and the order in which it is visited is a parameter; `k`, `ef`, `M` are not negative (a
negative `k` or `M` panics in `make`); the methods hold the index lock for their whole duration, so each is one step; a panic
is `none`. With a quantizer an index keeps only the decoded encoding of a vector: `keep` is decoding after encoding, the
identity without a quantizer or when encoding fails; the quantizer is not replaced while the index is in use and decodes what
it has encoded.
-/
namespace Verif.Hnsw
open Verif.Base

/-- `HNSWNode`, hnsw.go:23-30; `Level` is `len(Neighbors) - 1` (lines 206-212 and nothing else sets either). -/
structure Node (V : Type) where
  id : String
  vec : V
  nbrs : List (List String)
  deleted : Bool

/-- `HNSW`, hnsw.go:33-54. -/
structure Index (V : Type) where
  M : Nat
  maxM : Nat
  efC : Nat
  nodes : List (Node V)
  entry : String

/-- The distance function and what the quantizer leaves of a vector. -/
structure Env (V : Type) where
  dist : V → V → ℚ
  keep : V → V

/-- `NewHNSW`, hnsw.go:57-69. -/
def new (V : Type) (M efC : Nat) : Index V := ⟨M, M * 2, efC, [], ""⟩

variable {V : Type}

/-- `h.Nodes[id]`. -/
def getNode (h : Index V) (id : String) : Option (Node V) := h.nodes.find? (fun n => decide (n.id = id))

def Node.level (n : Node V) : Nat := n.nbrs.length - 1

/-- `heapItem`, hnsw.go:568-571. -/
structure Item where
  id : String
  dist : ℚ
  deriving DecidableEq, Repr

/-- `distHeap.Less`, hnsw.go:577. -/
def Item.before (a b : Item) : Bool := decide (a.dist < b.dist)

/-- The local state of `searchLayer`: `candidates`, `dynamicList` (distances negated) and `visited`. -/
structure Beam where
  cands : List Item
  dyn : List Item
  visited : List String

/-- The loop over the entry points, hnsw.go:295-301; `none` is the nil pointer of a node that is not there. -/
def enter (E : Env V) (h : Index V) (q : V) : List String → Beam → Option Beam
  | [], s => some s
  | p :: ps, s =>
    match getNode h p with
    | none => none
    | some n =>
      enter E h q ps ⟨heapPush Item.before s.cands ⟨p, E.dist q n.vec⟩, heapPush Item.before s.dyn ⟨p, -(E.dist q n.vec)⟩, p :: s.visited⟩

/-- hnsw.go:329-331. -/
def trim (ef : Nat) (dyn : List Item) : Option (List Item) :=
  if dyn.length > ef then (heapPop Item.before dyn).map Prod.snd else some dyn

/-- The loop over the neighbours of a candidate, hnsw.go:318-334. -/
def scan (E : Env V) (h : Index V) (q : V) (ef : Nat) : List String → Beam → Option Beam
  | [], s => some s
  | x :: xs, s =>
    if x ∈ s.visited then scan E h q ef xs s
    else
      match getNode h x, s.dyn with
      | some n, top :: _ =>
        if E.dist q n.vec < -top.dist ∨ s.dyn.length < ef then
          match trim ef (heapPush Item.before s.dyn ⟨x, -(E.dist q n.vec)⟩) with
          | none => none
          | some dyn => scan E h q ef xs ⟨heapPush Item.before s.cands ⟨x, E.dist q n.vec⟩, dyn, x :: s.visited⟩
        else scan E h q ef xs ⟨s.cands, s.dyn, x :: s.visited⟩
      | _, _ => none

/-- Whether the loop stops, hnsw.go:304-309. -/
def stop (s : Beam) : Bool :=
  match s.cands, s.dyn with
  | c :: _, d :: _ => decide (c.dist > -d.dist)
  | _, _ => false

/-- The main loop of `searchLayer`, hnsw.go:303-335; `none` also when the fuel is used up. -/
def expand (E : Env V) (h : Index V) (q : V) (ef layer : Nat) : Nat → Beam → Option (List Item)
  | fuel, s =>
    if s.cands = [] ∨ stop s = true then some s.dyn
    else
      match fuel with
      | 0 => none
      | fuel + 1 =>
        match heapPop Item.before s.cands with
        | none => none
        | some (cur, rest) =>
          match getNode h cur.id with
          | none => none
          | some n =>
            match scan E h q ef ((n.nbrs[layer]?).getD []) ⟨rest, s.dyn, s.visited⟩ with
            | none => none
            | some s' => expand E h q ef layer fuel s'

/-- `searchLayer`, hnsw.go:290-349. -/
def searchLayer (E : Env V) (h : Index V) (q : V) (eps : List String) (ef layer : Nat) : Option (List String) :=
  match enter E h q eps ⟨[], [], []⟩ with
  | none => none
  | some s =>
    match expand E h q ef layer (eps.length + h.nodes.length) s with
    | none => none
    | some dyn => some ((heapDrain Item.before dyn.length dyn).map Item.id).reverse

/-- The distances in `selectNeighborsHeuristic`, hnsw.go:373-386. -/
def pairs (E : Env V) (h : Index V) (q : V) : List String → Option (List Item)
  | [] => some []
  | c :: cs =>
    match (if c = "query" then some 0 else (getNode h c).map (fun n => E.dist q n.vec)), pairs E h q cs with
    | some d, some r => some (⟨c, d⟩ :: r)
    | _, _ => none

/-- `selectNeighborsHeuristic`, hnsw.go:361-403. -/
def selectNbrs (E : Env V) (h : Index V) (q : V) (cands : List String) (m : Nat) : Option (List String) :=
  if cands.length ≤ m then some cands
  else (pairs E h q cands).map (fun ps => ((exchangeSort Item.before ps).take m).map Item.id)

/-- Writing `node.Neighbors[layer]`. -/
def setNbrs (h : Index V) (id : String) (layer : Nat) (l : List String) : Index V :=
  { h with nodes := h.nodes.map (fun n => if n.id = id then { n with nbrs := n.nbrs.set layer l } else n) }

/-- The neighbours of a node on a layer it has. -/
def nbrsAt (h : Index V) (id : String) (layer : Nat) : Option (List String) := (getNode h id).bind (fun n => n.nbrs[layer]?)

/-- `addConnection`, hnsw.go:406-420. -/
def addConn (h : Index V) (a b : String) (layer : Nat) : Index V :=
  match nbrsAt h a layer with
  | none => h
  | some l => if b ∈ l then h else setNbrs h a layer (l ++ [b])

/-- hnsw.go:226-229 and 240-243. -/
def maxConn (h : Index V) (layer : Nat) : Nat := if layer = 0 then h.maxM else h.M

/-- hnsw.go:245-266: cutting the list of a neighbour back. -/
def prune (E : Env V) (h : Index V) (nb : String) (layer : Nat) : Option (Index V) :=
  match getNode h nb with
  | none => none
  | some n =>
    match n.nbrs[layer]? with
    | none => some h
    | some l =>
      if l.length > maxConn h layer then (selectNbrs E h n.vec l (maxConn h layer)).map (setNbrs h nb layer)
      else some h

/-- One chosen neighbour, hnsw.go:237-266; the parallel build (lines 851-853) does the same without pruning. -/
def linkOne (E : Env V) (pruning : Bool) (id : String) (layer : Nat) (nb : String) (h : Index V) : Option (Index V) :=
  if pruning then prune E (addConn h nb id layer) nb layer else some (addConn h nb id layer)

/-- The loop over the chosen neighbours, hnsw.go:236-267. -/
def connect (E : Env V) (pruning : Bool) (id : String) (layer : Nat) : List String → Index V → Option (Index V)
  | [], h => some h
  | nb :: nbs, h =>
    match linkOne E pruning id layer nb h with
    | none => none
    | some h' => connect E pruning id layer nbs h'

/-- The layers of a new node from `layer` down to 0, hnsw.go:225-270. -/
def linkLayers (E : Env V) (pruning : Bool) (v : V) (id : String) : Nat → List String → Index V → Option (Index V)
  | layer, cur, h =>
    match searchLayer E h v cur h.efC layer with
    | none => none
    | some cands =>
      match selectNbrs E h v cands (maxConn h layer) with
      | none => none
      | some nbs =>
        match connect E pruning id layer nbs (setNbrs h id layer nbs) with
        | none => none
        | some h' =>
          match layer with
          | 0 => some h'
          | layer' + 1 => linkLayers E pruning v id layer' nbs h'

/-- hnsw.go:220-222 and 434-436: the best point of each of the `n` layers above `bottom`. -/
def descend (E : Env V) (h : Index V) (q : V) (bottom : Nat) : Nat → List String → Option (List String)
  | 0, cur => some cur
  | n + 1, cur =>
    match searchLayer E h q cur 1 (bottom + n + 1) with
    | none => none
    | some r => descend E h q bottom n (r.take 1)

/-- hnsw.go:273-275. -/
def raiseEntry (h : Index V) (id : String) (level : Nat) : Option (Index V) :=
  match getNode h h.entry with
  | none => none
  | some e => some (if level > e.level then { h with entry := id } else h)

/-- hnsw.go:199-208: the new node with empty lists. -/
def addNode (E : Env V) (h : Index V) (id : String) (v : V) (level : Nat) : Index V :=
  { h with nodes := h.nodes ++ [⟨id, E.keep v, List.replicate (level + 1) [], false⟩] }

/-- `Insert` for an id that is not there, hnsw.go:182-278. -/
def insertNew (E : Env V) (pruning : Bool) (h : Index V) (id : String) (v : V) (level : Nat) : Option (Index V) :=
  if h.entry = "" then some { addNode E h id v level with entry := id }
  else
    match getNode (addNode E h id v level) h.entry with
    | none => none
    | some e =>
      match descend E (addNode E h id v level) v level (e.level - level) [h.entry] with
      | none => none
      | some cur =>
        match linkLayers E pruning v id level cur (addNode E h id v level) with
        | none => none
        | some h' => raiseEntry h' id level

/-- `Insert`, hnsw.go:174-287: the flag says that it returned an error. -/
def insert (E : Env V) (h : Index V) (id : String) (v : V) (level : Nat) : Option (Index V × Bool) :=
  if (getNode h id).isSome then some (h, true)
  else (insertNew E true h id v level).map (fun h' => (h', false))

/-- `InsertBatch`, hnsw.go:632-738: as `Insert`, ids that are there are skipped. -/
def insertAll (E : Env V) (pruning : Bool) : List (String × V × Nat) → Index V → Option (Index V)
  | [], h => some h
  | (id, v, level) :: rest, h =>
    if (getNode h id).isSome then insertAll E pruning rest h
    else
      match insertNew E pruning h id v level with
      | none => none
      | some h' => insertAll E pruning rest h'

def insertBatch (E : Env V) (h : Index V) (vs : List (String × V × Nat)) : Option (Index V) := insertAll E true vs h

/-- `Delete`, hnsw.go:484-506: marks the node; when it was the entry point, the first live node in map order takes over. -/
def markDeleted (h : Index V) (id : String) : Index V :=
  { h with nodes := h.nodes.map (fun n => if n.id = id then { n with deleted := true } else n) }

def moveEntry (order : List (Node V) → List (Node V)) (h : Index V) : Index V :=
  match (order h.nodes).find? (fun n => !n.deleted) with
  | none => h
  | some n => { h with entry := n.id }

def delete (order : List (Node V) → List (Node V)) (h : Index V) (id : String) : Index V × Bool :=
  match getNode h id with
  | none => (h, true)
  | some _ => (if h.entry = id then moveEntry order (markDeleted h id) else markDeleted h id, false)

/-- hnsw.go:449-457. -/
def hit (E : Env V) (h : Index V) (q : V) (id : String) : Option Item :=
  match getNode h id with
  | some n => if n.deleted then none else some ⟨id, E.dist q n.vec⟩
  | none => none

/-- `Search`, hnsw.go:423-481. -/
def search (E : Env V) (h : Index V) (q : V) (k ef : Nat) : Option (List Item) :=
  if h.entry = "" then some []
  else
    match getNode h h.entry with
    | none => none
    | some e =>
      match descend E h q 0 e.level [h.entry] with
      | none => none
      | some cur =>
        match searchLayer E h q cur ef 0 with
        | none => none
        | some cands => some ((exchangeSort Item.before (cands.filterMap (hit E h q))).take k)

/-- `SearchVectorIndex`, hnsw.go:743-750. -/
def searchDefault (E : Env V) (h : Index V) (q : V) (k : Nat) : Option (List Item) :=
  search E h q k (if 50 < k then k * 2 else 50)

/-- `Size`, hnsw.go:509-520. -/
def size (h : Index V) : Nat := (h.nodes.filter (fun n => !n.deleted)).length

/-- The chunks of `InsertBatchParallel`, hnsw.go:781-788: the last worker gets the rest. -/
def chunksOf {α : Type} (size : Nat) : Nat → List α → List (List α)
  | 0, _ => []
  | 1, l => [l]
  | w + 1, l => l.take size :: chunksOf size w (l.drop size)

/-- One worker, hnsw.go:798-880: an empty index with the same parameters, filled without pruning. -/
def buildPart (E : Env V) (h : Index V) (chunk : List (String × V × Nat)) : Option (Index V) :=
  insertAll E false chunk ⟨h.M, h.maxM, h.efC, [], ""⟩

def buildAll (E : Env V) (h : Index V) : List (List (String × V × Nat)) → Option (List (Index V))
  | [] => some []
  | c :: cs =>
    match buildPart E h c, buildAll E h cs with
    | some p, some ps => some (p :: ps)
    | _, _ => none

/-- Merging the nodes, hnsw.go:899-905: ids that are there are kept. -/
def mergeNodes (nodes : List (Node V)) : List (Node V) → List (Node V)
  | [] => nodes
  | n :: ns => if n.id ∈ nodes.map Node.id then mergeNodes nodes ns else mergeNodes (nodes ++ [n]) ns

/-- The entry point of the merged index, hnsw.go:908-920. -/
def mergeEntry (h : Index V) (pe : String) : Index V :=
  if pe = "" then h
  else if h.entry = "" then { h with entry := pe }
  else
    match getNode h h.entry, getNode h pe with
    | some a, some b => if b.level > a.level then { h with entry := pe } else h
    | _, _ => h

/-- `InsertBatchParallel`, hnsw.go:752-923. The workers share nothing, so the order in which they run does not matter. -/
def insertParallel (E : Env V) (h : Index V) (vs : List (String × V × Nat)) (workers : Nat) : Option (Index V) :=
  if workers ≤ 1 ∨ vs.length / workers < 10 then insertBatch E h vs
  else
    match buildAll E h (chunksOf (vs.length / workers) workers vs) with
    | none => none
    | some parts =>
      some ((parts.map Index.entry).foldl mergeEntry { h with nodes := parts.foldl (fun ns p => mergeNodes ns p.nodes) h.nodes })

end Verif.Hnsw
