import Verif.Model.Graph
import Verif.Model.Hindsight

/-!
The memory system of /repo/pkg/hindsight and the graph of /repo/pkg/graph on one database: `System.Graph` (hindsight.go:131-133) hands
out the graph in whose table of nodes banks and entities are kept. `Verif.Model.Hindsight` sees only its own nodes; here they are rows of
`Verif.Model.Graph` with vectors, properties and edges.

Simplifications: those of the two models; the memories themselves are rows of another table and left out; the JSON of the properties of a
bank is a parameter.
-/
namespace Verif.BankGraph
open Verif.Hindsight (Bank bankOfNode BankRes)

/-- The tables of the graph and the banks of a `System`. -/
structure State where
  g : Graph.State
  banks : List Bank

def init : State := ⟨Graph.init, []⟩

/-- The node of an entity, hindsight.go:152-158: a vector of three zeros and no properties. -/
def entityNode (e : String) : Graph.Node := ⟨e, [0, 0, 0], e, "entity", ""⟩

/-- The node of a bank, hindsight.go:755-782; `dims` is the dimension of the collection, 0 when there is none, `props` the JSON of the
properties. -/
def bankNode (dims : Nat) (props : String) (b : Bank) : Graph.Node :=
  ⟨b.id, (1 / 10000 : ℚ) :: List.replicate ((if 0 < dims then dims else 1536) - 1) 0, b.name, "bank", props⟩

/-- The graph side of `Retain`, hindsight.go:149-160: the nodes are written before the memory, and errors are ignored. -/
def retain (s : State) (entities : List String) : State :=
  { s with g := entities.foldl (fun g e => (Graph.upsertNode g (some (entityNode e))).1) s.g }

def findBank (s : State) (id : String) : Option Bank := s.banks.find? (fun b => decide (b.id = id))

/-- `CreateBank`, hindsight.go:745-789. -/
def createBank (dims : Nat) (props : String) (s : State) (b : Bank) : State × BankRes :=
  if (findBank s b.id).isSome then (s, .exists_)
  else match b.disposition with
    | none => (s, .panic)
    | some _ => (⟨(Graph.upsertNode s.g (some (bankNode dims props b))).1, s.banks ++ [b]⟩, .ok)

/-- The bank made from a row, hindsight.go:806-811 and 1228-1233. -/
def toBank (n : Graph.Node) : Bank := bankOfNode ⟨n.id, n.ntype, n.content⟩

/-- `GetBank`, hindsight.go:793-820. -/
def getBank (s : State) (id : String) : State × Option Bank :=
  match findBank s id with
  | some b => (s, some b)
  | none => match Graph.getNode s.g id with
    | some n => if n.ntype = "bank" then ({ s with banks := s.banks ++ [toBank n] }, some (toBank n)) else (s, none)
    | none => (s, none)

/-- `DeleteBank`, hindsight.go:836-851: the error of deleting the node is ignored. -/
def deleteBank (fk : Bool) (s : State) (id : String) : State × BankRes :=
  if (findBank s id).isSome then
    (⟨(Graph.deleteNode fk s.g id).1, s.banks.filter (fun b => decide (b.id ≠ id))⟩, .ok)
  else (s, .notFound)

/-- Closing and `New` on the same file: `loadPersistedBanks`, hindsight.go:1217-1239; no vector index is enabled. -/
def restart (s : State) : State :=
  ⟨{ s.g with index := none }, (s.g.nodes.filter (fun n => decide (n.ntype = "bank"))).map toBank⟩

/-- A call of the memory system or of the graph. -/
inductive Call where
  | graph (o : Graph.Op)
  | retain (entities : List String)
  | create (dims : Nat) (props : String) (b : Bank)
  | get (id : String)
  | delete (fk : Bool) (id : String)
  | restart

def Call.op : Call → Option Graph.Op
  | .graph o => some o
  | _ => none

def step (s : State) : Call → State
  | .graph o => { s with g := Graph.step s.g o }
  | .retain es => retain s es
  | .create d p b => (createBank d p s b).1
  | .get id => (getBank s id).1
  | .delete fk id => (deleteBank fk s id).1
  | .restart => restart s

def run (cs : List Call) : State := cs.foldl step init

end Verif.BankGraph
