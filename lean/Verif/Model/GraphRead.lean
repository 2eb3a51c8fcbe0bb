import Verif.Model.Graph

/-!
Model of the reads of several rows at once, /repo/pkg/graph/graph_batch.go, graph.go and graph_traversal.go.

`lim` is the number of bound parameters SQLite accepts in one statement; a longer list of ids is an error (`none`). The
simplifications are those of Verif.Model.Graph.
-/
namespace Verif.Graph

/-- `GetNodesBatch`, graph_batch.go:319-381 (`GetNodes` of the tools, graphrag_tools.go:931-937, passes it on): rows in table order, ids without a row are skipped. -/
def nodesBatch (lim : Nat) (s : State) (ids : List String) : Option (List Node) :=
  if ids.length = 0 then some []
  else if lim < ids.length then none
  else some (getNodesBatch s ids)

/-- `GetEdgesBatch`, graph_batch.go:384-449. -/
def edgesBatch (lim : Nat) (s : State) (ids : List String) : Option (List Edge) :=
  if ids.length = 0 then some []
  else if lim < ids.length then none
  else some (s.edges.filter (fun e => decide (e.id ∈ ids)))

/-- `getNodesByIDs`, graph.go:414-474: the map from id to node, as its list of entries. -/
def nodesByIds (lim : Nat) (s : State) (ids : List String) : Option (List (String × Node)) :=
  if ids.length = 0 then some []
  else if lim < ids.length then none
  else some ((s.nodes.filter (fun n => decide (n.id ∈ ids))).map (fun n => (n.id, n)))

/-- `getEdgeByID`, graph_traversal.go:310-356. -/
def edgeById (s : State) (id : String) : Option Edge := s.edges.find? (fun e => decide (e.id = id))

end Verif.Graph
