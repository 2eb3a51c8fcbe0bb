import Mathlib.Tactic.Common

/-!
Model of the index files: `Save` and `Load` of the graph index (/repo/pkg/index/hnsw.go:100-159) and of the inverted file
(/repo/pkg/index/ivf.go:41-86), and `ExportIndex` and `ImportIndex` of the store (/repo/pkg/core/io.go:398-471).

A file is the sequence of gob values in it. Gob gives back what was encoded, and refuses to decode a value into a variable
of another type or beyond the end. Simplifications: a nil and an empty slice are the same; the node of the graph index
apart from its id is a parameter `P`, a vector component a parameter `W`; the constants `MaxM = 2M` and `ML`, which
`Load` sets again, are left out.
-/
namespace Verif.IndexFile

variable {P W : Type}

/-- A gob value. -/
inductive Val (P W : Type) where
  | int (n : Int)
  | bool (b : Bool)
  | str (s : String)
  | node (id : String) (body : P)
  | vectors (v : List (List W))
  | lists (l : List (List Int))
  | ids (l : List String)
  deriving DecidableEq, Repr

/-- The graph index, hnsw.go:33-53: its parameters, entry point and the node map. -/
structure Graph (P : Type) where
  m : Int
  ef : Int
  entry : String
  nodes : List (String × P)
  deriving DecidableEq, Repr

/-- The inverted file, ivf.go:13-27. -/
structure Cells (W : Type) where
  ncent : Int
  dim : Int
  nprobe : Int
  trained : Bool
  centroids : List (List W)
  invlists : List (List Int)
  ids : List String
  vectors : List (List W)
  deriving DecidableEq, Repr

/-- `HNSW.Save`, hnsw.go:100-125; `order` is the order in which Go walks the map. -/
def saveGraph (order : List (String × P) → List (String × P)) (g : Graph P) : List (Val P W) :=
  [.int g.m, .int g.ef, .str g.entry, .int g.nodes.length] ++ (order g.nodes).map (fun p => .node p.1 p.2)

/-- `m[k] = v` on a map. -/
def setNode (l : List (String × P)) (k : String) (v : P) : List (String × P) :=
  l.filter (fun p => p.1 ≠ k) ++ [(k, v)]

/-- The loop of hnsw.go:149-156. -/
def loadNodes : Nat → List (Val P W) → List (String × P) → List (String × P) × Bool
  | 0, _, acc => (acc, true)
  | n + 1, .node id b :: vs, acc => loadNodes n vs (setNode acc id b)
  | _ + 1, _, acc => (acc, false)

/-- `HNSW.Load`, hnsw.go:128-159: the index afterwards, changed up to the point of failure, and whether it succeeded. -/
def loadGraph (g : Graph P) : List (Val P W) → Graph P × Bool
  | .int m :: r1 =>
    let g1 := { g with m := m }
    match r1 with
    | .int ef :: r2 =>
      let g2 := { g1 with ef := ef }
      match r2 with
      | .str e :: r3 =>
        let g3 := { g2 with entry := e }
        match r3 with
        | .int n :: r4 =>
          let l := loadNodes n.toNat r4 []
          ({ g3 with nodes := l.1 }, l.2)
        | _ => (g3, false)
      | _ => (g2, false)
    | _ => (g1, false)
  | _ => (g, false)

/-- `IVFIndex.Save`, ivf.go:41-62. -/
def saveCells (c : Cells W) : List (Val P W) :=
  [.int c.ncent, .int c.dim, .int c.nprobe, .bool c.trained, .vectors c.centroids, .lists c.invlists, .ids c.ids,
    .vectors c.vectors]

/-- `IVFIndex.Load`, ivf.go:65-86. -/
def loadCells (c : Cells W) : List (Val P W) → Cells W × Bool
  | .int a :: r1 =>
    let c1 := { c with ncent := a }
    match r1 with
    | .int b :: r2 =>
      let c2 := { c1 with dim := b }
      match r2 with
      | .int d :: r3 =>
        let c3 := { c2 with nprobe := d }
        match r3 with
        | .bool t :: r4 =>
          let c4 := { c3 with trained := t }
          match r4 with
          | .vectors x :: r5 =>
            let c5 := { c4 with centroids := x }
            match r5 with
            | .lists l :: r6 =>
              let c6 := { c5 with invlists := l }
              match r6 with
              | .ids i :: r7 =>
                let c7 := { c6 with ids := i }
                match r7 with
                | .vectors v :: _ => ({ c7 with vectors := v }, true)
                | _ => (c7, false)
              | _ => (c6, false)
            | _ => (c5, false)
          | _ => (c4, false)
        | _ => (c3, false)
      | _ => (c2, false)
    | _ => (c1, false)
  | _ => (c, false)

/-- What the two calls use of the store: whether it is closed, `config.HNSW` and the sizes for a new index, and the two
indexes, `none` for nil. -/
structure Store (P W : Type) where
  closed : Bool
  hnswEnabled : Bool
  newGraph : Graph P
  newCells : Cells W
  graph : Option (Graph P)
  cells : Option (Cells W)
  deriving DecidableEq, Repr

/-- What stands at the path: nothing or the values of a file. -/
abbrev Path (P W : Type) := Option (List (Val P W))

/-- `ExportIndex`, io.go:398-429. `canCreate` says whether `os.Create` succeeds, which empties a file that is there; `cap`
is the number of values the disk takes. -/
def exportIndex (order : List (String × P) → List (String × P)) (canCreate : Bool) (cap : Nat) (s : Store P W)
    (p : Path P W) : Path P W × Bool :=
  if s.closed then (p, false)
  else if ¬ canCreate then (p, false)
  else
    match s.graph with
    | some g =>
      let vs := saveGraph order g
      (some (vs.take cap), decide (vs.length ≤ cap))
    | none =>
      match s.cells with
      | some c =>
        let vs := saveCells c
        (some (vs.take cap), decide (vs.length ≤ cap))
      | none => (some [], false)

/-- `ImportIndex`, io.go:432-471. -/
def importIndex (s : Store P W) (p : Path P W) : Store P W × Bool :=
  if s.closed then (s, false)
  else
    match p with
    | none => (s, false)
    | some vs =>
      if s.hnswEnabled then
        let l := loadGraph (s.graph.getD s.newGraph) vs
        let s1 := { s with graph := some l.1 }
        if l.2 then (s1, true)
        else
          let k := loadCells (s.cells.getD s.newCells) vs
          ({ s1 with cells := some k.1 }, k.2)
      else (s, false)

end Verif.IndexFile
