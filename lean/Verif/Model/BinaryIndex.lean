import Verif.Model.QuantIndex
import Verif.Model.QuantFile

/-!
An index whose quantizer is replaced while it is in use, and an index with a binary quantizer.

First: `SetQuantizer` of /repo/pkg/index/hnsw.go:71-76 with any quantizer, given by its two functions (the interface of
hnsw.go:16-20). Second: the paths of `Model/QuantIndex` for `Quantization.Type` "binary"
(/repo/pkg/core/store_index.go:24-25, 346-351, /repo/pkg/core/store_crud.go:35-36, 59-61). The simplifications are those of
`Model/QuantIndex`.
-/
namespace Verif.BinaryIndex

open Verif.Quant

variable {I : Type} [DecidableEq I]

/-- `Quantizer`, /repo/pkg/index/hnsw.go:16-20. -/
structure Coder where
  encode : Vec → Option (List Nat)
  decode : List Nat → Option Vec

/-- The index as far as its vectors go: the quantizer (hnsw.go:48-49) and the nodes (22-29). -/
structure Ix (I : Type) where
  quant : Option Coder
  nodes : List (QuantIndex.Node I)

/-- `Insert`, hnsw.go:174-222. -/
def insert (ix : Ix I) (id : I) (v : Vec) : Ix I :=
  if ix.nodes.any (fun n => n.id = id) then ix
  else
    let coded := ix.quant.bind (fun q => q.encode v)
    { ix with nodes := ix.nodes ++ [⟨id, if coded.isSome then none else some v, coded⟩] }

/-- `SetQuantizer`, hnsw.go:71-76: the nodes stay as they are. -/
def setQuantizer (ix : Ix I) (q : Option Coder) : Ix I := { ix with quant := q }

/-- The vector `calculateDistance` compares with, hnsw.go:79-97; `none` is the largest distance. -/
def seen (ix : Ix I) (n : QuantIndex.Node I) : Option Vec :=
  match n.raw with
  | some v => some v
  | none => n.coded.bind (fun bs => ix.quant.bind (fun q => q.decode bs))

/-- What the index works with for an id. -/
def seenBy (ix : Ix I) (id : I) : Option Vec := (ix.nodes.find? (fun n => n.id = id)).bind (seen ix)

inductive Op (I : Type) where
  | insert (id : I) (v : Vec)
  | set (q : Option Coder)

def step (ix : Ix I) : Op I → Ix I
  | .insert id v => insert ix id v
  | .set q => setQuantizer ix q

/-- `NewHNSW`, hnsw.go:51-69. -/
def new (I : Type) : Ix I := ⟨none, []⟩

def run (ops : List (Op I)) : Ix I := ops.foldl step (new I)

/-! ### Binary quantization -/

/-- The binary quantizer as the index sees it. -/
def coder (A : Arith) (b : BQ) : Coder := ⟨b.encode, b.decode A⟩

/-- A store with an index: the rows, the quantizer of the store (`s.quantizer`, shared with the index) and the nodes. -/
structure St (I : Type) where
  rows : List (I × Vec)
  quant : BQ
  nodes : List (QuantIndex.Node I)

def St.ix (A : Arith) (s : St I) : Ix I := ⟨some (coder A s.quant), s.nodes⟩

/-- `TrainQuantizer`, /repo/pkg/core/store_index.go:311-358: at most 1000 rows; a failure is an error its callers log. -/
def trainOn (b : BQ) (rows : List (I × Vec)) : BQ := (b.train ((rows.take 1000).map (·.2))).1

/-- The index update of a write. -/
def St.insert (A : Arith) (s : St I) (id : I) (v : Vec) : St I := { s with nodes := (BinaryIndex.insert (s.ix A) id v).nodes }

/-- `rebuildHNSWIndex`, /repo/pkg/core/store_index.go:75-170. -/
def insertAll (A : Arith) (s : St I) : List (I × Vec) → St I
  | [] => s
  | p :: ps => insertAll A (s.insert A p.1 p.2) ps

/-- `initHNSWIndex` without a snapshot, /repo/pkg/core/store_index.go:17-72, on a table. -/
def openStore (A : Arith) (dim : Nat) (rows : List (I × Vec)) : St I :=
  insertAll A ⟨rows, trainOn (BQ.new dim) rows, []⟩ rows

/-- `Upsert`, /repo/pkg/core/store_crud.go:15-158: an untrained quantizer is trained on the rows stored so far (55-69). -/
def upsert (A : Arith) (s : St I) (p : I × Vec) : St I :=
  let s := if s.quant.trained then s else { s with quant := trainOn s.quant s.rows }
  { s.insert A p.1 p.2 with rows := QuantIndex.put s.rows p.1 p.2 }

/-! ### Another type of quantization -/

/-- `BinaryQuantizer.Load` (/repo/pkg/quantization/scalar_quantization.go:197-201) of a file that a scalar quantizer wrote: gob sets the
fields of the same name, `Dimension` and `Trained`, and passes over the others. -/
def loadScalar (b : BQ) (f : SQFile) : BQ := ⟨f.dim.getD b.dim, b.thr, f.trained.getD b.trained⟩

/-- `ScalarQuantizer.Load` (scalar_quantization.go:42-46) of a file that a binary quantizer wrote. -/
def loadBinary (s : SQ) (f : BQFile) : SQ := ⟨f.dim.getD s.dim, s.nbits, s.ranges, f.trained.getD s.trained⟩

/-- Opening a store with snapshots of an index and a scalar quantizer, configured for binary quantization
(/repo/pkg/core/store_index.go:415-463, with 17-72). `dim` is `VectorDim` of the configuration. -/
def reopenBinary (A : Arith) (dim : Nat) (f : SQFile) (nodes : List (QuantIndex.Node I)) : Ix I :=
  ⟨some (coder A (loadScalar (BQ.new dim) f)), nodes⟩

/-- Opening a store with snapshots of an index and a binary quantizer, configured for scalar quantization. -/
def reopenScalar (dim nbits : Nat) (f : BQFile) (nodes : List (QuantIndex.Node I)) : Ix I :=
  ⟨(SQ.new dim nbits).map (fun s => ⟨(loadBinary s f).encode, (loadBinary s f).decode⟩), nodes⟩

end Verif.BinaryIndex
