import Verif.Model.Quant

/-!
Model of the vectors an HNSW index with a scalar quantizer works with: what `Insert` keeps, what distances are computed from,
training the quantizer of a store, and building the index when a store is opened.

The graph of the index is in `Model/Hnsw`; there the quantizer is fixed. `I` is the type of record ids. Reading the rows
succeeds and all of them decode; SQL returns them in the order of the list.
-/
namespace Verif.QuantIndex

open Verif.Quant

variable {I : Type} [DecidableEq I]

/-- `HNSWNode`, /repo/pkg/index/hnsw.go:22-29, as far as the vector goes. -/
structure Node (I : Type) where
  id : I
  raw : Option Vec
  coded : Option (List Nat)
  deriving DecidableEq

/-- The quantizer shared by store and index (/repo/pkg/core/store_index.go:48-50) and the nodes. -/
structure Ix (I : Type) where
  quant : Option SQ
  nodes : List (Node I)
  deriving DecidableEq

/-- `Insert`, /repo/pkg/index/hnsw.go:174-222: an id that is present is refused; the vector is dropped if it can be
encoded. -/
def insert (ix : Ix I) (id : I) (v : Vec) : Ix I × Bool :=
  if ix.nodes.any (fun n => n.id = id) then (ix, false)
  else
    let coded := ix.quant.bind (fun q => q.encode v)
    ({ ix with nodes := ix.nodes ++ [⟨id, if coded.isSome then none else some v, coded⟩] }, true)

/-- The vector `calculateDistance` compares with, /repo/pkg/index/hnsw.go:79-97; `none` is the largest distance. -/
def seen (ix : Ix I) (n : Node I) : Option Vec :=
  match n.raw with
  | some v => some v
  | none => n.coded.bind (fun bs => ix.quant.bind (fun q => q.decode bs))

/-- What the index works with for an id. -/
def seenBy (ix : Ix I) (id : I) : Option Vec := (ix.nodes.find? (fun n => n.id = id)).bind (seen ix)

/-- `TrainQuantizer`, /repo/pkg/core/store_index.go:311-358, on the rows of the table: the quantizer changes in place, the
nodes stay. `none` is a panic; the flag is an error. -/
def trainQuantizer (A : Arith) (ix : Ix I) (rows : List (I × Vec)) : Option (Ix I × Bool) :=
  match ix.quant with
  | none => some (ix, false)
  | some q =>
    let vs := (rows.take 1000).map (·.2)
    if vs.length = 0 then some (ix, true)
    else (q.train A vs).map (fun r => ({ ix with quant := some r.1 }, r.2))

/-- The loops of `InsertBatch`, /repo/pkg/index/hnsw.go:632-741, and of the index update in `UpsertBatch`,
/repo/pkg/core/store_crud.go:286-296: a vector that is not inserted is skipped. `InsertBatchParallel` (hnsw.go:752-) keeps the
same vectors. -/
def insertAll (ix : Ix I) : List (I × Vec) → Ix I
  | [] => ix
  | p :: ps => insertAll (insert ix p.1 p.2).1 ps

/-- `initHNSWIndex` without a snapshot, /repo/pkg/core/store_index.go:17-72, with `rebuildHNSWIndex` (75-170): a new quantizer,
trained on the rows (a failure is logged), then the rows are inserted. `none` is a panic. `quantized = none`: quantization is
off or the dimension is not known yet. -/
def openIndex (A : Arith) (quantized : Option (Nat × Nat)) (rows : List (I × Vec)) : Option (Ix I) :=
  (trainQuantizer A ⟨quantized.bind (fun p => SQ.new p.1 p.2), []⟩ rows).map (fun r => insertAll r.1 rows)

/-- The table of vectors and the index. -/
structure St (I : Type) where
  rows : List (I × Vec)
  ix : Ix I
  deriving DecidableEq

/-- `INSERT OR REPLACE`: the old row goes, the new one is the last. -/
def put (rows : List (I × Vec)) (id : I) (v : Vec) : List (I × Vec) := rows.filter (fun p => p.1 ≠ id) ++ [(id, v)]

def putAll (rows : List (I × Vec)) : List (I × Vec) → List (I × Vec)
  | [] => rows
  | p :: ps => putAll (put rows p.1 p.2) ps

/-- `Upsert`, /repo/pkg/core/store_crud.go:15-158: an untrained quantizer is trained on the rows stored so far (55-69), then the
row is written (139) and the vector goes into the index (144-148). `v` is the vector after adaptation (72-79, `Model/Dimension`);
the statement succeeds. `none` is a panic. -/
def upsert (A : Arith) (s : St I) (id : I) (v : Vec) : Option (St I) :=
  let ix := if (s.ix.quant.map SQ.trained).getD true then some s.ix else (trainQuantizer A s.ix s.rows).map (·.1)
  ix.map (fun ix => ⟨put s.rows id v, (insert ix id v).1⟩)

def upserts (A : Arith) (s : St I) : List (I × Vec) → Option (St I)
  | [] => some s
  | p :: ps => (upsert A s p.1 p.2).bind (fun s => upserts A s ps)

/-- `UpsertBatch`, /repo/pkg/core/store_crud.go:161-300: an untrained quantizer is trained on the first 1000 vectors given
(172-198), before they are checked (228-231). The flag is an error. `dim` is the dimension of the store, not 0 when there is a
quantizer. -/
def upsertBatch (A : Arith) (dim : Nat) (s : St I) (ps : List (I × Vec)) : Option (St I × Bool) :=
  if ps = [] then some (s, false)
  else
    let ix := if (s.ix.quant.map SQ.trained).getD true then some s.ix else (trainQuantizer A s.ix ps).map (·.1)
    ix.map (fun ix =>
      if ps.any (fun p => p.2.length ≠ dim) then (⟨s.rows, ix⟩, true)
      else (⟨putAll s.rows ps, insertAll ix ps⟩, false))

/-- What is on disk: the rows, and the rows "HNSW" and "QUANTIZER" of `index_snapshots`. Gob gives back what was encoded: `Save` and
`Load` of /repo/pkg/index/hnsw.go:100-157 and of /repo/pkg/quantization/scalar_quantization.go:36-46. -/
structure Disk (I : Type) where
  rows : List (I × Vec)
  nodes : Option (List (Node I))
  quant : Option SQ
  deriving DecidableEq

/-- `saveIndexSnapshot`, /repo/pkg/core/store_index.go:361-412, for an HNSW index, stopped after `n` of its two statements: the nodes
(380-387) and then the quantizer, if there is one (392-409). They are not in a transaction. -/
def save (d : Disk I) (ix : Ix I) (n : Nat) : Disk I :=
  let d := if n ≥ 1 then { d with nodes := some ix.nodes } else d
  if n ≥ 2 ∧ ix.quant.isSome then { d with quant := ix.quant } else d

/-- `initHNSWIndex`, /repo/pkg/core/store_index.go:17-72, with `loadIndexSnapshot` (415-463). `quantized` is as in `openIndex`; `nbits` is
`Quantization.NBits` of the configuration, which also decides whether a saved scalar quantizer can be loaded (428: without a
quantizer to load into, `Load` fails). -/
def reopen (A : Arith) (quantized : Option Nat) (nbits : Nat) (d : Disk I) : Option (Ix I) :=
  let q := quantized.bind (fun dim => SQ.new dim nbits)
  let q := if d.quant.isSome ∧ 1 ≤ nbits ∧ nbits ≤ 8 then d.quant else q
  match d.nodes with
  | some ns => some ⟨q, ns⟩
  | none => (trainQuantizer A ⟨q, []⟩ d.rows).map (fun r => insertAll r.1 d.rows)

end Verif.QuantIndex
