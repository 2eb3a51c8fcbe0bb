import Verif.Model.Hnsw
import Verif.Model.Ivf
import Verif.Model.Lsh

/-!
Model of the statistics of the vector indexes: `Stats` of /repo/pkg/index/hnsw.go, ivf.go and lsh.go. The averages are
rationals. The maps are visited in an order that is a parameter.
-/

namespace Verif.Hnsw
variable {V : Type}

/-- The counters of `Stats`, hnsw.go:528-532; a level that is not in the distribution counts as 0. -/
structure Counts where
  active : Nat
  edges : Nat
  maxLevel : Nat
  levels : Nat → Nat

/-- The body of the loop, hnsw.go:535-545. -/
def count (c : Counts) (n : Node V) : Counts :=
  if n.deleted then c
  else ⟨c.active + 1, c.edges + (n.nbrs.map List.length).sum, if n.level > c.maxLevel then n.level else c.maxLevel,
    fun l => if l = n.level then c.levels l + 1 else c.levels l⟩

/-- What `Stats` reports. -/
structure Stats where
  total : Nat
  active : Nat
  deleted : Int
  edges : Nat
  avgEdges : ℚ
  maxLevel : Nat
  levels : Nat → Nat
  entry : String

/-- `Stats`, hnsw.go:523-565 (without the configured numbers). -/
def stats (order : List (Node V) → List (Node V)) (h : Index V) : Stats :=
  let c := (order h.nodes).foldl count ⟨0, 0, 0, fun _ => 0⟩
  ⟨h.nodes.length, c.active, h.nodes.length - c.active, c.edges, if c.active > 0 then (c.edges : ℚ) / c.active else 0, c.maxLevel,
    c.levels, h.entry⟩

end Verif.Hnsw

namespace Verif.Ivf
variable {V : Type}

/-- What `Stats` reports; the sizes of the clusters only when there are clusters. -/
structure Stats where
  nvectors : Nat
  trained : Bool
  sizes : Option (Nat × Nat × ℚ)

/-- The loop over the sizes, ivf.go:250-258: smallest, greatest, total. -/
def spread (acc : Nat × Nat × Nat) (size : Nat) : Nat × Nat × Nat :=
  (if size < acc.1 then size else acc.1, if size > acc.2.1 then size else acc.2.1, acc.2.2 + size)

/-- `Stats`, ivf.go:228-266; `none` when there are more lists than clusters (index out of range, line 243). -/
def stats (ix : Index V) : Option Stats :=
  if ix.inv.length > ix.ncent then none
  else
    let clusterSizes := ix.inv.map List.length ++ List.replicate (ix.ncent - ix.inv.length) 0
    match clusterSizes with
    | [] => some ⟨ix.vecs.length, ix.trained, none⟩
    | s :: _ =>
      let r := clusterSizes.foldl spread (s, s, 0)
      some ⟨ix.vecs.length, ix.trained, some (r.1, r.2.1, (r.2.2 : ℚ) / clusterSizes.length)⟩

end Verif.Ivf

namespace Verif.Lsh

/-- What `Stats` reports. -/
structure Stats where
  vectors : Nat
  tables : Nat
  buckets : Nat
  avgBucket : ℚ
  maxBucket : Nat
  overhead : Int

/-- The loop over the buckets of a table, lsh.go:280-286: items and greatest bucket. -/
def countBucket (t : Nat → List String) (acc : Nat × Nat) (h : Nat) : Nat × Nat :=
  (acc.1 + (t h).length, if (t h).length > acc.2 then (t h).length else acc.2)

/-- The loop over the tables, lsh.go:278-287: buckets, items, greatest bucket. `keys` are the keys of each table. -/
def countTables : List (Nat → List String) → List (List Nat) → Nat × Nat × Nat → Nat × Nat × Nat
  | t :: ts, ks :: kss, (b, i, m) =>
    let r := ks.foldl (countBucket t) (i, m)
    countTables ts kss (b + ks.length, r.1, r.2)
  | _, _, acc => acc

/-- `Stats`, lsh.go:270-303. -/
def stats (keys : List (List Nat)) (ix : Index) : Stats :=
  let c := countTables ix.tables keys (0, 0, 0)
  ⟨ix.vecs.length, ix.tables.length, c.1, if c.1 > 0 then (c.2.1 : ℚ) / c.1 else 0, c.2.2, (c.2.1 : Int) - ix.vecs.length⟩

end Verif.Lsh
