import Verif.Model.Ivf
import Mathlib.Algebra.Order.BigOperators.Group.List

/-!
Model of the training of the inverted file index: `kMeansIVF` of /repo/pkg/index/ivf.go and `TrainIndex` of
/repo/pkg/core/store_index.go.

Simplifications: coordinates are rationals (no rounding, no overflow, no NaN), so distances are compared by their squares and the
first comparison with `math.MaxFloat32` always succeeds; the values of `math/rand` are parameters; an index out of range is an
explicit `none` / `panic`; rows that cannot be scanned or decoded are not part of `rows`; log output is left out.
-/
namespace Verif.Train
open Verif.Base Verif.Ivf

abbrev Vec := List ℚ

/-- The square of `euclideanDistanceIVF`, /repo/pkg/index/ivf.go:379-386; `none` when the second vector is too short. -/
def sqDist : Vec → Vec → Option ℚ
  | [], _ => some 0
  | _ :: _, [] => none
  | x :: xs, y :: ys => (sqDist xs ys).map (fun s => (x - y) * (x - y) + s)

/-- The random numbers of one run, /repo/pkg/index/ivf.go:294 and :315. -/
structure Rand where
  first : Nat
  next : Nat → ℚ

/-- The loop over centroids, /repo/pkg/index/ivf.go:303-308 and :335-342: the best so far is replaced only by a smaller distance. -/
def nearestFrom (v : Vec) : List Vec → Nat → Option (ℚ × Nat) → Option (Option (ℚ × Nat))
  | [], _, best => some best
  | c :: cs, i, best =>
    match sqDist v c with
    | none => none
    | some d =>
      match best with
      | none => nearestFrom v cs (i + 1) (some (d, i))
      | some b => if d < b.1 then nearestFrom v cs (i + 1) (some (d, i)) else nearestFrom v cs (i + 1) (some b)

/-- `minDist * minDist` of one vector, /repo/pkg/index/ivf.go:301-309. -/
def weight (cs : List Vec) (v : Vec) : Option ℚ :=
  match nearestFrom v cs 0 none with
  | some (some b) => some b.1
  | _ => none

/-- `minIdx` of one vector, /repo/pkg/index/ivf.go:332-342. -/
def cell (cs : List Vec) (v : Vec) : Option Nat :=
  match nearestFrom v cs 0 none with
  | some (some b) => some b.2
  | some none => some 0
  | none => none

/-- The first position at which the running sum reaches `r`, /repo/pkg/index/ivf.go:316-324. -/
def pick (r : ℚ) : List ℚ → ℚ → Nat → Option Nat
  | [], _, _ => none
  | d :: ds, sum, j => if r ≤ sum + d then some j else pick r ds (sum + d) (j + 1)

/-- `make([]float32, dim)` followed by `copy`, /repo/pkg/index/ivf.go:293-294 and :320-321. -/
def fit (dim : Nat) (v : Vec) : Vec := v.take dim ++ List.replicate (dim - v.length) 0

/-- The choice of the other first centroids, /repo/pkg/index/ivf.go:297-325; a centroid that is never chosen stays nil (empty). -/
def seeds (R : Rand) (dim : Nat) (vs : List Vec) : Nat → List Vec → Option (List Vec)
  | 0, cs => some cs
  | m + 1, cs =>
    match allSome (weight cs) vs with
    | none => none
    | some ws =>
      seeds R dim vs m (cs ++ [match pick (R.next cs.length * ws.sum) ws 0 0 with
        | none => []
        | some j => fit dim ((vs[j]?).getD [])])

/-- The vectors of one cell. -/
def members (vs : List Vec) (as : List Nat) (c : Nat) : List Vec := ((vs.zip as).filter (fun p => decide (p.2 = c))).map Prod.fst

/-- The sum of vectors, coordinate by coordinate, /repo/pkg/index/ivf.go:362-366. -/
def total (dim : Nat) (g : List Vec) : Vec := g.foldl (fun s v => List.zipWith (· + ·) s v) (List.replicate dim 0)

/-- The new centroids, /repo/pkg/index/ivf.go:355-375: the sums of the cells divided by their sizes, the zero vector for an empty cell;
reading a vector that is too short panics. -/
def update (dim k : Nat) (vs : List Vec) (as : List Nat) : Option (List Vec) :=
  if vs.any (fun v => decide (v.length < dim)) then none
  else some ((List.range k).map (fun c =>
    if (members vs as c).length = 0 then total dim (members vs as c)
    else (total dim (members vs as c)).map (fun x => x / ((members vs as c).length : ℚ))))

/-- The rounds of k-means, /repo/pkg/index/ivf.go:330-376. -/
def rounds (dim k : Nat) (vs : List Vec) : Nat → List Vec → List Nat → Option (List Vec)
  | 0, cs, _ => some cs
  | n + 1, cs, as =>
    match allSome (cell cs) vs with
    | none => none
    | some as' =>
      if as' = as then some cs
      else
        match update dim k vs as' with
        | none => none
        | some cs' => rounds dim k vs n cs' as'

/-- `kMeansIVF` on at least `k` vectors, /repo/pkg/index/ivf.go:281-379; `none` is a panic. -/
def kMeans (R : Rand) (vs : List Vec) (k maxIters : Nat) : Option (List Vec) :=
  match vs with
  | [] => none
  | v0 :: _ =>
    if k = 0 then none
    else
      match seeds R v0.length vs (k - 1) [fit v0.length ((vs[R.first]?).getD [])] with
      | none => none
      | some cs => rounds v0.length k vs maxIters cs (List.replicate vs.length 0)

/-! ### TrainIndex -/

/-- What `TrainIndex` uses of the store: `config.IndexType`, `config.IVF.NCentroids`, `config.VectorDim`, the index and the rows. -/
structure St where
  closed : Bool
  ivfMode : Bool
  cfgCent : Nat
  dim : Nat
  ivf : Option (Index Vec)
  rows : List (String × Vec)

inductive Res where
  | ok
  | err
  | panic
  deriving DecidableEq, Repr

/-- The loop that adds the vectors, /repo/pkg/core/store_index.go:292-299: errors are logged and skipped. -/
def addAll (E : Env Vec) : Index Vec → List (String × Vec) → Option (Index Vec)
  | ix, [] => some ix
  | ix, r :: rs =>
    match add E ix r.1 r.2 with
    | .ok ix' => addAll E ix' rs
    | .error .err => addAll E ix rs
    | .error .panic => none

/-- `numCentroids` with its defaults, /repo/pkg/core/store_index.go:229-235. -/
def centroidsOr (num : Int) (cfg : Nat) : Nat := if 0 < num then num.toNat else if cfg = 0 then 100 else cfg

/-- `Train` of the index, /repo/pkg/index/ivf.go:87-107. -/
def trainWith (R : Rand) (ix : Index Vec) (vs : List Vec) : Option (Except Unit (Index Vec)) :=
  if vs.length < ix.ncent then some (.error ())
  else
    match kMeans R vs ix.ncent 20 with
    | none => none
    | some cs => some (.ok { ix with centroids := cs, trained := true, inv := ix.inv.map (fun _ => []) })

/-- From the fetched rows on, /repo/pkg/core/store_index.go:254-307. `fetch = false`: the query fails. -/
def fill (E : Env Vec) (R : Rand) (fetch : Bool) (s : St) (ix : Index Vec) : Res × St :=
  if fetch = false then (.err, { s with ivf := some ix })
  else if s.rows.length = 0 then (.err, { s with ivf := some ix })
  else
    match trainWith R ix (s.rows.map Prod.snd) with
    | none => (.panic, { s with ivf := some ix })
    | some (.error _) => (.err, { s with ivf := some ix })
    | some (.ok ix') =>
      match addAll E ix' s.rows with
      | none => (.panic, { s with ivf := some ix' })
      | some ix'' => (.ok, { s with ivf := some ix'' })

/-- `TrainIndex`, /repo/pkg/core/store_index.go:216-308. -/
def trainIndex (E : Env Vec) (R : Rand) (fetch : Bool) (s : St) (num : Int) : Res × St :=
  if s.closed then (.err, s)
  else if s.ivfMode = false then (.err, s)
  else
    match s.ivf with
    | none => if s.dim = 0 then (.err, s) else fill E R fetch s (new Vec s.dim (centroidsOr num s.cfgCent))
    | some ix =>
      if ix.ncent ≠ centroidsOr num s.cfgCent then fill E R fetch s (new Vec s.dim (centroidsOr num s.cfgCent))
      else fill E R fetch s (clear ix)

end Verif.Train
