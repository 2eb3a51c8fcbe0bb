import Verif.Base.AllSome
import Verif.Base.Sort
import Mathlib.Algebra.Order.Field.Rat

/-!
Model of /repo/pkg/index/ivf.go: the inverted file index.

Simplifications: vectors are an abstract type with a dimension, distances are rationals (no NaN); the result of k-means is a
parameter (random); `sort.Slice` is a parameter that sorts; `k`, `NProbe`, `NCentroids` are not negative; the index keeps the
caller's slices, which the caller is assumed not to modify; each method is one step (`Delete`, `Train` and `Size` take no lock
and so are only safe when the caller serialises them).
-/
namespace Verif.Ivf
open Verif.Base

/-- How a call can end badly: a returned error or an index out of range. -/
inductive Fail where
  | err
  | panic
  deriving DecidableEq, Repr

structure Env (V : Type) where
  dim : V → Nat
  dist : V → V → ℚ
  maxFloat : ℚ
  sort : List (Nat × ℚ) → List (Nat × ℚ)
  kmeans : List V → Nat → List V

/-- `IVFIndex`, ivf.go:16-26. -/
structure Index (V : Type) where
  ncent : Nat
  dimension : Nat
  centroids : List V
  inv : List (List Nat)
  vecs : List V
  ids : List String
  trained : Bool
  nprobe : Nat

/-- `NewIVFIndex`, ivf.go:29-38. -/
def new (V : Type) (dimension ncent : Nat) : Index V :=
  ⟨ncent, dimension, [], List.replicate ncent [], [], [], false, min ncent 10⟩

variable {V : Type}

/-- `Train`, ivf.go:87-107. -/
def train (E : Env V) (ix : Index V) (vs : List V) : Except Fail (Index V) :=
  if vs.length < ix.ncent then .error .err
  else .ok { ix with centroids := E.kmeans vs ix.ncent, trained := true, inv := ix.inv.map (fun _ => []) }

/-- The loop of `findNearestCentroid`, ivf.go:212-224. -/
def nearestFrom (E : Env V) (v : V) : List V → Nat → ℚ → Nat → Nat
  | [], _, _, best => best
  | c :: cs, i, d, best => if E.dist v c < d then nearestFrom E v cs (i + 1) (E.dist v c) i else nearestFrom E v cs (i + 1) d best

def nearest (E : Env V) (ix : Index V) (v : V) : Nat := nearestFrom E v ix.centroids 0 E.maxFloat 0

/-- `Add`, ivf.go:110-134. -/
def add (E : Env V) (ix : Index V) (id : String) (v : V) : Except Fail (Index V) :=
  if ix.trained = false then .error .err
  else if E.dim v ≠ ix.dimension then .error .err
  else
    match ix.inv[nearest E ix v]? with
    | none => .error .panic
    | some l => .ok { ix with inv := ix.inv.set (nearest E ix v) (l ++ [ix.vecs.length]), vecs := ix.vecs ++ [v], ids := ix.ids ++ [id] }

/-- The clusters that are searched, ivf.go:149-168. -/
def probed (E : Env V) (ix : Index V) (q : V) : List Nat :=
  ((E.sort (ix.centroids.mapIdx (fun i c => (i, E.dist q c)))).take (min ix.nprobe ix.ncent)).map Prod.fst

/-- The distance to a stored vector, ivf.go:178-182. -/
def scoreAt (E : Env V) (ix : Index V) (q : V) (p : Nat) : Option (Nat × ℚ) := (ix.vecs[p]?).map (fun v => (p, E.dist q v))

/-- One result, ivf.go:196-197. -/
def nameAt (ix : Index V) (c : Nat × ℚ) : Option (String × ℚ) := (ix.ids[c.1]?).map (fun id => (id, c.2))

/-- `Search`, ivf.go:137-202. -/
def search (E : Env V) (ix : Index V) (q : V) (k : Nat) : Except Fail (List (String × ℚ)) :=
  if ix.trained = false then .error .err
  else if E.dim q ≠ ix.dimension then .error .err
  else
    match allSome (fun c => ix.inv[c]?) (probed E ix q) with
    | none => .error .panic
    | some lists =>
      match allSome (scoreAt E ix q) lists.flatten with
      | none => .error .panic
      | some cands =>
        match allSome (nameAt ix) ((E.sort cands).take k) with
        | none => .error .panic
        | some out => .ok out

/-- `SetNProbe`, ivf.go:205-209. -/
def setNProbe (ix : Index V) (n : Nat) : Index V := { ix with nprobe := min n ix.ncent }

/-- `Clear`, ivf.go:268-278. -/
def clear (ix : Index V) : Index V := { ix with inv := ix.inv.map (fun _ => []), vecs := [], ids := [] }

/-- What `Delete` does to one inverted list, ivf.go:425-434: the loop leaves the list when it finds the index. -/
def dropFrom (vi : Nat) : List Nat → List Nat
  | [] => []
  | x :: xs => if x = vi then xs else if vi < x then (x - 1) :: dropFrom vi xs else x :: dropFrom vi xs

/-- `Delete`, ivf.go:398-438. -/
def delete (ix : Index V) (id : String) : Except Fail (Index V) :=
  if ix.trained = false then .error .err
  else
    match ix.ids.findIdx? (fun x => decide (x = id)) with
    | none => .error .err
    | some vi => .ok { ix with ids := ix.ids.eraseIdx vi, vecs := ix.vecs.eraseIdx vi, inv := ix.inv.map (dropFrom vi) }

/-- `Size`, ivf.go:441-443. -/
def size (ix : Index V) : Nat := ix.vecs.length

end Verif.Ivf
