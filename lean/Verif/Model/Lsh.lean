import Verif.Base.Sort
import Verif.Base.Assoc
import Mathlib.Algebra.Order.Field.Rat
import Mathlib.Data.List.Dedup

/-!
Model of /repo/pkg/index/lsh.go: locality sensitive hashing.

Simplifications: components are rationals (no NaN, no rounding), the distance function is a parameter; the random projections are
an argument; a table is a function from hashes to buckets (a missing bucket is an empty one, the code never distinguishes them); the
order in which the candidate set is visited and `sort.Slice` are parameters; `k` and `numProbes` are not negative; the index keeps the
caller's slices, which the caller is assumed not to modify.
-/
namespace Verif.Lsh
open Verif.Base

abbrev Vec := List ℚ

abbrev Hit := String × ℚ

structure Env where
  dist : Vec → Vec → ℚ
  /-- the order in which the candidate set is visited -/
  order : List String → List String
  sortHits : List Hit → List Hit
  sortBits : List (Nat × ℚ) → List (Nat × ℚ)

/-- `LSHIndex`, lsh.go:19-35; one list of projections for each table. -/
structure Index where
  dimension : Nat
  projs : List (List Vec)
  tables : List (Nat → List String)
  vecs : List (String × Vec)

/-- `NewLSHIndex`, lsh.go:55-93, after the defaults for the numbers of tables and of hash functions. -/
def new (dimension : Nat) (projs : List (List Vec)) : Index := ⟨dimension, projs, projs.map (fun _ _ => []), []⟩

/-- The inner loop, lsh.go:312-315. -/
def dot : Vec → Vec → ℚ
  | a :: as, b :: bs => a * b + dot as bs
  | _, _ => 0

/-- The loop of `computeHash`, lsh.go:310-321: bit `i` (of 64) is set when the projection is positive. -/
def hashFrom (v : Vec) : List Vec → Nat → Nat → Nat
  | [], _, h => h
  | p :: ps, i, h => hashFrom v ps (i + 1) (if dot v p > 0 then h ||| (2 ^ i % 2 ^ 64) else h)

/-- `computeHash`, lsh.go:306-324. -/
def computeHash (v : Vec) (ps : List Vec) : Nat := hashFrom v ps 0 0

/-- `lsh.hashTables[t][hash] = append(…)`, lsh.go:110. -/
def addTo (t : Nat → List String) (h : Nat) (id : String) : Nat → List String := fun x => if x = h then t x ++ [id] else t x

/-- The removal of an id from a bucket, lsh.go:230-242. -/
def takeFrom (t : Nat → List String) (h : Nat) (id : String) : Nat → List String :=
  fun x => if x = h then (t x).filter (fun y => decide (y ≠ id)) else t x

/-- `Insert`, lsh.go:96-114; the flag is the error. -/
def insert (ix : Index) (id : String) (v : Vec) : Index × Bool :=
  if v.length ≠ ix.dimension then (ix, true)
  else ({ ix with vecs := putA ix.vecs id v, tables := List.zipWith (fun ps t => addTo t (computeHash v ps) id) ix.projs ix.tables }, false)

/-- The scoring of the candidate set, lsh.go:138-146. -/
def score (E : Env) (ix : Index) (q : Vec) (cands : List String) : List Hit :=
  (E.order cands.dedup).filterMap (fun id => (getA ix.vecs id).map (fun v => (id, E.dist q v)))

/-- The buckets of the query, lsh.go:126-134. -/
def baseCands (ix : Index) (q : Vec) : List String :=
  (List.zipWith (fun ps t => t (computeHash q ps)) ix.projs ix.tables).flatten

/-- `Search`, lsh.go:117-159; `none` is the error. -/
def search (E : Env) (ix : Index) (q : Vec) (k : Nat) : Option (List Hit) :=
  if q.length ≠ ix.dimension then none else some ((E.sortHits (score E ix q (baseCands ix q))).take k)

/-- `getProbeHashes`, lsh.go:327-368. -/
def probeHashes (E : Env) (q : Vec) (ps : List Vec) (numProbes : Nat) : List Nat :=
  ((E.sortBits (ps.mapIdx (fun i p => (i, |dot q p|)))).take numProbes).map (fun b => computeHash q ps ^^^ (2 ^ b.1 % 2 ^ 64))

/-- The candidates of one table, lsh.go:172-193. -/
def probeTable (E : Env) (q : Vec) (numProbes : Nat) (ps : List Vec) (t : Nat → List String) : List String :=
  (probeHashes E q ps numProbes).flatMap t ++ t (computeHash q ps)

/-- `SearchWithMultiProbe`, lsh.go:162-215. -/
def searchMulti (E : Env) (ix : Index) (q : Vec) (k numProbes : Nat) : Option (List Hit) :=
  if q.length ≠ ix.dimension then none
  else some ((E.sortHits (score E ix q (List.zipWith (probeTable E q numProbes) ix.projs ix.tables).flatten)).take k)

/-- `Delete`, lsh.go:218-249. -/
def delete (ix : Index) (id : String) : Index × Bool :=
  match getA ix.vecs id with
  | none => (ix, false)
  | some v =>
    ({ ix with vecs := delA ix.vecs id, tables := List.zipWith (fun ps t => takeFrom t (computeHash v ps) id) ix.projs ix.tables }, true)

/-- `Clear`, lsh.go:252-260. -/
def clear (ix : Index) : Index := { ix with vecs := [], tables := ix.projs.map (fun _ _ => []) }

def size (ix : Index) : Nat := ix.vecs.length

end Verif.Lsh
