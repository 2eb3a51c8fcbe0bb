import Verif.Base.Quick
import Verif.Base.Assoc

/-!
Model of /repo/pkg/index/flat.go: the exact index.

Simplifications: vectors are an abstract type with a dimension and distances are rationals (no NaN); the order in which the map is
visited is a parameter of each search; the methods hold the lock for their whole duration. `nrm` is `normalize` for the cosine index
and the identity otherwise.
-/
namespace Verif.Flat
open Verif.Base

structure Env (V : Type) where
  dim : V → Nat
  dist : V → V → ℚ
  nrm : V → V

/-- `FlatIndex`, flat.go:12-18. -/
structure Index (V : Type) where
  dimension : Nat
  vecs : List (String × V)

/-- A result: id and distance (flatHeapItem, flat.go:270-273). -/
abbrev Hit := String × ℚ

variable {V : Type}

/-- `NewFlatIndex`, flat.go:21-30. -/
def new (V : Type) (d : Nat) : Index V := ⟨d, []⟩

/-- `Insert`, flat.go:43-62; the flag is the error. -/
def insert (E : Env V) (ix : Index V) (id : String) (v : V) : Index V × Bool :=
  if E.dim v ≠ ix.dimension then (ix, true) else ({ ix with vecs := putA ix.vecs id (E.nrm v) }, false)

/-- `flatMaxHeap.Less`, flat.go:279. -/
def farther (a b : Hit) : Bool := decide (a.2 > b.2)

/-- One step of the scan, flat.go:85-94; `none` is the index out of range on the empty heap. -/
def offer (k : Int) (h : List Hit) (x : Hit) : Option (List Hit) :=
  if (h.length : Int) < k then some (heapPush farther h x)
  else
    match h with
    | [] => none
    | top :: _ =>
      if x.2 < top.2 then
        match heapPop farther h with
        | none => none
        | some (_, rest) => some (heapPush farther rest x)
      else some h

def offerAll (k : Int) : List Hit → List Hit → Option (List Hit)
  | [], h => some h
  | x :: xs, h =>
    match offer k h x with
    | none => none
    | some h' => offerAll k xs h'

/-- The distances in the order the map is visited. -/
def hits (E : Env V) (ix : Index V) (order : List (String × V) → List (String × V)) (q : V) : List Hit :=
  (order ix.vecs).map (fun e => (e.1, E.dist (E.nrm q) e.2))

/-- `Search`, flat.go:65-111. -/
def search (E : Env V) (ix : Index V) (order : List (String × V) → List (String × V)) (q : V) (k : Int) : Option (List Hit) :=
  if E.dim q ≠ ix.dimension then some []
  else if ix.vecs = [] then some []
  else
    match offerAll k (hits E ix order q) [] with
    | none => none
    | some h => some (heapDrain farther h.length h).reverse

/-- `distances[j] <= pivot`, flat.go:257. -/
def nearer (a b : Hit) : Bool := decide (a.2 ≤ b.2)

/-- `RangeSearch`, flat.go:114-143. -/
def rangeSearch (E : Env V) (ix : Index V) (order : List (String × V) → List (String × V)) (q : V) (radius : ℚ) : List Hit :=
  if E.dim q ≠ ix.dimension then []
  else
    let found := (hits E ix order q).filter (fun r => decide (r.2 ≤ radius))
    if found.length > 1 then quick nearer found.length found 0 found.length else found

/-- `Delete`, flat.go:146-155. -/
def delete (ix : Index V) (id : String) : Index V × Bool :=
  if (getA ix.vecs id).isSome then ({ ix with vecs := delA ix.vecs id }, true) else (ix, false)

/-- `Clear`, flat.go:165-169. -/
def clear (ix : Index V) : Index V := { ix with vecs := [] }

def size (ix : Index V) : Nat := ix.vecs.length

/-- The loop of `BatchInsert`, flat.go:193-207: it stops at the first vector of a wrong dimension. -/
def batchLoop (E : Env V) : List (String × V) → Index V → Index V × Bool
  | [], ix => (ix, false)
  | (id, v) :: vs, ix =>
    if E.dim v ≠ ix.dimension then (ix, true) else batchLoop E vs { ix with vecs := putA ix.vecs id (E.nrm v) }

/-- `BatchInsert`, flat.go:185-209. -/
def batchInsert (E : Env V) (ix : Index V) (ids : List String) (vs : List V) : Index V × Bool :=
  if ids.length ≠ vs.length then (ix, true) else batchLoop E (ids.zip vs) ix

/-- `GetVector`, flat.go:172-182. -/
def getVector (ix : Index V) (id : String) : Option V := getA ix.vecs id

end Verif.Flat
