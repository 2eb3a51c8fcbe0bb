import Verif.Base.Sort
import Mathlib.Algebra.Order.Field.Rat
import Mathlib.Algebra.Order.Floor.Defs
import Mathlib.Data.Rat.Floor

/-!
Model of the geographic index, /repo/pkg/geo/geospatial.go.

Simplifications: coordinates are rationals (every float is one; NaN and infinities fail `isValidCoordinate`).
The division by the cell size with its rounding and truncation is a parameter `cell`, the number of cells to look at for
a radius a parameter `span`, the distance a parameter `dist` with values in an ordered field `K`; the values they have in
the code, without rounding, are `cell0`, `span0` and `Verif.Geo.haversine`. Metadata is left out. Panics: none occur, the
polygon functions are only reached with at least three vertices.
-/
namespace Verif.Geo

open Verif.Base

/-- `Coordinate`, geospatial.go:29-32. -/
structure Coord where
  lat : ℚ
  lng : ℚ
  deriving DecidableEq, Repr

/-- `GeoPoint`, geospatial.go:35-39. -/
structure Pt where
  id : String
  at_ : Coord
  deriving DecidableEq, Repr

/-- `BoundingBox`, geospatial.go:48-53. -/
structure Box where
  minLat : ℚ
  maxLat : ℚ
  minLng : ℚ
  maxLng : ℚ
  deriving DecidableEq, Repr

inductive Unit_ where
  | km
  | miles
  | meters
  | other
  deriving DecidableEq, Repr

/-- `GeoIndex`, geospatial.go:56-62: the map of points (in some order) and the grid; a missing cell is empty. -/
structure Index where
  points : List Pt
  grid : Int → List Pt

/-- `NewGeoIndex`, geospatial.go:65-71, and `Clear`, geospatial.go:277-282. -/
def Index.empty : Index := ⟨[], fun _ => []⟩

structure Cfg (K : Type) where
  cell : ℚ → Int
  span : K → Int
  dist : Coord → Coord → K

/-- `int64(x / 0.1)` without rounding: truncation towards zero. -/
def cell0 (x : ℚ) : Int := if 0 ≤ x then ⌊x * 10⌋ else ⌈x * 10⌉

/-- `int64(math.Ceil(radiusKM / 111.0 / 0.1))` without rounding, geospatial.go:311-312. -/
def span0 {K : Type} [Field K] [LinearOrder K] [FloorRing K] (r : K) : Int := ⌈r / 111 * 10⌉

/-- `isValidCoordinate`, geospatial.go:346-349. -/
def valid (c : Coord) : Bool := decide (c.lat ≥ -90 ∧ c.lat ≤ 90 ∧ c.lng ≥ -180 ∧ c.lng ≤ 180)

/-- `(x << 32) | (y & 0xFFFFFFFF)`, geospatial.go:304, 219, 320: the 64 bits of the key as a number. -/
def key (x y : Int) : Int := (x % 2 ^ 32) * 2 ^ 32 + y % 2 ^ 32

/-- `getGridKey`, geospatial.go:300-305. -/
def gridKey {K : Type} (c : Cfg K) (p : Coord) : Int := key (c.cell p.lng) (c.cell p.lat)

/-- Assignment `g.points[id] = &point`. -/
def setPoint (l : List Pt) (p : Pt) : List Pt := l.filter (fun q => decide (q.id ≠ p.id)) ++ [p]

/-- `Insert`, geospatial.go:74-93. -/
def insert {K : Type} (c : Cfg K) (g : Index) (p : Pt) : Index × Bool :=
  if p.id = "" then (g, false)
  else if valid p.at_ = false then (g, false)
  else
    let k := gridKey c p.at_
    (⟨setPoint g.points p, fun j => if j = k then g.grid j ++ [p] else g.grid j⟩, true)

/-- The removal from a cell, geospatial.go:111-118: the first point with the id is overwritten by the last one of the
cell, and the cell is shortened. -/
def removeSwap (id : String) (l : List Pt) : List Pt :=
  match l.findIdx? (fun p => decide (p.id = id)) with
  | none => l
  | some i => match l.getLast? with
    | none => l
    | some z => (l.set i z).dropLast

/-- `Delete`, geospatial.go:96-126. -/
def delete {K : Type} (c : Cfg K) (g : Index) (id : String) : Index × Bool :=
  match g.points.find? (fun p => decide (p.id = id)) with
  | none => (g, false)
  | some p =>
    let k := gridKey c p.at_
    (⟨g.points.filter (fun q => decide (q.id ≠ id)), fun j => if j = k then removeSwap id (g.grid j) else g.grid j⟩, true)

/-- `GetPoint`, geospatial.go:285-295. -/
def getPoint (g : Index) (id : String) : Option Pt := g.points.find? (fun p => decide (p.id = id))

/-- `Size`, geospatial.go:270-274. -/
def size (g : Index) : Nat := g.points.length

/-- `for x := a; x <= b; x++`. -/
def upTo (a b : Int) : List Int := (List.range (b + 1 - a).toNat).map (fun (i : Nat) => a + (i : Int))

/-- The points of a rectangle of cells. -/
def cells (g : Index) (x0 x1 y0 y1 : Int) : List Pt :=
  (upTo x0 x1).flatMap (fun x => (upTo y0 y1).flatMap (fun y => g.grid (key x y)))

section K
variable {K : Type} [Field K] [LinearOrder K]

/-- `convertToKM`, geospatial.go:361-370. -/
def toKM (d : K) : Unit_ → K
  | .miles => d * (160934 / 100000)
  | .meters => d / 1000
  | _ => d

/-- `convertFromKM`, geospatial.go:373-382. -/
def fromKM (d : K) : Unit_ → K
  | .miles => d / (160934 / 100000)
  | .meters => d * 1000
  | _ => d

/-- `getCandidateCells`, geospatial.go:308-328. -/
def candidates (c : Cfg K) (g : Index) (center : Coord) (radiusKM : K) : List Pt :=
  let n := c.span radiusKM
  cells g (c.cell center.lng + -n) (c.cell center.lng + n) (c.cell center.lat + -n) (c.cell center.lat + n)

/-- `SearchRadius`, geospatial.go:129-167, before sorting; `none` is an error. -/
def radiusHits (c : Cfg K) (g : Index) (center : Coord) (radius : K) (u : Unit_) : Option (List (Pt × K)) :=
  if valid center = false then none
  else if radius ≤ 0 then none
  else
    let r := toKM radius u
    some (((candidates c g center r).filter (fun p => decide (c.dist center p.at_ ≤ r))).map
      (fun p => (p, fromKM (c.dist center p.at_) u)))

/-- `SearchRadius` with the sort of the standard library as a parameter. -/
def searchRadius (c : Cfg K) (sort : List (Pt × K) → List (Pt × K)) (g : Index) (center : Coord) (radius : K) (u : Unit_) :
    Option (List (Pt × K)) := (radiusHits c g center radius u).map sort

/-- `SearchKNN`, geospatial.go:170-202. `ord` is the iteration order of the map. -/
def searchKNN (c : Cfg K) (sort : List (Pt × K) → List (Pt × K)) (ord : List Pt → List Pt) (g : Index) (center : Coord)
    (k : Int) : Option (List (Pt × K)) :=
  if valid center = false then none
  else if k ≤ 0 then none
  else
    let results := sort ((ord g.points).map (fun p => (p, c.dist center p.at_)))
    if k > results.length then some results else some (results.take k.toNat)

end K

/-- The test at geospatial.go:222-225. -/
def inBox (b : Box) (p : Coord) : Bool :=
  decide (p.lat ≥ b.minLat ∧ p.lat ≤ b.maxLat ∧ p.lng ≥ b.minLng ∧ p.lng ≤ b.maxLng)

/-- `isValidBoundingBox`, geospatial.go:352-358. -/
def validBox (b : Box) : Bool :=
  decide (b.minLat ≥ -90 ∧ b.maxLat ≤ 90 ∧ b.minLng ≥ -180 ∧ b.maxLng ≤ 180 ∧ b.minLat ≤ b.maxLat ∧ b.minLng ≤ b.maxLng)

/-- `SearchBoundingBox`, geospatial.go:205-238. -/
def searchBox {K : Type} (c : Cfg K) (g : Index) (b : Box) : Option (List Pt) :=
  if validBox b = false then none
  else some ((cells g (c.cell b.minLng) (c.cell b.maxLng) (c.cell b.minLat) (c.cell b.maxLat)).filter (fun p => inBox b p.at_))

/-- `getBoundingBoxFromPolygon`, geospatial.go:385-408. -/
def polyBox (p0 : Coord) (ps : List Coord) : Box :=
  ps.foldl (fun b c =>
    { minLat := if c.lat < b.minLat then c.lat else b.minLat
      maxLat := if c.lat > b.maxLat then c.lat else b.maxLat
      minLng := if c.lng < b.minLng then c.lng else b.minLng
      maxLng := if c.lng > b.maxLng then c.lng else b.maxLng }) ⟨p0.lat, p0.lat, p0.lng, p0.lng⟩

/-- The test of one edge, geospatial.go:418-428: does it flip `inside`? -/
def flips (p p1 p2 : Coord) : Bool :=
  if p.lng > min p1.lng p2.lng then
    if p.lng ≤ max p1.lng p2.lng then
      if p.lat ≤ max p1.lat p2.lat then
        if p1.lng ≠ p2.lng then
          let xinters := (p.lng - p1.lng) * (p2.lat - p1.lat) / (p2.lng - p1.lng) + p1.lat
          decide (p1.lat = p2.lat ∨ p.lat ≤ xinters)
        else false
      else false
    else false
  else false

/-- The loop of `pointInPolygon`, geospatial.go:415-431: `p1` is the previous vertex. -/
def castLoop (p : Coord) : Bool → Coord → List Coord → Bool
  | inside, _, [] => inside
  | inside, p1, p2 :: ps => castLoop p (if flips p p1 p2 then !inside else inside) p2 ps

/-- `pointInPolygon`, geospatial.go:411-434: the vertices 1, …, n-1 and then 0. -/
def inPolygon (p p0 : Coord) (ps : List Coord) : Bool := castLoop p false p0 (ps ++ [p0])

/-- `SearchPolygon`, geospatial.go:241-267. -/
def searchPolygon (ord : List Pt → List Pt) (g : Index) : List Coord → Option (List Pt)
  | p0 :: p1 :: p2 :: ps =>
    let b := polyBox p0 (p1 :: p2 :: ps)
    some ((ord g.points).filter (fun q => inBox b q.at_ && inPolygon q.at_ p0 (p1 :: p2 :: ps)))
  | _ => none

end Verif.Geo
