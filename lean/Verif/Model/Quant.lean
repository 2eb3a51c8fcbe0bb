import Verif.Base.Sort
import Mathlib.Data.Rat.Floor

/-!
Model of /repo/pkg/quantization/scalar_quantization.go: scalar and binary quantization.

Simplifications: components are rationals with exact arithmetic; the three additions whose result may be absorbed by float32 rounding
(`+= 1e-6`, `+ 0.5`, `- 0.5`) are parameters. The pairs of `Min` and `Max` are one list. A byte is a number below 256. `setBit` is only
called inside the slice (proved through the round trip: a bit outside would be lost). Files and the projecting quantizer
are in `Verif.Model.QuantFile`.
-/
namespace Verif.Quant
open Verif.Base

abbrev Vec := List ℚ

/-- How a call can end badly: a returned error or an index out of range. -/
inductive Fail where
  | err
  | panic
  deriving DecidableEq, Repr

/-- The additions that float32 may absorb. -/
structure Arith where
  bump : ℚ → ℚ
  up : ℚ → ℚ
  down : ℚ → ℚ

/-! ### Bits -/

/-- `encoded[i/8] |= 1 << (i%8)`, scalar_quantization.go:119-124, 232-234. -/
def setBit (bs : List Nat) (i : Nat) : List Nat := bs.modify (i / 8) (fun y => y ||| 2 ^ (i % 8))

/-- The inner loop of `Encode`, scalar_quantization.go:118-127. -/
def packOne (q : Nat) : Nat → Nat → Nat → List Nat → List Nat
  | 0, _, _, bs => bs
  | r + 1, b, off, bs => packOne q r (b + 1) (off + 1) (if q &&& 2 ^ b ≠ 0 then setBit bs off else bs)

/-- The outer loop. -/
def packAll (n : Nat) : List Nat → Nat → List Nat → List Nat
  | [], _, bs => bs
  | q :: qs, off, bs => packAll n qs (off + n) (packOne q n 0 off bs)

/-- scalar_quantization.go:100-102 and the loops: the bytes of a list of codes. -/
def pack (n : Nat) (qs : List Nat) : List Nat := packAll n qs 0 (List.replicate ((qs.length * n + 7) / 8) 0)

/-- The inner loop of `Decode`, scalar_quantization.go:146-160; `none` is the error for short data. -/
def unpackOne (bs : List Nat) : Nat → Nat → Nat → Nat → Option Nat
  | 0, _, _, q => some q
  | r + 1, b, off, q =>
    match bs[off / 8]? with
    | none => none
    | some y => unpackOne bs r (b + 1) (off + 1) (if y &&& 2 ^ (off % 8) ≠ 0 then q ||| 2 ^ b else q)

def unpackAll (bs : List Nat) (n : Nat) : Nat → Nat → Option (List Nat)
  | 0, _ => some []
  | m + 1, off =>
    match unpackOne bs n 0 off 0 with
    | none => none
    | some q => (unpackAll bs n m (off + n)).map (q :: ·)

/-! ### Scalar quantizer -/

/-- `ScalarQuantizer`, scalar_quantization.go:14-20. -/
structure SQ where
  dim : Nat
  nbits : Nat
  ranges : List (ℚ × ℚ)
  trained : Bool
  deriving DecidableEq

/-- `NewScalarQuantizer`, scalar_quantization.go:23-34. -/
def SQ.new (dim nbits : Nat) : Option SQ := if nbits < 1 ∨ nbits > 8 then none else some ⟨dim, nbits, List.replicate dim (0, 0), false⟩

/-- scalar_quantization.go:66-72. -/
def widen (r : ℚ × ℚ) (x : ℚ) : ℚ × ℚ := (if x < r.1 then x else r.1, if x > r.2 then x else r.2)

/-- scalar_quantization.go:61-74; the flag is the error. -/
def widenAll (dim : Nat) : List Vec → List (ℚ × ℚ) → List (ℚ × ℚ) × Bool
  | [], rs => (rs, false)
  | v :: vs, rs => if v.length ≠ dim then (rs, true) else widenAll dim vs (List.zipWith widen rs v)

/-- scalar_quantization.go:77-81. -/
def spread (A : Arith) (r : ℚ × ℚ) : ℚ × ℚ := if r.2 = r.1 then (r.1, A.bump r.2) else r

/-- `Train`, scalar_quantization.go:49-85; `none` is a panic. -/
def SQ.train (A : Arith) (s : SQ) (vs : List Vec) : Option (SQ × Bool) :=
  match vs with
  | [] => some (s, true)
  | v :: _ =>
    if v.length < s.dim then none
    else
      match widenAll s.dim vs ((v.take s.dim).map (fun x => (x, x))) with
      | (rs, true) => some ({ s with ranges := rs }, true)
      | (rs, false) => some ({ s with ranges := rs.map (spread A), trained := true }, false)

/-- scalar_quantization.go:107-112. -/
def normalized (r : ℚ × ℚ) (x : ℚ) : ℚ :=
  if (x - r.1) / (r.2 - r.1) < 0 then 0 else if (x - r.1) / (r.2 - r.1) > 1 then 1 else (x - r.1) / (r.2 - r.1)

/-- scalar_quantization.go:115: the conversion to an integer drops the fraction. -/
def code (n : Nat) (r : ℚ × ℚ) (x : ℚ) : Nat := ⌊normalized r x * ((2 ^ n - 1 : Nat) : ℚ)⌋₊

/-- `Encode`, scalar_quantization.go:88-131. -/
def SQ.encode (s : SQ) (v : Vec) : Option (List Nat) :=
  if s.trained = false then none
  else if v.length ≠ s.dim then none
  else some (pack s.nbits (List.zipWith (code s.nbits) s.ranges v))

/-- scalar_quantization.go:163-164. -/
def value (n : Nat) (r : ℚ × ℚ) (q : Nat) : ℚ := (q : ℚ) / ((2 ^ n - 1 : Nat) : ℚ) * (r.2 - r.1) + r.1

/-- `Decode`, scalar_quantization.go:134-168. -/
def SQ.decode (s : SQ) (bs : List Nat) : Option Vec :=
  if s.trained = false then none else (unpackAll bs s.nbits s.dim 0).map (List.zipWith (value s.nbits) s.ranges)

/-! ### Binary quantizer -/

/-- `BinaryQuantizer`, scalar_quantization.go:178-182. -/
structure BQ where
  dim : Nat
  thr : List ℚ
  trained : Bool

/-- `NewBinaryQuantizer`, scalar_quantization.go:185-190. -/
def BQ.new (dim : Nat) : BQ := ⟨dim, List.replicate dim 0, false⟩

def column (vs : List Vec) (d : Nat) : List ℚ := vs.map (fun v => v[d]?.getD 0)

/-- `Train`, scalar_quantization.go:205-223: the lengths are checked while the first column is summed. -/
def BQ.train (b : BQ) (vs : List Vec) : BQ × Bool :=
  if vs = [] then (b, true)
  else if b.dim ≠ 0 ∧ vs.any (fun v => decide (v.length ≠ b.dim)) then (b, true)
  else ({ b with thr := (List.range b.dim).map (fun d => (column vs d).sum / vs.length), trained := true }, false)

/-- The loop of `Encode`, scalar_quantization.go:239-245. -/
def setBits : List Bool → Nat → List Nat → List Nat
  | [], _, bs => bs
  | x :: xs, d, bs => setBits xs (d + 1) (if x then setBit bs d else bs)

/-- `Encode`, scalar_quantization.go:226-248. -/
def BQ.encode (b : BQ) (v : Vec) : Option (List Nat) :=
  if b.trained = false then none
  else if v.length ≠ b.dim then none
  else some (setBits (List.zipWith (fun t x => decide (x > t)) b.thr v) 0 (List.replicate ((b.dim + 7) / 8) 0))

/-- The test of `Decode`, scalar_quantization.go:264-267. -/
def testBit (bs : List Nat) (d : Nat) : Bool := decide ((bs[d / 8]?.getD 0) &&& 2 ^ (d % 8) ≠ 0)

/-- `Decode`, scalar_quantization.go:251-277. -/
def BQ.decode (A : Arith) (b : BQ) (bs : List Nat) : Option Vec :=
  if b.trained = false then none
  else if bs.length ≠ (b.dim + 7) / 8 then none
  else some (b.thr.mapIdx (fun d t => if testBit bs d then A.up t else A.down t))

/-- The counting loop of `HammingDistance`, scalar_quantization.go:289-292; a byte has at most eight bits to clear. -/
def kernighan : Nat → Nat → Option Nat
  | 0, _ => none
  | f + 1, x => if x = 0 then some 0 else (kernighan f (x &&& (x - 1))).map (· + 1)

def sumBits : List Nat → List Nat → Option Nat
  | a :: as, b :: bs =>
    match kernighan 9 (a ^^^ b), sumBits as bs with
    | some x, some y => some (x + y)
    | _, _ => none
  | _, _ => some 0

/-- `HammingDistance`, scalar_quantization.go:280-296. -/
def hamming (a b : List Nat) : Option Int := if a.length ≠ b.length then some (-1) else (sumBits a b).map (fun n => (n : Int))

/-- scalar_quantization.go:317-323. -/
def closer (a b : Nat × Int) : Bool := decide (a.2 < b.2)

/-- The distances, scalar_quantization.go:305-311. -/
def scores (q : List Nat) : Nat → List (List Nat) → Option (List (Nat × Int))
  | _, [] => some []
  | i, v :: vs =>
    match hamming q v, scores q (i + 1) vs with
    | some d, some rest => some ((i, d) :: rest)
    | _, _ => none

/-- `SearchBinary`, scalar_quantization.go:299-336: a negative `topK` makes `make` panic. -/
def searchBinary (q : List Nat) (db : List (List Nat)) (topK : Int) : Option (List (Nat × Int)) :=
  match scores q 0 db with
  | none => none
  | some rs => if topK < 0 then none else some ((exchangeSort closer rs).take topK.toNat)

end Verif.Quant
