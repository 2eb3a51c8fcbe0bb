import Verif.Model.Quant

/-!
Quantizers on disk and the projecting quantizer: `Save` and `Load` of the scalar and the binary quantizer
(/repo/pkg/quantization/scalar_quantization.go:36-46, 192-201) and `OptimizedBinaryQuantizer` (345-386).

Encoding/gob sends of a structure only the fields that are not zero (and the slices that are not empty), and sets of the variable it decodes
into only the fields that were sent. Simplifications: those of `Verif.Model.Quant`; a file that cannot be decoded is left out; the
random numbers of the projections are an argument.
-/
namespace Verif.Quant

/-- A field as gob sends it: nothing for zero. -/
def sent {α : Type} [DecidableEq α] (zero x : α) : Option α := if x = zero then none else some x

/-- The file of a scalar quantizer. -/
structure SQFile where
  dim : Option Nat
  nbits : Option Nat
  ranges : Option (List (ℚ × ℚ))
  trained : Option Bool

/-- `ScalarQuantizer.Save`, scalar_quantization.go:36-40. -/
def SQ.save (s : SQ) : SQFile := ⟨sent 0 s.dim, sent 0 s.nbits, sent [] s.ranges, sent false s.trained⟩

/-- `ScalarQuantizer.Load`, scalar_quantization.go:42-46. -/
def SQ.load (s : SQ) (f : SQFile) : SQ :=
  ⟨f.dim.getD s.dim, f.nbits.getD s.nbits, f.ranges.getD s.ranges, f.trained.getD s.trained⟩

/-- The file of a binary quantizer. -/
structure BQFile where
  dim : Option Nat
  thr : Option (List ℚ)
  trained : Option Bool

/-- `BinaryQuantizer.Save`, scalar_quantization.go:191-195. -/
def BQ.save (b : BQ) : BQFile := ⟨sent 0 b.dim, sent [] b.thr, sent false b.trained⟩

/-- `BinaryQuantizer.Load`, scalar_quantization.go:197-201. -/
def BQ.load (b : BQ) (f : BQFile) : BQ := ⟨f.dim.getD b.dim, f.thr.getD b.thr, f.trained.getD b.trained⟩

/-- `OptimizedBinaryQuantizer`, scalar_quantization.go:346-349: a binary quantizer, whose methods it has, and the projections. -/
structure OBQ where
  base : BQ
  proj : List Vec

/-- `NewOptimizedBinaryQuantizer`, scalar_quantization.go:352-371: `rows` are the random projections, one for each output dimension. -/
def OBQ.new (outputDim : Nat) (rows : List Vec) : OBQ := ⟨BQ.new outputDim, rows⟩

/-- The inner loop of `Project`, scalar_quantization.go:378-381; `none` is the panic on a row that is too short. -/
def rowSum : Vec → Vec → Option ℚ
  | [], _ => some 0
  | _ :: _, [] => none
  | x :: v, p :: row => (rowSum v row).map (fun s => x * p + s)

/-- `Project`, scalar_quantization.go:374-386. -/
def OBQ.project (o : OBQ) (v : Vec) : Option Vec := (o.proj.take o.base.dim).mapM (rowSum v)

/-- `Encode`, which is that of the binary quantizer inside (scalar_quantization.go:226-248, 347). -/
def OBQ.encode (o : OBQ) (v : Vec) : Option (List Nat) := o.base.encode v

/-- `Train`, likewise (scalar_quantization.go:204-223, 347). -/
def OBQ.train (o : OBQ) (vs : List Vec) : OBQ × Bool := ({ o with base := (o.base.train vs).1 }, (o.base.train vs).2)

/-- `Save`, likewise: only the quantizer inside is written (scalar_quantization.go:191-195, 347). -/
def OBQ.save (o : OBQ) : BQFile := o.base.save

/-- `Load`, likewise (scalar_quantization.go:197-201, 347). -/
def OBQ.load (o : OBQ) (f : BQFile) : OBQ := { o with base := o.base.load f }

end Verif.Quant
