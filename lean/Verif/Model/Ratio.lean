import Verif.Model.QuantIndex
import Verif.Model.ProductQuant

/-!
The compression ratios that the quantizers of /repo/pkg/quantization report, and the memory the vectors of an index take.

Simplification: the quotient of two float32 numbers is a rational; a division by zero (infinity or not a number) is `none`.
-/
namespace Verif.Ratio
open Verif.Quant

/-- `ScalarQuantizer.CompressionRatio`, /repo/pkg/quantization/scalar_quantization.go:170-174. -/
def ofScalar (s : SQ) : Option ℚ := if s.dim * s.nbits = 0 then none else some (((s.dim * 32 : Nat) : ℚ) / ((s.dim * s.nbits : Nat) : ℚ))

/-- `BinaryQuantizer.CompressionRatio`, /repo/pkg/quantization/scalar_quantization.go:339-343. -/
def ofBinary (b : BQ) : Option ℚ := if b.dim = 0 then none else some (((b.dim * 32 : Nat) : ℚ) / ((b.dim : Nat) : ℚ))

/-- `ProductQuantizer.CompressionRatio`, /repo/pkg/quantization/product_quantization.go:222-226. -/
def ofProduct {F : Type} (p : PQuant.PQ F) : Option ℚ := if p.m = 0 then none else some (((p.d * 4 : Nat) : ℚ) / ((p.m : Nat) : ℚ))

/-- The bytes of the vector data of a node, /repo/pkg/index/hnsw.go:22-29: four for each coordinate that is kept, and the code. -/
def nodeBytes {I : Type} (n : QuantIndex.Node I) : Nat := 4 * (n.raw.getD []).length + (n.coded.getD []).length

/-- The bytes of the vector data of an index. -/
def indexBytes {I : Type} (ix : QuantIndex.Ix I) : Nat := (ix.nodes.map nodeBytes).sum

end Verif.Ratio
