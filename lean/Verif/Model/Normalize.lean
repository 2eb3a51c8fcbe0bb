import Verif.Model.Similarity
import Verif.Model.Flat

/-!
The cosine index of /repo/pkg/index/flat.go: `NewFlatIndexCosine` (33-40) and `normalize` (225-241).

Simplification: numbers are real, so rounding and overflow are left out (as in `Model/Similarity`).
-/
namespace Verif.Normalize
open Verif.Similarity

/-- `normalize`, flat.go:225-241: a vector without length is returned as it is. -/
noncomputable def normalize (v : List ℝ) : List ℝ :=
  if dot v v = 0 then v else v.map (fun x => x / √(dot v v))

/-- `NewFlatIndexCosine`, flat.go:33-40: the flat index with `normalize` before storing and before searching; the distance as `Model/Flat` has it is a
parameter, its value for this index is `cosineDistance`. -/
noncomputable def cosineEnv (dist : List ℝ → List ℝ → ℚ) : Flat.Env (List ℝ) := ⟨List.length, dist, normalize⟩

end Verif.Normalize
