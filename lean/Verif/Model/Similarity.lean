import Mathlib.Analysis.SpecialFunctions.Sqrt
import Mathlib.Analysis.SpecialFunctions.Log.Basic
import Mathlib.Data.EReal.Basic
import Mathlib.Algebra.BigOperators.Group.Finset.Basic

/-!
The similarity functions of /repo/pkg/core/similarity.go, the distance functions of /repo/pkg/index/hnsw.go and the
sparse encoders of /repo/pkg/semantic-router/sparse.go.

Simplification: numbers are real, so rounding, overflow and NaN components are left out.
-/
namespace Verif.Similarity

/-- The sum of products, the loops at /repo/pkg/core/similarity.go:44-48 and 65-67. -/
noncomputable def dot : List ℝ → List ℝ → ℝ
  | x :: a, y :: b => x * y + dot a b
  | _, _ => 0

/-- The sum of squared differences, /repo/pkg/core/similarity.go:79-83. -/
noncomputable def sqDist : List ℝ → List ℝ → ℝ
  | x :: a, y :: b => (x - y) * (x - y) + sqDist a b
  | _, _ => 0

/-- `cosineSimilarity`, /repo/pkg/core/similarity.go:37-56. -/
noncomputable def cosine (a b : List ℝ) : ℝ :=
  if a.length ≠ b.length then 0
  else if dot a a = 0 ∨ dot b b = 0 then 0
  else dot a b / (√(dot a a) * √(dot b b))

/-- `dotProduct`, /repo/pkg/core/similarity.go:59-70. -/
noncomputable def dotProduct (a b : List ℝ) : ℝ :=
  if a.length ≠ b.length then 0 else dot a b

/-- `euclideanDistance`, /repo/pkg/core/similarity.go:74-86; the result can be minus infinity. -/
noncomputable def euclidean (a b : List ℝ) : EReal :=
  if a.length ≠ b.length then ⊥ else ((-√(sqDist a b) : ℝ) : EReal)

/-- The index distances run over the first argument and panic (`none`) when the second one is shorter.
`EuclideanDistance`, /repo/pkg/index/hnsw.go:595-602; the same code is at lsh.go:37-44, ivf.go:380-387 and
/repo/pkg/quantization/product_quantization.go:371-378. -/
noncomputable def euclideanDistance (a b : List ℝ) : Option ℝ :=
  if b.length < a.length then none else some (√(sqDist a b))

/-- `CosineDistance`, /repo/pkg/index/hnsw.go:605-619. `normB` is summed over the indices of `a` only. -/
noncomputable def cosineDistance (a b : List ℝ) : Option ℝ :=
  if b.length < a.length then none
  else
    let b' := b.take a.length
    if dot a a = 0 ∨ dot b' b' = 0 then some 1 else some (1 - dot a b / (√(dot a a) * √(dot b' b')))

/-- `DotProductDistance`, /repo/pkg/index/hnsw.go:622-628. -/
noncomputable def dotDistance (a b : List ℝ) : Option ℝ :=
  if b.length < a.length then none else some (-dot a b)

/-! ### Sparse vectors -/

/-- A Go `map[string]float64`: its keys, and the value of every key; a missing key reads as 0. Iteration order does not
matter for sums of reals. -/
structure Sparse (T : Type*) where
  keys : Finset T
  val : T → ℝ
  off : ∀ t, t ∉ keys → val t = 0

/-- `SparseSimilarity`, sparse.go:32-56. -/
noncomputable def sparseSim {T : Type*} (a b : Sparse T) : ℝ :=
  if a.keys.card = 0 ∨ b.keys.card = 0 then 0
  else
    let d := ∑ t ∈ a.keys, a.val t * b.val t
    let na := ∑ t ∈ a.keys, a.val t * a.val t
    let nb := ∑ t ∈ b.keys, b.val t * b.val t
    if na = 0 ∨ nb = 0 then 0 else d / (√na * √nb)

/-- `HybridSimilarity`, sparse.go:448-466, with the cosine similarity as dense part. -/
noncomputable def hybridSim {T : Type*} (alpha : ℝ) (qd cd : List ℝ) (qs cs : Sparse T) : ℝ :=
  let d := if qd ≠ [] ∧ cd ≠ [] then cosine qd cd else 0
  alpha * d + (1 - alpha) * sparseSim qs cs

/-- `BM25Encoder`, sparse.go:87-109: the IDF map, the number of documents and the average length (`none`: NaN, from an
empty corpus). -/
structure BM25 (T : Type*) where
  idf : T → Option ℝ
  avg : Option ℝ
  k1 : ℝ
  b : ℝ

/-- `NewBM25EncoderWithParams`, sparse.go:122-130: no IDFs, average length 0. -/
noncomputable def BM25.new {T : Type*} (k1 b : ℝ) : BM25 T := ⟨fun _ => none, some 0, k1, b⟩

/-- Number of documents that contain a term, sparse.go:140-157. Documents are given as their lists of terms
(`tokenize`, sparse.go:58-83). -/
def docFreq {T : Type*} [DecidableEq T] (docs : List (List T)) (t : T) : Nat :=
  docs.countP (fun d => decide (t ∈ d))

/-- `Fit`, sparse.go:134-186. The IDF map is not cleared: terms of an earlier corpus stay in it. -/
noncomputable def BM25.fit {T : Type*} [DecidableEq T] (e : BM25 T) (docs : List (List T)) : BM25 T :=
  { e with
    idf := fun t =>
      if docFreq docs t = 0 then e.idf t
      else some (Real.log (((docs.length : ℝ) - docFreq docs t + 1/2) / ((docFreq docs t : ℝ) + 1/2) + 1))
    avg := if docs = [] then none else some (((docs.map List.length).sum : ℝ) / docs.length) }

/-- The weight of one term, sparse.go:210-222. With an average length of 0 the quotient is +Inf, so for positive `k1` and
`b` the weight is 0; with the other signs, and with a NaN average, the result is `none` (an infinite or NaN weight). -/
noncomputable def BM25.weight {T : Type*} [DecidableEq T] (e : BM25 T) (terms : List T) (t : T) : Option ℝ :=
  let idf := (e.idf t).getD 1
  let tf : ℝ := (terms.count t : ℝ)
  match e.avg with
  | none => none
  | some avg =>
    if avg = 0 then (if 0 < e.k1 ∧ 0 < e.b then some 0 else none)
    else some (idf * (tf * (e.k1 + 1) / (tf + e.k1 * (1 - e.b + e.b * ((terms.length : ℝ) / avg)))))

/-- `EncodeSparse`, sparse.go:189-225, for an encoder whose weights are all finite (others read as 0 here). -/
noncomputable def BM25.encode {T : Type*} [DecidableEq T] (e : BM25 T) (terms : List T) : Sparse T :=
  ⟨terms.toFinset, fun t => if t ∈ terms then (e.weight terms t).getD 0 else 0, by
    intro t ht
    rw [if_neg (by simpa using ht)]⟩

/-- `TFIDFEncoder.Fit`, sparse.go:289-334; again the map is not cleared. -/
noncomputable def tfidfFit {T : Type*} [DecidableEq T] (idf : T → Option ℝ) (docs : List (List T)) : T → Option ℝ :=
  fun t => if docFreq docs t = 0 then idf t else some (Real.log ((docs.length : ℝ) / docFreq docs t))

/-- `TFIDFEncoder.EncodeSparse`, sparse.go:337-369: the weight of a term, `none` if it is not in the vector. -/
noncomputable def tfidfWeight {T : Type*} [DecidableEq T] (sublinear : Bool) (idf : T → Option ℝ) (terms : List T)
    (t : T) : Option ℝ :=
  if t ∈ terms then
    (idf t).map (fun i => (if sublinear then 1 + Real.log (terms.count t : ℝ) else (terms.count t : ℝ)) * i)
  else none

end Verif.Similarity
