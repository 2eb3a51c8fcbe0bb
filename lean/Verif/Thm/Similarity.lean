import Verif.Model.Similarity
import Mathlib.Algebra.Order.BigOperators.Ring.Finset
import Mathlib.Tactic.Linarith
import Mathlib.Tactic.Ring
import Mathlib.Tactic.FieldSimp

/-!
C90: the dense similarity functions. C91: sparse similarity. C92: fitting a sparse encoder. C93: the index distances
agree with the similarities.
-/
namespace Verif.Similarity

theorem dot_comm : ∀ a b : List ℝ, dot a b = dot b a
  | [], [] => rfl
  | [], _ :: _ => rfl
  | _ :: _, [] => rfl
  | x :: a, y :: b => by simp only [dot, dot_comm a b]; ring

theorem dot_self_nonneg : ∀ a : List ℝ, 0 ≤ dot a a
  | [] => le_rfl
  | x :: a => by simp only [dot]; have := dot_self_nonneg a; nlinarith [mul_self_nonneg x]

theorem dot_self_eq_zero : ∀ a : List ℝ, dot a a = 0 ↔ ∀ x ∈ a, x = 0
  | [] => by simp [dot]
  | x :: a => by
    have h1 := dot_self_nonneg a
    have h2 := mul_self_nonneg x
    simp only [dot, List.mem_cons, forall_eq_or_imp, ← dot_self_eq_zero a]
    constructor
    · intro h
      have hx : x * x = 0 := by linarith
      exact ⟨mul_self_eq_zero.1 hx, by linarith⟩
    · rintro ⟨rfl, h⟩; rw [h]; ring

/-- The Cauchy-Schwarz inequality for lists. -/
theorem dot_sq_le : ∀ a b : List ℝ, dot a b ^ 2 ≤ dot a a * dot b b
  | [], b => by simp [dot]
  | _ :: _, [] => by simp [dot]
  | x :: a, y :: b => by
    have h := dot_sq_le a b
    have hA := dot_self_nonneg a
    have hB := dot_self_nonneg b
    simp only [dot]
    generalize dot a b = D at *
    generalize dot a a = A at *
    generalize dot b b = B at *
    have key : 2 * (x * y) * D ≤ x * x * B + y * y * A := by
      have hn : 0 ≤ x * x * B + y * y * A :=
        add_nonneg (mul_nonneg (mul_self_nonneg x) hB) (mul_nonneg (mul_self_nonneg y) hA)
      refine le_trans (le_abs_self _) (abs_le_of_sq_le_sq ?_ hn)
      nlinarith [mul_nonneg (mul_self_nonneg (x * y)) (sub_nonneg.2 h), sq_nonneg (x * x * B - y * y * A)]
    nlinarith

theorem abs_dot_le (a b : List ℝ) : |dot a b| ≤ √(dot a a) * √(dot b b) := by
  rw [← Real.sqrt_mul (dot_self_nonneg a)]
  exact Real.abs_le_sqrt (dot_sq_le a b)

theorem sqDist_comm : ∀ a b : List ℝ, sqDist a b = sqDist b a
  | [], [] => rfl
  | [], _ :: _ => rfl
  | _ :: _, [] => rfl
  | x :: a, y :: b => by simp only [sqDist, sqDist_comm a b]; ring

theorem sqDist_nonneg : ∀ a b : List ℝ, 0 ≤ sqDist a b
  | [], _ => by simp [sqDist]
  | _ :: _, [] => by simp [sqDist]
  | x :: a, y :: b => by
    simp only [sqDist]; have := sqDist_nonneg a b; nlinarith [mul_self_nonneg (x - y)]

theorem sqDist_eq_zero : ∀ a b : List ℝ, a.length = b.length → (sqDist a b = 0 ↔ a = b)
  | [], [], _ => by simp [sqDist]
  | x :: a, y :: b, h => by
    have h1 := sqDist_nonneg a b
    have h2 := mul_self_nonneg (x - y)
    have ih := sqDist_eq_zero a b (by simpa using h)
    simp only [sqDist, List.cons.injEq, ← ih]
    constructor
    · intro hs
      have hx : (x - y) * (x - y) = 0 := by linarith
      exact ⟨sub_eq_zero.1 (mul_self_eq_zero.1 hx), by linarith⟩
    · rintro ⟨rfl, h'⟩; rw [h']; ring

/-- Differences of two vectors. -/
noncomputable def diff : List ℝ → List ℝ → List ℝ
  | x :: a, y :: b => (x - y) :: diff a b
  | _, _ => []

theorem sqDist_eq_dot : ∀ a b : List ℝ, sqDist a b = dot (diff a b) (diff a b)
  | [], _ => by simp [sqDist, diff, dot]
  | _ :: _, [] => by simp [sqDist, diff, dot]
  | x :: a, y :: b => by simp only [sqDist, diff, dot, sqDist_eq_dot a b]

theorem sqDist_split : ∀ a b c : List ℝ, a.length = b.length → b.length = c.length →
    sqDist a c = sqDist a b + 2 * dot (diff a b) (diff b c) + sqDist b c
  | [], [], [], _, _ => by simp [sqDist, diff, dot]
  | x :: a, y :: b, z :: c, h1, h2 => by
    simp only [sqDist, diff, dot, sqDist_split a b c (by simpa using h1) (by simpa using h2)]
    ring

theorem sqDist_expand : ∀ a b : List ℝ, a.length = b.length → sqDist a b = dot a a - 2 * dot a b + dot b b
  | [], [], _ => by simp [sqDist, dot]
  | x :: a, y :: b, h => by
    simp only [sqDist, dot, sqDist_expand a b (by simpa using h)]
    ring

theorem dist_triangle (a b c : List ℝ) (h1 : a.length = b.length) (h2 : b.length = c.length) :
    √(sqDist a c) ≤ √(sqDist a b) + √(sqDist b c) := by
  have hn : 0 ≤ √(sqDist a b) + √(sqDist b c) := add_nonneg (Real.sqrt_nonneg _) (Real.sqrt_nonneg _)
  rw [Real.sqrt_le_left hn, sqDist_split a b c h1 h2]
  have h := le_trans (le_abs_self _) (abs_dot_le (diff a b) (diff b c))
  rw [← sqDist_eq_dot, ← sqDist_eq_dot] at h
  nlinarith [Real.sq_sqrt (sqDist_nonneg a b), Real.sq_sqrt (sqDist_nonneg b c)]

theorem dot_scale (k : ℝ) : ∀ a b : List ℝ, dot (a.map (k * ·)) b = k * dot a b
  | [], b => by simp [dot]
  | _ :: _, [] => by simp [dot]
  | x :: a, y :: b => by
    have := dot_scale k a b
    simp only [List.map_cons, dot, this]; ring

/-! ### C90 -/

/-- C90: cosine similarity is symmetric, lies in [-1, 1], is 1 for every vector with itself unless it is zero, and does
not change when a vector is scaled by a positive factor. -/
theorem C90_cosine (a b : List ℝ) :
    cosine a b = cosine b a ∧ -1 ≤ cosine a b ∧ cosine a b ≤ 1 ∧
    ((∃ x ∈ a, x ≠ 0) → cosine a a = 1) ∧
    (∀ k : ℝ, 0 < k → cosine (a.map (k * ·)) b = cosine a b) := by
  have hb : |cosine a b| ≤ 1 := by
    unfold cosine
    split
    · simp
    split
    · simp
    rename_i h
    simp only [not_or] at h
    have ha := lt_of_le_of_ne (dot_self_nonneg a) (Ne.symm h.1)
    have hb := lt_of_le_of_ne (dot_self_nonneg b) (Ne.symm h.2)
    have hp : 0 < √(dot a a) * √(dot b b) := mul_pos (Real.sqrt_pos.2 ha) (Real.sqrt_pos.2 hb)
    rw [abs_div, abs_of_pos hp, div_le_one hp]
    exact abs_dot_le a b
  refine ⟨?_, (abs_le.1 hb).1, (abs_le.1 hb).2, ?_, ?_⟩
  · unfold cosine
    rw [dot_comm b a, mul_comm (√(dot b b))]
    simp only [ne_comm (a := b.length), or_comm (a := dot b b = 0)]
  · rintro ⟨x, hx, hne⟩
    have h0 : dot a a ≠ 0 := fun h => hne ((dot_self_eq_zero a).1 h x hx)
    unfold cosine
    rw [if_neg (by simp), if_neg (by simpa using h0), Real.mul_self_sqrt (dot_self_nonneg a), div_self h0]
  · intro k hk
    unfold cosine
    have hs : dot (a.map (k * ·)) (a.map (k * ·)) = k * (k * dot a a) := by
      rw [dot_scale, dot_comm, dot_scale]
    rw [List.length_map, hs, dot_scale]
    split
    · rfl
    · have hz : k * (k * dot a a) = 0 ↔ dot a a = 0 := by
        constructor
        · intro h
          rcases mul_eq_zero.1 h with h | h
          · linarith
          · rcases mul_eq_zero.1 h with h | h
            · linarith
            · exact h
        · intro h; rw [h]; ring
      by_cases hc : dot a a = 0 ∨ dot b b = 0
      · rw [if_pos hc, if_pos (by rw [hz]; exact hc)]
      · rw [if_neg hc, if_neg (by rw [hz]; exact hc)]
        have : √(k * (k * dot a a)) = k * √(dot a a) := by
          rw [show k * (k * dot a a) = (k ^ 2) * dot a a by ring, Real.sqrt_mul (by positivity), Real.sqrt_sq hk.le]
        rw [this, mul_assoc, mul_div_mul_left _ _ (ne_of_gt hk)]

/-- C90: the Euclidean similarity is symmetric, at most 0, is 0 exactly for equal vectors, is below every number for
vectors of different length, and its negation obeys the triangle inequality. -/
theorem C90_euclidean (a b c : List ℝ) :
    euclidean a b = euclidean b a ∧ euclidean a b ≤ 0 ∧ (euclidean a b = 0 ↔ a = b) ∧
    (a.length ≠ b.length → ∀ r : ℝ, euclidean a b < r) ∧
    (a.length = b.length → b.length = c.length → euclidean a b + euclidean b c ≤ euclidean a c) := by
  refine ⟨?_, ?_, ?_, ?_, ?_⟩
  · unfold euclidean; rw [sqDist_comm]; simp only [ne_comm (a := b.length)]
  · unfold euclidean
    split
    · exact bot_le
    · rw [← EReal.coe_zero, EReal.coe_le_coe_iff]
      exact neg_nonpos.2 (Real.sqrt_nonneg _)
  · unfold euclidean
    split
    · rename_i h
      constructor
      · intro h'; exact absurd h' (by simp)
      · rintro rfl; exact absurd rfl h
    · rename_i h
      rw [← EReal.coe_zero, EReal.coe_eq_coe_iff, neg_eq_zero, Real.sqrt_eq_zero (sqDist_nonneg a b)]
      exact sqDist_eq_zero a b (not_not.1 h)
  · intro h r
    unfold euclidean
    rw [if_pos h]
    exact EReal.bot_lt_coe r
  · intro h1 h2
    unfold euclidean
    rw [if_neg (by simpa using h1), if_neg (by simpa using h2), if_neg (by simpa using h1.trans h2), ← EReal.coe_add,
      EReal.coe_le_coe_iff]
    have := dist_triangle a b c h1 h2
    linarith

/-- C90: dot product is symmetric and at most the product of the lengths. -/
theorem C90_dot (a b : List ℝ) :
    dotProduct a b = dotProduct b a ∧ |dotProduct a b| ≤ √(dot a a) * √(dot b b) := by
  refine ⟨?_, ?_⟩
  · unfold dotProduct; rw [dot_comm]; simp only [ne_comm (a := b.length)]
  · unfold dotProduct
    split
    · rw [abs_zero]; exact mul_nonneg (Real.sqrt_nonneg _) (Real.sqrt_nonneg _)
    · exact abs_dot_le a b

/-- C90: on unit vectors of one dimension the three similarities order any two candidates in the same way. -/
theorem C90_same_order (q a b : List ℝ) (ha : q.length = a.length) (hb : q.length = b.length)
    (nq : dot q q = 1) (na : dot a a = 1) (nb : dot b b = 1) :
    (cosine q a ≤ cosine q b ↔ dotProduct q a ≤ dotProduct q b) ∧
    (euclidean q a ≤ euclidean q b ↔ dotProduct q a ≤ dotProduct q b) := by
  have c1 : cosine q a = dot q a := by
    unfold cosine
    rw [if_neg (by simpa using ha), nq, na]; simp
  have c2 : cosine q b = dot q b := by
    unfold cosine
    rw [if_neg (by simpa using hb), nq, nb]; simp
  have d1 : dotProduct q a = dot q a := by unfold dotProduct; rw [if_neg (by simpa using ha)]
  have d2 : dotProduct q b = dot q b := by unfold dotProduct; rw [if_neg (by simpa using hb)]
  refine ⟨by rw [c1, c2, d1, d2], ?_⟩
  unfold euclidean
  rw [if_neg (by simpa using ha), if_neg (by simpa using hb), EReal.coe_le_coe_iff, neg_le_neg_iff,
    Real.sqrt_le_sqrt_iff (sqDist_nonneg q a), sqDist_expand q a ha, sqDist_expand q b hb, nq, na, nb, d1, d2]
  constructor <;> intro h <;> linarith

/-- A unit vector that is not trivial. -/
example : dot [3/5, 4/5] [3/5, 4/5] = 1 ∧ cosine [3/5, 4/5] [1, 0] = 3/5 := by
  have h1 : dot [3/5, 4/5] [3/5, 4/5] = 1 := by norm_num [dot]
  have h2 : dot [1, 0] [1, 0] = 1 := by norm_num [dot]
  refine ⟨h1, ?_⟩
  unfold cosine
  rw [h1, h2]
  norm_num [dot]

/-! ### C93 -/

/-- C93: for vectors of the same dimension each index distance is the matching similarity turned round (1 minus the
cosine, minus the dot product, minus the negated distance), so the nearest record by distance is the most similar one. -/
theorem C93_distances (a b : List ℝ) (h : a.length = b.length) :
    cosineDistance a b = some (1 - cosine a b) ∧ dotDistance a b = some (-dotProduct a b) ∧
    ∃ d : ℝ, euclideanDistance a b = some d ∧ euclidean a b = ((-d : ℝ) : EReal) := by
  have hl : ¬ b.length < a.length := by omega
  refine ⟨?_, ?_, ?_⟩
  · unfold cosineDistance cosine
    rw [if_neg hl, h, List.take_length]
    simp only [ne_eq, not_true_eq_false, if_false]
    split
    · simp
    · rfl
  · unfold dotDistance dotProduct
    rw [if_neg hl, if_neg (by simpa using h)]
  · exact ⟨√(sqDist a b), by unfold euclideanDistance; rw [if_neg hl], by
      unfold euclidean; rw [if_neg (by simpa using h)]⟩

/-- C93: cosine distance lies between 0 and 2, and is 0 from a non-zero vector to itself. -/
theorem C93_cosine_range (a b : List ℝ) (h : a.length = b.length) :
    (∃ d, cosineDistance a b = some d ∧ 0 ≤ d ∧ d ≤ 2) ∧ ((∃ x ∈ a, x ≠ 0) → cosineDistance a a = some 0) := by
  obtain ⟨-, h1, h2, h3, -⟩ := C90_cosine a b
  refine ⟨⟨_, (C93_distances a b h).1, by linarith, by linarith⟩, fun hx => ?_⟩
  rw [(C93_distances a a rfl).1, h3 hx]; simp

/-! ### C91 -/

section Sparse
variable {T : Type*} [DecidableEq T]

theorem sum_union_left (a : Sparse T) (b : Finset T) (f : T → ℝ) :
    ∑ t ∈ a.keys, a.val t * f t = ∑ t ∈ a.keys ∪ b, a.val t * f t := by
  apply Finset.sum_subset Finset.subset_union_left
  intro t _ ht
  rw [a.off t ht, zero_mul]

/-- C91: sparse similarity is symmetric, lies in [-1, 1], is 1 for a vector that is not zero with itself, and 0 for
vectors without a common term. -/
theorem C91_sparse (a b : Sparse T) :
    sparseSim a b = sparseSim b a ∧ -1 ≤ sparseSim a b ∧ sparseSim a b ≤ 1 ∧
    ((∃ t, a.val t ≠ 0) → sparseSim a a = 1) ∧ (Disjoint a.keys b.keys → sparseSim a b = 0) := by
  have hsym : ∑ t ∈ a.keys, a.val t * b.val t = ∑ t ∈ b.keys, b.val t * a.val t := by
    rw [sum_union_left a b.keys, sum_union_left b a.keys, Finset.union_comm]
    exact Finset.sum_congr rfl (fun t _ => mul_comm _ _)
  have hna : ∀ x : Sparse T, 0 ≤ ∑ t ∈ x.keys, x.val t * x.val t :=
    fun x => Finset.sum_nonneg (fun t _ => mul_self_nonneg _)
  have hb : |sparseSim a b| ≤ 1 := by
    unfold sparseSim
    split
    · simp
    simp only
    split
    · simp
    rename_i h
    simp only [not_or] at h
    have ha := lt_of_le_of_ne (hna a) (Ne.symm h.1)
    have hb := lt_of_le_of_ne (hna b) (Ne.symm h.2)
    have hp := mul_pos (Real.sqrt_pos.2 ha) (Real.sqrt_pos.2 hb)
    rw [abs_div, abs_of_pos hp, div_le_one hp, ← Real.sqrt_mul (hna a)]
    apply Real.abs_le_sqrt
    rw [sum_union_left a b.keys, sum_union_left a b.keys, sum_union_left b a.keys, Finset.union_comm b.keys]
    simp only [← sq]
    exact Finset.sum_mul_sq_le_sq_mul_sq _ _ _
  refine ⟨?_, (abs_le.1 hb).1, (abs_le.1 hb).2, ?_, ?_⟩
  · unfold sparseSim
    simp only [hsym, or_comm (a := b.keys.card = 0), or_comm (a := (∑ t ∈ b.keys, b.val t * b.val t) = 0),
      mul_comm (√(∑ t ∈ b.keys, b.val t * b.val t))]
  · rintro ⟨t, ht⟩
    have hk : t ∈ a.keys := by
      by_contra h; exact ht (a.off t h)
    have hpos : 0 < ∑ t ∈ a.keys, a.val t * a.val t :=
      Finset.sum_pos' (fun t _ => mul_self_nonneg _) ⟨t, hk, mul_self_pos.2 ht⟩
    unfold sparseSim
    rw [if_neg (by
      rw [or_self, Finset.card_eq_zero]
      rintro h; rw [h] at hk; simp at hk)]
    simp only [or_self]
    rw [if_neg (ne_of_gt hpos), Real.mul_self_sqrt hpos.le, div_self (ne_of_gt hpos)]
  · intro hd
    have : ∑ t ∈ a.keys, a.val t * b.val t = 0 := by
      apply Finset.sum_eq_zero
      intro t ht
      rw [b.off t (Finset.disjoint_left.1 hd ht), mul_zero]
    unfold sparseSim
    simp only [this, zero_div, ite_self]

/-- With weights that are not negative the similarity is not negative, and it is positive exactly when some term has a
positive weight in both. -/
theorem C91_nonneg (a b : Sparse T) (ha : ∀ t, 0 ≤ a.val t) (hb : ∀ t, 0 ≤ b.val t) :
    0 ≤ sparseSim a b ∧ (0 < sparseSim a b ↔ ∃ t, 0 < a.val t ∧ 0 < b.val t) := by
  have hn : 0 ≤ ∑ t ∈ a.keys, a.val t * b.val t :=
    Finset.sum_nonneg (fun t _ => mul_nonneg (ha t) (hb t))
  have h0 : 0 ≤ sparseSim a b := by
    unfold sparseSim
    split
    · exact le_rfl
    simp only
    split
    · exact le_rfl
    · exact div_nonneg hn (mul_nonneg (Real.sqrt_nonneg _) (Real.sqrt_nonneg _))
  have mem : ∀ (x : Sparse T) t, 0 < x.val t → t ∈ x.keys := by
    intro x t h
    by_contra hk
    rw [x.off t hk] at h; exact lt_irrefl _ h
  refine ⟨h0, ?_, ?_⟩
  · intro h
    by_contra hne
    have hz : ∑ t ∈ a.keys, a.val t * b.val t = 0 := by
      apply Finset.sum_eq_zero
      intro t _
      by_contra hp
      have h1 : a.val t ≠ 0 := fun h => hp (by rw [h, zero_mul])
      have h2 : b.val t ≠ 0 := fun h => hp (by rw [h, mul_zero])
      exact hne ⟨t, lt_of_le_of_ne (ha t) (Ne.symm h1), lt_of_le_of_ne (hb t) (Ne.symm h2)⟩
    unfold sparseSim at h
    simp only [hz, zero_div, ite_self] at h
    exact lt_irrefl _ h
  · rintro ⟨t, h1, h2⟩
    have k1 := mem a t h1
    have k2 := mem b t h2
    have p1 : 0 < ∑ t ∈ a.keys, a.val t * a.val t :=
      Finset.sum_pos' (fun t _ => mul_self_nonneg _) ⟨t, k1, mul_pos h1 h1⟩
    have p2 : 0 < ∑ t ∈ b.keys, b.val t * b.val t :=
      Finset.sum_pos' (fun t _ => mul_self_nonneg _) ⟨t, k2, mul_pos h2 h2⟩
    have p3 : 0 < ∑ t ∈ a.keys, a.val t * b.val t :=
      Finset.sum_pos' (fun t _ => mul_nonneg (ha t) (hb t)) ⟨t, k1, mul_pos h1 h2⟩
    unfold sparseSim
    rw [if_neg (by
      rw [Finset.card_eq_zero, Finset.card_eq_zero]
      rintro (h | h)
      · rw [h] at k1; simp at k1
      · rw [h] at k2; simp at k2)]
    simp only
    rw [if_neg (by
      rintro (h | h)
      · exact absurd h (ne_of_gt p1)
      · exact absurd h (ne_of_gt p2))]
    exact div_pos p3 (mul_pos (Real.sqrt_pos.2 p1) (Real.sqrt_pos.2 p2))

/-- C91: for a weight between 0 and 1 the hybrid similarity is in [-1, 1] too. -/
theorem C91_hybrid (alpha : ℝ) (h0 : 0 ≤ alpha) (h1 : alpha ≤ 1) (qd cd : List ℝ) (qs cs : Sparse T) :
    -1 ≤ hybridSim alpha qd cd qs cs ∧ hybridSim alpha qd cd qs cs ≤ 1 := by
  obtain ⟨-, s1, s2, -, -⟩ := C91_sparse qs cs
  have hd : -1 ≤ (if qd ≠ [] ∧ cd ≠ [] then cosine qd cd else 0) ∧
      (if qd ≠ [] ∧ cd ≠ [] then cosine qd cd else 0) ≤ 1 := by
    split
    · exact ⟨(C90_cosine qd cd).2.1, (C90_cosine qd cd).2.2.1⟩
    · constructor <;> norm_num
  unfold hybridSim
  simp only
  generalize (if qd ≠ [] ∧ cd ≠ [] then cosine qd cd else 0) = d at hd
  generalize sparseSim qs cs = s at s1 s2
  obtain ⟨d1, d2⟩ := hd
  constructor <;> nlinarith

/-! ### C92 -/

/-- All IDFs known to the encoder are positive. -/
def IdfPos (e : BM25 T) : Prop := ∀ t i, e.idf t = some i → 0 < i

omit [DecidableEq T] in
theorem idfPos_new (k1 b : ℝ) : IdfPos (BM25.new (T := T) k1 b) := by intro t i h; simp [BM25.new] at h

theorem idfPos_fit (e : BM25 T) (h : IdfPos e) (docs : List (List T)) : IdfPos (e.fit docs) := by
  intro t i hi
  simp only [BM25.fit] at hi
  split at hi
  · exact h t i hi
  · simp only [Option.some.injEq] at hi
    subst hi
    apply Real.log_pos
    have h1 : docFreq docs t ≤ docs.length := List.countP_le_length
    have h1' : (docFreq docs t : ℝ) ≤ docs.length := by exact_mod_cast h1
    have h2 : (0 : ℝ) ≤ docFreq docs t := Nat.cast_nonneg _
    have : 0 < ((docs.length : ℝ) - docFreq docs t + 1/2) / ((docFreq docs t : ℝ) + 1/2) :=
      div_pos (by linarith) (by linarith)
    linarith

/-- An encoder after a number of calls of `Fit`. -/
noncomputable def fitAll (e : BM25 T) (corpora : List (List (List T))) : BM25 T := corpora.foldl BM25.fit e

theorem idfPos_fitAll (cs : List (List (List T))) : ∀ e : BM25 T, IdfPos e → IdfPos (fitAll e cs) := by
  induction cs with
  | nil => intro e h; exact h
  | cons c cs ih => intro e h; exact ih _ (idfPos_fit e h c)

theorem params_fitAll (cs : List (List (List T))) : ∀ e : BM25 T, (fitAll e cs).k1 = e.k1 ∧ (fitAll e cs).b = e.b := by
  induction cs with
  | nil => intro e; exact ⟨rfl, rfl⟩
  | cons c cs ih => intro e; exact ih (e.fit c)

theorem weight_pos (e : BM25 T) (h : IdfPos e) (hk : 0 < e.k1) (hb0 : 0 ≤ e.b) (hb1 : e.b ≤ 1) {avg : ℝ}
    (ha : e.avg = some avg) (hpos : 0 < avg) (terms : List T) (t : T) (ht : t ∈ terms) :
    ∃ w, e.weight terms t = some w ∧ 0 < w := by
  unfold BM25.weight
  simp only [ha, if_neg (ne_of_gt hpos)]
  refine ⟨_, rfl, ?_⟩
  have hi : 0 < (e.idf t).getD 1 := by
    cases hx : e.idf t with
    | none => simp
    | some i => exact h t i hx
  have htf : (0 : ℝ) < terms.count t := by
    exact_mod_cast List.count_pos_iff.2 ht
  have hl : (0 : ℝ) ≤ (terms.length : ℝ) / avg := div_nonneg (Nat.cast_nonneg _) hpos.le
  have hd : 0 < (terms.count t : ℝ) + e.k1 * (1 - e.b + e.b * ((terms.length : ℝ) / avg)) := by
    have : 0 ≤ e.k1 * (1 - e.b + e.b * ((terms.length : ℝ) / avg)) :=
      mul_nonneg hk.le (by nlinarith [mul_nonneg hb0 hl])
    linarith
  exact mul_pos hi (div_pos (mul_pos htf (by linarith)) hd)

/-- C92, proved part (matching): for an encoder whose last corpus had at least one term, whatever was fitted before, the
similarity of two texts is between 0 and 1 and positive exactly when they share a term. (Parameters as usual: k1 > 0,
b in [0, 1].) An encoder that was never fitted, or last on texts without terms, gives 0 always:
`C92_unfitted_violated`. -/
theorem C92_match_partial (k1 b : ℝ) (hk : 0 < k1) (hb0 : 0 ≤ b) (hb1 : b ≤ 1) (before : List (List (List T)))
    (docs : List (List T)) (hd : ∃ d ∈ docs, d ≠ []) (x y : List T) :
    let e := fitAll (BM25.new k1 b) (before ++ [docs])
    0 ≤ sparseSim (e.encode x) (e.encode y) ∧ sparseSim (e.encode x) (e.encode y) ≤ 1 ∧
    (0 < sparseSim (e.encode x) (e.encode y) ↔ ∃ t, t ∈ x ∧ t ∈ y) := by
  intro e
  have he : IdfPos e := idfPos_fitAll _ _ (idfPos_new k1 b)
  obtain ⟨p1, p2⟩ := params_fitAll (before ++ [docs]) (BM25.new (T := T) k1 b)
  have ha : ∃ avg, e.avg = some avg ∧ 0 < avg := by
    obtain ⟨d, hm, hne⟩ := hd
    have hdn : docs ≠ [] := List.ne_nil_of_mem hm
    refine ⟨((docs.map List.length).sum : ℝ) / docs.length, ?_, ?_⟩
    · show (fitAll (BM25.new k1 b) (before ++ [docs])).avg = _
      unfold fitAll
      rw [List.foldl_append]
      simp [BM25.fit, hdn]
    · apply div_pos
      · have h1 : d.length ≤ (docs.map List.length).sum := List.single_le_sum (by simp) _ (List.mem_map_of_mem hm)
        have h2 : 0 < d.length := List.length_pos_iff.2 hne
        exact_mod_cast lt_of_lt_of_le h2 h1
      · exact_mod_cast List.length_pos_iff.2 hdn
  obtain ⟨avg, hav, hpos⟩ := ha
  have hw : ∀ z t, t ∈ z → 0 < (e.encode z).val t := by
    intro z t ht
    obtain ⟨w, h1, h2⟩ := weight_pos e he (by rw [p1]; exact hk) (by rw [p2]; exact hb0) (by rw [p2]; exact hb1)
      hav hpos z t ht
    simp only [BM25.encode, ht, if_true, h1, Option.getD_some, h2]
  have hz : ∀ z t, t ∉ z → (e.encode z).val t = 0 := by
    intro z t ht
    simp only [BM25.encode, ht, if_false]
  have hnn : ∀ z t, 0 ≤ (e.encode z).val t := by
    intro z t
    by_cases ht : t ∈ z
    · exact (hw z t ht).le
    · rw [hz z t ht]
  obtain ⟨q1, q2⟩ := C91_nonneg (e.encode x) (e.encode y) (hnn x) (hnn y)
  refine ⟨q1, (C91_sparse _ _).2.2.1, ?_⟩
  rw [q2]
  have hiff : ∀ z t, 0 < (e.encode z).val t ↔ t ∈ z := by
    intro z t
    constructor
    · intro h
      by_contra hn
      rw [hz z t hn] at h; exact lt_irrefl _ h
    · exact hw z t
  simp only [hiff]

/-- C92 is violated by an encoder that was not fitted: every weight is 0, so a text does not even match itself. For all
texts and all positive parameters. -/
theorem C92_unfitted_violated (k1 b : ℝ) (hk : 0 < k1) (hb : 0 < b) (x y : List T) :
    sparseSim ((BM25.new k1 b).encode x) ((BM25.new (T := T) k1 b).encode y) = 0 := by
  have : ∀ t, ((BM25.new k1 b).encode x).val t = 0 := by
    intro t
    simp only [BM25.encode, BM25.weight, BM25.new, if_true, hk, hb, and_self, Option.getD_some, ite_self]
  unfold sparseSim
  simp only [this, zero_mul, Finset.sum_const_zero, zero_div, ite_self]

/-- C92, proved part (fitting): for the terms of the last corpus the IDF depends on that corpus only, whatever was fitted
before; so does the average length. -/
theorem C92_fit_partial (e e' : BM25 T) (docs : List (List T)) (t : T) (ht : ∃ d ∈ docs, t ∈ d) :
    (e.fit docs).idf t = (e'.fit docs).idf t ∧ (e.fit docs).avg = (e'.fit docs).avg := by
  have : docFreq docs t ≠ 0 := by
    obtain ⟨d, hd, htd⟩ := ht
    exact Nat.pos_iff_ne_zero.1 (List.countP_pos_iff.2 ⟨d, hd, by simpa using htd⟩)
  simp [BM25.fit, this]

end Sparse

/-- C92 is violated by fitting again: an encoder fitted on one corpus and then on another weighs a term of the first
corpus differently from an encoder fitted on the second one only. -/
theorem C92_refit_violated :
    ((BM25.new (T := Nat) (6/5) (3/4)).fit [[1]] |>.fit [[2]]).weight [1] 1 ≠
      ((BM25.new (T := Nat) (6/5) (3/4)).fit [[2]]).weight [1] 1 := by
  have h1 : docFreq [[2]] 1 = 0 := by decide
  have h2 : docFreq [[1]] 1 = 1 := by decide
  simp only [BM25.weight, BM25.fit, BM25.new, h1, h2]
  norm_num
  have : Real.log (4/3) < 1 := by
    have := Real.log_le_sub_one_of_pos (x := 4/3) (by norm_num)
    linarith
  intro h
  linarith

/-- The usual parameters and two documents meet the hypotheses of `C92_match_partial`. -/
example : (0 : ℝ) < 6/5 ∧ (0 : ℝ) ≤ 3/4 ∧ (3/4 : ℝ) ≤ 1 ∧ ∃ d ∈ [[1, 2], [2, 3]], d ≠ ([] : List Nat) := by
  refine ⟨by norm_num, by norm_num, by norm_num, [1, 2], by simp, by simp⟩

section Tfidf
variable {T : Type*} [DecidableEq T]

/-- C92: TF-IDF weights fitted on one corpus are not negative, and are 0 exactly for terms that are in every document. -/
theorem C92_tfidf (sub : Bool) (docs : List (List T)) (terms : List T) (t : T) (w : ℝ)
    (h : tfidfWeight sub (tfidfFit (fun _ => none) docs) terms t = some w) :
    0 ≤ w ∧ (w = 0 ↔ ∀ d ∈ docs, t ∈ d) := by
  unfold tfidfWeight at h
  split at h
  · rename_i ht
    unfold tfidfFit at h
    by_cases hf : docFreq docs t = 0
    · rw [if_pos hf] at h; simp at h
    rw [if_neg hf] at h
    simp only [Option.map_some, Option.some.injEq] at h
    subst h
    have hle : docFreq docs t ≤ docs.length := List.countP_le_length
    have hfp : (0 : ℝ) < docFreq docs t := by exact_mod_cast Nat.pos_of_ne_zero hf
    have hle' : (docFreq docs t : ℝ) ≤ docs.length := by exact_mod_cast hle
    have h1 : 1 ≤ (docs.length : ℝ) / docFreq docs t := by rw [le_div_iff₀ hfp]; linarith
    have hc : (1 : ℝ) ≤ terms.count t := by exact_mod_cast List.count_pos_iff.2 ht
    have htf : 0 < (if sub = true then 1 + Real.log (terms.count t : ℝ) else (terms.count t : ℝ)) := by
      split
      · have := Real.log_nonneg hc; linarith
      · linarith
    refine ⟨mul_nonneg htf.le (Real.log_nonneg h1), ?_⟩
    rw [mul_eq_zero, or_iff_right (ne_of_gt htf)]
    have hz : Real.log ((docs.length : ℝ) / docFreq docs t) = 0 ↔ docFreq docs t = docs.length := by
      constructor
      · intro h
        by_contra hne
        have hlt : (docFreq docs t : ℝ) < docs.length := by exact_mod_cast lt_of_le_of_ne hle hne
        have : 1 < (docs.length : ℝ) / docFreq docs t := by rw [lt_div_iff₀ hfp]; linarith
        exact absurd h (ne_of_gt (Real.log_pos this))
      · intro h
        rw [← h, div_self (ne_of_gt hfp), Real.log_one]
    rw [hz]
    unfold docFreq
    rw [List.countP_eq_length]
    simp
  · simp at h

end Tfidf

end Verif.Similarity
