import Verif.Model.Quant
import Mathlib.Tactic.Ring
import Mathlib.Tactic.FieldSimp
import Mathlib.Tactic.Linarith
import Mathlib.Tactic.Positivity
import Mathlib.Data.List.Forall2
import Mathlib.Data.Nat.Bitwise

/-!
C38, C39, C113: scalar and binary quantization.
-/
namespace Verif.Quant
open Verif.Base Verif.Spec

/-! ### Bits of a byte string -/

/-- Bit `i` of a byte string, least significant bit of the first byte first. -/
def bit (bs : List Nat) (i : Nat) : Bool := (bs[i / 8]?.getD 0).testBit (i % 8)

def Bytes (bs : List Nat) : Prop := ∀ y ∈ bs, y < 256

theorem and_pow (y k : Nat) : (y &&& 2 ^ k ≠ 0) ↔ y.testBit k = true := by
  rw [Nat.and_two_pow]
  cases y.testBit k <;> simp

theorem set_len (bs : List Nat) (i : Nat) : (setBit bs i).length = bs.length := by simp [setBit]

theorem set_bytes {bs : List Nat} (h : Bytes bs) (i : Nat) : Bytes (setBit bs i) := by
  intro y hy
  unfold setBit at hy
  obtain ⟨j, hj, rfl⟩ := List.getElem_of_mem hy
  rw [List.getElem_modify]
  rw [List.length_modify] at hj
  have hb := h _ (List.getElem_mem hj)
  split
  · exact Nat.or_lt_two_pow (n := 8) hb (Nat.pow_lt_pow_right (by omega) (Nat.mod_lt _ (by omega)))
  · exact hb

theorem bit_set (bs : List Nat) (i j : Nat) (hi : i / 8 < bs.length) : bit (setBit bs i) j = (bit bs j || decide (i = j)) := by
  unfold bit setBit
  rw [List.getElem?_modify]
  by_cases hd : i / 8 = j / 8
  · rw [← hd, List.getElem?_eq_getElem hi]
    simp only [Option.map_eq_map, if_true, Option.map_some, Option.getD_some, Nat.testBit_or, Nat.testBit_two_pow]
    congr 1
    simp only [decide_eq_decide]
    omega
  · have : i ≠ j := by omega
    cases bs[j / 8]? <;> simp [this, hd]

theorem packOne_spec (q : Nat) (r : Nat) : ∀ (b off : Nat) (bs : List Nat), off + r ≤ 8 * bs.length → Bytes bs →
    (packOne q r b off bs).length = bs.length ∧ Bytes (packOne q r b off bs) ∧
      ∀ j, bit (packOne q r b off bs) j = (bit bs j || (decide (off ≤ j ∧ j < off + r) && q.testBit (b + (j - off)))) := by
  induction r with
  | zero =>
    intro b off bs _ hb
    refine ⟨rfl, hb, ?_⟩
    intro j
    simp only [packOne]
    have : ¬ (off ≤ j ∧ j < off + 0) := by omega
    simp [this]
  | succ r ih =>
    intro b off bs h hb
    rw [packOne]
    have hoff : off / 8 < bs.length := by omega
    by_cases hq : q &&& 2 ^ b ≠ 0
    · rw [if_pos hq]
      obtain ⟨h1, h2, h3⟩ := ih (b + 1) (off + 1) (setBit bs off) (by rw [set_len]; omega) (set_bytes hb off)
      refine ⟨by rw [h1, set_len], h2, ?_⟩
      intro j
      rw [h3, bit_set _ _ _ hoff]
      by_cases hj : off = j
      · subst hj
        have := (and_pow q b).1 hq
        simp [this]
      · have e1 : (off + 1 ≤ j ∧ j < off + 1 + r) ↔ (off ≤ j ∧ j < off + (r + 1)) := by omega
        simp only [hj, decide_false, Bool.or_false, e1]
        by_cases hr : off ≤ j ∧ j < off + (r + 1)
        · rw [show b + 1 + (j - (off + 1)) = b + (j - off) by omega]
        · simp [hr]
    · rw [if_neg hq]
      obtain ⟨h1, h2, h3⟩ := ih (b + 1) (off + 1) bs (by omega) hb
      refine ⟨h1, h2, ?_⟩
      intro j
      rw [h3]
      by_cases hj : off = j
      · subst hj
        have : q.testBit b = false := by
          rw [and_pow] at hq
          simpa using hq
        have e : ¬ (off + 1 ≤ off ∧ off < off + 1 + r) := by omega
        simp [this, e]
      · have e1 : (off + 1 ≤ j ∧ j < off + 1 + r) ↔ (off ≤ j ∧ j < off + (r + 1)) := by omega
        simp only [e1]
        by_cases hr : off ≤ j ∧ j < off + (r + 1)
        · rw [show b + 1 + (j - (off + 1)) = b + (j - off) by omega]
        · simp [hr]

theorem packAll_spec (n : Nat) (qs : List Nat) : ∀ (off : Nat) (bs : List Nat), off + qs.length * n ≤ 8 * bs.length → Bytes bs →
    (packAll n qs off bs).length = bs.length ∧ Bytes (packAll n qs off bs) ∧
      (∀ j, j < off ∨ off + qs.length * n ≤ j → bit (packAll n qs off bs) j = bit bs j) ∧
      ∀ d q, qs[d]? = some q → ∀ t, t < n → bit (packAll n qs off bs) (off + d * n + t) = (bit bs (off + d * n + t) || q.testBit t) := by
  induction qs with
  | nil => intro off bs _ hb; exact ⟨rfl, hb, fun _ _ => rfl, by simp⟩
  | cons q qs ih =>
    intro off bs h hb
    rw [List.length_cons, Nat.add_mul, Nat.one_mul] at h
    obtain ⟨a1, a2, a3⟩ := packOne_spec q n 0 off bs (by omega) hb
    obtain ⟨b1, b2, b3, b4⟩ := ih (off + n) (packOne q n 0 off bs) (by rw [a1]; omega) a2
    rw [packAll]
    refine ⟨b1.trans a1, b2, ?_, ?_⟩
    · intro j hj
      rw [List.length_cons, Nat.add_mul, Nat.one_mul] at hj
      rw [b3 j (by omega), a3 j]
      have : ¬ (off ≤ j ∧ j < off + n) := by omega
      simp [this]
    · intro d q' hd t ht
      cases d with
      | zero =>
        simp only [List.getElem?_cons_zero, Option.some.injEq] at hd
        subst hd
        rw [Nat.zero_mul, Nat.add_zero, b3 _ (by omega), a3]
        have : off ≤ off + t ∧ off + t < off + n := by omega
        simp [this]
      | succ d =>
        rw [List.getElem?_cons_succ] at hd
        have e : off + (d + 1) * n + t = off + n + d * n + t := by ring
        rw [e, b4 d q' hd t ht, a3]
        have : ¬ (off ≤ off + n + d * n + t ∧ off + n + d * n + t < off + n) := by omega
        simp [this]

theorem unpackOne_spec (bs : List Nat) (r : Nat) : ∀ (b off q : Nat), off + r ≤ 8 * bs.length →
    ∃ q', unpackOne bs r b off q = some q' ∧ ∀ t, q'.testBit t = (q.testBit t || (decide (b ≤ t ∧ t < b + r) && bit bs (off + (t - b)))) := by
  induction r with
  | zero =>
    intro b off q _
    refine ⟨q, rfl, ?_⟩
    intro t
    have : ¬ (b ≤ t ∧ t < b + 0) := by omega
    simp [this]
  | succ r ih =>
    intro b off q h
    have hoff : off / 8 < bs.length := by omega
    rw [unpackOne, List.getElem?_eq_getElem hoff]
    simp only
    obtain ⟨q', h1, h2⟩ := ih (b + 1) (off + 1) (if bs[off / 8] &&& 2 ^ (off % 8) ≠ 0 then q ||| 2 ^ b else q) (by omega)
    refine ⟨q', h1, ?_⟩
    intro t
    rw [h2 t]
    have hbit : bit bs off = bs[off / 8].testBit (off % 8) := by
      unfold bit
      rw [List.getElem?_eq_getElem hoff]; rfl
    have hq : (if bs[off / 8] &&& 2 ^ (off % 8) ≠ 0 then q ||| 2 ^ b else q).testBit t = (q.testBit t || (decide (b = t) && bit bs off)) := by
      by_cases hc : bs[off / 8] &&& 2 ^ (off % 8) ≠ 0
      · rw [if_pos hc, Nat.testBit_or, Nat.testBit_two_pow, hbit, (and_pow _ _).1 hc]
        simp
      · rw [if_neg hc]
        rw [and_pow] at hc
        rw [hbit]
        simp [hc]
    rw [hq, Bool.or_assoc]
    congr 1
    by_cases ht : b = t
    · subst ht
      have e : ¬ (b + 1 ≤ b ∧ b < b + 1 + r) := by omega
      have e2 : b ≤ b ∧ b < b + (r + 1) := by omega
      simp [e, e2]
    · have e1 : (b + 1 ≤ t ∧ t < b + 1 + r) ↔ (b ≤ t ∧ t < b + (r + 1)) := by omega
      simp only [ht, decide_false, Bool.false_and, Bool.false_or, e1]
      by_cases hr : b ≤ t ∧ t < b + (r + 1)
      · rw [show off + 1 + (t - (b + 1)) = off + (t - b) by omega]
      · simp [hr]

theorem unpackAll_spec (bs : List Nat) (n : Nat) (m : Nat) : ∀ off, off + m * n ≤ 8 * bs.length →
    ∃ qs, unpackAll bs n m off = some qs ∧ qs.length = m ∧ ∀ d q, qs[d]? = some q → ∀ t, q.testBit t = (decide (t < n) && bit bs (off + d * n + t)) := by
  induction m with
  | zero => intro off _; exact ⟨[], rfl, rfl, by simp⟩
  | succ m ih =>
    intro off h
    rw [Nat.add_mul, Nat.one_mul] at h
    obtain ⟨q, a1, a2⟩ := unpackOne_spec bs n 0 off 0 (by omega)
    obtain ⟨qs, b1, b2, b3⟩ := ih (off + n) (by omega)
    rw [unpackAll, a1]
    simp only
    rw [b1]
    refine ⟨q :: qs, rfl, by simp [b2], ?_⟩
    intro d q' hd t
    cases d with
    | zero =>
      simp only [List.getElem?_cons_zero, Option.some.injEq] at hd
      subst hd
      rw [a2]
      simp
    | succ d =>
      rw [List.getElem?_cons_succ] at hd
      rw [b3 d q' hd t]
      rw [show off + (d + 1) * n + t = off + n + d * n + t by ring]

theorem unpackOne_short (bs : List Nat) (r : Nat) : ∀ (b off q : Nat), 8 * bs.length < off + r → unpackOne bs r b off q = none ∨ r = 0 := by
  induction r with
  | zero => intro _ _ _ _; exact Or.inr rfl
  | succ r ih =>
    intro b off q h
    left
    rw [unpackOne]
    cases hg : bs[off / 8]? with
    | none => rfl
    | some y =>
      simp only
      have hlt : off / 8 < bs.length := by
        rw [List.getElem?_eq_some_iff] at hg
        exact hg.1
      rcases ih (b + 1) (off + 1) (if y &&& 2 ^ (off % 8) ≠ 0 then q ||| 2 ^ b else q) (by omega) with h1 | h1
      · exact h1
      · subst h1; omega

theorem unpackAll_short (bs : List Nat) (n m : Nat) : ∀ off, off ≤ 8 * bs.length → 8 * bs.length < off + m * n → unpackAll bs n m off = none := by
  induction m with
  | zero => intro off h1 h2; omega
  | succ m ih =>
    intro off h1 h2
    rw [Nat.add_mul, Nat.one_mul] at h2
    rw [unpackAll]
    by_cases h3 : off + n ≤ 8 * bs.length
    · obtain ⟨q, a1, -⟩ := unpackOne_spec bs n 0 off 0 h3
      rw [a1]
      simp only
      rw [ih (off + n) h3 (by omega)]
      rfl
    · rcases unpackOne_short bs n 0 off 0 (by omega) with h4 | h4
      · rw [h4]
      · omega

theorem bit_zero (m j : Nat) : bit (List.replicate m 0) j = false := by
  unfold bit
  rw [List.getElem?_replicate]
  split <;> simp

/-- C38: packing and unpacking codes of any width, for any number of codes; also when more bytes follow. -/
theorem C38_packing_lossless (n : Nat) (qs : List Nat) (hq : ∀ q ∈ qs, q < 2 ^ n) (junk : List Nat) :
    (pack n qs).length = (qs.length * n + 7) / 8 ∧ Bytes (pack n qs) ∧ unpackAll (pack n qs ++ junk) n qs.length 0 = some qs := by
  have hlen : 0 + qs.length * n ≤ 8 * (List.replicate ((qs.length * n + 7) / 8) 0).length := by
    rw [List.length_replicate]; omega
  obtain ⟨a1, a2, -, a4⟩ := packAll_spec n qs 0 _ hlen (by intro y hy; rw [(List.mem_replicate.1 hy).2]; omega)
  refine ⟨by rw [pack, a1, List.length_replicate], a2, ?_⟩
  have hp : (pack n qs).length = (qs.length * n + 7) / 8 := by rw [pack, a1, List.length_replicate]
  obtain ⟨qs', b1, b2, b3⟩ := unpackAll_spec (pack n qs ++ junk) n qs.length 0 (by rw [List.length_append, hp]; omega)
  rw [b1]
  congr 1
  apply List.ext_getElem? ; intro d
  cases hd : qs[d]? with
  | none =>
    rw [List.getElem?_eq_none_iff] at hd ⊢
    omega
  | some q =>
    have hdl : d < qs.length := (List.getElem?_eq_some_iff.1 hd).1
    rw [List.getElem?_eq_getElem (by omega)]
    congr 1
    apply Nat.eq_of_testBit_eq
    intro t
    rw [b3 d _ (List.getElem?_eq_getElem (by omega)) t]
    by_cases ht : t < n
    · have hin : 0 + d * n + t < 8 * (pack n qs).length := by
        rw [hp]
        have : (d + 1) * n ≤ qs.length * n := Nat.mul_le_mul_right n hdl
        rw [Nat.add_mul, Nat.one_mul] at this
        omega
      have happ : bit (pack n qs ++ junk) (0 + d * n + t) = bit (pack n qs) (0 + d * n + t) := by
        unfold bit
        rw [List.getElem?_append_left (by omega)]
      rw [happ, pack, a4 d q hd t ht, bit_zero]
      simp [ht]
    · have : q.testBit t = false := by
        apply Nat.testBit_lt_two_pow
        exact lt_of_lt_of_le (hq q (List.mem_of_getElem? hd)) (Nat.pow_le_pow_right (by omega) (by omega))
      simp [ht, this]

example : pack 3 [5, 2, 7, 0, 6] = [213, 97] ∧ unpackAll [213, 97] 3 5 0 = some [5, 2, 7, 0, 6] := by decide +kernel

/-! ### Scalar quantizer -/

/-- What a trained quantizer looks like. -/
structure SQ.Ready (s : SQ) : Prop where
  trained : s.trained = true
  bits : 1 ≤ s.nbits
  len : s.ranges.length = s.dim
  proper : ∀ r ∈ s.ranges, r.1 < r.2

def step (n : Nat) (r : ℚ × ℚ) : ℚ := (r.2 - r.1) / ((2 ^ n - 1 : Nat) : ℚ)

def Within (r : ℚ × ℚ) (x : ℚ) : Prop := r.1 ≤ x ∧ x ≤ r.2

/-- The component nearest to `x` inside the trained range. -/
def clamp (r : ℚ × ℚ) (x : ℚ) : ℚ := max r.1 (min r.2 x)

theorem top_pos (n : Nat) (hn : 1 ≤ n) : 1 ≤ 2 ^ n - 1 := by
  have : 2 ^ 1 ≤ 2 ^ n := Nat.pow_le_pow_right (by omega) hn
  omega

theorem normalized_range (r : ℚ × ℚ) (x : ℚ) : 0 ≤ normalized r x ∧ normalized r x ≤ 1 := by
  unfold normalized
  split_ifs with h1 h2 <;> constructor <;> linarith

theorem normalized_clamp (r : ℚ × ℚ) (hr : r.1 < r.2) (x : ℚ) : normalized r x * (r.2 - r.1) + r.1 = clamp r x := by
  have hd : 0 < r.2 - r.1 := by linarith
  unfold normalized clamp
  split_ifs with h1 h2
  · rw [div_neg_iff] at h1
    have : x < r.1 := by rcases h1 with ⟨_, h⟩ | ⟨h, _⟩ <;> linarith
    rw [min_eq_right (by linarith), max_eq_left this.le]; ring
  · rw [gt_iff_lt, one_lt_div hd] at h2
    have : r.2 < x := by linarith
    rw [min_eq_left this.le, max_eq_right hr.le]; ring
  · rw [div_mul_cancel₀ _ hd.ne']
    have h3 : r.1 ≤ x := by
      by_contra hc
      exact h1 (div_neg_of_neg_of_pos (by linarith) hd)
    have h4 : x ≤ r.2 := by
      by_contra hc
      exact h2 ((one_lt_div hd).2 (by linarith))
    rw [min_eq_right h4, max_eq_right h3]; ring

theorem code_lt (n : Nat) (r : ℚ × ℚ) (x : ℚ) : code n r x < 2 ^ n := by
  unfold code
  obtain ⟨h1, h2⟩ := normalized_range r x
  have hm : (0 : ℚ) ≤ ((2 ^ n - 1 : Nat) : ℚ) := by positivity
  have : ⌊normalized r x * ((2 ^ n - 1 : Nat) : ℚ)⌋₊ ≤ 2 ^ n - 1 := by
    apply Nat.floor_le_of_le
    calc _ ≤ 1 * ((2 ^ n - 1 : Nat) : ℚ) := mul_le_mul_of_nonneg_right h2 hm
      _ = _ := by ring
  have := Nat.one_le_two_pow (n := n)
  omega

theorem value_code (n : Nat) (hn : 1 ≤ n) (r : ℚ × ℚ) (hr : r.1 < r.2) (x : ℚ) :
    value n r (code n r x) ≤ clamp r x ∧ clamp r x < value n r (code n r x) + step n r ∧ r.1 ≤ value n r (code n r x) := by
  have hd : 0 < r.2 - r.1 := by linarith
  have hm : (0 : ℚ) < ((2 ^ n - 1 : Nat) : ℚ) := by exact_mod_cast top_pos n hn
  obtain ⟨h1, h2⟩ := normalized_range r x
  have hf1 := Nat.floor_le (mul_nonneg h1 hm.le)
  have hf2 := Nat.lt_floor_add_one (normalized r x * ((2 ^ n - 1 : Nat) : ℚ))
  rw [← normalized_clamp r hr x]
  unfold value step code
  refine ⟨?_, ?_, ?_⟩
  · have : (⌊normalized r x * ((2 ^ n - 1 : Nat) : ℚ)⌋₊ : ℚ) / ((2 ^ n - 1 : Nat) : ℚ) ≤ normalized r x := by
      rw [div_le_iff₀ hm]; exact hf1
    nlinarith
  · have : normalized r x < (⌊normalized r x * ((2 ^ n - 1 : Nat) : ℚ)⌋₊ : ℚ) / ((2 ^ n - 1 : Nat) : ℚ) + 1 / ((2 ^ n - 1 : Nat) : ℚ) := by
      rw [← add_div, lt_div_iff₀ hm]; exact hf2
    have e : (r.2 - r.1) / ((2 ^ n - 1 : Nat) : ℚ) = 1 / ((2 ^ n - 1 : Nat) : ℚ) * (r.2 - r.1) := by ring
    rw [e]
    nlinarith
  · have : (0 : ℚ) ≤ (⌊normalized r x * ((2 ^ n - 1 : Nat) : ℚ)⌋₊ : ℚ) / ((2 ^ n - 1 : Nat) : ℚ) := by positivity
    nlinarith

theorem decode_encode (s : SQ) (hs : s.Ready) (v : Vec) (hv : v.length = s.dim) :
    ∃ bs, s.encode v = some bs ∧ bs.length = (s.dim * s.nbits + 7) / 8 ∧ Bytes bs ∧
      s.decode bs = some (List.zipWith (value s.nbits) s.ranges (List.zipWith (code s.nbits) s.ranges v)) := by
  have hlen : (List.zipWith (code s.nbits) s.ranges v).length = s.dim := by rw [List.length_zipWith, hs.len, hv, Nat.min_self]
  obtain ⟨a1, a2, a3⟩ := C38_packing_lossless s.nbits (List.zipWith (code s.nbits) s.ranges v) (by
    intro q hq
    obtain ⟨i, hi, rfl⟩ := List.getElem_of_mem hq
    rw [List.getElem_zipWith]
    exact code_lt _ _ _) []
  rw [List.append_nil] at a3
  refine ⟨pack s.nbits (List.zipWith (code s.nbits) s.ranges v), ?_, by rw [a1, hlen], a2, ?_⟩
  · unfold SQ.encode
    rw [if_neg (by simp [hs.trained]), if_neg (by simp [hv])]
  · unfold SQ.decode
    rw [if_neg (by simp [hs.trained]), ← hlen, a3]
    rfl

/-- C38 (partial): encoding and decoding a vector of the right dimension gives, in every component, the nearest value of the trained range
rounded down by less than one quantization step. The claim asks for half a step, which is violated, see below. -/
theorem C38_error_below_step_partial (s : SQ) (hs : s.Ready) (v : Vec) (hv : v.length = s.dim) :
    ∃ bs v', s.encode v = some bs ∧ s.decode bs = some v' ∧ v'.length = s.dim ∧
      ∀ (d : Nat) (r : ℚ × ℚ) (x y : ℚ), s.ranges[d]? = some r → v[d]? = some x → v'[d]? = some y → y ≤ clamp r x ∧ clamp r x < y + step s.nbits r ∧ Within r y := by
  obtain ⟨bs, h1, -, -, h4⟩ := decode_encode s hs v hv
  refine ⟨bs, _, h1, h4, by simp [hs.len, hv], ?_⟩
  intro d r x y hr hx hy
  rw [List.getElem?_zipWith, hr, List.getElem?_zipWith, hr, hx] at hy
  simp only [Option.some.injEq] at hy
  subst hy
  obtain ⟨a, b, c⟩ := value_code s.nbits hs.bits r (hs.proper r (List.mem_of_getElem? hr)) x
  refine ⟨a, b, c, le_trans a ?_⟩
  unfold clamp
  exact max_le (hs.proper r (List.mem_of_getElem? hr)).le (min_le_left _ _)

/-- C38: a vector inside the range is reconstructed from below to within a step. -/
theorem C38_in_range (s : SQ) (hs : s.Ready) (v : Vec) (hv : v.length = s.dim)
    (hin : ∀ (d : Nat) (r : ℚ × ℚ) (x : ℚ), s.ranges[d]? = some r → v[d]? = some x → Within r x) :
    ∃ bs v', s.encode v = some bs ∧ s.decode bs = some v' ∧
      ∀ (d : Nat) (r : ℚ × ℚ) (x y : ℚ), s.ranges[d]? = some r → v[d]? = some x → v'[d]? = some y → 0 ≤ x - y ∧ x - y < step s.nbits r := by
  obtain ⟨bs, v', h1, h2, -, h4⟩ := C38_error_below_step_partial s hs v hv
  refine ⟨bs, v', h1, h2, ?_⟩
  intro d r x y hr hx hy
  obtain ⟨a, b, -⟩ := h4 d r x y hr hx hy
  obtain ⟨c1, c2⟩ := hin d r x hr hx
  have : clamp r x = x := by
    unfold clamp
    rw [min_eq_right c2, max_eq_right c1]
  rw [this] at a b
  constructor <;> linarith

/-- C38 is violated: for every trained quantizer of a positive dimension there is a vector inside the trained range whose reconstruction is
off by more than half a step in every component, because the scaled value is cut off instead of rounded. -/
theorem C38_half_step_violated (s : SQ) (hs : s.Ready) : ∃ v bs v', v.length = s.dim ∧
    (∀ (d : Nat) (r : ℚ × ℚ) (x : ℚ), s.ranges[d]? = some r → v[d]? = some x → Within r x) ∧ s.encode v = some bs ∧ s.decode bs = some v' ∧
      ∀ (d : Nat) (r : ℚ × ℚ) (x y : ℚ), s.ranges[d]? = some r → v[d]? = some x → v'[d]? = some y → step s.nbits r / 2 < x - y := by
  have hm : (1 : ℚ) ≤ ((2 ^ s.nbits - 1 : Nat) : ℚ) := by exact_mod_cast top_pos s.nbits hs.bits
  have hv : (s.ranges.map (fun r => r.1 + 3 / 4 * step s.nbits r)).length = s.dim := by rw [List.length_map, hs.len]
  obtain ⟨bs, h1, -, -, h4⟩ := decode_encode s hs _ hv
  have hstep : ∀ r ∈ s.ranges, 0 < step s.nbits r ∧ step s.nbits r ≤ r.2 - r.1 := by
    intro r hr
    have := hs.proper r hr
    unfold step
    refine ⟨div_pos (by linarith) (by linarith), div_le_self (by linarith) hm⟩
  refine ⟨_, bs, _, hv, ?_, h1, h4, ?_⟩
  · intro d r x hr hx
    rw [List.getElem?_map, hr] at hx
    simp only [Option.map_some, Option.some.injEq] at hx
    obtain ⟨a, b⟩ := hstep r (List.mem_of_getElem? hr)
    subst hx
    constructor <;> linarith
  · intro d r x y hr hx hy
    have hx' := hx
    rw [List.getElem?_map, hr] at hx'
    simp only [Option.map_some, Option.some.injEq] at hx'
    rw [List.getElem?_zipWith, hr, List.getElem?_zipWith, hr, hx] at hy
    simp only [Option.some.injEq] at hy
    obtain ⟨a, b⟩ := hstep r (List.mem_of_getElem? hr)
    have hp := hs.proper r (List.mem_of_getElem? hr)
    have hd : 0 < r.2 - r.1 := by linarith
    have hn : normalized r x * ((2 ^ s.nbits - 1 : Nat) : ℚ) = 3 / 4 := by
      have e : (x - r.1) / (r.2 - r.1) = 3 / 4 / ((2 ^ s.nbits - 1 : Nat) : ℚ) := by
        rw [← hx']
        unfold step
        field_simp
        ring
      have hpos : (0 : ℚ) ≤ 3 / 4 / ((2 ^ s.nbits - 1 : Nat) : ℚ) := by positivity
      have hle : (3 : ℚ) / 4 / ((2 ^ s.nbits - 1 : Nat) : ℚ) ≤ 1 := by
        rw [div_le_one (by linarith)]; linarith
      unfold normalized
      rw [e, if_neg (not_lt.2 hpos), if_neg (not_lt.2 hle), div_mul_cancel₀ _ (by linarith)]
    have hc : code s.nbits r x = 0 := by
      unfold code
      rw [hn]
      exact Nat.floor_eq_zero.2 (by norm_num)
    rw [← hy, hc, ← hx']
    unfold value
    simp only [Nat.cast_zero, zero_div, zero_mul, zero_add]
    linarith

/-- C38: decoding fails exactly on data that is too short. -/
theorem C38_decode_short (s : SQ) (hs : s.Ready) (bs : List Nat) : s.decode bs = none ↔ bs.length < (s.dim * s.nbits + 7) / 8 := by
  unfold SQ.decode
  rw [if_neg (by simp [hs.trained])]
  by_cases h : 0 + s.dim * s.nbits ≤ 8 * bs.length
  · obtain ⟨qs, a, -⟩ := unpackAll_spec bs s.nbits s.dim 0 h
    rw [a]
    simp only [Option.map_some, reduceCtorEq, false_iff]
    omega
  · rw [unpackAll_short bs s.nbits s.dim 0 (by omega) (by omega)]
    simp only [Option.map_none, true_iff]
    omega

/-! ### Training -/

/-- Adding the epsilon is not absorbed. -/
def Arith.Lifts (A : Arith) : Prop := ∀ x, x < A.bump x

theorem widen_spec (r : ℚ × ℚ) (x : ℚ) : (widen r x).1 ≤ r.1 ∧ r.2 ≤ (widen r x).2 ∧ (widen r x).1 ≤ x ∧ x ≤ (widen r x).2 := by
  unfold widen
  simp only
  split_ifs <;> refine ⟨?_, ?_, ?_, ?_⟩ <;> linarith

theorem widenAll_spec (dim : Nat) (vs : List Vec) : ∀ rs : List (ℚ × ℚ), rs.length = dim → (∀ r ∈ rs, r.1 ≤ r.2) → (∀ v ∈ vs, v.length = dim) →
    (widenAll dim vs rs).2 = false ∧ (widenAll dim vs rs).1.length = dim ∧ (∀ r ∈ (widenAll dim vs rs).1, r.1 ≤ r.2) ∧
      (∀ (d : Nat) (r r' : ℚ × ℚ), rs[d]? = some r → (widenAll dim vs rs).1[d]? = some r' → r'.1 ≤ r.1 ∧ r.2 ≤ r'.2) ∧
      ∀ v ∈ vs, ∀ (d : Nat) (r : ℚ × ℚ) (x : ℚ), (widenAll dim vs rs).1[d]? = some r → v[d]? = some x → Within r x := by
  induction vs with
  | nil =>
    intro rs h1 h2 _
    refine ⟨rfl, h1, h2, ?_, by simp⟩
    intro d r r' hr hr'
    simp only [widenAll] at hr'
    rw [hr] at hr'
    obtain rfl := Option.some.inj hr'
    exact ⟨le_refl _, le_refl _⟩
  | cons v vs ih =>
    intro rs h1 h2 h3
    have hv := h3 v List.mem_cons_self
    have hl : (List.zipWith widen rs v).length = dim := by rw [List.length_zipWith, h1, hv, Nat.min_self]
    rw [widenAll, if_neg (by simp [hv])]
    obtain ⟨a1, a2, a3, a4, a5⟩ := ih (List.zipWith widen rs v) hl (by
      intro r hr
      obtain ⟨i, hi, rfl⟩ := List.getElem_of_mem hr
      rw [List.getElem_zipWith]
      obtain ⟨-, -, w3, w4⟩ := widen_spec rs[i] v[i]
      exact le_trans w3 w4) (fun w hw => h3 w (List.mem_cons_of_mem _ hw))
    have hmid : ∀ (d : Nat) (r' : ℚ × ℚ), (widenAll dim vs (List.zipWith widen rs v)).1[d]? = some r' →
        ∃ r x, rs[d]? = some r ∧ v[d]? = some x ∧ r'.1 ≤ (widen r x).1 ∧ (widen r x).2 ≤ r'.2 := by
      intro d r' hr'
      have hd : d < dim := by rw [← a2]; exact (List.getElem?_eq_some_iff.1 hr').1
      have e1 : rs[d]? = some rs[d] := List.getElem?_eq_getElem (by omega)
      have e2 : v[d]? = some v[d] := List.getElem?_eq_getElem (by omega)
      have := a4 d (widen rs[d] v[d]) r' (by rw [List.getElem?_zipWith, e1, e2]) hr'
      exact ⟨_, _, e1, e2, this⟩
    refine ⟨a1, a2, a3, ?_, ?_⟩
    · intro d r r' hr hr'
      obtain ⟨r0, x, e1, e2, e3, e4⟩ := hmid d r' hr'
      rw [hr] at e1
      obtain rfl := Option.some.inj e1
      obtain ⟨w1, w2, -, -⟩ := widen_spec r x
      exact ⟨le_trans e3 w1, le_trans w2 e4⟩
    · intro w hw d r x hr hx
      rcases List.mem_cons.1 hw with rfl | hw
      · obtain ⟨r0, x0, e1, e2, e3, e4⟩ := hmid d r hr
        rw [hx] at e2
        obtain rfl := Option.some.inj e2
        obtain ⟨-, -, w3, w4⟩ := widen_spec r0 x
        exact ⟨le_trans e3 w3, le_trans w4 e4⟩
      · exact a5 w hw d r x hr hx

/-- C113: training on vectors of the right dimension succeeds, and then every training vector is inside the trained range, so that each is
reconstructed to within a step (with `C38_in_range`). -/
theorem C113_train_covers (A : Arith) (hA : A.Lifts) (dim nbits : Nat) (hn : 1 ≤ nbits ∧ nbits ≤ 8) (vs : List Vec) (hne : vs ≠ []) (hd : ∀ v ∈ vs, v.length = dim) :
    ∃ s s', SQ.new dim nbits = some s ∧ s.train A vs = some (s', false) ∧ s'.Ready ∧ s'.dim = dim ∧ s'.nbits = nbits ∧
      ∀ v ∈ vs, ∀ (d : Nat) (r : ℚ × ℚ) (x : ℚ), s'.ranges[d]? = some r → v[d]? = some x → Within r x := by
  refine ⟨⟨dim, nbits, List.replicate dim (0, 0), false⟩, ?_⟩
  cases vs with
  | nil => exact absurd rfl hne
  | cons v vs =>
    have hv := hd v List.mem_cons_self
    obtain ⟨a1, a2, a3, a4, a5⟩ := widenAll_spec dim (v :: vs) ((v.take dim).map (fun x => (x, x))) (by simp [hv])
      (by intro r hr; obtain ⟨x, -, rfl⟩ := List.mem_map.1 hr; exact le_refl _) hd
    have hsp : ∀ r : ℚ × ℚ, r.1 ≤ r.2 → (spread A r).1 = r.1 ∧ r.2 ≤ (spread A r).2 ∧ (spread A r).1 < (spread A r).2 := by
      intro r hr
      unfold spread
      split_ifs with h
      · refine ⟨rfl, (hA r.2).le, ?_⟩
        simp only
        rw [← h]; exact hA r.2
      · exact ⟨rfl, le_refl _, lt_of_le_of_ne hr (Ne.symm h)⟩
    refine ⟨⟨dim, nbits, (widenAll dim (v :: vs) ((v.take dim).map (fun x => (x, x)))).1.map (spread A), true⟩, ?_, ?_, ?_, rfl, rfl, ?_⟩
    · unfold SQ.new
      rw [if_neg (by omega)]
    · unfold SQ.train
      simp only
      rw [if_neg (by omega)]
      generalize hw : widenAll dim (v :: vs) ((v.take dim).map (fun x => (x, x))) = w at a1
      obtain ⟨rs, e⟩ := w
      simp only at a1
      subst a1
      rfl
    · refine ⟨rfl, hn.1, by rw [List.length_map]; exact a2, ?_⟩
      intro r hr
      obtain ⟨r0, h0, rfl⟩ := List.mem_map.1 hr
      exact (hsp r0 (a3 r0 h0)).2.2
    · intro w hw d r x hr hx
      simp only at hr
      rw [List.getElem?_map] at hr
      obtain ⟨r0, h0, rfl⟩ := Option.map_eq_some_iff.1 hr
      obtain ⟨b1, b2⟩ := a5 w hw d r0 x h0 hx
      obtain ⟨c1, c2, -⟩ := hsp r0 (a3 r0 (List.mem_of_getElem? h0))
      exact ⟨by rw [c1]; exact b1, le_trans b2 c2⟩

/-- C113 is violated: training that fails on a later vector of a wrong dimension has already replaced the ranges: a trained quantizer stays
trained and decodes what it encoded before to something else. -/
theorem C113_failed_train_changes_ranges_violated :
    ∃ (A : Arith) (s s' : SQ) (vs : List Vec) (v : Vec) (bs : List Nat), A.Lifts ∧ s.Ready ∧ s.encode v = some bs ∧ s.train A vs = some (s', true) ∧
      s'.trained = true ∧ s.decode bs = some v ∧ s'.decode bs = some [8] := by
  refine ⟨⟨fun x => x + 1, fun x => x + 1, fun x => x - 1⟩, ⟨1, 1, [(0, 1)], true⟩, ⟨1, 1, [(7, 8)], true⟩, [[7], [8], [1, 2]], [1], [1], ?_, ?_, ?_⟩
  · intro x; simp
  · exact ⟨rfl, by simp, rfl, by simp⟩
  · decide +kernel

/-- C113 is violated: a first training vector that is too short makes training panic instead of returning the error. -/
theorem C113_short_first_vector_panics_violated (A : Arith) (s : SQ) (v : Vec) (vs : List Vec) (h : v.length < s.dim) : s.train A (v :: vs) = none := by
  unfold SQ.train
  simp only
  rw [if_pos h]

/-- Two training vectors, three bits: a third vector between them loses less than a step. -/
example : ((SQ.new 2 3).bind (fun s => s.train ⟨fun x => x + 1, fun x => x, fun x => x⟩ [[0, 5], [7, 5]])).bind (fun r =>
    (r.1.encode [4, 5]).bind (fun bs => (r.1.decode bs).map (fun v => (bs, v)))) = some ([4], [4, 5]) := by
  decide +kernel

/-! ### Binary quantizer -/

theorem testBit_bit (bs : List Nat) (d : Nat) : testBit bs d = bit bs d := by
  unfold testBit bit
  rw [Bool.eq_iff_iff, decide_eq_true_iff]
  exact and_pow _ _

theorem setBits_spec (xs : List Bool) : ∀ (d : Nat) (bs : List Nat), d + xs.length ≤ 8 * bs.length → Bytes bs →
    (setBits xs d bs).length = bs.length ∧ Bytes (setBits xs d bs) ∧
      ∀ j, bit (setBits xs d bs) j = (bit bs j || (decide (d ≤ j) && (xs[j - d]?.getD false))) := by
  induction xs with
  | nil => intro d bs _ hb; exact ⟨rfl, hb, by simp [setBits]⟩
  | cons x xs ih =>
    intro d bs h hb
    rw [List.length_cons] at h
    have hd : d / 8 < bs.length := by omega
    rw [setBits]
    have key : ∀ bs' : List Nat, bs'.length = bs.length → Bytes bs' → (∀ j, bit bs' j = (bit bs j || (decide (d = j) && x))) →
        (setBits xs (d + 1) bs').length = bs.length ∧ Bytes (setBits xs (d + 1) bs') ∧
          ∀ j, bit (setBits xs (d + 1) bs') j = (bit bs j || (decide (d ≤ j) && ((x :: xs)[j - d]?.getD false))) := by
      intro bs' hl hb' hbit
      obtain ⟨a1, a2, a3⟩ := ih (d + 1) bs' (by omega) hb'
      refine ⟨by rw [a1, hl], a2, ?_⟩
      intro j
      rw [a3, hbit, Bool.or_assoc]
      congr 1
      by_cases hj : d = j
      · subst hj
        simp
      · by_cases hlt : d ≤ j
        · rw [show j - d = (j - (d + 1)) + 1 by omega, List.getElem?_cons_succ]
          have : d + 1 ≤ j := by omega
          simp [hj, hlt, this]
        · have : ¬ d + 1 ≤ j := by omega
          simp [hj, hlt, this]
    cases x with
    | true =>
      rw [if_pos rfl]
      exact key (setBit bs d) (set_len _ _) (set_bytes hb d) (fun j => by rw [bit_set _ _ _ hd]; simp)
    | false =>
      rw [if_neg (by simp)]
      exact key bs rfl hb (fun j => by simp)

theorem bytes_ext {a b : List Nat} (hl : a.length = b.length) (ha : Bytes a) (hb : Bytes b) (h : ∀ j, j < 8 * a.length → bit a j = bit b j) : a = b := by
  apply List.ext_getElem hl
  intro i h1 h2
  apply Nat.eq_of_testBit_eq
  intro t
  by_cases ht : t < 8
  · have := h (8 * i + t) (by omega)
    unfold bit at this
    rw [show (8 * i + t) / 8 = i by omega, show (8 * i + t) % 8 = t by omega, List.getElem?_eq_getElem h1, List.getElem?_eq_getElem h2] at this
    exact this
  · have e : ∀ y, y < 256 → y.testBit t = false := by
      intro y hy
      apply Nat.testBit_lt_two_pow
      exact lt_of_lt_of_le hy (by rw [show 256 = 2 ^ 8 by norm_num]; exact Nat.pow_le_pow_right (by omega) (by omega))
    rw [e _ (ha _ (List.getElem_mem h1)), e _ (hb _ (List.getElem_mem h2))]

structure BQ.Ready (b : BQ) : Prop where
  trained : b.trained = true
  len : b.thr.length = b.dim

/-- What the additions must not lose. -/
structure Arith.Keeps (A : Arith) : Prop where
  up : ∀ t, t < A.up t
  down : ∀ t, A.down t ≤ t

theorem encode_spec (b : BQ) (hb : b.Ready) (v : Vec) (hv : v.length = b.dim) :
    ∃ bs, b.encode v = some bs ∧ bs.length = (b.dim + 7) / 8 ∧ Bytes bs ∧
      ∀ j, bit bs j = ((List.zipWith (fun t x => decide (x > t)) b.thr v)[j]?.getD false) := by
  have hl : (List.zipWith (fun t x => decide (x > t)) b.thr v).length = b.dim := by rw [List.length_zipWith, hb.len, hv, Nat.min_self]
  obtain ⟨a1, a2, a3⟩ := setBits_spec (List.zipWith (fun t x => decide (x > t)) b.thr v) 0 (List.replicate ((b.dim + 7) / 8) 0)
    (by rw [hl, List.length_replicate]; omega) (by intro y hy; rw [(List.mem_replicate.1 hy).2]; omega)
  refine ⟨_, ?_, by rw [a1, List.length_replicate], a2, ?_⟩
  · unfold BQ.encode
    rw [if_neg (by simp [hb.trained]), if_neg (by simp [hv])]
  · intro j
    rw [a3, bit_zero]
    simp

/-- C39: the code of a vector has one bit per component, set exactly when the component exceeds the threshold, and clear padding. -/
theorem C39_encode_signs (b : BQ) (hb : b.Ready) (v : Vec) (hv : v.length = b.dim) :
    ∃ bs, b.encode v = some bs ∧ bs.length = (b.dim + 7) / 8 ∧ Bytes bs ∧
      (∀ (d : Nat) (t x : ℚ), b.thr[d]? = some t → v[d]? = some x → (bit bs d = true ↔ t < x)) ∧ ∀ j, b.dim ≤ j → bit bs j = false := by
  obtain ⟨bs, a1, a2, a3, a4⟩ := encode_spec b hb v hv
  refine ⟨bs, a1, a2, a3, ?_, ?_⟩
  · intro d t x ht hx
    rw [a4, List.getElem?_zipWith, ht, hx]
    simp
  · intro j hj
    rw [a4, List.getElem?_eq_none (by rw [List.length_zipWith, hb.len, hv]; omega)]
    rfl

/-- C39: decoding any byte string of the right length and encoding the result returns the byte string, provided its padding bits are clear (as they
are in every code that `Encode` makes). -/
theorem C39_reencode (A : Arith) (hA : A.Keeps) (b : BQ) (hb : b.Ready) (bs : List Nat) (hl : bs.length = (b.dim + 7) / 8) (hby : Bytes bs)
    (hpad : ∀ j, b.dim ≤ j → bit bs j = false) : ∃ v, b.decode A bs = some v ∧ v.length = b.dim ∧ b.encode v = some bs := by
  have hv : (b.thr.mapIdx (fun d t => if testBit bs d then A.up t else A.down t)).length = b.dim := by rw [List.length_mapIdx, hb.len]
  refine ⟨_, ?_, hv, ?_⟩
  · unfold BQ.decode
    rw [if_neg (by simp [hb.trained]), if_neg (by simp [hl])]
  · obtain ⟨bs', a1, a2, a3, a4, a5⟩ := C39_encode_signs b hb _ hv
    rw [a1]
    congr 1
    apply bytes_ext (by rw [a2, hl]) a3 hby
    intro j _
    by_cases hj : b.dim ≤ j
    · rw [a5 j hj, hpad j hj]
    · have hlt : j < b.thr.length := by rw [hb.len]; omega
      rw [Bool.eq_iff_iff, a4 j b.thr[j] _ (List.getElem?_eq_getElem hlt) (by rw [List.getElem?_mapIdx, List.getElem?_eq_getElem hlt]; rfl), testBit_bit]
      cases bit bs j with
      | true => simp [hA.up]
      | false => simpa using hA.down _

/-- C39: decoding refuses exactly the byte strings of a wrong length. -/
theorem C39_decode_rejects (A : Arith) (b : BQ) (hb : b.Ready) (bs : List Nat) : b.decode A bs = none ↔ bs.length ≠ (b.dim + 7) / 8 := by
  unfold BQ.decode
  rw [if_neg (by simp [hb.trained])]
  split_ifs with h <;> simp [h]

/-- C38, C39: an untrained quantizer and a vector of a wrong dimension are refused. -/
theorem C39_encode_rejects (s : SQ) (b : BQ) (v : Vec) :
    (s.encode v = none ↔ s.trained = false ∨ v.length ≠ s.dim) ∧ (b.encode v = none ↔ b.trained = false ∨ v.length ≠ b.dim) := by
  unfold SQ.encode BQ.encode
  constructor <;> split_ifs with h1 h2 <;> simp_all

/-- C113: training the binary quantizer succeeds exactly on a non-empty batch of vectors of the right dimension; the thresholds are then the means of
the components; when it fails the quantizer is as before. -/
theorem C113_binary_train (b : BQ) (hb : 0 < b.dim) (vs : List Vec) :
    ((b.train vs).2 = false ↔ vs ≠ [] ∧ ∀ v ∈ vs, v.length = b.dim) ∧ ((b.train vs).2 = true → (b.train vs).1 = b) ∧
      ((b.train vs).2 = false → (b.train vs).1.Ready ∧ (b.train vs).1.dim = b.dim ∧
        ∀ (d : Nat) (t : ℚ), (b.train vs).1.thr[d]? = some t → t * vs.length = (vs.map (fun v => v[d]?.getD 0)).sum) := by
  unfold BQ.train
  by_cases h1 : vs = []
  · simp [h1]
  · rw [if_neg h1]
    by_cases h2 : vs.any (fun v => decide (v.length ≠ b.dim)) = true
    · rw [if_pos ⟨by omega, h2⟩]
      refine ⟨?_, fun _ => rfl, fun h => by simp at h⟩
      simp only [Bool.true_eq_false, false_iff]
      rintro ⟨-, h⟩
      obtain ⟨v, hv, hne⟩ := List.any_eq_true.1 h2
      exact (of_decide_eq_true hne) (h v hv)
    · rw [if_neg (fun h => h2 h.2)]
      refine ⟨?_, fun h => by simp at h, fun _ => ⟨⟨rfl, by simp⟩, rfl, ?_⟩⟩
      · simp only [true_iff]
        refine ⟨h1, ?_⟩
        intro v hv
        by_contra hc
        exact h2 (List.any_eq_true.2 ⟨v, hv, decide_eq_true hc⟩)
      · intro d t ht
        simp only [List.getElem?_map] at ht
        obtain ⟨d', hd', rfl⟩ := Option.map_eq_some_iff.1 ht
        obtain ⟨-, rfl⟩ := List.getElem?_eq_some_iff.1 hd'
        have : (vs.length : ℚ) ≠ 0 := by
          have := List.length_pos_iff.2 h1
          positivity
        rw [List.getElem_range, div_mul_cancel₀ _ this]
        rfl

/-- The number of bit positions in which two byte strings differ. -/
def diffBits (a b : List Nat) : Nat := (List.range (8 * a.length)).countP (fun i => bit a i != bit b i)

/-- Every byte, exhaustively: the loop counts the set bits. -/
theorem kernighan_byte : ∀ x < 256, kernighan 9 x = some ((List.range 8).countP (fun t => x.testBit t)) := by decide +kernel

theorem diff_cons (x y : Nat) (a b : List Nat) :
    diffBits (x :: a) (y :: b) = (List.range 8).countP (fun t => (x ^^^ y).testBit t) + diffBits a b := by
  unfold diffBits
  rw [List.length_cons, show 8 * (a.length + 1) = 8 + 8 * a.length by ring, List.range_add, List.countP_append, List.countP_map]
  congr 1
  · apply List.countP_congr
    intro t ht
    have ht : t < 8 := List.mem_range.1 ht
    unfold bit
    rw [show t / 8 = 0 by omega, show t % 8 = t by omega, Nat.testBit_xor]
    simp
  · apply List.countP_congr
    intro t _
    unfold bit
    simp only [Function.comp_apply]
    rw [show (8 + t) / 8 = t / 8 + 1 by omega, show (8 + t) % 8 = t % 8 by omega, List.getElem?_cons_succ, List.getElem?_cons_succ]

theorem sumBits_spec : ∀ (a b : List Nat), a.length = b.length → Bytes a → Bytes b → sumBits a b = some (diffBits a b)
  | [], [], _, _, _ => rfl
  | [], _ :: _, h, _, _ => by simp at h
  | _ :: _, [], h, _, _ => by simp at h
  | x :: a, y :: b, h, ha, hb => by
    have hx := ha x List.mem_cons_self
    have hy := hb y List.mem_cons_self
    rw [sumBits, kernighan_byte (x ^^^ y) (Nat.xor_lt_two_pow (n := 8) hx hy),
      sumBits_spec a b (by simpa using h) (fun z hz => ha z (List.mem_cons_of_mem _ hz)) (fun z hz => hb z (List.mem_cons_of_mem _ hz)), diff_cons]

/-- C39: the Hamming distance of two codes of the same length is the number of bits in which they differ. -/
theorem C39_hamming_counts (a b : List Nat) (hl : a.length = b.length) (ha : Bytes a) (hb : Bytes b) : hamming a b = some (diffBits a b : Int) := by
  unfold hamming
  rw [if_neg (by simp [hl]), sumBits_spec a b hl ha hb]
  rfl

/-- C39: on codes of one length the Hamming distance is a metric. -/
theorem C39_hamming_metric (a b c : List Nat) (hab : a.length = b.length) (hbc : b.length = c.length) (ha : Bytes a) (hb : Bytes b) (hc : Bytes c) :
    ∃ x y z : Int, hamming a b = some x ∧ hamming b c = some y ∧ hamming a c = some z ∧ 0 ≤ x ∧ (x = 0 ↔ a = b) ∧ hamming b a = some x ∧ z ≤ x + y := by
  refine ⟨_, _, _, C39_hamming_counts a b hab ha hb, C39_hamming_counts b c hbc hb hc, C39_hamming_counts a c (hab.trans hbc) ha hc, by omega, ?_, ?_, ?_⟩
  · constructor
    · intro h
      have h0 : diffBits a b = 0 := by exact_mod_cast h
      unfold diffBits at h0
      rw [List.countP_eq_zero] at h0
      apply bytes_ext hab ha hb
      intro j hj
      simpa using h0 j (List.mem_range.2 hj)
    · rintro rfl
      unfold diffBits
      simp
  · rw [C39_hamming_counts b a hab.symm hb ha]
    unfold diffBits
    rw [hab]
    congr 2
    apply List.countP_congr
    intro t _
    rw [bne_comm]
  · have : diffBits a c ≤ diffBits a b + diffBits b c := by
      unfold diffBits
      rw [← hab]
      generalize List.range (8 * a.length) = l
      induction l with
      | nil => simp
      | cons i l ih =>
        simp only [List.countP_cons]
        have : (if (bit a i != bit c i) = true then 1 else 0) ≤ (if (bit a i != bit b i) = true then 1 else 0) + (if (bit b i != bit c i) = true then 1 else 0) := by
          cases bit a i <;> cases bit b i <;> cases bit c i <;> simp
        omega
    exact_mod_cast this

theorem scores_spec (q : List Nat) (hq : Bytes q) (db : List (List Nat)) : ∀ i, (∀ v ∈ db, v.length = q.length ∧ Bytes v) →
    scores q i db = some (db.mapIdx (fun j v => (i + j, (diffBits q v : Int)))) := by
  induction db with
  | nil => intro i _; rfl
  | cons v db ih =>
    intro i h
    obtain ⟨h1, h2⟩ := h v List.mem_cons_self
    rw [scores, C39_hamming_counts q v h1.symm hq h2, ih (i + 1) (fun w hw => h w (List.mem_cons_of_mem _ hw))]
    simp only [List.mapIdx_cons, Nat.add_zero]
    congr 2
    apply List.mapIdx_eq_mapIdx_iff.2
    intro j hj
    rw [show i + 1 + j = i + (j + 1) by omega]

/-- C39 (partial): over codes of the length of the query, a binary search returns the `k` codes nearest in Hamming distance, nearest first, each
position once with its distance. Missing: codes of another length, see below. -/
theorem C39_search_exact_partial (q : List Nat) (hq : Bytes q) (db : List (List Nat)) (h : ∀ v ∈ db, v.length = q.length ∧ Bytes v) (k : Nat) :
    ∃ out, searchBinary q db k = some out ∧ IsTopK (fun r => -r.2) (db.mapIdx (fun j v => (j, (diffBits q v : Int)))) k out := by
  have hs := scores_spec q hq db 0 h
  simp only [Nat.zero_add] at hs
  unfold searchBinary
  rw [hs]
  simp only
  rw [if_neg (by omega), Int.toNat_natCast]
  refine ⟨_, rfl, isTopK_take _ _ _ _ ⟨exchangeSort_perm _ _, ?_⟩⟩
  have := exchangeSort_sorted (fun r : Nat × Int => r.2) closer (fun a b => by simp [closer]) (db.mapIdx (fun j v => (j, (diffBits q v : Int))))
  exact this.imp (fun h => neg_le_neg h)

/-- C39 is violated: a code of another length gets distance -1 and is returned before every code of the right length. -/
theorem C39_mismatch_ranks_first_violated (q : List Nat) (hq : Bytes q) (good bad : List Nat) (hg : good.length = q.length) (hgb : Bytes good) (hb : bad.length ≠ q.length) :
    searchBinary q [good, bad] 1 = some [(1, -1)] := by
  unfold searchBinary
  rw [scores, C39_hamming_counts q good hg.symm hq hgb, scores, hamming, if_pos (Ne.symm hb), scores]
  simp only
  rw [if_neg (by omega)]
  have hlt : ((1 : Nat), (-1 : Int)).2 < (0, (diffBits q good : Int)).2 := by simp; omega
  simp only [exchangeSort, sweep, closer, decide_eq_true hlt]
  rfl

example : searchBinary [255, 1] [[0, 0], [255, 0], [254, 1]] 2 = some [(1, 1), (2, 1)] := by decide +kernel
example : ((BQ.new 9).train [[0, 0, 0, 0, 0, 0, 0, 0, 4], [2, 2, 2, 2, 2, 2, 2, 2, 2]]).1.encode [2, 0, 2, 0, 0, 0, 0, 0, 7] = some [5, 1] := by decide +kernel
example : (⟨fun x => x + 1, fun x => x + 1 / 2, fun x => x - 1 / 2⟩ : Arith).Keeps := ⟨fun t => by simp, fun t => by simp⟩

end Verif.Quant
