import Verif.Model.Ratio
import Verif.Thm.QuantIndex
import Verif.Thm.ProductQuant

/-!
C246: the compression ratio a quantizer reports is what its codes save.
-/
namespace Verif.Ratio
open Verif.Quant

/-! ### Specification -/

/-- Keeping `coded` bytes for `plain` bytes saves the factor `r`. -/
def Saves (r : ℚ) (plain coded : Nat) : Prop := 0 < coded ∧ r = (plain : ℚ) / coded

/-- Four bytes for each coordinate. -/
def plain (d : Nat) : Nat := 4 * d

theorem byte_iff (n : Nat) : 8 * ((n + 7) / 8) = n ↔ 8 ∣ n := by omega

/-- The ratio of `n` bits for `d` coordinates against whole bytes. -/
theorem bits (d n : Nat) (hn : 0 < n) (hd : 0 < d) :
    (Saves (((d * 32 : Nat) : ℚ) / (n : Nat)) (plain d) ((n + 7) / 8) ↔ 8 ∣ n) ∧
      ((plain d : ℚ) / ((n + 7) / 8 : Nat) ≤ ((d * 32 : Nat) : ℚ) / (n : Nat)) := by
  have hb : 0 < (n + 7) / 8 := by omega
  have hbq : (0 : ℚ) < ((n + 7) / 8 : Nat) := by exact_mod_cast hb
  have hnq : (0 : ℚ) < (n : Nat) := by exact_mod_cast hn
  have hdq : (0 : ℚ) < (d : Nat) := by exact_mod_cast hd
  constructor
  · unfold Saves plain
    rw [← byte_iff, div_eq_div_iff hnq.ne' hbq.ne']
    constructor
    · rintro ⟨-, h⟩
      have h : d * 32 * ((n + 7) / 8) = 4 * d * n := by exact_mod_cast h
      have : 4 * d * (8 * ((n + 7) / 8)) = 4 * d * n := by linarith
      exact Nat.eq_of_mul_eq_mul_left (by omega) this
    · intro h
      refine ⟨hb, ?_⟩
      have : d * 32 * ((n + 7) / 8) = 4 * d * n := by
        calc d * 32 * ((n + 7) / 8) = 4 * d * (8 * ((n + 7) / 8)) := by ring
          _ = 4 * d * n := by rw [h]
      exact_mod_cast this
  · rw [div_le_div_iff₀ hbq hnq]
    have : plain d * n ≤ d * 32 * ((n + 7) / 8) := by
      unfold plain
      calc 4 * d * n ≤ 4 * d * (8 * ((n + 7) / 8)) := Nat.mul_le_mul_left _ (by omega)
        _ = d * 32 * ((n + 7) / 8) := by ring
    exact_mod_cast this

/-- C246 for the scalar quantizer: the ratio is 32 by the bits per coordinate. It is what the code of every vector saves when the bits of a
code fill whole bytes. Missing: other numbers of bits (`C246_scalar_violated`). -/
theorem C246_scalar_partial (s : SQ) (hs : s.Ready) (hd : 0 < s.dim) (h8 : 8 ∣ s.dim * s.nbits) (v : Vec) (hv : v.length = s.dim) :
    ∃ r bs, ofScalar s = some r ∧ s.encode v = some bs ∧ r = 32 / (s.nbits : ℚ) ∧ Saves r (plain s.dim) bs.length := by
  have hb := hs.bits
  have hn : 0 < s.dim * s.nbits := Nat.mul_pos hd hb
  obtain ⟨bs, h1, h2, -⟩ := decode_encode s hs v hv
  refine ⟨_, bs, by unfold ofScalar; rw [if_neg (by omega)], h1, ?_, ?_⟩
  · have hdq : (s.dim : ℚ) ≠ 0 := by exact_mod_cast hd.ne'
    push_cast
    rw [mul_div_mul_left _ _ hdq]
  · rw [h2]
    exact (bits s.dim _ hn hd).1.2 h8

/-- C246 is violated by every scalar quantizer whose codes do not fill whole bytes: the ratio is more than any code saves. -/
theorem C246_scalar_violated (s : SQ) (hs : s.Ready) (hd : 0 < s.dim) (h8 : ¬ 8 ∣ s.dim * s.nbits) (v : Vec) (hv : v.length = s.dim) :
    ∃ r bs, ofScalar s = some r ∧ s.encode v = some bs ∧ (plain s.dim : ℚ) / bs.length < r := by
  have hb := hs.bits
  have hn : 0 < s.dim * s.nbits := Nat.mul_pos hd hb
  obtain ⟨bs, h1, h2, -⟩ := decode_encode s hs v hv
  refine ⟨_, bs, by unfold ofScalar; rw [if_neg (by omega)], h1, ?_⟩
  rw [h2]
  obtain ⟨b1, b2⟩ := bits s.dim _ hn hd
  refine lt_of_le_of_ne b2 (fun e => h8 (b1.1 ⟨by omega, e.symm⟩))

/-- C246 for the binary quantizer: the ratio is 32, and it is what every code saves when the dimension is a multiple of eight. Missing: other
dimensions (`C246_binary_violated`). -/
theorem C246_binary_partial (b : BQ) (hb : b.Ready) (hd : 0 < b.dim) (h8 : 8 ∣ b.dim) (v : Vec) (hv : v.length = b.dim) :
    ∃ r bs, ofBinary b = some r ∧ b.encode v = some bs ∧ r = 32 ∧ Saves r (plain b.dim) bs.length := by
  obtain ⟨bs, h1, h2, -⟩ := encode_spec b hb v hv
  refine ⟨_, bs, by unfold ofBinary; rw [if_neg (by omega)], h1, ?_, ?_⟩
  · have hdq : (b.dim : ℚ) ≠ 0 := by exact_mod_cast hd.ne'
    push_cast
    rw [mul_div_cancel_left₀ _ hdq]
  · rw [h2]
    exact (bits b.dim _ hd hd).1.2 h8

/-- C246 is violated by every binary quantizer of another dimension. -/
theorem C246_binary_violated (b : BQ) (hb : b.Ready) (hd : 0 < b.dim) (h8 : ¬ 8 ∣ b.dim) (v : Vec) (hv : v.length = b.dim) :
    ∃ r bs, ofBinary b = some r ∧ b.encode v = some bs ∧ (plain b.dim : ℚ) / bs.length < r := by
  obtain ⟨bs, h1, h2, -⟩ := encode_spec b hb v hv
  refine ⟨_, bs, by unfold ofBinary; rw [if_neg (by omega)], h1, ?_⟩
  rw [h2]
  obtain ⟨b1, b2⟩ := bits b.dim _ hd hd
  exact lt_of_le_of_ne b2 (fun e => h8 (b1.1 ⟨by omega, e.symm⟩))

end Verif.Ratio

namespace Verif.Ratio
open Verif.PQuant
variable {F S : Type} [LinearOrder S]

/-- C246 for the product quantizer: the ratio is what the code of every vector saves. -/
theorem C246_product (E : Env F S) (hE : E.Fits) (p : PQ F) (hp : p.Ready) (hm : 0 < p.m) (v : List F) (hv : v.length = p.d) :
    ∃ r cs, ofProduct p = some r ∧ p.encode E v = .ok cs ∧ Saves r (plain p.d) cs.length := by
  obtain ⟨cs, h1, h2, -⟩ := C40_encode_nearest E hE p hp v hv
  refine ⟨_, cs, by unfold ofProduct; rw [if_neg (by omega)], h1, ?_⟩
  rw [h2]
  refine ⟨hm, ?_⟩
  unfold plain
  rw [Nat.mul_comm]

end Verif.Ratio

namespace Verif.Ratio
open Verif.Quant Verif.QuantIndex
variable {I : Type} [DecidableEq I]

/-- C246 for an index whose quantizer is trained: each record that is inserted takes the bytes of a code and no more. -/
theorem C246_index (q : SQ) (hq : q.Ready) (ns : List (Node I)) (p : I × Vec) (hp : p.2.length = q.dim) (hnew : ∀ n ∈ ns, n.id ≠ p.1) :
    indexBytes (insert ⟨some q, ns⟩ p.1 p.2).1 = indexBytes (⟨some q, ns⟩ : Ix I) + (q.dim * q.nbits + 7) / 8 := by
  obtain ⟨bs, h1, h2, -⟩ := decode_encode q hq p.2 hp
  have hn : ns.any (fun n => decide (n.id = p.1)) = false := by
    rw [List.any_eq_false]; intro n hm; simpa using hnew n hm
  unfold QuantIndex.insert
  simp only [hn, Bool.false_eq_true, if_false, Option.bind_some, h1, Option.isSome_some, if_true, indexBytes, List.map_append, List.sum_append,
    List.map_cons, List.map_nil, List.sum_cons, List.sum_nil, nodeBytes, Option.getD_none, Option.getD_some, List.length_nil, h2]
  omega

/-- C246 is violated by every record that is inserted before the quantizer is trained: it takes four bytes for each coordinate, and training the
quantizer later does not change that. -/
theorem C246_untrained_violated (A : Arith) (q : SQ) (hq : q.trained = false) (ns : List (Node I)) (p : I × Vec) (hnew : ∀ n ∈ ns, n.id ≠ p.1)
    (rows : List (I × Vec)) (r : Ix I × Bool) (ht : trainQuantizer A (insert ⟨some q, ns⟩ p.1 p.2).1 rows = some r) :
    indexBytes r.1 = indexBytes (⟨some q, ns⟩ : Ix I) + plain p.2.length := by
  have hn : ns.any (fun n => decide (n.id = p.1)) = false := by
    rw [List.any_eq_false]; intro n hm; simpa using hnew n hm
  have he : q.encode p.2 = none := by unfold SQ.encode; rw [if_pos hq]
  have e : (insert ⟨some q, ns⟩ p.1 p.2).1 = ⟨some q, ns ++ [⟨p.1, some p.2, none⟩]⟩ := by
    unfold QuantIndex.insert
    simp only [hn, Bool.false_eq_true, if_false, Option.bind_some, he, Option.isSome_none]
  rw [e] at ht
  have hnodes : r.1.nodes = ns ++ [⟨p.1, some p.2, none⟩] := by
    unfold trainQuantizer at ht
    simp only at ht
    split at ht
    · cases ht; rfl
    · rw [Option.map_eq_some_iff] at ht
      obtain ⟨x, -, rfl⟩ := ht
      rfl
  unfold indexBytes
  rw [hnodes]
  simp [nodeBytes, plain]

/-! ### The hypotheses can be met -/

def q3 : SQ := ⟨3, 4, [(0, 1), (0, 1), (0, 2)], true⟩
def q4 : SQ := ⟨4, 4, [(0, 1), (0, 1), (0, 2), (-1, 1)], true⟩

example : q3.Ready ∧ ¬ 8 ∣ q3.dim * q3.nbits := ⟨⟨rfl, by decide, rfl, by decide +kernel⟩, by decide⟩
example : q4.Ready ∧ 8 ∣ q4.dim * q4.nbits := ⟨⟨rfl, by decide, rfl, by decide +kernel⟩, by decide⟩
example : (⟨8, List.replicate 8 0, true⟩ : BQ).Ready ∧ 8 ∣ 8 ∧ (⟨3, List.replicate 3 0, true⟩ : BQ).Ready ∧ ¬ 8 ∣ 3 :=
  ⟨⟨rfl, rfl⟩, by decide, ⟨rfl, rfl⟩, by decide⟩
example : indexBytes (insert (insert (⟨some q4, []⟩ : Ix Nat) 1 [0, 1, 1, 0]).1 2 [1, 1, 2, 0]).1 = 4 := by decide +kernel
example : ((trainQuantizer ⟨fun x => x + 1, fun x => x + 1, fun x => x - 1⟩
    (insert (⟨some ⟨2, 8, [(0, 0), (0, 0)], false⟩, []⟩ : Ix Nat) 1 [0, 1]).1 [(1, [0, 1])]).map (fun r => (indexBytes r.1, r.2))) = some (8, false) := by
  decide +kernel

end Verif.Ratio
