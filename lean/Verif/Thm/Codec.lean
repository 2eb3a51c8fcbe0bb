import Verif.Model.Codec
import Mathlib.Tactic.Common

/-! C01 and C02: the vector codec. -/
namespace Verif.Thm.Codec
open Verif.Model.Codec

theorem getWord_putWord (w : Nat) (hw : w < 4294967296) (rest : List UInt8) :
    getWord (putWord w ++ rest) = .ok (w, rest) := by
  simp only [putWord, List.cons_append, List.nil_append, getWord, UInt8.toNat_ofNat']
  congr 2
  omega

theorem getWords_flatMap (v : List UInt32) (rest : List UInt8) :
    getWords v.length (v.flatMap (fun x => putWord x.toNat) ++ rest) = .ok v := by
  induction v with
  | nil => rfl
  | cons x xs ih =>
    simp only [List.length_cons, List.flatMap_cons, List.append_assoc, getWords]
    rw [getWord_putWord _ (by have := x.toNat_lt; omega)]
    simp [ih]

theorem putWord_length (w : Nat) : (putWord w).length = 4 := rfl

theorem putWord_bytes (a b c d : UInt8) :
    putWord (a.toNat + 256 * b.toNat + 65536 * c.toNat + 16777216 * d.toNat) = [a, b, c, d] := by
  have ha := a.toNat_lt; have hb := b.toNat_lt; have hc := c.toNat_lt; have hd := d.toNat_lt
  unfold putWord
  have e1 : UInt8.ofNat (a.toNat + 256 * b.toNat + 65536 * c.toNat + 16777216 * d.toNat) = a := by
    apply UInt8.toNat_inj.1; simp only [UInt8.toNat_ofNat']; omega
  have e2 : UInt8.ofNat ((a.toNat + 256 * b.toNat + 65536 * c.toNat + 16777216 * d.toNat) / 256) = b := by
    apply UInt8.toNat_inj.1; simp only [UInt8.toNat_ofNat']; omega
  have e3 : UInt8.ofNat ((a.toNat + 256 * b.toNat + 65536 * c.toNat + 16777216 * d.toNat) / 65536) = c := by
    apply UInt8.toNat_inj.1; simp only [UInt8.toNat_ofNat']; omega
  have e4 : UInt8.ofNat ((a.toNat + 256 * b.toNat + 65536 * c.toNat + 16777216 * d.toNat) / 16777216) = d := by
    apply UInt8.toNat_inj.1; simp only [UInt8.toNat_ofNat']; omega
  rw [e1, e2, e3, e4]

theorem flatMap_length (v : List UInt32) :
    (v.flatMap (fun x => putWord x.toNat)).length = v.length * 4 := by
  induction v with
  | nil => rfl
  | cons x xs ih => rw [List.flatMap_cons, List.length_append, ih, putWord_length, List.length_cons]; omega

/-- C01: every vector that fits the format is restored exactly, whatever bytes follow the blob. -/
theorem C01_roundtrip (v : List UInt32) (h : v.length ≤ 2147483647) (junk : List UInt8) :
    ∃ blob, encodeVector (some v) = .ok blob ∧ blob.length = 4 + 4 * v.length ∧
      decodeVector (blob ++ junk) = .ok v := by
  refine ⟨putWord v.length ++ v.flatMap (fun x => putWord x.toNat), ?_, ?_, ?_⟩
  · simp [encodeVector, maxLen]; omega
  · rw [List.length_append, flatMap_length, putWord_length]; omega
  · unfold decodeVector
    rw [if_neg (by simp [putWord])]
    rw [List.append_assoc, getWord_putWord _ (by omega)]
    simp only
    rw [if_neg (by omega)]
    by_cases h0 : v.length = 0
    · rw [if_pos h0]; simp [List.length_eq_zero_iff.1 h0]
    · rw [if_neg h0, if_neg (by simp only [List.length_append, flatMap_length]; omega), getWords_flatMap]

example : ([0x3f800000, 0x7fc00001] : List UInt32).length ≤ 2147483647 := by decide

/-- C01: a nil vector and an oversized vector are refused. -/
theorem C01_refused :
    encodeVector none = .error .invalidVector ∧
      ∀ v : List UInt32, v.length > 2147483647 → encodeVector (some v) = .error .tooLarge := by
  refine ⟨rfl, fun v h => ?_⟩
  simp [encodeVector, maxLen, h]

/-- C01: two different vectors never share a blob. -/
theorem C01_injective (v w : List UInt32) (blob : List UInt8)
    (hv : encodeVector (some v) = .ok blob) (hw : encodeVector (some w) = .ok blob) : v = w := by
  have hv' : v.length ≤ 2147483647 := by
    by_contra hc
    rw [C01_refused.2 v (by omega)] at hv; cases hv
  have hw' : w.length ≤ 2147483647 := by
    by_contra hc
    rw [C01_refused.2 w (by omega)] at hw; cases hw
  obtain ⟨b1, e1, _, d1⟩ := C01_roundtrip v hv' []
  obtain ⟨b2, e2, _, d2⟩ := C01_roundtrip w hw' []
  rw [hv] at e1; rw [hw] at e2
  cases e1; cases e2
  rw [d1] at d2; cases d2; rfl

example : encodeVector (some [0x3f800000]) = .ok [1, 0, 0, 0, 0, 0, 0x80, 0x3f] := by decide

/-- The length a well formed header declares: the first four bytes, little endian. -/
def declared : List UInt8 → Nat
  | a :: b :: c :: d :: _ => a.toNat + 256 * b.toNat + 65536 * c.toNat + 16777216 * d.toNat
  | _ => 0

theorem getWords_ok (n : Nat) (data : List UInt8) (h : n * 4 ≤ data.length) :
    ∃ v, getWords n data = .ok v ∧ v.length = n ∧
      v.flatMap (fun x => putWord x.toNat) = data.take (n * 4) := by
  induction n generalizing data with
  | zero => exact ⟨[], rfl, rfl, by simp⟩
  | succ n ih =>
    match data, h with
    | a :: b :: c :: d :: rest, h =>
      obtain ⟨v, hv, hl, hf⟩ := ih rest (by simp only [List.length_cons] at h; omega)
      refine ⟨UInt32.ofNat (a.toNat + 256 * b.toNat + 65536 * c.toNat + 16777216 * d.toNat) :: v,
        by simp only [getWords, getWord, hv], by simp [hl], ?_⟩
      have ha := a.toNat_lt; have hb := b.toNat_lt; have hc := c.toNat_lt; have hd := d.toNat_lt
      have e : (n + 1) * 4 = n * 4 + 1 + 1 + 1 + 1 := by omega
      rw [e]
      have hw : (UInt32.ofNat (a.toNat + 256 * b.toNat + 65536 * c.toNat + 16777216 * d.toNat)).toNat =
          a.toNat + 256 * b.toNat + 65536 * c.toNat + 16777216 * d.toNat := by
        simp only [UInt32.toNat_ofNat']; omega
      rw [List.flatMap_cons, hf, hw, putWord_bytes]
      simp
    | [], h => simp at h
    | [a], h => simp at h; omega
    | [a, b], h => simp at h; omega
    | [a, b, c], h => simp at h; omega

/-- C02: decoding accepts exactly the byte strings with a non-negative length header and enough bytes. Anything else
is an error of the codec (never a short read). What is accepted has the declared length. -/
theorem C02_accepts_iff (data : List UInt8) :
    (∃ v, decodeVector data = .ok v) ↔
      (4 ≤ data.length ∧ declared data < 2147483648 ∧ 4 + declared data * 4 ≤ data.length) := by
  unfold decodeVector
  match data with
  | [] => simp
  | [_] => simp
  | [_, _] => simp
  | [_, _, _] => simp
  | a :: b :: c :: d :: rest =>
    simp only [getWord, declared, List.length_cons]
    generalize a.toNat + 256 * b.toNat + 65536 * c.toNat + 16777216 * d.toNat = n
    rw [if_neg (by omega)]
    by_cases h1 : n ≥ 2147483648
    · rw [if_pos h1]; constructor
      · rintro ⟨v, hv⟩; cases hv
      · rintro ⟨_, h, _⟩; omega
    rw [if_neg h1]
    by_cases h2 : n = 0
    · rw [if_pos h2]; constructor
      · intro _; omega
      · intro _; exact ⟨[], rfl⟩
    rw [if_neg h2]
    by_cases h3 : rest.length < n * 4
    · rw [if_pos h3]; constructor
      · rintro ⟨v, hv⟩; cases hv
      · rintro ⟨_, _, h⟩; omega
    · rw [if_neg h3]
      obtain ⟨v, hv, _, _⟩ := getWords_ok n rest (by omega)
      exact ⟨fun _ => by omega, fun _ => ⟨v, hv⟩⟩

/-- C02: an accepted blob has the declared number of components, and encoding the result gives back exactly the
bytes that were consumed. -/
theorem C02_exact (data : List UInt8) (v : List UInt32) (h : decodeVector data = .ok v) :
    v.length = declared data ∧ encodeVector (some v) = .ok (data.take (4 + declared data * 4)) := by
  have hacc := (C02_accepts_iff data).1 ⟨v, h⟩
  unfold decodeVector at h
  match data with
  | [] => simp at h
  | [_] => simp at h
  | [_, _] => simp at h
  | [_, _, _] => simp at h
  | a :: b :: c :: d :: rest =>
    simp only [getWord, declared, List.length_cons] at h hacc ⊢
    have ha := a.toNat_lt; have hb := b.toNat_lt; have hc := c.toNat_lt; have hd := d.toNat_lt
    have hput : putWord (a.toNat + 256 * b.toNat + 65536 * c.toNat + 16777216 * d.toNat) = [a, b, c, d] := putWord_bytes a b c d
    generalize a.toNat + 256 * b.toNat + 65536 * c.toNat + 16777216 * d.toNat = n at *
    rw [if_neg (by omega), if_neg (by omega)] at h
    have e : 4 + n * 4 = n * 4 + 1 + 1 + 1 + 1 := by omega
    by_cases h2 : n = 0
    · rw [if_pos h2] at h; cases h
      subst h2
      refine ⟨rfl, ?_⟩
      simp [encodeVector, maxLen, hput]
    rw [if_neg h2, if_neg (by omega)] at h
    obtain ⟨w, hw, hl, hf⟩ := getWords_ok n rest (by omega)
    rw [hw] at h; cases h
    refine ⟨hl, ?_⟩
    rw [encodeVector, if_neg (by simp only [maxLen]; omega), hl, hput, hf, e]
    simp

/-- C02: every rejection is reported as the invalid-vector error; the decoder never runs out of bytes midway. -/
theorem C02_rejects (data : List UInt8) (e : Err) (h : decodeVector data = .error e) : e = .invalidVector := by
  unfold decodeVector at h
  split at h
  · cases h; rfl
  · rename_i hlen
    match data with
    | a :: b :: c :: d :: rest =>
      simp only [getWord] at h
      generalize a.toNat + 256 * b.toNat + 65536 * c.toNat + 16777216 * d.toNat = n at *
      split at h
      · cases h; rfl
      split at h
      · cases h
      split at h
      · cases h; rfl
      · rename_i h3
        obtain ⟨v, hv, _, _⟩ := getWords_ok n rest (by omega)
        rw [hv] at h; cases h
    | [] => simp at hlen
    | [_] => simp at hlen
    | [_, _] => simp at hlen
    | [_, _, _] => simp at hlen

example : decodeVector [1, 0, 0, 0, 0, 0, 0x80, 0x3f, 9] = .ok [0x3f800000] := by decide
example : decodeVector [2, 0, 0, 0, 0, 0, 0x80, 0x3f] = .error .invalidVector := by decide

end Verif.Thm.Codec
