import Verif.Model.MockEmbed
import Mathlib.Tactic.Linarith
import Mathlib.Data.Nat.ModEq
import Mathlib.Data.Int.GCD
import Mathlib.Tactic.NormNum
import Mathlib.Tactic.Ring
import Mathlib.Tactic.Positivity

/-!
C255: what the built-in embedder of the semantic router returns.
-/
namespace Verif.MockEmbed

/-- What is used of the conversion of an `int32` to `float32`: larger numbers do not become smaller, and a number of 24 significant bits is kept. -/
structure Rounds (round : Int → ℚ) : Prop where
  mono : ∀ a b, a ≤ b → round a ≤ round b
  exact : ∀ m : Int, -2 ^ 24 ≤ m → m ≤ 2 ^ 24 → round (m * 128) = (m * 128 : Int)

/-- Rounding down to a multiple of 128 is such a conversion, and so is none at all. -/
theorem rounds_id : Rounds (fun x => (x : ℚ)) := ⟨fun _ _ h => by exact_mod_cast h, fun _ _ _ => rfl⟩

theorem rounds_down : Rounds (fun x => ((x / 128 * 128 : Int) : ℚ)) :=
  ⟨fun a b h => by exact_mod_cast (by omega : a / 128 * 128 ≤ b / 128 * 128), fun m _ _ => by congr 1; omega⟩

theorem fill_length (round : Int → ℚ) : ∀ n s, (fill round n s).length = n
  | 0, _ => rfl
  | n + 1, s => by rw [fill, List.length_cons, fill_length round n]

theorem fill_take (round : Int → ℚ) : ∀ n m s, n ≤ m → (fill round m s).take n = fill round n s
  | 0, _, _, _ => by simp [fill]
  | n + 1, 0, _, h => absurd h (by omega)
  | n + 1, m + 1, s, h => by rw [fill, fill, List.take_succ_cons, fill_take round n m _ (by omega)]

/-- C255: every text, the empty one too, has a vector of as many components as `Dimensions` says, for every dimension that is not
negative. -/
theorem C255_length (round : Int → ℚ) (d : Int) (hd : 0 ≤ d) (text : List Char) :
    ∃ v, embed round d text = some v ∧ (v.length : Int) = dimensionsOf d := by
  refine ⟨_, by unfold embed; rw [if_neg (by omega)], ?_⟩
  rw [fill_length]
  unfold dimensionsOf
  omega

/-- C255: a batch has one vector for every text, in order, each the one the text has by itself. -/
theorem C255_batch (round : Int → ℚ) (d : Int) (hd : 0 ≤ d) (texts : List (List Char)) :
    ∃ vs, embedBatch round d texts = some vs ∧ vs.map some = texts.map (embed round d) := by
  induction texts with
  | nil => exact ⟨[], rfl, rfl⟩
  | cons t ts ih =>
    obtain ⟨vs, h1, h2⟩ := ih
    obtain ⟨v, h3, -⟩ := C255_length round d hd t
    exact ⟨v :: vs, by rw [embedBatch, h3]; simp [h1], by rw [List.map_cons, List.map_cons, h2, h3]⟩

/-- C255: a smaller dimension gives the beginning of the vector of a larger one. -/
theorem C255_prefix (round : Int → ℚ) (d e : Int) (hd : 0 ≤ d) (h : d ≤ e) (text : List Char) (v w : List ℚ)
    (hv : embed round d text = some v) (hw : embed round e text = some w) : v = w.take d.toNat := by
  unfold embed at hv hw
  rw [if_neg (by omega), Option.some.injEq] at hv hw
  rw [← hv, ← hw, fill_take round _ _ _ (by omega)]

theorem next_lt (s : Nat) : next s < 2 ^ 32 := Nat.mod_lt _ (by norm_num)

theorem component_range {round : Int → ℚ} (hr : Rounds round) (s : Nat) (hs : s < 2 ^ 32) : -2 ≤ component round s ∧ component round s ≤ 2 := by
  have h1 : -2 ^ 31 ≤ int32 s ∧ int32 s ≤ 2 ^ 31 := by unfold int32; split <;> constructor <;> omega
  have lo := hr.mono _ _ h1.1
  have hi := hr.mono _ _ h1.2
  have e1 := hr.exact (-2 ^ 24) (le_refl _) (by norm_num)
  have e2 := hr.exact (2 ^ 24) (by norm_num) (le_refl _)
  norm_num at e1 e2 lo hi
  rw [e1] at lo
  rw [e2] at hi
  unfold component
  constructor <;> linarith

theorem fill_mem (round : Int → ℚ) : ∀ n s x, x ∈ fill round n s → ∃ t < 2 ^ 32, x = component round t
  | 0, _, x, h => by simp [fill] at h
  | n + 1, s, x, h => by
    rw [fill, List.mem_cons] at h
    rcases h with h | h
    · exact ⟨_, next_lt s, h⟩
    · exact fill_mem round n _ x h

/-- C255: every component of every vector is between -2 and 2. -/
theorem C255_range {round : Int → ℚ} (hr : Rounds round) (d : Int) (text : List Char) (v : List ℚ) (hv : embed round d text = some v) :
    ∀ x ∈ v, -2 ≤ x ∧ x ≤ 2 := by
  unfold embed at hv
  split at hv
  · cases hv
  rw [Option.some.injEq] at hv
  subst hv
  intro x hx
  obtain ⟨t, ht, rfl⟩ := fill_mem round _ _ x hx
  exact component_range hr t ht

/-- C255 is violated for the range the source states, from -1 to 1: in every dimension the text "d" has a first component above 1. -/
theorem C255_range_violated {round : Int → ℚ} (hr : Rounds round) (d : Int) (hd : 0 < d) :
    ∃ x v, embed round d ['d'] = some (x :: v) ∧ 1 < x := by
  obtain ⟨n, rfl⟩ : ∃ n : Nat, d = (n + 1 : Nat) := ⟨(d - 1).toNat, by omega⟩
  refine ⟨component round 1180356723, fill round n 1180356723, ?_, ?_⟩
  · unfold embed
    rw [if_neg (by omega), Int.toNat_natCast, fill, show next (hash ['d'] % 2 ^ 32) = 1180356723 by decide]
  · have h1 := hr.mono (8912896 * 128) 1180356723 (by norm_num)
    have h2 := hr.exact 8912896 (by norm_num) (by norm_num)
    have h3 : int32 1180356723 = 1180356723 := by decide
    unfold component
    rw [h3]
    norm_num at h2 h1
    rw [h2] at h1
    linarith

theorem foldl_same (s : List Char) : ∀ (p q : List Char) (h : Nat), p.foldl hashStep h = q.foldl hashStep h →
    (p ++ s).foldl hashStep h = (q ++ s).foldl hashStep h := by
  intro p q h hpq
  rw [List.foldl_append, List.foldl_append, hpq]

/-- C255 is violated for telling texts apart: any two texts that differ only in having "Aa" where the other has "BB" have the same vector, in
every dimension. -/
theorem C255_distinct_violated (round : Int → ℚ) (d : Int) (before behind : List Char) :
    before ++ ['A', 'a'] ++ behind ≠ before ++ ['B', 'B'] ++ behind ∧
    embed round d (before ++ ['A', 'a'] ++ behind) = embed round d (before ++ ['B', 'B'] ++ behind) := by
  constructor
  · intro h
    have := List.append_cancel_left (List.append_cancel_right h)
    exact absurd this (by decide)
  · have hh : hash (before ++ ['A', 'a'] ++ behind) = hash (before ++ ['B', 'B'] ++ behind) := by
      unfold hash
      refine foldl_same behind _ _ 0 ?_
      rw [List.foldl_append, List.foldl_append]
      generalize before.foldl hashStep 0 = h
      simp only [List.foldl_cons, List.foldl_nil, hashStep, show 'A'.toNat = 65 by decide, show 'a'.toNat = 97 by decide,
        show 'B'.toNat = 66 by decide]
      omega
    unfold embed
    rw [hh]

theorem next_inj (a b : Nat) (ha : a < 2 ^ 32) (hb : b < 2 ^ 32) (h : next a = next b) : a = b := by
  have h1 : a * 1664525 + 1013904223 ≡ b * 1664525 + 1013904223 [MOD 2 ^ 32] := h
  have h2 : a * 1664525 ≡ b * 1664525 [MOD 2 ^ 32] := Nat.ModEq.add_right_cancel' _ h1
  have h3 : a ≡ b [MOD 2 ^ 32] := Nat.ModEq.cancel_right_of_coprime (by decide) h2
  exact Nat.ModEq.eq_of_lt_of_lt h3 ha hb

theorem int32_eq (s : Nat) : ∃ j : Int, int32 s = s + 2 ^ 32 * j := by
  unfold int32
  split
  · exact ⟨0, by omega⟩
  · exact ⟨-1, by omega⟩

theorem int32_bounds (s : Nat) (hs : s < 2 ^ 32) : -2 ^ 31 ≤ int32 s ∧ int32 s < 2 ^ 31 := by
  unfold int32; split <;> constructor <;> omega

theorem int32_inj (x y : Nat) (hx : x < 2 ^ 32) (hy : y < 2 ^ 32) (h : int32 x = int32 y) : x = y := by
  unfold int32 at h
  split at h <;> split at h <;> omega

theorem next_eq (s : Nat) : ∃ j : Int, (next s : Int) = s * 1664525 + 1013904223 + 2 ^ 32 * j := by
  refine ⟨-(((s * 1664525 + 1013904223) / 2 ^ 32 : Nat) : Int), ?_⟩
  unfold next
  omega

/-- Numbers that become the same are close. -/
theorem round_close {round : Int → ℚ} (hr : Rounds round) (a b : Int) (ha : -2 ^ 31 ≤ a) (hb : b < 2 ^ 31) (h : round a = round b) : b - a < 256 := by
  by_contra hge
  have h1 := hr.mono a (-((-a) / 128) * 128) (by omega)
  have h2 := hr.exact (-((-a) / 128)) (by omega) (by omega)
  have h3 := hr.mono (b / 128 * 128) b (by omega)
  have h4 := hr.exact (b / 128) (by omega) (by omega)
  have h5 : -((-a) / 128) * 128 < b / 128 * 128 := by omega
  have h6 : ((-((-a) / 128) * 128 : Int) : ℚ) < ((b / 128 * 128 : Int) : ℚ) := by exact_mod_cast h5
  rw [h2] at h1
  rw [h4] at h3
  exact absurd (h6.trans_le (h3.trans (h.symm.le.trans h1))) (lt_irrefl _)

theorem component_close {round : Int → ℚ} (hr : Rounds round) (x y : Nat) (hx : x < 2 ^ 32) (hy : y < 2 ^ 32)
    (h : component round x = component round y) : -256 < int32 x - int32 y ∧ int32 x - int32 y < 256 := by
  unfold component at h
  have he : round (int32 x) = round (int32 y) := by linarith
  obtain ⟨a1, a2⟩ := int32_bounds x hx
  obtain ⟨b1, b2⟩ := int32_bounds y hy
  have h1 := round_close hr _ _ a1 b2 he
  have h2 := round_close hr _ _ b1 a2 he.symm
  constructor <;> omega

theorem distinct {round : Int → ℚ} (hr : Rounds round) (d : Int) (hd : 2 ≤ d) (s t : List Char)
    (h : hash s % 2 ^ 32 ≠ hash t % 2 ^ 32) : embed round d s ≠ embed round d t := by
  obtain ⟨n, rfl⟩ : ∃ n : Nat, d = (n + 1 + 1 : Nat) := ⟨(d - 2).toNat, by omega⟩
  intro he
  unfold embed at he
  rw [if_neg (by omega), if_neg (by omega), Int.toNat_natCast, fill, fill, fill, fill, Option.some.injEq, List.cons.injEq, List.cons.injEq] at he
  have l1 := next_lt (hash s % 2 ^ 32)
  have l2 := next_lt (hash t % 2 ^ 32)
  have hne : next (hash s % 2 ^ 32) ≠ next (hash t % 2 ^ 32) := fun hc =>
    h (next_inj _ _ (Nat.mod_lt _ (by norm_num)) (Nat.mod_lt _ (by norm_num)) hc)
  generalize next (hash s % 2 ^ 32) = x at *
  generalize next (hash t % 2 ^ 32) = y at *
  have c1 := component_close hr x y l1 l2 he.1
  have c2 := component_close hr _ _ (next_lt x) (next_lt y) he.2.1
  have hd0 : int32 x ≠ int32 y := fun hc => hne (int32_inj x y l1 l2 hc)
  obtain ⟨j1, e1⟩ := int32_eq x
  obtain ⟨j2, e2⟩ := int32_eq y
  obtain ⟨j3, e3⟩ := int32_eq (next x)
  obtain ⟨j4, e4⟩ := int32_eq (next y)
  obtain ⟨j5, e5⟩ := next_eq x
  obtain ⟨j6, e6⟩ := next_eq y
  have hJ : int32 (next x) - int32 (next y) =
      1664525 * (int32 x - int32 y) + 2 ^ 32 * (j3 - j4 + j5 - j6 - 1664525 * (j1 - j2)) := by
    rw [e3, e4, e5, e6, e1, e2]
    ring
  have hD : int32 x - int32 y ≠ 0 := by omega
  rw [hJ] at c2
  generalize int32 x - int32 y = D at c1 c2 hD
  generalize j3 - j4 + j5 - j6 - 1664525 * (j1 - j2) = J at c2
  clear e1 e2 e3 e4 e5 e6 hJ he hd h
  have hJ1 : J ≤ 0 := by omega
  have hJ2 : 0 ≤ J := by omega
  obtain rfl : J = 0 := by omega
  omega

/-- Specification: the number of a text, its runes read as digits to the base 31. -/
def code : List Char → Nat → Nat
  | [], acc => acc
  | c :: cs, acc => code cs (31 * acc + c.toNat)

theorem hash_code (text : List Char) : ∀ a b : Nat, a % 2 ^ 32 = b % 2 ^ 32 → text.foldl hashStep a % 2 ^ 32 = code text b % 2 ^ 32 := by
  induction text with
  | nil => intro a b h; exact h
  | cons c cs ih =>
    intro a b h
    rw [List.foldl_cons, code]
    apply ih
    unfold hashStep
    omega

/-- C255 for telling texts apart, as far as it holds: in every dimension from two on, and in spite of the rounding, two texts have the same
vector exactly when their numbers leave the same remainder. Missing: that no two texts have such numbers (violated above). -/
theorem C255_distinct_partial {round : Int → ℚ} (hr : Rounds round) (d : Int) (hd : 2 ≤ d) (s t : List Char) :
    embed round d s = embed round d t ↔ code s 0 % 2 ^ 32 = code t 0 % 2 ^ 32 := by
  rw [← hash_code s 0 0 rfl, ← hash_code t 0 0 rfl]
  constructor
  · intro he
    by_contra hne
    exact distinct hr d hd s t hne he
  · intro he
    unfold embed hash
    rw [he]

/-- C255: texts of one rune each have different vectors. -/
theorem C255_letters {round : Int → ℚ} (hr : Rounds round) (d : Int) (hd : 2 ≤ d) (a b : Char) (h : a ≠ b) :
    embed round d [a] ≠ embed round d [b] := by
  rw [Ne, C255_distinct_partial hr d hd]
  simp only [code]
  have hv : ∀ c : Char, c.toNat < 2 ^ 32 := fun c => c.val.toNat_lt
  have ha := hv a
  have hb := hv b
  intro he
  apply h
  apply Char.ext
  apply UInt32.toNat_inj.1
  change a.toNat = b.toNat
  omega

/-- Texts with different numbers, and their vectors. -/
example : code "yes".toList 0 % 2 ^ 32 ≠ code "no".toList 0 % 2 ^ 32 ∧
    embed (fun x => ((x / 128 * 128 : Int) : ℚ)) 3 "yes".toList ≠ embed (fun x => ((x / 128 * 128 : Int) : ℚ)) 3 "no".toList ∧
    ((embed (fun x => ((x / 128 * 128 : Int) : ℚ)) 3 "yes".toList).map List.length) = some 3 := by
  decide +kernel

/-- C255 is violated for a negative dimension: the embedder can be made, but every call panics. -/
theorem C255_negative_violated (round : Int → ℚ) (d : Int) (hd : d < 0) (text : List Char) : embed round d text = none := by
  unfold embed
  rw [if_pos hd]

end Verif.MockEmbed
