import Mathlib.Tactic.Common
import Mathlib.Data.List.Basic

/-!
Library semantics of Go strings as bytes: the UTF-8 encoding of a text (RFC 3629), and `len`, slicing and
`utf8.ValidString` in terms of it.
-/
namespace Verif.Base

/-- The UTF-8 bytes of a code point. -/
def encRune (v : Nat) : List Nat :=
  if v < 0x80 then [v]
  else if v < 0x800 then [0xC0 + v / 64, 0x80 + v % 64]
  else if v < 0x10000 then [0xE0 + v / 4096, 0x80 + v / 64 % 64, 0x80 + v % 64]
  else [0xF0 + v / 262144, 0x80 + v / 4096 % 64, 0x80 + v / 64 % 64, 0x80 + v % 64]

/-- The bytes of a character. -/
def encChar (c : Char) : List Nat := encRune c.toNat

/-- The bytes of a text. -/
def bytes (t : List Char) : List Nat := t.flatMap encChar

/-- `utf8.ValidString`: the bytes are the encoding of some text. -/
def ValidUtf8 (b : List Nat) : Prop := ∃ t : List Char, bytes t = b

/-- Byte offset `n` falls between two characters of the text, or at or beyond its end. -/
def Boundary (t : List Char) (n : Nat) : Prop := (bytes t).length ≤ n ∨ ∃ k, (bytes (t.take k)).length = n

@[simp] theorem bytes_nil : bytes [] = [] := rfl

@[simp] theorem bytes_cons (c : Char) (t : List Char) : bytes (c :: t) = encChar c ++ bytes t := by
  simp [bytes]

@[simp] theorem bytes_append (a b : List Char) : bytes (a ++ b) = bytes a ++ bytes b := by
  simp [bytes]

/-- The number of bytes a first byte announces. -/
def width (b : Nat) : Nat := if b < 0x80 then 1 else if b < 0xE0 then 2 else if b < 0xF0 then 3 else 4

theorem encRune_shape (v : Nat) : ∃ b r, encRune v = b :: r ∧ r.length + 1 = width b ∧ ∀ x ∈ r, 0x80 ≤ x := by
  unfold encRune
  split
  · exact ⟨v, [], rfl, by simp only [width]; rw [if_pos (by assumption)]; rfl, by simp⟩
  · split
    · refine ⟨_, _, rfl, ?_, by simp⟩
      have : v / 64 < 32 := by omega
      simp only [width]
      rw [if_neg (by omega), if_pos (by omega)]; rfl
    · split
      · refine ⟨_, _, rfl, ?_, by simp⟩
        have : v / 4096 < 16 := by omega
        simp only [width]
        rw [if_neg (by omega), if_neg (by omega), if_pos (by omega)]; rfl
      · refine ⟨_, _, rfl, ?_, by simp⟩
        simp only [width]
        rw [if_neg (by omega), if_neg (by omega), if_neg (by omega)]; rfl

theorem encChar_shape (c : Char) : ∃ b r, encChar c = b :: r ∧ r.length + 1 = width b ∧ ∀ x ∈ r, 0x80 ≤ x :=
  encRune_shape _

theorem encChar_ne_nil (c : Char) : encChar c ≠ [] := by
  obtain ⟨b, r, h, -, -⟩ := encChar_shape c
  simp [h]

/-- No encoding is a proper prefix of another one. -/
theorem encChar_prefix (c d : Char) (x y : List Nat) (h : encChar c ++ x = encChar d ++ y) :
    encChar c = encChar d ∧ x = y := by
  obtain ⟨b, r, hb, hw, -⟩ := encChar_shape c
  obtain ⟨b', r', hb', hw', -⟩ := encChar_shape d
  rw [hb, hb'] at h
  have e : b = b' := by
    have := congrArg List.head? h
    simpa using this
  have hl : (b :: r).length = (b' :: r').length := by simp [hw, hw', e]
  rw [hb, hb']
  exact List.append_inj h hl

theorem encRune_inj (v w : Nat) (h : encRune v = encRune w) : v = w := by
  unfold encRune at h
  repeat' split at h
  all_goals simp at h
  all_goals omega

theorem encChar_inj (c d : Char) (h : encChar c = encChar d) : c = d := by
  have := encRune_inj _ _ h
  exact Char.ext (UInt32.toNat_inj.1 this)

/-- Different texts have different bytes. -/
theorem bytes_inj : ∀ a b : List Char, bytes a = bytes b → a = b
  | [], [], _ => rfl
  | [], d :: b, h => by
    have := encChar_ne_nil d
    simp only [bytes_nil, bytes_cons] at h
    simp [this] at h
  | c :: a, [], h => by
    have := encChar_ne_nil c
    simp only [bytes_nil, bytes_cons] at h
    simp [this] at h
  | c :: a, d :: b, h => by
    simp only [bytes_cons] at h
    obtain ⟨h1, h2⟩ := encChar_prefix c d _ _ h
    rw [encChar_inj c d h1, bytes_inj a b h2]

/-- A cut at a byte offset followed by nothing or by an ASCII byte is valid only at a boundary. -/
theorem cut_boundary (t : List Char) : ∀ (n : Nat) (tail : List Nat) (u : List Char),
    (∀ b ∈ tail.head?, b < 0x80) → bytes u = (bytes t).take n ++ tail → Boundary t n := by
  induction t with
  | nil => intro n tail u _ _; exact Or.inl (by simp)
  | cons c t ih =>
    intro n tail u ht h
    by_cases h0 : n = 0
    · exact Or.inr ⟨0, by simp [h0]⟩
    by_cases hn : (encChar c).length ≤ n
    · have e : (bytes (c :: t)).take n = encChar c ++ (bytes t).take (n - (encChar c).length) := by
        rw [bytes_cons, List.take_append, List.take_of_length_le hn]
      rw [e] at h
      cases u with
      | nil =>
        exfalso
        have := encChar_ne_nil c
        simp [this] at h
      | cons d u =>
        rw [bytes_cons, List.append_assoc] at h
        obtain ⟨-, h2⟩ := encChar_prefix d c _ _ h
        rcases ih _ tail u ht h2 with h3 | ⟨k, h3⟩
        · left
          simp only [bytes_cons, List.length_append]
          omega
        · right
          refine ⟨k + 1, ?_⟩
          simp only [List.take_succ_cons, bytes_cons, List.length_append]
          omega
    · exfalso
      have e : (bytes (c :: t)).take n = (encChar c).take n := by
        rw [bytes_cons, List.take_append_of_le_length (by omega)]
      rw [e] at h
      obtain ⟨b, r, hb, hw, -⟩ := encChar_shape c
      have hbl : (encChar c).length = width b := by rw [hb]; simpa using hw
      obtain ⟨m, rfl⟩ : ∃ m, n = m + 1 := ⟨n - 1, by omega⟩
      cases u with
      | nil => rw [hb] at h; simp at h
      | cons d u =>
        obtain ⟨b', r', hb', hw', hc'⟩ := encChar_shape d
        rw [bytes_cons, hb', hb] at h
        simp only [List.cons_append, List.take_succ_cons, List.cons.injEq] at h
        obtain ⟨rfl, h⟩ := h
        have hr : m < r.length := by omega
        have hr' : r'.length = r.length := by omega
        cases tail with
        | nil =>
          have := congrArg List.length h
          simp at this
          omega
        | cons x tail =>
          have hx : x < 0x80 := ht x (by simp)
          have h4 := congrArg (fun l => l[m]?) h
          simp only [List.getElem?_append_left (show m < r'.length by omega)] at h4
          rw [List.getElem?_append_right (by rw [List.length_take]; omega)] at h4
          have hm : m - (List.take m r).length = 0 := by rw [List.length_take]; omega
          rw [hm] at h4
          simp only [List.getElem?_cons_zero] at h4
          have := hc' x (List.mem_of_getElem? h4)
          omega

/-- A cut at a boundary is the encoding of a prefix of the text. -/
theorem cut_prefix (t : List Char) (n : Nat) (h : Boundary t n) : ∃ p, p <+: t ∧ bytes p = (bytes t).take n := by
  rcases h with h | ⟨k, h⟩
  · exact ⟨t, List.prefix_refl t, (List.take_of_length_le h).symm⟩
  · refine ⟨t.take k, List.take_prefix k t, ?_⟩
    have : bytes t = bytes (t.take k) ++ bytes (t.drop k) := by
      rw [← bytes_append, List.take_append_drop]
    rw [this, ← h, List.take_left]

/-- The first `n` bytes of a text, followed by an ASCII text or nothing, are valid exactly at a boundary. -/
theorem cut_valid (t suffix : List Char) (hs : ∀ c ∈ suffix, c.toNat < 0x80) (n : Nat) :
    ValidUtf8 ((bytes t).take n ++ bytes suffix) ↔ Boundary t n := by
  constructor
  · rintro ⟨u, h⟩
    refine cut_boundary t n _ u ?_ h
    cases suffix with
    | nil => simp
    | cons c s =>
      have := hs c (by simp)
      simp [encChar, encRune, this]
  · intro h
    obtain ⟨p, -, hp⟩ := cut_prefix t n h
    exact ⟨p ++ suffix, by rw [bytes_append, hp]⟩

/-- In an ASCII text every offset is a boundary. -/
theorem ascii_boundary (t : List Char) (h : ∀ c ∈ t, c.toNat < 0x80) (n : Nat) : Boundary t n := by
  have hl : ∀ s : List Char, (∀ c ∈ s, c.toNat < 0x80) → (bytes s).length = s.length := by
    intro s
    induction s with
    | nil => intro _; rfl
    | cons c s ih =>
      intro hs
      have hc := hs c (by simp)
      rw [bytes_cons, List.length_append, ih (fun x hx => hs x (by simp [hx]))]
      simp [encChar, encRune, hc]
      omega
  by_cases hn : t.length ≤ n
  · left; rw [hl t h]; exact hn
  · right
    refine ⟨n, ?_⟩
    rw [hl _ (fun c hc => h c (List.mem_of_mem_take hc))]
    simp
    omega

end Verif.Base
