import Verif.Base.Heap

/-!
Quicksort in place with the last element of the range as pivot, as written in /repo/pkg/index/flat.go:244-267. A range is given by
its first position and its length.
-/
namespace Verif.Base

variable {α : Type}

/-- The loop of `partition`: `m` is `i + 1`. -/
def partLoop (le : α → α → Bool) (pivot : α) : Nat → List α → Nat → Nat → List α × Nat
  | 0, a, m, _ => (a, m)
  | c + 1, a, m, j =>
    match a[j]? with
    | none => (a, m)
    | some x => if le x pivot then partLoop le pivot c (hswap a m j) (m + 1) (j + 1) else partLoop le pivot c a m (j + 1)

/-- `partition`. -/
def part (le : α → α → Bool) (a : List α) (lo n : Nat) : List α × Nat :=
  match a[lo + n - 1]? with
  | none => (a, lo)
  | some p => (hswap (partLoop le p (n - 1) a lo lo).1 (partLoop le p (n - 1) a lo lo).2 (lo + n - 1), (partLoop le p (n - 1) a lo lo).2)

/-- `quickSortResults`; the fuel is at least the length of the range. -/
def quick (le : α → α → Bool) : Nat → List α → Nat → Nat → List α
  | 0, a, _, _ => a
  | f + 1, a, lo, n =>
    if n ≤ 1 then a
    else quick le f (quick le f (part le a lo n).1 lo ((part le a lo n).2 - lo)) ((part le a lo n).2 + 1) (lo + n - 1 - (part le a lo n).2)

/-- `b` is `a` with the positions from `lo` to before `hi` rearranged. -/
structure Rearr (key : α → ℚ) (a b : List α) (lo hi : Nat) : Prop where
  perm : b.Perm a
  out : ∀ x, x < lo ∨ hi ≤ x → kat key b x = kat key a x
  seg : ∀ Q : ℚ → Prop, (∀ x, lo ≤ x → x < hi → Q (kat key a x)) → ∀ x, lo ≤ x → x < hi → Q (kat key b x)

theorem Rearr.refl (key : α → ℚ) (a : List α) (lo hi : Nat) : Rearr key a a lo hi := ⟨List.Perm.refl a, fun _ _ => rfl, fun _ h => h⟩

theorem Rearr.trans {key : α → ℚ} {a b c : List α} {lo hi : Nat} (h1 : Rearr key a b lo hi) (h2 : Rearr key b c lo hi) : Rearr key a c lo hi :=
  ⟨h2.perm.trans h1.perm, fun x hx => (h2.out x hx).trans (h1.out x hx), fun Q hq => h2.seg Q (h1.seg Q hq)⟩

theorem Rearr.mono {key : α → ℚ} {a b : List α} {lo hi lo' hi' : Nat} (h : Rearr key a b lo hi) (hl : lo' ≤ lo) (hh : hi ≤ hi') : Rearr key a b lo' hi' := by
  refine ⟨h.perm, fun x hx => h.out x (by omega), ?_⟩
  intro Q hq x hx1 hx2
  by_cases hin : lo ≤ x ∧ x < hi
  · exact h.seg Q (fun y hy1 hy2 => hq y (by omega) (by omega)) x hin.1 hin.2
  · rw [h.out x (by omega)]
    exact hq x hx1 hx2

theorem rearr_swap (key : α → ℚ) (a : List α) (lo hi i j : Nat) (hi1 : lo ≤ i) (hi2 : i < hi) (hj1 : lo ≤ j) (hj2 : j < hi) (hl : hi ≤ a.length) :
    Rearr key a (hswap a i j) lo hi := by
  refine ⟨hswap_perm a i j, ?_, ?_⟩
  · intro x hx
    rw [hswap_kat key a (by omega) (by omega), if_neg (by omega), if_neg (by omega)]
  · intro Q hq x hx1 hx2
    rw [hswap_kat key a (by omega) (by omega)]
    split_ifs
    · exact hq i hi1 hi2
    · exact hq j hj1 hj2
    · exact hq x hx1 hx2

theorem kat_get (key : α → ℚ) (a : List α) (i : Nat) (x : α) (h : a[i]? = some x) : kat key a i = key x := by
  unfold kat; rw [h]; rfl

theorem partLoop_spec (key : α → ℚ) (le : α → α → Bool) (hle : ∀ a b, le a b = true ↔ key a ≤ key b) (p : α) (c : Nat) :
    ∀ (a : List α) (m j lo : Nat), lo ≤ m → m ≤ j → j + c ≤ a.length →
      (∀ x, lo ≤ x → x < m → kat key a x ≤ key p) → (∀ x, m ≤ x → x < j → key p < kat key a x) →
      ∃ b m', partLoop le p c a m j = (b, m') ∧ lo ≤ m' ∧ m' ≤ j + c ∧ Rearr key a b lo (j + c) ∧
        (∀ x, lo ≤ x → x < m' → kat key b x ≤ key p) ∧ (∀ x, m' ≤ x → x < j + c → key p < kat key b x) := by
  induction c with
  | zero =>
    intro a m j lo h1 h2 h3 h4 h5
    exact ⟨a, m, rfl, h1, h2, Rearr.refl _ _ _ _, h4, h5⟩
  | succ c ih =>
    intro a m j lo h1 h2 h3 h4 h5
    have hj : j < a.length := by omega
    have hg : a[j]? = some a[j] := List.getElem?_eq_getElem hj
    have hk := kat_get key a j _ hg
    unfold partLoop
    rw [hg]
    simp only
    by_cases hx : le a[j] p = true
    · rw [if_pos hx]
      rw [hle] at hx
      have hsw : ∀ x, kat key (hswap a m j) x = if x = j then kat key a m else if x = m then kat key a j else kat key a x :=
        fun x => hswap_kat key a (by omega) hj x
      obtain ⟨b, m', b1, b2, b3, b4, b5, b6⟩ := ih (hswap a m j) (m + 1) (j + 1) lo (by omega) (by omega) (by rw [hswap_length]; omega)
        (by
          intro x hx1 hx2
          rw [hsw]
          split_ifs with e1 e2
          · have hmj : m = j := by omega
            rw [hmj, hk]; exact hx
          · rw [hk]; exact hx
          · exact h4 x hx1 (by omega))
        (by
          intro x hx1 hx2
          rw [hsw]
          split_ifs with e1 e2
          · exact h5 m (le_refl _) (by omega)
          · omega
          · exact h5 x (by omega) (by omega))
      refine ⟨b, m', b1, b2, by omega, ?_, b5, ?_⟩
      · have hr := rearr_swap key a lo (j + 1 + c) m j (by omega) (by omega) (by omega) (by omega) (by omega)
        have := hr.trans b4
        rw [show j + (c + 1) = j + 1 + c by omega]
        exact this
      · intro x hx1 hx2
        exact b6 x hx1 (by omega)
    · rw [if_neg hx]
      rw [hle] at hx
      obtain ⟨b, m', b1, b2, b3, b4, b5, b6⟩ := ih a m (j + 1) lo (by omega) (by omega) (by omega) h4
        (by
          intro x hx1 hx2
          by_cases e : x = j
          · rw [e, hk]; exact lt_of_not_ge hx
          · exact h5 x hx1 (by omega))
      refine ⟨b, m', b1, b2, by omega, ?_, b5, ?_⟩
      · rw [show j + (c + 1) = j + 1 + c by omega]
        exact b4
      · intro x hx1 hx2
        exact b6 x hx1 (by omega)

theorem part_spec (key : α → ℚ) (le : α → α → Bool) (hle : ∀ a b, le a b = true ↔ key a ≤ key b) (a : List α) (lo n : Nat) (hn : 0 < n)
    (hl : lo + n ≤ a.length) : ∃ b m, part le a lo n = (b, m) ∧ lo ≤ m ∧ m < lo + n ∧ Rearr key a b lo (lo + n) ∧
      (∀ x, lo ≤ x → x < m → kat key b x ≤ kat key b m) ∧ (∀ x, m < x → x < lo + n → kat key b m ≤ kat key b x) := by
  have hj : lo + n - 1 < a.length := by omega
  have hg : a[lo + n - 1]? = some a[lo + n - 1] := List.getElem?_eq_getElem hj
  unfold part
  rw [hg]
  simp only
  obtain ⟨b, m, b1, b2, b3, b4, b5, b6⟩ := partLoop_spec key le hle a[lo + n - 1] (n - 1) a lo lo lo (le_refl _) (le_refl _) (by omega)
    (by intro x h1 h2; omega) (by intro x h1 h2; omega)
  rw [b1]
  simp only
  have hblen : b.length = a.length := b4.perm.length_eq
  have hsw : ∀ x, kat key (hswap b m (lo + n - 1)) x = if x = lo + n - 1 then kat key b m else if x = m then kat key b (lo + n - 1) else kat key b x :=
    fun x => hswap_kat key b (by omega) (by omega) x
  have hp : kat key b (lo + n - 1) = key a[lo + n - 1] := by
    rw [b4.out _ (by omega)]
    exact kat_get key a _ _ hg
  refine ⟨_, m, rfl, b2, by omega, (b4.mono (le_refl _) (by omega)).trans (rearr_swap key b lo (lo + n) m (lo + n - 1) b2 (by omega) (by omega) (by omega) (by omega)), ?_, ?_⟩
  · intro x h1 h2
    rw [hsw x, hsw m, if_neg (by omega), if_neg (by omega)]
    have := b5 x h1 h2
    by_cases e1 : m = lo + n - 1
    · rw [if_pos e1, e1, hp]
      exact this
    · rw [if_neg e1, if_pos rfl, hp]; exact this
  · intro x h1 h2
    rw [hsw x, hsw m, if_neg (show m ≠ lo + n - 1 by omega), if_pos rfl, hp]
    split_ifs with e1 e2
    · exact le_of_lt (b6 m (le_refl _) (by omega))
    · omega
    · exact le_of_lt (b6 x (by omega) (by omega))

theorem quick_spec (key : α → ℚ) (le : α → α → Bool) (hle : ∀ a b, le a b = true ↔ key a ≤ key b) (f : Nat) :
    ∀ (a : List α) (lo n : Nat), n ≤ f → lo + n ≤ a.length →
      Rearr key a (quick le f a lo n) lo (lo + n) ∧ ∀ i j, lo ≤ i → i ≤ j → j < lo + n → kat key (quick le f a lo n) i ≤ kat key (quick le f a lo n) j := by
  induction f with
  | zero =>
    intro a lo n hn hl
    exact ⟨Rearr.refl _ _ _ _, fun i j h1 h2 h3 => by omega⟩
  | succ f ih =>
    intro a lo n hn hl
    unfold quick
    by_cases h1 : n ≤ 1
    · rw [if_pos h1]
      refine ⟨Rearr.refl _ _ _ _, fun i j h2 h3 h4 => ?_⟩
      rw [show i = j by omega]
    · rw [if_neg h1]
      obtain ⟨b, m, b1, b2, b3, b4, b5, b6⟩ := part_spec key le hle a lo n (by omega) hl
      rw [b1]
      simp only
      have hbl : b.length = a.length := b4.perm.length_eq
      obtain ⟨c1, c2⟩ := ih b lo (m - lo) (by omega) (by omega)
      rw [show lo + (m - lo) = m by omega] at c1 c2
      generalize quick le f b lo (m - lo) = c at c1 c2
      have hcl : c.length = b.length := c1.perm.length_eq
      obtain ⟨d1, d2⟩ := ih c (m + 1) (lo + n - 1 - m) (by omega) (by omega)
      rw [show m + 1 + (lo + n - 1 - m) = lo + n by omega] at d1 d2
      generalize quick le f c (m + 1) (lo + n - 1 - m) = d at d1 d2
      refine ⟨b4.trans ((c1.mono (le_refl _) (by omega)).trans (d1.mono (by omega) (le_refl _))), ?_⟩
      have hm : kat key d m = kat key b m := by rw [d1.out m (by omega), c1.out m (by omega)]
      have hlow : ∀ x, lo ≤ x → x < m → kat key d x ≤ kat key b m := by
        intro x h1 h2
        rw [d1.out x (by omega)]
        exact c1.seg (fun v => v ≤ kat key b m) (fun y h3 h4 => b5 y h3 h4) x h1 h2
      have hhigh : ∀ x, m < x → x < lo + n → kat key b m ≤ kat key d x := by
        intro x h1 h2
        refine d1.seg (fun v => kat key b m ≤ v) (fun y h3 h4 => ?_) x (by omega) h2
        rw [c1.out y (by omega)]
        exact b6 y (by omega) h4
      intro i j h2 h3 h4
      rcases lt_trichotomy i m with hi | hi | hi
      · rcases lt_trichotomy j m with hj | hj | hj
        · rw [d1.out i (by omega), d1.out j (by omega)]
          exact c2 i j h2 h3 hj
        · rw [hj, hm]; exact hlow i h2 hi
        · exact le_trans (hlow i h2 hi) (hhigh j hj h4)
      · rcases lt_trichotomy j m with hj | hj | hj
        · omega
        · rw [hi, hj]
        · rw [hi, hm]; exact hhigh j hj h4
      · exact d2 i j (by omega) h3 h4

/-- Sorting the whole list. -/
theorem quick_sorts (key : α → ℚ) (le : α → α → Bool) (hle : ∀ a b, le a b = true ↔ key a ≤ key b) (a : List α) :
    (quick le a.length a 0 a.length).Perm a ∧ (quick le a.length a 0 a.length).Pairwise (fun x y => key x ≤ key y) := by
  obtain ⟨h1, h2⟩ := quick_spec key le hle a.length a 0 a.length (le_refl _) (by omega)
  refine ⟨h1.perm, ?_⟩
  rw [List.pairwise_iff_getElem]
  intro i j hi hj hij
  have hlen := h1.perm.length_eq
  have := h2 i j (by omega) (by omega) (by omega)
  rw [kat_get key _ i _ (List.getElem?_eq_getElem hi), kat_get key _ j _ (List.getElem?_eq_getElem hj)] at this
  exact this

end Verif.Base
