import Mathlib.Logic.Basic

/-! Walks in a graph, independent of any search. -/
namespace Verif.Spec

/-- A walk of exactly `n` steps of `R` from `a`. -/
inductive Walk {α : Type} (R : α → α → Prop) (a : α) : Nat → α → Prop
  | nil : Walk R a 0 a
  | snoc {n b c} : Walk R a n b → R b c → Walk R a (n + 1) c

/-- Some walk of at most `k` steps. -/
def Within {α : Type} (R : α → α → Prop) (k : Nat) (a b : α) : Prop := ∃ n, n ≤ k ∧ Walk R a n b

/-- Some walk of any length. -/
def Reach {α : Type} (R : α → α → Prop) (a b : α) : Prop := ∃ n, Walk R a n b

section
variable {α : Type} {R : α → α → Prop}

theorem Walk.cons {a b c : α} {n : Nat} (h : R a b) (w : Walk R b n c) : Walk R a (n + 1) c := by
  induction w with
  | nil => exact .snoc .nil h
  | snoc _ h2 ih => exact .snoc ih h2

theorem Walk.append {a b c : α} {m n : Nat} (u : Walk R a m b) (w : Walk R b n c) : Walk R a (m + n) c := by
  induction w with
  | nil => exact u
  | snoc _ h2 ih => exact .snoc ih h2

theorem Walk.reverse (hs : ∀ x y, R x y → R y x) {a b : α} {n : Nat} (w : Walk R a n b) : Walk R b n a := by
  induction w with
  | nil => exact .nil
  | snoc _ h2 ih => exact Walk.cons (hs _ _ h2) ih

theorem Walk.mono {S : α → α → Prop} (hs : ∀ x y, R x y → S x y) {a b : α} {n : Nat} (w : Walk R a n b) : Walk S a n b := by
  induction w with
  | nil => exact .nil
  | snoc _ h2 ih => exact .snoc ih (hs _ _ h2)

theorem walk_zero {a b : α} : Walk R a 0 b ↔ b = a := by
  constructor
  · intro h; cases h; rfl
  · rintro rfl; exact .nil

theorem within_zero {a b : α} : Within R 0 a b ↔ b = a := by
  constructor
  · rintro ⟨n, hn, w⟩
    obtain rfl : n = 0 := by omega
    exact walk_zero.1 w
  · rintro rfl; exact ⟨0, Nat.le_refl _, .nil⟩

theorem within_succ {k : Nat} {a b : α} : Within R (k + 1) a b ↔ Within R k a b ∨ ∃ c, Within R k a c ∧ R c b := by
  constructor
  · rintro ⟨n, hn, w⟩
    cases w with
    | nil => exact Or.inl ⟨0, Nat.zero_le _, .nil⟩
    | snoc w h => exact Or.inr ⟨_, ⟨_, by omega, w⟩, h⟩
  · rintro (⟨n, hn, w⟩ | ⟨c, ⟨n, hn, w⟩, h⟩)
    · exact ⟨n, by omega, w⟩
    · exact ⟨n + 1, by omega, .snoc w h⟩

theorem Reach.refl (a : α) : Reach R a a := ⟨0, .nil⟩

theorem Reach.trans {a b c : α} (h : Reach R a b) (h' : Reach R b c) : Reach R a c := by
  obtain ⟨m, u⟩ := h
  obtain ⟨n, w⟩ := h'
  exact ⟨_, u.append w⟩

theorem Reach.symm (hs : ∀ x y, R x y → R y x) {a b : α} (h : Reach R a b) : Reach R b a := by
  obtain ⟨m, u⟩ := h
  exact ⟨_, u.reverse hs⟩

theorem Reach.single {a b : α} (h : R a b) : Reach R a b := ⟨1, .snoc .nil h⟩

/-- A set that contains the start and is closed under steps contains every reachable node. -/
theorem reach_closed {a b : α} (P : α → Prop) (ha : P a) (hc : ∀ x y, P x → R x y → P y) (h : Reach R a b) : P b := by
  obtain ⟨n, w⟩ := h
  induction w with
  | nil => exact ha
  | snoc _ h2 ih => exact hc _ _ ih h2
end

end Verif.Spec
