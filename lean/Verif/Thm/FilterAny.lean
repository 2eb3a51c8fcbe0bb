import Verif.Thm.Filter
import Mathlib.Data.List.Forall2

/-! C21: which records and expressions the two evaluations disagree on. -/
namespace Verif.Thm.Filter
open Verif.Model.Filter
open Verif.Model.Store (Meta)

variable {F : Type} [LinearOrder F]

/-- C21 is violated for every record without the field: `!=` is refused by SQL and accepted in memory. -/
theorem C21_any_missing_violated (c : Lib F) (m : Meta) (f : String) (hf : plainField f = true) (hm : m.lookup f = none) (t : String) :
    ∃ k, compile (.cmp .ne f (.str t) : Expr F) = some (some k) ∧ whereRow c k (some m) = some false ∧ eval c m (.cmp .ne f (.str t)) = some true := by
  refine ⟨_, rfl, ?_, ?_⟩
  · have : extract c f m = none := by unfold extract; rw [if_pos hf]; exact hm
    simp [whereRow, badParam, isList, evalSQL, this]
  · simp [eval, evalCmp, hm]

/-- C21 is violated for every field that holds another numeral of the same number: memory says it is equal to the text asked for, SQL says it is not. -/
theorem C21_any_numeral_violated (c : Lib F) (m : Meta) (f a t : String) (x : F) (hf : plainField f = true) (hm : m.lookup f = some a) (ha : c.parse a = some x) (ht : c.parse t = some x)
    (hne : a ≠ t) :
    ∃ k, compile (.cmp .eq f (.str t) : Expr F) = some (some k) ∧ whereRow c k (some m) = some false ∧ eval c m (.cmp .eq f (.str t)) = some true := by
  refine ⟨_, rfl, ?_, ?_⟩
  · have : extract c f m = some a := by unfold extract; rw [if_pos hf]; exact hm
    simp [whereRow, badParam, isList, evalSQL, this, sqlEq, hne]
  · simp [eval, evalCmp, hm, compareValues, ha, ht, toFloat, cmpNum]

/-- C21 is violated by every negation in a conjunction: SQL leaves it out, so every record that satisfies the rest is selected; memory refuses those that satisfy what is negated. -/
theorem C21_any_not_violated (c : Lib F) (m : Meta) (e n : Expr F) (more : List (Expr F)) (k : Clause F) (hk : compile e = some (some k)) (hp : badParam k = false)
    (hsql : evalSQL c m k = some true) (he : eval c m e = some true) (hn : eval c m n = some true) :
    ∃ k', compile (.and [e, .not (n :: more)]) = some (some k') ∧ whereRow c k' (some m) = some true ∧ eval c m (.and [e, .not (n :: more)]) = some false := by
  refine ⟨.conj [k], ?_, ?_, ?_⟩
  · simp [compile, compileList, hk]
  · simp [whereRow, badParam, badParams, hp, evalSQL, evalConj, hsql, and3]
  · simp [eval, evalAnd, he, hn]

/-- C21 is violated by every disjunction with an empty conjunction: memory accepts every record, SQL only those that satisfy the rest. -/
theorem C21_any_empty_violated (c : Lib F) (m : Meta) (e : Expr F) (k : Clause F) (hk : compile e = some (some k)) (hp : badParam k = false) (hsql : evalSQL c m k ≠ some true) :
    ∃ k', compile (.or [.and [], e]) = some (some k') ∧ whereRow c k' (some m) = some false ∧ eval c m (.or [.and [], e]) = some true := by
  refine ⟨.disj [k], ?_, ?_, ?_⟩
  · simp [compile, compileList, hk]
  · have : or3 (evalSQL c m k) (some false) ≠ some true := by
      cases h : evalSQL c m k with
      | none => simp [or3]
      | some b => cases b <;> simp_all [or3]
    simp [whereRow, badParam, badParams, hp, evalSQL, evalDisj, this]
  · simp [eval, evalOr, evalAnd]

/-- A pattern without wildcards matches the texts of its length whose characters are pairwise the same. -/
theorem likeMatch_plain (eq : Char → Char → Bool) (one : Char → Bool) : ∀ (p t : List Char), (∀ x ∈ p, x ≠ '%' ∧ x ≠ '_') →
    (likeMatch eq one p t = true ↔ List.Forall₂ (fun a b => eq a b = true) p t) := by
  intro p
  induction p with
  | nil => intro t _; cases t <;> simp [likeMatch]
  | cons x p ih =>
    intro t h
    have hx := h x (by simp)
    cases t with
    | nil => simp [likeMatch, hx.1, hx.2]
    | cons y t =>
      simp only [likeMatch, hx.1, hx.2, if_false, Bool.and_eq_true, List.forall₂_cons]
      rw [ih t (fun z hz => h z (by simp [hz]))]

/-- C21 is violated by LIKE for every pattern without wildcards and every other spelling of it in capitals and small letters: SQL accepts it, memory does not. -/
theorem C21_any_case_violated (c : Lib F) (m : Meta) (f a p : String) (hf : plainField f = true) (hm : m.lookup f = some a) (hp : ∀ x ∈ p.toList, x ≠ '%' ∧ x ≠ '_' ∧ isMeta x = false)
    (hcase : List.Forall₂ (fun x y : Char => x.toLower = y.toLower) p.toList a.toList) (hne : p ≠ a) :
    ∃ k, compile (.cmp .like f (.str p) : Expr F) = some (some k) ∧ whereRow c k (some m) = some true ∧ eval c m (.cmp .like f (.str p)) = some false := by
  have hp' : ∀ x ∈ p.toList, x ≠ '%' ∧ x ≠ '_' := fun x hx => ⟨(hp x hx).1, (hp x hx).2.1⟩
  refine ⟨_, rfl, ?_, ?_⟩
  · have h1 : extract c f m = some a := by unfold extract; rw [if_pos hf]; exact hm
    have h2 : sqlLike p a = true := by
      unfold sqlLike
      rw [likeMatch_plain _ _ _ _ hp']
      simpa using hcase
    simp [whereRow, badParam, isList, evalSQL, h1, sqlPattern, h2]
  · have h1 : goLike c p a = false := by
      unfold goLike
      rw [if_neg]
      · rw [Bool.eq_false_iff]
        intro h
        rw [likeMatch_plain _ _ _ _ hp'] at h
        simp only [decide_eq_true_eq] at h
        exact hne (String.toList_inj.1 (List.forall₂_eq_eq_eq ▸ h))
      · rw [List.any_eq_true]
        rintro ⟨x, hx, h⟩
        rw [(hp x hx).2.2] at h
        cases h
    simp [eval, evalCmp, hm, show_, h1]

/-- The records of the violations in `Thm/Filter` are such records. -/
example : plainField "n" = true ∧ lib0.parse "05" = some 5 ∧ lib0.parse "5" = some 5 ∧ ("05" : String) ≠ "5" := by decide
example : List.Forall₂ (fun x y : Char => x.toLower = y.toLower) "ab".toList "Ab".toList ∧ ("ab" : String) ≠ "Ab" ∧ ∀ x ∈ "ab".toList, x ≠ '%' ∧ x ≠ '_' ∧ isMeta x = false := by
  refine ⟨?_, by decide, by decide⟩
  exact .cons (by decide) (.cons (by decide) .nil)

end Verif.Thm.Filter
