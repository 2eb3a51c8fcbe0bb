import Verif.Model.MetaCompare
import Mathlib.Data.Rat.Defs
import Mathlib.Tactic.NormNum

/-!
C181: typed metadata conditions.
-/
namespace Verif.MetaCompare

open Verif.Model.Search Verif.Model.Store

/-- The rule of Go for `%g` on whole numbers: up to six digits they are written like integers, beyond that with an exponent. -/
def GoFormat (g : Rat → String) : Prop :=
  (∀ n : Int, n.natAbs < 1000000 → g n = toString n) ∧ ∀ n : Int, 1000000 ≤ n.natAbs → 'e' ∈ (g n).toList

/-- The text a condition stands for. -/
def textOf (g : Rat → String) : Val → Option String
  | .str s => some s
  | .int n => some (toString n)
  | .f64 v => some (g v)
  | .bool b => some (toString b)
  | _ => none

/-- C181: a stored text meets a condition exactly if it is the text the condition stands for. -/
theorem C181_text (g : Rat → String) (actual : String) (v : Val) : compare g actual v = true ↔ textOf g v = some actual := by
  cases v with
  | bool b => cases b <;> simp [compare, textOf, eq_comm] <;> rfl
  | _ => simp [compare, textOf, eq_comm]

/-- C181: a search with conditions returns the results that carry, for every condition, its text. -/
theorem C181_filter {W : Type} (g : Rat → String) (hs : List (Hit W)) (filters : List (String × Val)) (h : Hit W) :
    h ∈ filterTyped g hs filters ↔ h ∈ hs ∧ (filters ≠ [] → ∃ m, h.metadata = some m ∧ ∀ kv ∈ filters, ∃ t, textOf g kv.2 = some t ∧ m.lookup kv.1 = some t) := by
  unfold filterTyped
  split
  · rename_i hl
    have : filters = [] := List.length_eq_zero_iff.1 hl
    simp [this]
  · rename_i hl
    have hne : filters ≠ [] := fun e => hl (by rw [e]; rfl)
    rw [List.mem_filter]
    apply and_congr_right
    intro _
    cases hm : h.metadata with
    | none => simp [hne]
    | some m =>
      simp only [List.all_eq_true, ne_eq, hne, not_false_eq_true, Option.some.injEq, exists_eq_left', forall_const]
      apply forall_congr'
      intro kv
      apply forall_congr'
      intro _
      cases hk : m.lookup kv.1 with
      | none => simp
      | some a =>
        simp only [Option.map_some, Option.getD_some, C181_text, Option.some.injEq]
        exact ⟨fun e => ⟨a, e, rfl⟩, fun ⟨t, e1, e2⟩ => e2 ▸ e1⟩

/-- C181 (partial): a whole number of up to six digits, given as an integer or as a float, finds the records whose text is that number. -/
theorem C181_number_partial (g : Rat → String) (hg : GoFormat g) (n : Int) (hn : n.natAbs < 1000000) (actual : String) :
    (compare g actual (.int n) = true ↔ actual = toString n) ∧ (compare g actual (.f64 n) = true ↔ actual = toString n) := by
  simp [compare, hg.1 n hn]

theorem no_e (n : Int) : 'e' ∉ (toString n).toList := by
  intro h
  cases n with
  | ofNat n =>
    have : (toString (Int.ofNat n)) = n.repr := rfl
    rw [this, Nat.toList_repr] at h
    have := Nat.isDigit_of_mem_toDigits (by omega) (by omega) h
    simp [Char.isDigit] at this
  | negSucc n =>
    have : (toString (Int.negSucc n)) = "-" ++ (n + 1).repr := rfl
    rw [this, String.toList_append, Nat.toList_repr, List.mem_append] at h
    rcases h with h | h
    · simp at h
    · have := Nat.isDigit_of_mem_toDigits (by omega) (by omega) h
      simp [Char.isDigit] at this

/-- C181 is violated: a whole number of seven digits or more given as a float, which is what decoding JSON produces, does not find the
records whose text is that number. -/
theorem C181_large_violated (g : Rat → String) (hg : GoFormat g) (n : Int) (hn : 1000000 ≤ n.natAbs) :
    compare g (toString n) (.int n) = true ∧ compare g (toString n) (.f64 n) = false := by
  refine ⟨by simp [compare], ?_⟩
  simp only [compare, decide_eq_false_iff_not]
  intro e
  exact no_e n (e ▸ hg.2 n hn)

/-- C181 is violated: a condition of another type, for example `int64` or `float32`, is met by no stored text, so that the search returns
nothing, without an error. -/
theorem C181_type_violated {W : Type} (g : Rat → String) (hs : List (Hit W)) (filters : List (String × Val)) (k t : String) (h : (k, Val.other t) ∈ filters) :
    filterTyped g hs filters = [] := by
  rw [List.eq_nil_iff_forall_not_mem]
  intro x hx
  obtain ⟨-, h2⟩ := (C181_filter g hs filters x).1 hx
  obtain ⟨m, -, h3⟩ := h2 (List.ne_nil_of_mem h)
  obtain ⟨t', h4, -⟩ := h3 _ h
  simp [textOf] at h4

/-- A format that follows the rule. -/
def g1 (v : Rat) : String := if v.num.natAbs < 1000000 then toString v.num else "1e+06"

example : GoFormat g1 := by
  refine ⟨fun n hn => ?_, fun n hn => ?_⟩
  · simp [g1, hn]
  · simp [g1, Nat.not_lt.2 hn]

example : compare g1 "42" (.int 42) = true ∧ compare g1 "42" (.f64 42) = true ∧ compare g1 "042" (.int 42) = false ∧
    compare g1 "2000000" (.f64 2000000) = false ∧ compare g1 "2000000" (.int 2000000) = true ∧ compare g1 "true" (.bool true) = true := by
  decide +kernel

end Verif.MetaCompare
