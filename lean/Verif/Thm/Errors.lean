import Verif.Model.Errors

/-! C195: errors keep their cause. -/
namespace Verif.Errors

/-- `Cause e c`: `c` is `e` or a cause of a cause of `e`. The specification of "was caused by". -/
inductive Cause : E → E → Prop
  | self (e : E) : Cause e e
  | store {a : Nat} {op : String} {e c : E} : Cause e c → Cause (.store a op (some e)) c
  | wrap {a : Nat} {s : String} {e c : E} : Cause e c → Cause (.wrap a s e) c

/-- C195: `errors.Is` answers yes exactly when the target is among the causes, for errors nested to any depth. -/
theorem C195_is (t : Nat) (e : E) : is t e = true ↔ ∃ c, Cause e c ∧ c.addr = t := by
  constructor
  · intro h
    induction e using is.induct with
    | case1 a s => exact ⟨_, .self _, by simpa [is, E.addr] using h⟩
    | case2 a op => exact ⟨_, .self _, by simpa [is, E.addr] using h⟩
    | case3 a op e ih =>
      simp only [is, Bool.or_eq_true, beq_iff_eq] at h
      rcases h with (h | h) | h
      · exact ⟨_, .self _, h⟩
      · obtain ⟨c, h1, h2⟩ := ih h; exact ⟨c, .store h1, h2⟩
      · obtain ⟨c, h1, h2⟩ := ih h; exact ⟨c, .store h1, h2⟩
    | case4 a s e ih =>
      simp only [is, Bool.or_eq_true, beq_iff_eq] at h
      rcases h with h | h
      · exact ⟨_, .self _, h⟩
      · obtain ⟨c, h1, h2⟩ := ih h; exact ⟨c, .wrap h1, h2⟩
  · rintro ⟨c, hc, rfl⟩
    induction hc with
    | self e => cases e with
      | leaf a s => simp [is, E.addr]
      | store a op o => cases o <;> simp [is, E.addr]
      | wrap a s e => simp [is, E.addr]
    | store _ ih => simp [is, ih]
    | wrap _ ih => simp [is, ih]

/-- C195: wrapping with an operation name makes an error of an error and nothing of nothing, keeps every cause, and the text
names the operation and ends with the text of the cause. -/
theorem C195_wrap (fresh : Nat) (op : String) (e : Option E) :
    (wrapError fresh op e = none ↔ e = none) ∧
    ∀ x w, e = some x → wrapError fresh op e = some w →
      (∀ t, is t x = true → is t w = true) ∧
      text w = (if op = "" then "vectorstore: " else "vectorstore: " ++ op ++ ": ") ++ text x := by
  cases e with
  | none => simp [wrapError]
  | some x =>
    refine ⟨by simp [wrapError], ?_⟩
    intro y w hy hw
    simp only [Option.some.injEq] at hy
    subst hy
    simp only [wrapError, Option.some.injEq] at hw
    subst hw
    refine ⟨fun t h => by simp [is, h], ?_⟩
    simp only [text]
    split_ifs <;> rfl

/-- The calls whose "not there" is `ErrNotFound`. -/
def Recognised : Lookup → Prop
  | .getCollection | .deleteCollection | .node | .edge => False
  | _ => True

/-- C195: for records, documents, sessions, entities with several vectors and memories, "not there" is recognised as
`ErrNotFound`, however often the caller wraps the error. -/
theorem C195_not_found_partial (a b : Nat) (name : String) (l : Lookup) (h : Recognised l) (w : E)
    (hw : Cause w (missing a b name l)) : is 0 w = true := by
  rw [C195_is]
  have hc : Cause (missing a b name l) notFound := by
    cases l <;> first | exact .store (.self _) | exact .self _ | exact absurd h (fun h => h)
  refine ⟨notFound, ?_, rfl⟩
  generalize missing a b name l = m at hw hc
  induction hw with
  | self e => exact hc
  | store _ ih => exact .store (ih hc)
  | wrap _ ih => exact .wrap (ih hc)

/-- C195, broken for collections and for the graph: a missing collection, node or edge is never recognised as `ErrNotFound`,
whatever its name (`a` and `b` are new values, not the sentinel). -/
theorem C195_collection_violated (a b : Nat) (ha : a ≠ 0) (hb : b ≠ 0) (name : String) (l : Lookup) (h : ¬ Recognised l) :
    is 0 (missing a b name l) = false := by
  cases l <;> first | exact absurd trivial h | simp [missing, is, ha, hb]

example : is 0 (.wrap 7 "context" (missing 5 6 "x" .getById)) = true ∧ is 0 (missing 5 6 "x" .getCollection) = false ∧
    text (missing 5 6 "x" .getById) = "vectorstore: get_by_id: embedding not found" ∧
    Recognised .getById ∧ ¬ Recognised .node := by
  refine ⟨by decide +kernel, by decide +kernel, by decide +kernel, trivial, fun h => h⟩

example : Cause (.wrap 7 "context" (missing 5 6 "x" .getById)) (missing 5 6 "x" .getById) := .wrap (.self _)

end Verif.Errors
