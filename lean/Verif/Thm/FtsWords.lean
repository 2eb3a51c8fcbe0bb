import Verif.Thm.FtsQuery
import Mathlib.Tactic.IntervalCases

/-!
# C215: operators among the words of a question, and quotation marks

A question of letters and blanks only is still not always a list of words: `AND`, `OR` and `NOT` in capitals are operators.
-/

namespace Verif.FtsQuery

open Verif.Base

variable {T : Type} [DecidableEq T]

/-- The text has all the words (those of them that have terms; one must have). -/
def HasAll (tok : Text → List T) (ws : List Text) (c : Text) : Prop :=
  (∃ w ∈ ws, tok w ≠ []) ∧ ∀ w ∈ ws, tok w ≠ [] → tok w <:+: tok c

/-- A list of words without operators. -/
def PlainWords (ws : List Text) : Prop := ws ≠ [] ∧ ∀ w ∈ ws, w ∉ operators

/-! ### The parser -/

/-- Nothing or an operator. -/
def OpHead : List Tok → Prop
  | [] => True
  | .kOr :: _ => True
  | .kAnd :: _ => True
  | .kNot :: _ => True
  | _ => False

theorem cnear_op (n : Nat) (w : Text) (b : Bool) (rest : List Tok) (h : OpHead rest) :
    cnearset (n + 1) (.str w b :: rest) = some (wordLeaf w, rest) := by
  rcases rest with _ | ⟨t, rest⟩
  · simp [cnearset, colset, nearset, phrase, starOpt, wordLeaf]
  · cases t <;> simp_all [OpHead, cnearset, colset, nearset, phrase, starOpt, wordLeaf]

theorem starts_op {r : List Tok} (h : OpHead r) : starts r = false := by
  rcases r with _ | ⟨t, r⟩
  · rfl
  · cases t <;> simp_all [OpHead, starts]

theorem exprlist_op (ws : List Text) (hne : ws ≠ []) (n : Nat) (hn : ws.length + 1 ≤ n) (rest : List Tok) (hr : OpHead rest) :
    exprlist n (ws.map (fun w => Tok.str w false) ++ rest) = some (ws.map wordLeaf, rest) := by
  induction ws generalizing n with
  | nil => exact absurd rfl hne
  | cons w ws ih =>
    obtain ⟨m, rfl⟩ : ∃ m, n = m + 2 := ⟨n - 2, by simp at hn; omega⟩
    cases ws with
    | nil =>
      simp only [List.map_cons, List.map_nil, List.cons_append, List.nil_append]
      rw [exprlist, cnear_op m w false rest hr]
      simp [starts_op hr]
    | cons v vs =>
      have hc : Calm ((v :: vs).map (fun w => Tok.str w false) ++ rest) := by simp [Calm]
      have e : (w :: v :: vs).map (fun w => Tok.str w false) ++ rest = .str w false :: ((v :: vs).map (fun w => Tok.str w false) ++ rest) := rfl
      rw [e, exprlist, cnearset_word m w false _ hc]
      have hst : starts ((v :: vs).map (fun w => Tok.str w false) ++ rest) = true := by simp [starts]
      simp only [hst, if_true]
      rw [ih (by simp) (m + 1) (by simp at hn ⊢; omega)]
      simp

theorem expr3_op (ws : List Text) (hne : ws ≠ []) (n : Nat) (hn : ws.length + 2 ≤ n) (rest : List Tok) (hr : OpHead rest) :
    expr n 3 (ws.map (fun w => Tok.str w false) ++ rest) = some (.all (ws.map wordLeaf), rest) := by
  obtain ⟨n, rfl⟩ : ∃ m, n = m + 1 := ⟨n - 1, by omega⟩
  have hx := exprlist_op ws hne n (by omega) rest hr
  cases ws with
  | nil => exact absurd rfl hne
  | cons w ws =>
    have hc : colset n (.str w false :: (ws.map (fun w => Tok.str w false) ++ rest)) = .none := by
      cases ws with
      | nil =>
        rcases rest with _ | ⟨t, rest⟩
        · simp [colset]
        · cases t <;> simp_all [OpHead, colset]
      | cons v vs => simp [colset]
    simp only [List.map_cons, List.cons_append] at hx ⊢
    rw [expr_top _ _ (by simp), hc]
    simp only
    rw [hx]
    rfl

theorem loop_pass (n l : Nat) (hn : 1 ≤ n) (a : Query) (t : Tok) (r : List Tok) (h : isOp l t = false) :
    loop n l a (t :: r) = some (a, t :: r) := by
  obtain ⟨n, rfl⟩ : ∃ m, n = m + 1 := ⟨n - 1, by omega⟩
  rw [loop, h]
  rfl

theorem loop_nil (n l : Nat) (hn : 1 ≤ n) (a : Query) : loop n l a [] = some (a, []) := by
  obtain ⟨n, rfl⟩ : ∃ m, n = m + 1 := ⟨n - 1, by omega⟩
  rw [loop]

theorem loop_op (n l : Nat) (hn : 1 ≤ n) (a : Query) (t : Tok) (r : List Tok) (h : isOp l t = true) :
    loop n l a (t :: r) = match expr (n - 1) (l + 1) r with
      | none => none
      | some (b, r') => loop (n - 1) l (mk l a b) r' := by
  obtain ⟨n, rfl⟩ : ∃ m, n = m + 1 := ⟨n - 1, by omega⟩
  rw [loop, h]
  rfl

/-- Words alone, at any level. -/
theorem expr_words (l : Nat) (hl : l ≤ 3) (ws : List Text) (hne : ws ≠ []) (n : Nat) (hn : ws.length + 6 ≤ n) :
    expr n l (ws.map (fun w => Tok.str w false)) = some (.all (ws.map wordLeaf), []) := by
  have h3 := fun n hn => expr3_op ws hne n hn [] trivial
  simp only [List.append_nil] at h3
  have h2 : ∀ n, ws.length + 3 ≤ n → expr n 2 (ws.map (fun w => Tok.str w false)) = some (.all (ws.map wordLeaf), []) := by
    intro n hn
    obtain ⟨n, rfl⟩ : ∃ m, n = m + 1 := ⟨n - 1, by omega⟩
    rw [expr_low _ _ (by decide), h3 n (by omega)]
    exact loop_nil _ _ (by omega) _
  have h1 : ∀ n, ws.length + 4 ≤ n → expr n 1 (ws.map (fun w => Tok.str w false)) = some (.all (ws.map wordLeaf), []) := by
    intro n hn
    obtain ⟨n, rfl⟩ : ∃ m, n = m + 1 := ⟨n - 1, by omega⟩
    rw [expr_low _ _ (by decide), h2 n (by omega)]
    exact loop_nil _ _ (by omega) _
  have h0 : ∀ n, ws.length + 5 ≤ n → expr n 0 (ws.map (fun w => Tok.str w false)) = some (.all (ws.map wordLeaf), []) := by
    intro n hn
    obtain ⟨n, rfl⟩ : ∃ m, n = m + 1 := ⟨n - 1, by omega⟩
    rw [expr_low _ _ (by decide), h1 n (by omega)]
    exact loop_nil _ _ (by omega) _
  interval_cases l
  · exact h0 n (by omega)
  · exact h1 n (by omega)
  · exact h2 n (by omega)
  · exact h3 n (by omega)

/-- An operator cannot begin an expression, and an expression is not empty. -/
theorem expr_none (n : Nat) : ∀ l, expr n l [] = none ∧ ∀ t r, t = Tok.kOr ∨ t = Tok.kAnd ∨ t = Tok.kNot → expr n l (t :: r) = none := by
  induction n with
  | zero => intro l; exact ⟨by rw [expr], fun t r _ => by rw [expr]⟩
  | succ n ih =>
    intro l
    have hx : ∀ m, exprlist m [] = none := by
      intro m
      cases m with
      | zero => rfl
      | succ m => cases m <;> simp [exprlist, cnearset, colset, nearset, phrase]
    have hy : ∀ m t r, t = Tok.kOr ∨ t = Tok.kAnd ∨ t = Tok.kNot → exprlist m (t :: r) = none := by
      intro m t r ht
      cases m with
      | zero => rfl
      | succ m => rcases ht with rfl | rfl | rfl <;> cases m <;> simp [exprlist, cnearset, colset, nearset, phrase]
    by_cases hl : l < 3
    · refine ⟨?_, fun t r ht => ?_⟩
      · rw [expr_low _ _ hl, (ih (l + 1)).1]
      · rw [expr_low _ _ hl, (ih (l + 1)).2 t r ht]
    · refine ⟨?_, fun t r ht => ?_⟩
      · simp only [expr, hl, if_false]
        simp [colset, hx]
      · rcases ht with rfl | rfl | rfl <;>
        · simp only [expr, hl, if_false]
          simp [colset, hy]

/-- Nothing usable after a list of words and an operator. -/
theorem expr_then (k : Nat) (hk : k < 3) (t : Tok) (ht : isOp k t = true) (ws : List Text) (hne : ws ≠ []) (n : Nat)
    (hn : ws.length + 8 ≤ n) (r : List Tok) (hb : expr (n - (k + 2)) (k + 1) r = none) :
    expr n 0 (ws.map (fun w => Tok.str w false) ++ t :: r) = none := by
  have ho : OpHead (t :: r) := by
    interval_cases k <;> cases t <;> simp_all [isOp, OpHead]
  obtain ⟨n, rfl⟩ : ∃ m, n = m + 3 := ⟨n - 3, by omega⟩
  have e3 := expr3_op ws hne n (by omega) (t :: r) ho
  interval_cases k
  · rw [expr_low _ _ (by decide), expr_low _ _ (by decide), expr_low _ _ (by decide), e3]
    simp only
    rw [loop_pass n 2 (by omega) _ _ _ (by cases t <;> simp_all [isOp])]
    simp only
    rw [loop_pass (n + 1) 1 (by omega) _ _ _ (by cases t <;> simp_all [isOp])]
    simp only
    rw [loop_op (n + 2) 0 (by omega) _ _ _ ht]
    rw [show n + 2 - 1 = n + 3 - (0 + 2) by omega, hb]
  · rw [expr_low _ _ (by decide), expr_low _ _ (by decide), expr_low _ _ (by decide), e3]
    simp only
    rw [loop_pass n 2 (by omega) _ _ _ (by cases t <;> simp_all [isOp])]
    simp only
    rw [loop_op (n + 1) 1 (by omega) _ _ _ ht]
    rw [show n + 1 - 1 = n + 3 - (1 + 2) by omega, hb]
  · rw [expr_low _ _ (by decide), expr_low _ _ (by decide), expr_low _ _ (by decide), e3]
    simp only
    rw [loop_op n 2 (by omega) _ _ _ ht]
    rw [show n - 1 = n + 3 - (2 + 2) by omega, hb]

/-- Two lists of words with an operator between. -/
theorem expr_two (k : Nat) (hk : k < 3) (t : Tok) (ht : isOp k t = true) (a b : List Text) (ha : a ≠ []) (hb : b ≠ []) (n : Nat)
    (hn : a.length + b.length + 12 ≤ n) :
    expr n 0 (a.map (fun w => Tok.str w false) ++ t :: b.map (fun w => Tok.str w false)) =
      some (mk k (.all (a.map wordLeaf)) (.all (b.map wordLeaf)), []) := by
  have ho : OpHead (t :: b.map (fun w => Tok.str w false)) := by
    interval_cases k <;> cases t <;> simp_all [isOp, OpHead]
  obtain ⟨n, rfl⟩ : ∃ m, n = m + 3 := ⟨n - 3, by omega⟩
  have e3 := expr3_op a ha n (by omega) _ ho
  interval_cases k
  · rw [expr_low _ _ (by decide), expr_low _ _ (by decide), expr_low _ _ (by decide), e3]
    simp only
    rw [loop_pass n 2 (by omega) _ _ _ (by cases t <;> simp_all [isOp])]
    simp only
    rw [loop_pass (n + 1) 1 (by omega) _ _ _ (by cases t <;> simp_all [isOp])]
    simp only
    rw [loop_op (n + 2) 0 (by omega) _ _ _ ht, expr_words 1 (by decide) b hb _ (by omega)]
    simp only
    rw [loop_nil _ _ (by omega)]
  · rw [expr_low _ _ (by decide), expr_low _ _ (by decide), expr_low _ _ (by decide), e3]
    simp only
    rw [loop_pass n 2 (by omega) _ _ _ (by cases t <;> simp_all [isOp])]
    simp only
    rw [loop_op (n + 1) 1 (by omega) _ _ _ ht, expr_words 2 (by decide) b hb _ (by omega)]
    simp only
    rw [loop_nil _ _ (by omega)]
    simp only
    rw [loop_nil _ _ (by omega)]
  · rw [expr_low _ _ (by decide), expr_low _ _ (by decide), expr_low _ _ (by decide), e3]
    simp only
    rw [loop_op n 2 (by omega) _ _ _ ht, expr_words 3 (by decide) b hb _ (by omega)]
    simp only
    rw [loop_nil _ _ (by omega)]
    simp only
    rw [loop_nil _ _ (by omega)]
    simp only
    rw [loop_nil _ _ (by omega)]

theorem parse_bare (q : Text) (hc : ∀ c ∈ q, bare c = true ∨ white c = true) (ts : List Tok) (h : (fields white q).map word = ts) :
    parse q = match expr (8 * ts.length + 8) 0 ts with
      | some (x, []) => some x
      | _ => none := by
  have hz : ∀ c ∈ q, c.toNat ≠ 0 := fun c h => (hc c h).elim (bare_ne_zero c) (white_ne_zero c)
  rw [parse, tokens, takeWhile_all _ hz, (scan_words q [] hc).1, h]
  rfl

theorem map_word (ws : List Text) (h : ∀ w ∈ ws, w ∉ operators) : ws.map word = ws.map (fun w => Tok.str w false) :=
  List.map_congr_left (fun w hw => word_plain w (h w hw))

/-! ### C215 -/

/-- C215: a question of letters and blanks with one operator in it asks for the texts that have all words before it and all words after
it (`AND`), all words on one side (`OR`), or all words before and not all words after (`NOT`). -/
theorem C215_operators (q op : Text) (a b : List Text) (hc : ∀ c ∈ q, bare c = true ∨ white c = true)
    (hw : fields white q = a ++ op :: b) (ha : PlainWords a) (hb : PlainWords b) (ho : op ∈ operators) :
    ∃ x, parse q = some x ∧ ∀ (L : Lib T) (c : Text), L.sat c x = true ↔
      (op = "AND".toList ∧ HasAll L.tok a c ∧ HasAll L.tok b c) ∨
      (op = "OR".toList ∧ (HasAll L.tok a c ∨ HasAll L.tok b c)) ∨
      (op = "NOT".toList ∧ HasAll L.tok a c ∧ ¬ HasAll L.tok b c) := by
  have hsat : ∀ (L : Lib T) (c : Text) (ws : List Text), L.sat c (.all (ws.map wordLeaf)) = true ↔ HasAll L.tok ws c :=
    fun L c ws => sat_words L c ws
  have sand : ∀ (L : Lib T) c a b, L.sat c (.and a b) = (L.sat c a && L.sat c b) := fun _ _ _ _ => by rw [Lib.sat]
  have sor : ∀ (L : Lib T) c a b, L.sat c (.or a b) = (L.sat c a || L.sat c b) := fun _ _ _ _ => by rw [Lib.sat]
  have snot : ∀ (L : Lib T) c a b, L.sat c (.not a b) = (L.sat c a && !L.sat c b) := fun _ _ _ _ => by rw [Lib.sat]
  have hand : "AND".toList = ['A', 'N', 'D'] := by decide
  have hor : "OR".toList = ['O', 'R'] := by decide
  have hnot : "NOT".toList = ['N', 'O', 'T'] := by decide
  have key : ∀ k (_ : k < 3) t, isOp k t = true → word op = t →
      parse q = some (mk k (.all (a.map wordLeaf)) (.all (b.map wordLeaf))) := by
    intro k hk t ht hop
    rw [parse_bare q hc (a.map (fun w => Tok.str w false) ++ t :: b.map (fun w => Tok.str w false))
      (by rw [hw, List.map_append, List.map_cons, map_word a ha.2, map_word b hb.2, hop])]
    rw [expr_two k hk t ht a b ha.1 hb.1 _ (by
      have := List.length_pos_of_ne_nil ha.1
      have := List.length_pos_of_ne_nil hb.1
      simp only [List.length_append, List.length_cons, List.length_map]; omega)]
  simp only [operators, List.mem_cons, List.not_mem_nil, or_false] at ho
  rcases ho with rfl | rfl | rfl
  · refine ⟨_, key 1 (by decide) .kAnd rfl rfl, fun L c => ?_⟩
    rw [hand, hor, hnot]
    simp [mk, sand, sor, hsat]
  · refine ⟨_, key 0 (by decide) .kOr rfl rfl, fun L c => ?_⟩
    rw [hand, hor, hnot]
    simp [mk, sand, sor, hsat]
  · refine ⟨_, key 2 (by decide) .kNot rfl rfl, fun L c => ?_⟩
    rw [hand, hor, hnot]
    have e : L.sat c (mk 2 (.all (a.map wordLeaf)) (.all (b.map wordLeaf))) =
        (L.sat c (.all (a.map wordLeaf)) && !L.sat c (.all (b.map wordLeaf))) := snot L c _ _
    rw [e, Bool.and_eq_true, hsat, Bool.not_eq_true', ← Bool.not_eq_true, hsat]
    simp

/-- C215 is violated by questions with the word `NOT`: no text that has all words of the question, not even the question itself, is
found. -/
theorem C215_not_violated (q : Text) (a b : List Text) (hc : ∀ c ∈ q, bare c = true ∨ white c = true)
    (hw : fields white q = a ++ "NOT".toList :: b) (ha : PlainWords a) (hb : PlainWords b) (L : Lib T) (hb' : ∃ w ∈ b, L.tok w ≠ [])
    (c : Text) (hall : ∀ w ∈ fields white q, L.tok w ≠ [] → L.tok w <:+: L.tok c) :
    ∃ x, parse q = some x ∧ L.sat c x = false := by
  obtain ⟨x, hx, hs⟩ := C215_operators (T := T) q "NOT".toList a b hc hw ha hb (by decide)
  refine ⟨x, hx, ?_⟩
  rw [Bool.eq_false_iff]
  intro h
  rcases (hs L c).1 h with ⟨h, -⟩ | ⟨h, -⟩ | ⟨-, -, h⟩
  · exact absurd h (by decide)
  · exact absurd h (by decide)
  · exact h ⟨hb', fun w hw' hne => hall w (by rw [hw]; simp [hw']) hne⟩

/-- C215 is violated by questions of plain letters that begin with an operator, end with one after words, or have two in a row after
words: they are refused. -/
theorem C215_operator_refused_violated (q op : Text) (hc : ∀ c ∈ q, bare c = true ∨ white c = true) (ho : op ∈ operators)
    (h : (∃ r, fields white q = op :: r) ∨
      ∃ a r, PlainWords a ∧ fields white q = a ++ op :: r ∧ (r = [] ∨ ∃ op' r', op' ∈ operators ∧ r = op' :: r')) :
    parse q = none := by
  have hop : ∀ op ∈ operators, ∃ k, k < 3 ∧ isOp k (word op) = true ∧ (word op = .kOr ∨ word op = .kAnd ∨ word op = .kNot) := by
    intro op ho
    simp only [operators, List.mem_cons, List.not_mem_nil, or_false] at ho
    rcases ho with rfl | rfl | rfl
    · exact ⟨1, by decide, rfl, .inr (.inl rfl)⟩
    · exact ⟨0, by decide, rfl, .inl rfl⟩
    · exact ⟨2, by decide, rfl, .inr (.inr rfl)⟩
  obtain ⟨k, hk, hk1, hk2⟩ := hop op ho
  rcases h with ⟨r, hr⟩ | ⟨a, r, ha, hr, hend⟩
  · rw [parse_bare q hc (word op :: r.map word) (by rw [hr]; rfl), (expr_none _ 0).2 _ _ hk2]
  · rw [parse_bare q hc (a.map (fun w => Tok.str w false) ++ word op :: r.map word)
      (by rw [hr, List.map_append, List.map_cons, map_word a ha.2])]
    have hn : expr (8 * (a.map (fun w => Tok.str w false) ++ word op :: r.map word).length + 8) 0
        (a.map (fun w => Tok.str w false) ++ word op :: r.map word) = none := by
      refine expr_then k hk _ hk1 a ha.1 _ (by
        simp only [List.length_append, List.length_cons, List.length_map]; omega) _ ?_
      rcases hend with rfl | ⟨op', r'', ho', rfl⟩
      · exact (expr_none _ _).1
      · exact (expr_none _ _).2 _ _ (hop op' ho').choose_spec.2.2
    rw [hn]

theorem scan_quote (q acc : Text) (h : '"' ∉ q) : scan (.quote acc) (q ++ ['"']) = some [.str (acc ++ q) true] := by
  induction q generalizing acc with
  | nil => simp [scan]
  | cons c q ih =>
    rw [List.mem_cons, not_or] at h
    rw [List.cons_append, scan, if_neg (fun e => h.1 e.symm), ih _ h.2]
    simp

/-- C215: any text without quotation marks and NUL becomes readable in quotation marks, and then asks for the texts that have its terms
one after the other. -/
theorem C215_quoted (q : Text) (hq : '"' ∉ q) (hz : ∀ c ∈ q, c.toNat ≠ 0) :
    ∃ x, parse ('"' :: q ++ ['"']) = some x ∧ ∀ (L : Lib T) (c : Text), L.sat c x = true ↔ Has L.tok q c := by
  refine ⟨.all [wordLeaf q], ?_, fun L c => ?_⟩
  · have hz' : ∀ c ∈ '"' :: q ++ ['"'], c.toNat ≠ 0 := by
      intro c hc
      rcases List.mem_append.1 hc with hc | hc
      · rcases List.mem_cons.1 hc with rfl | hc
        · decide
        · exact hz c hc
      · rw [List.mem_singleton] at hc; subst hc; decide
    have hs : scan .out ('"' :: q ++ ['"']) = some [.str q true] := by
      rw [List.cons_append, scan]
      have : first '"' = some (.quote [], []) := rfl
      rw [this]
      simp only [List.nil_append]
      rw [scan_quote q [] hq]
      rfl
    rw [parse, tokens, takeWhile_all _ hz', hs]
    simp only
    have : expr (8 * [Tok.str q true].length + 8) 0 [Tok.str q true] = some (.all [wordLeaf q], []) := by
      simp [expr, loop, exprlist, cnearset, colset, nearset, phrase, starOpt, starts, wordLeaf]
    rw [this]
  · have h1 := sat_words L c [q]
    simp only [List.map_cons, List.map_nil, List.mem_singleton, exists_eq_left, forall_eq] at h1
    rw [h1, Has]
    tauto

/-! ### Cases -/

example : fields white "tea NOT milk".toList = ["tea".toList] ++ "NOT".toList :: ["milk".toList] ∧
    PlainWords ["tea".toList] ∧ PlainWords ["milk".toList] := by
  refine ⟨by decide, ⟨by simp, by decide⟩, ⟨by simp, by decide⟩⟩
example : demo.keywords id id ["tea NOT milk".toList, "tea".toList] "tea NOT milk".toList 5 = ["tea".toList] ∧
    demo.keywords id id ["to be OR NOT to be".toList] "to be OR NOT to be".toList 5 = [] ∧
    demo.keywords id id ["What is my name?".toList] "\"What is my name?\"".toList 5 = ["What is my name?".toList] := by decide +kernel

end Verif.FtsQuery
