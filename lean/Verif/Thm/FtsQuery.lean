import Verif.Model.FtsQuery
import Verif.Base.Text
import Verif.Model.GraphTools

/-!
C215: what the full-text search makes of a question in plain words, of keywords joined by `OR`, and of other texts.
-/
namespace Verif.FtsQuery
open Verif.Base

/-! ### The scanner -/

theorem bare_not_white (c : Char) (h : bare c = true) : white c = false := by
  by_contra hw
  simp only [Bool.not_eq_false, white, Bool.or_eq_true, beq_iff_eq] at hw
  rcases hw with ((rfl | rfl) | rfl) | rfl <;> exact absurd h (by decide)

theorem bare_not_quote (c : Char) (h : bare c = true) : c ≠ '"' := by
  rintro rfl; exact absurd h (by decide)

theorem first_bare (c : Char) (h : bare c = true) : first c = some (.bare [c], []) := by
  simp [first, bare_not_white c h, bare_not_quote c h, h]

theorem first_white (c : Char) (h : white c = true) : first c = some (.out, []) := by
  simp [first, h]

theorem white_not_bare (c : Char) (h : white c = true) : bare c = false := by
  by_contra hb
  rw [bare_not_white c (by simpa using hb)] at h
  cases h

theorem scan_run (w acc rest : Text) (hw : ∀ c ∈ w, bare c = true) :
    scan (.bare acc) (w ++ rest) = scan (.bare (acc ++ w)) rest := by
  induction w generalizing acc with
  | nil => simp
  | cons c w ih =>
    rw [List.cons_append, scan, if_pos (hw c (by simp)), ih _ (fun x hx => hw x (by simp [hx]))]
    simp

/-- Words and white space are scanned as the words. -/
theorem scan_words (q acc : Text) (hq : ∀ c ∈ q, bare c = true ∨ white c = true) :
    scan .out q = some ((fields white q).map word) ∧
    (acc ≠ [] → scan (.bare acc) q = some ((fieldsAux white acc.reverse q).map word)) := by
  induction q generalizing acc with
  | nil =>
    refine ⟨by simp [scan, fields, fieldsAux], fun h => ?_⟩
    simp [scan, fieldsAux, h]
  | cons c q ih =>
    have hq' : ∀ x ∈ q, bare x = true ∨ white x = true := fun x hx => hq x (by simp [hx])
    rcases hq c (by simp) with hc | hc
    · have hw := bare_not_white c hc
      refine ⟨?_, fun h => ?_⟩
      · rw [scan, first_bare c hc]
        simp only [List.nil_append]
        rw [(ih [c] hq').2 (by simp)]
        simp [fields, fieldsAux, hw]
      · rw [scan, if_pos hc, (ih (acc ++ [c]) hq').2 (by simp)]
        simp [fieldsAux, hw]
    · have hb := white_not_bare c hc
      refine ⟨?_, fun h => ?_⟩
      · rw [scan, first_white c hc]
        simp only [List.nil_append]
        rw [(ih acc hq').1]
        simp [fields, fieldsAux, hc]
      · rw [scan, hb, first_white c hc]
        simp only [Bool.false_eq_true, if_false]
        rw [(ih acc hq').1]
        simp [fields, fieldsAux, hc, h]

theorem takeWhile_all (q : Text) (h : ∀ c ∈ q, c.toNat ≠ 0) : q.takeWhile (fun c => decide (c.toNat ≠ 0)) = q := by
  induction q with
  | nil => rfl
  | cons c q ih =>
    rw [List.takeWhile_cons, if_pos (by simpa using h c (by simp)), ih (fun x hx => h x (by simp [hx]))]

theorem bare_ne_zero (c : Char) (h : bare c = true) : c.toNat ≠ 0 := by
  intro h0
  have : c = Char.ofNat 0 := by rw [← h0, Char.ofNat_toNat]
  subst this
  exact absurd h (by decide)

theorem white_ne_zero (c : Char) (h : white c = true) : c.toNat ≠ 0 := by
  simp only [white, Bool.or_eq_true, beq_iff_eq] at h
  rcases h with ((rfl | rfl) | rfl) | rfl <;> decide

/-! ### The parser on words -/

/-- The condition of one word. -/
def wordLeaf (w : Text) : Leaf := { phrases := [[(w, false)]] }

/-- Tokens that do not continue a word. -/
def Calm : List Tok → Prop
  | [] => True
  | .str _ _ :: _ => True
  | .kOr :: _ => True
  | _ => False

theorem cnearset_word (n : Nat) (w : Text) (b : Bool) (rest : List Tok) (h : Calm rest) :
    cnearset (n + 1) (.str w b :: rest) = some (wordLeaf w, rest) := by
  rcases rest with _ | ⟨t, rest⟩
  · simp [cnearset, colset, nearset, phrase, starOpt, wordLeaf]
  · cases t <;> simp_all [Calm, cnearset, colset, nearset, phrase, starOpt, wordLeaf]

theorem exprlist_words (ws : List Text) (hne : ws ≠ []) (n : Nat) (hn : ws.length + 1 ≤ n) (rest : List Tok)
    (hr : Calm rest) (hs : starts rest = false) :
    exprlist n (ws.map (fun w => Tok.str w false) ++ rest) = some (ws.map wordLeaf, rest) := by
  induction ws generalizing n with
  | nil => exact absurd rfl hne
  | cons w ws ih =>
    obtain ⟨m, rfl⟩ : ∃ m, n = m + 2 := ⟨n - 2, by simp at hn; omega⟩
    cases ws with
    | nil =>
      simp only [List.map_cons, List.map_nil, List.cons_append, List.nil_append]
      rw [exprlist, cnearset_word m w false rest hr]
      simp [hs]
    | cons v vs =>
      have hc : Calm ((v :: vs).map (fun w => Tok.str w false) ++ rest) := by simp [Calm]
      have e : (w :: v :: vs).map (fun w => Tok.str w false) ++ rest = .str w false :: ((v :: vs).map (fun w => Tok.str w false) ++ rest) := rfl
      rw [e, exprlist, cnearset_word m w false _ hc]
      have hst : starts ((v :: vs).map (fun w => Tok.str w false) ++ rest) = true := by simp [starts]
      simp only [hst, if_true]
      rw [ih (by simp) (m + 1) (by simp at hn ⊢; omega)]
      simp

/-- What ends a list of words: nothing or an `OR`. -/
def Ends : List Tok → Prop
  | [] => True
  | .kOr :: _ => True
  | _ => False

theorem ends_calm {r : List Tok} (h : Ends r) : Calm r ∧ starts r = false := by
  rcases r with _ | ⟨t, r⟩
  · simp [Calm, starts]
  · cases t <;> simp_all [Ends, Calm, starts]

theorem colset_word (n : Nat) (w : Text) (b : Bool) (rest : List Tok) (h : Calm rest) : colset n (.str w b :: rest) = .none := by
  rcases rest with _ | ⟨t, rest⟩
  · simp [colset]
  · cases t <;> simp_all [Calm, colset]

theorem loop_ends (n l : Nat) (hl : l = 1 ∨ l = 2) (a : Query) (r : List Tok) (h : Ends r) : loop (n + 1) l a r = some (a, r) := by
  rcases r with _ | ⟨t, r⟩
  · simp [loop]
  · cases t <;> simp_all [Ends, loop]
    rcases hl with rfl | rfl <;> simp [isOp]

theorem expr_low (n l : Nat) (hl : l < 3) (ts : List Tok) : expr (n + 1) l ts =
    match expr n (l + 1) ts with
    | none => none
    | some (a, r) => loop n l a r := by
  rcases ts with _ | ⟨t, ts⟩
  · simp only [expr, hl, if_true]; rfl
  · cases t <;> (simp only [expr, hl, if_true]; rfl)

theorem expr_top (n : Nat) (ts : List Tok) (h : ∀ r, ts ≠ .lp :: r) : expr (n + 1) 3 ts =
    match colset n ts with
    | .some keep (.lp :: r) => match expr n 0 r with
      | some (a, .rp :: r') => some (if keep then a else a.drop, r')
      | _ => none
    | _ => (exprlist n ts).map (fun x => (.all x.1, x.2)) := by
  rcases ts with _ | ⟨t, ts⟩
  · simp only [expr, lt_irrefl, if_false]; rfl
  · cases t <;> first | exact absurd rfl (h _) | (simp only [expr, lt_irrefl, if_false]; rfl)

theorem expr3_words (ws : List Text) (hne : ws ≠ []) (n : Nat) (hn : ws.length + 1 ≤ n) (rest : List Tok) (hr : Ends rest) :
    expr (n + 1) 3 (ws.map (fun w => Tok.str w false) ++ rest) = some (.all (ws.map wordLeaf), rest) := by
  have hx := exprlist_words ws hne n hn rest (ends_calm hr).1 (ends_calm hr).2
  cases ws with
  | nil => exact absurd rfl hne
  | cons w ws =>
    have hc : Calm (ws.map (fun w => Tok.str w false) ++ rest) := by
      cases ws with
      | nil => simpa using (ends_calm hr).1
      | cons v vs => simp [Calm]
    simp only [List.map_cons, List.cons_append] at hx ⊢
    rw [expr_top _ _ (by simp), colset_word _ _ _ _ hc]
    simp only
    rw [hx]
    rfl

theorem expr1_words (ws : List Text) (hne : ws ≠ []) (n : Nat) (hn : ws.length + 1 ≤ n) (rest : List Tok) (hr : Ends rest) :
    expr (n + 3) 1 (ws.map (fun w => Tok.str w false) ++ rest) = some (.all (ws.map wordLeaf), rest) := by
  rw [expr_low _ _ (by decide), expr_low _ _ (by decide), expr3_words ws hne n hn rest hr]
  simp only
  rw [show n = (n - 1) + 1 by omega, loop_ends _ _ (.inr rfl) _ _ hr]
  simp only
  rw [loop_ends _ _ (.inl rfl) _ _ hr]

/-- The tokens of words joined by `OR`. -/
def orToks : List Text → List Tok
  | [] => []
  | [w] => [.str w false]
  | w :: ws => .str w false :: .kOr :: orToks ws

/-- The query of words joined by `OR`. -/
def orQuery (a : Query) : List Text → Query
  | [] => a
  | w :: ws => orQuery (.or a (.all [wordLeaf w])) ws

/-- What follows the first word. -/
def orRest : List Text → List Tok
  | [] => []
  | ws => .kOr :: orToks ws

theorem orToks_split (w : Text) (ws : List Text) :
    ∃ rest, orToks (w :: ws) = .str w false :: rest ∧ Ends rest ∧ rest = orRest ws := by
  cases ws with
  | nil => exact ⟨[], rfl, by simp [Ends], rfl⟩
  | cons v vs => exact ⟨.kOr :: orToks (v :: vs), rfl, by simp [Ends], rfl⟩

theorem loop_or (ws : List Text) (n : Nat) (hn : ws.length + 6 ≤ n) (a : Query) :
    loop n 0 a (orRest ws) = some (orQuery a ws, []) := by
  induction ws generalizing n a with
  | nil =>
    obtain ⟨m, rfl⟩ : ∃ m, n = m + 1 := ⟨n - 1, by simp at hn; omega⟩
    simp [loop, orQuery, orRest]
  | cons w ws ih =>
    obtain ⟨m, rfl⟩ : ∃ m, n = m + 6 := ⟨n - 6, by simp at hn; omega⟩
    obtain ⟨rest, h1, h2, h3⟩ := orToks_split w ws
    show loop (m + 6) 0 a (.kOr :: orToks (w :: ws)) = _
    rw [h1, loop]
    simp only [isOp, if_true]
    have := expr1_words [w] (by simp) (m + 2) (by simp) rest h2
    simp only [List.map_cons, List.map_nil, List.cons_append, List.nil_append] at this
    rw [show 0 + 1 = 1 from rfl, this]
    simp only
    rw [h3, ih _ (by simp at hn ⊢; omega)]
    rfl

theorem orToks_length (ws : List Text) : ws.length ≤ (orToks ws).length := by
  induction ws with
  | nil => simp
  | cons w ws ih =>
    cases ws with
    | nil => simp [orToks]
    | cons v vs => simp only [orToks, List.length_cons] at ih ⊢; omega

theorem expr_or (w : Text) (ws : List Text) (n : Nat) (hn : ws.length + 7 ≤ n) :
    expr n 0 (orToks (w :: ws)) = some (orQuery (.all [wordLeaf w]) ws, []) := by
  obtain ⟨m, rfl⟩ : ∃ m, n = m + 7 := ⟨n - 7, by omega⟩
  obtain ⟨rest, h1, h2, h3⟩ := orToks_split w ws
  rw [h1, expr_low _ _ (by decide)]
  have := expr1_words [w] (by simp) (m + 3) (by simp) rest h2
  simp only [List.map_cons, List.map_nil, List.cons_append, List.nil_append] at this
  rw [show 0 + 1 = 1 from rfl, this]
  simp only
  rw [h3, loop_or _ _ (by omega)]

/-! ### What the queries mean -/

variable {T : Type} [DecidableEq T]

/-- A text has a word: the terms of the word stand in the text, one after the other. -/
def Has (tok : Text → List T) (w c : Text) : Prop := tok w ≠ [] ∧ tok w <:+: tok c

theorem leaf_word (L : Lib T) (w : Text) :
    L.leaf (wordLeaf w) = if L.tok w = [] then none else some (fun c => decide (L.tok w <:+: L.tok c)) := by
  simp [Lib.leaf, plain, wordLeaf]

theorem sat_words (L : Lib T) (c : Text) (ws : List Text) :
    L.sat c (.all (ws.map wordLeaf)) = true ↔ (∃ w ∈ ws, L.tok w ≠ []) ∧ ∀ w ∈ ws, L.tok w ≠ [] → L.tok w <:+: L.tok c := by
  have key : ∀ ws : List Text, (ws.map wordLeaf).filterMap L.leaf =
      (ws.filter (fun w => decide (L.tok w ≠ []))).map (fun w => fun c => decide (L.tok w <:+: L.tok c)) := by
    intro ws
    induction ws with
    | nil => rfl
    | cons w ws ih =>
      rw [List.map_cons, List.filterMap_cons, leaf_word, ih]
      by_cases h : L.tok w = [] <;> simp [h]
  simp only [Lib.sat]
  rw [key]
  cases hf : ws.filter (fun w => decide (L.tok w ≠ [])) with
  | nil =>
    simp only [List.map_nil, Bool.false_eq_true, false_iff, not_and]
    rintro ⟨w, hw, hne⟩
    have : w ∈ ws.filter (fun w => decide (L.tok w ≠ [])) := List.mem_filter.2 ⟨hw, by simpa using hne⟩
    rw [hf] at this
    cases this
  | cons v vs =>
    have hv : v ∈ ws.filter (fun w => decide (L.tok w ≠ [])) := by rw [hf]; simp
    have hmem : ∀ w, w ∈ v :: vs ↔ w ∈ ws ∧ L.tok w ≠ [] := by
      intro w; rw [← hf, List.mem_filter]; simp
    simp only [List.map_cons]
    rw [← List.map_cons (f := fun w => fun c => decide (L.tok w <:+: L.tok c))]
    rw [List.all_map]
    simp only [List.all_eq_true, Function.comp, decide_eq_true_eq]
    constructor
    · intro h
      exact ⟨⟨v, ((hmem v).1 (by simp)).1, ((hmem v).1 (by simp)).2⟩, fun w hw hne => h w ((hmem w).2 ⟨hw, hne⟩)⟩
    · rintro ⟨-, h⟩ w hw
      exact h w ((hmem w).1 hw).1 ((hmem w).1 hw).2

theorem sat_or (L : Lib T) (c : Text) (a : Query) (ws : List Text) :
    L.sat c (orQuery a ws) = true ↔ L.sat c a = true ∨ ∃ w ∈ ws, Has L.tok w c := by
  induction ws generalizing a with
  | nil => simp [orQuery]
  | cons w ws ih =>
    have h1 := sat_words L c [w]
    simp only [List.map_cons, List.map_nil, List.mem_singleton, exists_eq_left, forall_eq] at h1
    rw [orQuery, ih, Lib.sat, Bool.or_eq_true, h1]
    simp only [List.mem_cons, exists_eq_or_imp, Has]
    tauto

/-- The words that are operators of the query language. -/
def operators : List Text := [['A', 'N', 'D'], ['O', 'R'], ['N', 'O', 'T']]

/-- A plain word: letters, digits, `_`, or anything outside ASCII, and not an operator. -/
def PlainWord (w : Text) : Prop := w ≠ [] ∧ (∀ c ∈ w, bare c = true) ∧ w ∉ operators

theorem word_plain (w : Text) (h : w ∉ operators) : word w = .str w false := by
  simp only [operators, List.mem_cons, List.not_mem_nil, or_false, not_or] at h
  simp [word, h]

theorem scan_or (ws : List Text) (h : ∀ w ∈ ws, PlainWord w) : scan .out (GraphTools.joinOr ws) = some (orToks ws) := by
  induction ws with
  | nil => rfl
  | cons w ws ih =>
    obtain ⟨h1, h2, h3⟩ := h w (by simp)
    obtain ⟨c, w', rfl⟩ := List.exists_cons_of_ne_nil h1
    have hc := h2 c (by simp)
    have hw' : ∀ x ∈ w', bare x = true := fun x hx => h2 x (by simp [hx])
    cases ws with
    | nil =>
      show scan .out (c :: w') = _
      rw [scan, first_bare c hc]
      simp only [List.nil_append]
      have := scan_run w' [c] [] hw'
      rw [List.append_nil] at this
      rw [this]
      simp only [List.cons_append, List.nil_append, scan]
      rw [word_plain _ h3]
      rfl
    | cons v vs =>
      have e : GraphTools.joinOr ((c :: w') :: v :: vs) = c :: (w' ++ (' ' :: 'O' :: 'R' :: ' ' :: GraphTools.joinOr (v :: vs))) := by
        show (c :: w') ++ " OR ".toList ++ GraphTools.joinOr (v :: vs) = _
        simp
      rw [e, scan, first_bare c hc]
      simp only [List.nil_append]
      rw [scan_run w' [c] _ hw']
      rw [scan, show bare ' ' = false by decide, show first ' ' = some (.out, []) from first_white _ (by decide)]
      simp only [Bool.false_eq_true, if_false, List.nil_append]
      rw [scan, show first 'O' = some (.bare ['O'], []) from first_bare _ (by decide)]
      simp only [List.nil_append]
      rw [scan, show bare 'R' = true by decide]
      simp only [if_true]
      rw [scan, show bare ' ' = false by decide, show first ' ' = some (.out, []) from first_white _ (by decide)]
      simp only [Bool.false_eq_true, if_false, List.nil_append, List.cons_append]
      rw [ih (fun x hx => h x (by simp [hx]))]
      simp only [Option.map_some, word_plain _ h3]
      rfl

theorem joinOr_chars (ws : List Text) (h : ∀ w ∈ ws, PlainWord w) : ∀ c ∈ GraphTools.joinOr ws, c.toNat ≠ 0 := by
  induction ws with
  | nil => simp [GraphTools.joinOr]
  | cons w ws ih =>
    have hw : ∀ c ∈ w, c.toNat ≠ 0 := fun c hc => bare_ne_zero c ((h w (by simp)).2.1 c hc)
    cases ws with
    | nil => exact hw
    | cons v vs =>
      intro c hc
      have e : GraphTools.joinOr (w :: v :: vs) = w ++ " OR ".toList ++ GraphTools.joinOr (v :: vs) := rfl
      rw [e, List.append_assoc, List.mem_append, List.mem_append] at hc
      rcases hc with hc | hc | hc
      · exact hw c hc
      · revert hc c; decide
      · exact ih (fun x hx => h x (by simp [hx])) c hc

/-- C215: keywords joined by ` OR ` are accepted, and the texts that satisfy them are those that have one of the keywords. -/
theorem C215_any (w : Text) (ws : List Text) (h : ∀ x ∈ w :: ws, PlainWord x) :
    ∃ x, parse (GraphTools.joinOr (w :: ws)) = some x ∧
      ∀ (L : Lib T) (c : Text), L.sat c x = true ↔ ∃ v ∈ w :: ws, Has L.tok v c := by
  refine ⟨orQuery (.all [wordLeaf w]) ws, ?_, ?_⟩
  · have hl := orToks_length (w :: ws)
    rw [parse, tokens, takeWhile_all _ (joinOr_chars _ h), scan_or _ h]
    simp only
    rw [expr_or _ _ _ (by simp at hl; omega)]
  · intro L c
    have h1 := sat_words L c [w]
    simp only [List.map_cons, List.map_nil, List.mem_singleton, exists_eq_left, forall_eq] at h1
    rw [sat_or, h1]
    simp only [List.mem_cons, exists_eq_or_imp, Has]
    tauto

/-- C215: a question of plain words with white space between them is accepted, and the texts that satisfy it are those that have
all its words (words without terms are not asked for, but one must have terms).
Missing: questions with other characters or with operators, see the violations. -/
theorem C215_all_partial (q : Text) (hc : ∀ c ∈ q, bare c = true ∨ white c = true) (hne : fields white q ≠ [])
    (hop : ∀ w ∈ fields white q, w ∉ operators) :
    ∃ x, parse q = some x ∧ ∀ (L : Lib T) (c : Text), L.sat c x = true ↔
      (∃ w ∈ fields white q, L.tok w ≠ []) ∧ ∀ w ∈ fields white q, L.tok w ≠ [] → L.tok w <:+: L.tok c := by
  refine ⟨.all ((fields white q).map wordLeaf), ?_, fun L c => sat_words L c _⟩
  have hz : ∀ c ∈ q, c.toNat ≠ 0 := fun c h => (hc c h).elim (bare_ne_zero c) (white_ne_zero c)
  rw [parse, tokens, takeWhile_all _ hz, (scan_words q [] hc).1]
  have hm : (fields white q).map word = (fields white q).map (fun w => Tok.str w false) ++ [] := by
    rw [List.append_nil]
    exact List.map_congr_left (fun w hw => word_plain w (hop w hw))
  simp only
  rw [hm]
  generalize fields white q = ws at *
  have hl : ((ws.map (fun w => Tok.str w false)) ++ []).length = ws.length := by simp
  rw [hl, show 8 * ws.length + 8 = (8 * ws.length + 4) + 3 + 1 by omega, expr_low _ _ (by decide)]
  rw [show 0 + 1 = 1 from rfl, expr1_words ws hne _ (by omega) [] (by simp [Ends])]
  simp [loop]

/-! ### Refused questions -/

/-- A character of ASCII that is no letter, no digit, no white space and none of `_ ( ) { } : , + * - ^ "` (nor NUL and the
substitute character). -/
def Odd (c : Char) : Prop :=
  c.toNat < 128 ∧ c.isAlphanum = false ∧ c ∉ "_ \t\n\r(){}:,+*-^\"".toList ∧ c.toNat ≠ 26 ∧ c.toNat ≠ 0

theorem odd_first (c : Char) (h : Odd c) : first c = none ∧ bare c = false := by
  obtain ⟨h1, h2, h3, h4, -⟩ := h
  have hb : bare c = false := by
    simp only [Char.isAlphanum, Char.isAlpha, Char.isUpper, Char.isLower, Char.isDigit, Bool.or_eq_false_iff, Bool.and_eq_false_iff,
      decide_eq_false_iff_not] at h2
    simp only [bare, Bool.or_eq_false_iff, Bool.and_eq_false_iff, decide_eq_false_iff_not, beq_eq_false_iff_ne]
    refine ⟨⟨⟨⟨⟨?_, ?_⟩, ?_⟩, ?_⟩, h4⟩, by omega⟩
    · exact h2.1.2
    · have := h2.1.1
      by_contra hx
      simp only [not_or, not_not] at hx
      exact this ⟨hx.1, hx.2⟩
    · exact h2.2
    · rintro rfl; exact h3 (by decide)
  refine ⟨?_, hb⟩
  have hn : ∀ d ∈ "_ \t\n\r(){}:,+*-^\"".toList, c ≠ d := fun d hd e => h3 (e ▸ hd)
  have hw : white c = false := by
    simp only [white, Bool.or_eq_false_iff, beq_eq_false_iff_ne]
    exact ⟨⟨⟨hn _ (by decide), hn _ (by decide)⟩, hn _ (by decide)⟩, hn _ (by decide)⟩
  simp only [first, hw, hb, hn '"' (by decide), single, hn '(' (by decide), hn ')' (by decide), hn '{' (by decide), hn '}' (by decide),
    hn ':' (by decide), hn ',' (by decide), hn '+' (by decide), hn '*' (by decide), hn '-' (by decide), hn '^' (by decide)]
  simp

/-- Between tokens or in a bare word. -/
def Open : Mode → Prop
  | .out => True
  | .bare _ => True
  | _ => False

theorem first_open (c : Char) (hc : c ≠ '"') (m : Mode) (ts : List Tok) (h : first c = some (m, ts)) : Open m := by
  unfold first at h
  split_ifs at h
  · obtain ⟨rfl, -⟩ := by simpa using h
    trivial
  · obtain ⟨rfl, -⟩ := by simpa using h
    trivial
  · cases hs : single c with
    | none => rw [hs] at h; cases h
    | some t =>
      rw [hs] at h
      obtain ⟨rfl, -⟩ := by simpa using h
      trivial

theorem scan_odd (q : Text) (hq : '"' ∉ q) (c : Char) (hc : c ∈ q) (ho : Odd c) (m : Mode) (hm : Open m) : scan m q = none := by
  induction q generalizing m with
  | nil => cases hc
  | cons d q ih =>
    have hd : d ≠ '"' := fun e => hq (by simp [e])
    have hq' : '"' ∉ q := fun e => hq (by simp [e])
    have hcase : first d = none ∨ c ∈ q := by
      rcases List.mem_cons.1 hc with rfl | h
      · exact .inl (odd_first c ho).1
      · exact .inr h
    have hstep : ∀ (f : List Tok → List Tok → List Tok), (match first d with
        | none => none
        | some (m, ts) => (scan m q).map (fun r => f ts r)) = none := by
      intro f
      cases hf : first d with
      | none => rfl
      | some p =>
        obtain ⟨m', ts⟩ := p
        rcases hcase with h | h
        · rw [hf] at h; cases h
        · simp only [ih hq' h m' (first_open d hd m' ts hf), Option.map_none]
    cases m with
    | out => rw [scan]; exact hstep (fun ts r => ts ++ r)
    | bare acc =>
      rw [scan]
      split_ifs with hb
      · rcases List.mem_cons.1 hc with rfl | h
        · rw [(odd_first c ho).2] at hb; cases hb
        · exact ih hq' h _ trivial
      · exact hstep (fun ts r => word acc :: (ts ++ r))
    | quote acc => exact hm.elim
    | quoted acc => exact hm.elim

/-- The character of a token of one character. -/
def charOf : Tok → Option Char
  | .lp => some '('
  | .rp => some ')'
  | .lcp => some '{'
  | .rcp => some '}'
  | .colon => some ':'
  | .comma => some ','
  | .plus => some '+'
  | .star => some '*'
  | .minus => some '-'
  | .caret => some '^'
  | _ => none

theorem single_char (c : Char) (t : Tok) (h : single c = some t) : charOf t = some c := by
  unfold single at h
  split_ifs at h <;> (cases h; subst c; rfl)

theorem word_not_single (c : Char) (t : Tok) (h : single c = some t) (w : Text) : word w ≠ t := by
  rintro rfl
  have := single_char c _ h
  unfold word at this
  split_ifs at this <;> cases this

theorem single_inj (c d : Char) (t : Tok) (h : single c = some t) (h' : single d = some t) : c = d :=
  Option.some.inj ((single_char c t h).symm.trans (single_char d t h'))

theorem single_first (c : Char) (t : Tok) (h : single c = some t) : first c = some (.out, [t]) ∧ bare c = false ∧ c ≠ '"' := by
  unfold single at h
  split_ifs at h <;> (cases h; subst c; exact ⟨rfl, by decide, by decide⟩)

/-- Without quotes, the tokens of one character are as many as the characters. -/
theorem scan_count (c : Char) (t : Tok) (ht : single c = some t) (q : Text) (hq : '"' ∉ q) (m : Mode) (hm : Open m) (ts : List Tok)
    (h : scan m q = some ts) : ts.count t = q.count c := by
  induction q generalizing m ts with
  | nil =>
    cases m with
    | out => simp [scan] at h; simp [h]
    | bare acc =>
      simp only [scan, Option.some.injEq] at h
      rw [← h, List.count_nil, List.count_eq_zero]
      simpa using (word_not_single c t ht acc).symm
    | quote acc => exact hm.elim
    | quoted acc => exact hm.elim
  | cons d q ih =>
    have hd : d ≠ '"' := fun e => hq (by simp [e])
    have hq' : '"' ∉ q := fun e => hq (by simp [e])
    have hstep : ∀ (m' : Mode) (us rs : List Tok), first d = some (m', us) → scan m' q = some rs →
        (us ++ rs).count t = (d :: q).count c := by
      intro m' us rs hf hs
      have hi := ih hq' m' (first_open d hd m' us hf) rs hs
      rw [List.count_append, List.count_cons, hi]
      by_cases e : d = c
      · subst e
        rw [(single_first d t ht).1] at hf
        obtain ⟨rfl, rfl⟩ := by simpa using hf
        simp; omega
      · have : us.count t = 0 := by
          rw [List.count_eq_zero]
          intro hu
          unfold first at hf
          split_ifs at hf
          · obtain ⟨-, rfl⟩ := by simpa using hf
            cases hu
          · obtain ⟨-, rfl⟩ := by simpa using hf
            cases hu
          · cases hs' : single d with
            | none => rw [hs'] at hf; cases hf
            | some u =>
              rw [hs'] at hf
              obtain ⟨-, rfl⟩ := by simpa using hf
              rw [List.mem_singleton] at hu
              subst hu
              exact e (single_inj d c t hs' ht)
        rw [this]
        simp [e]
    cases m with
    | out =>
      rw [scan] at h
      cases hf : first d with
      | none => rw [hf] at h; cases h
      | some p =>
        obtain ⟨m', us⟩ := p
        rw [hf] at h
        simp only [Option.map_eq_some_iff] at h
        obtain ⟨rs, h1, rfl⟩ := h
        exact hstep m' us rs hf h1
    | bare acc =>
      rw [scan] at h
      split_ifs at h with hb
      · have hi := ih hq' (.bare (acc ++ [d])) trivial ts h
        have hne : d ≠ c := by
          rintro rfl
          rw [(single_first d t ht).2.1] at hb
          cases hb
        rw [List.count_cons, hi]
        simp [hne]
      · cases hf : first d with
        | none => rw [hf] at h; cases h
        | some p =>
          obtain ⟨m', us⟩ := p
          rw [hf] at h
          simp only [Option.map_eq_some_iff] at h
          obtain ⟨rs, h1, rfl⟩ := h
          rw [List.count_cons, hstep m' us rs hf h1]
          simp [word_not_single c t ht acc]
    | quote acc => exact hm.elim
    | quoted acc => exact hm.elim

/-- Without quotes, the strings among the tokens are parts of the text. -/
theorem scan_strings (q : Text) (hq : '"' ∉ q) (s : Text) (b : Bool) (m : Mode) (hm : Open m) (ts : List Tok) (h : scan m q = some ts)
    (hs : Tok.str s b ∈ ts) : s <:+: (match m with | .bare acc => acc | _ => []) ++ q := by
  have hword : ∀ w, Tok.str s b = word w → s = w := by
    intro w e
    unfold word at e
    split_ifs at e
    simpa using (Tok.str.inj e).1
  induction q generalizing m ts with
  | nil =>
    cases m with
    | out => simp [scan] at h; subst h; cases hs
    | bare acc =>
      simp only [scan, Option.some.injEq] at h
      subst h
      rw [hword acc (by simpa using hs)]
      simp
    | quote acc => exact hm.elim
    | quoted acc => exact hm.elim
  | cons d q ih =>
    have hd : d ≠ '"' := fun e => hq (by simp [e])
    have hq' : '"' ∉ q := fun e => hq (by simp [e])
    have hstep : ∀ (m' : Mode) (us rs : List Tok), first d = some (m', us) → scan m' q = some rs → Tok.str s b ∈ us ++ rs → s <:+: d :: q := by
      intro m' us rs hf hs1 hmem
      have hi := ih hq' m' (first_open d hd m' us hf) rs hs1
      unfold first at hf
      split_ifs at hf
      · obtain ⟨rfl, rfl⟩ := by simpa using hf
        exact (hi (by simpa using hmem)).trans (by simpa using (List.suffix_cons d q).isInfix)
      · obtain ⟨rfl, rfl⟩ := by simpa using hf
        simpa using hi (by simpa using hmem)
      · cases hs' : single d with
        | none => rw [hs'] at hf; cases hf
        | some u =>
          rw [hs'] at hf
          obtain ⟨rfl, rfl⟩ := by simpa using hf
          have hu : Tok.str s b ≠ u := by
            rintro rfl
            cases single_char d _ hs'
          have : Tok.str s b ∈ rs := by
            rcases List.mem_append.1 hmem with h | h
            · exact absurd (List.mem_singleton.1 h) hu
            · exact h
          exact (hi this).trans (by simpa using (List.suffix_cons d q).isInfix)
    cases m with
    | out =>
      rw [scan] at h
      cases hf : first d with
      | none => rw [hf] at h; cases h
      | some p =>
        obtain ⟨m', us⟩ := p
        rw [hf] at h
        simp only [Option.map_eq_some_iff] at h
        obtain ⟨rs, h1, rfl⟩ := h
        simpa using hstep m' us rs hf h1 hs
    | bare acc =>
      rw [scan] at h
      split_ifs at h with hb
      · simpa using ih hq' (.bare (acc ++ [d])) trivial ts h hs
      · cases hf : first d with
        | none => rw [hf] at h; cases h
        | some p =>
          obtain ⟨m', us⟩ := p
          rw [hf] at h
          simp only [Option.map_eq_some_iff] at h
          obtain ⟨rs, h1, rfl⟩ := h
          rcases List.mem_cons.1 hs with e | hs
          · rw [hword acc e]
            exact (List.prefix_append acc _).isInfix
          · exact (hstep m' us rs hf h1 hs).trans (List.suffix_append acc _).isInfix
    | quote acc => exact hm.elim
    | quoted acc => exact hm.elim

/-- What the tokens of an accepted part have in common. -/
structure Fine (pre : List Tok) : Prop where
  minus : Tok.minus ∈ pre → Tok.colon ∈ pre
  colon : Tok.colon ∈ pre → ∃ s b, Tok.str s b ∈ pre ∧ isColumn s = true
  comma : Tok.comma ∈ pre → Tok.lp ∈ pre
  parens : pre.count .lp = pre.count .rp
  braces : pre.count .lcp = pre.count .rcp

theorem fine_append {a b : List Tok} (ha : Fine a) (hb : Fine b) : Fine (a ++ b) := by
  refine ⟨?_, ?_, ?_, ?_, ?_⟩
  · intro h
    rcases List.mem_append.1 h with h | h
    · exact List.mem_append_left _ (ha.minus h)
    · exact List.mem_append_right _ (hb.minus h)
  · intro h
    rcases List.mem_append.1 h with h | h
    · obtain ⟨s, x, h1, h2⟩ := ha.colon h
      exact ⟨s, x, List.mem_append_left _ h1, h2⟩
    · obtain ⟨s, x, h1, h2⟩ := hb.colon h
      exact ⟨s, x, List.mem_append_right _ h1, h2⟩
  · intro h
    rcases List.mem_append.1 h with h | h
    · exact List.mem_append_left _ (ha.comma h)
    · exact List.mem_append_right _ (hb.comma h)
  · rw [List.count_append, List.count_append, ha.parens, hb.parens]
  · rw [List.count_append, List.count_append, ha.braces, hb.braces]

/-- Strings, `*`, `+`, `^` and the operators. -/
def soft : Tok → Bool
  | .str _ _ => true
  | .star => true
  | .plus => true
  | .caret => true
  | .kAnd => true
  | .kOr => true
  | .kNot => true
  | _ => false

theorem fine_soft (pre : List Tok) (h : ∀ t ∈ pre, soft t = true) : Fine pre := by
  have hn : ∀ t, soft t = false → t ∉ pre := fun t ht hm => by rw [h t hm] at ht; cases ht
  refine ⟨fun x => absurd x (hn _ rfl), fun x => absurd x (hn _ rfl), fun x => absurd x (hn _ rfl), ?_, ?_⟩
  · rw [List.count_eq_zero.2 (hn _ rfl), List.count_eq_zero.2 (hn _ rfl)]
  · rw [List.count_eq_zero.2 (hn _ rfl), List.count_eq_zero.2 (hn _ rfl)]

/-- The tokens read, and what they have in common. -/
def Eats (ts r : List Tok) : Prop := ∃ pre, ts = pre ++ r ∧ Fine pre

theorem eats_refl (r : List Tok) : Eats r r := ⟨[], rfl, fine_soft [] (by simp)⟩

theorem eats_trans {a b c : List Tok} (h : Eats a b) (h' : Eats b c) : Eats a c := by
  obtain ⟨p, rfl, hp⟩ := h
  obtain ⟨p', rfl, hp'⟩ := h'
  exact ⟨p ++ p', by simp, fine_append hp hp'⟩

theorem eats_soft (t : Tok) (ht : soft t = true) (r : List Tok) : Eats (t :: r) r :=
  ⟨[t], rfl, fine_soft _ (by simpa using ht)⟩

theorem starOpt_reads (r : List Tok) : ∃ pre, r = pre ++ (starOpt r).2 ∧ ∀ t ∈ pre, soft t = true := by
  unfold starOpt
  split
  · exact ⟨[.star], rfl, by simp [soft]⟩
  · exact ⟨[], rfl, by simp⟩

theorem phrase_reads (n : Nat) (ts : List Tok) (p : List Part) (r : List Tok) (h : phrase n ts = some (p, r)) :
    ∃ pre, ts = pre ++ r ∧ ∀ t ∈ pre, soft t = true := by
  induction n generalizing ts p r with
  | zero => simp [phrase] at h
  | succ n ih =>
    rcases ts with _ | ⟨t, ts⟩
    · simp [phrase] at h
    cases t <;> try (simp [phrase] at h; done)
    rename_i s b
    rw [phrase] at h
    obtain ⟨pre, h1, h2⟩ := starOpt_reads ts
    split at h
    · rename_i st r' hst
      rw [hst] at h1
      simp only [Option.map_eq_some_iff] at h
      obtain ⟨⟨p', r''⟩, h3, h4⟩ := h
      obtain ⟨pre', h5, h6⟩ := ih r' p' r'' h3
      simp only [Prod.mk.injEq] at h4
      obtain ⟨-, rfl⟩ := h4
      refine ⟨.str s b :: (pre ++ .plus :: pre'), by rw [h1, h5]; simp, ?_⟩
      intro t ht
      simp only [List.mem_cons, List.mem_append] at ht
      rcases ht with rfl | ht | rfl | ht
      · rfl
      · exact h2 t ht
      · rfl
      · exact h6 t ht
    · rename_i st r' _ hst
      rw [hst] at h1
      simp only [Option.some.injEq, Prod.mk.injEq] at h
      obtain ⟨-, rfl⟩ := h
      refine ⟨.str s b :: pre, by rw [h1]; simp, ?_⟩
      intro t ht
      rcases List.mem_cons.1 ht with rfl | ht
      · rfl
      · exact h2 t ht

theorem phrase_eats (n : Nat) (ts : List Tok) (p : List Part) (r : List Tok) (h : phrase n ts = some (p, r)) : Eats ts r := by
  obtain ⟨pre, h1, h2⟩ := phrase_reads n ts p r h
  exact ⟨pre, h1, fine_soft pre h2⟩

theorem nearList_reads (n : Nat) (ts : List Tok) (ps : List (List Part)) (d : Text) (r : List Tok) (h : nearList n ts = some (ps, d, r)) :
    ∃ pre, ts = pre ++ .rp :: r ∧ ∀ t ∈ pre, soft t = true ∨ t = .comma := by
  induction n generalizing ts ps d r with
  | zero => simp [nearList] at h
  | succ n ih =>
    rw [nearList] at h
    split at h
    · cases h
    · rename_i p r' hp
      obtain ⟨pre, h1, h2⟩ := phrase_reads n ts p _ hp
      simp only [Option.some.injEq, Prod.mk.injEq] at h
      obtain ⟨-, -, rfl⟩ := h
      exact ⟨pre, h1, fun t ht => .inl (h2 t ht)⟩
    · rename_i p d' r' hp
      obtain ⟨pre, h1, h2⟩ := phrase_reads n ts p _ hp
      split_ifs at h
      simp only [Option.some.injEq, Prod.mk.injEq] at h
      obtain ⟨-, -, rfl⟩ := h
      refine ⟨pre ++ [.comma, .str d' false], by rw [h1]; simp, ?_⟩
      intro t ht
      simp only [List.mem_append, List.mem_cons, List.not_mem_nil, or_false] at ht
      rcases ht with ht | rfl | rfl
      · exact .inl (h2 t ht)
      · exact .inr rfl
      · exact .inl rfl
    · rename_i p r' _ _ hp
      obtain ⟨pre, h1, h2⟩ := phrase_reads n ts p _ hp
      simp only [Option.map_eq_some_iff] at h
      obtain ⟨⟨a, b, c⟩, h3, h4⟩ := h
      obtain ⟨pre', h5, h6⟩ := ih _ _ _ _ h3
      simp only [Prod.mk.injEq] at h4
      obtain ⟨-, -, rfl⟩ := h4
      refine ⟨pre ++ pre', by rw [h1, h5]; simp, ?_⟩
      intro t ht
      rcases List.mem_append.1 ht with ht | ht
      · exact .inl (h2 t ht)
      · exact h6 t ht

theorem nearset_eats (n : Nat) (ts : List Tok) (l : Leaf) (r : List Tok) (h : nearset n ts = some (l, r)) : Eats ts r := by
  unfold nearset at h
  split at h
  · rename_i r0
    simp only [Option.map_eq_some_iff] at h
    obtain ⟨⟨p, r'⟩, h1, h2⟩ := h
    simp only [Prod.mk.injEq] at h2
    obtain ⟨-, rfl⟩ := h2
    exact eats_trans (eats_soft .caret rfl _) (phrase_eats _ _ _ _ h1)
  · rename_i s q r0
    split_ifs at h
    simp only [Option.map_eq_some_iff] at h
    obtain ⟨⟨a, b, c⟩, h1, h2⟩ := h
    simp only [Prod.mk.injEq] at h2
    obtain ⟨-, rfl⟩ := h2
    obtain ⟨pre, h3, h4⟩ := nearList_reads _ _ _ _ _ h1
    refine ⟨.str s q :: .lp :: (pre ++ [.rp]), by rw [h3]; simp, ?_⟩
    have hn : ∀ t, soft t = false → t ≠ .comma → t ∉ pre := fun t ht hc hm => by
      rcases h4 t hm with h | h
      · rw [h] at ht; cases ht
      · exact hc h
    have z : ∀ t, soft t = false → t ≠ .comma → pre.count t = 0 := fun t a b => List.count_eq_zero.2 (hn t a b)
    refine ⟨?_, ?_, ?_, ?_, ?_⟩
    · intro hm; simp [hn .minus rfl (by simp)] at hm
    · intro hm; simp [hn .colon rfl (by simp)] at hm
    · intro _; simp
    · simp [List.count_cons, List.count_append, z .lp rfl (by simp), z .rp rfl (by simp)]
    · simp [List.count_cons, List.count_append, z .lcp rfl (by simp), z .rcp rfl (by simp)]
  · simp only [Option.map_eq_some_iff] at h
    obtain ⟨⟨p, r'⟩, h1, h2⟩ := h
    simp only [Prod.mk.injEq] at h2
    obtain ⟨-, rfl⟩ := h2
    exact phrase_eats _ _ _ _ h1

theorem colList_reads (n : Nat) (ts r : List Tok) (h : colList n ts = some r) :
    ∃ pre, ts = pre ++ .rcp :: r ∧ pre ≠ [] ∧ ∀ t ∈ pre, ∃ s b, t = .str s b ∧ isColumn s = true := by
  induction n generalizing ts r with
  | zero => simp [colList] at h
  | succ n ih =>
    rcases ts with _ | ⟨t, ts⟩
    · simp [colList] at h
    cases t <;> try (simp [colList] at h; done)
    rename_i s b
    by_cases hc : isColumn s = true
    case neg =>
      rcases ts with _ | ⟨t, ts⟩
      · simp [colList, hc] at h
      · cases t <;> simp [colList, hc] at h
    by_cases hr : ∃ r', ts = .rcp :: r'
    · obtain ⟨r', rfl⟩ := hr
      simp only [colList, hc, if_true, Option.some.injEq] at h
      subst h
      exact ⟨[.str s b], rfl, by simp, fun t ht => ⟨s, b, List.mem_singleton.1 ht, hc⟩⟩
    · have h : colList n ts = some r := by
        rcases ts with _ | ⟨t, ts⟩
        · simpa [colList, hc] using h
        · cases t <;> first | exact absurd ⟨_, rfl⟩ hr | simpa [colList, hc] using h
      obtain ⟨pre, h1, h2, h3⟩ := ih _ _ h
      refine ⟨.str s b :: pre, by rw [h1]; simp, by simp, ?_⟩
      intro t ht
      rcases List.mem_cons.1 ht with rfl | ht
      · exact ⟨s, b, rfl, hc⟩
      · exact h3 t ht

theorem fine_cols (pre : List Tok) (hne : pre ≠ []) (h : ∀ t ∈ pre, ∃ s b, t = Tok.str s b ∧ isColumn s = true) (lead : List Tok)
    (hl : lead = [] ∨ lead = [.minus]) : Fine (lead ++ .lcp :: (pre ++ [.rcp, .colon])) := by
  have hn : ∀ t, (∀ s b, t ≠ Tok.str s b) → pre.count t = 0 := by
    intro t ht
    rw [List.count_eq_zero]
    intro hm
    obtain ⟨s, b, e, -⟩ := h t hm
    exact ht s b e
  have hlead : ∀ t, t ≠ Tok.minus → lead.count t = 0 := by
    intro t ht
    rw [List.count_eq_zero]
    rcases hl with rfl | rfl
    · simp
    · simpa using ht
  have cnt : ∀ t, (∀ s b, t ≠ Tok.str s b) → t ≠ .minus →
      (lead ++ Tok.lcp :: (pre ++ [Tok.rcp, Tok.colon])).count t = [Tok.lcp, Tok.rcp, Tok.colon].count t := by
    intro t h1 h2
    rw [List.count_append, List.count_cons, List.count_append, hlead t h2, hn t h1, List.count_cons (a := t) (b := Tok.lcp)]
    omega
  obtain ⟨t, pre', rfl⟩ := List.exists_cons_of_ne_nil hne
  obtain ⟨s, b, rfl, hs⟩ := h t (by simp)
  refine ⟨?_, ?_, ?_, ?_, ?_⟩
  · intro _; simp
  · intro _; exact ⟨s, b, by simp, hs⟩
  · intro hm
    exact absurd hm (List.count_eq_zero.1 (by rw [cnt _ (by simp) (by simp)]; rfl))
  · rw [cnt _ (by simp) (by simp), cnt _ (by simp) (by simp)]; rfl
  · rw [cnt _ (by simp) (by simp), cnt _ (by simp) (by simp)]; rfl

theorem fine_col (s : Text) (b : Bool) (hs : isColumn s = true) (lead : List Tok) (hl : lead = [] ∨ lead = [.minus]) :
    Fine (lead ++ [.str s b, .colon]) := by
  refine ⟨?_, ?_, ?_, ?_, ?_⟩
  · intro _; simp
  · intro _; exact ⟨s, b, by simp, hs⟩
  all_goals rcases hl with rfl | rfl <;> simp

theorem colset_eats (n : Nat) (ts : List Tok) (k : Bool) (r : List Tok) (h : colset n ts = .some k r) : Eats ts r := by
  unfold colset at h
  split at h
  · rename_i s b r0
    split_ifs at h with hs
    obtain ⟨-, rfl⟩ := by simpa using h
    exact ⟨[.str s b, .colon], rfl, fine_col s b hs [] (.inl rfl)⟩
  · rename_i s b r0
    split_ifs at h with hs
    obtain ⟨-, rfl⟩ := by simpa using h
    exact ⟨[.minus, .str s b, .colon], rfl, fine_col s b hs [.minus] (.inr rfl)⟩
  · rename_i r0
    split at h
    · rename_i r' hc
      obtain ⟨-, rfl⟩ := by simpa using h
      obtain ⟨pre, h1, h2, h3⟩ := colList_reads _ _ _ hc
      exact ⟨[.minus] ++ .lcp :: (pre ++ [.rcp, .colon]), by rw [h1]; simp, fine_cols pre h2 h3 _ (.inr rfl)⟩
    · cases h
  · cases h
  · rename_i r0
    split at h
    · rename_i r' hc
      obtain ⟨-, rfl⟩ := by simpa using h
      obtain ⟨pre, h1, h2, h3⟩ := colList_reads _ _ _ hc
      exact ⟨[] ++ .lcp :: (pre ++ [.rcp, .colon]), by rw [h1]; simp, fine_cols pre h2 h3 _ (.inl rfl)⟩
    · cases h
  · cases h

theorem cnearset_eats (n : Nat) (ts : List Tok) (l : Leaf) (r : List Tok) (h : cnearset n ts = some (l, r)) : Eats ts r := by
  unfold cnearset at h
  split at h
  · cases h
  · exact nearset_eats _ _ _ _ h
  · rename_i k r0 hc
    simp only [Option.map_eq_some_iff] at h
    obtain ⟨⟨p, r'⟩, h1, h2⟩ := h
    simp only [Prod.mk.injEq] at h2
    obtain ⟨-, rfl⟩ := h2
    exact eats_trans (colset_eats _ _ _ _ hc) (nearset_eats _ _ _ _ h1)

theorem exprlist_eats (n : Nat) (ts : List Tok) (ls : List Leaf) (r : List Tok) (h : exprlist n ts = some (ls, r)) : Eats ts r := by
  induction n generalizing ts ls r with
  | zero => simp [exprlist] at h
  | succ n ih =>
    rw [exprlist] at h
    split at h
    · cases h
    · rename_i l r0 hc
      split_ifs at h
      · simp only [Option.map_eq_some_iff] at h
        obtain ⟨⟨p, r'⟩, h1, h2⟩ := h
        simp only [Prod.mk.injEq] at h2
        obtain ⟨-, rfl⟩ := h2
        exact eats_trans (cnearset_eats _ _ _ _ hc) (ih _ _ _ h1)
      · simp only [Option.some.injEq, Prod.mk.injEq] at h
        obtain ⟨-, rfl⟩ := h
        exact cnearset_eats _ _ _ _ hc

theorem eats_paren {a r : List Tok} (h : Eats a (.rp :: r)) : Eats (.lp :: a) r := by
  obtain ⟨pre, rfl, hp⟩ := h
  refine ⟨.lp :: (pre ++ [.rp]), by simp, ?_⟩
  refine ⟨?_, ?_, ?_, ?_, ?_⟩
  · intro hm
    have : Tok.minus ∈ pre := by simpa using hm
    simp [hp.minus this]
  · intro hm
    have : Tok.colon ∈ pre := by simpa using hm
    obtain ⟨s, b, h1, h2⟩ := hp.colon this
    exact ⟨s, b, by simp [h1], h2⟩
  · intro _; simp
  · have := hp.parens
    simp [List.count_cons, List.count_append, this]
  · have := hp.braces
    simp [List.count_cons, List.count_append, this]

theorem expr_eats (n : Nat) : (∀ l ts a r, expr n l ts = some (a, r) → Eats ts r) ∧
    (∀ l b ts a r, loop n l b ts = some (a, r) → Eats ts r) := by
  induction n with
  | zero => exact ⟨fun l ts a r h => by simp [expr] at h, fun l b ts a r h => by simp [loop] at h⟩
  | succ n ih =>
    obtain ⟨ih1, ih2⟩ := ih
    refine ⟨?_, ?_⟩
    · intro l ts a r h
      by_cases hl : l < 3
      · rw [expr_low n l hl] at h
        split at h
        · cases h
        · rename_i a' r' he
          exact eats_trans (ih1 _ _ _ _ he) (ih2 _ _ _ _ _ h)
      · by_cases hp : ∃ r0, ts = .lp :: r0
        · obtain ⟨r0, rfl⟩ := hp
          rw [expr] at h
          simp only [hl, if_false] at h
          split at h
          · rename_i a' r' he
            simp only [Option.some.injEq, Prod.mk.injEq] at h
            obtain ⟨-, rfl⟩ := h
            exact eats_paren (ih1 _ _ _ _ he)
          · cases h
        · have he : expr (n + 1) l ts = expr (n + 1) 3 ts := by
            rcases ts with _ | ⟨t, ts⟩
            · simp [expr, hl]
            · cases t <;> simp [expr, hl]
          rw [he, expr_top n ts (fun r0 e => hp ⟨r0, e⟩)] at h
          split at h
          · rename_i k r0 hc
            split at h
            · rename_i a' r' hx
              simp only [Option.some.injEq, Prod.mk.injEq] at h
              obtain ⟨-, rfl⟩ := h
              exact eats_trans (colset_eats _ _ _ _ hc) (eats_paren (ih1 _ _ _ _ hx))
            · cases h
          · simp only [Option.map_eq_some_iff] at h
            obtain ⟨⟨p, r'⟩, h1, h2⟩ := h
            simp only [Prod.mk.injEq] at h2
            obtain ⟨-, rfl⟩ := h2
            exact exprlist_eats _ _ _ _ h1
    · intro l b ts a r h
      rcases ts with _ | ⟨t, ts⟩
      · simp only [loop, Option.some.injEq, Prod.mk.injEq] at h
        obtain ⟨-, rfl⟩ := h
        exact eats_refl _
      · rw [loop] at h
        split_ifs at h with ho
        · split at h
          · cases h
          · rename_i b' r' he
            refine eats_trans (eats_soft t ?_ ts) (eats_trans (ih1 _ _ _ _ he) (ih2 _ _ _ _ _ h))
            cases t <;> first | rfl | (unfold isOp at ho; split at ho <;> simp_all)
        · simp only [Option.some.injEq, Prod.mk.injEq] at h
          obtain ⟨-, rfl⟩ := h
          exact eats_refl _

/-- What makes a question (without double quotes) unreadable: a question mark, a full stop, an apostrophe or another character of
ASCII that is not in the query language, a hyphen without a colon, a comma without a parenthesis, a colon without the name of the
column, or parentheses or braces that do not match. -/
def Unreadable (q : Text) : Prop :=
  '"' ∉ q ∧ (∀ c ∈ q, c.toNat ≠ 0) ∧
  ((∃ c ∈ q, Odd c) ∨ ('-' ∈ q ∧ ':' ∉ q) ∨ (',' ∈ q ∧ '(' ∉ q) ∨ (':' ∈ q ∧ ¬ "content".toList <:+: q.map lowerAscii) ∨
    q.count '(' ≠ q.count ')' ∨ q.count '{' ≠ q.count '}')

/-- C215, violated: every such question is refused. -/
theorem C215_refused_violated (q : Text) (hu : Unreadable q) : parse q = none := by
  obtain ⟨hq, hz, h⟩ := hu
  rw [parse, tokens, takeWhile_all q hz]
  cases hs : scan .out q with
  | none => rfl
  | some ts =>
    simp only
    split
    · rename_i x he
      exfalso
      obtain ⟨pre, h1, hf⟩ := (expr_eats _).1 _ _ _ _ he
      rw [List.append_nil] at h1
      subst h1
      have hc := fun c t ht => scan_count c t ht q hq .out trivial ts hs
      have hm : ∀ c t, single c = some t → (t ∈ ts ↔ c ∈ q) := by
        intro c t ht
        rw [← List.count_pos_iff, hc c t ht, List.count_pos_iff]
      rcases h with ⟨c, h1, h2⟩ | ⟨h1, h2⟩ | ⟨h1, h2⟩ | ⟨h1, h2⟩ | h1 | h1
      · rw [scan_odd q hq c h1 h2 .out trivial] at hs
        cases hs
      · exact h2 ((hm ':' .colon rfl).1 (hf.minus ((hm '-' .minus rfl).2 h1)))
      · exact h2 ((hm '(' .lp rfl).1 (hf.comma ((hm ',' .comma rfl).2 h1)))
      · obtain ⟨s, b, h3, h4⟩ := hf.colon ((hm ':' .colon rfl).2 h1)
        have h5 := scan_strings q hq s b .out trivial ts hs h3
        have h6 : s.map lowerAscii = "content".toList := by simpa [isColumn] using h4
        refine h2 ?_
        rw [← h6]
        exact (by simpa using h5 : s <:+: q).map lowerAscii
      · exact h1 (by rw [← hc '(' .lp rfl, ← hc ')' .rp rfl]; exact hf.parens)
      · exact h1 (by rw [← hc '{' .lcp rfl, ← hc '}' .rcp rfl]; exact hf.braces)
    · rfl

/-- C215: the keyword search of messages for a question of plain words succeeds, and lists messages of the user, of other sessions than
the excluded one, that have all the words, each once; one is left out only when the list is full. Missing: other questions. -/
theorem C215_messages_partial (L : Lib T) (order : List Msg → List Msg) (ho : ∀ l, (order l).Perm l) (rows : List Msg) (hr : rows.Nodup)
    (q user exclude : Text) (limit : Int) (hu : user ≠ []) (hc : ∀ c ∈ q, bare c = true ∨ white c = true)
    (htok : ∀ w ∈ fields white q, L.tok w ≠ []) (hne : fields white q ≠ []) (hop : ∀ w ∈ fields white q, w ∉ operators) :
    ∃ out, L.messages order rows q user exclude limit = .ok out ∧ out.Nodup ∧ out.length ≤ (if limit ≤ 0 then 10 else limit.toNat) ∧
      (∀ m ∈ out, m ∈ rows ∧ m.user = user ∧ (exclude = [] ∨ m.session ≠ exclude) ∧ ∀ w ∈ fields white q, Has L.tok w m.content) ∧
      ∀ m ∈ rows, m.user = user → (exclude = [] ∨ m.session ≠ exclude) → (∀ w ∈ fields white q, Has L.tok w m.content) → m ∉ out →
        out.length = if limit ≤ 0 then 10 else limit.toNat := by
  obtain ⟨x, hx, hs⟩ := C215_all_partial (T := T) q hc hne hop
  have hq : q ≠ [] := by rintro rfl; exact hne rfl
  have hsat : ∀ c, L.sat c x = true ↔ ∀ w ∈ fields white q, Has L.tok w c := by
    intro c
    rw [hs L c]
    obtain ⟨w, ws, hw⟩ := List.exists_cons_of_ne_nil hne
    constructor
    · rintro ⟨-, h⟩ v hv
      exact ⟨htok v hv, h v hv (htok v hv)⟩
    · intro h
      exact ⟨⟨w, by rw [hw]; simp, htok w (by rw [hw]; simp)⟩, fun v hv _ => (h v hv).2⟩
  unfold Lib.messages
  rw [if_neg (by simp [hq, hu]), hx]
  generalize (if limit ≤ 0 then 10 else limit.toNat) = k
  set p : Msg → Bool := fun r => L.sat r.content x && decide (r.user = user) && (decide (exclude = []) || decide (r.session ≠ exclude)) with hp
  have hpm : ∀ m, p m = true ↔ (∀ w ∈ fields white q, Has L.tok w m.content) ∧ m.user = user ∧ (exclude = [] ∨ m.session ≠ exclude) := by
    intro m
    rw [hp]
    simp only [Bool.and_eq_true, Bool.or_eq_true, decide_eq_true_eq, hsat]
    tauto
  refine ⟨_, rfl, ?_, List.length_take_le _ _, ?_, ?_⟩
  · exact (((ho _).nodup_iff).2 (hr.filter p)).sublist (List.take_sublist _ _)
  · intro m hm
    obtain ⟨h1, h2⟩ := List.mem_filter.1 ((ho _).mem_iff.1 (List.mem_of_mem_take hm))
    obtain ⟨a, b, c⟩ := (hpm m).1 h2
    exact ⟨h1, b, c, a⟩
  · intro m hm h1 h2 h3 hn
    have hin : m ∈ order (rows.filter p) := (ho _).mem_iff.2 (List.mem_filter.2 ⟨hm, (hpm m).2 ⟨h3, h1, h2⟩⟩)
    change m ∉ (order (rows.filter p)).take k at hn
    change ((order (rows.filter p)).take k).length = k
    rw [List.length_take]
    by_contra hlt
    have hl : (order (rows.filter p)).length ≤ k := by omega
    rw [List.take_of_length_le hl] at hn
    exact hn hin

/-- C215, violated: whatever messages there are, the keyword search of messages fails for an unreadable question. -/
theorem C215_messages_violated (L : Lib T) (order : List Msg → List Msg) (rows : List Msg) (q user exclude : Text) (limit : Int)
    (hq : q ≠ []) (hu : user ≠ []) (h : Unreadable q) : L.messages order rows q user exclude limit = .error () := by
  unfold Lib.messages
  rw [if_neg (by simp [hq, hu]), C215_refused_violated q h]

/-- C215: the keyword part of a hybrid search for plain words finds records that have all the words; one is left out only when the
pool is full. Missing: other questions. -/
theorem C215_hybrid_partial {R : Type} (L : Lib T) (order : List R → List R) (ho : ∀ l, (order l).Perm l) (text : R → Text)
    (rows : List R) (q : Text) (topK : Int) (hc : ∀ c ∈ q, bare c = true ∨ white c = true)
    (htok : ∀ w ∈ fields white q, L.tok w ≠ []) (hne : fields white q ≠ []) (hop : ∀ w ∈ fields white q, w ∉ operators) :
    (∀ r ∈ L.keywords order text rows q topK, r ∈ rows ∧ ∀ w ∈ fields white q, Has L.tok w (text r)) ∧
    ∀ r ∈ rows, (∀ w ∈ fields white q, Has L.tok w (text r)) → r ∉ L.keywords order text rows q topK →
      (L.keywords order text rows q topK).length = if topK * 3 ≤ 0 then 30 else (topK * 3).toNat := by
  obtain ⟨x, hx, hs⟩ := C215_all_partial (T := T) q hc hne hop
  have hq : q ≠ [] := by rintro rfl; exact hne rfl
  have hsat : ∀ c, L.sat c x = true ↔ ∀ w ∈ fields white q, Has L.tok w c := by
    intro c
    rw [hs L c]
    obtain ⟨w, ws, hw⟩ := List.exists_cons_of_ne_nil hne
    constructor
    · rintro ⟨-, h⟩ v hv
      exact ⟨htok v hv, h v hv (htok v hv)⟩
    · intro h
      exact ⟨⟨w, by rw [hw]; simp, htok w (by rw [hw]; simp)⟩, fun v hv _ => (h v hv).2⟩
  have he : L.keywords order text rows q topK =
      (order (rows.filter (fun r => L.sat (text r) x))).take (if topK * 3 ≤ 0 then 30 else (topK * 3).toNat) := by
    unfold Lib.keywords Lib.select
    rw [if_neg hq, hx]
    rfl
  rw [he]
  generalize (if topK * 3 ≤ 0 then 30 else (topK * 3).toNat) = k
  refine ⟨?_, ?_⟩
  · intro r hr
    obtain ⟨h1, h2⟩ := List.mem_filter.1 ((ho _).mem_iff.1 (List.mem_of_mem_take hr))
    exact ⟨h1, (hsat _).1 h2⟩
  · intro r hr h3 hn
    have hin : r ∈ order (rows.filter (fun r => L.sat (text r) x)) := (ho _).mem_iff.2 (List.mem_filter.2 ⟨hr, (hsat _).2 h3⟩)
    rw [List.length_take]
    by_contra hlt
    have hl : (order (rows.filter (fun r => L.sat (text r) x))).length ≤ k := by omega
    rw [List.take_of_length_le hl] at hn
    exact hn hin

/-- C215, violated: whatever records there are, the keyword part of a hybrid search finds nothing for an unreadable question, and does
not say so. -/
theorem C215_hybrid_violated {R : Type} (L : Lib T) (order : List R → List R) (text : R → Text) (rows : List R) (q : Text) (topK : Int)
    (h : Unreadable q) : L.keywords order text rows q topK = [] := by
  unfold Lib.keywords Lib.select
  split
  · rfl
  · rw [C215_refused_violated q h]
    rfl

/-! ### Cases -/

/-- Words in lower case. -/
def demo : Lib Text := ⟨fun t => (fields (fun c => !c.isAlphanum) t).map (fun w => w.map Char.toLower), fun _ => none⟩

example : PlainWord "milk".toList ∧ PlainWord "tea".toList := by
  refine ⟨⟨by decide, by decide, by decide⟩, ⟨by decide, by decide, by decide⟩⟩
example : (∀ c ∈ "oat milk".toList, bare c = true ∨ white c = true) ∧ fields white "oat milk".toList = ["oat".toList, "milk".toList] ∧
    (∀ w ∈ fields white "oat milk".toList, w ∉ operators) ∧ (∀ w ∈ fields white "oat milk".toList, demo.tok w ≠ []) := by decide +kernel
example : (demo.messages id [⟨"m".toList, "s".toList, "u".toList, "Milk, oat or soy".toList⟩] "oat milk".toList "u".toList [] 3).toOption.map List.length
    = some 1 := by decide +kernel
/-- A text that contains the question word for word, and questions people ask. -/
example : Unreadable "What is my name?".toList ∧ Unreadable "user's birthday".toList ∧ Unreadable "well-known".toList ∧
    Unreadable "milk, eggs".toList ∧ Unreadable "note: milk".toList ∧ Unreadable "2024-01-15".toList ∧ Unreadable "v1.2".toList := by
  have hodd : Odd '?' ∧ Odd '\'' ∧ Odd '.' := by simp only [Odd]; decide
  refine ⟨⟨by decide, by decide, .inl ⟨'?', by decide, hodd.1⟩⟩, ⟨by decide, by decide, .inl ⟨'\'', by decide, hodd.2.1⟩⟩,
    ⟨by decide, by decide, .inr (.inl (by decide))⟩, ⟨by decide, by decide, .inr (.inr (.inl (by decide)))⟩,
    ⟨by decide, by decide, .inr (.inr (.inr (.inl (by decide))))⟩, ⟨by decide, by decide, .inr (.inl (by decide))⟩,
    ⟨by decide, by decide, .inl ⟨'.', by decide, hodd.2.2⟩⟩⟩
example : demo.keywords id id ["What is my name?".toList] "What is my name?".toList 5 = [] ∧
    demo.keywords id id ["What is my name?".toList] "What is my name".toList 5 = ["What is my name?".toList] := by decide +kernel
/-- Quotes make it readable. -/
example : (parse "\"What is my name?\"".toList).isSome = true ∧ (parse "milk AND (tea OR NOT)".toList).isSome = false ∧
    (parse "milk AND (tea OR NEAR(oat soy, 3)) NOT cof*".toList).isSome = true := by decide +kernel

end Verif.FtsQuery
