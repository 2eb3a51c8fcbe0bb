import Verif.Thm.Filter

/-! C20: parsing filter strings. -/
namespace Verif.Thm.Filter
open Verif.Model.Filter
open Verif.Model.Store (Meta isSpace)

variable {F : Type} [LinearOrder F]

/-! ### Specification -/

/-- Characters of plain names and values. -/
def isWord (x : Char) : Bool := !isSpace x && !"()'\"<>=!:".toList.contains x

/-- A comparison as written in a filter string: name, operator, value. -/
structure Atom where
  field : List Char
  op : Cmp
  sym : String
  val : List Char

/-- Names and values are words, the operator is one of the documented spellings. -/
def Atom.Valid (a : Atom) : Prop :=
  a.field ≠ [] ∧ (∀ x ∈ a.field, isWord x = true) ∧ a.val ≠ [] ∧ (∀ x ∈ a.val, isWord x = true) ∧
    (a.sym, a.op) ∈ [(">=", Cmp.gte), ("<=", .lte), ("!=", .ne), (">", .gt), ("<", .lt), ("=", .eq), (":", .eq)]

/-- `name op value`. -/
def Atom.text (a : Atom) : List Char := a.field ++ a.sym.toList ++ a.val

/-- The value a word denotes: a truth value, a number or a text. -/
def wordValue (c : Lib F) (s : List Char) : V F :=
  if s = "true".toList ∨ s = "TRUE".toList then .bool true
  else if s = "false".toList ∨ s = "FALSE".toList then .bool false
  else
    match c.parse (String.ofList s) with
    | some x => .num x
    | none => .str (String.ofList s)

/-- The comparison an atom stands for. -/
def Atom.expr (c : Lib F) (a : Atom) : Expr F := .cmp a.op (String.ofList a.field) (wordValue c a.val)

/-- Texts joined by a connective. -/
def joined (sep : String) (x : List Char) : List (List Char) → List Char
  | [] => x
  | y :: ys => x ++ sep.toList ++ joined sep y ys

/-- A member of a conjunction: a comparison, or a parenthesised disjunction of comparisons. -/
inductive Part where
  | one (a : Atom)
  | group (a : Atom) (as : List Atom)

/-- All comparisons in it are valid. -/
def Part.Valid : Part → Prop
  | .one a => a.Valid
  | .group a as => a.Valid ∧ ∀ x ∈ as, x.Valid

/-- Its text. -/
def Part.text : Part → List Char
  | .one a => a.text
  | .group a as => '(' :: joined " OR " a.text (as.map Atom.text) ++ [')']

/-- What it asks of metadata: any member of the disjunction. -/
def Part.Asks (c : Lib F) (m : Meta) : Part → Prop
  | .one a => Sat c m (a.expr c)
  | .group a as => ∃ x ∈ a :: as, Sat c m (x.expr c)

/-- It is not parenthesised. -/
def Part.bare : Part → Prop
  | .one _ => True
  | .group _ _ => False

/-! ### Text lemmas -/

theorem cut_hit (pat : List Char) (hp : pat ≠ []) (u rest : List Char)
    (h : ∀ v w, u = v ++ w → w ≠ [] → ¬ pat <+: w ++ (pat ++ rest)) : cut pat (u ++ (pat ++ rest)) = some (u, rest) := by
  induction u with
  | nil =>
    cases hpat : pat with
    | nil => exact absurd hpat hp
    | cons x xs =>
      have : (x :: xs).isPrefixOf (x :: (xs ++ rest)) = true := by
        rw [List.isPrefixOf_iff_prefix]; exact ⟨rest, rfl⟩
      simp only [List.nil_append, List.cons_append, cut]
      rw [if_pos this]
      simp
  | cons x xs ih =>
    have h0 := h [] (x :: xs) rfl (by simp)
    simp only [List.cons_append, cut]
    rw [if_neg (by rw [List.isPrefixOf_iff_prefix]; exact h0),
      ih (fun v w hv hw => h (x :: v) w (by simp [hv]) hw)]
    rfl

theorem cut_none (pat : List Char) (hp : pat ≠ []) (u : List Char)
    (h : ∀ v w, u = v ++ w → ¬ pat <+: w) : cut pat u = none := by
  induction u with
  | nil =>
    unfold cut
    rw [if_neg]
    simpa using hp
  | cons x xs ih =>
    have h0 := h [] (x :: xs) rfl
    simp only [cut]
    rw [if_neg (by rw [List.isPrefixOf_iff_prefix]; exact h0), ih (fun v w hv => h (x :: v) w (by simp [hv]))]
    rfl

/-- A pattern with a character that does not occur is not found. -/
theorem cut_none_of_not_mem (pat : List Char) (u : List Char) (x : Char) (hx : x ∈ pat) (hu : x ∉ u) :
    cut pat u = none := by
  apply cut_none
  · rintro rfl; simp at hx
  · intro v w hv hpre
    exact hu (hv ▸ List.mem_append_right v (hpre.subset hx))

/-- A pattern whose first character does not occur before it is found where it stands. -/
theorem cut_first (x : Char) (xs : List Char) (u rest : List Char) (hu : x ∉ u) :
    cut (x :: xs) (u ++ ((x :: xs) ++ rest)) = some (u, rest) := by
  apply cut_hit
  · simp
  · intro v w hv hw hpre
    cases w with
    | nil => exact hw rfl
    | cons y ys =>
      have : x = y := by
        obtain ⟨t, ht⟩ := hpre
        exact (List.cons.inj ht).1
      apply hu
      rw [hv, this]; simp

theorem dropWhile_id {p : Char → Bool} (s : List Char) (h : ∀ x, s.head? = some x → p x = false) : s.dropWhile p = s := by
  cases s with
  | nil => rfl
  | cons x xs => simp [List.dropWhile_cons, h x rfl]

theorem trim_id (s : List Char) (h1 : ∀ x, s.head? = some x → isSpace x = false)
    (h2 : ∀ x, s.getLast? = some x → isSpace x = false) : trim s = s := by
  unfold trim
  rw [dropWhile_id s h1, dropWhile_id s.reverse, List.reverse_reverse]
  intro x hx; rw [List.head?_reverse] at hx; exact h2 x hx

theorem isWord_space {x : Char} (h : isWord x = true) : isSpace x = false := by
  unfold isWord at h; simp only [Bool.and_eq_true, Bool.not_eq_true'] at h; exact h.1

theorem isWord_ne {x y : Char} (h : isWord x = true) (hy : y ∈ "()'\"<>=!:".toList) : x ≠ y := by
  unfold isWord at h; simp only [Bool.and_eq_true, Bool.not_eq_true'] at h
  rintro rfl
  have := h.2
  rw [List.contains_iff_mem.2 hy] at this
  cases this

theorem trim_word (s : List Char) (h : ∀ x ∈ s, isWord x = true) : trim s = s :=
  trim_id s (fun x hx => isWord_space (h x (List.mem_of_mem_head? (by rw [hx]; rfl))))
    (fun x hx => isWord_space (h x (List.mem_of_getLast? hx)))

theorem parseValue_word (c : Lib F) (s : List Char) (hs : s ≠ []) (h : ∀ x ∈ s, isWord x = true) :
    parseValue c s = .ok (wordValue c s) := by
  have hq : ∀ q ∈ "()'\"<>=!:".toList, quoted q s = false := by
    intro q hq
    unfold quoted
    cases hh : s.head? with
    | none => simp
    | some x =>
      have : x ≠ q := isWord_ne (h x (List.mem_of_mem_head? (by rw [hh]; rfl))) hq
      simp [this]
  unfold parseValue wordValue
  simp only [trim_word s h, hq '\'' (by decide), hq '"' (by decide), Bool.or_self, Bool.false_eq_true, if_false,
    Bool.or_eq_true, decide_eq_true_eq]
  split
  · rfl
  · split
    · rfl
    · cases c.parse (String.ofList s) <;> rfl

theorem Atom.mem_text {a : Atom} (h : a.Valid) {x : Char} (hx : x ∈ a.text) : isWord x = true ∨ x ∈ a.sym.toList := by
  unfold Atom.text at hx
  simp only [List.mem_append] at hx
  rcases hx with (hx | hx) | hx
  · exact .inl (h.2.1 x hx)
  · exact .inr hx
  · exact .inl (h.2.2.2.1 x hx)

theorem Atom.sym_chars {a : Atom} (h : a.Valid) {x : Char} (hx : x ∈ a.sym.toList) : x ∈ "<>=!:".toList := by
  obtain ⟨_, _, _, _, hm⟩ := h
  simp only [List.mem_cons, Prod.mk.injEq, List.not_mem_nil, or_false] at hm
  rcases hm with h | h | h | h | h | h | h <;> rw [h.1] at hx <;> revert x <;> decide

theorem Atom.no_space {a : Atom} (h : a.Valid) {x : Char} (hx : x ∈ a.text) : isSpace x = false ∧ x ≠ '(' ∧ x ≠ ')' := by
  rcases Atom.mem_text h hx with hw | hs
  · exact ⟨isWord_space hw, isWord_ne hw (by decide), isWord_ne hw (by decide)⟩
  · have := Atom.sym_chars h hs
    revert this
    have hd : ∀ y ∈ "<>=!:".toList, isSpace y = false ∧ y ≠ '(' ∧ y ≠ ')' := by decide
    exact hd x

theorem Atom.not_mem_space {a : Atom} (h : a.Valid) : ' ' ∉ a.text := by
  intro hx; have := (Atom.no_space h hx).1; revert this; decide

theorem Atom.text_ne {a : Atom} (h : a.Valid) : a.text ≠ [] := by
  unfold Atom.text; simp [h.1]

/-! ### Comparisons -/

theorem parseOps_skip (c : Lib F) (s : List Char) (o : String) (op : Cmp) (rest : List (String × Cmp))
    (h : cut o.toList s = none) : parseOps c s ((o, op) :: rest) = parseOps c s rest := by
  simp [parseOps, h]

theorem parseOps_hit (c : Lib F) (f v : List Char) (o : String) (op : Cmp) (rest : List (String × Cmp))
    (hf : f ≠ []) (hfw : ∀ x ∈ f, isWord x = true) (hv : v ≠ []) (hvw : ∀ x ∈ v, isWord x = true)
    (h : cut o.toList (f ++ o.toList ++ v) = some (f, v)) :
    parseOps c (f ++ o.toList ++ v) ((o, op) :: rest) = .ok (.cmp op (String.ofList f) (wordValue c v)) := by
  rw [parseOps, h]
  simp only [hf, if_false, parseValue_word c v hv hvw, trim_word f hfw]

theorem word_not_mem {s : List Char} (h : ∀ x ∈ s, isWord x = true) {y : Char} (hy : y ∈ "()'\"<>=!:".toList) : y ∉ s :=
  fun hm => isWord_ne (h y hm) hy rfl

theorem atom_ops (c : Lib F) (a : Atom) (h : a.Valid) : parseOps c a.text operators = .ok (a.expr c) := by
  obtain ⟨hf, hfw, hv, hvw, hm⟩ := h
  obtain ⟨f, op, o, v⟩ := a
  simp only at hf hfw hv hvw hm
  have hno : ∀ (pat : List Char) (y : Char), y ∈ pat → y ∈ "()'\"<>=!:".toList → y ∉ o.toList →
      cut pat (f ++ o.toList ++ v) = none := by
    intro pat y hy hy2 hyo
    apply cut_none_of_not_mem pat _ y hy
    simp only [List.mem_append, not_or]
    exact ⟨⟨word_not_mem hfw hy2, hyo⟩, word_not_mem hvw hy2⟩
  have hcut : ∀ (x : Char) (xs : List Char), o.toList = x :: xs → x ∈ "()'\"<>=!:".toList →
      cut o.toList (f ++ o.toList ++ v) = some (f, v) := by
    intro x xs ho hx
    rw [ho, List.append_assoc]
    exact cut_first x xs f v (word_not_mem hfw hx)
  show parseOps c (f ++ o.toList ++ v) operators = .ok (.cmp op (String.ofList f) (wordValue c v))
  unfold operators
  simp only [List.mem_cons, Prod.mk.injEq, List.not_mem_nil, or_false] at hm
  have hs1 : ('<' ∉ o.toList → cut "<=".toList (f ++ o.toList ++ v) = none) := hno _ '<' (by decide) (by decide)
  rcases hm with h | h | h | h | h | h | h <;> obtain ⟨rfl, rfl⟩ := h
  · exact parseOps_hit c f v _ _ _ hf hfw hv hvw (hcut '>' ['='] (by decide) (by decide))
  · rw [parseOps_skip c _ ">=" _ _ (hno _ '>' (by decide) (by decide) (by decide))]
    exact parseOps_hit c f v _ _ _ hf hfw hv hvw (hcut '<' ['='] (by decide) (by decide))
  · rw [parseOps_skip c _ ">=" _ _ (hno _ '>' (by decide) (by decide) (by decide)),
      parseOps_skip c _ "<=" _ _ (hno _ '<' (by decide) (by decide) (by decide))]
    exact parseOps_hit c f v _ _ _ hf hfw hv hvw (hcut '!' ['='] (by decide) (by decide))
  · rw [parseOps_skip c _ ">=" _ _ (hno _ '=' (by decide) (by decide) (by decide)),
      parseOps_skip c _ "<=" _ _ (hno _ '<' (by decide) (by decide) (by decide)),
      parseOps_skip c _ "!=" _ _ (hno _ '!' (by decide) (by decide) (by decide))]
    exact parseOps_hit c f v _ _ _ hf hfw hv hvw (hcut '>' [] (by decide) (by decide))
  · rw [parseOps_skip c _ ">=" _ _ (hno _ '>' (by decide) (by decide) (by decide)),
      parseOps_skip c _ "<=" _ _ (hno _ '=' (by decide) (by decide) (by decide)),
      parseOps_skip c _ "!=" _ _ (hno _ '!' (by decide) (by decide) (by decide)),
      parseOps_skip c _ ">" _ _ (hno _ '>' (by decide) (by decide) (by decide))]
    exact parseOps_hit c f v _ _ _ hf hfw hv hvw (hcut '<' [] (by decide) (by decide))
  · rw [parseOps_skip c _ ">=" _ _ (hno _ '>' (by decide) (by decide) (by decide)),
      parseOps_skip c _ "<=" _ _ (hno _ '<' (by decide) (by decide) (by decide)),
      parseOps_skip c _ "!=" _ _ (hno _ '!' (by decide) (by decide) (by decide)),
      parseOps_skip c _ ">" _ _ (hno _ '>' (by decide) (by decide) (by decide)),
      parseOps_skip c _ "<" _ _ (hno _ '<' (by decide) (by decide) (by decide))]
    exact parseOps_hit c f v _ _ _ hf hfw hv hvw (hcut '=' [] (by decide) (by decide))
  · rw [parseOps_skip c _ ">=" _ _ (hno _ '>' (by decide) (by decide) (by decide)),
      parseOps_skip c _ "<=" _ _ (hno _ '<' (by decide) (by decide) (by decide)),
      parseOps_skip c _ "!=" _ _ (hno _ '!' (by decide) (by decide) (by decide)),
      parseOps_skip c _ ">" _ _ (hno _ '>' (by decide) (by decide) (by decide)),
      parseOps_skip c _ "<" _ _ (hno _ '<' (by decide) (by decide) (by decide)),
      parseOps_skip c _ "=" _ _ (hno _ '=' (by decide) (by decide) (by decide)),
      parseOps_skip c _ ":=" _ _ (hno _ '=' (by decide) (by decide) (by decide))]
    exact parseOps_hit c f v _ _ _ hf hfw hv hvw (hcut ':' [] (by decide) (by decide))

theorem atom_comparison (c : Lib F) (a : Atom) (h : a.Valid) : parseComparison c a.text = .ok (a.expr c) := by
  unfold parseComparison
  rw [cut_none_of_not_mem _ _ ' ' (by decide) (Atom.not_mem_space h),
    cut_none_of_not_mem _ _ ' ' (by decide) (Atom.not_mem_space h)]
  simp only [Option.isSome_none, Bool.false_eq_true, if_false]
  exact atom_ops c a h

theorem head_text {a : Atom} (h : a.Valid) (x : Char) (rest : List Char) (hx : (a.text ++ rest).head? = some x) :
    isSpace x = false ∧ x ≠ '(' ∧ x ≠ ')' := by
  apply Atom.no_space h
  cases ht : a.text with
  | nil => exact absurd ht (Atom.text_ne h)
  | cons y ys => rw [ht] at hx; simp at hx; simp [hx]

theorem last_text {a : Atom} (h : a.Valid) (x : Char) (rest : List Char) (hx : (rest ++ a.text).getLast? = some x) :
    isSpace x = false ∧ x ≠ '(' ∧ x ≠ ')' := by
  apply Atom.no_space h
  rw [List.getLast?_append] at hx
  cases ht : a.text.getLast? with
  | none => exact absurd (List.getLast?_eq_none_iff.1 ht) (Atom.text_ne h)
  | some y =>
    rw [ht] at hx; simp at hx; rw [← hx]; exact List.mem_of_getLast? ht

/-- One step of the parser on a trimmed text that is not parenthesised as a whole and has no " AND ". -/
theorem parseFuel_plain (c : Lib F) (n : Nat) (s : List Char) (ht : trim s = s)
    (hp : ¬ (s.head? = some '(' ∧ s.getLast? = some ')')) (ha : cut " AND ".toList s = none)
    (ho : cut " OR ".toList s = none) : parseFuel c (n + 1) s = parseComparison c s := by
  have hp' : (decide (s.head? = some '(') && decide (s.getLast? = some ')')) = false := by
    rw [Bool.eq_false_iff]; intro h; simp only [Bool.and_eq_true, decide_eq_true_eq] at h; exact hp h
  simp only [parseFuel, ht, hp', ha, ho]
  simp

theorem parseFuel_or (c : Lib F) (n : Nat) (s a b : List Char) (l r : Expr F) (ht : trim s = s)
    (hp : ¬ (s.head? = some '(' ∧ s.getLast? = some ')')) (ha : cut " AND ".toList s = none)
    (ho : cut " OR ".toList s = some (a, b)) (hne : a ≠ []) (hl : parseFuel c n a = .ok l)
    (hr : parseFuel c n b = .ok r) : parseFuel c (n + 1) s = .ok (.or [l, r]) := by
  have hp' : (decide (s.head? = some '(') && decide (s.getLast? = some ')')) = false := by
    rw [Bool.eq_false_iff]; intro h; simp only [Bool.and_eq_true, decide_eq_true_eq] at h; exact hp h
  simp only [parseFuel, ht, hp', ha, ho, hne, hl, hr]
  simp

theorem parseFuel_and (c : Lib F) (n : Nat) (s a b : List Char) (l r : Expr F) (ht : trim s = s)
    (hp : ¬ (s.head? = some '(' ∧ s.getLast? = some ')')) (ha : cut " AND ".toList s = some (a, b))
    (hne : a ≠ []) (hl : parseFuel c n a = .ok l)
    (hr : parseFuel c n b = .ok r) : parseFuel c (n + 1) s = .ok (.and [l, r]) := by
  have hp' : (decide (s.head? = some '(') && decide (s.getLast? = some ')')) = false := by
    rw [Bool.eq_false_iff]; intro h; simp only [Bool.and_eq_true, decide_eq_true_eq] at h; exact hp h
  simp only [parseFuel, ht, hp', ha, hne, hl, hr]
  simp

theorem parseFuel_paren (c : Lib F) (n : Nat) (s : List Char) :
    parseFuel c (n + 1) ('(' :: (s ++ [')'])) = parseFuel c n s := by
  have ht : trim ('(' :: (s ++ [')'])) = '(' :: (s ++ [')']) := by
    apply trim_id
    · intro x hx; simp at hx; subst hx; decide
    · intro x hx
      rw [show '(' :: (s ++ [')']) = ('(' :: s) ++ [')'] from rfl, List.getLast?_concat] at hx
      cases hx; decide
  have hl : ('(' :: (s ++ [')'])).getLast? = some ')' := by
    rw [show '(' :: (s ++ [')']) = ('(' :: s) ++ [')'] from rfl, List.getLast?_concat]
  simp only [parseFuel, ht, hl]
  simp

theorem parseFuel_atom (c : Lib F) (n : Nat) (a : Atom) (h : a.Valid) : parseFuel c (n + 1) a.text = .ok (a.expr c) := by
  rw [parseFuel_plain, atom_comparison c a h]
  · apply trim_id
    · intro x hx; exact (head_text h x [] (by simpa using hx)).1
    · intro x hx; exact (last_text h x [] (by simpa using hx)).1
  · rintro ⟨h1, _⟩; exact (head_text h '(' [] (by simpa using h1)).2.1 rfl
  · exact cut_none_of_not_mem _ _ ' ' (by decide) (Atom.not_mem_space h)
  · exact cut_none_of_not_mem _ _ ' ' (by decide) (Atom.not_mem_space h)

/-! ### Disjunctions -/

/-- No " AND " starts inside the text, whatever follows it. -/
def NoAnd (t : List Char) : Prop := ∀ v w, t = v ++ w → w ≠ [] → ∀ rest, ¬ " AND ".toList <+: w ++ rest

theorem and_chars : " AND ".toList = [' ', 'A', 'N', 'D', ' '] := by decide

theorem not_and_of_head {x : Char} (h : x ≠ ' ') (xs : List Char) : ¬ " AND ".toList <+: x :: xs := by
  rw [and_chars]; rintro ⟨t, ht⟩
  exact h (List.cons.inj ht).1.symm

/-- No comparison starts with the word AND followed by a space. -/
theorem atom_not_and {a : Atom} (h : a.Valid) (rest : List Char) : ¬ ['A', 'N', 'D', ' '] <+: a.text ++ rest := by
  intro hp
  rcases List.prefix_or_prefix_of_prefix hp (List.prefix_append a.text rest) with h1 | h1
  · exact Atom.not_mem_space h (h1.subset (by simp))
  · obtain ⟨y, hy⟩ : ∃ y, y ∈ a.sym.toList := by
      have hm := h.2.2.2.2
      simp only [List.mem_cons, Prod.mk.injEq, List.not_mem_nil, or_false] at hm
      rcases hm with h | h | h | h | h | h | h <;> rw [h.1]
      · exact ⟨'>', by decide⟩
      · exact ⟨'<', by decide⟩
      · exact ⟨'!', by decide⟩
      · exact ⟨'>', by decide⟩
      · exact ⟨'<', by decide⟩
      · exact ⟨'=', by decide⟩
      · exact ⟨':', by decide⟩
    have h2 : y ∈ a.text := by unfold Atom.text; simp [hy]
    have h3 := h1.subset h2
    have h4 := Atom.sym_chars h hy
    revert h3
    have hd : ∀ y ∈ "<>=!:".toList, y ∉ ['A', 'N', 'D', ' '] := by decide
    exact hd y h4

theorem atom_noAnd {a : Atom} (h : a.Valid) : NoAnd a.text := by
  intro v w hv hw rest
  cases w with
  | nil => exact absurd rfl hw
  | cons x xs =>
    apply not_and_of_head
    rintro rfl
    exact Atom.not_mem_space h (by rw [hv]; simp)

/-- The text of a disjunction. -/
abbrev orText (a : Atom) (as : List Atom) : List Char := joined " OR " a.text (as.map Atom.text)

theorem orText_cons (a b : Atom) (bs : List Atom) :
    orText a (b :: bs) = a.text ++ (" OR ".toList ++ orText b bs) := by
  simp only [orText, List.map_cons, joined, List.append_assoc]

theorem or_noAnd : ∀ (as : List Atom) (a : Atom), a.Valid → (∀ x ∈ as, x.Valid) →
    NoAnd (orText a as) ∧ ∀ rest, ¬ ['A', 'N', 'D', ' '] <+: orText a as ++ rest := by
  intro as
  induction as with
  | nil => intro a ha _; exact ⟨atom_noAnd ha, atom_not_and ha⟩
  | cons b bs ih =>
    intro a ha has
    obtain ⟨ih1, ih2⟩ := ih b (has b (by simp)) (fun x hx => has x (by simp [hx]))
    refine ⟨?_, ?_⟩
    · intro v w hv hw rest
      rw [orText_cons] at hv
      have hor : " OR ".toList = [' ', 'O', 'R', ' '] := by decide
      rcases List.append_eq_append_iff.1 hv with ⟨u, hu1, hu2⟩ | ⟨u, hu1, hu2⟩
      · -- starts at or after " OR "
        rw [hor] at hu2
        match u, hu2 with
        | [], hu2 =>
          simp only [List.nil_append] at hu2
          rw [← hu2, and_chars]; rintro ⟨t, ht⟩; simp at ht
        | [_], hu2 =>
          simp only [List.cons_append, List.nil_append, List.cons.injEq] at hu2
          rw [← hu2.2]; exact not_and_of_head (by decide) _
        | [_, _], hu2 =>
          simp only [List.cons_append, List.nil_append, List.cons.injEq] at hu2
          rw [← hu2.2.2]; exact not_and_of_head (by decide) _
        | [_, _, _], hu2 =>
          simp only [List.cons_append, List.nil_append, List.cons.injEq] at hu2
          rw [← hu2.2.2.2, and_chars]
          rintro ⟨t, ht⟩
          simp only [List.cons_append, List.nil_append, List.cons.injEq, true_and] at ht
          exact ih2 rest ⟨t, by simpa using ht⟩
        | _ :: _ :: _ :: _ :: u', hu2 =>
          simp only [List.cons_append, List.nil_append, List.cons.injEq] at hu2
          exact ih1 u' w hu2.2.2.2.2 hw rest
      · -- starts inside the first comparison
        cases u with
        | nil =>
          simp only [List.nil_append] at hu2
          rw [hu2, hor, and_chars]; rintro ⟨t, ht⟩; simp at ht
        | cons x xs =>
          rw [hu2]
          apply not_and_of_head
          rintro rfl
          exact Atom.not_mem_space ha (by rw [hu1]; simp)
    · intro rest
      rw [orText_cons, List.append_assoc]
      exact atom_not_and ha _

theorem noAnd_none {t : List Char} (h : NoAnd t) : cut " AND ".toList t = none := by
  apply cut_none _ (by decide)
  intro v w hv hp
  cases w with
  | nil => rw [and_chars] at hp; simp at hp
  | cons x xs => exact h v (x :: xs) hv (by simp) [] (by simpa using hp)

theorem orText_ends (a : Atom) (as : List Atom) (ha : a.Valid) (has : ∀ x ∈ as, x.Valid) :
    (∀ x, (orText a as).head? = some x → isSpace x = false ∧ x ≠ '(' ∧ x ≠ ')') ∧
      (∀ x, (orText a as).getLast? = some x → isSpace x = false ∧ x ≠ '(' ∧ x ≠ ')') := by
  induction as generalizing a with
  | nil =>
    exact ⟨fun x hx => head_text ha x [] (by simpa [orText, joined] using hx),
      fun x hx => last_text ha x [] (by simpa [orText, joined] using hx)⟩
  | cons b bs ih =>
    rw [orText_cons]
    refine ⟨fun x hx => head_text ha x _ hx, fun x hx => ?_⟩
    apply (ih b (has b (by simp)) (fun x hx => has x (by simp [hx]))).2
    have hne : orText b bs ≠ [] := by
      cases bs with
      | nil => simpa [orText, joined] using Atom.text_ne (has b (by simp))
      | cons c cs => rw [orText_cons]; simp [Atom.text_ne (has b (by simp))]
    rw [List.getLast?_append, List.getLast?_append] at hx
    cases ho : (orText b bs).getLast? with
    | none => exact absurd (List.getLast?_eq_none_iff.1 ho) hne
    | some y => rw [ho] at hx; simpa using hx

/-- The expression of a disjunction, nested to the right. -/
def orExpr (c : Lib F) (a : Atom) : List Atom → Expr F
  | [] => a.expr c
  | b :: bs => .or [a.expr c, orExpr c b bs]

theorem orExpr_sat (c : Lib F) (m : Meta) (as : List Atom) (a : Atom) :
    Sat c m (orExpr c a as) ↔ ∃ x ∈ a :: as, Sat c m (x.expr c) := by
  induction as generalizing a with
  | nil => simp [orExpr]
  | cons b bs ih =>
    simp only [orExpr, Sat, SatAny, ih, or_false]
    simp

theorem parse_orText (c : Lib F) : ∀ (as : List Atom) (a : Atom) (n : Nat), a.Valid → (∀ x ∈ as, x.Valid) →
    (orText a as).length < n → parseFuel c n (orText a as) = .ok (orExpr c a as) := by
  intro as
  induction as with
  | nil =>
    intro a n ha _ hn
    cases n with
    | zero => omega
    | succ n => exact parseFuel_atom c n a ha
  | cons b bs ih =>
    intro a n ha has hn
    cases n with
    | zero => omega
    | succ n =>
      have hb := has b (by simp)
      have hbs : ∀ x ∈ bs, x.Valid := fun x hx => has x (by simp [hx])
      have hends := orText_ends a (b :: bs) ha has
      have hor : " OR ".toList = ' ' :: ['O', 'R', ' '] := by decide
      have hlen : (orText a (b :: bs)).length = a.text.length + (4 + (orText b bs).length) := by
        rw [orText_cons, List.length_append, List.length_append, hor]; simp
      cases n with
      | zero => omega
      | succ n =>
        apply parseFuel_or c (n + 1) _ a.text (orText b bs) (a.expr c) (orExpr c b bs)
        · exact trim_id _ (fun x hx => (hends.1 x hx).1) (fun x hx => (hends.2 x hx).1)
        · rintro ⟨h1, _⟩; exact (hends.1 _ h1).2.1 rfl
        · exact noAnd_none (or_noAnd (b :: bs) a ha has).1
        · rw [orText_cons, hor]
          exact cut_first ' ' ['O', 'R', ' '] a.text (orText b bs) (Atom.not_mem_space ha)
        · exact Atom.text_ne ha
        · exact parseFuel_atom c n a ha
        · exact ih b (n + 1) hb hbs (by omega)

/-! ### Conjunctions -/

/-- The expression of a member of a conjunction. -/
def Part.expr (c : Lib F) : Part → Expr F
  | .one a => a.expr c
  | .group a as => orExpr c a as

theorem Part.expr_sat (c : Lib F) (m : Meta) (p : Part) : Sat c m (p.expr c) ↔ p.Asks c m := by
  cases p with
  | one a => exact Iff.rfl
  | group a as => exact orExpr_sat c m as a

theorem parse_part (c : Lib F) (p : Part) (hp : p.Valid) (n : Nat) (hn : p.text.length < n) :
    parseFuel c n p.text = .ok (p.expr c) := by
  cases p with
  | one a =>
    cases n with
    | zero => omega
    | succ n => exact parseFuel_atom c n a hp
  | group a as =>
    cases n with
    | zero => omega
    | succ n =>
      have : (Part.group a as).text = '(' :: (orText a as ++ [')']) := rfl
      rw [this, parseFuel_paren]
      apply parse_orText c as a n hp.1 hp.2
      rw [this] at hn; simp at hn; omega

theorem part_noAnd (p : Part) (hp : p.Valid) : NoAnd p.text := by
  cases p with
  | one a => exact atom_noAnd hp
  | group a as =>
    intro v w hv hw rest
    have ht : (Part.group a as).text = '(' :: (orText a as ++ [')']) := rfl
    rw [ht] at hv
    cases v with
    | nil =>
      simp only [List.nil_append] at hv
      rw [← hv]; exact not_and_of_head (by decide) _
    | cons y ys =>
      simp only [List.cons_append, List.cons.injEq] at hv
      rcases List.append_eq_append_iff.1 hv.2 with ⟨u, hu1, hu2⟩ | ⟨u, hu1, hu2⟩
      · cases u with
        | nil => simp only [List.nil_append] at hu2; rw [← hu2]; exact not_and_of_head (by decide) _
        | cons z zs =>
          simp only [List.cons_append, List.cons.injEq] at hu2
          have := List.append_eq_nil_iff.1 hu2.2.symm
          exact absurd this.2 hw
      · cases u with
        | nil => simp only [List.nil_append] at hu2; rw [hu2]; exact not_and_of_head (by decide) _
        | cons z zs =>
          rw [hu2, List.append_assoc]
          exact (or_noAnd as a hp.1 hp.2).1 ys (z :: zs) hu1 (by simp) _

theorem part_ends (p : Part) (hp : p.Valid) :
    p.text ≠ [] ∧ (∀ x, p.text.head? = some x → isSpace x = false) ∧ (∀ x, p.text.getLast? = some x → isSpace x = false) ∧
    (p.bare → p.text.head? ≠ some '(' ∧ p.text.getLast? ≠ some ')') := by
  cases p with
  | one a =>
    refine ⟨Atom.text_ne hp, fun x hx => (head_text hp x [] (by simpa [Part.text] using hx)).1,
      fun x hx => (last_text hp x [] (by simpa [Part.text] using hx)).1, fun _ => ⟨fun hx => ?_, fun hx => ?_⟩⟩
    · exact (head_text hp _ [] (by simpa [Part.text] using hx)).2.1 rfl
    · exact (last_text hp _ [] (by simpa [Part.text] using hx)).2.2 rfl
  | group a as =>
    have ht : (Part.group a as).text = ('(' :: orText a as) ++ [')'] := rfl
    rw [ht]
    refine ⟨by simp, ?_, ?_, fun h => h.elim⟩
    · intro x hx; simp at hx; subst hx; decide
    · intro x hx; rw [List.getLast?_concat] at hx; cases hx; decide

/-- The text of a conjunction. -/
abbrev andText (p : Part) (ps : List Part) : List Char := joined " AND " p.text (ps.map Part.text)

theorem andText_cons (p q : Part) (qs : List Part) :
    andText p (q :: qs) = p.text ++ (" AND ".toList ++ andText q qs) := by
  simp only [andText, List.map_cons, joined, List.append_assoc]

theorem andText_last (p : Part) (ps : List Part) (hp : p.Valid) (hps : ∀ x ∈ ps, x.Valid) :
    (andText p ps).getLast? = (((p :: ps).getLast (by simp)).text).getLast? ∧ andText p ps ≠ [] := by
  induction ps generalizing p with
  | nil => exact ⟨rfl, (part_ends p hp).1⟩
  | cons q qs ih =>
    have hq := hps q (by simp)
    obtain ⟨h1, h2⟩ := ih q hq (fun x hx => hps x (by simp [hx]))
    rw [andText_cons]
    refine ⟨?_, by simp [(part_ends p hp).1]⟩
    rw [List.getLast_cons (by simp), ← h1, List.getLast?_append, List.getLast?_append]
    cases ho : (andText q qs).getLast? with
    | none => exact absurd (List.getLast?_eq_none_iff.1 ho) h2
    | some y => simp

/-- The expression of a conjunction, nested to the right. -/
def andExpr (c : Lib F) (p : Part) : List Part → Expr F
  | [] => p.expr c
  | q :: qs => .and [p.expr c, andExpr c q qs]

theorem andExpr_sat (c : Lib F) (m : Meta) (ps : List Part) (p : Part) :
    Sat c m (andExpr c p ps) ↔ ∀ x ∈ p :: ps, x.Asks c m := by
  induction ps generalizing p with
  | nil => simp [andExpr, Part.expr_sat]
  | cons q qs ih =>
    simp only [andExpr, Sat, SatAll, ih, and_true, Part.expr_sat]
    simp

theorem parse_andText (c : Lib F) : ∀ (ps : List Part) (p : Part) (n : Nat), p.Valid → (∀ x ∈ ps, x.Valid) →
    (((p :: ps).getLast (by simp)).bare ∨ ∀ x ∈ (p :: ps).dropLast, x.bare) →
    (andText p ps).length < n → parseFuel c n (andText p ps) = .ok (andExpr c p ps) := by
  intro ps
  induction ps with
  | nil => intro p n hp _ _ hn; exact parse_part c p hp n hn
  | cons q qs ih =>
    intro p n hp hps hbare hn
    cases n with
    | zero => omega
    | succ n =>
      have hq := hps q (by simp)
      have hqs : ∀ x ∈ qs, x.Valid := fun x hx => hps x (by simp [hx])
      obtain ⟨hne, hhead, _, hb⟩ := part_ends p hp
      obtain ⟨hlast, _⟩ := andText_last p (q :: qs) hp hps
      have hlen : (andText p (q :: qs)).length = p.text.length + (5 + (andText q qs).length) := by
        rw [andText_cons, List.length_append, List.length_append, and_chars]; simp
      have hheadeq : (andText p (q :: qs)).head? = p.text.head? := by
        rw [andText_cons]
        cases ht : p.text with
        | nil => exact absurd ht hne
        | cons x xs => rfl
      have hlv : ((p :: q :: qs).getLast (by simp)).Valid := by
        have := List.getLast_mem (l := p :: q :: qs) (by simp)
        rcases List.mem_cons.1 this with h | h
        · rw [h]; exact hp
        · exact hps _ h
      have hlends := part_ends _ hlv
      apply parseFuel_and c n _ p.text (andText q qs) (p.expr c) (andExpr c q qs)
      · exact trim_id _ (fun x hx => hhead x (hheadeq ▸ hx)) (fun x hx => hlends.2.2.1 x (hlast ▸ hx))
      · rintro ⟨h1, h2⟩
        rw [hheadeq] at h1
        rw [hlast] at h2
        rcases hbare with h | h
        · exact (hlends.2.2.2 h).2 h2
        · exact (hb (h p (by simp))).1 h1
      · rw [andText_cons]
        exact cut_hit _ (by decide) _ _ (fun v w hv hw => part_noAnd p hp v w hv hw _)
      · exact hne
      · exact parse_part c p hp n (by omega)
      · apply ih q n hq hqs _ (by omega)
        rcases hbare with h | h
        · left; rwa [List.getLast_cons (by simp)] at h
        · right
          intro x hx
          apply h x
          rw [List.dropLast_cons_of_ne_nil (by simp)]
          simp [hx]

/-! ### The recursion bound of the model is no bound -/

theorem trim_length (s : List Char) : (trim s).length ≤ s.length := by
  unfold trim
  rw [List.length_reverse]
  refine Nat.le_trans (List.dropWhile_sublist _).length_le ?_
  rw [List.length_reverse]
  exact (List.dropWhile_sublist _).length_le

theorem cut_length (pat s a b : List Char) (h : cut pat s = some (a, b)) : a.length + pat.length + b.length = s.length := by
  induction s generalizing a b with
  | nil =>
    unfold cut at h
    split at h
    · rename_i hp
      rw [List.isEmpty_iff.1 hp]
      simp only [Option.some.injEq, Prod.mk.injEq] at h
      rw [← h.1, ← h.2]; rfl
    · cases h
  | cons x xs ih =>
    unfold cut at h
    split at h
    · rename_i hp
      rw [List.isPrefixOf_iff_prefix] at hp
      simp only [Option.some.injEq, Prod.mk.injEq] at h
      rw [← h.1, ← h.2]
      have := hp.length_le
      simp only [List.length_drop, List.length_nil]
      omega
    · cases hc : cut pat xs with
      | none => rw [hc] at h; simp at h
      | some r =>
        rw [hc] at h
        simp only [Option.map_some, Option.some.injEq, Prod.mk.injEq] at h
        have := ih r.1 r.2 (by rw [hc])
        rw [← h.1, ← h.2]
        simp only [List.length_cons]
        omega

theorem parseFuel_stable (c : Lib F) : ∀ (n n' : Nat) (s : List Char), s.length < n → s.length < n' →
    parseFuel c n s = parseFuel c n' s := by
  intro n
  induction n with
  | zero => intro _ s h; omega
  | succ n ih =>
    intro n' s h h'
    cases n' with
    | zero => omega
    | succ n' =>
      have ht := trim_length s
      unfold parseFuel
      generalize trim s = t at *
      simp only
      split
      · rename_i hp
        simp only [Bool.and_eq_true, decide_eq_true_eq] at hp
        cases t with
        | nil => simp at hp
        | cons x xs =>
          simp only [List.length_cons] at ht
          exact ih n' _ (by simp; omega) (by simp; omega)
      · have hand : ∀ a b, cut " AND ".toList t = some (a, b) →
            parseFuel c n a = parseFuel c n' a ∧ parseFuel c n b = parseFuel c n' b := by
          intro a b hc
          have := cut_length _ _ _ _ hc
          have h5 : " AND ".toList.length = 5 := by decide
          exact ⟨ih n' a (by omega) (by omega), ih n' b (by omega) (by omega)⟩
        have hor : ∀ a b, cut " OR ".toList t = some (a, b) →
            parseFuel c n a = parseFuel c n' a ∧ parseFuel c n b = parseFuel c n' b := by
          intro a b hc
          have := cut_length _ _ _ _ hc
          have h4 : " OR ".toList.length = 4 := by decide
          exact ⟨ih n' a (by omega) (by omega), ih n' b (by omega) (by omega)⟩
        cases ha : cut " AND ".toList t with
        | some r =>
          obtain ⟨a, b⟩ := r
          simp only
          rw [(hand a b ha).1, (hand a b ha).2]
          cases ho : cut " OR ".toList t with
          | none => rfl
          | some r =>
            obtain ⟨a', b'⟩ := r
            simp only
            rw [(hor a' b' ho).1, (hor a' b' ho).2]
        | none =>
          cases ho : cut " OR ".toList t with
          | none => rfl
          | some r =>
            obtain ⟨a', b'⟩ := r
            simp only
            rw [(hor a' b' ho).1, (hor a' b' ho).2]

/-! ### C20 -/

/-- C20, part: a conjunction of comparisons and parenthesised disjunctions of comparisons, over plain names and values,
parses to an expression that asks for all members, where the last member is not parenthesised or none of the others is.
Missing for the full claim: OR without parentheses next to AND, two parenthesised members, BETWEEN, NOT, `:=`; see the
`C20_..._violated` theorems. -/
theorem C20_conjunction_partial (c : Lib F) (p : Part) (ps : List Part) (hp : p.Valid) (hps : ∀ x ∈ ps, x.Valid)
    (hb : ((p :: ps).getLast (by simp)).bare ∨ ∀ x ∈ (p :: ps).dropLast, x.bare) :
    ∃ e, parse c (String.ofList (joined " AND " p.text (ps.map Part.text))) = .ok e ∧
      ∀ m, Sat c m e ↔ ∀ x ∈ p :: ps, x.Asks c m := by
  refine ⟨andExpr c p ps, ?_, fun m => andExpr_sat c m ps p⟩
  unfold parse
  rw [String.toList_ofList]
  exact parse_andText c ps p _ hp hps hb (Nat.lt_succ_self _)

/-- C20, part: a disjunction of comparisons over plain names and values parses to an expression that asks for any member. -/
theorem C20_disjunction_partial (c : Lib F) (a : Atom) (as : List Atom) (ha : a.Valid) (has : ∀ x ∈ as, x.Valid) :
    ∃ e, parse c (String.ofList (joined " OR " a.text (as.map Atom.text))) = .ok e ∧
      ∀ m, Sat c m e ↔ ∃ x ∈ a :: as, Sat c m (x.expr c) := by
  refine ⟨orExpr c a as, ?_, fun m => orExpr_sat c m as a⟩
  unfold parse
  rw [String.toList_ofList]
  exact parse_orText c as a _ ha has (Nat.lt_succ_self _)

/-- C20: parentheses around a whole expression change nothing. -/
theorem C20_parentheses (c : Lib F) (s : String) (e : Expr F) (h : parse c s = .ok e) :
    parse c ("(" ++ s ++ ")") = .ok e := by
  unfold parse at h ⊢
  have : ("(" ++ s ++ ")").toList = '(' :: (s.toList ++ [')']) := by
    simp [String.toList_append]
  rw [this, parseFuel_paren, parseFuel_stable c _ (s.toList.length + 1) s.toList (by simp; omega) (by omega)]
  exact h

/-- C20 is violated by a disjunction next to a conjunction: `t:x OR t:y AND k:a` refuses `t = x` without `k`. -/
theorem C20_precedence_violated : ∃ (e : Expr Int) (m : Meta), parse lib0 "t:x OR t:y AND k:a" = .ok e ∧
    Sat lib0 m (.or [.cmp .eq "t" (.str "x"), .and [.cmp .eq "t" (.str "y"), .cmp .eq "k" (.str "a")]]) ∧
    ¬ Sat lib0 m e := by
  refine ⟨.and [.or [.cmp .eq "t" (.str "x"), .cmp .eq "t" (.str "y")], .cmp .eq "k" (.str "a")], [("t", "x")], ?_, ?_, ?_⟩
  · rfl
  · simp only [Sat, SatAny]; exact .inl ⟨"x", by decide, rfl⟩
  · simp only [Sat, SatAll]
    rintro ⟨_, ⟨a, ha, _⟩, _⟩
    revert ha
    have : List.lookup "k" [("t", "x")] = none := by decide
    rw [this]; simp

/-- C20 is violated by the example in the documentation of the parser: it is rejected because of BETWEEN's AND. -/
theorem C20_documented_example_violated :
    parse lib0 "(tag:ai OR tag:ml) AND date>2024 AND price BETWEEN 100 AND 500" = .err := by rfl

/-- C20 is violated by two parenthesised members: the outer parentheses are stripped as if they belonged together, and the
value compared with is `x)`. -/
theorem C20_groups_violated : ∃ (e : Expr Int) (m : Meta), parse lib0 "(t:x) AND (k:a)" = .ok e ∧
    Sat lib0 m (.and [.cmp .eq "t" (.str "x"), .cmp .eq "k" (.str "a")]) ∧ ¬ Sat lib0 m e := by
  refine ⟨.and [.cmp .eq "t" (.str "x)"), .cmp .eq "(k" (.str "a")], [("t", "x"), ("k", "a")], rfl, ?_, ?_⟩
  · simp only [Sat, SatAll]
    exact ⟨⟨"x", by decide, rfl⟩, ⟨"a", by decide, rfl⟩, trivial⟩
  · simp only [Sat, SatAll]
    rintro ⟨_, ⟨a, ha, _⟩, _⟩
    revert ha
    have : List.lookup "(k" [("t", "x"), ("k", "a")] = none := by decide
    rw [this]; simp

/-- C20 is violated by the documented spelling `:=`: the name read is `t:`. -/
theorem C20_assign_violated : parse lib0 "t:=x" = .ok (.cmp .eq "t:" (.str "x")) := by rfl

/-- C20: a lone quote as a value panics instead of giving an error. -/
theorem C20_quote_violated : parse lib0 "t='" = .panic := by rfl

/-- `x:a`, used to show the hypotheses of the theorems above are met. -/
def atom0 : Atom := ⟨['x'], .eq, ":", ['a']⟩
theorem atom0_valid : atom0.Valid := ⟨by decide, by decide, by decide, by decide, by decide⟩

example : Part.Valid (.group atom0 [atom0]) ∧ ((Part.group atom0 [atom0] :: [Part.one atom0]).getLast (by simp)).bare :=
  ⟨⟨atom0_valid, by simp [atom0_valid]⟩, trivial⟩

end Verif.Thm.Filter
