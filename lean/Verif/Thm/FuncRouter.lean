import Verif.Model.FuncRouter
import Mathlib.Data.List.TakeWhile
import Mathlib.Data.List.Infix
import Mathlib.Data.List.Nodup
import Mathlib.Tactic.Linarith

/-!
Properties of function calling (C149 - C154).
-/
namespace Verif.FuncRouter

open Verif.Base

/-! ### The value after a keyword -/

/-- What may stand between a keyword and its value. -/
def gapChar (x : Char) : Bool := reSpace x || colonChar x || quoteChar x

theorem opt_suffix (p : Char → Bool) (t r : Text) (h : r ∈ opt p t) : ∃ g, t = g ++ r ∧ ∀ x ∈ g, p x = true := by
  cases t with
  | nil => simp only [opt, List.mem_singleton] at h; exact ⟨[], by simp [h], by simp⟩
  | cons x xs =>
    simp only [opt] at h
    split at h
    · rename_i hp
      simp only [List.mem_cons, List.not_mem_nil, or_false] at h
      rcases h with rfl | rfl
      · exact ⟨[x], rfl, by simpa using hp⟩
      · exact ⟨[], rfl, by simp⟩
    · simp only [List.mem_singleton] at h
      exact ⟨[], by simp [h], by simp⟩

theorem star_suffix (p : Char → Bool) (t r : Text) (h : r ∈ star p t) : ∃ g, t = g ++ r ∧ ∀ x ∈ g, p x = true := by
  induction t with
  | nil => simp only [star, List.mem_singleton] at h; exact ⟨[], by simp [h], by simp⟩
  | cons x xs ih =>
    simp only [star] at h
    split at h
    · rename_i hp
      rcases List.mem_append.1 h with h | h
      · obtain ⟨g, hg, hp'⟩ := ih h
        refine ⟨x :: g, by simp [hg], ?_⟩
        intro y hy
        rcases List.mem_cons.1 hy with rfl | hy
        · exact hp
        · exact hp' y hy
      · simp only [List.mem_singleton] at h
        exact ⟨[], by simp [h], by simp⟩
    · simp only [List.mem_singleton] at h
      exact ⟨[], by simp [h], by simp⟩

theorem plus_suffix (p : Char → Bool) (t r : Text) (h : r ∈ plus p t) :
    ∃ a g, t = a :: g ++ r ∧ p a = true ∧ ∀ x ∈ g, p x = true := by
  cases t with
  | nil => simp [plus] at h
  | cons x xs =>
    simp only [plus] at h
    split at h
    · rename_i hp
      obtain ⟨g, hg, hp'⟩ := star_suffix p xs r h
      exact ⟨x, g, by simp [hg], hp, hp'⟩
    · simp at h

theorem tailGroup_sound (t w : Text) (h : tailGroup t = some w) :
    w ≠ [] ∧ (∀ x ∈ w, valueChar x = true) ∧
      ∃ a g post, t = a :: g ++ w ++ post ∧ reSpace a = true ∧ (∀ x ∈ g, gapChar x = true) ∧
        ∀ y, post.head? = some y → valueChar y = false := by
  unfold tailGroup at h
  have hne : w ≠ [] := by
    have := List.find?_some h
    simpa using this
  have hm := List.mem_of_find?_eq_some h
  obtain ⟨r, hr, rfl⟩ := List.mem_map.1 hm
  obtain ⟨r3, hr3, hr⟩ := List.mem_flatMap.1 hr
  obtain ⟨r2, hr2, hr3⟩ := List.mem_flatMap.1 hr3
  obtain ⟨r1, hr1, hr2⟩ := List.mem_flatMap.1 hr2
  obtain ⟨a, g1, e1, pa, p1⟩ := plus_suffix _ _ _ hr1
  obtain ⟨g2, e2, p2⟩ := opt_suffix _ _ _ hr2
  obtain ⟨g3, e3, p3⟩ := star_suffix _ _ _ hr3
  obtain ⟨g4, e4, p4⟩ := opt_suffix _ _ _ hr
  refine ⟨hne, fun x hx => List.mem_takeWhile_imp hx, a, g1 ++ g2 ++ g3 ++ g4, r.dropWhile valueChar, ?_, pa, ?_, ?_⟩
  · rw [e1, e2, e3, e4]
    simp [List.takeWhile_append_dropWhile]
  · intro x hx
    simp only [List.mem_append] at hx
    unfold gapChar
    rcases hx with ((hx | hx) | hx) | hx
    · simp [p1 x hx]
    · simp [p2 x hx]
    · simp [p3 x hx]
    · simp [p4 x hx]
  · intro y hy
    have := List.head?_dropWhile_not valueChar r
    rw [hy] at this
    simpa using this

theorem findGroup_sound (k t w : Text) (h : findGroup k t = some w) :
    ∃ pre rest, t = pre ++ k ++ rest ∧ tailGroup rest = some w := by
  induction t with
  | nil =>
    simp only [findGroup] at h
    split at h
    · rename_i hp
      have : k = [] := by cases k with
        | nil => rfl
        | cons a b => simp at hp
      exact ⟨[], [], by simp [this], h⟩
    · simp at h
  | cons x xs ih =>
    simp only [findGroup] at h
    by_cases hp : k.isPrefixOf (x :: xs) = true
    · rw [if_pos hp] at h
      obtain ⟨r, hr⟩ := List.isPrefixOf_iff_prefix.1 hp
      cases hg : tailGroup ((x :: xs).drop k.length) with
      | some w' =>
        rw [hg] at h
        simp only [Option.some.injEq] at h
        subst h
        refine ⟨[], r, by simpa using hr.symm, ?_⟩
        rw [← hr] at hg
        simpa using hg
      | none =>
        rw [hg] at h
        obtain ⟨pre, rest, e, ht⟩ := ih h
        exact ⟨x :: pre, rest, by simp [e], ht⟩
    · rw [if_neg hp] at h
      obtain ⟨pre, rest, e, ht⟩ := ih h
      exact ⟨x :: pre, rest, by simp [e], ht⟩

/-- A value taken after a keyword stands in the lower case text, after the keyword and a blank, holds no blank, quote or
punctuation, and is as long as it can be. -/
theorem C149_value_from_text_partial (lib : Lib) (text k w : Text) (hk : k.any isMeta = false)
    (h : keyHit lib (text.map lib.lower) k = .group w) :
    w ≠ [] ∧ (∀ x ∈ w, valueChar x = true) ∧
      ∃ pre a gap post, text.map lib.lower = pre ++ k ++ a :: gap ++ w ++ post ∧ reSpace a = true ∧
        (∀ x ∈ gap, gapChar x = true) ∧ ∀ y, post.head? = some y → valueChar y = false := by
  unfold keyHit at h
  split at h
  · rw [if_neg (by simp [hk])] at h
    split at h
    · rename_i w' hw
      simp only [Hit.group.injEq] at h
      subst h
      obtain ⟨pre, rest, e, ht⟩ := findGroup_sound k _ _ hw
      obtain ⟨h1, h2, a, g, post, e2, h3, h4, h5⟩ := tailGroup_sound rest _ ht
      exact ⟨h1, h2, pre, a, g, post, by rw [e, e2]; simp, h3, h4, h5⟩
    · simp at h
  · simp at h

theorem star_nonspace (p : Char → Bool) (x : Char) (xs : Text) (h : p x = false) : star p (x :: xs) = [x :: xs] := by
  simp [star, h]

theorem opt_no (p : Char → Bool) (x : Char) (xs : Text) (h : p x = false) : opt p (x :: xs) = [x :: xs] := by
  simp [opt, h]

theorem value_not (x : Char) (h : valueChar x = true) : reSpace x = false ∧ quoteChar x = false := by
  unfold valueChar at h
  unfold quoteChar
  simp only [Bool.not_eq_true', Bool.or_eq_false_iff, decide_eq_false_iff_not] at h
  simp only [Bool.or_eq_false_iff, decide_eq_false_iff_not]
  tauto

theorem tailGroup_complete (a : Char) (w post : Text) (ha : reSpace a = true) (hne : w ≠ [])
    (hw : ∀ x ∈ w, valueChar x = true) (hc : ∀ x, w.head? = some x → colonChar x = false)
    (hp : ∀ y, post.head? = some y → valueChar y = false) : tailGroup (a :: w ++ post) = some w := by
  cases w with
  | nil => exact absurd rfl hne
  | cons x xs =>
    have hx := value_not x (hw x (by simp))
    have hcx : colonChar x = false := hc x rfl
    have htw : (x :: xs ++ post).takeWhile valueChar = x :: xs := by
      rw [List.takeWhile_append_of_pos hw]
      cases post with
      | nil => simp
      | cons y ys => simp [List.takeWhile, hp y rfl]
    unfold tailGroup
    have e1 : plus reSpace (a :: (x :: xs) ++ post) = [x :: xs ++ post] := by
      simp only [List.cons_append, plus, ha, if_true]
      exact star_nonspace _ _ _ hx.1
    rw [e1]
    have e2 : ([x :: xs ++ post] : List Text).flatMap (opt colonChar) = [x :: xs ++ post] := by
      simp only [List.flatMap_cons, List.flatMap_nil, List.append_nil, List.cons_append]
      exact opt_no _ _ _ hcx
    rw [e2]
    have e3 : ([x :: xs ++ post] : List Text).flatMap (star reSpace) = [x :: xs ++ post] := by
      simp only [List.flatMap_cons, List.flatMap_nil, List.append_nil, List.cons_append]
      exact star_nonspace _ _ _ hx.1
    rw [e3]
    have e4 : ([x :: xs ++ post] : List Text).flatMap (opt quoteChar) = [x :: xs ++ post] := by
      simp only [List.flatMap_cons, List.flatMap_nil, List.append_nil, List.cons_append]
      exact opt_no _ _ _ hx.2
    rw [e4]
    simp only [List.map_cons, List.map_nil, htw, List.find?_cons]
    simp

theorem contains_iff (k t : Text) : contains k t = true ↔ k <:+: t := by
  induction t with
  | nil => simp [contains]
  | cons x xs ih =>
    simp only [contains, Bool.or_eq_true, ih, List.infix_cons_iff, List.isPrefixOf_iff_prefix]

theorem findGroup_first (k pre rest w : Text)
    (hfirst : ∀ i < pre.length, ¬ k <+: (pre ++ k ++ rest).drop i) (h : tailGroup rest = some w) :
    findGroup k (pre ++ k ++ rest) = some w := by
  induction pre with
  | nil =>
    simp only [List.nil_append]
    cases hk : k ++ rest with
    | nil =>
      have : k = [] ∧ rest = [] := by simpa using hk
      simp [findGroup, this.1, this.2 ▸ h]
    | cons x xs =>
      have hp : k.isPrefixOf (x :: xs) = true := by
        rw [List.isPrefixOf_iff_prefix, ← hk]; exact List.prefix_append _ _
      have hd : (x :: xs).drop k.length = rest := by rw [← hk]; simp
      simp only [findGroup, if_pos hp, hd, h]
  | cons x xs ih =>
    have h0 := hfirst 0 (by simp)
    have hp : ¬ k.isPrefixOf (x :: (xs ++ k ++ rest)) = true := by
      rw [List.isPrefixOf_iff_prefix]; simpa using h0
    have : findGroup k (x :: (xs ++ k ++ rest)) = findGroup k (xs ++ k ++ rest) := by
      simp only [findGroup, if_neg hp]
    simp only [List.cons_append]
    rw [this]
    refine ih ?_
    intro i hi
    have := hfirst (i + 1) (by simpa using hi)
    simpa using this

/-- A word written after the first place of a keyword and a blank is found. -/
theorem C149_value_found (lib : Lib) (text k w pre post : Text) (a : Char) (hk : k.any isMeta = false)
    (ht : text.map lib.lower = pre ++ k ++ a :: w ++ post)
    (hfirst : ∀ i < pre.length, ¬ k <+: (text.map lib.lower).drop i) (ha : reSpace a = true) (hne : w ≠ [])
    (hw : ∀ x ∈ w, valueChar x = true) (hc : ∀ x, w.head? = some x → colonChar x = false)
    (hp : ∀ y, post.head? = some y → valueChar y = false) :
    keyHit lib (text.map lib.lower) k = .group w := by
  have e : text.map lib.lower = pre ++ k ++ (a :: w ++ post) := by rw [ht]; simp
  have hcont : contains k (text.map lib.lower) = true := by
    rw [contains_iff, e]; exact ⟨pre, a :: w ++ post, rfl⟩
  unfold keyHit
  rw [if_pos hcont, if_neg (by simp [hk])]
  have : findGroup k (text.map lib.lower) = some w := by
    rw [e]
    refine findGroup_first k pre _ w ?_ (tailGroup_complete a w post ha hne hw hc hp)
    rw [← e]; exact hfirst
  rw [this]

/-- Letters of the Latin alphabet in lower case; enough for the examples. -/
def asciiLib : Lib := ⟨Char.toLower, fun c => c.isWhitespace, fun _ _ => .panic⟩

/-- The value is not as the user wrote it: it is taken from the text in lower case. -/
theorem C149_case_violated :
    extractValue asciiLib "weather in city Paris please".toList "city".toList ⟨"string".toList, [], true, none, []⟩ =
      .ok (some (.text "paris".toList)) ∧
    ¬ ("paris".toList <:+: "weather in city Paris please".toList) := by
  decide +kernel

example : keyHit asciiLib ("book 'Hotel' now, date: tomorrow.".toList.map Char.toLower) "date".toList = .none ∧
    keyHit asciiLib ("book on date  : \"tomorrow\".".toList.map Char.toLower) "date".toList = .group "tomorrow".toList := by
  decide +kernel

/-! ### Numbers -/

theorem isDigit_eq (x : Char) : isDigit x = x.isDigit := by
  unfold isDigit Char.isDigit
  rfl

theorem digitsVal_eq (t : Text) : digitsVal t = Nat.ofDigitChars 10 t 0 := rfl

theorem toDigits_digits (n : Nat) : ∀ x ∈ Nat.toDigits 10 n, isDigit x = true := by
  intro x hx
  rw [isDigit_eq]
  exact Nat.isDigit_of_mem_toDigits (by decide) (by decide) hx

theorem fromDigit_pre (pre d post : Text) (hpre : ∀ x ∈ pre, isDigit x = false) (hd : ∀ x ∈ d, isDigit x = true)
    (hne : d ≠ []) : fromDigit (pre ++ d ++ post) = d ++ post := by
  unfold fromDigit
  rw [List.append_assoc, List.dropWhile_append_of_pos (by simpa using hpre)]
  cases d with
  | nil => exact absurd rfl hne
  | cons x xs => simp [List.dropWhile, hd x (by simp)]

theorem takeDigits (d post : Text) (hd : ∀ x ∈ d, isDigit x = true) (hp : ∀ y, post.head? = some y → isDigit y = false) :
    (d ++ post).takeWhile isDigit = d ∧ (d ++ post).dropWhile isDigit = post := by
  constructor
  · rw [List.takeWhile_append_of_pos hd]
    cases post with
    | nil => simp
    | cons y ys => simp [List.takeWhile, hp y rfl]
  · rw [List.dropWhile_append_of_pos hd]
    cases post with
    | nil => simp
    | cons y ys => simp [List.dropWhile, hp y rfl]

theorem coerce_integer (lib : Lib) (type pre post : Text) (n : Nat) (ht : tyOf lib type = .integer)
    (hpre : ∀ x ∈ pre, isDigit x = false) (hp : ∀ y, post.head? = some y → isDigit y = false) :
    coerce lib (pre ++ Nat.toDigits 10 n ++ post) type = .int (if n < 2 ^ 63 then n else 0) := by
  have hd := toDigits_digits n
  have hne : Nat.toDigits 10 n ≠ [] := Nat.toDigits_ne_nil
  unfold coerce
  simp only [ht]
  rw [fromDigit_pre pre _ post hpre hd hne, (takeDigits _ post hd hp).1, if_neg hne, digitsVal_eq,
    Nat.ofDigitChars_ten_toDigits]
  split <;> simp

/-- A whole number below 2^63 written in decimal comes out as that number, whatever unit is glued to it. -/
theorem C150_integer_partial (lib : Lib) (type pre post : Text) (n : Nat) (ht : tyOf lib type = .integer) (hn : n < 2 ^ 63)
    (hpre : ∀ x ∈ pre, isDigit x = false) (hp : ∀ y, post.head? = some y → isDigit y = false) :
    coerce lib (pre ++ Nat.toDigits 10 n ++ post) type = .int n := by
  rw [coerce_integer lib type pre post n ht hpre hp, if_pos hn]

/-- The sign is lost, for every negative number. -/
theorem C150_sign_violated (lib : Lib) (type : Text) (n : Nat) (ht : tyOf lib type = .integer) (hn : n < 2 ^ 63) (h0 : 0 < n) :
    coerce lib ('-' :: Nat.toDigits 10 n) type = .int n ∧ (n : Int) ≠ -(n : Int) := by
  have := C150_integer_partial lib type ['-'] [] n ht hn (by simp [isDigit]) (by simp)
  refine ⟨by simpa using this, by omega⟩

/-- A number too large for 64 bits comes out as 0. -/
theorem C150_large_violated (lib : Lib) (type : Text) (n : Nat) (ht : tyOf lib type = .integer) (hn : 2 ^ 63 ≤ n) :
    coerce lib (Nat.toDigits 10 n) type = .int 0 := by
  have := coerce_integer lib type [] [] n ht (by simp) (by simp)
  rw [if_neg (by omega)] at this
  simpa using this

/-- A decimal number given as a whole value (a registered pattern or an enum value) is read exactly. -/
theorem C150_decimal (lib : Lib) (type : Text) (n : Nat) (d : Text) (ht : tyOf lib type = .number)
    (hd : ∀ x ∈ d, isDigit x = true) :
    coerce lib (Nat.toDigits 10 n ++ '.' :: d) type = .num ((n : ℚ) + (Nat.ofDigitChars 10 d 0 : ℚ) / 10 ^ d.length) := by
  have h1 := toDigits_digits n
  have hne : Nat.toDigits 10 n ≠ [] := Nat.toDigits_ne_nil
  have hf : fromDigit (Nat.toDigits 10 n ++ '.' :: d) = Nat.toDigits 10 n ++ '.' :: d := by
    have := fromDigit_pre [] _ ('.' :: d) (by simp) h1 hne
    simpa using this
  have ht2 := takeDigits _ ('.' :: d) h1 (by simp [isDigit])
  unfold coerce
  simp only [ht, hf]
  rw [if_neg (by simp)]
  unfold readNumber
  simp only [ht2.1, ht2.2, if_true]
  have : d.takeWhile isDigit = d := List.takeWhile_eq_self_iff.2 hd
  rw [this, digitsVal_eq, digitsVal_eq, Nat.ofDigitChars_ten_toDigits]

/-- The value found after a keyword never has a fractional part: it ends at the decimal point. -/
theorem C150_keyword_whole (lib : Lib) (text k w type : Text) (hk : k.any isMeta = false)
    (h : keyHit lib (text.map lib.lower) k = .group w) (ht : tyOf lib type = .number) :
    coerce lib w type = .text w ∨ ∃ n : Nat, coerce lib w type = .num n := by
  have hv := (C149_value_from_text_partial lib text k w hk h).2.1
  unfold coerce
  simp only [ht]
  by_cases hf : fromDigit w = []
  · rw [if_pos hf]; exact Or.inl rfl
  · rw [if_neg hf]
    right
    unfold readNumber
    cases hd : (fromDigit w).dropWhile isDigit with
    | nil => exact ⟨_, rfl⟩
    | cons x xs =>
      have hx : x ∈ w := by
        have h1 : x ∈ (fromDigit w).dropWhile isDigit := by rw [hd]; simp
        exact (List.dropWhile_suffix _).subset ((List.dropWhile_suffix _).subset h1)
      have : x ≠ '.' := by
        rintro rfl
        have := hv _ hx
        simp [valueChar] at this
      simp only [if_neg this]
      exact ⟨_, rfl⟩

/-- A price is cut at the decimal point, a temperature below zero loses its sign, and a word is passed for a number. -/
theorem C150_text_violated :
    extractValue asciiLib "pay amount 3.75 now".toList "amount".toList ⟨"number".toList, [], true, none, []⟩ =
      .ok (some (.num 3)) ∧
    extractValue asciiLib "set temperature -5 now".toList "temperature".toList ⟨"integer".toList, [], true, none, []⟩ =
      .ok (some (.int 5)) ∧
    extractValue asciiLib "pay amount later".toList "amount".toList ⟨"integer".toList, [], true, none, []⟩ =
      .ok (some (.text "later".toList)) := by
  decide +kernel

example : tyOf asciiLib "Integer".toList = .integer ∧ tyOf asciiLib "float".toList = .number ∧
    coerce asciiLib "EUR120,-".toList "int".toList = .int 120 ∧ coerce asciiLib "3.25".toList "number".toList = .num (13 / 4) := by
  decide +kernel

/-! ### Enumerations and defaults -/

/-- Without a value after a keyword: an enumerated value that occurs in the text whatever the case, else the default. -/
theorem C151_enum_partial (lib : Lib) (text name : Text) (p : ParamSchema)
    (h : tryKeys lib (text.map lib.lower) (keywords lib p.description name) = .ok none) :
    (∃ e ∈ p.enum, e.map lib.lower <:+: text.map lib.lower ∧ extractValue lib text name p = .ok (some (coerce lib e p.type))) ∨
    ((∀ e ∈ p.enum, ¬ e.map lib.lower <:+: text.map lib.lower) ∧ extractValue lib text name p = .ok p.default) := by
  unfold extractValue
  simp only [h]
  cases hf : p.enum.find? (fun e => contains (e.map lib.lower) (text.map lib.lower)) with
  | some e =>
    refine Or.inl ⟨e, List.mem_of_find?_eq_some hf, ?_, rfl⟩
    have := List.find?_some hf
    exact (contains_iff _ _).1 this
  | none =>
    refine Or.inr ⟨?_, rfl⟩
    intro e he hc
    have := List.find?_eq_none.1 hf e he
    exact this ((contains_iff _ _).2 hc)

/-- A value after a keyword is taken whatever the enumeration says. -/
theorem C151_enum_ignored (lib : Lib) (text name w : Text) (p : ParamSchema) (enum : List Text)
    (h : tryKeys lib (text.map lib.lower) (keywords lib p.description name) = .ok (some w)) :
    extractValue lib text name { p with enum := enum } = .ok (some (coerce lib w p.type)) := by
  unfold extractValue
  simp only [h]

/-- A value outside the enumeration is reported as an argument of a complete call. -/
theorem C151_enum_violated :
    extract asciiLib (fun _ => none) "set unit kelvin please".toList
      [("unit".toList, ⟨"string".toList, [], true, none, ["celsius".toList, "fahrenheit".toList]⟩)] =
      .ok ([("unit".toList, .text "kelvin".toList)], []) := by
  decide +kernel

example : tryKeys asciiLib "how warm is it in celsius".toList (keywords asciiLib [] "unit".toList) = .ok none ∧
    extractValue asciiLib "How warm is it in Celsius".toList "unit".toList
      ⟨"string".toList, [], true, none, ["celsius".toList, "fahrenheit".toList]⟩ = .ok (some (.text "celsius".toList)) ∧
    extractValue asciiLib "how warm is it".toList "unit".toList
      ⟨"string".toList, [], true, some (.other 7), ["celsius".toList, "fahrenheit".toList]⟩ = .ok (some (.other 7)) := by
  decide +kernel

/-! ### Routing to a function -/

/-- The functions accepted so far, the latest first. -/
def accepted {H : Type} (ops : List (Option (Option (Schema H)))) : List (Schema H) :=
  ops.reverse.filterMap (fun o => o.bind (fun f => f.bind (fun f => if f.name = [] then none else some f)))

def table {H : Type} (ops : List (Option (Option (Schema H)))) : Table H := ops.foldl (fun t o => (addFn t o).1) []

theorem lookup_filter_ne {H : Type} (t : Table H) (k n : Text) (h : n ≠ k) :
    (t.filter (fun x => decide (x.1 ≠ k))).lookup n = t.lookup n := by
  induction t with
  | nil => rfl
  | cons a t ih =>
    obtain ⟨m, f⟩ := a
    by_cases hm : m = k
    · have : n ≠ m := by rw [hm]; exact h
      simp only [hm, ne_eq, not_true_eq_false, decide_false, Bool.false_eq_true, not_false_eq_true,
        List.filter_cons_of_neg, ih, List.lookup_cons]
      rw [show (n == k) = false from by simpa using h]
    · rw [List.filter_cons_of_pos (by simpa using hm)]
      simp only [List.lookup_cons, ih]

/-- The table holds under a name the function of that name that was added last. -/
theorem table_lookup {H : Type} (ops : List (Option (Option (Schema H)))) (n : Text) :
    (table ops).lookup n = (accepted ops).find? (fun f => decide (f.name = n)) := by
  induction ops using List.reverseRecOn with
  | nil => rfl
  | append_singleton ops o ih =>
    have et : table (ops ++ [o]) = (addFn (table ops) o).1 := by simp [table, List.foldl_append]
    rw [et]
    rcases o with _ | _ | f
    · simpa [addFn, accepted] using ih
    · simpa [addFn, accepted] using ih
    · by_cases hf : f.name = []
      · have ea : accepted (ops ++ [some (some f)]) = accepted ops := by simp [accepted, hf]
        rw [ea, ← ih]
        simp [addFn, hf]
      · have ea : accepted (ops ++ [some (some f)]) = f :: accepted ops := by simp [accepted, hf]
        rw [ea]
        simp only [addFn, if_neg hf, List.lookup_cons, List.find?_cons]
        by_cases hn : f.name = n
        · subst hn; simp
        · have h1 : (n == f.name) = false := by simpa using fun h => hn h.symm
          rw [h1]
          simp only [hn, decide_false]
          rw [lookup_filter_ne _ _ _ (fun h => hn h.symm), ih]

/-- A text routed to a route becomes a call of the function that was added last under the name of the route, with the
arguments found for its parameters. -/
theorem C152_call_partial {H V : Type} (lib : Lib) (c : Router.Cfg Text V) (e : Text → Option V) (s s' : Router.State Text V)
    (ops : List (Option (Option (Schema H)))) (text n : Text) (sc : ℚ) (f : Schema H) (args : List (Text × Val))
    (missing : List Text) (hr : Router.route c e s text = (s', .ok ⟨some n, sc, true⟩)) (hn : n ≠ [])
    (hf : (accepted ops).find? (fun f => decide (f.name = n)) = some f)
    (hx : extract lib (fun _ => none) text f.params = .ok (args, missing)) :
    routeFn lib c e s (table ops) text = (s', .call ⟨n, args, missing.isEmpty, missing, f.handler⟩) := by
  have hname : f.name = n := by simpa using List.find?_some hf
  unfold routeFn
  simp only [hr, callFor, if_neg hn, table_lookup, hf, hx, hname]

/-- The function of a route is not found when it has another name than the route: the text is routed, and the answer is an
error. -/
theorem C152_name_violated {H V : Type} (lib : Lib) (c : Router.Cfg Text V) (e : Text → Option V) (s s' : Router.State Text V)
    (ops : List (Option (Option (Schema H)))) (text n : Text) (sc : ℚ)
    (hr : Router.route c e s text = (s', .ok ⟨some n, sc, true⟩)) (hn : n ≠ [])
    (hf : ∀ f ∈ accepted ops, f.name ≠ n) :
    routeFn lib c e s (table ops) text = (s', .notInTable n) := by
  have : (accepted ops).find? (fun f => decide (f.name = n)) = none := by
    rw [List.find?_eq_none]; intro f hf'; simpa using hf f hf'
  unfold routeFn
  simp only [hr, callFor, if_neg hn, table_lookup, this]

/-- No call without a match. -/
theorem C152_no_match {H V : Type} (lib : Lib) (c : Router.Cfg Text V) (e : Text → Option V) (s s' : Router.State Text V)
    (t : Table H) (text : Text) (r : Router.Result Text) (hr : Router.route c e s text = (s', .ok r)) (hm : r.matched = false) :
    routeFn lib c e s t text = (s', .noMatch) := by
  unfold routeFn
  simp only [hr, callFor, hm]

theorem extract_complete (lib : Lib) (text : Text) (ps : List (Text × ParamSchema)) (args : List (Text × Val))
    (missing : List Text) (h : extract lib (fun _ => none) text ps = .ok (args, missing)) :
    (∀ n p, (n, p) ∈ ps → p.required = true → (∃ v, (n, v) ∈ args) ∨ n ∈ missing) ∧
    (∀ n ∈ missing, ∃ p, (n, p) ∈ ps ∧ p.required = true ∧ extractValue lib text n p = .ok none) ∧
    (∀ n v, (n, v) ∈ args → ∃ p, (n, p) ∈ ps ∧ extractValue lib text n p = .ok (some v)) := by
  induction ps generalizing args missing with
  | nil =>
    simp only [extract, Res.ok.injEq, Prod.mk.injEq] at h
    simp [← h.1, ← h.2]
  | cons a ps ih =>
    obtain ⟨n, p⟩ := a
    simp only [extract] at h
    have hone : extractOne lib none text n p = (match extractValue lib text n p with
      | .panic => .panic
      | .ok (some v) => .value v
      | .ok none => if p.required then .missing else .skip) := rfl
    rw [hone] at h
    cases hv : extractValue lib text n p with
    | panic => rw [hv] at h; simp at h
    | ok o =>
      rw [hv] at h
      cases hr : extract lib (fun _ => none) text ps with
      | panic =>
        rw [hr] at h
        cases o with
        | some v => simp at h
        | none => by_cases hq : p.required = true <;> simp [hq] at h
      | ok r =>
        obtain ⟨ra, rm⟩ := r
        obtain ⟨i1, i2, i3⟩ := ih ra rm hr
        rw [hr] at h
        cases o with
        | some v =>
          simp only [Res.ok.injEq, Prod.mk.injEq] at h
          obtain ⟨rfl, rfl⟩ := h
          refine ⟨?_, ?_, ?_⟩
          · intro m q hm hq
            rcases List.mem_cons.1 hm with hm | hm
            · simp only [Prod.mk.injEq] at hm
              exact Or.inl ⟨v, by simp [hm.1]⟩
            · rcases i1 m q hm hq with ⟨w, hw⟩ | hw
              · exact Or.inl ⟨w, List.mem_cons_of_mem _ hw⟩
              · exact Or.inr hw
          · intro m hm
            obtain ⟨q, hq, h2⟩ := i2 m hm
            exact ⟨q, List.mem_cons_of_mem _ hq, h2⟩
          · intro m w hm
            rcases List.mem_cons.1 hm with hm | hm
            · simp only [Prod.mk.injEq] at hm
              obtain ⟨rfl, rfl⟩ := hm
              exact ⟨p, by simp, hv⟩
            · obtain ⟨q, hq, h2⟩ := i3 m w hm
              exact ⟨q, List.mem_cons_of_mem _ hq, h2⟩
        | none =>
          by_cases hq : p.required = true
          · simp only [hq, if_true, Res.ok.injEq, Prod.mk.injEq] at h
            obtain ⟨rfl, rfl⟩ := h
            refine ⟨?_, ?_, ?_⟩
            · intro m q hm hq'
              rcases List.mem_cons.1 hm with hm | hm
              · simp only [Prod.mk.injEq] at hm
                exact Or.inr (by simp [hm.1])
              · rcases i1 m q hm hq' with h2 | h2
                · exact Or.inl h2
                · exact Or.inr (List.mem_cons_of_mem _ h2)
            · intro m hm
              rcases List.mem_cons.1 hm with rfl | hm
              · exact ⟨p, by simp, hq, hv⟩
              · obtain ⟨q, hq', h2⟩ := i2 m hm
                exact ⟨q, List.mem_cons_of_mem _ hq', h2⟩
            · intro m w hm
              obtain ⟨q, hq', h2⟩ := i3 m w hm
              exact ⟨q, List.mem_cons_of_mem _ hq', h2⟩
          · simp only [hq] at h
            have h' : (ra, rm) = (args, missing) := by simpa using h
            simp only [Prod.mk.injEq] at h'
            obtain ⟨rfl, rfl⟩ := h'
            refine ⟨?_, ?_, ?_⟩
            · intro m q hm hq'
              rcases List.mem_cons.1 hm with hm | hm
              · simp only [Prod.mk.injEq] at hm
                rw [hm.2] at hq'; exact absurd hq' hq
              · exact i1 m q hm hq'
            · intro m hm
              obtain ⟨q, hq', h2⟩ := i2 m hm
              exact ⟨q, List.mem_cons_of_mem _ hq', h2⟩
            · intro m w hm
              obtain ⟨q, hq', h2⟩ := i3 m w hm
              exact ⟨q, List.mem_cons_of_mem _ hq', h2⟩

/-- A handler is run only for a matched route, with the handler of the function of that name, and with a value for every
required parameter; every argument belongs to a parameter. -/
theorem C152_run {H : Type} (lib : Lib) (t : Table H) (text : Text) (r : Router.Result Text) (c : Call H) (h : H)
    (args : List (Text × Val)) (hc : callFor lib t text r = .call c) (he : execute c = .run h args) :
    r.matched = true ∧ ∃ n f, r.name = some n ∧ t.lookup n = some f ∧ f.handler = some h ∧
      (∀ m p, (m, p) ∈ f.params → p.required = true → ∃ v, (m, v) ∈ args) ∧
      (∀ m v, (m, v) ∈ args → ∃ p, (m, p) ∈ f.params ∧ extractValue lib text m p = .ok (some v)) := by
  unfold callFor at hc
  cases hm : r.matched with
  | false => simp [hm] at hc
  | true =>
    cases hn : r.name with
    | none => simp [hm, hn] at hc
    | some n =>
      simp only [hm, hn] at hc
      split at hc
      · simp at hc
      · cases hl : t.lookup n with
        | none => simp [hl] at hc
        | some f =>
          simp only [hl] at hc
          cases hx : extract lib (fun _ => none) text f.params with
          | panic => simp [hx] at hc
          | ok am =>
            obtain ⟨a, m⟩ := am
            simp only [hx, Answer.call.injEq] at hc
            subst hc
            unfold execute at he
            cases hh : f.handler with
            | none => simp [hh] at he
            | some h' =>
              simp only [hh] at he
              split at he
              · rename_i hcm
                simp only [Exec.run.injEq] at he
                obtain ⟨rfl, rfl⟩ := he
                obtain ⟨i1, i2, i3⟩ := extract_complete lib text f.params a m hx
                have hm0 : m = [] := by simpa using hcm
                refine ⟨rfl, n, f, rfl, hl, hh, ?_, i3⟩
                intro k p hk hq
                rcases i1 k p hk hq with h1 | h1
                · exact h1
                · rw [hm0] at h1; simp at h1
              · simp at he

/-- A call is refused when a required parameter has no value. -/
theorem C152_refused {H : Type} (lib : Lib) (t : Table H) (text : Text) (r : Router.Result Text) (c : Call H)
    (hc : callFor lib t text r = .call c) (f : Schema H) (n : Text) (hn : r.name = some n) (hl : t.lookup n = some f)
    (m : Text) (p : ParamSchema) (hp : (m, p) ∈ f.params) (hq : p.required = true)
    (huniq : ∀ q, (m, q) ∈ f.params → q = p) (hv : extractValue lib text m p = .ok none) :
    (∀ h args, execute c ≠ .run h args) ∧ m ∈ c.missing := by
  have key : m ∈ c.missing ∧ c.complete = c.missing.isEmpty := by
    unfold callFor at hc
    cases hm : r.matched with
    | false => simp [hm] at hc
    | true =>
      simp only [hm, hn] at hc
      split at hc
      · simp at hc
      · simp only [hl] at hc
        cases hx : extract lib (fun _ => none) text f.params with
        | panic => simp [hx] at hc
        | ok am =>
          obtain ⟨a, ms⟩ := am
          simp only [hx, Answer.call.injEq] at hc
          subst hc
          obtain ⟨i1, i2, i3⟩ := extract_complete lib text f.params a ms hx
          refine ⟨?_, rfl⟩
          rcases i1 m p hp hq with ⟨v, h1⟩ | h1
          · obtain ⟨q, hq', h2⟩ := i3 m v h1
            rw [huniq q hq', hv] at h2
            simp at h2
          · exact h1
  refine ⟨?_, key.1⟩
  intro h args he
  unfold execute at he
  have hcf : c.complete = false := by
    rw [key.2]
    cases hmm : c.missing with
    | nil => rw [hmm] at key; simp at key
    | cons a l => rfl
  cases hh : c.handler with
  | none => simp [hh] at he
  | some h' => simp [hh, hcf] at he

/-- The weather route of the examples: one route with one sentence, and any query is like it. -/
def demoCfg : Router.Cfg Text Nat := ⟨[], fun _ _ => 1, 1 / 2, true, false⟩

def demoState : Router.State Text Nat := ⟨[⟨"weather".toList, ["how is the weather".toList], none⟩], []⟩

def demoSchema (name : String) : Schema Nat :=
  ⟨name.toList, [("city".toList, ⟨"string".toList, [], true, none, []⟩)], ["city".toList], some 9⟩

example : (routeFn asciiLib demoCfg (fun _ => some 0) demoState (table [some (some (demoSchema "weather"))])
      "forecast for city oslo".toList).2 =
      .call ⟨"weather".toList, [("city".toList, .text "oslo".toList)], true, [], some 9⟩ ∧
    (routeFn asciiLib demoCfg (fun _ => some 0) demoState (table [some (some (demoSchema "weather"))])
      "forecast".toList).2 = .call ⟨"weather".toList, [], false, ["city".toList], some 9⟩ ∧
    (routeFn asciiLib demoCfg (fun _ => some 0) demoState (table [some (some (demoSchema "get_weather"))])
      "forecast for city oslo".toList).2 = .notInTable "weather".toList := by
  decide +kernel

/-! ### Schemas -/

/-- The last call that set parameter `n` said whether it is required. -/
def lastRequired {H : Type} (n : Text) : List (BOp H) → Bool → Bool
  | [], b => b
  | .param m _ _ r :: ops, b => lastRequired n ops (if m = n then r else b)
  | .withDefault m _ _ r _ :: ops, b => lastRequired n ops (if m = n then r else b)
  | .withEnum m _ r _ :: ops, b => lastRequired n ops (if m = n then r else b)
  | .handler _ :: ops, b => lastRequired n ops b
  | .build :: ops, b => lastRequired n ops b

def BOp.isBuild {H : Type} : BOp H → Bool
  | .build => true
  | _ => false

theorem setParam_nodup (l : List (Text × ParamSchema)) (n : Text) (p : ParamSchema) (h : (l.map (·.1)).Nodup) :
    ((setParam l n p).map (·.1)).Nodup := by
  unfold setParam
  rw [List.map_append, List.nodup_append]
  refine ⟨(List.filter_sublist.map _).nodup h, by simp, ?_⟩
  intro a ha b hb
  simp only [List.map_cons, List.map_nil, List.mem_singleton] at hb
  simp only [List.mem_map, List.mem_filter, decide_eq_true_eq] at ha
  obtain ⟨x, ⟨_, hx⟩, rfl⟩ := ha
  rw [hb]; exact hx

theorem setParam_mem (l : List (Text × ParamSchema)) (n : Text) (p : ParamSchema) (m : Text) :
    (∃ q, (m, q) ∈ setParam l n p ∧ q.required = true) ↔
      if n = m then p.required = true else ∃ q, (m, q) ∈ l ∧ q.required = true := by
  unfold setParam
  by_cases h : n = m
  · rw [if_pos h]
    subst h
    constructor
    · rintro ⟨q, hq, hr⟩
      simp only [List.mem_append, List.mem_filter, decide_eq_true_eq, List.mem_singleton, Prod.mk.injEq] at hq
      rcases hq with hq | hq
      · exact absurd rfl hq.2
      · rw [← hq.2]; exact hr
    · intro hr
      exact ⟨p, by simp, hr⟩
  · rw [if_neg h]
    constructor
    · rintro ⟨q, hq, hr⟩
      simp only [List.mem_append, List.mem_filter, decide_eq_true_eq, List.mem_singleton, Prod.mk.injEq] at hq
      rcases hq with hq | hq
      · exact ⟨q, hq.1, hr⟩
      · exact absurd hq.1.symm h
    · rintro ⟨q, hq, hr⟩
      refine ⟨q, ?_, hr⟩
      simp only [List.mem_append, List.mem_filter, decide_eq_true_eq]
      exact Or.inl ⟨hq, fun e => h e.symm⟩

theorem bstep_params {H : Type} (ops : List (BOp H)) (s : Schema H) (hn : (s.params.map (·.1)).Nodup) :
    ((ops.foldl bstep s).params.map (·.1)).Nodup ∧
    ∀ b : Text → Bool, (∀ m, b m = true ↔ ∃ q, (m, q) ∈ s.params ∧ q.required = true) →
      ∀ m, (∃ q, (m, q) ∈ (ops.foldl bstep s).params ∧ q.required = true) ↔ lastRequired m ops (b m) = true := by
  induction ops generalizing s with
  | nil => exact ⟨hn, fun b hb m => (hb m).symm⟩
  | cons o ops ih =>
    have setCase : ∀ (n : Text) (p : ParamSchema) (s' : Schema H), s'.params = setParam s.params n p →
        ((ops.foldl bstep s').params.map (·.1)).Nodup ∧
        ∀ b : Text → Bool, (∀ m, b m = true ↔ ∃ q, (m, q) ∈ s.params ∧ q.required = true) →
          ∀ m, (∃ q, (m, q) ∈ (ops.foldl bstep s').params ∧ q.required = true) ↔
            lastRequired m ops (if n = m then p.required else b m) = true := by
      intro n p s' hs
      obtain ⟨h1, h2⟩ := ih s' (by rw [hs]; exact setParam_nodup _ _ _ hn)
      refine ⟨h1, fun b hb m => ?_⟩
      refine h2 (fun m => if n = m then p.required else b m) (fun m => ?_) m
      rw [hs, setParam_mem s.params n p m]
      by_cases h : n = m
      · simp only [h, if_true]
      · simp only [if_neg h]; exact hb m
    cases o with
    | param n ty d r => exact setCase n ⟨ty, d, r, none, []⟩ (bstep s (.param n ty d r)) rfl
    | withDefault n ty d r v => exact setCase n ⟨ty, d, r, v, []⟩ (bstep s (.withDefault n ty d r v)) rfl
    | withEnum n d r vs => exact setCase n ⟨"string".toList, d, r, none, vs⟩ (bstep s (.withEnum n d r vs)) rfl
    | handler h => exact ih (bstep s (.handler h)) hn
    | build => exact ih (bstep s .build) hn

theorem bstep_required {H : Type} (ops : List (BOp H)) (s : Schema H) (h : ∀ o ∈ ops, o.isBuild = false) :
    (ops.foldl bstep s).required = s.required := by
  induction ops generalizing s with
  | nil => rfl
  | cons o ops ih =>
    rw [List.foldl_cons, ih _ (fun x hx => h x (List.mem_cons_of_mem _ hx))]
    have := h o (by simp)
    cases o <;> simp_all [bstep, BOp.isBuild]

/-- After one `Build` the list of required parameters holds each required parameter once, and nothing else. -/
theorem C153_required_partial {H : Type} (name : Text) (ops : List (BOp H)) (h : ∀ o ∈ ops, o.isBuild = false) :
    (brun name (ops ++ [.build])).required.Nodup ∧
    ∀ n, n ∈ (brun name (ops ++ [.build])).required ↔ lastRequired n ops false = true := by
  obtain ⟨h1, h2⟩ := bstep_params ops (⟨name, [], [], none⟩ : Schema H) (by simp)
  have hr : (brun name (ops ++ [.build])).required =
      ((ops.foldl bstep (⟨name, [], [], none⟩ : Schema H)).params.filter (fun x => x.2.required)).map (·.1) := by
    unfold brun
    rw [List.foldl_append]
    show (ops.foldl bstep _).required ++ _ = _
    rw [bstep_required ops _ h]
    rfl
  rw [hr]
  refine ⟨(List.filter_sublist.map _).nodup h1, fun n => ?_⟩
  rw [← h2 (fun _ => false) (by simp) n]
  simp only [List.mem_map, List.mem_filter]
  constructor
  · rintro ⟨x, ⟨hx, hq⟩, rfl⟩
    exact ⟨x.2, hx, hq⟩
  · rintro ⟨q, hq, hr⟩
    exact ⟨(n, q), ⟨hq, hr⟩, rfl⟩

/-- Every further `Build` lists all required parameters again. -/
theorem C153_again_violated {H : Type} (name : Text) (ops : List (BOp H)) (h : ∀ o ∈ ops, o.isBuild = false) (n : Text)
    (hn : lastRequired n ops false = true) : (brun name (ops ++ [.build, .build])).required.count n = 2 := by
  obtain ⟨h1, h2⟩ := C153_required_partial (H := H) name ops h
  have e : (brun name (ops ++ [.build, .build])).required =
      (brun name (ops ++ [.build])).required ++ (brun name (ops ++ [.build])).required := by
    have e1 : (brun name (ops ++ [.build, .build])) = bstep (brun name (ops ++ [.build])) .build := by
      unfold brun; rw [List.foldl_append, List.foldl_append]; rfl
    have e2 : brun name (ops ++ [.build]) = bstep (brun name ops) .build := by
      unfold brun; rw [List.foldl_append]; rfl
    have e3 : (brun name ops).required = [] := by unfold brun; rw [bstep_required ops _ h]
    rw [e1]
    show (brun name (ops ++ [.build])).required ++ _ = _
    congr 1
    rw [e2]
    show _ = (brun name ops).required ++ _
    rw [e3]
    rfl
  rw [e, List.count_append, List.Nodup.count h1, if_pos ((h2 n).2 hn)]

/-- The call of a function built with the builder is complete exactly when every parameter on its list of required ones
has a value. -/
theorem C153_complete_partial {H : Type} (lib : Lib) (name text : Text) (ops : List (BOp H)) (h : ∀ o ∈ ops, o.isBuild = false)
    (args : List (Text × Val)) (missing : List Text)
    (hx : extract lib (fun _ => none) text (brun name (ops ++ [.build])).params = .ok (args, missing)) :
    missing = [] ↔ ∀ n ∈ (brun name (ops ++ [.build])).required, ∃ v, (n, v) ∈ args := by
  obtain ⟨h1, h2⟩ := bstep_params (ops ++ [.build]) (⟨name, [], [], none⟩ : Schema H) (by simp)
  obtain ⟨i1, i2, i3⟩ := extract_complete lib text _ args missing hx
  have hl : ∀ (m : Text) (b : Bool) (l : List (BOp H)), lastRequired m (l ++ [.build]) b = lastRequired m l b := by
    intro m b l
    induction l generalizing b with
    | nil => rfl
    | cons o l ih => cases o <;> exact ih _
  have hreq : ∀ n, n ∈ (brun name (ops ++ [.build])).required ↔
      ∃ q, (n, q) ∈ (brun name (ops ++ [.build])).params ∧ q.required = true := by
    intro n
    rw [(C153_required_partial name ops h).2 n]
    have := h2 (fun _ => false) (by simp) n
    rw [hl] at this
    exact this.symm
  constructor
  · intro hm n hn
    obtain ⟨q, hq, hr⟩ := (hreq n).1 hn
    rcases i1 n q hq hr with h3 | h3
    · exact h3
    · rw [hm] at h3; simp at h3
  · intro hall
    by_contra hne
    obtain ⟨n, hn⟩ := List.exists_mem_of_ne_nil _ hne
    obtain ⟨p, hp, hr, hv⟩ := i2 n hn
    obtain ⟨v, hv'⟩ := hall n ((hreq n).2 ⟨p, hp, hr⟩)
    obtain ⟨q, hq, hv2⟩ := i3 n v hv'
    have : q = p := by
      have := List.inj_on_of_nodup_map h1 hq hp rfl
      simpa using this
    rw [this, hv] at hv2
    simp at hv2

/-- The list of required parameters of a schema that was not made by the builder (read from JSON, or written as a
literal) is not looked at: a call without the parameter is complete and its handler is run. -/
theorem C153_list_violated :
    callFor asciiLib (table [some (some (⟨"weather".toList, [("city".toList, ⟨"string".toList, [], false, none, []⟩)],
      ["city".toList], some 9⟩ : Schema Nat))]) "forecast".toList ⟨some "weather".toList, 1, true⟩ =
      .call ⟨"weather".toList, [], true, [], some 9⟩ := by
  decide +kernel

example : (brun "f".toList ([.param "a".toList [] [] true, .param "b".toList [] [] false, .param "a".toList [] [] true,
      .build] : List (BOp Nat))).required = ["a".toList] := by
  decide +kernel

/-! ### Panics -/

theorem tryKeys_ok (lib : Lib) (t : Text) (ks : List Text) (h : ∀ k ∈ ks, k.any isMeta = false) :
    ∃ o, tryKeys lib t ks = .ok o := by
  induction ks with
  | nil => exact ⟨none, rfl⟩
  | cons k ks ih =>
    obtain ⟨o, ho⟩ := ih (fun x hx => h x (List.mem_cons_of_mem _ hx))
    have hk := h k (by simp)
    simp only [tryKeys]
    cases hh : keyHit lib t k with
    | panic =>
      exfalso
      unfold keyHit at hh
      split at hh
      · rw [if_neg (by simp [hk])] at hh
        split at hh <;> simp at hh
      · simp at hh
    | none => exact ⟨o, ho⟩
    | group w => exact ⟨_, rfl⟩

/-- Names and descriptions without characters special to regular expressions never make extraction panic. -/
theorem C154_no_panic_partial (lib : Lib) (pat : Text → Option Pattern) (text : Text) (ps : List (Text × ParamSchema))
    (h : ∀ n p, (n, p) ∈ ps → ∀ k ∈ keywords lib p.description n, k.any isMeta = false) :
    ∃ r, extract lib pat text ps = .ok r := by
  induction ps with
  | nil => exact ⟨_, rfl⟩
  | cons a ps ih =>
    obtain ⟨n, p⟩ := a
    obtain ⟨r, hr⟩ := ih (fun m q hm => h m q (List.mem_cons_of_mem _ hm))
    obtain ⟨o, ho⟩ := tryKeys_ok lib (text.map lib.lower) _ (h n p (by simp))
    have hone : extractOne lib (pat n) text n p ≠ .panic := by
      have hv : extractValue lib text n p ≠ .panic := by
        unfold extractValue
        simp only [ho]
        cases o with
        | some w => simp
        | none =>
          show (match p.enum.find? (fun e => contains (e.map lib.lower) (text.map lib.lower)) with
            | some e => Res.ok (some (coerce lib e p.type))
            | none => Res.ok p.default) ≠ .panic
          split <;> simp
      unfold extractOne
      cases hp : pat n with
      | none =>
        cases hv' : extractValue lib text n p with
        | panic => exact absurd hv' hv
        | ok o => cases o <;> simp; split <;> simp
      | some pt =>
        cases pt with
        | none => simp
        | some f =>
          cases hv' : extractValue lib text n p with
          | panic => exact absurd hv' hv
          | ok o =>
            cases hf : f text with
            | some w => simp [hf]
            | none => cases o <;> simp [hf]; split <;> simp
    simp only [extract, hr]
    cases ho' : extractOne lib (pat n) text n p with
    | panic => exact absurd ho' hone
    | skip => exact ⟨_, rfl⟩
    | value v => exact ⟨_, rfl⟩
    | missing => exact ⟨_, rfl⟩

/-- Go refuses an expression with a parenthesis that is not closed. -/
def RefusesOpen (lib : Lib) : Prop :=
  ∀ k t, '(' ∈ k → (∀ x ∈ k, isMeta x = true → x = '(') → lib.odd k t = .panic

/-- A parameter whose description opens a parenthesis before a word makes every text that holds this word with the
parenthesis panic, unless an earlier keyword gives a value. -/
theorem C154_panic_violated (lib : Lib) (hl : RefusesOpen lib) (text name : Text) (p : ParamSchema) (k : Text)
    (before after : List Text) (hk : keywords lib p.description name = before ++ k :: after) (ho : '(' ∈ k)
    (hm : ∀ x ∈ k, isMeta x = true → x = '(') (ht : k <:+: text.map lib.lower)
    (hb : tryKeys lib (text.map lib.lower) before = .ok none) : extractValue lib text name p = .panic := by
  have hkey : keyHit lib (text.map lib.lower) k = .panic := by
    unfold keyHit
    rw [if_pos ((contains_iff _ _).2 ht), if_pos (List.any_eq_true.2 ⟨'(', ho, by decide⟩)]
    exact hl k _ ho hm
  have : ∀ l, tryKeys lib (text.map lib.lower) l = .ok none → tryKeys lib (text.map lib.lower) (l ++ k :: after) = .panic := by
    intro l
    induction l with
    | nil => intro _; simp [tryKeys, hkey]
    | cons a l ih =>
      intro h
      simp only [tryKeys, List.cons_append] at h ⊢
      cases ha : keyHit lib (text.map lib.lower) a with
      | panic => simp [ha] at h
      | group w => simp [ha] at h
      | none => simp only [ha] at h ⊢; exact ih h
  unfold extractValue
  simp only [hk, this before hb]

example : RefusesOpen asciiLib := fun _ _ _ _ => rfl

example : keywords asciiLib "sum (in euro)".toList "amount".toList =
      ["amount".toList, "sum".toList] ++ "(in".toList :: ["euro)".toList, "金额".toList, "钱".toList, "元".toList, "块".toList] ∧
    extractValue asciiLib "pay 5 (in cash)".toList "amount".toList ⟨"number".toList, "sum (in euro)".toList, true, none, []⟩ = .panic ∧
    extractValue asciiLib "pay amount 5".toList "amount".toList ⟨"number".toList, "sum (in euro)".toList, true, none, []⟩ =
      .ok (some (.num 5)) := by
  decide +kernel

end Verif.FuncRouter
