import Verif.Model.Titles
import Verif.Thm.RagMode

/-!
C219: which names are found in a text when no language model is used.
-/
namespace Verif.Titles
open Verif.Base

/-- A capitalised word: a capital letter and at least one small letter or digit after it. -/
def Capital (w : Text) : Prop := ∃ c cs, w = c :: cs ∧ upper c = true ∧ cs ≠ [] ∧ ∀ x ∈ cs, low x = true

/-- Capitalised words with white space between them. -/
inductive Name : Text → Prop where
  | word {w} : Capital w → Name w
  | cons {w s m} : Capital w → s ≠ [] → (∀ c ∈ s, space c = true) → Name m → Name (w ++ (s ++ m))

/-- No letter, digit or underscore. -/
def Free (o : Option Char) : Prop := inWord o = false

/-- `n` stands in `t` between `a` and `b` and no word character touches it. -/
def At (t a n b : Text) : Prop := t = a ++ (n ++ b) ∧ Free a.getLast? ∧ Free b.head?

/-! ### The expression, deterministically -/

theorem mem_tw {p : Char → Bool} {l : Text} {c : Char} (h : c ∈ l.takeWhile p) : p c = true := by
  induction l with
  | nil => cases h
  | cons d l ih =>
    rw [List.takeWhile_cons] at h
    split at h
    · rcases List.mem_cons.1 h with rfl | h
      · assumption
      · exact ih h
    · cases h

theorem low_word {c : Char} (h : low c = true) : wordc c = true := by simp [wordc, h]
theorem upper_word {c : Char} (h : upper c = true) : wordc c = true := by simp [wordc, h]

theorem le_nat (a b : Char) : (a ≤ b) ↔ a.toNat ≤ b.toNat := by
  rw [Char.le_def, UInt32.le_iff_toNat_le]; rfl

theorem upper_low {c : Char} (h : upper c = true) : low c = false := by
  simp only [upper, low, Bool.and_eq_true, decide_eq_true_eq, le_nat] at *
  simp only [show ('A' : Char).toNat = 65 from rfl, show ('Z' : Char).toNat = 90 from rfl, show ('a' : Char).toNat = 97 from rfl,
    show ('z' : Char).toNat = 122 from rfl, show ('0' : Char).toNat = 48 from rfl, show ('9' : Char).toNat = 57 from rfl] at *
  simp; omega

theorem space_free {c : Char} (h : space c = true) : wordc c = false := by
  simp only [space, Bool.or_eq_true, beq_iff_eq] at h
  rcases h with (((rfl | rfl) | rfl) | rfl) | h
  · decide
  · decide
  · decide
  · decide
  · have : c = Char.ofNat 12 := by rw [← h]; exact (Char.ofNat_toNat c).symm
    rw [this]; decide

theorem space_upper {c : Char} (h : space c = true) : upper c = false := by
  by_contra hu
  have := upper_word (by simpa using hu : upper c = true)
  rw [space_free h] at this
  cases this

theorem find_flatMap {α β : Type} (l : List α) (f : α → List β) (p : β → Bool) (h : ∀ x ∈ l, (f x).find? p = none) :
    (l.flatMap f).find? p = none := by
  rw [List.find?_eq_none]
  intro y hy
  obtain ⟨x, hx, hy⟩ := List.mem_flatMap.1 hy
  exact List.find?_eq_none.1 (h x hx) y hy

/-- Only the longest run counts when the others lead nowhere. -/
theorem find_runs {β : Type} (p : Char → Bool) (ok : β → Bool) : ∀ (t : Text) (f : Text × Text → List β),
    (∀ s c r, p c = true → (f (s, c :: r)).find? ok = none) →
    ((runs p t).flatMap f).find? ok = if t.takeWhile p = [] then none else (f (t.takeWhile p, t.dropWhile p)).find? ok := by
  intro t
  induction t with
  | nil => intro f _; rfl
  | cons c cs ih =>
    intro f hf
    simp only [runs]
    by_cases hc : p c = true
    · rw [if_pos hc, List.flatMap_append, List.find?_append, List.takeWhile_cons_of_pos hc, List.dropWhile_cons_of_pos hc, if_neg (by simp)]
      rw [List.flatMap_map]
      have := ih (fun x => f (c :: x.1, x.2)) (fun s d r hd => hf _ d r hd)
      simp only at this
      rw [this]
      cases cs with
      | nil => simp
      | cons d ds =>
        by_cases hd : p d = true
        · rw [List.takeWhile_cons_of_pos hd, List.dropWhile_cons_of_pos hd, if_neg (by simp)]
          simp [hf [c] d ds hd]
        · rw [List.takeWhile_cons_of_neg hd, List.dropWhile_cons_of_neg hd, if_pos rfl]
          simp
    · rw [if_neg hc, List.takeWhile_cons_of_neg hc]
      rfl

/-- The capitalised word at the front, up to the end of the word. -/
def capD : Text → Option (Text × Text)
  | [] => none
  | c :: cs => if upper c = true ∧ cs.takeWhile low ≠ [] ∧ inWord (cs.dropWhile low).head? = false then
      some (c :: cs.takeWhile low, cs.dropWhile low) else none

/-- The capitalised words that follow. -/
def moreD : Nat → Text → Text × Text
  | 0, t => ([], t)
  | n + 1, t => if t.takeWhile space = [] then ([], t) else
    match capD (t.dropWhile space) with
    | none => ([], t)
    | some (w, r) => (t.takeWhile space ++ (w ++ (moreD n r).1), (moreD n r).2)

def matchD (prev : Option Char) (t : Text) : Option (Text × Text) :=
  if inWord prev then none else (capD t).map (fun x => (x.1 ++ (moreD t.length x.2).1, (moreD t.length x.2).2))

theorem find_capital {β : Type} (ok : β → Bool) (t : Text) (f : Text × Text → List β)
    (hf : ∀ w r, inWord r.head? = true → (f (w, r)).find? ok = none) :
    ((capital t).flatMap f).find? ok = match capD t with | none => none | some x => (f x).find? ok := by
  cases t with
  | nil => rfl
  | cons c cs =>
    simp only [capital, capD]
    by_cases hu : upper c = true
    · rw [if_pos hu, List.flatMap_map]
      have := find_runs low ok cs (fun x => f (c :: x.1, x.2)) (fun s d r hd => hf _ _ (by simp [inWord, low_word hd]))
      simp only at this
      rw [this]
      by_cases ht : cs.takeWhile low = []
      · rw [if_pos ht, if_neg (by simp [ht])]
      · rw [if_neg ht]
        by_cases hw : inWord (cs.dropWhile low).head? = false
        · rw [if_pos ⟨hu, ht, hw⟩]
        · rw [if_neg (by simp [hw])]
          exact hf _ _ (by simpa using hw)
    · rw [if_neg hu, if_neg (by simp [hu])]
      rfl

theorem find_map {α β : Type} (l : List α) (g : α → β) (p : β → Bool) : (l.map g).find? p = (l.find? (fun x => p (g x))).map g := by
  rw [List.find?_map]; rfl

/-- What can follow a word. -/
theorem more_eq : ∀ (n : Nat) (t : Text), (more n t).find? (fun x => !inWord x.2.head?) = if inWord t.head? then none else some (moreD n t) := by
  intro n
  induction n with
  | zero =>
    intro t
    unfold more moreD
    cases h : inWord t.head? <;> simp [h]
  | succ n ih =>
    intro t
    unfold more moreD
    rw [List.find?_append]
    have key : ∀ s : Text × Text, ((capital s.2).flatMap fun w => (more n w.2).map fun m => (s.1 ++ (w.1 ++ m.1), m.2)).find?
        (fun x => !inWord x.2.head?) = (capD s.2).map (fun x => (s.1 ++ (x.1 ++ (moreD n x.2).1), (moreD n x.2).2)) := by
      intro s
      rw [find_capital]
      · cases hc : capD s.2 with
        | none => rfl
        | some x =>
          simp only [Option.map_some]
          rw [find_map]
          have hx : inWord x.2.head? = false := by
            cases hs : s.2 with
            | nil => rw [hs] at hc; cases hc
            | cons c cs =>
              rw [hs] at hc
              simp only [capD] at hc
              split at hc
              · rename_i h; injection hc with hc; subst hc; exact h.2.2
              · cases hc
          rw [ih, hx]
          rfl
      · intro w r hr
        rw [find_map, ih, hr]
        rfl
    rw [find_runs]
    · by_cases ht : t.takeWhile space = []
      · rw [if_pos ht, if_pos ht]
        cases h : inWord t.head? <;> simp [h]
      · rw [if_neg ht, if_neg ht, key]
        have h0 : inWord t.head? = false := by
          cases t with
          | nil => rfl
          | cons c cs =>
            by_cases hc : space c = true
            · simp [inWord, space_free hc]
            · rw [List.takeWhile_cons_of_neg hc] at ht; exact absurd rfl ht
        simp only [h0]
        cases hc : capD (t.dropWhile space) with
        | none => simp [h0]
        | some x => simp
    · intro s c r hc
      rw [key]
      simp [capD, space_upper hc]

theorem capD_spec {t w r : Text} (h : capD t = some (w, r)) : t = w ++ r ∧ Capital w ∧ inWord r.head? = false := by
  cases t with
  | nil => cases h
  | cons c cs =>
    simp only [capD] at h
    split at h
    · rename_i hc
      injection h with h
      injection h with h1 h2
      subst h1; subst h2
      refine ⟨by rw [List.cons_append, List.takeWhile_append_dropWhile], ⟨c, _, rfl, hc.1, hc.2.1, ?_⟩, hc.2.2⟩
      intro x hx
      exact mem_tw hx
    · cases h

theorem capital_last {w : Text} (h : Capital w) : ∃ c, w.getLast? = some c ∧ low c = true := by
  obtain ⟨c, cs, rfl, -, hne, hl⟩ := h
  obtain ⟨d, hd⟩ := Option.isSome_iff_exists.1 (by simpa using hne : cs.getLast?.isSome)
  refine ⟨d, ?_, hl d (List.mem_of_getLast? hd)⟩
  rw [List.getLast?_cons, hd]; rfl

theorem moreD_spec : ∀ (n : Nat) (t : Text), t = (moreD n t).1 ++ (moreD n t).2 ∧
    ((moreD n t).1 = [] ∨ ∃ s m, s ≠ [] ∧ (∀ c ∈ s, space c = true) ∧ Name m ∧ (moreD n t).1 = s ++ m) ∧
    (inWord t.head? = false → inWord (moreD n t).2.head? = false) := by
  intro n
  induction n with
  | zero => intro t; exact ⟨rfl, .inl rfl, id⟩
  | succ n ih =>
    intro t
    unfold moreD
    split
    · exact ⟨rfl, .inl rfl, id⟩
    · rename_i ht
      split
      · exact ⟨rfl, .inl rfl, id⟩
      · rename_i w r hc
        obtain ⟨h1, h2, h3⟩ := capD_spec hc
        obtain ⟨i1, i2, i3⟩ := ih r
        refine ⟨?_, .inr ⟨t.takeWhile space, w ++ (moreD n r).1, ht, fun c hc => mem_tw hc, ?_, rfl⟩, fun _ => i3 h3⟩
        · conv_lhs => rw [← List.takeWhile_append_dropWhile (p := space) (l := t), h1, i1]
          simp
        · rcases i2 with i2 | ⟨s, m, j1, j2, j3, j4⟩
          · rw [i2, List.append_nil]; exact .word h2
          · rw [j4]; exact .cons h2 j1 j2 j3

theorem name_last {m : Text} (h : Name m) : ∃ c, m.getLast? = some c ∧ low c = true := by
  induction h with
  | word h => exact capital_last h
  | cons _ _ _ _ ih =>
    obtain ⟨c, h1, h2⟩ := ih
    refine ⟨c, ?_, h2⟩
    rw [List.getLast?_append, List.getLast?_append, h1]; rfl

theorem name_head {m : Text} (h : Name m) : ∃ c cs, m = c :: cs ∧ upper c = true := by
  cases h with
  | word h => obtain ⟨c, cs, rfl, hu, -⟩ := h; exact ⟨c, cs, rfl, hu⟩
  | cons h _ _ _ => obtain ⟨c, cs, rfl, hu, -⟩ := h; exact ⟨c, _, rfl, hu⟩

theorem matchD_spec {prev : Option Char} {t m rest : Text} (h : matchD prev t = some (m, rest)) :
    t = m ++ rest ∧ Name m ∧ Free prev ∧ Free rest.head? := by
  unfold matchD at h
  split at h
  · cases h
  · rename_i hp
    obtain ⟨⟨w, r⟩, hc, he⟩ := Option.map_eq_some_iff.1 h
    injection he with h1 h2
    simp only at h1 h2
    obtain ⟨k1, k2, k3⟩ := capD_spec hc
    obtain ⟨i1, i2, i3⟩ := moreD_spec t.length r
    subst h1; subst h2
    refine ⟨by rw [List.append_assoc, ← i1]; exact k1, ?_, by simpa [Free] using hp, i3 k3⟩
    rcases i2 with i2 | ⟨s, m, j1, j2, j3, j4⟩
    · rw [i2, List.append_nil]; exact .word k2
    · rw [j4]; exact .cons k2 j1 j2 j3

/-- Every way the expression is tried ends in a small letter or a digit. -/
theorem capital_mem {t : Text} {x : Text × Text} (h : x ∈ capital t) : ∃ c, x.1.getLast? = some c ∧ low c = true := by
  have hr : ∀ (t : Text) (x : Text × Text), x ∈ runs low t → ∃ c, x.1.getLast? = some c ∧ low c = true := by
    intro t
    induction t with
    | nil => intro x hx; cases hx
    | cons c cs ih =>
      intro x hx
      simp only [runs] at hx
      split at hx
      · rename_i hc
        rcases List.mem_append.1 hx with hx | hx
        · obtain ⟨y, hy, rfl⟩ := List.mem_map.1 hx
          obtain ⟨d, h1, h2⟩ := ih y hy
          exact ⟨d, by rw [List.getLast?_cons, h1]; rfl, h2⟩
        · rw [List.mem_singleton] at hx; subst hx; exact ⟨c, rfl, hc⟩
      · cases hx
  cases t with
  | nil => cases h
  | cons c cs =>
    simp only [capital] at h
    split at h
    · obtain ⟨y, hy, rfl⟩ := List.mem_map.1 h
      obtain ⟨d, h1, h2⟩ := hr _ y hy
      exact ⟨d, by rw [List.getLast?_cons, h1]; rfl, h2⟩
    · cases h

theorem more_mem : ∀ (n : Nat) (t : Text) (x : Text × Text), x ∈ more n t → x.1 = [] ∨ ∃ c, x.1.getLast? = some c ∧ low c = true := by
  intro n
  induction n with
  | zero => intro t x hx; simp only [more, List.mem_singleton] at hx; subst hx; exact .inl rfl
  | succ n ih =>
    intro t x hx
    unfold more at hx
    rcases List.mem_append.1 hx with hx | hx
    · obtain ⟨s, -, hx⟩ := List.mem_flatMap.1 hx
      obtain ⟨w, hw, hx⟩ := List.mem_flatMap.1 hx
      obtain ⟨m, hm, rfl⟩ := List.mem_map.1 hx
      right
      obtain ⟨c, h1, h2⟩ := capital_mem hw
      rcases ih _ m hm with h | ⟨d, h3, h4⟩
      · exact ⟨c, by simp only [h, List.append_nil]; rw [List.getLast?_append, h1]; rfl, h2⟩
      · exact ⟨d, by simp only; rw [List.getLast?_append, List.getLast?_append, h3]; rfl, h4⟩
    · rw [List.mem_singleton] at hx; subst hx; exact .inl rfl

theorem find_congr {α : Type} {p q : α → Bool} : ∀ (l : List α), (∀ x ∈ l, p x = q x) → l.find? p = l.find? q
  | [], _ => rfl
  | x :: l, h => by
    rw [List.find?_cons, List.find?_cons, h x (by simp), find_congr l (fun y hy => h y (by simp [hy]))]

/-- The backtracking search finds what the deterministic reading finds. -/
theorem matchAt_eq (prev : Option Char) (t : Text) : matchAt prev t = matchD prev t := by
  unfold matchAt
  have h1 : ((capital t).flatMap fun w => (more t.length w.2).map fun m => (w.1 ++ m.1, m.2)).find? (fun x => edge x.1.getLast? x.2.head?) =
      ((capital t).flatMap fun w => (more t.length w.2).map fun m => (w.1 ++ m.1, m.2)).find? (fun x => !inWord x.2.head?) := by
    apply find_congr
    intro x hx
    obtain ⟨w, hw, hx⟩ := List.mem_flatMap.1 hx
    obtain ⟨m, hm, rfl⟩ := List.mem_map.1 hx
    obtain ⟨c, h1, h2⟩ := capital_mem hw
    have : ∃ d, (w.1 ++ m.1).getLast? = some d ∧ low d = true := by
      rcases more_mem _ _ m hm with h | ⟨d, h3, h4⟩
      · exact ⟨c, by rw [h, List.append_nil, h1], h2⟩
      · exact ⟨d, by rw [List.getLast?_append, h3]; rfl, h4⟩
    obtain ⟨d, hd, hl⟩ := this
    simp only [edge, hd]
    have : inWord (some d) = true := by simp [inWord, low_word hl]
    rw [this]
    cases inWord m.2.head? <;> rfl
  rw [h1, find_capital]
  · unfold matchD
    cases hc : capD t with
    | none => simp
    | some x =>
      obtain ⟨w, r⟩ := x
      obtain ⟨k1, ⟨c, cs, rfl, hu, -⟩, k3⟩ := capD_spec hc
      simp only
      rw [find_map]
      have hh : inWord t.head? = true := by rw [k1]; simp [inWord, upper_word hu]
      simp only [more_eq, k3, edge, hh]
      cases hp : inWord prev <;> simp [hp]
  · intro w r hr
    rw [find_map]
    simp only [more_eq, hr]
    rfl

/-! ### What is found -/

theorem span_unique {p : Char → Bool} {a b : Text} {t : Text} (h : t = a ++ b) (ha : ∀ c ∈ a, p c = true) (hb : ∀ c, b.head? = some c → p c = false) :
    t.takeWhile p = a ∧ t.dropWhile p = b := by
  subst h
  induction a with
  | nil =>
    cases b with
    | nil => exact ⟨rfl, rfl⟩
    | cons c cs =>
      have := hb c rfl
      simp [this]
  | cons c cs ih =>
    have hc := ha c (by simp)
    obtain ⟨i1, i2⟩ := ih (fun x hx => ha x (by simp [hx]))
    rw [List.cons_append, List.takeWhile_cons_of_pos hc, List.dropWhile_cons_of_pos hc, i1, i2]
    exact ⟨rfl, rfl⟩

theorem capD_complete {w r : Text} (h : Capital w) (hr : inWord r.head? = false) : capD (w ++ r) = some (w, r) := by
  obtain ⟨c, cs, rfl, hu, hne, hl⟩ := h
  have hb : ∀ d, r.head? = some d → low d = false := by
    intro d hd
    rw [hd] at hr
    by_contra hlow
    have := low_word (by simpa using hlow : low d = true)
    simp [inWord, this] at hr
  obtain ⟨h1, h2⟩ := span_unique (p := low) (rfl : cs ++ r = cs ++ r) hl hb
  show capD (c :: (cs ++ r)) = _
  simp only [capD]
  rw [h1, h2, if_pos ⟨hu, hne, hr⟩]

/-- How a name starts. -/
theorem name_split {n : Text} (h : Name n) : ∃ w n', Capital w ∧ n = w ++ n' ∧
    (n' = [] ∨ ∃ s m, s ≠ [] ∧ (∀ c ∈ s, space c = true) ∧ Name m ∧ n' = s ++ m) := by
  cases h with
  | word h => exact ⟨n, [], h, by simp, .inl rfl⟩
  | cons h1 h2 h3 h4 => exact ⟨_, _, h1, rfl, .inr ⟨_, _, h2, h3, h4, rfl⟩⟩

theorem space_head {s m b : Text} (h : s ≠ []) (hs : ∀ c ∈ s, space c = true) : inWord (s ++ m ++ b).head? = false := by
  cases s with
  | nil => exact absurd rfl h
  | cons c cs => simp [inWord, space_free (hs c (by simp))]

/-- The words that follow are all read. -/
theorem moreD_takes : ∀ (k : Nat) (n' b : Text), n'.length ≤ k →
    (n' = [] ∨ ∃ s m, s ≠ [] ∧ (∀ c ∈ s, space c = true) ∧ Name m ∧ n' = s ++ m) → inWord b.head? = false →
    ∃ y, (moreD k (n' ++ b)).1 = n' ++ y := by
  intro k
  induction k with
  | zero =>
    intro n' b hl _ _
    have : n' = [] := List.length_eq_zero_iff.1 (by omega)
    subst this
    exact ⟨_, rfl⟩
  | succ k ih =>
    intro n' b hl hn hb
    rcases hn with rfl | ⟨s, m, h1, h2, h3, rfl⟩
    · exact ⟨_, rfl⟩
    · obtain ⟨w, n'', hw, rfl, hn''⟩ := name_split h3
      obtain ⟨c, cs, hw', hu, -⟩ := id hw
      have hsp : ∀ d, (w ++ n'' ++ b).head? = some d → space d = false := by
        intro d hd
        rw [hw'] at hd
        simp only [List.cons_append, List.head?_cons, Option.some.injEq] at hd
        subst hd
        by_contra hs
        have := space_upper (by simpa using hs : space c = true)
        rw [hu] at this; cases this
      obtain ⟨t1, t2⟩ := span_unique (p := space) (t := s ++ (w ++ n'') ++ b) (a := s) (b := w ++ n'' ++ b) (by simp) h2 hsp
      have hr : inWord (n'' ++ b).head? = false := by
        rcases hn'' with rfl | ⟨s', m', g1, g2, -, rfl⟩
        · exact hb
        · exact space_head g1 g2
      unfold moreD
      rw [t1, t2, if_neg h1, List.append_assoc w n'' b, capD_complete hw hr]
      simp only
      have hlen : n''.length ≤ k := by
        have : s.length ≠ 0 := fun e => h1 (List.length_eq_zero_iff.1 e)
        simp only [List.length_append] at hl
        omega
      obtain ⟨y, hy⟩ := ih n'' b hlen hn'' hb
      exact ⟨y, by rw [hy]; simp⟩

/-- A name that starts in a word starts at its beginning. -/
theorem word_split {w r a n b : Text} (hw : Capital w) (hr : inWord r.head? = false) (h : w ++ r = a ++ (n ++ b)) (hn : Name n) (hb : inWord b.head? = false) :
    (a = [] ∧ ∃ n', n = w ++ n' ∧ r = n' ++ b ∧ (n' = [] ∨ ∃ s m, s ≠ [] ∧ (∀ c ∈ s, space c = true) ∧ Name m ∧ n' = s ++ m)) ∨
    ∃ a', a = w ++ a' ∧ r = a' ++ (n ++ b) := by
  rcases List.append_eq_append_iff.1 h with ⟨a', h1, h2⟩ | ⟨d, h1, h2⟩
  · exact .inr ⟨a', h1, h2⟩
  · left
    cases a with
    | nil =>
      refine ⟨rfl, ?_⟩
      obtain ⟨w', n', hw', rfl, hn'⟩ := name_split hn
      have hr' : inWord (n' ++ b).head? = false := by
        rcases hn' with rfl | ⟨s', m', g1, g2, -, rfl⟩
        · exact hb
        · exact space_head g1 g2
      have e1 := capD_complete hw hr
      have e2 := capD_complete hw' hr'
      rw [h] at e1
      simp only [List.nil_append, List.append_assoc] at e1
      rw [e1] at e2
      injection e2 with e2
      injection e2 with e2 e3
      subst e2
      exact ⟨n', rfl, e3, hn'⟩
    | cons c cs =>
      exfalso
      obtain ⟨x, xs, rfl, -, -, hl⟩ := hw
      obtain ⟨u, us, rfl, hu⟩ := name_head hn
      cases d with
      | nil =>
        -- the name begins right behind the word
        simp only [List.append_nil] at h1
        simp only [List.nil_append] at h2
        rw [← h2] at hr
        simp [inWord, upper_word hu] at hr
      | cons y ys =>
        simp only [List.cons_append, List.cons.injEq] at h1 h2
        have : y ∈ xs := by rw [h1.2]; simp
        have h3 := hl y this
        rw [← h2.1, upper_low hu] at h3
        cases h3

/-- A name in what follows a word is inside what is read, or behind it. -/
theorem moreD_split : ∀ (k : Nat) (r a n b : Text), r.length ≤ k → r = a ++ (n ++ b) → Name n → a ≠ [] → inWord a.getLast? = false →
    inWord b.head? = false → (∃ x y, (moreD k r).1 = x ++ (n ++ y)) ∨ ∃ a', a = (moreD k r).1 ++ a' := by
  intro k
  induction k with
  | zero => intro r a n b _ _ _ _ _ _; exact .inr ⟨a, rfl⟩
  | succ k ih =>
    intro r a n b hk hr hn ha hal hb
    unfold moreD
    split
    · exact .inr ⟨a, rfl⟩
    · rename_i hs
      split
      · exact .inr ⟨a, rfl⟩
      · rename_i w r2 hc
        obtain ⟨k1, k2, k3⟩ := capD_spec hc
        set s := r.takeWhile space with hsdef
        have hrs : r = s ++ (w ++ r2) := by rw [← k1]; exact (List.takeWhile_append_dropWhile).symm
        have hslen : s.length ≠ 0 := fun e => hs (List.length_eq_zero_iff.1 e)
        have hlen : r2.length + w.length + s.length = r.length := by rw [hrs]; simp; omega
        -- the name does not begin in white space
        obtain ⟨a1, ha1, hrest⟩ : ∃ a1, a = s ++ a1 ∧ w ++ r2 = a1 ++ (n ++ b) := by
          rcases List.append_eq_append_iff.1 (hrs.symm.trans hr) with ⟨a1, h1, h2⟩ | ⟨d, h1, h2⟩
          · exact ⟨a1, h1, h2⟩
          · cases d with
            | nil => exact ⟨[], by simpa using h1.symm, by simpa using h2.symm⟩
            | cons y ys =>
              exfalso
              obtain ⟨u, us, rfl, hu⟩ := name_head hn
              simp only [List.cons_append, List.cons.injEq] at h2
              have : space y = true := mem_tw (l := r) (by rw [← hsdef, h1]; simp)
              rw [← h2.1] at this
              rw [space_upper this] at hu; cases hu
        rcases word_split k2 k3 hrest hn hb with ⟨rfl, n', rfl, h2, h3⟩ | ⟨a', rfl, h2⟩
        · left
          have hl : n'.length ≤ k := by
            have := congrArg List.length h2
            simp only [List.length_append] at this
            omega
          obtain ⟨y, hy⟩ := moreD_takes k n' b hl h3 hb
          exact ⟨s, y, by simp only; rw [h2, hy]; simp⟩
        · have hne : a' ≠ [] := by
            rintro rfl
            obtain ⟨c, g1, g2⟩ := capital_last k2
            rw [ha1, List.append_nil, List.getLast?_append, g1] at hal
            simp [inWord, low_word g2] at hal
          have hal' : inWord a'.getLast? = false := by
            obtain ⟨z, hz⟩ := Option.isSome_iff_exists.1 (by simpa using hne : a'.getLast?.isSome)
            rw [ha1, List.getLast?_append, List.getLast?_append, hz] at hal
            rw [hz]; exact hal
          rcases ih r2 a' n b (by omega) h2 hn hne hal' hb with ⟨x, y, h5⟩ | ⟨a'', h5⟩
          · exact .inl ⟨s ++ (w ++ x), y, by simp only; rw [h5]; simp⟩
          · exact .inr ⟨a'', by simp only; rw [ha1, h5]; simp⟩

theorem matchD_split {prev : Option Char} {t m rest a n b : Text} (h : matchD prev t = some (m, rest)) (ht : t = a ++ (n ++ b)) (hn : Name n)
    (ha : a ≠ [] → inWord a.getLast? = false) (hb : inWord b.head? = false) : (∃ x y, m = x ++ (n ++ y)) ∨ ∃ a', a = m ++ a' := by
  unfold matchD at h
  split at h
  · cases h
  · obtain ⟨⟨w, r⟩, hc, he⟩ := Option.map_eq_some_iff.1 h
    injection he with h1 h2
    simp only at h1 h2
    subst h1
    obtain ⟨k1, k2, k3⟩ := capD_spec hc
    have hlen : w.length + r.length = t.length := by rw [k1]; simp
    rcases word_split k2 k3 (k1.symm.trans ht) hn hb with ⟨rfl, n', rfl, h4, h5⟩ | ⟨a', rfl, h4⟩
    · left
      have hl : n'.length ≤ t.length := by
        have := congrArg List.length h4
        simp only [List.length_append] at this
        omega
      obtain ⟨y, hy⟩ := moreD_takes t.length n' b hl h5 hb
      exact ⟨[], y, by rw [h4, hy]; simp⟩
    · have hwne : w ++ a' ≠ [] := by obtain ⟨c, cs, rfl, -⟩ := k2; simp
      have hal := ha hwne
      have hne : a' ≠ [] := by
        rintro rfl
        obtain ⟨c, g1, g2⟩ := capital_last k2
        rw [List.append_nil, g1] at hal
        simp [inWord, low_word g2] at hal
      have hal' : inWord a'.getLast? = false := by
        obtain ⟨z, hz⟩ := Option.isSome_iff_exists.1 (by simpa using hne : a'.getLast?.isSome)
        rw [List.getLast?_append, hz] at hal
        rw [hz]; exact hal
      rcases moreD_split t.length r a' n b (by omega) h4 hn hne hal' hb with ⟨x, y, h6⟩ | ⟨a'', h6⟩
      · exact .inl ⟨w ++ x, y, by rw [h6]; simp⟩
      · exact .inr ⟨a'', by rw [h6]; simp⟩

/-- The character before what remains. -/
def before (prev : Option Char) (a : Text) : Option Char := if a = [] then prev else a.getLast?

theorem findAll_sound : ∀ (k : Nat) (prev : Option Char) (t m : Text), m ∈ findAll k prev t →
    Name m ∧ ∃ a b, t = a ++ (m ++ b) ∧ Free (before prev a) ∧ Free b.head? := by
  intro k
  induction k with
  | zero => intro prev t m h; cases h
  | succ k ih =>
    intro prev t m h
    unfold findAll at h
    rw [matchAt_eq] at h
    cases hm : matchD prev t with
    | some x =>
      obtain ⟨m', rest⟩ := x
      obtain ⟨h1, h2, h3, h4⟩ := matchD_spec hm
      rw [hm] at h
      simp only at h
      rcases List.mem_cons.1 h with rfl | h
      · exact ⟨h2, [], rest, h1, by simpa [before] using h3, h4⟩
      · obtain ⟨i1, a, b, i2, i3, i4⟩ := ih _ _ _ h
        refine ⟨i1, m' ++ a, b, by rw [h1, i2]; simp, ?_, i4⟩
        obtain ⟨c, cs, hc, -⟩ := name_head h2
        unfold before at i3 ⊢
        rw [if_neg (by rw [hc]; simp)]
        by_cases ha : a = []
        · rw [if_pos ha] at i3; rw [ha, List.append_nil]; exact i3
        · rw [if_neg ha] at i3
          obtain ⟨z, hz⟩ := Option.isSome_iff_exists.1 (by simpa using ha : a.getLast?.isSome)
          rw [List.getLast?_append, hz]; rw [hz] at i3; exact i3
    | none =>
      rw [hm] at h
      cases t with
      | nil => cases h
      | cons c cs =>
        simp only at h
        obtain ⟨i1, a, b, i2, i3, i4⟩ := ih _ _ _ h
        refine ⟨i1, c :: a, b, by rw [i2]; simp, ?_, i4⟩
        unfold before at i3 ⊢
        rw [if_neg (by simp), List.getLast?_cons]
        by_cases ha : a = []
        · rw [if_pos ha] at i3; rw [ha]; exact i3
        · rw [if_neg ha] at i3
          obtain ⟨z, hz⟩ := Option.isSome_iff_exists.1 (by simpa using ha : a.getLast?.isSome)
          rw [hz]; rw [hz] at i3; exact i3

theorem findAll_complete : ∀ (k : Nat) (prev : Option Char) (t a n b : Text), t.length < k → t = a ++ (n ++ b) → Name n →
    Free (before prev a) → Free b.head? → ∃ x y, x ++ (n ++ y) ∈ findAll k prev t := by
  intro k
  induction k with
  | zero => intro prev t a n b h; omega
  | succ k ih =>
    intro prev t a n b hk ht hn ha hb
    unfold findAll
    rw [matchAt_eq]
    cases hm : matchD prev t with
    | some x =>
      obtain ⟨m, rest⟩ := x
      obtain ⟨h1, h2, h3, h4⟩ := matchD_spec hm
      have ha' : a ≠ [] → inWord a.getLast? = false := by
        intro hne
        unfold before at ha
        rw [if_neg hne] at ha
        exact ha
      simp only
      rcases matchD_split hm ht hn ha' hb with ⟨x, y, rfl⟩ | ⟨a', rfl⟩
      · exact ⟨x, y, List.mem_cons_self⟩
      · have hrest : rest = a' ++ (n ++ b) := by
          rw [h1, List.append_assoc] at ht
          exact List.append_cancel_left ht
        obtain ⟨c, cs, hc, -⟩ := name_head h2
        have hlt : rest.length < k := by
          have : t.length = m.length + rest.length := by rw [h1]; simp
          rw [hc] at this
          simp only [List.length_cons] at this
          omega
        have hf : Free (before m.getLast? a') := by
          unfold before at ha ⊢
          rw [if_neg (by rw [hc]; simp)] at ha
          by_cases hne : a' = []
          · rw [if_pos hne]; rw [hne, List.append_nil] at ha; exact ha
          · rw [if_neg hne]
            obtain ⟨z, hz⟩ := Option.isSome_iff_exists.1 (by simpa using hne : a'.getLast?.isSome)
            rw [List.getLast?_append, hz] at ha
            rw [hz]; exact ha
        obtain ⟨x, y, h⟩ := ih m.getLast? rest a' n b hlt hrest hn hf hb
        exact ⟨x, y, List.mem_cons_of_mem _ h⟩
    | none =>
      cases a with
      | nil =>
        exfalso
        obtain ⟨w, n', hw, rfl, hn'⟩ := name_split hn
        have hr' : inWord (n' ++ b).head? = false := by
          rcases hn' with rfl | ⟨s', m', g1, g2, -, rfl⟩
          · exact hb
          · exact space_head g1 g2
        have hp : inWord prev = false := by simpa [before, Free] using ha
        unfold matchD at hm
        rw [hp] at hm
        have : capD t = some (w, n' ++ b) := by
          rw [ht, List.nil_append, List.append_assoc]
          exact capD_complete hw hr'
        rw [this] at hm
        simp at hm
      | cons c cs =>
        subst ht
        simp only [List.cons_append] at hk ⊢
        apply ih (some c) _ cs n b _ rfl hn _ hb
        · simp only [List.length_cons] at hk; omega
        · unfold before at ha ⊢
          rw [if_neg (by simp), List.getLast?_cons] at ha
          by_cases hne : cs = []
          · rw [if_pos hne]; rw [hne] at ha; exact ha
          · rw [if_neg hne]
            obtain ⟨z, hz⟩ := Option.isSome_iff_exists.1 (by simpa using hne : cs.getLast?.isSome)
            rw [hz] at ha ⊢; exact ha

theorem trim_name {sp : Char → Bool} (hsp : ∀ c, upper c = true ∨ low c = true → sp c = false) {m : Text} (h : Name m) : trim sp m = m := by
  obtain ⟨c, cs, hc, hu⟩ := name_head h
  obtain ⟨d, hd, hl⟩ := name_last h
  have h1 : m.dropWhile sp = m := by rw [hc, List.dropWhile_cons_of_neg (by simp [hsp c (.inl hu)])]
  have h2 : m.reverse.dropWhile sp = m.reverse := by
    rw [List.getLast?_eq_head?_reverse] at hd
    cases hr : m.reverse with
    | nil => rfl
    | cons x xs =>
      rw [hr] at hd
      simp only [List.head?_cons, Option.some.injEq] at hd
      subst hd
      rw [List.dropWhile_cons_of_neg (by simp [hsp x (.inr hl)])]
  unfold trim
  rw [h1, h2, List.reverse_reverse]

theorem name_length {m : Text} (h : Name m) : 2 ≤ m.length := by
  cases h with
  | word h =>
    obtain ⟨c, cs, rfl, -, hne, -⟩ := h
    have : cs.length ≠ 0 := fun e => hne (List.length_eq_zero_iff.1 e)
    simp only [List.length_cons]; omega
  | cons h _ _ _ =>
    obtain ⟨c, cs, rfl, -, hne, -⟩ := h
    have : cs.length ≠ 0 := fun e => hne (List.length_eq_zero_iff.1 e)
    simp only [List.length_append, List.length_cons]; omega

theorem titles_mem {sp : Char → Bool} (hsp : ∀ c, upper c = true ∨ low c = true → sp c = false) (t : Text) :
    (titles sp t).Nodup ∧ ∀ m, m ∈ titles sp t ↔ m ∈ findAll (t.length + 1) none t := by
  unfold titles
  have hn : ∀ m ∈ findAll (t.length + 1) none t, Name m := fun m hm => (findAll_sound _ _ _ _ hm).1
  generalize findAll (t.length + 1) none t = l at hn
  suffices H : ∀ (l acc : List Text), (∀ m ∈ l, Name m) → acc.Nodup →
      (l.foldl (fun acc m => let m := trim sp m; if m.length < 2 ∨ m ∈ acc then acc else acc ++ [m]) acc).Nodup ∧
      ∀ m, m ∈ l.foldl (fun acc m => let m := trim sp m; if m.length < 2 ∨ m ∈ acc then acc else acc ++ [m]) acc ↔ m ∈ acc ∨ m ∈ l by
    obtain ⟨h1, h2⟩ := H l [] hn List.nodup_nil
    exact ⟨h1, fun m => by rw [h2]; simp⟩
  intro l
  induction l with
  | nil => intro acc _ h; exact ⟨h, by simp⟩
  | cons x l ih =>
    intro acc hl hacc
    have hx := hl x (by simp)
    simp only [List.foldl_cons, trim_name hsp hx]
    have h2 := name_length hx
    by_cases hm : x ∈ acc
    · rw [if_pos (.inr hm)]
      obtain ⟨i1, i2⟩ := ih acc (fun m h => hl m (by simp [h])) hacc
      refine ⟨i1, fun m => ?_⟩
      rw [i2, List.mem_cons]
      constructor
      · rintro (h | h)
        · exact .inl h
        · exact .inr (.inr h)
      · rintro (h | rfl | h)
        · exact .inl h
        · exact .inl hm
        · exact .inr h
    · rw [if_neg (by simp only [not_or]; exact ⟨by omega, hm⟩)]
      have : (acc ++ [x]).Nodup := by
        rw [List.nodup_append]
        refine ⟨hacc, by simp, ?_⟩
        intro a ha b hb e
        simp only [List.mem_singleton] at hb
        subst hb; subst e; exact hm ha
      obtain ⟨i1, i2⟩ := ih (acc ++ [x]) (fun m h => hl m (by simp [h])) this
      refine ⟨i1, fun m => ?_⟩
      rw [i2, List.mem_append, List.mem_singleton, List.mem_cons, or_assoc]

/-- C219: what is found in a text is, each once, a sequence of capitalised words with white space between them that stands in the text and that no
letter, digit or underscore touches. -/
theorem C219_sound (sp : Char → Bool) (hsp : ∀ c, upper c = true ∨ low c = true → sp c = false) (t : Text) :
    (titles sp t).Nodup ∧ ∀ m ∈ titles sp t, Name m ∧ ∃ a b, At t a m b := by
  obtain ⟨h1, h2⟩ := titles_mem hsp t
  refine ⟨h1, fun m hm => ?_⟩
  obtain ⟨h3, a, b, h4, h5, h6⟩ := findAll_sound _ _ _ _ ((h2 m).1 hm)
  refine ⟨h3, a, b, h4, ?_, h6⟩
  unfold before at h5
  split at h5
  · rename_i ha; rw [ha]; exact h5
  · exact h5

/-- C219: every capitalised word of the text, and every sequence of them, is found, alone or as a part of a longer sequence: adjacent capitalised words
are never torn apart. -/
theorem C219_complete (sp : Char → Bool) (hsp : ∀ c, upper c = true ∨ low c = true → sp c = false) (t a n b : Text) (hn : Name n) (h : At t a n b) :
    ∃ x y, x ++ (n ++ y) ∈ titles sp t := by
  obtain ⟨h1, h2, h3⟩ := h
  obtain ⟨x, y, h4⟩ := findAll_complete (t.length + 1) none t a n b (by omega) h1 hn (by
    unfold before
    split
    · rfl
    · exact h2) h3
  exact ⟨x, y, ((titles_mem hsp t).2 _).2 h4⟩

/-- C219: nothing is found exactly when the text has no capitalised word that stands for itself. -/
theorem C219_none (sp : Char → Bool) (hsp : ∀ c, upper c = true ∨ low c = true → sp c = false) (t : Text) :
    titles sp t = [] ↔ ∀ w a b, Capital w → ¬ At t a w b := by
  constructor
  · intro h w a b hw hat
    obtain ⟨x, y, hm⟩ := C219_complete sp hsp t a w b (.word hw) hat
    rw [h] at hm; cases hm
  · intro h
    cases ht : titles sp t with
    | nil => rfl
    | cons m ms =>
      exfalso
      obtain ⟨hn, a, b, h1, h2, h3⟩ := (C219_sound sp hsp t).2 m (by rw [ht]; simp)
      obtain ⟨w, n', hw, rfl, hn'⟩ := name_split hn
      refine h w a (n' ++ b) hw ⟨by rw [h1]; simp, h2, ?_⟩
      rcases hn' with rfl | ⟨s', m', g1, g2, -, rfl⟩
      · exact h3
      · exact space_head g1 g2

def blank (c : Char) : Bool := c == ' ' || c == '\n'

/-- C219 fails for names that are not plain capitalised ASCII words: acronyms, names with a second capital, names with other letters. -/
theorem C219_missed_violated : titles blank "who leads IBM".toList = [] ∧ titles blank "where is McDonald".toList = [] ∧
    titles blank "what did Gödel prove".toList = [] ∧ titles blank "where is Łódź".toList = [] := by decide +kernel

/-- C219 fails for every question that starts with a capitalised word, whatever that word means: it is taken for a name (alone or with the words after
it), and an open mode uses the graph. -/
theorem C219_question_word_violated (sp : Char → Bool) (hsp : ∀ c, upper c = true ∨ low c = true → sp c = false) (w b : Text) (hw : Capital w)
    (hb : Free b.head?) : titles sp (w ++ b) ≠ [] ∧
      Verif.RagSearch.useGraph .auto false (titles sp (w ++ b)) [] = true := by
  obtain ⟨x, y, h⟩ := C219_complete sp hsp (w ++ b) [] w b (.word hw) ⟨rfl, rfl, hb⟩
  have hne : titles sp (w ++ b) ≠ [] := by intro e; rw [e] at h; cases h
  refine ⟨hne, ?_⟩
  simpa [Verif.RagSearch.useGraph, List.length_pos_iff] using hne

/-! ### Examples -/

example : ∀ c, upper c = true ∨ low c = true → blank c = false := by
  intro c h
  by_contra hb
  simp only [blank, Bool.or_eq_true, beq_iff_eq, Bool.not_eq_false] at hb
  rcases hb with rfl | rfl <;> revert h <;> decide

example : titles blank "What does Red Fox owe to Acme, or Red Fox to it?".toList = ["What".toList, "Red Fox".toList, "Acme".toList] := by
  decide +kernel

example : Name "Red Fox".toList ∧ At "is Red Fox here".toList "is ".toList "Red Fox".toList " here".toList := by
  refine ⟨.cons (w := "Red".toList) (s := " ".toList) (m := "Fox".toList) ⟨'R', "ed".toList, rfl, by decide, by decide, by decide⟩
    (by decide) (by decide) (.word ⟨'F', "ox".toList, rfl, by decide, by decide, by decide⟩), rfl, by show _ = _; decide, by show _ = _; decide⟩

example : Capital "What".toList ∧ Free (" about it".toList).head? :=
  ⟨⟨'W', "hat".toList, rfl, by decide, by decide, by decide⟩, by show _ = _; decide⟩

end Verif.Titles
