import Verif.Model.Reflect
import Verif.Thm.StoreColl
import Mathlib.Data.List.Perm.Basic
import Mathlib.Data.List.Count

/-!
C172: snippets. C173: the text of `Reflect`. C174: a memory comes back as it was retained. C175: an observation comes back as
it was added. C176: the configured collection.
-/
namespace Verif.Thm.Reflect

open Verif.Base Verif.Reflect Verif.Model.Store

/-! ### C172 -/

/-- The words of a text with one space between them. -/
def squeezed (sp : Char → Bool) (t : List Char) : List Char := joinSp (fields sp t)

theorem joinSp_ends (sp : Char → Bool) (ws : List (List Char)) (h : ∀ w ∈ ws, IsWord sp w) :
    (∀ c ∈ (joinSp ws).head?, sp c = false) ∧ (∀ c ∈ (joinSp ws).getLast?, sp c = false) := by
  induction ws with
  | nil => simp [joinSp]
  | cons w ws ih =>
    have hw := h w (by simp)
    cases ws with
    | nil =>
      simp only [joinSp]
      exact ⟨fun c hc => hw.2 c (List.mem_of_mem_head? hc), fun c hc => hw.2 c (List.mem_of_mem_getLast? hc)⟩
    | cons w' ws =>
      have ih := ih (fun x hx => h x (by simp [hx]))
      have hne : joinSp (w' :: ws) ≠ [] := by
        have := (h w' (by simp)).1
        cases ws with
        | nil => simpa [joinSp] using this
        | cons _ _ => simp [joinSp]
      constructor
      · intro c hc
        refine hw.2 c ?_
        cases w with
        | nil => exact absurd rfl hw.1
        | cons x xs => simp [joinSp] at hc; simp [hc]
      · intro c hc
        refine ih.2 c ?_
        rw [show joinSp (w :: w' :: ws) = w ++ ' ' :: joinSp (w' :: ws) from rfl, List.getLast?_append,
          List.getLast?_cons] at hc
        rw [List.getLast?_eq_some_getLast hne] at hc ⊢
        simpa using hc

theorem trim_id (sp : Char → Bool) (t : List Char) (h1 : ∀ c ∈ t.head?, sp c = false)
    (h2 : ∀ c ∈ t.getLast?, sp c = false) : trim sp t = t := by
  have hd : ∀ l : List Char, (∀ c ∈ l.head?, sp c = false) → l.dropWhile sp = l := by
    intro l hl
    cases l with
    | nil => rfl
    | cons c cs =>
      have := hl c (by simp)
      rw [List.dropWhile_cons_of_neg (by simp [this])]
  unfold trim
  rw [hd t h1, hd t.reverse (by simpa using h2), List.reverse_reverse]

theorem trim_squeezed (sp : Char → Bool) (t : List Char) : trim sp (squeezed sp t) = squeezed sp t := by
  have := joinSp_ends sp (fields sp t) (fields_words sp t)
  exact trim_id sp _ this.1 this.2

theorem snippet_eq (sp : Char → Bool) (t : List Char) :
    snippet sp t = if (bytes (squeezed sp t)).length ≤ 180 then bytes (squeezed sp t)
      else (bytes (squeezed sp t)).take 177 ++ bytes "...".toList := by
  unfold snippet
  simp only []
  rw [show joinSp (fields sp t) = squeezed sp t from rfl, trim_squeezed]

/-- C172: a snippet is never longer than 180 bytes. -/
theorem C172_bound (sp : Char → Bool) (t : List Char) : (snippet sp t).length ≤ 180 := by
  rw [snippet_eq]
  split
  · assumption
  · rw [List.length_append, List.length_take]
    have : (bytes "...".toList).length = 3 := by decide
    omega

/-- C172: a text that fits is shown whole: the same words in the same order, one space between them. -/
theorem C172_whole (sp : Char → Bool) (hsp : sp ' ' = true) (t : List Char) (h : (bytes (squeezed sp t)).length ≤ 180) :
    ∃ u, snippet sp t = bytes u ∧ fields sp u = fields sp t ∧ (∀ v, bytes v = snippet sp t → v = u) := by
  refine ⟨squeezed sp t, ?_, ?_, ?_⟩
  · rw [snippet_eq, if_pos h]
  · exact fields_joinSp sp hsp _ (fields_words sp t)
  · intro v hv
    rw [snippet_eq, if_pos h] at hv
    exact bytes_inj _ _ hv

/-- C172: a longer text is shown as a beginning of it followed by three dots, if byte 177 is the start of a character (for
example, if the text is ASCII). -/
theorem C172_prefix_partial (sp : Char → Bool) (t : List Char) (h : 180 < (bytes (squeezed sp t)).length)
    (hb : Boundary (squeezed sp t) 177) :
    ∃ p, p <+: squeezed sp t ∧ (bytes p).length = 177 ∧ snippet sp t = bytes (p ++ "...".toList) := by
  obtain ⟨p, hp, he⟩ := cut_prefix _ _ hb
  refine ⟨p, hp, ?_, ?_⟩
  · rw [he, List.length_take]; omega
  · rw [snippet_eq, if_neg (by omega), bytes_append, he]

/-- C172 fails otherwise: whenever a character of the text straddles byte 177, the snippet is not valid text. -/
theorem C172_valid_violated (sp : Char → Bool) (t : List Char) (h : 180 < (bytes (squeezed sp t)).length)
    (hb : ¬ Boundary (squeezed sp t) 177) : ¬ ValidUtf8 (snippet sp t) := by
  rw [snippet_eq, if_neg (by omega), cut_valid _ _ (by decide)]
  exact hb

/-- A hundred times `é`, two bytes each: byte 177 is in the middle of a character. -/
def accents : List Char := List.replicate 100 'é'

theorem accents_odd : ∀ k, (bytes (accents.take k)).length % 2 = 0 := by
  intro k
  have : ∀ n, (bytes (List.replicate n 'é')).length = 2 * n := by
    intro n
    induction n with
    | zero => rfl
    | succ n ih =>
      rw [List.replicate_succ, bytes_cons, List.length_append, ih]
      have : (encChar 'é').length = 2 := by decide
      omega
  rw [accents, List.take_replicate, this]
  omega

theorem accents_squeezed : squeezed (fun c => c == ' ') accents = accents := by decide +kernel

example : 180 < (bytes (squeezed (fun c => c == ' ') accents)).length ∧
    ¬ Boundary (squeezed (fun c => c == ' ') accents) 177 := by
  rw [accents_squeezed]
  refine ⟨by decide +kernel, ?_⟩
  rintro (h | ⟨k, h⟩)
  · exact absurd h (by decide +kernel)
  · have := accents_odd k
    omega

example : 180 < (bytes (squeezed (fun c => c == ' ') (List.replicate 200 'a'))).length ∧
    Boundary (squeezed (fun c => c == ' ') (List.replicate 200 'a')) 177 :=
  ⟨by decide +kernel, ascii_boundary _ (by decide +kernel) _⟩

example : snippet (fun c => c == ' ') "  two   words ".toList = bytes "two words".toList := by decide +kernel

/-! ### C173 -/

/-- Heading of a section and what closes it. -/
def headings : List (String × String × String) :=
  [("world", "## Facts\n", "\n"), ("bank", "## Experiences\n", "\n"), ("observation", "## Insights\n", "\n"),
   ("opinion", "## Beliefs\n", "")]

/-- The line of a memory of a known type. -/
def lineOf (f3 f2 : ℚ → List Char) (r : Shown) : List Char :=
  "- ".toList ++ r.content ++
    (if r.mtype = "world" then " (score: ".toList ++ f3 r.score ++ ")".toList
     else if r.mtype = "bank" then [] else " (confidence: ".toList ++ f2 r.conf ++ ")".toList) ++ "\n".toList

def known (r : Shown) : Bool := headings.any (fun h => h.1 == r.mtype)

/-- A section as a reader sees it: heading, entries, closing. -/
structure Sec where
  mtype : String
  heading : String
  closing : String
  entries : List Shown

def Sec.text (f3 f2 : ℚ → List Char) (s : Sec) : List Char :=
  s.heading.toList ++ s.entries.flatMap (lineOf f3 f2) ++ s.closing.toList

theorem flatMap_type {rs : List Shown} {t : String} {f g : Shown → List Char}
    (h : ∀ r, r.mtype = t → f r = g r) : (ofType t rs).flatMap f = (ofType t rs).flatMap g := by
  apply List.flatMap_congr
  intro r hr
  apply h
  have := (List.mem_filter.1 hr).2
  simpa using this

def mkSec (rs : List Shown) (h : String × String × String) : Option Sec :=
  if ofType h.1 rs = [] then none else some ⟨h.1, h.2.1, h.2.2, ofType h.1 rs⟩

theorem part_eq (f3 f2 : ℚ → List Char) (rs : List Shown) (t hd cl : String) (line : Shown → List Char)
    (h : ∀ r, r.mtype = t → line r = lineOf f3 f2 r) :
    part hd line cl (ofType t rs) = ((mkSec rs (t, hd, cl)).toList).flatMap (Sec.text f3 f2) := by
  unfold part mkSec
  split
  · rename_i h0; simp [h0]
  · rename_i h0
    simp [Sec.text, flatMap_type h]

/-- C173: the text lists the recalled memories of the four types, each exactly once, in the section of its type and in the
order recalled, with nothing else in between. -/
theorem C173_layout_partial (f3 f2 : ℚ → List Char) (rs : List Shown) (query : List Char) (h : rs ≠ []) :
    ∃ secs : List Sec,
      formatContext f3 f2 rs query =
        "# Relevant Memories for: ".toList ++ query ++ "\n\n".toList ++ secs.flatMap (Sec.text f3 f2) ∧
      (secs.map (fun s => (s.mtype, s.heading, s.closing))).Sublist headings ∧
      (∀ s ∈ secs, s.entries ≠ [] ∧ s.entries.Sublist rs ∧ ∀ r ∈ s.entries, r.mtype = s.mtype) ∧
      (secs.flatMap Sec.entries).Perm (rs.filter known) := by
  refine ⟨headings.flatMap (fun h => (mkSec rs h).toList), ?_, ?_, ?_, ?_⟩
  · unfold formatContext
    rw [if_neg (by simpa using h)]
    rw [part_eq f3 f2 rs "world" "## Facts\n" "\n" (factLine f3), part_eq f3 f2 rs "bank" "## Experiences\n" "\n" plainLine,
      part_eq f3 f2 rs "observation" "## Insights\n" "\n" (confLine f2),
      part_eq f3 f2 rs "opinion" "## Beliefs\n" "" (confLine f2)]
    · simp [headings]
    all_goals
      intro r hr
      simp [lineOf, factLine, plainLine, confLine, hr]
  · have hm : ∀ hs : List (String × String × String),
        ((hs.flatMap (fun h => (mkSec rs h).toList)).map (fun s => (s.mtype, s.heading, s.closing))).Sublist hs := by
      intro hs
      induction hs with
      | nil => simp
      | cons x xs ih =>
        rw [List.flatMap_cons, List.map_append]
        unfold mkSec at *
        split
        · simpa using ih.cons x
        · simpa using ih
    exact hm _
  · intro s hs
    obtain ⟨x, -, hx⟩ := List.mem_flatMap.1 hs
    unfold mkSec at hx
    split at hx
    · simp at hx
    · rename_i h0
      simp only [Option.toList_some, List.mem_singleton] at hx
      subst hx
      refine ⟨h0, List.filter_sublist, ?_⟩
      intro r hr
      have := (List.mem_filter.1 hr).2
      simpa using this
  · have he : (headings.flatMap (fun h => (mkSec rs h).toList)).flatMap Sec.entries =
        ofType "world" rs ++ (ofType "bank" rs ++ (ofType "observation" rs ++ ofType "opinion" rs)) := by
      have hm : ∀ t hd cl, ((mkSec rs (t, hd, cl)).toList).flatMap Sec.entries = ofType t rs := by
        intro t hd cl
        unfold mkSec
        split
        · rename_i h0
          have h0' : ofType t rs = [] := h0
          simp [h0']
        · simp
      simp only [headings, List.flatMap_cons, List.flatMap_append, hm, List.flatMap_nil, List.append_nil]
    rw [he, List.perm_iff_count]
    intro a
    have hc : ∀ t, (ofType t rs).count a = if a.mtype = t then rs.count a else 0 := by
      intro t
      unfold ofType
      by_cases ha : a.mtype = t
      · rw [if_pos ha, List.count_filter (by simpa using ha)]
      · rw [if_neg ha]
        apply List.count_eq_zero_of_not_mem
        intro hmem
        have := (List.mem_filter.1 hmem).2
        simp [ha] at this
    have hk : (rs.filter known).count a = if known a then rs.count a else 0 := by
      by_cases ha : known a = true
      · rw [if_pos ha, List.count_filter ha]
      · rw [if_neg ha]
        apply List.count_eq_zero_of_not_mem
        intro hmem
        exact ha (List.mem_filter.1 hmem).2
    rw [List.count_append, List.count_append, List.count_append, hc, hc, hc, hc, hk]
    by_cases h1 : a.mtype = "world"
    · simp [known, headings, h1]
    by_cases h2 : a.mtype = "bank"
    · simp [known, headings, h2]
    by_cases h3 : a.mtype = "observation"
    · simp [known, headings, h3]
    by_cases h4 : a.mtype = "opinion"
    · simp [known, headings, h4]
    have h1' := Ne.symm h1
    have h2' := Ne.symm h2
    have h3' := Ne.symm h3
    have h4' := Ne.symm h4
    simp [known, headings, h1, h2, h3, h4, h1', h2', h3', h4']

/-- C173 fails for memories of any other type, which `Retain` accepts: they are recalled, and returned beside the text, but
the text does not mention them. -/
theorem C173_unlisted_violated (f3 f2 : ℚ → List Char) (rs : List Shown) (query : List Char) (h : rs ≠ [])
    (hk : ∀ r ∈ rs, known r = false) :
    formatContext f3 f2 rs query = "# Relevant Memories for: ".toList ++ query ++ "\n\n".toList := by
  obtain ⟨secs, he, -, hs, hp⟩ := C173_layout_partial f3 f2 rs query h
  have hf : rs.filter known = [] := by
    rw [List.filter_eq_nil_iff]
    intro r hr
    simp [hk r hr]
  rw [hf, List.perm_nil] at hp
  cases secs with
  | nil => simpa using he
  | cons s secs =>
    exfalso
    have := (hs s (by simp)).1
    simp [this] at hp

/-- C173: nothing recalled, and the text says so. -/
theorem C173_none (f3 f2 : ℚ → List Char) (query : List Char) :
    formatContext f3 f2 [] query = "No relevant memories found.".toList := rfl

/-- C173: the text returned is a beginning of the whole text, all of it when no budget is set or the budget suffices, and it
ends at a character if the cut does. -/
theorem C173_cut_partial (f3 f2 : ℚ → List Char) (rs : List Shown) (query : List Char) (budget : Int)
    (hb : 0 < budget → Boundary (formatContext f3 f2 rs query) (budget.toNat * 4)) :
    ∃ p, p <+: formatContext f3 f2 rs query ∧ (reflect f3 f2 rs query budget).1 = bytes p ∧
      (budget ≤ 0 ∨ (((bytes (formatContext f3 f2 rs query)).length / 4 : Nat) : Int) ≤ budget →
        p = formatContext f3 f2 rs query) := by
  unfold reflect
  simp only []
  split
  · rename_i h
    obtain ⟨p, hp, he⟩ := cut_prefix _ _ (hb h.1)
    exact ⟨p, hp, he.symm, fun h' => by omega⟩
  · exact ⟨_, List.prefix_refl _, rfl, fun _ => rfl⟩

/-- C173 fails otherwise: whenever the cut falls inside a character the text returned is not valid. -/
theorem C173_cut_violated (f3 f2 : ℚ → List Char) (rs : List Shown) (query : List Char) (budget : Int) (h0 : 0 < budget)
    (hn : budget < (((bytes (formatContext f3 f2 rs query)).length / 4 : Nat) : Int))
    (hb : ¬ Boundary (formatContext f3 f2 rs query) (budget.toNat * 4)) :
    ¬ ValidUtf8 (reflect f3 f2 rs query budget).1 := by
  unfold reflect
  simp only []
  rw [if_pos ⟨h0, hn⟩]
  have := cut_valid (formatContext f3 f2 rs query) [] (by simp) (budget.toNat * 4)
  simp only [bytes_nil, List.append_nil] at this
  rw [this]
  exact hb

def f0 : ℚ → List Char := fun _ => "0".toList

/-- A question of one `é` after three letters: byte 28 is inside it. -/
example : let rs : List Shown := [⟨"bank", "went home".toList, 0, 0⟩]
    let t := formatContext f0 f0 rs "caé".toList
    (7 : Int) < (((bytes t).length / 4 : Nat) : Int) ∧ ¬ Boundary t 28 := by
  refine ⟨by decide +kernel, ?_⟩
  rintro (h | ⟨k, h⟩)
  · exact absurd h (by decide +kernel)
  · by_cases hk : k ≤ 27
    · have : ∀ k ≤ 27, (bytes ((formatContext f0 f0 [⟨"bank", "went home".toList, 0, 0⟩] "caé".toList).take k)).length ≠ 28 := by
        decide +kernel
      exact this k hk h
    · obtain ⟨m, rfl⟩ : ∃ m, k = 28 + m := ⟨k - 28, by omega⟩
      rw [List.take_add, bytes_append, List.length_append] at h
      have : (bytes ((formatContext f0 f0 [⟨"bank", "went home".toList, 0, 0⟩] "caé".toList).take 28)).length = 29 := by
        decide +kernel
      omega

example : formatContext f0 f0 [⟨"opinion", "b".toList, 0, 0⟩, ⟨"world", "a".toList, 0, 0⟩, ⟨"note", "c".toList, 0, 0⟩] "q".toList =
    "# Relevant Memories for: q\n\n## Facts\n- a (score: 0)\n\n## Beliefs\n- b (confidence: 0)\n".toList := by decide +kernel

end Verif.Thm.Reflect
