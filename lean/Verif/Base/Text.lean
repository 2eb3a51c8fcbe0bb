import Mathlib.Tactic.Common
import Mathlib.Data.List.Basic
import Mathlib.Data.List.Forall2

/-!
Library semantics of Go's `strings.FieldsFunc`, `strings.TrimFunc` and `strings.Join` on texts as lists of runes.
-/
namespace Verif.Base

/-- `strings.FieldsFunc(text, p)`: maximal runs of runes not satisfying `p`. `cur` is the run being read, reversed. -/
def fieldsAux (p : Char → Bool) : List Char → List Char → List (List Char)
  | cur, [] => if cur = [] then [] else [cur.reverse]
  | cur, c :: cs =>
    if p c then (if cur = [] then fieldsAux p [] cs else cur.reverse :: fieldsAux p [] cs)
    else fieldsAux p (c :: cur) cs

def fields (p : Char → Bool) (text : List Char) : List (List Char) := fieldsAux p [] text

/-- `strings.TrimFunc(text, p)`. -/
def trim (p : Char → Bool) (text : List Char) : List Char :=
  ((text.dropWhile p).reverse.dropWhile p).reverse

/-- `strings.Join(parts, " ")`. -/
def joinSp : List (List Char) → List Char
  | [] => []
  | [w] => w
  | w :: ws => w ++ ' ' :: joinSp ws

/-- A word: not empty, no separator inside. -/
def IsWord (p : Char → Bool) (w : List Char) : Prop := w ≠ [] ∧ ∀ c ∈ w, p c = false

theorem fieldsAux_words (p : Char → Bool) (cur l : List Char) (hc : ∀ c ∈ cur, p c = false) :
    ∀ w ∈ fieldsAux p cur l, IsWord p w := by
  induction l generalizing cur with
  | nil =>
    simp only [fieldsAux]
    split
    · simp
    · rename_i h
      intro w hw
      simp only [List.mem_singleton] at hw
      subst hw
      exact ⟨by simpa using h, by simpa using hc⟩
  | cons c cs ih =>
    simp only [fieldsAux]
    split
    · split
      · exact ih [] (by simp)
      · rename_i h
        intro w hw
        rcases List.mem_cons.1 hw with rfl | hw
        · exact ⟨by simpa using h, by simpa using hc⟩
        · exact ih [] (by simp) w hw
    · rename_i h
      refine ih _ ?_
      intro x hx
      rcases List.mem_cons.1 hx with rfl | hx
      · simpa using h
      · exact hc x hx

theorem fields_words (p : Char → Bool) (l : List Char) : ∀ w ∈ fields p l, IsWord p w :=
  fieldsAux_words p [] l (by simp)

theorem fieldsAux_noSep (p : Char → Bool) (cur w l : List Char) (hw : ∀ c ∈ w, p c = false) :
    fieldsAux p cur (w ++ l) = fieldsAux p (w.reverse ++ cur) l := by
  induction w generalizing cur with
  | nil => rfl
  | cons c cs ih =>
    simp only [List.cons_append, fieldsAux]
    rw [if_neg (by simp [hw c (by simp)]), ih (c :: cur) (fun x hx => hw x (by simp [hx]))]
    simp

/-- Words joined by spaces split into the same words. -/
theorem fields_joinSp (p : Char → Bool) (hsp : p ' ' = true) (ws : List (List Char)) (h : ∀ w ∈ ws, IsWord p w) :
    fields p (joinSp ws) = ws := by
  unfold fields
  induction ws with
  | nil => rfl
  | cons w ws ih =>
    have hw := h w (by simp)
    cases ws with
    | nil =>
      have := fieldsAux_noSep p [] w [] hw.2
      simp only [List.append_nil] at this
      rw [joinSp, this]
      simp [fieldsAux, hw.1]
    | cons w' ws' =>
      show fieldsAux p [] (w ++ ' ' :: joinSp (w' :: ws')) = _
      rw [fieldsAux_noSep p [] w _ hw.2]
      simp only [fieldsAux, hsp, List.append_nil, if_true]
      rw [if_neg (by simpa using hw.1), ih (fun x hx => h x (by simp [hx]))]
      simp

/-- Splitting first at a coarser set of separators loses no word. -/
theorem fieldsAux_refine (p q : Char → Bool) (hq : ∀ c, q c = true → p c = true) (l : List Char) :
    ∀ cur, (fieldsAux q cur l).flatMap (fields p) = fields p (cur.reverse ++ l) := by
  induction l with
  | nil =>
    intro cur
    simp only [fieldsAux]
    split
    · rename_i h; subst h; rfl
    · simp
  | cons c cs ih =>
    intro cur
    have hsep : ∀ (a cur' : List Char), q c = true →
        fieldsAux p cur' (a ++ c :: cs) = fieldsAux p cur' a ++ fieldsAux p [] cs := by
      intro a
      induction a with
      | nil =>
        intro cur' hc
        simp only [List.nil_append, fieldsAux, hq c hc, if_true]
        split <;> simp
      | cons x xs iha =>
        intro cur' hc
        simp only [List.cons_append, fieldsAux]
        split
        · split
          · exact iha _ hc
          · rw [iha _ hc]; rfl
        · exact iha _ hc
    simp only [fieldsAux]
    split
    · rename_i hc
      have e : fields p (cur.reverse ++ c :: cs) = fields p cur.reverse ++ fields p cs := hsep cur.reverse [] hc
      have h0 : (fieldsAux q [] cs).flatMap (fields p) = fields p cs := ih []
      rw [e]
      split
      · rename_i h; subst h
        rw [h0]; rfl
      · rw [List.flatMap_cons, h0]
    · rw [ih]; simp

theorem fields_refine (p q : Char → Bool) (hq : ∀ c, q c = true → p c = true) (l : List Char) :
    (fields q l).flatMap (fields p) = fields p l := by
  simpa [fields] using fieldsAux_refine p q hq l []

theorem fieldsAux_dropWhile (p : Char → Bool) (l : List Char) : fieldsAux p [] (l.dropWhile p) = fieldsAux p [] l := by
  induction l with
  | nil => rfl
  | cons c cs ih =>
    rw [List.dropWhile_cons]
    split
    · rename_i h; rw [ih]; simp [fieldsAux, h]
    · rfl

theorem fieldsAux_trailing (p : Char → Bool) (t : List Char) (ht : ∀ c ∈ t, p c = true) (l cur : List Char) :
    fieldsAux p cur (l ++ t) = fieldsAux p cur l := by
  induction l generalizing cur with
  | nil =>
    have h0 : fieldsAux p [] t = [] := by
      induction t with
      | nil => rfl
      | cons x xs ih => simp [fieldsAux, ht x (by simp), ih (fun c hc => ht c (by simp [hc]))]
    cases t with
    | nil => rfl
    | cons x xs =>
      have h1 : fieldsAux p [] xs = [] := by
        simpa [fieldsAux, ht x (by simp)] using h0
      simp only [List.nil_append, fieldsAux, ht x (by simp), if_true, h1]
  | cons c cs ih =>
    simp only [List.cons_append, fieldsAux]
    split
    · split
      · exact ih _
      · rw [ih]
    · exact ih _

theorem fields_trim (p : Char → Bool) (l : List Char) : fields p (trim p l) = fields p l := by
  have hsplit : ∀ m : List Char, ∃ t, (∀ c ∈ t, p c = true) ∧ m = (m.reverse.dropWhile p).reverse ++ t := by
    intro m
    refine ⟨(m.reverse.takeWhile p).reverse, ?_, ?_⟩
    · intro c hc
      have h := List.all_takeWhile (p := p) (l := m.reverse)
      rw [List.all_eq_true] at h
      exact h c (List.mem_reverse.1 hc)
    · rw [← List.reverse_append, List.takeWhile_append_dropWhile, List.reverse_reverse]
  unfold fields trim
  obtain ⟨t, ht, he⟩ := hsplit (l.dropWhile p)
  rw [← fieldsAux_dropWhile p l]
  conv_rhs => rw [he]
  rw [fieldsAux_trailing p t ht]

theorem fields_trim_nil (p : Char → Bool) (l : List Char) (h : trim p l = []) : fields p l = [] := by
  rw [← fields_trim, h]; rfl

end Verif.Base
