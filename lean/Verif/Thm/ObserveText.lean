import Verif.Model.ObserveText

/-! C197: the text of `Observe`. -/
namespace Verif.Thm.ObserveText

open Verif.Base Verif.Reflect

/-- A section: heading, lines, what closes it. -/
structure Sec where
  heading : String
  lines : List (List Char)
  closing : String

def Sec.text (s : Sec) : List Char := s.heading.toList ++ s.lines.flatten ++ s.closing.toList

/-- The lines a reader expects under the four headings, in this order. -/
def expected (f2 : ℚ → List Char) (rs : List Shown) (made : List Made) : List (String × String × List (List Char)) :=
  let mems := fun t => (rs.filter (fun r => r.mtype == t)).map (fun r => "- ".toList ++ r.content ++ "\n".toList)
  [("## Known Facts\n", "\n", mems "world"), ("## Past Experiences\n", "\n", mems "bank"),
   ("## New Insights\n", "\n", made.map (fun o => "- ".toList ++ o.content ++ " (confidence: ".toList ++ f2 o.conf ++ ")\n".toList)),
   ("## Existing Beliefs\n", "", mems "opinion")]

theorem part_text (heading close : String) (rs : List Shown) :
    part heading plainLine close rs =
      if rs.map (fun r => "- ".toList ++ r.content ++ "\n".toList) = [] then []
      else Sec.text ⟨heading, rs.map (fun r => "- ".toList ++ r.content ++ "\n".toList), close⟩ := by
  cases rs with
  | nil => simp [part]
  | cons r rs =>
    rw [if_neg (by simp)]
    rw [show part heading plainLine close (r :: rs) = heading.toList ++ (r :: rs).flatMap plainLine ++ close.toList from rfl]
    rw [List.flatMap_def]
    rfl

/-- C197: the text names the question and has exactly the non-empty ones of four sections, in order: recalled facts, recalled
experiences, the observations made now with their confidence, recalled opinions; each section has exactly its lines, one for
each entry, in the order recalled. -/
theorem C197_layout_partial (f2 : ℚ → List Char) (rs : List Shown) (made : List Made) (query : List Char) :
    ∃ secs : List Sec,
      observeText f2 rs made query = "# Reflection on: ".toList ++ query ++ "\n\n".toList ++ secs.flatMap Sec.text ∧
      secs.map (fun s => (s.heading, s.closing, s.lines)) = (expected f2 rs made).filter (fun e => e.2.2 ≠ []) := by
  refine ⟨((expected f2 rs made).filter (fun e => e.2.2 ≠ [])).map (fun e => ⟨e.1, e.2.2, e.2.1⟩), ?_, ?_⟩
  · have hflat : ∀ l : List (String × String × List (List Char)),
        ((l.filter (fun e => e.2.2 ≠ [])).map (fun e => (⟨e.1, e.2.2, e.2.1⟩ : Sec))).flatMap Sec.text =
        l.flatMap (fun e => if e.2.2 = [] then [] else Sec.text ⟨e.1, e.2.2, e.2.1⟩) := by
      intro l
      induction l with
      | nil => rfl
      | cons e l ih =>
        rw [List.filter_cons, List.flatMap_cons, ← ih]
        by_cases h : e.2.2 = [] <;> simp [h]
    have hmade : (if made = [] then [] else "## New Insights\n".toList ++ made.flatMap (madeLine f2) ++ "\n".toList) =
        if made.map (fun o => "- ".toList ++ o.content ++ " (confidence: ".toList ++ f2 o.conf ++ ")\n".toList) = [] then []
        else Sec.text ⟨"## New Insights\n",
          made.map (fun o => "- ".toList ++ o.content ++ " (confidence: ".toList ++ f2 o.conf ++ ")\n".toList), "\n"⟩ := by
      cases made with
      | nil => simp
      | cons o os =>
        rw [if_neg (by simp), if_neg (by simp), List.flatMap_def]
        rfl
    unfold observeText
    rw [hflat, part_text, part_text, part_text, hmade]
    simp only [expected, List.flatMap_cons, List.flatMap_nil, List.append_nil, ofType, List.append_assoc]
  · rw [List.map_map]
    simp [Function.comp_def]

/-- C197 fails for recalled observations (and memories of any unknown type): the text is the same as if they had not been
recalled, whatever they say. -/
theorem C197_observations_violated (f2 : ℚ → List Char) (rs : List Shown) (made : List Made) (query : List Char) :
    observeText f2 rs made query =
      observeText f2 (rs.filter (fun r => r.mtype == "world" || r.mtype == "bank" || r.mtype == "opinion")) made query := by
  have h : ∀ t, (t = "world" ∨ t = "bank" ∨ t = "opinion") →
      ofType t (rs.filter (fun r => r.mtype == "world" || r.mtype == "bank" || r.mtype == "opinion")) = ofType t rs := by
    intro t ht
    unfold ofType
    rw [List.filter_filter]
    apply List.filter_congr
    intro r _
    by_cases hr : r.mtype = t
    · rcases ht with rfl | rfl | rfl <;> simp [hr]
    · have : (r.mtype == t) = false := by simpa using hr
      simp [this]
  unfold observeText
  rw [h "world" (by simp), h "bank" (by simp), h "opinion" (by simp)]

/-- A recalled observation is not mentioned; a fact and an observation made now are. -/
example : observeText (fun _ => "0.50".toList) [⟨"observation", "likes tea".toList, 1, 1⟩, ⟨"world", "tea".toList, 1, 1⟩]
      [⟨"ok".toList, 1 / 2⟩] "q".toList =
    "# Reflection on: q\n\n## Known Facts\n- tea\n\n## New Insights\n- ok (confidence: 0.50)\n\n".toList := by decide +kernel

end Verif.Thm.ObserveText
