import Verif.Thm.FtsMemory
import Verif.Thm.Lexical

/-!
C217: a chunk is found by a word it contains. The keyword retrieval of the tools (`Model.Lexical`) with the queries made from the
question, read in the query language of the index.
-/
namespace Verif.FtsChunks
open Verif.Base Verif.Lexical Verif.FtsMemory
open Verif.FtsQuery hiding Text loop Odd
open Verif.GraphTools (Uni searchQueries)

abbrev Text := List Char

variable {T I : Type} [DecidableEq T] [LinearOrder I]

/-- The answers of `SearchTextOnly` to the queries of `searchTextCandidates` (/repo/pkg/cortexdb/graphrag_tools.go:795-803): the ids in the
order of the index, none for a query that is refused. -/
def answersOf (L : Lib T) (order : List (I × Text) → List (I × Text)) (rows : List (I × Text)) (topK : Int) (queries : List Text) :
    List (Option (List (I × ℚ))) :=
  queries.map (fun y => some (textOnly (((L.select order Prod.snd rows y).getD []).map Prod.fst) topK))

theorem weighted_mem (as : List (Option (List (I × ℚ)))) (idx j : Nat) (l : List (I × ℚ)) (hl : as[j]? = some (some l)) (x : I × ℚ) (hx : x ∈ l) :
    ∃ y ∈ weighted idx as, y.1 = x.1 := by
  induction as generalizing idx j with
  | nil => simp at hl
  | cons a as ih =>
    cases j with
    | zero =>
      simp only [List.getElem?_cons_zero, Option.some.injEq] at hl
      subst hl
      exact ⟨(x.1, x.2 * max (1 - (idx : ℚ) / 20) (4 / 5)), List.mem_append_left _ (List.mem_map.2 ⟨x, hx, rfl⟩), rfl⟩
    | succ j =>
      obtain ⟨y, hy, e⟩ := ih (idx + 1) j (by simpa using hl)
      exact ⟨y, List.mem_append_right _ hy, e⟩

/-- C217: a chunk that has a keyword of the question, or one of the keywords given, is among the candidates unless the list is full.
Missing: an index with entries of records written before (see C133), and requests without a limit (see C70). -/
theorem C217_found_partial (L : Lib T) (u : Uni) (hu : Letters u) (kws alts : List Text) (query : Text)
    (order : List (I × Text) → List (I × Text)) (horder : ∀ l, (order l).Perm l)
    (sort : List (I × ℚ) → List (I × ℚ)) (hsort : ∀ l, SortedFrom (fun a b => b.2 < a.2 ∨ (a.2 = b.2 ∧ a.1 ≤ b.1)) l (sort l))
    (rows : List (I × Text)) (hnd : (rows.map Prod.fst).Nodup) (topK : Int) (hk : 0 < topK)
    (r : I × Text) (hr : r ∈ rows) (k : Text)
    (hkey : k ∈ GraphTools.keywords u (joinSp kws) ∨ k ∈ GraphTools.keywords u (trim u.space query)) (hhas : Has L.tok k r.2) :
    ∃ out, candidates sort topK (answersOf L order rows topK (searchQueries u query kws alts)) = .ok out ∧
      (r.1 ∈ out.map Prod.fst ∨ (out.length : Int) = topK) := by
  obtain ⟨ws, hkw, hjoin, hws⟩ := GraphTools.C148_complete u hu.space query kws alts hu.edge k hkey
  have hplain : ∀ w ∈ ws, PlainWord w := fun w hw' => (hws w hw').elim (keyword_plain u hu _ w) (keyword_plain u hu _ w)
  obtain ⟨w0, ws', rfl⟩ := List.exists_cons_of_ne_nil (List.ne_nil_of_mem hkw)
  obtain ⟨x, hx, hsat⟩ := C215_any (T := T) w0 ws' hplain
  obtain ⟨j, hj⟩ := List.mem_iff_getElem?.1 hjoin
  set as := answersOf L order rows topK (searchQueries u query kws alts) with has
  set found := (order (rows.filter (fun r => L.sat r.2 x))).map Prod.fst with hfound
  have haj : as[j]? = some (some (textOnly found topK)) := by
    rw [has, answersOf, List.getElem?_map, hj]
    simp only [Option.map_some, Lib.select, hx, Option.getD_some]
    rfl
  have hrf : r.1 ∈ found := List.mem_map.2 ⟨r, (horder _).mem_iff.2 (List.mem_filter.2 ⟨hr, (hsat L r.2).2 ⟨k, hkw, hhas⟩⟩), rfl⟩
  have hfnd : found.Nodup := ((horder _).map _).nodup_iff.2 (hnd.sublist ((List.filter_sublist).map _))
  have hids : (textOnly found topK).map (·.1) = found.take topK.toNat := by
    have := (C70_text_only_partial found topK).1
    rwa [if_neg (by omega)] at this
  set m := loop topK 0 as [] with hm
  have hb := best_loop topK as
  rw [← hm] at hb
  -- either the record is merged or the list is full
  have hcase : r.1 ∈ m.map Prod.fst ∨ topK.toNat ≤ m.length := by
    rcases hb with hb | ⟨-, hlen⟩
    · have hin : ∀ i ∈ found.take topK.toNat, i ∈ m.map Prod.fst := by
        intro i hi
        rw [← hids] at hi
        obtain ⟨y, hy, rfl⟩ := List.mem_map.1 hi
        obtain ⟨z, hz, e⟩ := weighted_mem as 0 j _ haj y hy
        obtain ⟨z', hz', e', -⟩ := hb.ids z hz
        exact List.mem_map.2 ⟨z', hz', e'.trans e⟩
      by_cases hle : found.length ≤ topK.toNat
      · left
        exact hin _ (by rw [List.take_of_length_le hle]; exact hrf)
      · right
        have h1 := (List.subperm_of_subset (hfnd.sublist (List.take_sublist topK.toNat _)) hin).length_le
        have h2 : (m.map Prod.fst).length = m.length := List.length_map _
        have h3 : (found.take topK.toNat).length = topK.toNat := by rw [List.length_take]; omega
        omega
    · right; omega
  have hperm := (hsort m).1
  have hne : m ≠ [] := by
    rintro h
    rw [h] at hcase
    rcases hcase with h | h
    · cases h
    · simp at h; omega
  unfold candidates
  simp only
  rw [← hm, if_neg hne]
  by_cases hlen : ((sort m).length : Int) > topK
  · rw [if_pos hlen, if_neg (by omega)]
    refine ⟨_, rfl, .inr ?_⟩
    rw [List.length_take]
    omega
  · rw [if_neg hlen]
    refine ⟨_, rfl, ?_⟩
    rcases hcase with h | h
    · exact .inl ((hperm.map Prod.fst).mem_iff.2 h)
    · right
      have := hperm.length_eq
      omega

/-- C217, violated: without keywords in it (only stop words, or single characters) an unreadable question finds nothing, whatever is
stored, and no error is reported. -/
theorem C217_silent_violated (L : Lib T) (u : Uni) (query : Text) (order : List (I × Text) → List (I × Text))
    (sort : List (I × ℚ) → List (I × ℚ)) (rows : List (I × Text)) (topK : Int) (hbad : Unreadable (trim u.space query))
    (hnokey : GraphTools.keywords u (trim u.space query) = []) :
    candidates sort topK (answersOf L order rows topK (searchQueries u query [] [])) = .ok [] := by
  have hq : ∀ y ∈ searchQueries u query [] [], y = trim u.space query := by
    intro y hy
    rcases (GraphTools.C148_queries u query [] []).2.2.2.2.1 y hy with h | ⟨a, ha, -⟩ | ⟨ws, hne, hws, -⟩
    · exact h
    · cases ha
    · exfalso
      obtain ⟨w, ws', rfl⟩ := List.exists_cons_of_ne_nil hne
      obtain ⟨k, hk, -⟩ := hws w (by simp)
      rcases hk with hk | hk
      · have : GraphTools.keywords u (joinSp ([] : List Text)) = [] := rfl
        rw [this] at hk
        cases hk
      · rw [hnokey] at hk
        cases hk
  have hloop : ∀ (qs : List Text) (idx : Nat), (∀ y ∈ qs, y = trim u.space query) → loop topK idx (answersOf L order rows topK qs) [] = [] := by
    intro qs
    induction qs with
    | nil => intro idx _; rfl
    | cons y qs ih =>
      intro idx h
      have hy := h y (by simp)
      have hnil : textOnly (((L.select order Prod.snd rows y).getD []).map Prod.fst) topK = [] := by
        rw [hy, Lib.select, C215_refused_violated _ hbad]
        simp [textOnly]
      show loop topK idx (some _ :: answersOf L order rows topK qs) [] = []
      rw [hnil, loop, if_pos rfl]
      exact ih (idx + 1) (fun z hz => h z (by simp [hz]))
  unfold candidates
  simp only
  rw [hloop _ 0 hq, if_pos rfl]

/-! ### Cases -/

example : ("milk".toList ∈ GraphTools.keywords GraphTools.ascii "Where is the milk?".toList) ∧
    Has FtsQuery.demo.tok "milk".toList "Milk is in the fridge".toList ∧
    candidates (fun l => l) 2 (answersOf FtsQuery.demo id [(1, "Milk is in the fridge".toList), (2, "Tea".toList)] 2
      (searchQueries GraphTools.ascii "Where is the milk?".toList [] [])) = .ok [(1, 1 / 61 * (19 / 20))] := by
  refine ⟨by decide +kernel, ⟨by decide +kernel, by decide +kernel⟩, by decide +kernel⟩
/-- The word is there, and the question mark hides it. -/
example : Unreadable (trim GraphTools.ascii.space "Who is it?".toList) ∧
    GraphTools.keywords GraphTools.ascii (trim GraphTools.ascii.space "Who is it?".toList) = [] := by
  refine ⟨⟨by decide +kernel, by decide +kernel, .inl ⟨'?', by decide +kernel, by simp only [FtsQuery.Odd]; decide⟩⟩, by decide +kernel⟩

end Verif.FtsChunks
