import Verif.Thm.Aggregate
import Verif.Thm.FuncRouter
import Verif.Thm.Diversity
import Verif.Thm.Range
import Verif.Thm.Rerank

/-! Details of several properties that the wider theorems leave open: refusals, defaults, characters and scores. -/

namespace Verif.Aggregate
open Verif.Model.Store Verif.Model.Filter

variable {W HI VI : Type}

/-- C24: an aggregation without a kind or of an unknown kind, a sum, average, minimum or maximum without a field, and a grouping without
fields are refused, in every open store. -/
theorem C24_refused (lib : Lib ℚ) (sort : Option Nat → List Raw → List Raw) (s : St W HI VI) (hs : s.closed = false) (q : Req)
    (h : q.kind = .empty ∨ q.kind = .unknown ∨ ((q.kind = .sum ∨ q.kind = .avg ∨ q.kind = .min ∨ q.kind = .max) ∧ q.field = "") ∨
      (q.kind = .groupBy ∧ q.groupBy = [])) : aggregate lib sort s q = .error .invalid := by
  rcases h with h | h | ⟨h | h | h | h, h2⟩ | ⟨h, h2⟩
  · simp [aggregate, hs, valid, h]
  · simp [aggregate, hs, valid, h]
  · simp [aggregate, hs, valid, h, h2]
  · simp [aggregate, hs, valid, h, h2]
  · simp [aggregate, hs, valid, h, h2]
  · simp [aggregate, hs, valid, h, h2]
  · simp [aggregate, hs, valid, h, h2]

example : aggregate lib0 (fun _ l => l) (st0 "4") { kind := .avg, collection := "default" } = .error .invalid :=
  C24_refused _ _ _ rfl _ (Or.inr (Or.inr (Or.inl ⟨Or.inr (Or.inl rfl), rfl⟩)))

end Verif.Aggregate

namespace Verif.FuncRouter

/-- Characters an argument stops at: blanks, quotes and punctuation. -/
def stops : List Char := [' ', '\t', '\n', '\x0c', '\r', '"', '\'', ',', '。', '.', '!', '?']

theorem value_iff (x : Char) : valueChar x = true ↔ x ∉ stops := by
  simp [valueChar, reSpace, stops]
  tauto

/-- C149: an argument taken after a keyword has no blank, quote or punctuation mark in it, and is followed by one or by the end of the
text. -/
theorem C149_stops_partial (lib : Lib) (text k w : Text) (hk : k.any isMeta = false) (h : keyHit lib (text.map lib.lower) k = .group w) :
    (∀ x ∈ w, x ∉ stops) ∧ ∃ pre post, text.map lib.lower = pre ++ w ++ post ∧ ∀ y, post.head? = some y → y ∈ stops := by
  obtain ⟨_, h2, pre, a, gap, post, h3, _, _, h4⟩ := C149_value_from_text_partial lib text k w hk h
  refine ⟨fun x hx => (value_iff x).1 (h2 x hx), pre ++ k ++ a :: gap, post, h3, fun y hy => ?_⟩
  by_contra hn
  have := (value_iff y).2 hn
  rw [h4 y hy] at this
  cases this

example : keyHit asciiLib ("book on date  : tomorrow, please".toList.map asciiLib.lower) "date".toList = .group "tomorrow".toList ∧
    ("date".toList.any isMeta) = false := by decide +kernel

/-- C150: a truth value is true exactly for the texts true, yes, 是 and 好的, in any case of letters. -/
theorem C150_boolean (lib : Lib) (type value : Text) (ht : tyOf lib type = .boolean) :
    ∃ b, coerce lib value type = .bool b ∧
      (b = true ↔ value.map lib.lower ∈ ["true".toList, "yes".toList, "是".toList, "好的".toList]) := by
  refine ⟨_, by unfold coerce; rw [ht], ?_⟩
  simp only [Bool.or_eq_true, decide_eq_true_eq, List.mem_cons, List.not_mem_nil, or_false]
  tauto

example : tyOf asciiLib "boolean".toList = .boolean ∧ coerce asciiLib "Yes".toList "boolean".toList = .bool true ∧
    coerce asciiLib "no".toList "boolean".toList = .bool false := by decide +kernel

end Verif.FuncRouter

namespace Verif.Diversity
open Verif.Model.Store Verif.Model.Search

variable {W : Type}

/-- C74: when no least distance is given it is a tenth. -/
theorem C74_distance_default (sim : List W → List W → ℚ) (topK : Nat) (hk : 1 ≤ topK) (cands : List (Hit W)) :
    (diversifyDistance sim 0 topK cands).Sublist cands ∧
    ((diversifyDistance sim 0 topK cands).Pairwise fun a b => 1 / 10 ≤ 1 - sim b.vector a.vector) ∧
    ∀ c ∈ cands, c ∈ diversifyDistance sim 0 topK cands ∨
      (∃ s ∈ diversifyDistance sim 0 topK cands, 1 - sim c.vector s.vector < 1 / 10) ∨ (diversifyDistance sim 0 topK cands).length = topK := by
  have e : diversifyDistance sim 0 topK cands = diversifyDistance sim (1 / 10) topK cands := by
    simp [diversifyDistance]
  rw [e]
  obtain ⟨_, h2, _, h4, h5⟩ := C74_distance sim (1 / 10) (by norm_num) topK hk cands
  exact ⟨h2, h4, h5⟩

example : (diversifyDistance (fun a b : List Nat => if a = b then 1 else 0) 0 2
    [⟨"a", "", [1], "", "", none, 1⟩, ⟨"b", "", [1], "", "", none, 1⟩, ⟨"c", "", [2], "", "", none, 1⟩]).map (·.id) = ["a", "c"] := by decide +kernel

end Verif.Diversity

namespace Verif.Range
open Verif.Model.Store Verif.Model.Search Verif.Model.Filter

variable {W HI VI : Type}

/-- A facet that asks for something: values, a bound, a pattern, the presence of the field, or a nested facet that does. -/
inductive Says : Facet → Prop
  | equals (n lo hi p fs) : 0 < n → Says (.mk .equals n lo hi p fs)
  | in_ (n lo hi p fs) : 0 < n → Says (.mk .in_ n lo hi p fs)
  | lower (n hi p fs) : Says (.mk .range n true hi p fs)
  | upper (n lo p fs) : Says (.mk .range n lo true p fs)
  | contains (n lo hi p fs) : p ≠ "" → Says (.mk .contains n lo hi p fs)
  | startsWith (n lo hi p fs) : p ≠ "" → Says (.mk .startsWith n lo hi p fs)
  | exists_ (n lo hi p fs) : Says (.mk .exists_ n lo hi p fs)
  | nested (n lo hi p f fs) : f ∈ fs → Says f → Says (.mk .nested n lo hi p fs)

theorem any_of_mem {f : Facet} : ∀ {fs : List Facet}, f ∈ fs → conditioned f = true → conditionedAny fs = true
  | [], h, _ => by cases h
  | g :: fs, h, hc => by
    rw [conditionedAny, Bool.or_eq_true]
    rcases List.mem_cons.1 h with rfl | h
    · exact Or.inl hc
    · exact Or.inr (any_of_mem h hc)

theorem conditioned_of_says {f : Facet} (h : Says f) : conditioned f = true := by
  induction h with
  | nested n lo hi p f fs hm _ ih => rw [conditioned]; exact any_of_mem hm ih
  | _ => simp_all [conditioned]

/-- **C123, violated.** Every facet that asks for anything, of any kind, makes the search fail in every open store. -/
theorem C123_every_kind_violated (lib : Lib ℚ) (c : Cfg W) (order : List (Row W) → List (Row W))
    (sort : List (String × Nat) → List (String × Nat)) (s : St W HI VI) (hs : s.closed = false) (query : List W) (o : FacetOpts)
    (f : String × Facet) (hf : f ∈ o.facets) (h : Says f.2) : searchWithFacets lib c order sort s query o = .error .sql :=
  C123_any_facet_violated lib c order sort s hs query o (Or.inl ⟨f, hf, conditioned_of_says h⟩)

example : Says (.mk .nested 0 false false "" [.mk .equals 0 false false "" [], .mk .range 0 false true "" []]) :=
  .nested _ _ _ _ (.mk .range 0 false true "" []) _ (by simp) (.upper _ _ _ _)

end Verif.Range

namespace Verif.Rerank
open Verif.Model.Store Verif.Model.Search Verif.Base Verif.Spec Verif.Thm.Search

variable {W : Type}

/-- C73: the overlap of a text with a question is the share of the words of the question that are words of the text: between 0 and 1, and
for a question with words 0 exactly when none is and 1 exactly when all are. -/
theorem C73_overlap (t : Txt) (query content : String) :
    0 ≤ overlap t query content ∧ overlap t query content ≤ 1 ∧
    overlap t query content * (t.fields (t.lower query)).length =
      ((t.fields (t.lower query)).filter (fun w => w ∈ t.fields (t.lower content))).length ∧
    (t.fields (t.lower query) ≠ [] →
      (overlap t query content = 0 ↔ ∀ w ∈ t.fields (t.lower query), w ∉ t.fields (t.lower content)) ∧
      (overlap t query content = 1 ↔ ∀ w ∈ t.fields (t.lower query), w ∈ t.fields (t.lower content))) := by
  unfold overlap
  simp only
  generalize t.fields (t.lower query) = qs
  generalize t.fields (t.lower content) = cs
  have hle := List.length_filter_le (fun q => decide (q ∈ cs)) qs
  by_cases h : qs = []
  · subst h; simp
  have hpos : 0 < qs.length := List.length_pos_iff.2 h
  have hq : (0 : ℚ) < qs.length := by exact_mod_cast hpos
  have hle' : ((qs.filter fun q => decide (q ∈ cs)).length : ℚ) ≤ qs.length := by exact_mod_cast hle
  rw [if_pos hpos]
  refine ⟨by positivity, (div_le_one hq).2 hle', by field_simp, fun _ => ⟨?_, ?_⟩⟩
  · rw [div_eq_zero_iff, or_iff_left hq.ne']
    rw [Nat.cast_eq_zero, List.length_eq_zero_iff, List.filter_eq_nil_iff]
    simp
  · rw [div_eq_one_iff_eq hq.ne', Nat.cast_inj, List.length_filter_eq_length_iff]
    simp

/-- C73: without a function the results keep their scores and are put in order. -/
theorem C73_custom_none (sort : List (Hit W) → List (Hit W)) (hsort : SortsDesc sort) (query : String) (results : List (Hit W)) :
    ∃ out, custom sort none query results = .ok out ∧ out.Perm results ∧ Descending out := by
  refine ⟨_, rfl, ?_, (hsort _).2⟩
  have := (hsort (results.map fun r => r)).1
  simpa using this

example : overlap ⟨id, fun s => if s = "q" then ["red", "car"] else ["a", "red", "bus"], fun _ _ => false⟩ "q" "text" = 1 / 2 := by decide +kernel

end Verif.Rerank
