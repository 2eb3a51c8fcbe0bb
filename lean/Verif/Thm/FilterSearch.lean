import Verif.Model.FilterSearch
import Verif.Thm.FilterParse
import Verif.Thm.Search

/-! C80: search with pre- and post-filters. -/
namespace Verif.Thm.FilterSearch
open Verif.Model.Store Verif.Model.Search Verif.Model.Filter Verif.Model.FilterSearch Verif.Base Verif.Spec
open Verif.Thm.Filter Verif.Thm.Search

variable {F : Type} [LinearOrder F] {W HI VI : Type}

/-- The record's metadata satisfies the filter; a record without metadata has no fields. -/
def Accepted (l : Lib F) (post : Option (Expr F)) (r : Row W) : Prop :=
  ∀ e, post = some e → Sat l (r.metadata.getD []) e

/-- The filter reads the record's metadata as the specification does. -/
def Readable (l : Lib F) (post : Option (Expr F)) (r : Row W) : Prop :=
  ∀ e, post = some e → Typed e ∧ Numeric l (r.metadata.getD []) e ∧ Comparable l (r.metadata.getD []) e

open Classical in
theorem keepMatching_eq (l : Lib F) (c : Cfg W) (q : List W) (db : DB W) (post : Option (Expr F)) (rows : List (Row W))
    (h : ∀ r ∈ rows, Readable l post r) :
    keepMatching l c q post (rows.map (scan db)) =
      some ((rows.filter (fun r => Accepted l post r)).map (fun r => { scan db r with score := c.sim q r.vector })) := by
  induction rows with
  | nil => rfl
  | cons r rs ih =>
    have hr := h r (by simp)
    have ih := ih (fun x hx => h x (by simp [hx]))
    cases post with
    | none =>
      have : ∀ x : Row W, Accepted l (none : Option (Expr F)) x := fun x e he => by cases he
      simp only [List.map_cons, keepMatching, ih, Option.map_some, List.filter_cons, this, decide_true, if_true]
      rfl
    | some e =>
      obtain ⟨h1, h2, h3⟩ := hr e rfl
      obtain ⟨b, hb, hs⟩ := eval_sat l _ e h1 h2 h3
      have hacc : Accepted l (some e) r ↔ b = true := by
        rw [hs]; exact ⟨fun h => h e rfl, fun h e' he => by cases he; exact h⟩
      have hm : (scan db r).metadata.getD [] = r.metadata.getD [] := rfl
      simp only [List.map_cons, keepMatching, hm, hb, ih, Option.map_some]
      cases b with
      | true =>
        rw [List.filter_cons_of_pos (by simpa using hacc.2 rfl)]
        rfl
      | false =>
        rw [List.filter_cons_of_neg (by simpa using fun h => by simpa using hacc.1 h)]
        rfl

open Classical in
/-- C80, part: without a pre-filter, the answer is the K best scored records of the collection among those that satisfy
the post-filter, whatever the nesting of AND, OR and NOT. Missing for the full claim: a pre-filter, see `C80_violated`, and
metadata outside the readings of C21. -/
theorem C80_post_filter_partial (l : Lib F) (c : Cfg W) (hsort : SortsDesc c.sort) (s : St W HI VI) (hopen : s.closed = false)
    (query : List W) (o : Opts) (hk : 0 < o.topK) (post : Option (Expr F))
    (hr : ∀ r ∈ s.db.embeddings, Readable l post r) :
    ∃ out, searchAdvanced l c s query o none post = some (.ok out) ∧
      IsTopK (fun x : Hit W => x.score)
        ((s.db.embeddings.filter (fun r => (o.collection = "" ∨ collName s.db r = some o.collection) ∧ Accepted l post r)).map
          (fun r => { scan s.db r with score := c.sim query r.vector })) o.topK.toNat out := by
  simp only [searchAdvanced, hopen, Bool.false_eq_true, if_false]
  rw [keepMatching_eq l c query s.db post _ (fun r h => hr r (List.mem_filter.1 h).1), List.filter_filter]
  simp only
  refine ⟨_, rfl, ?_⟩
  have e : ∀ l : List (Hit W), (if o.topK > 0 ∧ (l.length : Int) > o.topK then l.take o.topK.toNat else l) = l.take o.topK.toNat := by
    intro l
    rw [← take_if l o.topK (by omega)]
    by_cases hl : (l.length : Int) > o.topK
    · rw [if_pos ⟨hk, hl⟩, if_pos hl]
    · rw [if_neg (fun hh => hl hh.2), if_neg hl]
  rw [e]
  have hf : (s.db.embeddings.filter (fun r =>
      decide (Accepted l post r) && (decide (o.collection = "") || decide (collName s.db r = some o.collection)))) =
      s.db.embeddings.filter (fun r =>
        decide ((o.collection = "" ∨ collName s.db r = some o.collection) ∧ Accepted l post r)) := by
    apply List.filter_congr
    intro r _
    rw [Bool.eq_iff_iff]
    simp only [Bool.and_eq_true, Bool.or_eq_true, decide_eq_true_eq]
    exact and_comm
  rw [hf]
  exact isTopK_take _ _ _ _ (hsort _)

/-- C80 is violated by every pre-filter that SQL expresses: the search fails, on every store and for every query. -/
theorem C80_violated (l : Lib F) (c : Cfg W) (s : St W HI VI) (query : List W) (o : Opts) (pre : Expr F) (hs : Shape pre)
    (post : Option (Expr F)) : ∃ er, searchAdvanced l c s query o (some pre) post = some (.error er) := by
  obtain ⟨k, hk, _⟩ := compile_ok pre hs
  unfold searchAdvanced
  split
  · exact ⟨_, rfl⟩
  · simp only [hk]; exact ⟨_, rfl⟩

example : ∀ r ∈ store1.db.embeddings, Readable lib0 (some (.not [.cmp .eq "t" (.str "y")])) r := by
  intro r _ e he
  cases he
  refine ⟨⟨by simp, ⟨_, rfl⟩, trivial⟩, ⟨(fun h => by simp [isOrder] at h), trivial⟩, ?_, trivial⟩
  intro t ht; cases ht; decide

end Verif.Thm.FilterSearch
