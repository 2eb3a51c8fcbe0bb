import Verif.Thm.Fts

/-!
# C76 and C133: the stale entries of the keyword index, for every history
-/
namespace Verif.Fts

open Verif.Base

variable {T A : Type} [DecidableEq T]

/-- Deleting one record. -/
def drop (id : String) : ChunkOp A := .delete fun x _ _ => x == id

theorem filter_other (rows : List (FRow A)) (id : String) (h : ∀ r ∈ rows, r.id ≠ id) : rows.filter (fun r => decide (r.id ≠ id)) = rows :=
  List.filter_eq_self.2 fun r hr => decide_eq_true (h r hr)

/-- Writing a new record twice and deleting it leaves the rows as they were, and the entries of its first text under the row identifier the next new record gets. -/
theorem ghost (tok : String → List T) (s : FSt T A) (b t1 t2 : String) (a1 a2 : A) (hb : ∀ r ∈ s.rows, r.id ≠ b) :
    let s' := [ChunkOp.upsert b t1 a1, .upsert b t2 a2, drop b].foldl (chunkStep tok) s
    s'.rows = s.rows ∧ ∀ w ∈ tok t1, (nextRow s.rows, w) ∈ s'.postings := by
  intro s'
  have e1 : (replace tok s b t1 a1).rows = s.rows ++ [⟨nextRow s.rows, b, t1, a1⟩] := by
    simp only [replace, index]
    rw [filter_other _ _ hb]
  have e2 : (replace tok (replace tok s b t1 a1) b t2 a2).rows = s.rows ++ [⟨nextRow (replace tok s b t1 a1).rows, b, t2, a2⟩] := by
    have : ∀ x : FSt T A, (replace tok x b t2 a2).rows = x.rows.filter (fun r => decide (r.id ≠ b)) ++ [⟨nextRow x.rows, b, t2, a2⟩] := fun _ => rfl
    rw [this, e1, List.filter_append, filter_other _ _ hb]
    simp
  have hj : nextRow s.rows < nextRow (replace tok s b t1 a1).rows := by
    rw [e1]; exact nextRow_append s.rows ⟨nextRow s.rows, b, t1, a1⟩
  have hs' : s' = delete tok (replace tok (replace tok s b t1 a1) b t2 a2) fun x _ _ => x == b := rfl
  constructor
  · rw [hs', delete, removeAll_rows]
    simp only
    rw [e2, List.filter_append]
    have : s.rows.filter (fun r => !(r.id == b)) = s.rows := List.filter_eq_self.2 fun r hr => by simp [hb r hr]
    rw [this]
    simp
  · intro w hw
    rw [hs', delete, removeAll_postings]
    refine ⟨?_, ?_⟩
    · show (nextRow s.rows, w) ∈ (replace tok (replace tok s b t1 a1) b t2 a2).postings
      unfold replace
      rw [index_postings]
      refine Or.inl ?_
      show (nextRow s.rows, w) ∈ (index tok _ _ t1).postings
      rw [index_postings]
      exact Or.inr ⟨rfl, hw⟩
    · intro r hr
      rw [e2, List.mem_filter] at hr
      obtain ⟨hr, hid⟩ := hr
      rintro ⟨he, -⟩
      rcases List.mem_append.1 hr with hr | hr
      · exact hb r hr (by simpa using hid)
      · rw [List.mem_singleton.1 hr] at he
        simp only at he
        omega

theorem rows_absent (tok : String → List T) (ops : List (ChunkOp A)) (b : String) (hb : chunksTab ops b = none) : ∀ r ∈ (chunks tok ops).rows, r.id ≠ b := by
  intro r hr he
  have := ((chunks_table tok ops).2 b r.content r.attr).2 ⟨r, hr, he, rfl, rfl⟩
  rw [hb] at this; cases this

/-- **C76, violated for every history.** When a new record was written twice and deleted, the next new record is found by every word of the first text of the deleted one, whatever its own text is; and a query that
excludes such a word misses it. -/
theorem C76_ghost_violated (tok : String → List T) (ops : List (ChunkOp A)) (b c t1 t2 t3 : String) (a1 a2 a3 : A) (hb : chunksTab ops b = none) (hc : chunksTab ops c = none)
    (order : List (FRow A) → List (FRow A)) (horder : ∀ l, (order l).Perm l) (w : T) (hw : w ∈ tok t1) (limit : Nat) :
    let s := chunks tok (ops ++ [.upsert b t1 a1, .upsert b t2 a2, drop b, .upsert c t3 a3])
    (∃ out, joined order s (.term w) (fun _ => true) limit = .ok out ∧ (out.length < limit → ∃ r ∈ out, r.id = c ∧ r.content = t3)) ∧
    ∀ q : Query T, ∃ out, joined order s (.not q (.term w)) (fun _ => true) limit = .ok out ∧ ∀ r ∈ out, r.id ≠ c := by
  intro s
  have hs : s = replace tok ([ChunkOp.upsert b t1 a1, .upsert b t2 a2, drop b].foldl (chunkStep tok) (chunks tok ops)) c t3 a3 := by
    simp only [s, chunks, List.foldl_append, List.foldl_cons, List.foldl_nil]
    rfl
  obtain ⟨g1, g2⟩ := ghost tok (chunks tok ops) b t1 t2 a1 a2 (rows_absent tok ops b hb)
  generalize hu : [ChunkOp.upsert b t1 a1, .upsert b t2 a2, drop b].foldl (chunkStep tok) (chunks tok ops) = u at hs g1 g2
  have hrows : s.rows = (chunks tok ops).rows ++ [⟨nextRow (chunks tok ops).rows, c, t3, a3⟩] := by
    rw [hs]
    simp only [replace, index]
    rw [g1, filter_other _ _ (rows_absent tok ops c hc)]
  have hpost : (nextRow (chunks tok ops).rows, w) ∈ s.postings := by
    rw [hs]
    unfold replace
    rw [index_postings]
    exact Or.inl (g2 w hw)
  have hcov : Covered tok s := (chunks_covered tok _).2
  have hok : ∀ q : Query T, joined order s q (fun _ => true) limit = .ok ((order (s.rows.filter fun r => hits s q r.rowid && true)).take limit) := by
    intro q
    unfold joined
    simp only
    rw [if_pos]
    rw [List.all_eq_true]
    intro r hr
    exact decide_eq_true (hcov r (List.mem_filter.1 hr).1).1
  refine ⟨⟨_, hok _, ?_⟩, fun q => ⟨_, hok _, ?_⟩⟩
  · intro hlt
    refine ⟨⟨nextRow (chunks tok ops).rows, c, t3, a3⟩, ?_, rfl, rfl⟩
    rw [List.take_of_length_le (by rw [List.length_take] at hlt; omega), (horder _).mem_iff, List.mem_filter]
    refine ⟨by rw [hrows]; simp, ?_⟩
    simp only [hits, Query.eval, Bool.and_true]
    exact decide_eq_true hpost
  · intro r hr he
    have hr := (horder _).mem_iff.1 (List.mem_of_mem_take hr)
    rw [List.mem_filter] at hr
    obtain ⟨hr, hh⟩ := hr
    have hid : r.rowid = nextRow (chunks tok ops).rows := by
      rw [hrows] at hr
      rcases List.mem_append.1 hr with hr | hr
      · exact absurd he (rows_absent tok ops c hc r hr)
      · rw [List.mem_singleton.1 hr]
    simp only [hits, Query.eval, Bool.and_true, Bool.and_eq_true, Bool.not_eq_true', decide_eq_false_iff_not] at hh
    rw [hid] at hh
    exact hh.2 hpost

/-- **C133, violated for every history.** When that record is deleted too, a hybrid search for such a word or anything else finds nothing by keywords, although other records may match. -/
theorem C133_ghost_violated (tok : String → List T) (ops : List (ChunkOp A)) (b c t1 t2 t3 : String) (a1 a2 a3 : A) (hb : chunksTab ops b = none) (hc : chunksTab ops c = none)
    (order : List Nat → List Nat) (w : T) (hw : w ∈ tok t1) (hw3 : w ∉ tok t3) (q : Query T) (topK : Int) :
    fetched order (chunks tok (ops ++ [.upsert b t1 a1, .upsert b t2 a2, drop b, .upsert c t3 a3, drop c])) (.or (.term w) q) topK = [] := by
  obtain ⟨g1, g2⟩ := ghost tok (chunks tok ops) b t1 t2 a1 a2 (rows_absent tok ops b hb)
  set s := chunks tok (ops ++ [.upsert b t1 a1, .upsert b t2 a2, drop b, .upsert c t3 a3, drop c]) with hsdef
  have hs : s = delete tok (replace tok ([ChunkOp.upsert b t1 a1, .upsert b t2 a2, drop b].foldl (chunkStep tok) (chunks tok ops)) c t3 a3) fun x _ _ => x == c := by
    simp only [hsdef, chunks, List.foldl_append, List.foldl_cons, List.foldl_nil]
    rfl
  generalize [ChunkOp.upsert b t1 a1, .upsert b t2 a2, drop b].foldl (chunkStep tok) (chunks tok ops) = u at hs g1 g2
  have hrows : (replace tok u c t3 a3).rows = (chunks tok ops).rows ++ [⟨nextRow (chunks tok ops).rows, c, t3, a3⟩] := by
    simp only [replace, index]
    rw [g1, filter_other _ _ (rows_absent tok ops c hc)]
  have hgone : (replace tok u c t3 a3).rows.filter (fun r => r.id == c) = [⟨nextRow (chunks tok ops).rows, c, t3, a3⟩] := by
    rw [hrows, List.filter_append]
    have : (chunks tok ops).rows.filter (fun r => r.id == c) = [] :=
      List.filter_eq_nil_iff.2 fun r hr => by simp [rows_absent tok ops c hc r hr]
    rw [this]; simp
  have hpost : (nextRow (chunks tok ops).rows, w) ∈ s.postings := by
    rw [hs, delete, removeAll_postings]
    refine ⟨?_, ?_⟩
    · show _ ∈ (replace tok u c t3 a3).postings
      unfold replace
      rw [index_postings]
      exact Or.inl (g2 w hw)
    · intro r hr
      simp only [hgone, List.mem_singleton] at hr
      rw [hr]
      rintro ⟨-, h⟩
      exact hw3 h
  have hsize : nextRow (chunks tok ops).rows ∉ s.sizes := by
    rw [hs, delete, removeAll_sizes]
    rintro ⟨-, h⟩
    exact h ⟨nextRow (chunks tok ops).rows, c, t3, a3⟩ (by simp only [hgone]; simp) rfl
  have hm : nextRow (chunks tok ops).rows ∈ matching s (.or (.term w) q) := by
    unfold matching
    rw [List.mem_filter, List.mem_dedup]
    refine ⟨List.mem_map.2 ⟨_, hpost, rfl⟩, ?_⟩
    simp only [hits, Query.eval, Bool.or_eq_true, decide_eq_true_eq]
    exact Or.inl hpost
  have hr : ranked order s (.or (.term w) q) topK = [] := by
    unfold ranked
    simp only
    rw [if_neg]
    intro hall
    exact hsize (of_decide_eq_true (List.all_eq_true.1 hall _ hm))
  unfold fetched
  rw [hr]
  simp

example : chunksTab [up "a" "alpha"] "b" = none ∧ chunksTab [up "a" "alpha"] "c" = none ∧ "beta" ∈ words "beta" ∧ "beta" ∉ words "delta" := by decide +kernel

end Verif.Fts
