import Verif.Thm.Search

/-! C11, C12 and C78: which stores and requests show the violations. -/
namespace Verif.Thm.Search
open Verif.Model.Store Verif.Model.Search Verif.Base Verif.Spec Verif.Thm.StoreProps

variable {W HI VI : Type}

/-- C11 is violated for every store: as soon as the caller has a principal, every record without a list of readers is in the answer, whatever collection was asked for. -/
theorem C11_any_collection_violated (c : Cfg W) (hsort : SortsDesc c.sort) (s : St W HI VI) (hs : s.closed = false) (query : List W) (ps : List String) (hps : ps ≠ []) (o : Opts)
    (hk : o.topK ≤ 0 ∨ (s.db.embeddings.length : Int) ≤ o.topK) (r : Row W) (hr : r ∈ s.db.embeddings) (hacl : r.acl = none) :
    ∃ out x, searchWithACL c s query ps o = .ok out ∧ x ∈ out ∧ shows x r ∧ x.score = c.sim query r.vector := by
  refine ⟨_, { scan s.db r with score := c.sim query r.vector }, by unfold searchWithACL; rw [hs]; rfl, ?_, ⟨rfl, rfl, rfl, rfl, rfl⟩, rfl⟩
  have hpos : 0 < ps.length := List.length_pos_iff.2 hps
  have hm : r ∈ s.db.embeddings.filter (aclMatch s.db ps o.collection) := by
    rw [List.mem_filter]
    refine ⟨hr, ?_⟩
    unfold aclMatch
    simp [hacl, hpos]
  have hin : ({ scan s.db r with score := c.sim query r.vector } : Hit W) ∈
      c.sort (((s.db.embeddings.filter (aclMatch s.db ps o.collection)).map (scan s.db)).map (fun h => { h with score := c.sim query h.vector })) := by
    rw [(hsort _).1.mem_iff]
    exact List.mem_map.2 ⟨scan s.db r, List.mem_map_of_mem hm, rfl⟩
  have hlen : (c.sort (((s.db.embeddings.filter (aclMatch s.db ps o.collection)).map (scan s.db)).map (fun h => { h with score := c.sim query h.vector }))).length ≤ s.db.embeddings.length := by
    rw [(hsort _).1.length_eq]
    simp only [List.length_map]
    exact List.length_filter_le _ _
  unfold scoreAndSort
  simp only
  rw [if_neg (by omega)]
  exact hin

/-- C12 is violated for every store: a record the keyword index proposes is in the answer, whatever collection and filter were asked for. -/
theorem C12_any_scope_violated (c : Cfg W) (hsort : SortsDesc c.sort) (via : Serve W) (s : St W HI VI) (hs : s.closed = false) (wf : Verif.Thm.Store.WF s.db) (fts : List String)
    (o : Opts) (rrfK : ℚ) (r : Row W) (hr : r ∈ s.db.embeddings) (hf : r.id ∈ fts) (hk : o.topK ≤ 0) :
    ∃ out x, hybridSearch c via s [] fts o rrfK = .ok out ∧ x ∈ out ∧ x.id = r.id := by
  have hok : ∃ out, hybridSearch c via s [] fts o rrfK = .ok out := by
    unfold hybridSearch; rw [hs]; exact ⟨_, rfl⟩
  obtain ⟨out, ho⟩ := hok
  obtain ⟨vs, fused, _, _, _, h3, _, h5⟩ := C12_fusion_partial c hsort via s wf [] fts o rrfK out ho
  obtain ⟨x, hx, hid⟩ := List.mem_map.1 ((h3 r.id).2 (Or.inr ⟨hf, r, hr, rfl⟩))
  exact ⟨out, x, ho, (h5 hk).perm.mem_iff.2 hx, hid⟩

/-- What is beaten by `k` members of the pool is not among the `k` best. -/
theorem IsTopK.not_mem {α : Type} {score : α → ℚ} {pool : List α} {k : Nat} {out : List α} (h : IsTopK score pool k out) (p : α → Bool) (x : α) (hp : p x = false)
    (hb : ∀ y ∈ pool, p y = true → score x < score y) (hc : k ≤ pool.countP p) : x ∉ out := by
  intro hx
  obtain ⟨rest, hperm, hbest⟩ := h.best
  have hr : rest.countP p = 0 := by
    rw [List.countP_eq_zero]
    intro y hy hpy
    have h1 := hb y (hperm.mem_iff.1 (by simp [hy])) hpy
    have h2 := hbest y hy x hx
    linarith
  have h1 := hperm.countP_eq p
  rw [List.countP_append, hr] at h1
  have h2 : out.countP p < out.length := by
    rcases Nat.lt_or_ge (out.countP p) out.length with h2 | h2
    · exact h2
    · have := (List.countP_eq_length.1 (le_antisymm List.countP_le_length h2)) x hx
      rw [hp] at this; cases this
  have h3 := h.size
  omega

open Classical in
/-- C78 is violated for every store: when K records of the scope that do not match the filter score higher than every record that does, a search for the K best that match finds nothing, however many match. -/
theorem C78_crowded_violated (c : Cfg W) (hsort : SortsDesc c.sort) (s : St W HI VI) (wf : Verif.Thm.Store.WF s.db) (query q : List W) (o : Opts) (hq : prepareQuery c s query = .ok q) (ht : o.threshold ≤ 0)
    (filters : Meta) (hf : filters ≠ [])
    (hbeat : asked o ≤ s.db.embeddings.countP (fun r => decide (InScope s.db o r ∧ ¬MetaMatch r.metadata filters ∧
      ∀ r' ∈ s.db.embeddings, MetaMatch r'.metadata filters → combine c o q (scan s.db r') < combine c o q (scan s.db r)))) :
    searchWithFilter c .linear s query o filters = .ok [] := by
  have hok : ∃ all, search c .linear s query o = .ok all := by
    unfold search; rw [hq]; exact ⟨_, rfl⟩
  obtain ⟨all, hall⟩ := hok
  have hfil : ∃ out, searchWithFilter c .linear s query o filters = .ok out := by
    unfold searchWithFilter; rw [hall]; exact ⟨_, rfl⟩
  obtain ⟨out, hout⟩ := hfil
  obtain ⟨all', h1, _, h3⟩ := C78_post_filter_partial c .linear s query o filters out hout
  rw [hall] at h1
  injection h1 with h1
  subst h1
  obtain ⟨q', hq', htop⟩ := C09_linear_topK c hsort s wf query o all hall
  rw [hq] at hq'
  injection hq' with hq'
  subst hq'
  rw [hout]
  congr 1
  rw [List.eq_nil_iff_forall_not_mem]
  intro x hx
  obtain ⟨hx1, hx2⟩ := (h3 hf x).1 hx
  have hxr : ∃ r ∈ s.db.embeddings, x = hitOf c s.db o q r := by
    obtain ⟨rest, hperm, _⟩ := htop.best
    obtain ⟨r, hr, he⟩ := List.mem_map.1 (hperm.mem_iff.1 (List.mem_append_left rest hx1))
    exact ⟨r, (List.mem_filter.1 hr).1, he.symm⟩
  obtain ⟨r0, hr0, rfl⟩ := hxr
  have hx2' : MetaMatch r0.metadata filters := hx2
  refine IsTopK.not_mem htop (fun y => decide (¬MetaMatch y.metadata filters ∧ ∀ r' ∈ s.db.embeddings, MetaMatch r'.metadata filters → combine c o q (scan s.db r') < y.score)) _ ?_ ?_ ?_ hx1
  · simp only [decide_eq_false_iff_not, not_and]
    intro h; exact absurd hx2 h
  · intro y _ hy
    have hy := of_decide_eq_true hy
    exact hy.2 r0 hr0 hx2'
  · refine hbeat.trans ?_
    rw [List.countP_map, List.countP_filter]
    apply List.countP_mono_left
    intro r _ hr
    obtain ⟨a, b, d⟩ := of_decide_eq_true hr
    simp only [Function.comp, Bool.and_eq_true, decide_eq_true_eq]
    exact ⟨⟨b, d⟩, a, fun h => absurd h (by linarith)⟩

open Classical in
/-- The store of `C78_violated` is such a store: two records match, "e" does not and scores higher. -/
example : prepareQuery cfg0 store1 [1, 1] = .ok [1, 1] ∧ asked { topK := 1 } ≤ store1.db.embeddings.countP (fun r => decide (InScope store1.db { topK := 1 } r ∧ ¬MetaMatch r.metadata [("t", "x")] ∧
    ∀ r' ∈ store1.db.embeddings, MetaMatch r'.metadata [("t", "x")] → combine cfg0 { topK := 1 } [1, 1] (scan store1.db r') < combine cfg0 { topK := 1 } [1, 1] (scan store1.db r))) := by
  refine ⟨rfl, List.countP_pos_iff.2 ⟨{ id := "e", cid := 1, vector := [5, 6], content := "", docID := none, metadata := none, acl := none }, by decide, decide_eq_true ⟨⟨?_, ?_⟩, ?_, ?_⟩⟩⟩
  · intro h; exact absurd rfl h
  · intro kv hkv; cases hkv
  · rintro ⟨m, hm, -⟩; cases hm
  · intro r' hr' hm
    have h3 : ∀ r' ∈ store1.db.embeddings, r'.metadata = none ∨ combine cfg0 { topK := 1 } [1, 1] (scan store1.db r') < 5 := by decide +kernel
    rcases h3 r' hr' with h | h
    · obtain ⟨m, hm, -⟩ := hm
      rw [h] at hm; cases hm
    · exact h

example : (∃ r ∈ store1.db.embeddings, r.acl = none ∧ r.id = "e") ∧ store1.closed = false := by decide

end Verif.Thm.Search
