import Verif.Thm.Search

/-! C212: what a search ranks after any history of calls is what was last written. -/
namespace Verif.Thm.SearchHistory
open Verif.Model.Store Verif.Model.Search Verif.Base Verif.Spec Verif.Thm.StoreProps Verif.Thm.Search Verif.Thm.Store

variable {W HI VI : Type}

theorem open_of_prepared {c : Cfg W} {s : St W HI VI} {query q : List W} (h : prepareQuery c s query = .ok q) : s.closed = false := by
  unfold prepareQuery at h
  split at h
  · cases h
  · rename_i hc; simpa using hc

theorem get_of_row (s : St W HI VI) (wf : WF s.db) (hopen : s.closed = false) (r : Row W) (hr : r ∈ s.db.embeddings) :
    getByID s r.id = .ok (toRec s.db r) := by
  have hf : s.db.embeddings.find? (fun x => x.id = r.id) = some r := by
    cases hf : s.db.embeddings.find? (fun x => decide (x.id = r.id)) with
    | none => exact absurd (List.find?_eq_none.1 hf r hr) (by simp)
    | some x =>
      have h1 := List.mem_of_find?_eq_some hf
      have h2 : x.id = r.id := by simpa using List.find?_some hf
      rw [nodup_inj (fun r : Row W => r.id) wf.embIds h1 hr h2]
  unfold getByID
  rw [hopen]
  simp [hf]

theorem row_of_get (s : St W HI VI) (id : String) (r : Rec W) (h : getByID s id = .ok r) :
    ∃ row ∈ s.db.embeddings, row.id = id ∧ toRec s.db row = r := by
  unfold getByID at h
  split at h
  · cases h
  · split at h
    · cases h
    · rename_i row hf
      injection h with h
      exact ⟨row, List.mem_of_find?_eq_some hf, by simpa using List.find?_some hf, h⟩

/-- C212: whatever calls were made before, with whatever faults, and whichever index serves the query and whatever it proposes: each result
is a record that was written by a successful call, shows the vector, content, document and metadata of that call, and no later call wrote
that id. Its score is the one of that vector and content. -/
theorem C212_last_written (env : Env W HI VI) (dim : Nat) (hi : Option HI) (vi : Option VI) (ops : List (Op W HI VI))
    (c : Cfg W) (hsort : SortsDesc c.sort) (via : Serve W) (query : List W) (o : Opts) (out : List (Hit W))
    (h : search c via (run env (init dim hi vi) ops) query o = .ok out) (x : Hit W) (hx : x ∈ out) :
    ∃ q, prepareQuery c (run env (init dim hi vi) ops) query = .ok q ∧
    ∃ p : Payload W, (x.vector = p.vector ∧ x.content = p.content ∧ x.docID = p.docID ∧ x.metadata = p.metadata ∧
        (c.textSim = none → x.score = c.sim q p.vector)) ∧
      ∃ pre op post, ops = pre ++ op :: post ∧ Writes env (run env (init dim hi vi) pre) op x.id p ∧
        ∀ mid op' post', post = mid ++ op' :: post' → ¬ ∃ p', Writes env (run env (init dim hi vi) (pre ++ op :: mid)) op' x.id p' := by
  obtain ⟨q, hq, rfl⟩ := prepared h
  have wf := run_wf env _ (init_wf dim hi vi) ops
  obtain ⟨r, hr, rfl, _⟩ := serve_mem c hsort via _ wf q o x hx
  refine ⟨q, hq, recPayload (toRec (run env (init dim hi vi) ops).db r), ⟨rfl, rfl, rfl, rfl, fun ht => ?_⟩, ?_⟩
  · simp [hitOf, combine, ht, scan, recPayload, toRec]
  · exact C03_last_write env dim hi vi ops r.id _ (get_of_row _ wf (open_of_prepared hq) r hr)

/-- Rows picked from the table and sorted show each id once. -/
theorem once_of_rows (c : Cfg W) (hsort : SortsDesc c.sort) (db : DB W) (wf : WF db) (o : Opts) (q : List W) (f : Row W → Bool)
    (g : Hit W → Bool) (k : Nat) :
    (((c.sort (((db.embeddings.filter f).map (hitOf c db o q)).filter g)).take k).map (fun x => x.id)).Nodup := by
  refine List.Nodup.sublist (List.Sublist.map _ (List.take_sublist _ _)) ?_
  rw [(((hsort _).1).map _).nodup_iff]
  refine List.Nodup.sublist (List.Sublist.map _ List.filter_sublist) ?_
  rw [List.map_map]
  exact List.Nodup.sublist (List.Sublist.map _ List.filter_sublist) wf.embIds

/-- C212: no id occurs twice among the results, whichever index serves the query and even if it proposes an id several times. -/
theorem C212_once (env : Env W HI VI) (dim : Nat) (hi : Option HI) (vi : Option VI) (ops : List (Op W HI VI))
    (c : Cfg W) (hsort : SortsDesc c.sort) (via : Serve W) (query : List W) (o : Opts) (out : List (Hit W))
    (h : search c via (run env (init dim hi vi) ops) query o = .ok out) : (out.map (fun x => x.id)).Nodup := by
  have wf := run_wf env _ (init_wf dim hi vi) ops
  obtain ⟨q, _, rfl⟩ := prepared h
  have hlin : ∀ o : Opts, ((searchLinear c (run env (init dim hi vi) ops).db q o).map (fun x => x.id)).Nodup := by
    intro o
    rw [searchLinear_eq]
    exact once_of_rows c hsort _ wf o q _ _ _
  have hidx : ∀ (ids : List String) (o : Opts), 0 < o.topK →
      ((processCandidates c q (fetchByIDs (run env (init dim hi vi) ops).db ids) o).map (fun x => x.id)).Nodup := by
    intro ids o hk
    rw [processCandidates_eq _ _ _ _ _ hk]
    exact once_of_rows c hsort _ wf o q _ _ _
  cases via with
  | linear => exact hlin o
  | hnsw propose =>
    simp only [serve, searchWithHNSW]
    split
    · exact hlin _
    · exact hidx _ _ (defaultK_pos _)
  | ivf propose =>
    simp only [serve, searchWithIVF]
    split
    · exact hlin _
    · split
      · exact hlin _
      · exact hidx _ _ (defaultK_pos _)

open Classical in
/-- C212: a record that was written by a successful call, and neither written again nor asked to be removed by a later call, is in the
answer of a plain search without an index, with the score of the vector and content of that call, unless as many results as were asked for
are at least as good. -/
theorem C212_found (env : Env W HI VI) (dim : Nat) (hi : Option HI) (vi : Option VI) (pre post : List (Op W HI VI)) (op : Op W HI VI)
    (id : String) (p : Payload W) (hw : Writes env (run env (init dim hi vi) pre) op id p)
    (hlater : ∀ mid op' post', post = mid ++ op' :: post' →
      (¬ ∃ p', Writes env (run env (init dim hi vi) (pre ++ op :: mid)) op' id p') ∧
      ∀ r, lookup (run env (init dim hi vi) (pre ++ op :: mid)) id = some r → ¬ AsksRemoval op' id r)
    (c : Cfg W) (hsort : SortsDesc c.sort) (hno : c.textSim = none) (query : List W) (o : Opts) (hcoll : o.collection = "")
    (hfil : o.filter = []) (hthr : o.threshold ≤ 0) (out : List (Hit W))
    (h : search c .linear (run env (init dim hi vi) (pre ++ op :: post)) query o = .ok out) :
    ∃ q, prepareQuery c (run env (init dim hi vi) (pre ++ op :: post)) query = .ok q ∧
      ((∃ x ∈ out, x.id = id ∧ x.vector = p.vector ∧ x.content = p.content ∧ x.docID = p.docID ∧ x.metadata = p.metadata ∧
          x.score = c.sim q p.vector) ∨
        (out.length = asked o ∧ ∀ x ∈ out, c.sim q p.vector ≤ x.score)) := by
  have wf := run_wf env _ (init_wf dim hi vi) (pre ++ op :: post)
  obtain ⟨q, hq, hbest⟩ := C09_linear_topK c hsort _ wf query o out h
  refine ⟨q, hq, ?_⟩
  obtain ⟨r, hget, hp⟩ := C03_kept env dim hi vi pre post op id p hw hlater (open_of_prepared hq)
  obtain ⟨row, hrow, rfl, rfl⟩ := row_of_get _ _ _ hget
  subst hp
  set s := run env (init dim hi vi) (pre ++ op :: post) with hs
  have hin : hitOf c s.db o q row ∈ (s.db.embeddings.filter (fun r => InScope s.db o r ∧
      (0 < o.threshold → o.threshold ≤ combine c o q (scan s.db r)))).map (hitOf c s.db o q) := by
    refine List.mem_map.2 ⟨row, List.mem_filter.2 ⟨hrow, ?_⟩, rfl⟩
    refine decide_eq_true ⟨⟨fun hc => absurd hcoll hc, fun kv hkv => ?_⟩, fun h => absurd h (not_lt.2 hthr)⟩
    rw [hfil] at hkv
    cases hkv
  have hscore : (hitOf c s.db o q row).score = c.sim q row.vector := by simp [hitOf, combine, hno, scan]
  obtain ⟨rest, hperm, hrest⟩ := hbest.best
  rcases List.mem_append.1 (hperm.mem_iff.2 hin) with hm | hm
  · exact Or.inl ⟨_, hm, rfl, rfl, rfl, rfl, rfl, hscore⟩
  · right
    refine ⟨?_, fun x hx => hscore ▸ hrest _ hm x hx⟩
    have hlen := hperm.length_eq
    have h1 := hbest.size
    have h2 : 0 < rest.length := List.length_pos_of_mem hm
    rw [List.length_append] at hlen
    omega

/-! ### The hypotheses can be met -/

/-- A record is written twice, another one is written and deleted; the search shows the second version of the first. -/
example : search cfg0 .linear (run env0 store0 [.upsert true false embA, .upsert true false embB,
      .upsert true false { embA with vector := some [7, 8] }, .delete false "b"]) [1, 1] { topK := 2 } =
    .ok [{ id := "a", collection := "default", vector := [7, 8], content := "x", docID := "", metadata := none, score := 7 }] := by
  decide +kernel

/-- A write that nothing later undoes. -/
example :
    Writes env0 store0 (.upsert true false embA) "a" (written embA [1, 2]) ∧
    (∀ mid op' post', [Op.upsert true false embB] = mid ++ op' :: post' →
      (¬ ∃ p', Writes env0 (run env0 store0 ([] ++ Op.upsert true false embA :: mid)) op' "a" p') ∧
      ∀ r, lookup (run env0 store0 ([] ++ Op.upsert true false embA :: mid)) "a" = some r → ¬ AsksRemoval op' "a" r) ∧
    ∃ out, search cfg0 .linear (run env0 store0 ([] ++ Op.upsert true false embA :: [.upsert true false embB])) [1, 1] {} = .ok out := by
  refine ⟨⟨by decide, rfl, [1, 2], rfl, ?_⟩, ?_, ⟨_, rfl⟩⟩
  · rw [if_pos (Or.inr (by decide))]; rfl
  · intro mid op' post' he
    have hop : op' = Op.upsert true false embB := by
      cases mid with
      | nil => injection he with h1 _; exact h1.symm
      | cons a m => exfalso; have := congrArg List.length he; simp at this
    subst hop
    refine ⟨?_, fun r _ h => h⟩
    rintro ⟨p', _, h, _⟩
    exact absurd h (by decide)

end Verif.Thm.SearchHistory
