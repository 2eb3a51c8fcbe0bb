import Verif.Model.StreamStore
import Verif.Thm.Stream
import Verif.Thm.Range

/-!
C222: the options of a request in streaming searches and in searches through the incremental index.
-/
namespace Verif.StreamStore
open Verif.Model.Store Verif.Model.Search Verif.Base Verif.Thm.Search
open Verif.Stream (Res Send)

variable {W HI VI : Type}

/-- Record `r` as a stream shows it to the caller: its fields and the similarity of its vector to the query. -/
def seen (c : Cfg W) (db : DB W) (query : List W) (r : Row W) : Hit W := { scan db r with score := c.sim query r.vector }

open Classical in
/-- The records inside the collection and the filter of the request. -/
noncomputable def asking (db : DB W) (o : Opts) : List (Row W) := db.embeddings.filter fun r => InScope db o r

theorem cands_eq (c : Cfg W) (db : DB W) (wf : Verif.Thm.Store.WF db) (o : Opts) (query : List W) :
    ((fetchCandidates db o).map fun h => (h, c.sim query h.vector)) = (asking db o).map fun r => (scan db r, c.sim query r.vector) := by
  rw [Verif.Range.fetch_mem db wf, List.map_map]
  rfl

theorem shown_eq (l : List (Res (Hit W) ℚ)) : l.map shown = (l.map Stream.pair).map fun p => { p.1 with score := p.2 } := by
  rw [List.map_map]
  rfl

/-- C222: whatever the consumer and the scheduler do, a stream shows only records of the contents it reads that are inside the collection and the filter of the request,
each at most once, with the similarity of its vector to the query. -/
theorem C222_scope [DecidableEq W] (c : Cfg W) (E : Stream.Env (Hit W) ℚ) (hE : E.Sound) (query : List W) (o : SOpts) (l : Later W)
    (wf : Verif.Thm.Store.WF l.db) (out : List (Res (Hit W) ℚ)) (h : streamSearch c E false query o l = .ok out) :
    ∃ rest, (out.map shown ++ rest).Perm ((asking l.db o.base).map (seen c l.db query)) := by
  simp only [streamSearch, Bool.false_eq_true, if_false, Except.ok.injEq] at h
  subst h
  unfold deliver
  split_ifs
  · obtain ⟨rest, hr⟩ := Stream.C116_only_candidates E hE o.run ((fetchCandidates l.db o.base).map fun h => (h, c.sim query h.vector)) l.sends
    refine ⟨rest.map fun p => { p.1 with score := p.2 }, ?_⟩
    rw [shown_eq, ← List.map_append]
    refine (hr.map _).trans ?_
    rw [cands_eq c l.db wf, List.map_map]
    exact List.Perm.refl _
  · exact ⟨(asking l.db o.base).map (seen c l.db query), by simp⟩

/-- C222 (partial): to a consumer that keeps up, and without early termination, a stream whose read succeeds shows exactly the records inside the collection and the filter,
whatever the batch size. Missing: slow consumers and early termination (C116), and the rest of the options, see below. -/
theorem C222_all_partial [DecidableEq W] (c : Cfg W) (E : Stream.Env (Hit W) ℚ) (hE : E.Sound) (query : List W) (o : SOpts) (ho : o.early = false) (db : DB W)
    (wf : Verif.Thm.Store.WF db) :
    ∃ out, streamSearch c E false query o { db } = .ok out ∧ (out.map shown).Perm ((asking db o.base).map (seen c db query)) := by
  refine ⟨_, rfl, ?_⟩
  have hb : 0 < o.run.batch := by
    simp only [SOpts.run]
    split_ifs <;> omega
  have h := (Stream.C116_delivers_all_partial E hE o.run ho hb ((fetchCandidates db o.base).map fun h => (h, c.sim query h.vector))).1
  simp only [deliver, if_true]
  rw [shown_eq]
  refine (h.map _).trans ?_
  rw [cands_eq c db wf, List.map_map]
  exact List.Perm.refl _

/-- C222 is violated: the limit and the threshold of the request are ignored. To a consumer that keeps up, every record inside the collection and the filter is shown, also
the ones scoring below the threshold, and their number does not depend on the limit. -/
theorem C222_bounds_violated [DecidableEq W] (c : Cfg W) (E : Stream.Env (Hit W) ℚ) (hE : E.Sound) (query : List W) (o : SOpts) (ho : o.early = false) (db : DB W)
    (wf : Verif.Thm.Store.WF db) (topK : Int) (threshold : ℚ) :
    ∃ out, streamSearch c E false query { o with base := { o.base with topK, threshold } } { db } = .ok out ∧ out.length = (asking db o.base).length ∧
      ∀ r ∈ asking db o.base, seen c db query r ∈ out.map shown := by
  obtain ⟨out, h1, h2⟩ := C222_all_partial c E hE query { o with base := { o.base with topK, threshold } } ho db wf
  have e : asking db { o.base with topK, threshold } = asking db o.base := rfl
  rw [e] at h2
  refine ⟨out, h1, by simpa using h2.length_eq, ?_⟩
  intro r hr
  exact h2.mem_iff.2 (List.mem_map_of_mem hr)

/-- C222 is violated: the query is not checked. A query that `Search` refuses is answered with every record inside the collection and the filter. -/
theorem C222_query_violated [DecidableEq W] (c : Cfg W) (E : Stream.Env (Hit W) ℚ) (hE : E.Sound) (via : Serve W) (s : St W HI VI) (hs : s.closed = false) (query : List W)
    (o : SOpts) (ho : o.early = false) (wf : Verif.Thm.Store.WF s.db) (e : Err) (_refused : search c via s query o.base = .error e) :
    ∃ out, streamSearch c E s.closed query o { db := s.db } = .ok out ∧ (out.map shown).Perm ((asking s.db o.base).map (seen c s.db query)) := by
  rw [hs]
  exact C222_all_partial c E hE query o ho s.db wf

/-- C222 is violated: when reading fails the stream is the one of an empty store: the caller gets no results and no error. -/
theorem C222_failed_violated [DecidableEq W] (c : Cfg W) (E : Stream.Env (Hit W) ℚ) (query : List W) (o : SOpts) (db : DB W) (w : List Send) :
    streamSearch c E false query o { db, reads := false, sends := w } = .ok [] ∧
      streamSearch c E false query o { db := { db with embeddings := [] }, sends := w } = .ok [] := by
  refine ⟨rfl, ?_⟩
  simp [streamSearch, deliver, fetchCandidates, Stream.streamSearch, Stream.streamLoop]

/-- C222: streaming several queries gives one stream for each, in their order, the same as streaming that query alone; it fails exactly when the store is closed when one of
the streams is started. -/
theorem C222_parallel [DecidableEq W] (c : Cfg W) (E : Stream.Env (Hit W) ℚ) (o : SOpts) (qs : List (List W × Bool × Later W)) :
    (∀ chs, parallel c E o qs = .ok chs ↔ List.Forall₂ (fun q ch => streamSearch c E q.2.1 q.1 o q.2.2 = .ok ch) qs chs) ∧
      ((∃ e, parallel c E o qs = .error e) ↔ ∃ q ∈ qs, q.2.1 = true) := by
  induction qs with
  | nil =>
    refine ⟨fun chs => ?_, by simp [parallel]⟩
    rw [List.forall₂_nil_left_iff]
    simp [parallel, eq_comm]
  | cons q qs ih =>
    obtain ⟨q, closed, l⟩ := q
    cases closed with
    | true =>
      refine ⟨fun chs => ?_, ?_⟩
      · constructor
        · intro h; simp [parallel, streamSearch] at h
        · intro h
          cases h with
          | cons h _ => simp [streamSearch] at h
      · simp [parallel, streamSearch]
    | false =>
      have e : streamSearch c E false q o l = .ok (deliver c E q o l) := rfl
      cases hp : parallel c E o qs with
      | error x =>
        rw [hp] at ih
        refine ⟨fun chs => ?_, ?_⟩
        · constructor
          · intro h; simp [parallel, e, hp] at h
          · intro h
            cases h with
            | cons _ h => exact absurd ((ih.1 _).2 h) (by simp)
        · have := ih.2.1 ⟨x, rfl⟩
          constructor
          · intro _
            obtain ⟨q', h1, h2⟩ := this
            exact ⟨q', List.mem_cons_of_mem _ h1, h2⟩
          · intro _
            exact ⟨x, by simp [parallel, e, hp]⟩
      | ok chs' =>
        rw [hp] at ih
        refine ⟨fun chs => ?_, ?_⟩
        · simp only [parallel, e, hp, Except.ok.injEq]
          constructor
          · rintro rfl
            exact .cons rfl ((ih.1 _).1 rfl)
          · intro h
            cases h with
            | cons h1 h2 =>
              rw [e] at h1
              have := (ih.1 _).2 h2
              simp only [Except.ok.injEq] at h1 this
              rw [h1, this]
        · constructor
          · rintro ⟨x, h⟩
            simp [parallel, e, hp] at h
          · rintro ⟨q', h1, h2⟩
            rcases List.mem_cons.1 h1 with rfl | h1
            · exact absurd h2 (by simp)
            · obtain ⟨x, hx⟩ := ih.2.2 ⟨q', h1, h2⟩
              exact absurd hx (by simp)

theorem merge_all (E : Stream.Env (Hit W) ℚ) (hE : E.Sound) (us : List (Res (Hit W) ℚ)) : ∀ rs, ∃ out, Stream.mergePending E 0 rs us = some out ∧ out.Perm (rs ++ us) := by
  induction us with
  | nil => intro rs; exact ⟨rs, rfl, by simp⟩
  | cons u us ih =>
    intro rs
    rw [Stream.mergePending, if_pos (Or.inl rfl)]
    simp only [show ¬((0 : Int) < 0 ∧ (0 : Int) < (E.sort (rs ++ [u])).length) from by omega, if_false]
    obtain ⟨out, h1, h2⟩ := ih (E.sort (rs ++ [u]))
    refine ⟨out, h1, h2.trans ?_⟩
    have := (hE (rs ++ [u])).1
    have := this.append_right us
    rw [List.append_assoc] at this
    exact this

/-- A pending update as the caller sees it. -/
def waiting (c : Cfg W) (query : List W) (e : Emb W) : Hit W := shown (pendingHit c query e)

/-- C222 is violated: a search through the incremental index that leaves the limit to its default answers with what the store finds and every pending update it looked at,
whatever their collections, metadata and scores and whatever collection, filter and threshold were asked for; so it can answer with more than ten. -/
theorem C222_pending_violated (c : Cfg W) (E : Stream.Env (Hit W) ℚ) (hE : E.Sound) (via : Serve W) (s : St W HI VI) (query : List W) (o : Opts) (ho : o.topK = 0)
    (pend : List (Emb W)) (results : List (Hit W)) (h : search c via s query o = .ok results) :
    ∃ out, searchWithUpdates c E via s query o pend = .ok (some out) ∧ out.Perm (results ++ pend.map (waiting c query)) := by
  obtain ⟨out, h1, h2⟩ := merge_all E hE (pend.map (pendingHit c query)) (results.map fun h => ⟨h, h.score, 0⟩)
  refine ⟨out.map shown, ?_, ?_⟩
  · simp only [searchWithUpdates, h, ho, h1, Option.map_some]
  · refine (h2.map shown).trans ?_
    rw [List.map_append, List.map_map, List.map_map]
    have e : (shown ∘ fun h : Hit W => (⟨h, h.score, 0⟩ : Res (Hit W) ℚ)) = id := rfl
    rw [e, List.map_id]
    exact List.Perm.refl _

/-- C222 is violated: when the store finds nothing, a negative limit, which `Search` takes for the default, makes the search through the incremental index panic as soon as
there is a pending update. -/
theorem C222_panics_violated (c : Cfg W) (E : Stream.Env (Hit W) ℚ) (via : Serve W) (s : St W HI VI) (query : List W) (o : Opts) (ho : o.topK < 0)
    (e : Emb W) (pend : List (Emb W)) (h : search c via s query o = .ok []) : searchWithUpdates c E via s query o (e :: pend) = .ok none := by
  simp only [searchWithUpdates, h, List.map_nil, List.map_cons]
  rw [Stream.mergePending, if_neg (by simp; omega)]
  rfl

/-! ### Non-vacuity -/

/-- Insertion sort by descending score. -/
def env1 : Stream.Env (Hit Nat) ℚ := { sort := insertSort (fun r => r.score), good := 9 / 10 }

theorem env1_sound : env1.Sound := fun l => insertSort_sorts (fun r : Res (Hit Nat) ℚ => r.score) l

/-- A stream over collection `c` of the example store, in batches of one, with a limit of one and a threshold that neither record reaches: both are shown. -/
example : ((streamSearch cfg0 env1 false [1, 1] { base := { collection := "c", topK := 1, threshold := 100 }, batchSize := 1 } { db := store1.db }).toOption.map
    (·.map fun r => ((shown r).id, (shown r).score))) = some [("a", 1), ("b", 3)] := by decide +kernel

/-- A consumer that misses the first send. -/
example : ((streamSearch cfg0 env1 false [1, 1] { base := { collection := "c" } } { db := store1.db, sends := [.late] }).toOption.map
    (·.map fun r => (shown r).id)) = some ["a"] := by decide +kernel

/-- A query of the wrong length: refused by `Search`, streamed by `StreamSearch`. -/
example : search cfg0 .linear store1 [1] {} = .error .adaptation := rfl
example : ((streamSearch cfg0 env1 store1.closed [1] {} { db := store1.db }).toOption.map (·.map fun r => (shown r).id)) = some ["e", "b", "a"] := by decide +kernel

/-- A search in collection `c` through the incremental index answers with a pending update of another collection. -/
example : ((searchWithUpdates cfg0 env1 .linear store1 [1, 1] { collection := "c", filter := [("t", "x")] } [{ id := "z", vector := some [9, 9], collection := "other" }]).toOption.map
    (·.map (·.map fun h => (h.id, h.collection)))) = some (some [("z", "other"), ("b", "c"), ("a", "c")]) := by decide +kernel

example : search cfg0 .linear store1 [1, 1] { collection := "nowhere", topK := -1 } = .ok [] := by decide +kernel

example : ∃ qs : List (List Nat × Bool × Later Nat), (∃ chs, parallel cfg0 env1 {} qs = .ok chs) ∧ qs.length = 2 :=
  ⟨[([1, 1], false, { db := store1.db }), ([2, 1], false, { db := store1.db })], ⟨_, rfl⟩, rfl⟩

end Verif.StreamStore
