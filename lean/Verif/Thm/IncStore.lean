import Verif.Model.IncStore
import Verif.Thm.StoreProps

/-!
C230: updates accepted by the incremental index reach the store.
-/
namespace Verif.IncStore

open Verif.Model.Store Verif.Thm.Store Verif.Thm.StoreProps

variable {W HI VI : Type}

/-! ### Specification -/

/-- The records of the store `b` are those of `a` after the records `es` were written in this order: under each id the last one of `es` with it, else what was
there. -/
structure Wrote (a b : St W HI VI) (es : List (Emb W)) : Prop where
  open_ : b.closed = false
  wf : WF b.db
  colls : b.db.collections = a.db.collections
  docs : b.db.documents = a.db.documents
  rows : ∀ id, (∃ pre e post v, es = pre ++ e :: post ∧ e.id = id ∧ (∀ x ∈ post, x.id ≠ id) ∧ e.vector = some v ∧
      (find b.db id).map rowPayload = some (written e v)) ∨ ((∀ e ∈ es, e.id ≠ id) ∧ find b.db id = find a.db id)

/-- A record the store accepts: it has a vector of a size that can be stored, and names an existing collection and an existing document or none. -/
def Fine (db : DB W) (e : Emb W) : Prop :=
  (∃ v, e.vector = some v ∧ v.length ≤ 2147483647) ∧
  (∃ c ∈ db.collections, (e.collectionID ≠ 0 ∧ c.id = e.collectionID) ∨ (e.collectionID = 0 ∧ e.collection ≠ "" ∧ c.name = e.collection) ∨
    (e.collectionID = 0 ∧ e.collection = "" ∧ c.id = 1)) ∧
  (e.docID ≠ "" → ∃ d ∈ db.documents, d.id = e.docID)

theorem fine_prepare {db : DB W} {e : Emb W} (h : Fine db e) : ∃ r, prepareRow db e = .ok r ∧ fkHolds db r = true := by
  obtain ⟨⟨v, hv, hl⟩, ⟨c, hc, hcase⟩, hd⟩ := h
  have henc : encodable e.vector = .ok v := by rw [hv]; simp [encodable]; omega
  have hres : ∃ cid, resolveCollection db e = .ok cid ∧ (db.collections.any fun c => decide (c.id = cid)) = true := by
    rcases hcase with ⟨h0, h1⟩ | ⟨h0, h1, h2⟩ | ⟨h0, h1, h2⟩
    · exact ⟨e.collectionID, by simp [resolveCollection, h0], List.any_eq_true.2 ⟨c, hc, by simpa using h1⟩⟩
    · cases hf : db.collections.find? (fun c => c.name = e.collection) with
      | none => rw [List.find?_eq_none] at hf; exact absurd (by simpa using h2) (hf c hc)
      | some d => exact ⟨d.id, by simp [resolveCollection, h0, h1, hf], List.any_eq_true.2 ⟨d, List.mem_of_find?_eq_some hf, by simp⟩⟩
    · exact ⟨1, by simp [resolveCollection, h0, h1], List.any_eq_true.2 ⟨c, hc, by simpa using h2⟩⟩
  obtain ⟨cid, hcid, hany⟩ := hres
  refine ⟨{ id := e.id, cid := cid, vector := v, content := e.content, docID := if e.docID ≠ "" then some e.docID else none, metadata := e.metadata
            acl := if e.acl.length > 0 then some e.acl else none }, by simp only [prepareRow, hcid, henc], ?_⟩
  simp only [fkHolds, hany, Bool.true_and]
  by_cases hdoc : e.docID = ""
  · simp [hdoc]
  · obtain ⟨d, hd1, hd2⟩ := hd hdoc
    simp only [ne_eq, hdoc, not_false_eq_true, if_true]
    exact List.any_eq_true.2 ⟨d, hd1, by simpa using hd2⟩

theorem batch_fine (fk : Bool) (a tx : DB W) (hc : tx.collections = a.collections) (hd : tx.documents = a.documents) (es : List (Emb W)) (h : ∀ e ∈ es, Fine a e) (n : Nat) :
    ∃ tx', batchLoop fk none a n tx es = .ok tx' := by
  induction es generalizing n tx with
  | nil => exact ⟨tx, by simp [batchLoop]⟩
  | cons e es ih =>
    obtain ⟨r, hr, hk⟩ := fine_prepare (h e List.mem_cons_self)
    have hk' : fkHolds tx r = true := by unfold fkHolds at *; rw [hc, hd]; exact hk
    have hi : insertRow fk tx r = .ok { tx with embeddings := tx.embeddings.filter (fun x => x.id ≠ r.id) ++ [r] } := by
      unfold insertRow; rw [if_neg (by simp [hk'])]
    simp only [batchLoop, hr, hi]
    rw [if_neg (by simp)]
    exact ih { tx with embeddings := tx.embeddings.filter (fun x => x.id ≠ r.id) ++ [r] } hc hd (fun x hx => h x (List.mem_cons_of_mem _ hx)) _

theorem wrote_refl (a : St W HI VI) (ho : a.closed = false) (wf : WF a.db) : Wrote a a [] :=
  ⟨ho, wf, rfl, rfl, fun _ => Or.inr ⟨by simp, rfl⟩⟩

theorem wrote_trans {a b c : St W HI VI} {es fs : List (Emb W)} (h1 : Wrote a b es) (h2 : Wrote b c fs) : Wrote a c (es ++ fs) := by
  refine ⟨h2.open_, h2.wf, by rw [h2.colls, h1.colls], by rw [h2.docs, h1.docs], fun id => ?_⟩
  rcases h2.rows id with ⟨pre, e, post, v, he, a1, a2, a3, a4⟩ | ⟨hno, heq⟩
  · exact Or.inl ⟨es ++ pre, e, post, v, by rw [he, List.append_assoc], a1, a2, a3, a4⟩
  · rcases h1.rows id with ⟨pre, e, post, v, he, a1, a2, a3, a4⟩ | ⟨hno1, heq1⟩
    · refine Or.inl ⟨pre, e, post ++ fs, v, by rw [he]; simp, a1, ?_, a3, by rw [heq]; exact a4⟩
      intro x hx
      rcases List.mem_append.1 hx with hx | hx
      · exact a2 x hx
      · exact hno x hx
    · refine Or.inr ⟨?_, by rw [heq, heq1]⟩
      intro x hx
      rcases List.mem_append.1 hx with hx | hx
      · exact hno1 x hx
      · exact hno x hx

theorem batch_wrote (env : Env W HI VI) (s : St W HI VI) (ho : s.closed = false) (wf : WF s.db) (fk : Bool) (es : List (Emb W)) (h : ∀ e ∈ es, Fine s.db e) :
    Wrote s (upsertBatch env s fk none es).1 es := by
  unfold upsertBatch
  rw [if_neg (by simp [ho])]
  split
  · rename_i h0
    rw [List.length_eq_zero_iff.1 h0]
    exact wrote_refl s ho wf
  · obtain ⟨tx', htx⟩ := batch_fine fk s.db s.db rfl rfl es h 0
    obtain ⟨h1, h2, h3, h4⟩ := batchLoop_spec htx
    rw [htx]
    exact ⟨ho, h1 wf, h2, h3, h4⟩

/-! ### Runs -/

theorem fine_of_wrote {a b : St W HI VI} {es : List (Emb W)} (h : Wrote a b es) {e : Emb W} (he : Fine a.db e) : Fine b.db e := by
  unfold Fine at *
  rw [h.colls, h.docs]
  exact he

theorem recv_nil (env : Env W HI VI) (x : Idx W HI VI) (hc : x.crashed = false) (hs : x.stopped = false) (hq : x.queue = []) (fk : Bool) (f : Option Nat) :
    step env x (.recv fk f) = if x.closed then (if x.batch.isEmpty then { x with stopped := true } else { flush env x fk f with stopped := true }) else x := by
  cases x
  simp only at hc hs hq
  subst hc hs hq
  rfl

theorem recv_cons (env : Env W HI VI) (x : Idx W HI VI) (hc : x.crashed = false) (hs : x.stopped = false) (u : Option (Emb W)) (q : List (Option (Emb W))) (hq : x.queue = u :: q) (fk : Bool)
    (f : Option Nat) : step env x (.recv fk f) = if cap ≤ (x.batch ++ [u]).length then flush env { x with queue := q, batch := x.batch ++ [u] } fk f
      else { x with queue := q, batch := x.batch ++ [u] } := by
  cases x
  simp only at hc hs hq
  subst hc hs hq
  rfl

theorem recv_stopped (env : Env W HI VI) (x : Idx W HI VI) (hs : x.stopped = true) (fk : Bool) (f : Option Nat) : step env x (.recv fk f) = x := by
  unfold step
  simp [hs]

/-- Steps without searches, failures and other calls, whose updates the store accepts. -/
def Quiet (db : DB W) : Step W HI VI → Prop
  | .add (some e) => Fine db e
  | .recv _ f => f = none
  | .tick _ f => f = none
  | .close => True
  | _ => False

/-- What holds along such a schedule. -/
structure Good (a : St W HI VI) (x : Idx W HI VI) (done batch queue : List (Emb W)) : Prop where
  crashed : x.crashed = false
  held : x.held = []
  acc : x.accepted = (done ++ batch ++ queue).map some
  bat : x.batch = batch.map some
  que : x.queue = queue.map some
  fine : ∀ e ∈ batch ++ queue, Fine a.db e
  wrote : Wrote a x.st done
  stop : x.stopped = true → x.closed = true ∧ batch = [] ∧ queue = []

theorem takeWhile_somes (l : List (Emb W)) : (l.map some).takeWhile Option.isSome = l.map some := by
  induction l with
  | nil => rfl
  | cons a l ih => simp [ih]

theorem flush_fine (env : Env W HI VI) (x : Idx W HI VI) (ho : x.st.closed = false) (l : List (Emb W)) (hb : x.batch = l.map some) (fk : Bool) (f : Option Nat) :
    flush env x fk f = { x with st := (upsertBatch env x.st fk f l).1, batch := [] } := by
  unfold flush
  rw [if_neg (by simp [ho]), hb, takeWhile_somes]
  simp [List.filterMap_map]

theorem good_flush (env : Env W HI VI) {a : St W HI VI} {x : Idx W HI VI} {d b q : List (Emb W)} (h : Good a x d b q) (fk : Bool) :
    Good a (flush env x fk none) (d ++ b) [] q := by
  rw [flush_fine env x h.wrote.open_ b h.bat]
  have hw := batch_wrote env x.st h.wrote.open_ h.wrote.wf fk b
    (fun e he => fine_of_wrote h.wrote (h.fine e (List.mem_append_left _ he)))
  exact ⟨h.crashed, h.held, by simpa using h.acc, rfl, h.que, fun e he => h.fine e (List.mem_append_right _ (by simpa using he)), wrote_trans h.wrote hw,
    fun hs => ⟨(h.stop hs).1, rfl, (h.stop hs).2.2⟩⟩

theorem good_recv (env : Env W HI VI) {a : St W HI VI} {x : Idx W HI VI} {d b q : List (Emb W)} (h : Good a x d b q) (fk : Bool) :
    ∃ d' b' q', Good a (step env x (.recv fk none)) d' b' q' := by
  by_cases hst : x.stopped = true
  · rw [recv_stopped env x hst]; exact ⟨d, b, q, h⟩
  · have hst' : x.stopped = false := by simpa using hst
    cases q with
    | nil =>
      have hq := h.que
      simp only [List.map_nil] at hq
      rw [recv_nil env x h.crashed hst' hq]
      split_ifs with hc hb
      · have hb0 : b = [] := by
          have := h.bat
          rw [List.isEmpty_iff.1 hb] at this
          simpa using this.symm
        exact ⟨d, b, [], h.crashed, h.held, h.acc, h.bat, h.que, h.fine, h.wrote, fun _ => ⟨hc, hb0, rfl⟩⟩
      · have g := good_flush env h fk
        have hcl : (flush env x fk none).closed = true := by rw [flush_fine env x h.wrote.open_ b h.bat]; exact hc
        exact ⟨d ++ b, [], [], g.crashed, g.held, g.acc, g.bat, g.que, g.fine, g.wrote, fun _ => ⟨hcl, rfl, rfl⟩⟩
      · exact ⟨d, b, [], h⟩
    | cons e q =>
      have hq := h.que
      simp only [List.map_cons] at hq
      rw [recv_cons env x h.crashed hst' _ _ hq]
      have h' : Good a { x with queue := q.map some, batch := x.batch ++ [some e] } d (b ++ [e]) q :=
        ⟨h.crashed, h.held, by simpa using h.acc, by simp [h.bat], rfl, by simpa using h.fine, h.wrote,
          fun hst' => absurd hst' hst⟩
      split_ifs
      · exact ⟨_, _, _, good_flush env h' fk⟩
      · exact ⟨_, _, _, h'⟩

theorem good_step (env : Env W HI VI) {a : St W HI VI} {x : Idx W HI VI} {d b q : List (Emb W)} (h : Good a x d b q) (s : Step W HI VI) (hs : Quiet a.db s) :
    ∃ d' b' q', Good a (step env x s) d' b' q' := by
  unfold step
  rw [if_neg (by simp [h.crashed])]
  cases s with
  | add e =>
    cases e with
    | none => exact hs.elim
    | some e =>
      simp only [addAsync]
      split_ifs with hc hl
      · exact ⟨d, b, q, h⟩
      · exact ⟨d, b, q, h⟩
      · refine ⟨d, b, q ++ [e], h.crashed, h.held, ?_, h.bat, ?_, ?_, h.wrote, ?_⟩
        · simp [h.acc]
        · simp [h.que]
        · intro z hz
          rw [← List.append_assoc] at hz
          rcases List.mem_append.1 hz with hz | hz
          · exact h.fine z hz
          · rw [List.mem_singleton.1 hz]; exact hs
        · intro hst
          exact absurd (h.stop hst).1 hc
  | take => exact hs.elim
  | requeue i => exact hs.elim
  | call op => exact hs.elim
  | close => exact ⟨d, b, q, h.crashed, h.held, h.acc, h.bat, h.que, h.fine, h.wrote, fun hst => ⟨rfl, (h.stop hst).2⟩⟩
  | tick fk f =>
    obtain rfl : f = none := hs
    simp only
    split_ifs
    · exact ⟨d, b, q, h⟩
    · exact ⟨d ++ b, [], q, good_flush env h fk⟩
  | recv fk f =>
    obtain rfl : f = none := hs
    have := good_recv env h fk
    unfold step at this
    rw [if_neg (by simp [h.crashed])] at this
    exact this

theorem good_run (env : Env W HI VI) {a : St W HI VI} (steps : List (Step W HI VI)) : ∀ {x : Idx W HI VI} {d b q : List (Emb W)}, Good a x d b q →
    (∀ s ∈ steps, Quiet a.db s) → ∃ d' b' q', Good a (run env x steps) d' b' q' := by
  induction steps with
  | nil => intro x d b q h _; exact ⟨d, b, q, h⟩
  | cons s steps ih =>
    intro x d b q h hq
    obtain ⟨d', b', q', h'⟩ := good_step env h s (hq s List.mem_cons_self)
    exact ih h' (fun z hz => hq z (List.mem_cons_of_mem _ hz))

theorem flush_keeps (env : Env W HI VI) (x : Idx W HI VI) (fk : Bool) (f : Option Nat) :
    (flush env x fk f).accepted = x.accepted ∧ (flush env x fk f).closed = x.closed ∧ (flush env x fk f).stopped = x.stopped ∧ (flush env x fk f).queue = x.queue := by
  unfold flush
  simp only
  split_ifs
  · exact ⟨rfl, rfl, rfl, rfl⟩
  · exact ⟨rfl, rfl, rfl, rfl⟩
  · split <;> exact ⟨rfl, rfl, rfl, rfl⟩

/-- A closed index whose worker goes on receives everything and stops. -/
theorem drains (env : Env W HI VI) {a : St W HI VI} (fk : Bool) (n : Nat) : ∀ {x : Idx W HI VI} {d b q : List (Emb W)}, Good a x d b q → x.closed = true → q.length ≤ n →
    (run env x (List.replicate (n + 1) (.recv fk none))).stopped = true ∧ (run env x (List.replicate (n + 1) (.recv fk none))).accepted = x.accepted := by
  have still : ∀ (k : Nat) (x : Idx W HI VI), x.stopped = true → run env x (List.replicate k (.recv fk none)) = x := by
    intro k
    induction k with
    | zero => intro x _; rfl
    | succ k ih =>
      intro x h
      have hs := recv_stopped env x h fk none
      show run env (step env x (.recv fk none)) (List.replicate k (.recv fk none)) = x
      rw [hs]; exact ih x h
  have last : ∀ (x : Idx W HI VI) (d b : List (Emb W)), Good a x d b [] → x.closed = true →
      (step env x (.recv fk none)).stopped = true ∧ (step env x (.recv fk none)).accepted = x.accepted := by
    intro x d b h hc
    by_cases hst : x.stopped = true
    · rw [recv_stopped env x hst]; exact ⟨hst, rfl⟩
    · rw [recv_nil env x h.crashed (by simpa using hst) (by simpa using h.que), if_pos hc]
      split_ifs
      · exact ⟨rfl, rfl⟩
      · exact ⟨rfl, (flush_keeps env x fk none).1⟩
  induction n with
  | zero =>
    intro x d b q h hc hl
    obtain rfl : q = [] := List.length_eq_zero_iff.1 (by omega)
    exact last x d b h hc
  | succ n ih =>
    intro x d b q h hc hl
    rw [List.replicate_succ]
    show (run env (step env x (.recv fk none)) (List.replicate (n + 1) (.recv fk none))).stopped = true ∧
      (run env (step env x (.recv fk none)) (List.replicate (n + 1) (.recv fk none))).accepted = x.accepted
    cases q with
    | nil =>
      have h1 := last x d b h hc
      rw [still _ _ h1.1]
      exact h1
    | cons e q =>
      have hst : x.stopped = false := by
        by_contra hs
        have := (h.stop (by simpa using hs)).2.2
        cases this
      have h' : Good a { x with queue := q.map some, batch := x.batch ++ [some e] } d (b ++ [e]) q :=
        ⟨h.crashed, h.held, by simpa using h.acc, by simp [h.bat], rfl, by simpa using h.fine, h.wrote, fun hst' => by simp [hst] at hst'⟩
      have hlen : q.length ≤ n := by simp at hl; omega
      rw [recv_cons env x h.crashed hst _ _ (by simpa using h.que)]
      split_ifs
      · have hk := flush_keeps env { x with queue := q.map some, batch := x.batch ++ [some e] } fk none
        have := ih (good_flush env h' fk) (by rw [hk.2.1]; exact hc) hlen
        rw [hk.1] at this
        exact this
      · exact ih h' hc hlen

/-- C230, proved part: on an open store, under every schedule of producers and flushes, as long as every update is one the store accepts, nothing fails, no search runs and no other call
changes the store: nothing panics; after closing, the worker finishes, and the store has under each id the last accepted update with that id, exactly as it was handed over, and under all
other ids what was there. Missing: updates the store refuses, nil updates, closed stores, other calls and searches, see below. -/
theorem C230_stored_partial (env : Env W HI VI) (st : St W HI VI) (ho : st.closed = false) (wf : WF st.db) (steps : List (Step W HI VI)) (hq : ∀ s ∈ steps, Quiet st.db s) (fk : Bool) :
    let x := run env (start st) steps
    let y := run env x (.close :: List.replicate (x.queue.length + 1) (.recv fk none))
    y.crashed = false ∧ y.stopped = true ∧ y.accepted = x.accepted ∧
      (∀ pre e post, x.accepted = pre ++ some e :: post → (∀ z ∈ post, ∀ e', z = some e' → e'.id ≠ e.id) →
        ∃ v, e.vector = some v ∧ payload y.st e.id = some (written e v)) ∧
      (∀ id, (∀ e, some e ∈ x.accepted → e.id ≠ id) → payload y.st id = payload st id) := by
  intro x y
  have h0 : Good st (start st) [] [] [] := ⟨rfl, rfl, rfl, rfl, rfl, by simp, wrote_refl st ho wf, by simp [start]⟩
  obtain ⟨d, b, q, h⟩ := good_run env steps h0 hq
  have hc : Good st (step env x .close) d b q := by
    have hs : step env x .close = { x with closed := true } := by unfold step; rw [if_neg (by simp [h.crashed, x])]
    rw [hs]
    exact ⟨h.crashed, h.held, h.acc, h.bat, h.que, h.fine, h.wrote, fun hst => ⟨rfl, (h.stop hst).2⟩⟩
  have hcl : (step env x .close).closed = true ∧ (step env x .close).accepted = x.accepted := by
    have hs : step env x .close = { x with closed := true } := by unfold step; rw [if_neg (by simp [h.crashed, x])]
    rw [hs]; exact ⟨rfl, rfl⟩
  have hlen : q.length = x.queue.length := by rw [h.que]; simp
  obtain ⟨hstop, hacc⟩ := drains env fk x.queue.length hc hcl.1 (by omega)
  have hy : y = run env (step env x .close) (List.replicate (x.queue.length + 1) (.recv fk none)) := rfl
  obtain ⟨d', b', q', g⟩ := good_run env (List.replicate (x.queue.length + 1) (.recv fk none)) hc (fun s hs => by rw [List.eq_of_mem_replicate hs]; rfl)
  rw [← hy] at g hstop hacc
  have hxa : y.accepted = x.accepted := by rw [hacc, hcl.2]
  obtain ⟨_, hb', hq'⟩ := g.stop hstop
  subst hb' hq'
  have hacc' : x.accepted = d'.map some := by rw [← hxa, g.acc]; simp
  refine ⟨g.crashed, hstop, hxa, ?_, ?_⟩
  · intro pre e post hes hpost
    rw [payload_eq]
    rw [hacc'] at hes
    obtain ⟨l1, l2, hd, hl1, hl2⟩ := List.map_eq_append_iff.1 hes
    obtain ⟨e1, l3, hl3, he1, hl4⟩ := List.map_eq_cons_iff.1 hl2
    simp only [Option.some.injEq] at he1
    subst he1 hl3
    have hlast : ∀ z ∈ l3, z.id ≠ e1.id := fun z hz => hpost (some z) (by rw [← hl4]; exact List.mem_map_of_mem hz) z rfl
    rcases g.wrote.rows e1.id with ⟨pre', e', post', v, a1, a2, a3, a4, a5⟩ | ⟨hno, _⟩
    · have : e' = e1 := by
        rcases List.append_eq_append_iff.1 (a1.symm.trans hd) with ⟨as, h1, h2⟩ | ⟨as, h1, h2⟩
        · cases as with
          | nil => simp at h2; exact h2.1
          | cons x xs =>
            simp only [List.cons_append, List.cons.injEq] at h2
            exact absurd rfl (a3 e1 (by rw [h2.2]; simp))
        · cases as with
          | nil => simp at h2; exact h2.1.symm
          | cons x xs =>
            simp only [List.cons_append, List.cons.injEq] at h2
            exact absurd a2 (hlast e' (by rw [h2.2]; simp))
      subst this
      exact ⟨v, a4, a5⟩
    · exact absurd rfl (hno e1 (by rw [hd]; simp))
  · intro id hid
    rw [payload_eq, payload_eq]
    rcases g.wrote.rows id with ⟨pre', e', post', v, a1, a2, a3, a4, a5⟩ | ⟨_, heq⟩
    · exact absurd a2 (hid e' (by rw [hacc', a1]; simp))
    · rw [heq]

/-- C230: an update is refused exactly when the index is closed or a hundred updates wait; one that is refused changes nothing, one that is accepted does not touch the store yet. -/
theorem C230_refused (x : Idx W HI VI) (e : Option (Emb W)) :
    ((addAsync x e).2 = false ↔ x.closed = true ∨ 100 ≤ x.queue.length) ∧ ((addAsync x e).2 = false → (addAsync x e).1 = x) ∧
      ((addAsync x e).2 = true → (addAsync x e).1.accepted = x.accepted ++ [e] ∧ (addAsync x e).1.queue = x.queue ++ [e]) ∧ (addAsync x e).1.st = x.st := by
  unfold addAsync cap
  by_cases hc : x.closed = true
  · simp [hc]
  · by_cases hl : 100 ≤ x.queue.length
    · simp [hc, hl]
    · simp [hc, hl]

/-! ### Every schedule -/

/-- Everything under way was accepted, and every record of the store was there before or is an accepted update. -/
structure Traced (a : St W HI VI) (x : Idx W HI VI) : Prop where
  que : ∀ u ∈ x.queue, u ∈ x.accepted
  held : ∀ u ∈ x.held, u ∈ x.accepted
  bat : ∀ u ∈ x.batch, u ∈ x.accepted
  rows : ∀ id, find x.st.db id = find a.db id ∨ ∃ e v, some e ∈ x.accepted ∧ e.id = id ∧ e.vector = some v ∧ (find x.st.db id).map rowPayload = some (written e v)
  colls : x.st.db.collections = a.db.collections
  docs : x.st.db.documents = a.db.documents

theorem traced_flush (env : Env W HI VI) {a : St W HI VI} {x : Idx W HI VI} (h : Traced a x) (fk : Bool) (f : Option Nat) : Traced a (flush env x fk f) := by
  unfold flush
  simp only
  split_ifs with hc hl
  · exact ⟨h.que, h.held, by simp, h.rows, h.colls, h.docs⟩
  · unfold upsertBatch
    rw [if_neg hc]
    split_ifs
    · exact ⟨h.que, h.held, by simp, h.rows, h.colls, h.docs⟩
    · cases hb : batchLoop fk f x.st.db 0 x.st.db (x.batch.filterMap id) with
      | error er => exact ⟨h.que, h.held, by simp, h.rows, h.colls, h.docs⟩
      | ok tx =>
        obtain ⟨_, h2, h3, h4⟩ := batchLoop_spec hb
        refine ⟨h.que, h.held, by simp, ?_, h2.trans h.colls, h3.trans h.docs⟩
        intro id
        rcases h4 id with ⟨pre, e, post, v, he, a1, a2, a3, a4⟩ | ⟨_, heq⟩
        · right
          refine ⟨e, v, h.bat _ ?_, a1, a3, a4⟩
          have : e ∈ x.batch.filterMap _root_.id := by rw [he]; simp
          obtain ⟨u, hu, hu'⟩ := List.mem_filterMap.1 this
          have hu2 : u = some e := hu'
          rw [← hu2]; exact hu
        · simp only
          rw [heq]
          exact h.rows id
  · split
    · exact ⟨h.que, h.held, by simp, h.rows, h.colls, h.docs⟩
    · exact ⟨h.que, h.held, h.bat, h.rows, h.colls, h.docs⟩

theorem traced_step (env : Env W HI VI) {a : St W HI VI} {x : Idx W HI VI} (h : Traced a x) (s : Step W HI VI) (hs : ∀ op, s ≠ .call op) : Traced a (step env x s) := by
  by_cases hcr : x.crashed = true
  · unfold step; rw [if_pos hcr]; exact h
  have hcr' : x.crashed = false := by simpa using hcr
  cases s with
  | call op => exact absurd rfl (hs op)
  | add e =>
    unfold step
    rw [if_neg hcr]
    simp only [addAsync]
    split_ifs
    · exact h
    · exact h
    · refine ⟨?_, fun u hu => List.mem_append_left _ (h.held u hu), fun u hu => List.mem_append_left _ (h.bat u hu), ?_, h.colls, h.docs⟩
      · intro u hu
        rcases List.mem_append.1 hu with hu | hu
        · exact List.mem_append_left _ (h.que u hu)
        · exact List.mem_append_right _ hu
      · intro id
        rcases h.rows id with h1 | ⟨e', v, h1, h2⟩
        · exact Or.inl h1
        · exact Or.inr ⟨e', v, List.mem_append_left _ h1, h2⟩
  | close => unfold step; rw [if_neg hcr]; exact ⟨h.que, h.held, h.bat, h.rows, h.colls, h.docs⟩
  | take =>
    unfold step
    rw [if_neg hcr]
    simp only
    split
    · exact h
    · rename_i q hq
      exact ⟨fun u hu => h.que u (by rw [hq]; exact List.mem_cons_of_mem _ hu), h.held, h.bat, h.rows, h.colls, h.docs⟩
    · rename_i e q hq
      refine ⟨fun u hu => h.que u (by rw [hq]; exact List.mem_cons_of_mem _ hu), ?_, h.bat, h.rows, h.colls, h.docs⟩
      intro u hu
      rcases List.mem_append.1 hu with hu | hu
      · exact h.held u hu
      · rw [List.mem_singleton.1 hu]; exact h.que _ (by rw [hq]; exact List.mem_cons_self)
  | requeue i =>
    unfold step
    rw [if_neg hcr]
    simp only
    split
    · exact h
    · rename_i u hu
      split_ifs
      · exact ⟨h.que, h.held, h.bat, h.rows, h.colls, h.docs⟩
      · exact h
      · refine ⟨?_, fun z hz => h.held z (List.mem_of_mem_eraseIdx hz), h.bat, h.rows, h.colls, h.docs⟩
        intro z hz
        rcases List.mem_append.1 hz with hz | hz
        · exact h.que z hz
        · rw [List.mem_singleton.1 hz]; exact h.held _ (List.mem_of_getElem? hu)
  | tick fk f =>
    unfold step
    rw [if_neg hcr]
    simp only
    split_ifs
    · exact h
    · exact traced_flush env h fk f
  | recv fk f =>
    by_cases hst : x.stopped = true
    · rw [recv_stopped env x hst]; exact h
    have hst' : x.stopped = false := by simpa using hst
    cases hq : x.queue with
    | nil =>
      rw [recv_nil env x hcr' hst' hq]
      split_ifs
      · exact ⟨h.que, h.held, h.bat, h.rows, h.colls, h.docs⟩
      · have g := traced_flush env h fk f
        exact ⟨g.que, g.held, g.bat, g.rows, g.colls, g.docs⟩
      · exact h
    | cons u q =>
      rw [recv_cons env x hcr' hst' u q hq]
      have h' : Traced a { x with queue := q, batch := x.batch ++ [u] } := by
        refine ⟨fun z hz => h.que z (by rw [hq]; exact List.mem_cons_of_mem _ hz), h.held, ?_, h.rows, h.colls, h.docs⟩
        intro z hz
        rcases List.mem_append.1 hz with hz | hz
        · exact h.bat z hz
        · rw [List.mem_singleton.1 hz]; exact h.que _ (by rw [hq]; exact List.mem_cons_self)
      split_ifs
      · exact traced_flush env h' fk f
      · exact h'

/-- C230: under every schedule of producers, searches, flushes, storage failures, nil and refused updates and closing, each record of the store is either the one that was there at the start
or exactly an update accepted for its id; collections and documents stay as they are. -/
theorem C230_only_accepted (env : Env W HI VI) (st : St W HI VI) (steps : List (Step W HI VI)) (hs : ∀ op, .call op ∉ steps) (id : String) :
    let x := run env (start st) steps
    (payload x.st id = payload st id ∨ ∃ e v, some e ∈ x.accepted ∧ e.id = id ∧ e.vector = some v ∧ payload x.st id = some (written e v)) ∧
      x.st.db.collections = st.db.collections ∧ x.st.db.documents = st.db.documents := by
  intro x
  have key : ∀ (l : List (Step W HI VI)) (z : Idx W HI VI), (∀ op, .call op ∉ l) → Traced st z → Traced st (run env z l) := by
    intro l
    induction l with
    | nil => intro z _ h; exact h
    | cons s l ih =>
      intro z hl h
      exact ih _ (fun op hop => hl op (List.mem_cons_of_mem _ hop)) (traced_step env h s (fun op hop => hl op (by rw [hop]; exact List.mem_cons_self)))
  have h := key steps (start st) hs ⟨by simp [start], by simp [start], by simp [start], fun _ => Or.inl rfl, rfl, rfl⟩
  refine ⟨?_, h.colls, h.docs⟩
  rw [payload_eq, payload_eq]
  rcases h.rows id with h1 | h1
  · left; rw [h1]
  · exact Or.inr h1

/-! ### Violations -/

theorem adds (env : Env W HI VI) (l : List (Option (Emb W))) : ∀ x : Idx W HI VI, x.closed = false → x.crashed = false → x.queue.length + l.length ≤ 100 →
    run env x (l.map .add) = { x with queue := x.queue ++ l, accepted := x.accepted ++ l } := by
  induction l with
  | nil => intro x _ _ _; simp [run]
  | cons e l ih =>
    intro x h1 h2 h3
    simp only [List.length_cons] at h3
    have hs : step env x (.add e) = { x with queue := x.queue ++ [e], accepted := x.accepted ++ [e] } := by
      unfold step addAsync
      rw [if_neg (by simp [h2])]
      simp only
      rw [if_neg (by simp [h1]), if_neg (by unfold cap; omega)]
    show run env (step env x (.add e)) (l.map .add) = _
    rw [hs, ih { x with queue := x.queue ++ [e], accepted := x.accepted ++ [e] } h1 h2 (by simp; omega)]
    simp

theorem recvs (env : Env W HI VI) (fk : Bool) (f : Option Nat) (l : List (Option (Emb W))) : ∀ x : Idx W HI VI, x.queue = l → x.crashed = false → x.stopped = false →
    x.batch.length + l.length < 100 → run env x (List.replicate l.length (.recv fk f)) = { x with queue := [], batch := x.batch ++ l } := by
  induction l with
  | nil => intro x hq _ _ _; cases x; simp_all [run]
  | cons e l ih =>
    intro x hq h1 h2 h3
    simp only [List.length_cons] at h3
    have hs : step env x (.recv fk f) = { x with queue := l, batch := x.batch ++ [e] } := by
      rw [recv_cons env x h1 h2 e l hq, if_neg (by unfold cap; simp; omega)]
    rw [List.length_cons, List.replicate_succ]
    show run env (step env x (.recv fk f)) (List.replicate l.length (.recv fk f)) = _
    rw [hs, ih { x with queue := l, batch := x.batch ++ [e] } rfl h1 h2 (by simp; omega)]
    simp

/-- Fewer than a hundred updates are handed over, received, and the index is closed. -/
def session (l : List (Option (Emb W))) (fk : Bool) (f : Option Nat) : List (Step W HI VI) :=
  l.map .add ++ List.replicate l.length (.recv fk f) ++ [.close, .recv fk f]

theorem session_run (env : Env W HI VI) (st : St W HI VI) (l : List (Option (Emb W))) (hl : l.length < 100) (hne : l ≠ []) (fk : Bool) (f : Option Nat) :
    run env (start st) (session l fk f) = { flush env ⟨st, [], [], l, true, false, false, l⟩ fk f with stopped := true } := by
  unfold session
  have h1 := adds env l (start st) rfl rfl (by simp [start]; omega)
  have h2 := recvs env fk f l ⟨st, l, [], [], false, false, false, l⟩ rfl rfl rfl (by simpa using hl)
  unfold run at *
  rw [List.foldl_append, List.foldl_append, h1]
  simp only [start, List.nil_append] at *
  rw [h2]
  have he : l.isEmpty = false := by cases l with
    | nil => exact absurd rfl hne
    | cons => rfl
  simp only [List.foldl_cons, List.foldl_nil, step, Bool.false_eq_true, if_false, he, if_true]

/-- C230 is violated: among up to 99 accepted updates a single one without vector, or naming a collection that does not exist, or, on a connection that enforces foreign keys, a document that does
not exist, makes all of them disappear: the store stays as it was, for every state of the store and wherever that update stands. -/
theorem C230_one_bad_violated (env : Env W HI VI) (st : St W HI VI) (es : List (Emb W)) (hl : es.length < 100) (fk : Bool) (f : Option Nat)
    (hbad : ∃ e ∈ es, e.vector = none ∨ (e.collectionID = 0 ∧ e.collection ≠ "" ∧ ∀ c ∈ st.db.collections, c.name ≠ e.collection) ∨
      (fk = true ∧ e.docID ≠ "" ∧ ∀ d ∈ st.db.documents, d.id ≠ e.docID)) :
    let x := run env (start st) (session (es.map some) fk f)
    x.accepted = es.map some ∧ x.stopped = true ∧ x.crashed = false ∧ x.st = st := by
  intro x
  have hne : es ≠ [] := by rintro rfl; obtain ⟨e, he, _⟩ := hbad; simp at he
  have hx : x = _ := session_run env st (es.map some) (by simpa using hl) (by simpa using hne) fk f
  by_cases ho : st.closed = true
  · rw [hx]
    unfold flush
    simp [ho]
  · have ho' : st.closed = false := by simpa using ho
    rw [flush_fine env _ ho' es rfl] at hx
    obtain ⟨er, her⟩ := C04_rejected_anywhere env st fk f es hne (by
      obtain ⟨e, he, h | h | ⟨h1, h2⟩⟩ := hbad
      · exact Or.inr (Or.inl ⟨e, he, h⟩)
      · exact Or.inr (Or.inr (Or.inl ⟨e, he, h⟩))
      · exact Or.inr (Or.inr (Or.inr ⟨h1, e, he, h2⟩)))
    have hst : (upsertBatch env st fk f es).1 = st := by
      have : upsertBatch env st fk f es = (st, .err er) := her
      rw [this]
    rw [hx]
    exact ⟨rfl, rfl, rfl, hst⟩

/-- C230 is violated: on a closed store updates are accepted and nothing is stored. -/
theorem C230_closed_violated (env : Env W HI VI) (st : St W HI VI) (hc : st.closed = true) (l : List (Option (Emb W))) (hl : l.length < 100) (hne : l ≠ []) (fk : Bool) (f : Option Nat) :
    let x := run env (start st) (session l fk f)
    x.accepted = l ∧ x.stopped = true ∧ x.crashed = false ∧ x.st = st := by
  intro x
  have hx : x = _ := session_run env st l hl hne fk f
  rw [hx]
  unfold flush
  simp [hc]

/-- C230 is violated: a nil update is accepted, and when it is flushed, after updates the store accepts, the process panics; nothing of the batch is stored. -/
theorem C230_nil_violated (env : Env W HI VI) (st : St W HI VI) (ho : st.closed = false) (es : List (Emb W)) (hes : ∀ e ∈ es, Fine st.db e) (rest : List (Option (Emb W)))
    (hl : es.length + 1 + rest.length < 100) (fk : Bool) :
    let x := run env (start st) (session (es.map some ++ none :: rest) fk none)
    x.accepted = es.map some ++ none :: rest ∧ x.crashed = true ∧ x.st = st := by
  intro x
  have hx : x = _ := session_run env st (es.map some ++ none :: rest) (by simp; omega) (by simp) fk none
  have htw : (es.map some ++ none :: rest).takeWhile Option.isSome = es.map some := by
    rw [List.takeWhile_append_of_pos (by simp)]
    simp
  obtain ⟨tx, htx⟩ := batch_fine fk st.db st.db rfl rfl es hes 0
  have hfm : (es.map some).filterMap id = es := by simp [List.filterMap_map]
  have hfl : flush env ⟨st, [], [], es.map some ++ none :: rest, true, false, false, es.map some ++ none :: rest⟩ fk none =
      ⟨st, [], [], es.map some ++ none :: rest, true, false, true, es.map some ++ none :: rest⟩ := by
    unfold flush
    rw [if_neg (by simp [ho])]
    simp only [htw]
    rw [if_neg (by simp), hfm, htx]
  rw [hx, hfl]
  exact ⟨rfl, rfl, rfl⟩

/-- C230 is violated: calls on the index and on its store are not kept in order: a record that is deleted after its update was accepted comes back when the update is flushed. -/
theorem C230_deleted_violated (env : Env W HI VI) (st : St W HI VI) (ho : st.closed = false) (wf : WF st.db) (e : Emb W) (he : Fine st.db e) (hid : e.id ≠ "") (old : Payload W)
    (hold : payload st e.id = some old) (fk : Bool) :
    let x := run env (start st) [.add (some e), .call (.delete false e.id)]
    let y := run env x [.recv fk none, .tick fk none]
    (Model.Store.step env st (.delete false e.id)).2 = .ok ∧ payload x.st e.id = none ∧ ∃ v, e.vector = some v ∧ payload y.st e.id = some (written e v) := by
  intro x y
  have hany : st.db.embeddings.any (fun r => decide (r.id = e.id)) = true := by
    rw [payload_eq] at hold
    cases hf : find st.db e.id with
    | none => rw [hf] at hold; simp at hold
    | some r =>
      unfold find at hf
      exact List.any_eq_true.2 ⟨r, List.mem_of_find?_eq_some hf, by simpa using List.find?_some hf⟩
  have hdel : Model.Store.step env st (.delete false e.id) = ({ st with
        db := { st.db with embeddings := st.db.embeddings.filter (fun r => r.id ≠ e.id) }
        hnsw := st.hnsw.map (fun h => env.hDelete h e.id)
        ivf := st.ivf.map (fun i => env.vDelete i e.id) }, .ok) := by
    simp only [Model.Store.step, delete]
    rw [if_neg (by simp [ho]), if_neg hid, if_neg (by simp), if_pos hany]
  set st' := (Model.Store.step env st (.delete false e.id)).1 with hst'
  have hx : x = ⟨st', [some e], [], [], false, false, false, [some e]⟩ := by
    simp [x, run, step, start, addAsync, cap, hst']
  have ho' : st'.closed = false := by rw [hst', hdel]; exact ho
  have wf' : WF st'.db := (step_cases env st wf (.delete false e.id) e.id).1
  have hc' : st'.db.collections = st.db.collections ∧ st'.db.documents = st.db.documents := by rw [hst', hdel]; exact ⟨rfl, rfl⟩
  have he' : Fine st'.db e := by unfold Fine at *; rw [hc'.1, hc'.2]; exact he
  have hy : y.st = (upsertBatch env st' fk none [e]).1 := by
    have : y = flush env ⟨st', [], [], [some e], false, false, false, [some e]⟩ fk none := by
      simp only [y, hx, run, List.foldl_cons, List.foldl_nil]
      simp [step, cap]
    rw [this, flush_fine env _ ho' [e] rfl]
  refine ⟨by rw [hdel], ?_, ?_⟩
  · rw [hx, payload_eq]
    show (find st'.db e.id).map rowPayload = none
    have : find st'.db e.id = none := by
      rw [hst', hdel]
      unfold find
      rw [List.find?_eq_none]
      intro r hr
      have := (List.mem_filter.1 hr).2
      simpa using this
    rw [this]; rfl
  · have hw := batch_wrote env st' ho' wf' fk [e] (by simpa using he')
    rw [hy, payload_eq]
    rcases hw.rows e.id with ⟨pre, e', post, v, a1, a2, a3, a4, a5⟩ | ⟨hno, _⟩
    · obtain rfl : e = e' := by
        cases pre with
        | nil => simpa using (List.cons.inj a1).1
        | cons p ps => simp at a1
      exact ⟨v, a4, a5⟩
    · exact absurd rfl (hno e (by simp))

/-! ### Examples -/

example : Fine store0.db embA ∧ Fine store0.db embB := by
  refine ⟨⟨⟨[1, 2], rfl, by decide⟩, ⟨⟨1, "default", 2⟩, by decide, by decide⟩, by decide⟩, ⟨⟨[3, 4], rfl, by decide⟩, ⟨⟨1, "default", 2⟩, by decide, by decide⟩, by decide⟩⟩

/-- Two updates of one id with a flush between them, and one that waits at the close. -/
example : let x := run env0 (start store0) [.add (some embA), .recv true none, .tick true none, .add (some { embA with content := "new" }), .add (some embB), .recv true none]
    let y := run env0 x (.close :: List.replicate (x.queue.length + 1) (.recv true none))
    y.stopped = true ∧ (payload y.st "a").map (·.content) = some "new" ∧ (payload y.st "b").map (·.content) = some "y" ∧ (payload x.st "b").map (·.content) = none := by
  decide

example : (run env0 (start store0) (session [some embA, some { embB with vector := none }] true none)).st.db.embeddings = [] ∧
    (run env0 (start store0) (session [some embA, some embB] true none)).st.db.embeddings.length = 2 ∧
    (run env0 (start store0) (session [some embA, none] true none)).crashed = true := by decide

end Verif.IncStore
