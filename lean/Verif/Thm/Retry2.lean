import Verif.Thm.GraphMaps
import Verif.Thm.MemoryWrites
import Verif.Thm.ChatWrites
import Verif.Thm.StoreIvf
import Verif.Thm.Retry

/-! C244: repeating a call of the graph, of the memory and of the conversation API; what a repeated write does to an inverted
file index. -/

namespace Verif.Graph

theorem node_writes (ns : List Node) : ∃ g : String → Option Node, ∀ m : Maps,
    (ns.map Write.node).foldl Maps.apply m = { m with node := fun i => (g i).or (m.node i) } := by
  induction ns with
  | nil => exact ⟨fun _ => none, fun m => by simp⟩
  | cons n ns ih =>
    obtain ⟨g, hg⟩ := ih
    by_cases h : n.id = "" ∨ n.vec = []
    · exact ⟨g, fun m => by rw [List.map_cons, List.foldl_cons, hg]; simp only [Maps.apply, if_pos h]⟩
    · refine ⟨fun i => (g i).or (if i = n.id then some n else none), fun m => ?_⟩
      rw [List.map_cons, List.foldl_cons, hg]
      simp only [Maps.apply, if_neg h]
      congr 1
      funext i
      cases g i with
      | some x => simp
      | none => simp only [Option.none_or]; split <;> simp

theorem edge_writes (fk : Bool) (nd : String → Option Node) (es : List Edge) : ∃ g : String → Option Edge,
    (∀ i e, g i = some e → fk = true → nd e.src ≠ none ∧ nd e.dst ≠ none) ∧
    ∀ m : Maps, m.node = nd → (es.map (Write.edge fk)).foldl Maps.apply m = { m with edge := fun i => (g i).or (m.edge i) } := by
  induction es with
  | nil => exact ⟨fun _ => none, by simp, fun m _ => by simp⟩
  | cons e es ih =>
    obtain ⟨g, hgn, hg⟩ := ih
    by_cases h : e.id = "" ∨ e.src = "" ∨ e.dst = ""
    · exact ⟨g, hgn, fun m hm => by
        rw [List.map_cons, List.foldl_cons]; simp only [Maps.apply, if_pos h]; exact hg m hm⟩
    · by_cases h2 : fk = true ∧ (nd e.src = none ∨ nd e.dst = none)
      · exact ⟨g, hgn, fun m hm => by
          rw [List.map_cons, List.foldl_cons]; simp only [Maps.apply, if_neg h, hm, if_pos h2]; exact (hg m hm).trans (by simp only [hm])⟩
      · refine ⟨fun i => (g i).or (if i = e.id then some { e with weight := if e.weight = 0 then 1 else e.weight } else none),
          fun i x hx hfk => ?_, fun m hm => ?_⟩
        · cases hgi : g i with
          | some y =>
            simp only [hgi, Option.some_or, Option.some.injEq] at hx
            subst hx
            exact hgn i y hgi hfk
          | none =>
            simp only [hgi, Option.none_or] at hx
            split at hx
            · cases hx
              simp only [hfk, true_and] at h2
              push Not at h2
              exact h2
            · cases hx
        · rw [List.map_cons, List.foldl_cons]
          simp only [Maps.apply, if_neg h, hm, if_neg h2]
          rw [hg _ (by rfl)]
          simp only [hm]
          congr 1
          funext i
          cases g i with
          | some x => simp
          | none => simp only [Option.none_or]; split <;> simp

theorem or_or_self {α : Type} (a b : Option α) : a.or (a.or b) = a.or b := by cases a <;> simp

theorem apply_dropNodes (m : Maps) (fk : Bool) (ids : List String) :
    (m.apply (.dropNodes fk ids)).apply (.dropNodes fk ids) = m.apply (.dropNodes fk ids) := by
  simp only [Maps.apply, Maps.mk.injEq]
  refine ⟨funext fun i => by split <;> rfl, funext fun i => ?_⟩
  cases h : m.edge i with
  | none => simp
  | some e =>
    by_cases ht : fk = true ∧ m.touches ids e
    · simp [Option.filter, ht]
    · have : ∀ f, ¬ (fk = true ∧ Maps.touches ⟨fun i => if i ∈ ids then none else m.node i, f⟩ ids e) := by
        rintro f ⟨_, h1 | h1⟩ <;> exact h1.2 (if_pos h1.1)
      simp only [Option.filter, ht, this, not_false_eq_true, decide_true, if_true]

/-- The elementary writes of one call, made twice, do what they do made once. -/
theorem writes_twice (op : Op) (m : Maps) :
    op.writes.foldl Maps.apply (op.writes.foldl Maps.apply m) = op.writes.foldl Maps.apply m := by
  have hnodes : ∀ ns : List Node, (ns.map Write.node).foldl Maps.apply ((ns.map Write.node).foldl Maps.apply m) =
      (ns.map Write.node).foldl Maps.apply m := by
    intro ns
    obtain ⟨g, hg⟩ := node_writes ns
    rw [hg, hg]; simp only [or_or_self]
  have hedges : ∀ fk (es : List Edge), (es.map (Write.edge fk)).foldl Maps.apply ((es.map (Write.edge fk)).foldl Maps.apply m) =
      (es.map (Write.edge fk)).foldl Maps.apply m := by
    intro fk es
    obtain ⟨g, _, hg⟩ := edge_writes fk m.node es
    rw [hg m rfl, hg _ (by rfl)]; simp only [or_or_self]
  have hde : ∀ ids, (m.apply (.dropEdges ids)).apply (.dropEdges ids) = m.apply (.dropEdges ids) := by
    intro ids
    simp only [Maps.apply, Maps.mk.injEq, true_and]
    funext i; split <;> rfl
  cases op with
  | upsertNode n => exact hnodes n.toList
  | deleteNode fk id => exact apply_dropNodes m fk [id]
  | upsertEdge fk e => exact hedges fk e.toList
  | deleteEdge id => exact hde [id]
  | nodesBatch c ns =>
    cases c with
    | true => exact hnodes _
    | false => rfl
  | deleteNodes fk c ids =>
    cases c with
    | true => exact apply_dropNodes m fk ids
    | false => rfl
  | edgesBatch fk c es =>
    cases c with
    | true => exact hedges fk _
    | false => rfl
  | deleteEdges c ids =>
    cases c with
    | true => exact hde ids
    | false => rfl
  | execute fk c b =>
    cases c with
    | false => rfl
    | true =>
      simp only [Op.writes, if_true, List.foldl_append, List.foldl_cons, List.foldl_nil]
      obtain ⟨g, hg⟩ := node_writes (b.nodeUpserts.filterMap id)
      simp only [hg]
      -- the nodes after the upserts and the deletions, the same both times
      obtain ⟨k, hkn, hk⟩ := edge_writes fk (fun i => if i ∈ b.nodeDeletes then none else (g i).or (m.node i)) (b.edgeUpserts.filterMap id)
      have hnd : (fun i => if i ∈ b.nodeDeletes then none else (g i).or (if i ∈ b.nodeDeletes then none else (g i).or (m.node i))) =
          fun i => if i ∈ b.nodeDeletes then none else (g i).or (m.node i) := by
        funext i
        split
        · rfl
        · rw [or_or_self]
      have hfirst := hk (Maps.apply { m with node := fun i => (g i).or (m.node i) } (.dropNodes fk b.nodeDeletes)) rfl
      rw [hfirst]
      simp only [Maps.apply]
      rw [hk _ (by simpa only using hnd)]
      simp only [hnd, Maps.mk.injEq, true_and]
      funext i
      by_cases hi : i ∈ b.edgeDeletes
      · simp [hi]
      · simp only [hi, if_false]
        cases hki : k i with
        | some e => simp
        | none =>
          simp only [Option.none_or]
          cases hmi : m.edge i with
          | none => simp
          | some e =>
            by_cases ht : fk = true ∧ Maps.touches ⟨fun i => (g i).or (m.node i), m.edge⟩ b.nodeDeletes e
            · simp [Option.filter, ht]
            · have ht2 : ∀ f : String → Option Edge, ¬ (fk = true ∧ Maps.touches ⟨fun i => (g i).or
                  (if i ∈ b.nodeDeletes then none else (g i).or (m.node i)), f⟩ b.nodeDeletes e) := by
                rintro f ⟨h1, h2⟩
                apply ht
                refine ⟨h1, ?_⟩
                unfold Maps.touches at h2 ⊢
                simp only at h2 ⊢
                rcases h2 with ⟨h3, h4⟩ | ⟨h3, h4⟩
                · refine .inl ⟨h3, fun h5 => h4 ?_⟩
                  cases hg1 : g e.src with
                  | some x => rw [hg1] at h5; cases h5
                  | none => simp [h3]
                · refine .inr ⟨h3, fun h5 => h4 ?_⟩
                  cases hg1 : g e.dst with
                  | some x => rw [hg1] at h5; cases h5
                  | none => simp [h3]
              simp only [Option.filter, ht, ht2, not_false_eq_true, decide_true, if_true]
  | enable => rfl

/-- **C244**: repeating any call of the graph API directly after it changes no node and no edge, whatever the history before;
a batch may be repeated as a whole. -/
theorem C244_graph (ops : List Op) (op : Op) :
    (∀ i, getNode (run (ops ++ [op, op])) i = getNode (run (ops ++ [op])) i) ∧
    (∀ i, edgeById (run (ops ++ [op, op])) i = edgeById (run (ops ++ [op])) i) := by
  have h : Maps.after (ops ++ [op, op]) = Maps.after (ops ++ [op]) := by
    unfold Maps.after
    simp only [List.flatMap_append, List.flatMap_cons, List.flatMap_nil, List.append_nil, List.foldl_append]
    exact writes_twice op _
  exact ⟨fun i => by rw [(C228_maps _).1, (C228_maps _).1, h], fun i => by rw [(C228_maps _).2.1, (C228_maps _).2.1, h]⟩

example : getNode (run [.upsertNode (some ⟨"a", [1], "x", "t", ""⟩), .execute true true ⟨[some ⟨"b", [1], "y", "t", ""⟩], ["a"], [], []⟩,
    .execute true true ⟨[some ⟨"b", [1], "y", "t", ""⟩], ["a"], [], []⟩]) "b" = some ⟨"b", [1], "y", "t", ""⟩ := by
  rw [(C228_maps _).1]
  simp [Maps.after, Op.writes, Maps.apply]

end Verif.Graph

namespace Verif.Memory
open Verif.Base Verif.Spec

variable {V S : Type*} [LinearOrder S]

/-- **C244**: saving a memory a second time, at whatever later moment, leaves every other memory alone and leaves this one
with the same text, vector, owner, namespace and lifetime; only the expiry is counted from the second save. -/
theorem C244_memory (e : Env V S) (now now' : Int) (s : State V) (q : SaveReq) (h : (save e now s q).2 = .ok ()) :
    (save e now' (save e now s q).1 q).2 = .ok () ∧
    ∃ r, get (save e now s q).1 q.id = .ok r ∧
      get (save e now' (save e now s q).1 q).1 q.id = .ok { r with expires := expiresAt now' q.ttl } ∧
      (∀ id, id ≠ q.id → (save e now' (save e now s q).1 q).1.rows.find? (fun x => x.id == id) =
        (save e now s q).1.rows.find? (fun x => x.id == id)) ∧
      (q.ttl ≤ 0 → get (save e now' (save e now s q).1 q).1 q.id = .ok r) := by
  unfold save at h ⊢
  by_cases h0 : q.id = []
  · rw [if_pos h0] at h; cases h
  by_cases h1 : trim e.sp q.content = []
  · rw [if_neg h0, if_pos h1] at h; cases h
  simp only [if_neg h0, if_neg h1] at h ⊢
  cases hr : resolve e.sp e.lower q.scope q.user q.session q.ns with
  | error er => rw [hr] at h; cases h
  | ok p =>
    obtain ⟨sc, b⟩ := p
    rw [hr] at h
    simp only at h ⊢
    cases hv : embedContent e q.content with
    | error er => rw [hv] at h; cases h
    | ok v =>
      rw [hv] at h
      simp only [hv] at h ⊢
      let r : Int → Row V := fun t => { id := q.id, bucket := b, content := q.content, vector := v, scope := sc, ns := normNs e.sp q.ns, ttl := q.ttl, expires := expiresAt t q.ttl }
      refine ⟨trivial, r now, (load_ok _ _ _).2 ⟨h0, find_upsert _ (r now), (ensureBucket_mem s b b).2 (.inr rfl)⟩,
        (load_ok _ _ _).2 ⟨h0, find_upsert _ (r now'), (ensureBucket_mem _ b b).2 (.inr rfl)⟩, fun id hid => ?_, fun ht => ?_⟩
      · refine (find_upsert_other _ (r now') _ hid).trans ?_
        rw [ensureBucket_rows]
      · have : r now = r now' := by
          simp only [r, expiresAt]
          rw [if_neg (by omega), if_neg (by omega)]
        rw [this]
        exact (load_ok _ _ _).2 ⟨h0, find_upsert _ (r now'), (ensureBucket_mem _ b b).2 (.inr rfl)⟩

end Verif.Memory

namespace Verif.Chat

/-- **C244**: a session or a message sent again under the same id is refused and changes nothing. -/
theorem C244_chat (fk fk' : Bool) (now now' : Nat) (s : State) (x : Session) (m : Message) :
    ((createSession s x).2 = .ok () →
      (createSession (createSession s x).1 x).2 ≠ .ok () ∧ (createSession (createSession s x).1 x).1 = (createSession s x).1) ∧
    ((addMessage fk now s m).2 = .ok () →
      (addMessage fk' now' (addMessage fk now s m).1 m).2 ≠ .ok () ∧
      (addMessage fk' now' (addMessage fk now s m).1 m).1 = (addMessage fk now s m).1) := by
  refine ⟨fun h => ?_, fun h => ?_⟩
  · have h1 := (C186_session s x).2.1 h
    have : (createSession (createSession s x).1 x).2 ≠ .ok () := by
      intro h2
      have h3 := ((C186_session _ x).1.1 h2).2
      have h4 := h1.1
      unfold getSession at h4
      split at h4
      · cases h4
      split at h4
      · rename_i y hy
        exact h3 y (List.mem_of_find?_eq_some hy) (by simpa using List.find?_some hy)
      · cases h4
    exact ⟨this, (C186_session _ x).2.2 this⟩
  · obtain ⟨k, hk, he⟩ := (C186_message fk now s m).2.1 h
    have : (addMessage fk' now' (addMessage fk now s m).1 m).2 ≠ .ok () := by
      intro h2
      have h3 := ((C186_message fk' now' _ m).1.1 h2).2.1
      rw [he] at h3
      exact h3 k (by simp) hk.1
    exact ⟨this, (C186_message fk' now' _ m).2.2 this⟩

end Verif.Chat

namespace Verif.Thm.StoreIvf
open Verif.Model.Store Verif.Thm.Store Verif.Thm.StoreIndex

variable {W HI VI : Type}

/-- **C244** is violated by a trained inverted file index: every repetition of a write lists the record once more, so the index
takes several of its candidates from one record. -/
theorem C244_ivf_violated {env : Env W HI VI} {fits : List W → Prop} {ids : VI → List String} (L : Laws env fits ids)
    (s : St W HI VI) (i : VI) (hs : s.ivf = some i) (ht : env.vTrained i = true) (fk f : Bool) (e : Emb W)
    (h1 : (step env s (.upsert fk f e)).2 = .ok) (h2 : (step env (step env s (.upsert fk f e)).1 (.upsert fk f e)).2 = .ok)
    (hfit : ∀ t r, find (step env t (.upsert fk f e)).1.db e.id = some r → fits r.vector) :
    ∃ i', (run env s [.upsert fk f e, .upsert fk f e]).ivf = some i' ∧ ids i' = ids i ++ [e.id, e.id] := by
  have one : ∀ (t : St W HI VI) (j : VI), t.ivf = some j → env.vTrained j = true → (step env t (.upsert fk f e)).2 = .ok →
      ∃ j', (step env t (.upsert fk f e)).1.ivf = some j' ∧ ids j' = ids j ++ [e.id] ∧ env.vTrained j' = true := by
    intro t j hj htj hu
    rcases upsert_split env t fk f e with ⟨g, _⟩ | ⟨row, hid, g1, g2⟩
    · exact absurd hu g
    · have hf : find (step env t (.upsert fk f e)).1.db e.id = some row := by
        rw [step, g1, ← hid]
        have := find_upsert (fun r : Row W => r.id) t.db.embeddings row row.id
        rw [if_pos rfl] at this
        exact this
      refine ⟨env.vAdd j row.id row.vector, by rw [step, g2, hj]; simp [htj], ?_, ?_⟩
      · rw [L.add j _ _ htj (hfit t row hf), hid]
      · rw [L.trainedAdd]; exact htj
  obtain ⟨j1, ha, hb, hc⟩ := one s i hs ht h1
  obtain ⟨j2, hd, he, _⟩ := one _ j1 ha hc h2
  exact ⟨j2, hd, by rw [he, hb]; simp⟩

end Verif.Thm.StoreIvf
