import Verif.Thm.Hindsight
import Verif.Thm.ChatMemory
import Verif.Thm.Facade
import Verif.Thm.Retry
import Verif.Thm.StreamStore

/-!
Further details of C166, C222, C225 and C232.
-/

namespace Verif.Facade
open Verif.Model.Store Verif.Thm.Store

variable {W HI VI : Type}

/-- The row a successful write leaves under its id. -/
theorem upsert_row (env : Env W HI VI) (s : St W HI VI) (fk f : Bool) (e : Emb W) (hok : (upsert env s fk f e).2 = .ok) :
    ∃ r, find (upsert env s fk f e).1.db e.id = some r ∧ resolveCollection s.db e = .ok r.cid := by
  have hs2 : ∀ (n : Nat), (if s.dim = 0 then { s with dim := n } else s).db = s.db := by intro n; split <;> rfl
  unfold upsert at hok ⊢
  split at hok
  · cases hok
  rename_i hc
  rw [if_neg hc]
  simp only [hs2] at hok ⊢
  split at hok
  · cases hok
  rename_i v _
  cases hp : prepareRow s.db { e with vector := v } with
  | error er => rw [hp] at hok; cases hok
  | ok row =>
    rw [hp] at hok
    simp only at hok ⊢
    split at hok
    · cases hok
    rename_i hf
    rw [if_neg hf]
    cases hi : insertRow fk s.db row with
    | error er => rw [hi] at hok; cases hok
    | ok db' =>
      simp only
      unfold insertRow at hi
      split at hi
      · cases hi
      · cases hi
        have hfu := find_upsert (fun r : Row W => r.id) s.db.embeddings row row.id
        have hboth : row.id = e.id ∧ resolveCollection s.db e = .ok row.cid := by
          unfold prepareRow at hp
          cases hr : resolveCollection s.db { e with vector := v } with
          | error er => rw [hr] at hp; cases hp
          | ok cid =>
            rw [hr] at hp
            simp only at hp
            split at hp
            · cases hp
            · cases hp
              exact ⟨rfl, hr⟩
        refine ⟨row, ?_, hboth.2⟩
        rw [← hboth.1]
        exact hfu.trans (if_pos rfl)

/-- C166: what Quick adds lies in the collection named, and in the default collection, which has number one, when none is named; a
collection that does not exist is refused. -/
theorem C166_collection (env : Env W HI VI) (emb : Option (Embedder W)) (s : St W HI VI) (fk f : Bool) (id coll content : String)
    (given : Option (List W)) (md : Option Meta) :
    ((quickAdd env s fk f id coll given content).2.2 = .ok →
      ∃ r, find (quickAdd env s fk f id coll given content).1.db id = some r ∧
        (coll = "" → r.cid = 1) ∧ (coll ≠ "" → ∃ c ∈ s.db.collections, c.name = coll ∧ c.id = r.cid)) ∧
    ((quickAddText env emb s fk f id coll content md).2.2 = .ok →
      ∃ r, find (quickAddText env emb s fk f id coll content md).1.db id = some r ∧
        (coll = "" → r.cid = 1) ∧ (coll ≠ "" → ∃ c ∈ s.db.collections, c.name = coll ∧ c.id = r.cid)) := by
  have key : ∀ e : Emb W, e.collectionID = 0 → (upsert env s fk f e).2 = .ok →
      ∃ r, find (upsert env s fk f e).1.db e.id = some r ∧
        (e.collection = "" → r.cid = 1) ∧ (e.collection ≠ "" → ∃ c ∈ s.db.collections, c.name = e.collection ∧ c.id = r.cid) := by
    intro e h0 hok
    obtain ⟨r, hr, hc⟩ := upsert_row env s fk f e hok
    refine ⟨r, hr, fun h => ?_, fun h => ?_⟩
    · unfold resolveCollection at hc
      rw [if_neg (by simp [h0]), if_neg (by simp [h])] at hc
      exact (Except.ok.inj hc).symm
    · unfold resolveCollection at hc
      rw [if_neg (by simp [h0]), if_pos h] at hc
      split at hc
      · rename_i c hf
        exact ⟨c, List.mem_of_find?_eq_some hf, by simpa using List.find?_some hf, Except.ok.inj hc⟩
      · cases hc
  refine ⟨fun hok => ?_, fun hok => ?_⟩
  · unfold quickAdd at hok ⊢
    exact key _ rfl (ofStore_ok.1 hok)
  · unfold quickAddText at hok ⊢
    cases emb with
    | none => cases hok
    | some E =>
      simp only at hok ⊢
      split at hok
      · cases hok
      · rename_i v hv
        exact key _ rfl (ofStore_ok.1 hok)

end Verif.Facade

namespace Verif.Hindsight

theorem entityRound_has (e : Env) (ent : String) (hs : List Hit) : ∀ acc x, x ∈ entityRound e ent acc hs →
    x ∈ acc ∨ (x ∈ hs ∧ e.hasEntity ent x.row = true) := by
  induction hs with
  | nil => intro acc x hx; exact .inl hx
  | cons h hs ih =>
    intro acc x hx
    unfold entityRound at hx
    split at hx
    · rcases ih _ x hx with h1 | h1
      · exact .inl h1
      · exact .inr ⟨List.mem_cons_of_mem _ h1.1, h1.2⟩
    · split at hx
      · rename_i he
        rcases ih _ x hx with h1 | h1
        · rcases List.mem_append.1 h1 with h2 | h2
          · exact .inl h2
          · rw [List.mem_singleton] at h2
            subst h2
            exact .inr ⟨List.mem_cons_self, he⟩
        · exact .inr ⟨List.mem_cons_of_mem _ h1.1, h1.2⟩
      · rcases ih _ x hx with h1 | h1
        · exact .inl h1
        · exact .inr ⟨List.mem_cons_of_mem _ h1.1, h1.2⟩

theorem entityRound_covers (e : Env) (ent : String) (hs : List Hit) : ∀ acc i,
    ((∃ x ∈ acc, x.row.id = i) ∨ ∃ x ∈ hs, x.row.id = i ∧ e.hasEntity ent x.row = true) →
      ∃ x ∈ entityRound e ent acc hs, x.row.id = i := by
  induction hs with
  | nil =>
    rintro acc i (h | ⟨x, hx, _⟩)
    · exact h
    · simp at hx
  | cons h hs ih =>
    intro acc i hi
    unfold entityRound
    by_cases h1 : acc.any (fun x => decide (x.row.id = h.row.id)) = true
    · rw [if_pos h1]
      apply ih
      rcases hi with hi | ⟨x, hx, hxi, hxe⟩
      · exact .inl hi
      · rcases List.mem_cons.1 hx with rfl | hx
        · rw [List.any_eq_true] at h1
          obtain ⟨y, hy, hyx⟩ := h1
          exact .inl ⟨y, hy, by rw [← hxi]; simpa using hyx⟩
        · exact .inr ⟨x, hx, hxi, hxe⟩
    · rw [if_neg h1]
      by_cases h2 : e.hasEntity ent h.row = true
      · rw [if_pos h2]
        apply ih
        rcases hi with ⟨x, hx, hxi⟩ | ⟨x, hx, hxi, hxe⟩
        · exact .inl ⟨x, by simp [hx], hxi⟩
        · rcases List.mem_cons.1 hx with rfl | hx
          · exact .inl ⟨x, by simp, hxi⟩
          · exact .inr ⟨x, hx, hxi, hxe⟩
      · rw [if_neg h2]
        apply ih
        rcases hi with hi | ⟨x, hx, hxi, hxe⟩
        · exact .inl hi
        · rcases List.mem_cons.1 hx with rfl | hx
          · exact absurd hxe h2
          · exact .inr ⟨x, hx, hxi, hxe⟩

/-- C225, whatever search is underneath: recall by entity returns, of what the search found, exactly the memories that name an entity
asked for. -/
theorem C225_strategy (e : Env) (s : State) (r : Req) (hs : List Hit) (hv : r.hasVec = true)
    (h : e.search s.rows r.bank (askK r) = some hs) :
    (∀ x ∈ entitySearch e s r, ∃ ent ∈ r.entities, ∃ y ∈ hs, y.row = x.row ∧ e.hasEntity ent x.row = true) ∧
    ∀ ent ∈ r.entities, ∀ y ∈ hs, e.hasEntity ent y.row = true → ∃ x ∈ entitySearch e s r, x.row.id = y.row.id := by
  have hfold : entitySearch e s r = tag 3 (r.entities.foldl (fun acc ent => entityRound e ent acc hs) []) := by
    unfold entitySearch
    simp only [hv, if_true, h]
  rw [hfold]
  have hsound : ∀ (es : List String) acc x, x ∈ es.foldl (fun acc ent => entityRound e ent acc hs) acc →
      x ∈ acc ∨ (x ∈ hs ∧ ∃ ent ∈ es, e.hasEntity ent x.row = true) := by
    intro es
    induction es with
    | nil => intro acc x hx; exact .inl hx
    | cons a es ih =>
      intro acc x hx
      rw [List.foldl_cons] at hx
      rcases ih _ x hx with h1 | ⟨h1, b, hb, hbe⟩
      · rcases entityRound_has e a hs acc x h1 with h2 | ⟨h2, h3⟩
        · exact .inl h2
        · exact .inr ⟨h2, a, by simp, h3⟩
      · exact .inr ⟨h1, b, by simp [hb], hbe⟩
  have hcov : ∀ (es : List String) acc i, ((∃ x ∈ acc, x.row.id = i) ∨ ∃ ent ∈ es, ∃ x ∈ hs, x.row.id = i ∧ e.hasEntity ent x.row = true) →
      ∃ x ∈ es.foldl (fun acc ent => entityRound e ent acc hs) acc, x.row.id = i := by
    intro es
    induction es with
    | nil =>
      rintro acc i (h | ⟨_, h, _⟩)
      · exact h
      · simp at h
    | cons a es ih =>
      intro acc i hi
      rw [List.foldl_cons]
      apply ih
      rcases hi with hi | ⟨b, hb, hx⟩
      · exact .inl (entityRound_covers e a hs acc i (.inl hi))
      · rcases List.mem_cons.1 hb with rfl | hb
        · exact .inl (entityRound_covers e b hs acc i (.inr hx))
        · exact .inr ⟨b, hb, hx⟩
  refine ⟨fun x hx => ?_, fun ent he y hy hye => ?_⟩
  · unfold tag at hx
    obtain ⟨y, hy, rfl⟩ := List.mem_map.1 hx
    rcases hsound _ _ y hy with h1 | ⟨h1, ent, he, hee⟩
    · simp at h1
    · exact ⟨ent, he, y, h1, rfl, hee⟩
  · obtain ⟨x, hx, hxi⟩ := hcov r.entities [] y.row.id (.inr ⟨ent, he, y, hy, rfl, hye⟩)
    exact ⟨_, List.mem_map.2 ⟨x, hx, rfl⟩, hxi⟩

example : ∃ r : Req, r.hasVec = true ∧ r.entities = ["Ada"] := ⟨⟨"b", true, true, false, ["Ada"], true, false, 0, 0⟩, rfl, rfl⟩

end Verif.Hindsight

namespace Verif.MemRec
open Verif.Base Verif.Memory

/-- C232: a message that was added is in its session's history with everything it was given, and with the time of the call whatever
time it carried; the history is otherwise as before. -/
theorem C232_added (fk : Bool) (now : Int) (s : State) (m : Msg) (h : (addMessage fk now s m).2 = true) (session : Text) :
    history (addMessage fk now s m).1 session =
      history s session ++ if m.bucket = session then [{ m with created := now }] else [] := by
  unfold addMessage at h ⊢
  split at h
  · cases h
  · rename_i h1
    split at h
    · cases h
    · rename_i h2
      rw [if_neg h1, if_neg h2]
      unfold history
      simp only [List.filter_append]
      congr 1
      by_cases hb : m.bucket = session <;> simp [hb]

/-- C232: what the searches of a user choose from: the messages of the sessions of the user, without those of the session left out. -/
theorem C232_candidates (s : State) (user exclude : Text) (m : Msg) :
    m ∈ byUser s user exclude ↔ m ∈ s.msgs ∧ s.buckets.lookup m.bucket = some user ∧ (exclude = [] ∨ m.bucket ≠ exclude) := by
  unfold byUser
  rw [List.mem_filter]
  simp

end Verif.MemRec

namespace Verif.StreamStore
open Verif.Model.Store Verif.Model.Search Verif.Base Verif.Spec
open Verif.Stream (Res Send)

variable {W HI VI : Type}

/-- C222: with a limit, a search through the incremental index returns the best of what the store found and of the updates still waiting,
each update with its own fields and with the similarity of its vector to the query. -/
theorem C222_updates (c : Cfg W) (E : Stream.Env (Hit W) ℚ) (hE : E.Sound) (via : Serve W) (s : St W HI VI) (query : List W)
    (o : Opts) (hk : 0 < o.topK) (pend : List (Emb W)) (results : List (Hit W)) (h : search c via s query o = .ok results)
    (ho : results.Pairwise (fun a b => b.score ≤ a.score)) (hl : (results.length : Int) ≤ o.topK) :
    ∃ out, searchWithUpdates c E via s query o pend = .ok (some out) ∧
      IsTopK (fun x : Hit W => x.score)
        (results ++ pend.map fun e => { id := e.id, collection := e.collection, vector := e.vector.getD [], content := e.content, docID := e.docID, metadata := e.metadata, score := c.sim query (e.vector.getD []) }) o.topK.toNat out := by
  obtain ⟨k, hkk⟩ : ∃ k : Nat, o.topK = (k : Int) := ⟨o.topK.toNat, by omega⟩
  obtain ⟨out, h1, h2⟩ := Stream.C118_pending_topk_partial E hE k (by omega)
    (results.map fun h => (⟨h, h.score, 0⟩ : Res (Hit W) ℚ)) (pend.map (pendingHit c query))
    (by rw [List.pairwise_map]; exact ho) (by rw [List.length_map]; omega)
  refine ⟨out.map shown, ?_, ?_⟩
  · simp only [searchWithUpdates, h, hkk, h1, Option.map_some]
  · have hpool : (results.map (fun h => (⟨h, h.score, 0⟩ : Res (Hit W) ℚ)) ++ pend.map (pendingHit c query)).map shown =
        results ++ pend.map fun e => { id := e.id, collection := e.collection, vector := e.vector.getD [], content := e.content, docID := e.docID, metadata := e.metadata, score := c.sim query (e.vector.getD []) } := by
      rw [List.map_append, List.map_map, List.map_map]
      congr 1
      have e : (shown ∘ fun h : Hit W => (⟨h, h.score, 0⟩ : Res (Hit W) ℚ)) = id := rfl
      rw [e, List.map_id]
    rw [← hpool, hkk, Int.toNat_natCast]
    obtain ⟨g1, ⟨rest, g2, g3⟩, g4⟩ := h2
    refine ⟨?_, ⟨rest.map shown, ?_, ?_⟩, ?_⟩
    · rw [List.pairwise_map]; exact g1
    · rw [← List.map_append]; exact g2.map shown
    · intro r hr x hx
      obtain ⟨r', hr', rfl⟩ := List.mem_map.1 hr
      obtain ⟨x', hx', rfl⟩ := List.mem_map.1 hx
      exact g3 r' hr' x' hx'
    · rw [List.length_map, List.length_map, g4]

end Verif.StreamStore
