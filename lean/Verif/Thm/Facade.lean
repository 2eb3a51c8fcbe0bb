import Verif.Model.Facade
import Verif.Thm.StoreIndex

/-! C164-C166: the text operations of `DB` and `Quick`. -/
namespace Verif.Facade
open Verif.Model.Store Verif.Thm.Store

variable {W HI VI : Type}

/-! ### Specification -/

/-- What a store of dimension `dim` keeps of a vector. -/
def Kept (env : Env W HI VI) (dim : Nat) (given : Option (List W)) (v : List W) : Prop :=
  if dim = 0 ∨ dim = (given.getD []).length then given = some v
  else env.adapt (given.getD []) (given.getD []).length dim = some v

/-- Every record of the store other than those under `ids` is the same in both states. -/
def Others (s t : St W HI VI) (ids : List String) : Prop := ∀ j, j ∉ ids → payload t j = payload s j

/-! ### Lemmas -/

theorem ofStore_ok {o : Model.Store.Out} : ofStore o = .ok ↔ o = .ok := by cases o <;> simp [ofStore]

theorem upsert_kept (env : Env W HI VI) (s : St W HI VI) (fk f : Bool) (e : Emb W)
    (hok : (upsert env s fk f e).2 = .ok) : ∃ v, Kept env s.dim e.vector v := by
  unfold upsert at hok
  split at hok
  · cases hok
  · simp only [] at hok
    split at hok
    · cases hok
    · rename_i v0 hv0
      split at hok
      · cases hok
      · rename_i row hrow
        have hvec : v0 = some row.vector := (prepareRow_ok hrow).2.1
        subst hvec
        refine ⟨row.vector, ?_⟩
        unfold Kept
        by_cases hd : s.dim = 0
        · rw [if_pos (Or.inl hd)]
          simpa [hd] using hv0
        · simp only [hd, if_false] at hv0
          by_cases hl : s.dim = (e.vector.getD []).length
          · rw [if_pos (Or.inr hl)]
            simpa [hl] using hv0
          · have hl' : (e.vector.getD []).length ≠ s.dim := fun h => hl h.symm
            rw [if_neg (by simp [hd, hl])]
            rw [if_pos hl'] at hv0
            obtain ⟨w, hw, he⟩ := Option.map_eq_some_iff.1 hv0
            injection he with he
            rw [hw, he]

theorem upsert_written (env : Env W HI VI) (s : St W HI VI) (wf : WF s.db) (fk f : Bool) (e : Emb W)
    (hok : (upsert env s fk f e).2 = .ok) :
    (∃ v, Kept env s.dim e.vector v ∧ payload (upsert env s fk f e).1 e.id = some (written e v)) ∧
    Others s (upsert env s fk f e).1 [e.id] := by
  constructor
  · rcases (step_cases env s wf (.upsert fk f e) e.id).2 with ⟨p, hw, hp⟩ | ⟨hn, _⟩ | ⟨hn, _⟩
    · obtain ⟨_, _, v, rfl, hv⟩ := hw
      exact ⟨v, hv, hp⟩
    all_goals
      exfalso
      apply hn
      obtain ⟨v, hv⟩ := upsert_kept env s fk f e hok
      exact ⟨_, hok, rfl, v, rfl, hv⟩
  · intro j hj
    have hj : ¬ j = e.id := by simpa using hj
    rcases (step_cases env s wf (.upsert fk f e) j).2 with ⟨p, hw, _⟩ | ⟨_, h⟩ | ⟨_, _, r, _, h⟩
    · exact absurd hw.2.1.symm hj
    · exact h
    · exact h.elim

theorem upsert_failed (env : Env W HI VI) (s : St W HI VI) (fk f : Bool) (e : Emb W)
    (hok : (upsert env s fk f e).2 ≠ .ok) : (upsert env s fk f e).1.db = s.db := by
  rcases Thm.StoreIndex.upsert_split env s fk f e with ⟨_, h, _⟩ | ⟨h, _⟩
  · exact h
  · exact absurd h hok

theorem batch_written (env : Env W HI VI) (s : St W HI VI) (wf : WF s.db) (fk : Bool) (f : Option Nat)
    (es : List (Emb W)) (hnd : (es.map (fun e => e.id)).Nodup) (hok : (upsertBatch env s fk f es).2 = .ok) :
    (∀ e ∈ es, ∃ v, e.vector = some v ∧ payload (upsertBatch env s fk f es).1 e.id = some (written e v)) ∧
    Others s (upsertBatch env s fk f es).1 (es.map (fun e => e.id)) := by
  unfold upsertBatch at hok ⊢
  split at hok
  · cases hok
  · rename_i hc
    rw [if_neg hc]
    split at hok
    · rename_i hl
      rw [List.length_eq_zero_iff.1 hl]
      exact ⟨nofun, fun j _ => rfl⟩
    · rename_i hl
      rw [if_neg hl]
      split at hok
      · cases hok
      · rename_i db' hb
        obtain ⟨_, _, _, hf⟩ := batchLoop_spec hb
        constructor
        · intro e he
          rcases hf e.id with ⟨pre, x, post, v, hes, hid, _, hv, hp⟩ | ⟨hno, _⟩
          · have hxe : x = e := nodup_inj (fun e : Emb W => e.id) hnd (by rw [hes]; simp) he hid
            subst hxe
            exact ⟨v, hv, by rw [payload_eq]; exact hp⟩
          · exact absurd rfl (hno e he)
        · intro j hj
          rcases hf j with ⟨pre, x, post, v, hes, hid, _⟩ | ⟨_, heq⟩
          · exact absurd (List.mem_map.2 ⟨x, by rw [hes]; simp, hid⟩) hj
          · rw [payload_eq, payload_eq]
            show (find db' j).map _ = _
            rw [heq]

theorem batch_failed (env : Env W HI VI) (s : St W HI VI) (fk : Bool) (f : Option Nat) (es : List (Emb W))
    (hok : (upsertBatch env s fk f es).2 ≠ .ok) : (upsertBatch env s fk f es).1 = s := by
  unfold upsertBatch at hok ⊢
  repeat' split at hok
  all_goals first
    | exact absurd rfl hok
    | skip
  · rename_i hc; rw [if_pos hc]
  · rename_i hc hl _ er hb
    rw [if_neg hc, if_neg hl]

theorem pair_spec (md : Option Meta) (l : List (String × String)) (vs : List (Option (List W))) (es : List (Emb W))
    (h : pair md l vs = some es) :
    es.map (fun e => e.id) = l.map Prod.fst ∧
    ∀ (i : Nat) p, l[i]? = some p → ∃ v, vs[i]? = some v ∧
      es[i]? = some { id := p.1, vector := v, content := p.2, metadata := md } := by
  induction l generalizing vs es with
  | nil => injection h with h; subst h; exact ⟨rfl, by simp⟩
  | cons q l ih =>
    cases vs with
    | nil => cases h
    | cons v vs =>
      obtain ⟨id, text⟩ := q
      rw [pair] at h
      obtain ⟨es', h1, rfl⟩ := Option.map_eq_some_iff.1 h
      obtain ⟨h2, h3⟩ := ih vs es' h1
      refine ⟨by simp [h2], ?_⟩
      intro i p hp
      cases i with
      | zero => simp only [List.getElem?_cons_zero, Option.some.injEq] at hp; subst hp; exact ⟨v, rfl, rfl⟩
      | succ i => simpa using h3 i p (by simpa using hp)

theorem pair_none (md : Option Meta) (l : List (String × String)) (vs : List (Option (List W))) :
    pair md l vs = none ↔ vs.length < l.length := by
  induction l generalizing vs with
  | nil => simp [pair]
  | cons q l ih =>
    obtain ⟨id, text⟩ := q
    cases vs with
    | nil => simp [pair]
    | cons v vs => simp [pair, ih]

/-! ### C164: one text -/

/-- A text that was inserted can be read back: its text, its metadata and the vector the embedder gave for it, adapted to
the dimension of the store; no other record changed. -/
theorem C164_inserted (env : Env W HI VI) (emb : Option (Embedder W)) (s : St W HI VI) (wf : WF s.db) (fk f : Bool)
    (id text : String) (md : Option Meta) (hok : (insertText env emb s fk f id text md).2 = .ok) :
    text ≠ "" ∧ (∃ E given v, emb = some E ∧ E.embed text = some given ∧ Kept env s.dim given v ∧
      payload (insertText env emb s fk f id text md).1 id = some ⟨v, text, "", md, []⟩) ∧
    Others s (insertText env emb s fk f id text md).1 [id] := by
  unfold insertText at hok ⊢
  cases emb with
  | none => cases hok
  | some E =>
    simp only [] at hok ⊢
    split at hok
    · cases hok
    · rename_i ht
      rw [if_neg ht]
      split at hok
      · cases hok
      · rename_i given hg
        obtain ⟨⟨v, hv, hp⟩, ho⟩ := upsert_written env s wf fk f _ (ofStore_ok.1 hok)
        simp only [hg]
        exact ⟨ht, ⟨E, given, v, rfl, hg, hv, hp⟩, ho⟩

/-- A text that was refused changes no record: no embedder, an empty text, an embedder error or a store error. -/
theorem C164_refused (env : Env W HI VI) (emb : Option (Embedder W)) (s : St W HI VI) (fk f : Bool)
    (id text : String) (md : Option Meta) (hok : (insertText env emb s fk f id text md).2 ≠ .ok) :
    (insertText env emb s fk f id text md).1.db = s.db := by
  unfold insertText at hok ⊢
  cases emb with
  | none => rfl
  | some E =>
    simp only [] at hok ⊢
    split
    · rfl
    · rename_i ht
      rw [if_neg ht] at hok
      split
      · rfl
      · rename_i given hg
        simp only [hg] at hok
        exact upsert_failed env s fk f _ (fun h => hok (ofStore_ok.2 h))

/-- The reasons to refuse come in this order, before the store is asked. -/
theorem C164_reasons (env : Env W HI VI) (E : Embedder W) (s : St W HI VI) (fk f : Bool) (id text : String)
    (md : Option Meta) :
    (insertText env none s fk f id text md).2 = .noEmbedder ∧
    (insertText env (some E) s fk f id "" md).2 = .emptyText ∧
    (text ≠ "" → E.embed text = none → (insertText env (some E) s fk f id text md).2 = .embedding) := by
  refine ⟨rfl, rfl, fun ht he => ?_⟩
  simp [insertText, ht, he]

/-! ### C165: a map of texts -/

/-- After a batch every non-empty text of the map is stored under its id with the vector the embedder gave for it, and no
other record changed: neither ids outside the map nor ids with an empty text. -/
theorem C165_batch (env : Env W HI VI) (emb : Option (Embedder W)) (s : St W HI VI) (wf : WF s.db) (fk : Bool)
    (f : Option Nat) (texts : List (String × String)) (hkeys : (texts.map Prod.fst).Nodup) (md : Option Meta)
    (hok : (insertTextBatch env emb s fk f texts md).2 = .ok) :
    (∀ (i : Nat) id text, (texts.filter (fun p => p.2 ≠ ""))[i]? = some (id, text) →
      ∃ E vs v, emb = some E ∧ E.embedBatch ((texts.filter (fun p => p.2 ≠ "")).map Prod.snd) = some vs ∧
        vs[i]? = some (some v) ∧
        payload (insertTextBatch env emb s fk f texts md).1 id = some ⟨v, text, "", md, []⟩) ∧
    Others s (insertTextBatch env emb s fk f texts md).1 ((texts.filter (fun p => p.2 ≠ "")).map Prod.fst) := by
  unfold insertTextBatch at hok ⊢
  cases emb with
  | none => cases hok
  | some E =>
    simp only [] at hok ⊢
    split
    · rename_i hl
      rw [List.length_eq_zero_iff.1 hl]
      exact ⟨nofun, fun _ _ => rfl⟩
    · rename_i hl
      rw [if_neg hl] at hok
      split at hok
      · cases hok
      · rename_i vs hvs
        split at hok
        · cases hok
        · rename_i es hes
          obtain ⟨h1, h2⟩ := pair_spec md _ vs es hes
          have hnd : (es.map (fun e => e.id)).Nodup := by
            rw [h1]; exact nodup_map_filter Prod.fst _ hkeys
          obtain ⟨h3, h4⟩ := batch_written env s wf fk f es hnd (ofStore_ok.1 hok)
          rw [h1] at h4
          refine ⟨?_, h4⟩
          intro i id text hi
          obtain ⟨given, hg, he⟩ := h2 i _ hi
          obtain ⟨v, hv, hp⟩ := h3 _ (List.mem_of_getElem? he)
          have hv : given = some v := hv
          subst hv
          exact ⟨E, vs, v, rfl, hvs, hg, hp⟩

/-- A batch that does not succeed changes nothing, also when it panics. -/
theorem C165_failed (env : Env W HI VI) (emb : Option (Embedder W)) (s : St W HI VI) (fk : Bool) (f : Option Nat)
    (texts : List (String × String)) (md : Option Meta) (hok : (insertTextBatch env emb s fk f texts md).2 ≠ .ok) :
    (insertTextBatch env emb s fk f texts md).1 = s := by
  unfold insertTextBatch at hok ⊢
  cases emb with
  | none => rfl
  | some E =>
    simp only [] at hok ⊢
    split
    · rfl
    · rename_i hl
      rw [if_neg hl] at hok
      split
      · rfl
      · rename_i vs hvs
        simp only [hvs] at hok
        split
        · rfl
        · rename_i es hes
          simp only [hes] at hok
          exact batch_failed env s fk f es (fun h => hok (ofStore_ok.2 h))

/-- The batch panics exactly when the embedder returns fewer vectors than it was given texts. -/
theorem C165_panic_violated (env : Env W HI VI) (E : Embedder W) (s : St W HI VI) (fk : Bool) (f : Option Nat)
    (texts : List (String × String)) (md : Option Meta) :
    (insertTextBatch env (some E) s fk f texts md).2 = .panic ↔
      ∃ vs, E.embedBatch ((texts.filter (fun p => p.2 ≠ "")).map Prod.snd) = some vs ∧
        vs.length < (texts.filter (fun p => p.2 ≠ "")).length := by
  unfold insertTextBatch
  simp only []
  split
  · rename_i hl
    rw [List.length_eq_zero_iff.1 hl]
    simp
  · split
    · rename_i he; rw [he]; simp
    · rename_i vs hvs
      rw [hvs]
      simp only [Option.some.injEq, exists_eq_left']
      rw [← pair_none md]
      split
      · rename_i hp; rw [hp]; simp
      · rename_i es hes
        rw [hes]
        simp only [reduceCtorEq, iff_false]
        cases (upsertBatch env s fk f es).2 <;> simp [ofStore]

/-- One text and a map of one text do not agree: the batch skips an empty text without an error. -/
theorem C165_agrees_violated (env : Env W HI VI) (E : Embedder W) (s : St W HI VI) (fk : Bool) (id : String)
    (md : Option Meta) :
    (insertTextBatch env (some E) s fk none [(id, "")] md) = (s, .ok) ∧
    (insertText env (some E) s fk false id "" md).2 = .emptyText := ⟨by simp [insertTextBatch], rfl⟩

/-! ### C166: the quick interface -/

/-- A vector added under a fresh id can be read back and no other record changed: nothing that was stored is lost. -/
theorem C166_add (env : Env W HI VI) (s : St W HI VI) (wf : WF s.db) (fk f : Bool) (id coll content : String)
    (given : Option (List W)) (hfresh : payload s id = none)
    (hok : (quickAdd env s fk f id coll given content).2.2 = .ok) :
    (quickAdd env s fk f id coll given content).2.1 = id ∧
    (∃ v, Kept env s.dim given v ∧
      payload (quickAdd env s fk f id coll given content).1 id = some ⟨v, content, "", none, []⟩) ∧
    ∀ j p, payload s j = some p → payload (quickAdd env s fk f id coll given content).1 j = some p := by
  unfold quickAdd at hok ⊢
  obtain ⟨⟨v, hv, hp⟩, ho⟩ := upsert_written env s wf fk f _ (ofStore_ok.1 hok)
  refine ⟨rfl, ⟨v, hv, hp⟩, ?_⟩
  intro j p hj
  have : j ≠ id := by rintro rfl; rw [hfresh] at hj; cases hj
  rw [← hj]
  exact ho j (by simpa using this)

/-- The same for a text. -/
theorem C166_addText (env : Env W HI VI) (emb : Option (Embedder W)) (s : St W HI VI) (wf : WF s.db) (fk f : Bool)
    (id coll text : String) (md : Option Meta) (hfresh : payload s id = none)
    (hok : (quickAddText env emb s fk f id coll text md).2.2 = .ok) :
    (quickAddText env emb s fk f id coll text md).2.1 = id ∧
    (∃ E given v, emb = some E ∧ E.embed text = some given ∧ Kept env s.dim given v ∧
      payload (quickAddText env emb s fk f id coll text md).1 id = some ⟨v, text, "", md, []⟩) ∧
    ∀ j p, payload s j = some p → payload (quickAddText env emb s fk f id coll text md).1 j = some p := by
  unfold quickAddText at hok ⊢
  cases emb with
  | none => cases hok
  | some E =>
    simp only [] at hok ⊢
    split at hok
    · cases hok
    · rename_i given hg
      obtain ⟨⟨v, hv, hp⟩, ho⟩ := upsert_written env s wf fk f _ (ofStore_ok.1 hok)
      simp only [hg]
      refine ⟨trivial, ⟨E, given, v, rfl, hg, hv, hp⟩, ?_⟩
      intro j p hj
      have : j ≠ id := by rintro rfl; rw [hfresh] at hj; cases hj
      rw [← hj]
      exact ho j (by simpa using this)

/-- A failed call stores nothing; the plain one still hands out an id. -/
theorem C166_failed (env : Env W HI VI) (emb : Option (Embedder W)) (s : St W HI VI) (fk f : Bool)
    (id coll text : String) (given : Option (List W)) (md : Option Meta) :
    ((quickAdd env s fk f id coll given text).2.2 ≠ .ok →
      (quickAdd env s fk f id coll given text).1.db = s.db ∧ (quickAdd env s fk f id coll given text).2.1 = id) ∧
    ((quickAddText env emb s fk f id coll text md).2.2 ≠ .ok →
      (quickAddText env emb s fk f id coll text md).1.db = s.db) := by
  constructor
  · intro h
    exact ⟨upsert_failed env s fk f _ (fun h0 => h (ofStore_ok.2 h0)), rfl⟩
  · intro h
    unfold quickAddText at h ⊢
    cases emb with
    | none => rfl
    | some E =>
      simp only [] at h ⊢
      split
      · rfl
      · rename_i v hv
        simp only [hv] at h
        exact upsert_failed env s fk f _ (fun h0 => h (ofStore_ok.2 h0))

/-- The quick interface accepts an empty text that `InsertText` refuses. -/
theorem C166_empty_violated (env : Env W HI VI) (E : Embedder W) (s : St W HI VI) (fk f : Bool) (id : String)
    (md : Option Meta) (given : Option (List W)) (he : E.embed "" = some given) :
    (quickAddText env (some E) s fk f id "" "" md).2.2 =
      ofStore (upsert env s fk f { id := id, vector := given, content := "", metadata := md }).2 ∧
    (insertText env (some E) s fk f id "" md).2 = .emptyText := ⟨by simp [quickAddText, he], rfl⟩

/-! ### C167: what `Info` reports -/

/-- `Info` reports the path, the dimension and the index the database was opened with; an index that is reported is the
one that is enabled. -/
theorem C167_info (path : String) (dim : Nat) (index : IndexType) (sim : String) :
    (info (openConfig path dim index sim)).path = path ∧ (info (openConfig path dim index sim)).dim = dim ∧
    ((info (openConfig path dim index sim)).index = "HNSW" ↔ (openConfig path dim index sim).hnswEnabled = true) ∧
    ((info (openConfig path dim index sim)).index = "IVF" ↔ (openConfig path dim index sim).ivfEnabled = true) := by
  refine ⟨rfl, rfl, ?_, ?_⟩ <;> cases index <;> simp [info, openConfig]

/-- The similarity it reports is "cosine" whatever the database was opened with. -/
theorem C167_similarity_violated (path : String) (dim : Nat) (index : IndexType) (sim : String) :
    (info (openConfig path dim index sim)).sim = "cosine" := rfl

/-! ### Concrete cases -/

def demoEnv : Env Nat Unit Unit :=
  ⟨fun v _ n => some (v.take n), fun h _ _ => h, fun h _ => h, fun i _ _ => i, fun i _ => i, fun _ => false⟩

def demoEmbedder : Embedder Nat := ⟨fun t => some (some [t.length, 1]), fun ts => some (ts.map fun t => some [t.length, 1])⟩

/-- The hypotheses of the theorems of C164, C165 and C166 hold on a new store. -/
example : WF (init (W := Nat) (HI := Unit) (VI := Unit) 2 none none).db ∧
    (insertText demoEnv (some demoEmbedder) (init 2 none none) true false "a" "hello" none).2 = .ok ∧
    (insertTextBatch demoEnv (some demoEmbedder) (init 2 none none) true none [("a", "x"), ("b", ""), ("c", "yz")]
      none).2 = .ok ∧
    (quickAdd demoEnv (init 2 none none) true false "q" "" (some [1, 2]) "t").2.2 = .ok ∧
    (quickAddText demoEnv (some demoEmbedder) (init 2 none none) true false "q" "" "t" none).2.2 = .ok ∧
    payload (init (W := Nat) (HI := Unit) (VI := Unit) 2 none none) "q" = none ∧
    (insertTextBatch demoEnv (some ⟨demoEmbedder.embed, fun _ => some []⟩) (init 2 none none) true none [("a", "x")]
      none).2 = .panic := by
  refine ⟨init_wf 2 none none, ?_, ?_, ?_, ?_, rfl, ?_⟩ <;> decide +kernel

end Verif.Facade
