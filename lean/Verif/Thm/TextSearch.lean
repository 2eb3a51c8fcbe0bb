import Verif.Model.TextSearch
import Verif.Thm.Facade
import Verif.Thm.Search
import Verif.Thm.SearchRefuse

/-! C185: a text that was inserted is found by searching for it. -/
namespace Verif.Facade
open Verif.Model.Store Verif.Model.Search Verif.Spec Verif.Base Verif.Thm.Search
open Verif.Thm.Store (WF payload)
open Verif.Thm.StoreProps (InColl)

variable {W HI VI : Type}

/-- The answer to a search that must bring record `id` with score `best` to the top: the record is there, or as many other
records as were asked for have at least this score. -/
def Found (out : List (Hit W)) (k : Nat) (id text : String) (best : ℚ) : Prop :=
  (∃ h ∈ out, h.id = id ∧ h.content = text ∧ h.score = best) ∨ (out.length = k ∧ ∀ h ∈ out, best ≤ h.score)

theorem topK_found {pool out : List (Hit W)} {k : Nat} (t : IsTopK (fun x : Hit W => x.score) pool k out)
    (h : Hit W) (hm : h ∈ pool) : h ∈ out ∨ (out.length = k ∧ ∀ x ∈ out, h.score ≤ x.score) := by
  obtain ⟨rest, hp, hb⟩ := t.best
  rcases List.mem_append.1 (hp.mem_iff.2 hm) with hi | hr
  · exact .inl hi
  · refine .inr ⟨?_, fun x hx => hb h hr x hx⟩
    have hl := hp.length_eq
    have hs := t.size
    have : 0 < rest.length := List.length_pos_of_mem hr
    simp only [List.length_append] at hl
    omega

/-- C185: in every state in which a record has the vector of the query text, the search for the text returns this record
with the score of the vector with itself, unless as many records as were asked for score at least as well. No index. -/
theorem C185_present (c : Cfg W) (hsort : SortsDesc c.sort) (hts : c.textSim = none) (s : St W HI VI) (wf : WF s.db)
    (E : Embedder W) (given : Option (List W)) (text : String) (k : Int)
    (hE : E.embed text = some given) (q : List W) (hq : prepareQuery c s (given.getD []) = .ok q) (ht : text ≠ "")
    (r : Row W) (hr : r ∈ s.db.embeddings) (hv : r.vector = q) :
    ∃ out, searchText c .linear (some E) s "" text k = .ok out ∧
      Found out (if k ≤ 0 then 10 else k.toNat) r.id r.content (c.sim q q) := by
  have hs : search c .linear s (given.getD []) { collection := "", topK := k, queryText := text } =
      .ok (serve c .linear s q { collection := "", topK := k, queryText := text }) := by
    unfold search; rw [hq]
  refine ⟨serve c .linear s q { collection := "", topK := k, queryText := text }, ?_, ?_⟩
  · unfold searchText
    simp only [ht, if_false, hE, hs]
  · obtain ⟨q', hq', t⟩ := C09_linear_topK c hsort s wf _ _ _ hs
    rw [hq] at hq'
    injection hq' with hq'
    subst hq'
    have hsc : combine c { collection := "", topK := k, queryText := text } q (scan s.db r) = c.sim q q := by
      simp [combine, hts, scan, hv]
    have hm := topK_found t (hitOf c s.db { collection := "", topK := k, queryText := text } q r) (by
      refine List.mem_map_of_mem (List.mem_filter.2 ⟨hr, ?_⟩)
      classical
      rw [decide_eq_true_eq]
      exact ⟨⟨fun h => absurd rfl h, by simp [FilterOK]⟩, fun h => absurd h (lt_irrefl _)⟩)
    rcases hm with hi | ⟨hl, hall⟩
    · exact .inl ⟨_, hi, rfl, rfl, hsc⟩
    · refine .inr ⟨hl, fun x hx => ?_⟩
      have := hall x hx
      change combine c _ q (scan s.db r) ≤ x.score at this
      rwa [hsc] at this

/-- The dimension of the store after a write that succeeded. -/
theorem upsert_dim (env : Env W HI VI) (s : St W HI VI) (fk f : Bool) (e : Emb W) (hok : (upsert env s fk f e).2 = .ok) :
    (upsert env s fk f e).1.dim = (if s.dim = 0 then (e.vector.getD []).length else s.dim) ∧
      (upsert env s fk f e).1.closed = s.closed ∧ s.closed = false := by
  unfold upsert at hok ⊢
  cases hc : s.closed with
  | true => simp [hc] at hok
  | false =>
    simp only [hc, Bool.false_eq_true, if_false] at hok ⊢
    split at hok
    · cases hok
    · split at hok
      · cases hok
      · split at hok
        · cases hok
        · split at hok
          · cases hok
          · rename_i v hv _ row hrow hf _ db' hi
            simp only [hv, hrow, hi, if_neg hf]
            split <;> simp_all

/-- C185: a text that was just inserted is found by searching for it, in a store without an index whose similarity ranks
no vector above the query itself: the record is in the answer, with its text, unless all records of the answer are as
similar to the query as the query itself. -/
theorem C185_found_partial (env : Env W HI VI) (c : Cfg W) (finite : W → Bool) (hval : Verif.Thm.SearchRefuse.Validates c finite)
    (hsort : SortsDesc c.sort) (hts : c.textSim = none) (had : c.adapt = env.adapt) (E : Embedder W) (s : St W HI VI)
    (wf : WF s.db) (fk f : Bool) (id text : String) (md : Option Meta)
    (hok : (insertText env (some E) s fk f id text md).2 = .ok)
    (hlen : ∀ v n w, env.adapt v v.length n = some w → w.length = n)
    (hfin : ∀ p, payload (insertText env (some E) s fk f id text md).1 id = some p →
      Verif.Thm.SearchRefuse.Usable finite p.vector)
    (hself : ∀ a b, c.sim a b ≤ c.sim a a) (k : Int) :
    ∃ out q, searchText c .linear (some E) (insertText env (some E) s fk f id text md).1 "" text k = .ok out ∧
      ((∃ h ∈ out, h.id = id ∧ h.content = text ∧ h.score = c.sim q q) ∨
        (out.length = (if k ≤ 0 then 10 else k.toNat) ∧ ∀ h ∈ out, h.score = c.sim q q)) := by
  obtain ⟨ht, ⟨E', given, v, hE', hg, hk, hp⟩, -⟩ := C164_inserted env (some E) s wf fk f id text md hok
  injection hE' with hE'
  subst hE'
  have hu : insertText env (some E) s fk f id text md =
      ((upsert env s fk f { id := id, vector := given, content := text, metadata := md }).1,
        ofStore (upsert env s fk f { id := id, vector := given, content := text, metadata := md }).2) := by
    unfold insertText; simp [ht, hg]
  have hok' : (upsert env s fk f { id := id, vector := given, content := text, metadata := md }).2 = .ok := by
    rw [hu] at hok; exact ofStore_ok.1 hok
  obtain ⟨hd, hcl, hop⟩ := upsert_dim env s fk f _ hok'
  have hus := hfin _ hp
  have wf' : WF (insertText env (some E) s fk f id text md).1.db := by
    rw [hu]
    exact (Verif.Thm.Store.step_cases env s wf (.upsert fk f { id := id, vector := given, content := text, metadata := md }) id).1
  generalize hs' : (insertText env (some E) s fk f id text md).1 = t at hp wf' hus ⊢
  have hd' : t.dim = (if s.dim = 0 then (given.getD []).length else s.dim) := by rw [← hs', hu]; exact hd
  have hc' : t.closed = false := by rw [← hs', hu]; exact hcl.trans hop
  have hq : prepareQuery c t (given.getD []) = .ok v := by
    rw [Verif.Thm.SearchRefuse.prepare_iff c finite hval]
    unfold Kept at hk
    refine ⟨hc', hus, ?_⟩
    by_cases h0 : s.dim = 0
    · rw [if_pos (.inl h0)] at hk
      rw [if_pos h0] at hd'
      subst hk
      simp only [Option.getD_some] at hd' ⊢
      refine ⟨.inr hd'.symm, ?_⟩
      rw [if_neg (fun h => h.2 hd'.symm)]
      trivial
    · rw [if_neg h0] at hd'
      by_cases hl : s.dim = (given.getD []).length
      · rw [if_pos (.inr hl)] at hk
        subst hk
        simp only [Option.getD_some] at hl ⊢
        refine ⟨.inr (by omega), ?_⟩
        rw [if_neg (fun h => h.2 (by omega))]
        trivial
      · rw [if_neg (by simp [h0, hl])] at hk
        refine ⟨.inr ((hlen _ _ _ hk).trans hd'.symm), ?_⟩
        rw [if_pos ⟨by omega, by omega⟩, had, hd']
        exact hk
  rw [Verif.Thm.Store.payload_eq] at hp
  obtain ⟨r, hr, hrp⟩ := Option.map_eq_some_iff.1 hp
  have hmem := List.mem_of_find?_eq_some hr
  have hid : r.id = id := by simpa using List.find?_some hr
  have hvec : r.vector = v := congrArg Verif.Thm.Store.Payload.vector hrp
  have hcon : r.content = text := congrArg Verif.Thm.Store.Payload.content hrp
  obtain ⟨out, ho, hf⟩ := C185_present c hsort hts t wf' E given text k hg v hq ht r hmem hvec
  refine ⟨out, v, ho, ?_⟩
  rcases hf with ⟨h, hm, h1, h2, h3⟩ | ⟨hl, hall⟩
  · exact .inl ⟨h, hm, h1.trans hid, h2.trans hcon, h3⟩
  · refine .inr ⟨hl, fun h hm => le_antisymm ?_ (hall h hm)⟩
    have hs : search c .linear t (given.getD []) { collection := "", topK := k, queryText := text } =
        .ok (serve c .linear t v { collection := "", topK := k, queryText := text }) := by
      unfold search; rw [hq]
    have hout : out = serve c .linear t v { collection := "", topK := k, queryText := text } := by
      unfold searchText at ho
      simp only [ht, if_false, hg, hs] at ho
      injection ho with ho
      exact ho.symm
    obtain ⟨q', hq', tk⟩ := C09_linear_topK c hsort t wf' _ _ _ hs
    rw [hq] at hq'
    injection hq' with hq'
    subst hq'
    obtain ⟨rest, hperm, -⟩ := tk.best
    rw [hout] at hm
    have hpool := hperm.mem_iff.1 (List.mem_append_left rest hm)
    obtain ⟨r', -, hr'⟩ := List.mem_map.1 hpool
    rw [← hr']
    change combine c _ v (scan t.db r') ≤ _
    simp only [combine, hts]
    have := hself v r'.vector
    simpa [scan] using this

/-- C185: the text searches are refused without an embedder, for the empty text and when the embedder fails, and for no
other reason than those of the search with the embedder's vector. -/
theorem C185_refused (c : Cfg W) (via : Serve W) (emb : Option (Embedder W)) (s : St W HI VI) (coll query : String)
    (k : Int) :
    (searchText c via emb s coll query k = .error .noEmbedder ↔ emb = none) ∧
      (searchText c via emb s coll query k = .error .emptyText ↔ emb ≠ none ∧ query = "") ∧
      (searchText c via emb s coll query k = .error .embedding ↔
        ∃ E, emb = some E ∧ query ≠ "" ∧ E.embed query = none) ∧
      ∀ e, searchText c via emb s coll query k = .error (.store e) ↔
        ∃ E v, emb = some E ∧ query ≠ "" ∧ E.embed query = some v ∧
          quickSearch c via s coll (v.getD []) k = .error e := by
  have hsame : ∀ (v : List W) e, search c via s v { collection := coll, topK := k, queryText := query } = .error e ↔
      quickSearch c via s coll v k = .error e := by
    intro v e
    unfold quickSearch search
    cases prepareQuery c s v <;> simp
  cases emb with
  | none => simp [searchText]
  | some E =>
    by_cases hq : query = ""
    · simp [searchText, hq]
    · cases hE : E.embed query with
      | none => simp [searchText, hq, hE]
      | some v =>
        cases hs : search c via s (v.getD []) { collection := coll, topK := k, queryText := query } with
        | ok hs' =>
          have : ∀ e, quickSearch c via s coll (v.getD []) k ≠ .error e := by
            intro e h
            rw [← hsame, hs] at h
            cases h
          simp [searchText, hq, hE, hs, this]
        | error er =>
          have : ∀ e, quickSearch c via s coll (v.getD []) k = .error e ↔ er = e := by
            intro e
            rw [← hsame, hs]
            simp
          simp [searchText, hq, hE, hs, this]

/-- C185: every hit of a text search in a collection is in the collection. -/
theorem C185_collection (c : Cfg W) (hsort : SortsDesc c.sort) (E : Embedder W) (s : St W HI VI) (wf : WF s.db)
    (coll query : String) (hc : coll ≠ "") (k : Int) (out : List (Hit W))
    (h : searchText c .linear (some E) s coll query k = .ok out) :
    ∀ x ∈ out, ∃ r ∈ s.db.embeddings, shows x r ∧ InColl s.db r coll := by
  unfold searchText at h
  simp only [] at h
  split at h
  · cases h
  · split at h
    · cases h
    · rename_i v hv
      split at h
      · cases h
      · rename_i hs hh
        injection h with h
        subst h
        obtain ⟨q, -, t⟩ := C09_linear_topK c hsort s wf _ _ _ hh
        intro x hx
        obtain ⟨rest, hp, -⟩ := t.best
        obtain ⟨r, hr, hx'⟩ := List.mem_map.1 (hp.mem_iff.1 (List.mem_append_left rest hx))
        obtain ⟨h1, h2⟩ := List.mem_filter.1 hr
        classical
        rw [decide_eq_true_eq] at h2
        subst hx'
        exact ⟨r, h1, ⟨rfl, rfl, rfl, rfl, rfl⟩, h2.1.1 hc⟩

/-! ### Examples and the violation for the dot product -/

def dot (a b : List Nat) : ℚ := ((List.zipWith (· * ·) a b).sum : ℕ)

def insHit (x : Hit Nat) : List (Hit Nat) → List (Hit Nat)
  | [] => [x]
  | y :: ys => if y.score ≤ x.score then x :: y :: ys else y :: insHit x ys

def sortHits (l : List (Hit Nat)) : List (Hit Nat) := l.foldr insHit []

theorem insHit_perm (x : Hit Nat) (l : List (Hit Nat)) : (insHit x l).Perm (x :: l) := by
  induction l with
  | nil => exact .refl _
  | cons y ys ih =>
    unfold insHit
    split
    · exact .refl _
    · exact (ih.cons y).trans (.swap x y ys)

theorem insHit_sorted (x : Hit Nat) (l : List (Hit Nat)) (h : l.Pairwise (fun a b => b.score ≤ a.score)) :
    (insHit x l).Pairwise (fun a b => b.score ≤ a.score) := by
  induction l with
  | nil => simp [insHit]
  | cons y ys ih =>
    unfold insHit
    split
    · rename_i hy
      refine List.Pairwise.cons (fun z hz => ?_) h
      rcases List.mem_cons.1 hz with rfl | hz
      · exact hy
      · exact le_trans ((List.pairwise_cons.1 h).1 z hz) hy
    · rename_i hy
      obtain ⟨h1, h2⟩ := List.pairwise_cons.1 h
      refine List.Pairwise.cons (fun z hz => ?_) (ih h2)
      rcases List.mem_cons.1 ((insHit_perm x ys).mem_iff.1 hz) with rfl | hz
      · exact le_of_lt (not_le.1 hy)
      · exact h1 z hz

theorem sortHits_sorts : SortsDesc sortHits := by
  intro l
  induction l with
  | nil => exact ⟨.refl _, .nil⟩
  | cons x l ih => exact ⟨(insHit_perm x _).trans (ih.1.cons x), insHit_sorted x _ ih.2⟩

def exCfg (sim : List Nat → List Nat → ℚ) : Cfg Nat :=
  { sim := sim, textSim := none, textEnabled := true, defaultWeight := 0, validQuery := validateVector (fun _ => true)
    adapt := demoEnv.adapt, sort := sortHits }

/-- A similarity that is greatest for equal vectors. -/
def eqSim (a b : List Nat) : ℚ := if a = b then 1 else 0

def exStore2 : St Nat Unit Unit :=
  (insertText demoEnv (some demoEmbedder) (init 2 none none) true false "long" "a long text" none).1

/-- **C185**: with the dot product, a text that was just inserted is not found by searching for it: a record with a longer
vector is ranked above it. -/
theorem C185_dot_violated :
    (insertText demoEnv (some demoEmbedder) exStore2 true false "short" "ab" none).2 = .ok ∧
      ∃ out, searchText (exCfg dot) .linear (some demoEmbedder)
          (insertText demoEnv (some demoEmbedder) exStore2 true false "short" "ab" none).1 "" "ab" 1 = .ok out ∧
        out.map (fun h => h.id) = ["long"] := by
  refine ⟨by decide +kernel, ?_⟩
  cases h : searchText (exCfg dot) .linear (some demoEmbedder)
      (insertText demoEnv (some demoEmbedder) exStore2 true false "short" "ab" none).1 "" "ab" 1 with
  | error e =>
    exfalso
    have : (searchText (exCfg dot) .linear (some demoEmbedder)
      (insertText demoEnv (some demoEmbedder) exStore2 true false "short" "ab" none).1 "" "ab" 1).toOption.isSome = true := by
      decide +kernel
    rw [h] at this
    simp [Except.toOption] at this
  | ok out =>
    refine ⟨out, rfl, ?_⟩
    have : ((searchText (exCfg dot) .linear (some demoEmbedder)
      (insertText demoEnv (some demoEmbedder) exStore2 true false "short" "ab" none).1 "" "ab" 1).toOption.getD []).map
        (fun h => h.id) = ["long"] := by decide +kernel
    rw [h] at this
    simpa [Except.toOption] using this

/-- The hypotheses of `C185_found_partial` hold. -/
example : SortsDesc (exCfg eqSim).sort ∧ Verif.Thm.SearchRefuse.Validates (exCfg eqSim) (fun _ => true) ∧
    (exCfg eqSim).textSim = none ∧ (exCfg eqSim).adapt = demoEnv.adapt ∧ (∀ a b, (exCfg eqSim).sim a b ≤ (exCfg eqSim).sim a a) ∧
    (insertText demoEnv (some demoEmbedder) (init 2 none none) true false "short" "ab" none).2 = .ok := by
  refine ⟨sortHits_sorts, fun _ => rfl, rfl, rfl, ?_, by decide +kernel⟩
  intro a b
  simp only [exCfg, eqSim]
  split <;> simp

example : ((searchText (exCfg eqSim) .linear (some demoEmbedder)
      (insertText demoEnv (some demoEmbedder) exStore2 true false "short" "ab" none).1 "" "ab" 1).toOption.getD []).map
        (fun h => h.id) = ["short"] := by decide +kernel

end Verif.Facade
