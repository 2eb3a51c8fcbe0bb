import Verif.Thm.Narrow
import Verif.Thm.Diversity
import Verif.Thm.Flat
import Verif.Thm.Chat
import Verif.Thm.GraphHybrid

/-!
C253: a database without records, new or emptied, answers every valid search with nothing.
-/
namespace Verif.Thm.Search
open Verif.Model.Store Verif.Model.Search Verif.Base Verif.Spec Verif.Thm.StoreProps

variable {W HI VI : Type}

theorem sort_nil (c : Cfg W) (hs : SortsDesc c.sort) : c.sort [] = [] := List.Perm.eq_nil (hs []).1

theorem serve_empty (c : Cfg W) (hs : SortsDesc c.sort) (via : Serve W) (s : St W HI VI) (he : s.db.embeddings = []) (q : List W) (o : Opts) :
    serve c via s q o = [] := by
  have hl : ∀ o : Opts, searchLinear c s.db q o = [] := by
    intro o
    unfold searchLinear scoreCandidates fetchCandidates
    simp [he, sort_nil c hs]
  have hp : ∀ (ids : List String) (o : Opts), processCandidates c q (fetchByIDs s.db ids) o = [] := by
    intro ids o
    unfold processCandidates fetchByIDs
    simp [he, sort_nil c hs]
  cases via with
  | linear => exact hl o
  | hnsw p => simp only [serve, searchWithHNSW, hl, hp, ite_self]
  | ivf p =>
    simp only [serve, searchWithIVF, hl, hp, ite_self]
    split <;> rfl

/-- C253, vector search by any index, whatever stale ids the index proposes; fused search, whatever stale ids the keyword index proposes;
search with access control. -/
theorem C253_store (c : Cfg W) (hs : SortsDesc c.sort) (via : Serve W) (s : St W HI VI) (he : s.db.embeddings = []) (hcl : s.closed = false)
    (query q : List W) (hq : prepareQuery c s query = .ok q) (o : Opts) (fts ps : List String) (k : ℚ) :
    search c via s query o = .ok [] ∧ hybridSearch c via s query fts o k = .ok [] ∧ searchWithACL c s query ps o = .ok [] := by
  have h1 : search c via s query o = .ok [] := by
    unfold search
    rw [hq]
    simp only [serve_empty c hs via s he]
  refine ⟨h1, ?_, ?_⟩
  · unfold hybridSearch
    rw [hcl, h1]
    simp [he, fuseVector, sort_nil c hs]
  · unfold searchWithACL scoreAndSort
    rw [hcl]
    simp [he, sort_nil c hs]

/-- A store whose records were all deleted. -/
def emptied : St Nat Unit Unit := run env0 store1 [.delete false "a", .delete false "b", .delete false "e"]

example : emptied.db.embeddings = [] ∧ emptied.closed = false ∧ prepareQuery cfg0 emptied [1, 1] = .ok [1, 1] := ⟨by decide, by decide, rfl⟩

end Verif.Thm.Search

namespace Verif.Range
open Verif.Model.Store Verif.Model.Search Verif.Base Verif.Spec Verif.Thm.Search

variable {W HI VI : Type}

/-- C253, range search. -/
theorem C253_range (c : Cfg W) (sortAsc : List (Hit W) → List (Hit W)) (hs : ∀ l, (sortAsc l).Perm l) (s : St W HI VI)
    (he : s.db.embeddings = []) (hcl : s.closed = false) (query : List W) (r : ℚ) (hr : 0 < r) (o : Opts) :
    rangeSearch c sortAsc s query r o = .ok [] := by
  have : sortAsc [] = [] := List.Perm.eq_nil (hs [])
  unfold rangeSearch within fetchCandidates
  rw [hcl, if_neg (by simp), if_neg (not_le.2 hr)]
  simp [he, this]

end Verif.Range

namespace Verif.Diversity
open Verif.Model.Store Verif.Model.Search Verif.Base Verif.Rerank Verif.Thm.Search

variable {W HI VI : Type}

/-- C253, diversified search, for limits that are not negative. -/
theorem C253_diverse_partial (c : Cfg W) (hs : SortsDesc c.sort) (via : Serve W) (root : ℚ → ℚ) (perm : Nat → List Nat) (s : St W HI VI)
    (he : s.db.embeddings = []) (hcl : s.closed = false) (query q : List W) (hq : prepareQuery c s query = .ok q) (o : DivOpts)
    (hk : 0 ≤ o.base.topK) : searchWithDiversity c via root perm s query o = .ok [] := by
  unfold searchWithDiversity
  rw [hcl, (C253_store c hs via s he hcl query q hq { o.base with topK := o.base.topK * 3 } [] [] 0).1]
  simp only
  cases o.method with
  | mmr => rfl
  | distance => rfl
  | dpp => simp [diversifyDPP, hk]
  | random => simp [diversifyRandom, hk]

/-- C253 violated: with a negative limit the random choice panics on every store without records. -/
theorem C253_random_violated (c : Cfg W) (hs : SortsDesc c.sort) (via : Serve W) (root : ℚ → ℚ) (perm : Nat → List Nat) (s : St W HI VI)
    (he : s.db.embeddings = []) (hcl : s.closed = false) (query q : List W) (hq : prepareQuery c s query = .ok q) (o : DivOpts)
    (hm : o.method = .random) (hk : o.base.topK < 0) : searchWithDiversity c via root perm s query o = .error .panic := by
  have e : diversifyRandom perm c.sort o.base.topK ([] : List (Hit W)) = none := by
    unfold diversifyRandom
    simp only
    rw [if_neg (by simp; omega), if_pos]
    split
    · simp at *; omega
    · omega
  unfold searchWithDiversity
  rw [hcl, (C253_store c hs via s he hcl query q hq { o.base with topK := o.base.topK * 3 } [] [] 0).1]
  simp only [hm, e]
  rfl

/-- C253, search with a reranker: the reranker is not asked. -/
theorem C253_rerank (c : Cfg W) (hs : SortsDesc c.sort) (via : Serve W) (s : St W HI VI) (he : s.db.embeddings = []) (hcl : s.closed = false)
    (query q : List W) (hq : prepareQuery c s query = .ok q) (text : String) (rr : Option (Reranker W)) (o : RerankOpts) :
    searchWithReranker c via s query text rr o = .ok [] := by
  unfold searchWithReranker
  rw [hcl]
  cases rr with
  | none =>
    simp only [(C253_store c hs via s he hcl query q hq { topK := o.topK } [] [] 0).1]
    rfl
  | some rr =>
    simp only [(C253_store c hs via s he hcl query q hq { topK := if o.topK * 5 < 50 then 50 else o.topK * 5 } [] [] 0).1]
    rfl

end Verif.Diversity

namespace Verif.Flat
open Verif.Base

variable {V : Type}

/-- C253, exact index: after any history that leaves nothing, for every number asked for. -/
theorem C253_flat (E : Env V) (d : Nat) (ops : List (Op V)) (he : ∀ x, after E.dim d ops x = none)
    (o : List (String × V) → List (String × V)) (ho : ∀ l, (o l).Perm l) (q : V) (k : Int) (r : ℚ) :
    rangeSearch E (run E (new V d) ops) o q r = [] ∧ search E (run E (new V d) ops) o q k = some [] := by
  constructor
  · by_cases hq : E.dim q = d
    · refine List.eq_nil_iff_forall_not_mem.2 ?_
      rintro ⟨x, y⟩ hx
      obtain ⟨_, v, hv, _⟩ := (((C35_range_exact E d ops o ho q r).2 hq).2.2 x y).1 hx
      rw [he x] at hv
      cases hv
    · exact (C35_range_exact E d ops o ho q r).1 hq
  · have hi := inv_new E d ops
    have hv : (run E (new V d) ops).vecs = [] := by
      refine List.eq_nil_iff_forall_not_mem.2 ?_
      rintro ⟨x, v⟩ hx
      have := (mem_get hi.keys _ _).1 hx
      rw [hi.holds, he x] at this
      cases this
    unfold search
    by_cases hq : E.dim q ≠ (run E (new V d) ops).dimension
    · rw [if_pos hq]
    · rw [if_neg hq, if_pos hv]

example : ∀ x, after lineEnv.dim 1 [Op.insert "a" 1, .insert "b" 2, .delete "a", .clear] x = none := fun _ => rfl

end Verif.Flat

namespace Verif.Chat
open Verif.Base

variable {S : Type*} [LinearOrder S]

/-- C253, a session without messages. -/
theorem C253_chat (c : Cfg S) (ho : ∀ l, (c.orderDesc l).Perm l) (s : State) (hcl : s.closed = false) (session : String)
    (he : ∀ m ∈ s.messages, m.session ≠ session) (q : List Int) (k : Int) (hk : 0 ≤ k) :
    getSessionHistory c s session k = .ok [] ∧ searchChatHistory c s q session k = .ok [] := by
  have h1 : s.messages.filter (fun m => m.session == session) = [] := by
    rw [List.filter_eq_nil_iff]; intro m hm; simpa using he m hm
  have h2 : s.messages.filter (fun m => m.session == session && m.vector.isSome) = [] := by
    rw [List.filter_eq_nil_iff]; intro m hm; simp [he m hm]
  have h3 : c.orderDesc [] = [] := List.Perm.eq_nil (ho [])
  unfold getSessionHistory searchChatHistory sqlLimit rank
  rw [h1, h2, h3]
  simp [hcl, not_lt.2 hk, exchangeSort]

example : (run init ops1).closed = false ∧ ∀ m ∈ (run init ops1).messages, m.session ≠ "nobody" := by decide

end Verif.Chat

namespace Verif.Graph
open Verif.Base Verif.Spec

/-- C253, graph without nodes: hybrid search gives nothing, also around a start node that does not exist. -/
theorem C253_graph (sim : List ℚ → List ℚ → ℚ) (sort : List HResult → List HResult) (hs : ∀ l, (sort l).Perm l) (s : State) (hn : s.nodes = [])
    (index : Option (List String)) (q : HQuery) (out : List HResult) (h : hybridSearch sim sort s index q = some out) : out = [] := by
  have h0 : sort [] = [] := List.Perm.eq_nil (hs [])
  have hg : ∀ i, getNode s i = none := by intro i; unfold getNode; rw [hn]; rfl
  have ha : ∀ t, allNodes s t = [] := by intro t; unfold allNodes; rw [hn]; rfl
  have hv : vectorHits sim s index q = [] := by
    unfold vectorHits vectorCandidates
    split
    · rfl
    · cases index with
      | none => simp [ha]
      | some ids => simp [ha, hg]
  unfold hybridSearch at h
  split at h
  · cases h
  · rename_i dist _
    have hp : hybridPool sim s q (normWeights q.weights) [] dist = [] := by
      unfold hybridPool
      simp [hg]
    rw [hv, hp, h0] at h
    simp only [List.take_nil, ite_self, Option.some.injEq] at h
    exact h.symm

/-- An edge that outlived its nodes on a connection without foreign keys. -/
example : (hybridSearch (fun _ _ => 1) id { small with nodes := [] } none
    { vector := [1], start := "a", filter := ⟨[], [], 2⟩, weights := ⟨1, 1, 0⟩, threshold := 0, topK := 5 }) = some [] := by decide +kernel

end Verif.Graph
