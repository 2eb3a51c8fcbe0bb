import Verif.Thm.Narrow
import Verif.Thm.Chat
import Verif.Thm.Memory
import Verif.Thm.GraphTools
import Verif.Thm.RouteBatch
import Verif.Thm.Diversity
import Verif.Thm.Flat
import Verif.Model.GraphHybrid

/-!
C252: a limit that is not positive means a default number of results.
-/
namespace Verif.Thm.Search
open Verif.Model.Store Verif.Model.Search Verif.Base Verif.Spec Verif.Thm.StoreProps

variable {W HI VI : Type}

/-- C252, vector search by any index: ten. -/
theorem C252_search (c : Cfg W) (via : Serve W) (s : St W HI VI) (query : List W) (o : Opts) (k : Int) (hk : k ≤ 0) :
    search c via s query { o with topK := k } = search c via s query { o with topK := 10 } := by
  have hd : defaultK k = defaultK 10 := by unfold defaultK; rw [if_pos hk]; rfl
  have hl : ∀ q : List W, searchLinear c s.db q { o with topK := k } = searchLinear c s.db q { o with topK := 10 } := by
    intro q
    unfold searchLinear scoreCandidates
    simp only [hd]
    rfl
  unfold search
  cases prepareQuery c s query with
  | error e => rfl
  | ok q =>
    cases via with
    | linear => simp only [serve, hl]
    | hnsw p => simp only [serve, searchWithHNSW, hd]
    | ivf p => simp only [serve, searchWithIVF, hd]

example : (search cfg0 .linear store1 [1, 1] { topK := -3 }).toOption.map List.length = some 3 := by decide +kernel

/-- C252 is violated by the search with access control of every open store: without a limit it gives every permitted record, however many
there are. -/
theorem C252_acl_violated (c : Cfg W) (hs : SortsDesc c.sort) (s : St W HI VI) (hcl : s.closed = false) (query : List W) (ps : List String)
    (o : Opts) (hk : o.topK ≤ 0) :
    ∃ out, searchWithACL c s query ps o = .ok out ∧ out.length = (s.db.embeddings.filter (aclMatch s.db ps o.collection)).length := by
  refine ⟨_, by unfold searchWithACL; rw [hcl]; rfl, ?_⟩
  unfold scoreAndSort
  simp only
  rw [if_neg (by omega), (hs _).1.length_eq, List.length_map, List.length_map]

example : (searchWithACL cfg0 store1 [1, 1] ["u"] {}).toOption.map List.length = some 3 := by decide +kernel

end Verif.Thm.Search

namespace Verif.Range
open Verif.Model.Store Verif.Model.Search Verif.Base Verif.Spec Verif.Thm.Search

variable {W HI VI : Type}

/-- C252 is violated by range search of every open store: without a limit it gives every record within the radius. -/
theorem C252_range_violated (c : Cfg W) (sortAsc : List (Hit W) → List (Hit W)) (hs : ∀ l, (sortAsc l).Perm l) (s : St W HI VI)
    (hcl : s.closed = false) (query : List W) (r : ℚ) (hr : 0 < r) (o : Opts) (hk : o.topK ≤ 0) :
    ∃ out, rangeSearch c sortAsc s query r o = .ok out ∧
      out.length = ((fetchCandidates s.db o).filter (fun h => decide (h.vector.length ≠ 0 ∧ distance (c.sim query h.vector) ≤ r))).length := by
  refine ⟨_, by unfold rangeSearch; rw [hcl, if_neg (by simp), if_neg (not_le.2 hr)], ?_⟩
  rw [if_neg (by omega), (hs _).length_eq]
  unfold within
  generalize fetchCandidates s.db o = l
  induction l with
  | nil => rfl
  | cons a l ih =>
    rw [List.filterMap_cons, List.filter_cons]
    by_cases h1 : a.vector.length = 0
    · simp only [h1, if_true]
      simpa using ih
    · by_cases h2 : distance (c.sim query a.vector) ≤ r
      · simp only [h1, h2, if_false, if_true]
        simpa [h1, h2] using ih
      · simp only [h1, h2, if_false]
        simpa [h1, h2] using ih

example : store1.closed = false ∧ (rangeSearch cfgE asc store1 [2, 0] 3 { topK := -1 }).toOption.map List.length = some 3 := by decide +kernel

end Verif.Range

namespace Verif.Chat
open Verif.Base

variable {S : Type*} [LinearOrder S]

/-- C252, messages of a user by keyword and by meaning: ten. -/
theorem C252_user (c : Cfg S) (s : State) (user query exclude : String) (q : List Int) (k : Int) (hk : k ≤ 0) :
    keywordSearchMessages c s user query exclude k = keywordSearchMessages c s user query exclude 10 ∧
    searchMessagesByUser c s user q exclude k = searchMessagesByUser c s user q exclude 10 := by
  have hd : defLimit k = defLimit 10 := by unfold defLimit; rw [if_pos hk]; rfl
  unfold keywordSearchMessages searchMessagesByUser
  rw [hd]
  exact ⟨rfl, rfl⟩

/-- C252 is violated by the history of every session: limit 0 gives nothing, a negative limit everything. -/
theorem C252_history_violated (c : Cfg S) (s : State) (hcl : s.closed = false) (session : String) (k : Int) (hk : k < 0) :
    getSessionHistory c s session 0 = .ok [] ∧
    getSessionHistory c s session k = .ok (c.orderDesc (s.messages.filter (fun m => m.session == session))).reverse := by
  unfold getSessionHistory sqlLimit
  simp [hcl, hk]

/-- C252 is violated by the search of every session: limit 0 gives nothing, a negative limit panics, whatever is stored. -/
theorem C252_chat_violated (c : Cfg S) (s : State) (hcl : s.closed = false) (q : List Int) (session : String) (k : Int) (hk : k < 0) :
    searchChatHistory c s q session 0 = .ok [] ∧ searchChatHistory c s q session k = .panic := by
  unfold searchChatHistory
  simp [hcl, hk]

example : (run init ops1).closed = false ∧
    (match getSessionHistory cfg1 (run init ops1) "s" (-1) with | .ok l => l.length | _ => 0) = 3 := by decide

end Verif.Chat

namespace Verif.Memory
open Verif.Base

variable {V S : Type*} [LinearOrder S]

/-- C252, memories: five. -/
theorem C252_memory (e : Env V S) (now : Int) (s : State V) (q : SearchReq) (k : Int) (hk : k ≤ 0) :
    search e now s { q with topK := k } = search e now s { q with topK := 5 } := by
  unfold search
  simp only [if_pos hk]
  rfl

end Verif.Memory

namespace Verif.GraphTools
open Verif.Graph

/-- C252, chunks by entities: ten, and a number of hops that is not positive means one. -/
theorem C252_entities (u : Uni) (s : State) (sort : List (String × Nat) → List (String × Nat)) (names : List String) (k h k' h' : Int)
    (hk : k ≤ 0) (hk' : k' ≤ 0) (hh : h ≤ 0) (hh' : h' ≤ 0) :
    byEntities u s sort names k h = byEntities u s sort names 10 1 ∧ byEntities u s sort names k' h = byEntities u s sort names k h' := by
  unfold byEntities
  simp only [if_pos hk, if_pos hk', if_pos hh, if_pos hh']
  exact ⟨rfl, trivial⟩

end Verif.GraphTools

namespace Verif.Router

/-- C252 is violated by the strongest terms of every vector: without a limit all terms are given. -/
theorem C252_terms_violated {T : Type} (sort : List (T × ℚ) → List (T × ℚ)) (hs : ∀ l, (sort l).Perm l) (vec : List (T × ℚ)) (k : Int) (hk : k ≤ 0) :
    (topTerms sort vec k).length = vec.length := by
  unfold topTerms
  split
  · rename_i h; rw [h]; rfl
  · simp only
    rw [if_neg (by omega), (hs _).length_eq]

end Verif.Router

namespace Verif.Diversity
open Verif.Model.Store Verif.Model.Search Verif.Base Verif.Rerank

variable {W HI VI : Type}

/-- C252 is violated by the diversified search of every store: without a limit marginal relevance gives one result at most, and a negative
limit makes the random choice panic, whatever is stored. -/
theorem C252_diverse_violated (c : Cfg W) (via : Serve W) (root : ℚ → ℚ) (perm : Nat → List Nat) (s : St W HI VI) (hcl : s.closed = false)
    (query : List W) (o : DivOpts) (cands : List (Hit W)) (h : search c via s query { o.base with topK := o.base.topK * 3 } = .ok cands) :
    (o.method = .mmr → o.base.topK ≤ 0 → ∃ out, searchWithDiversity c via root perm s query o = .ok out ∧ out = cands.take 1) ∧
    (o.method = .distance → o.base.topK ≤ 0 → ∃ out, searchWithDiversity c via root perm s query o = .ok out ∧ out = cands.take 1) ∧
    (o.method = .random → o.base.topK < 0 → searchWithDiversity c via root perm s query o = .error .panic) := by
  refine ⟨fun hm hk => ?_, fun hm hk => ?_, fun hm hk => ?_⟩
  · refine ⟨_, by unfold searchWithDiversity; rw [hcl, h]; simp only [hm]; rfl, ?_⟩
    cases cands with
    | nil => rfl
    | cons a l =>
      simp only [diversifyMMR, List.take_succ_cons, List.take_zero]
      cases l with
      | nil => rfl
      | cons b l =>
        simp only [List.length_cons, mmrFill]
        rw [if_neg (by simp; omega)]
  · refine ⟨_, by unfold searchWithDiversity; rw [hcl, h]; simp only [hm]; rfl, ?_⟩
    cases cands with
    | nil => rfl
    | cons a l =>
      simp only [diversifyDistance, distanceFill, List.any_nil, Bool.false_eq_true, if_false, List.nil_append, List.take_succ_cons, List.take_zero]
      rw [if_pos (by simp; omega)]
  · have e : diversifyRandom perm c.sort o.base.topK cands = none := by
      unfold diversifyRandom
      simp only
      rw [if_neg (by omega), if_pos]
      split <;> omega
    unfold searchWithDiversity
    rw [hcl, h]
    simp only [hm, e]
    rfl

example : (searchWithDiversity Verif.Thm.Search.cfg0 .linear id (fun _ => []) Verif.Thm.Search.store1 [1, 1] { base := {} }).toOption.map List.length =
    some 1 := by decide +kernel

end Verif.Diversity

namespace Verif.Flat
open Verif.Base

/-- C252 is violated by every exact index that holds a vector: a limit that is not positive makes the search panic. -/
theorem C252_flat_violated {V : Type} (E : Env V) (d : Nat) (ops : List (Op V)) (order : List (String × V) → List (String × V))
    (ho : ∀ l, (order l).Perm l) (q : V) (hd : E.dim q = d) (k : Int) (hk : k ≤ 0) (hx : ∃ x v, after E.dim d ops x = some v) :
    search E (run E (new V d) ops) order q k = none := by
  obtain ⟨x, v, hx⟩ := hx
  exact C35_nonpositive_k_panics_violated E d ops order ho q hd k hk x v hx

end Verif.Flat
