import Verif.Thm.Chat
import Verif.Thm.Router
import Verif.Thm.Similarity
import Verif.Thm.GraphStore
import Verif.Thm.FuncRouter
import Verif.Thm.StoreProps2
import Verif.Thm.Range
import Verif.Thm.Lexical

/-!
Violations that single witnesses show elsewhere, for all states: C05, C19, C41, C57, C92, C149.
-/

namespace Verif.Model.Store

/-- Whatever a store holds, the record with the empty id cannot be deleted by its id: `Delete` refuses and nothing changes. -/
theorem C05_any_empty_id_violated {W HI VI : Type} (env : Env W HI VI) (s : St W HI VI) (fault : Bool) :
    (step env s (.delete fault "")).2 ≠ .ok ∧ (step env s (.delete fault "")).1 = s := by
  simp only [step, delete]
  split <;> simp

end Verif.Model.Store

namespace Verif.Chat

/-- Every search of a conversation with a negative limit panics, whatever is stored. -/
theorem C19_any_negative_violated {S : Type*} [LinearOrder S] (c : Cfg S) (s : State) (ho : s.closed = false) (q : List Int)
    (session : String) (limit : Int) (h : limit < 0) : searchChatHistory c s q session limit = .panic := by
  simp [searchChatHistory, ho, h]

example : init.closed = false ∧ (-3 : Int) < 0 := ⟨rfl, by decide⟩

end Verif.Chat

namespace Verif.Graph

/-- With the constraint off, deleting any node that an edge joins leaves that edge without its end. -/
theorem C41_any_dangling_violated (s : State) (n : String) (e : Edge) (he : e ∈ s.edges) (hn : e.src = n ∨ e.dst = n)
    (hx : ∃ x ∈ s.nodes, x.id = n) :
    (deleteNode false s n).2 = true ∧ e ∈ (deleteNode false s n).1.edges ∧ ¬ Closed (deleteNode false s n).1 := by
  have hh : hasNode s.nodes n = true := by
    obtain ⟨x, hx, hi⟩ := hx
    simp only [hasNode, List.any_eq_true]
    exact ⟨x, hx, by simpa using hi⟩
  have hr : deleteNode false s n = ((deleteNode false s n).1, true) := by simp [deleteNode, hh]
  have hm : e ∈ (deleteNode false s n).1.edges := by simpa [deleteNode, hh, dropNodes] using he
  refine ⟨by rw [hr], hm, ?_⟩
  intro hc
  obtain ⟨⟨a, ha, ha'⟩, b, hb, hb'⟩ := hc e hm
  simp only [deleteNode, hh, dropNodes, if_true, List.mem_filter] at ha hb
  rcases hn with rfl | rfl
  · exact absurd ha' (by simpa using ha.2)
  · exact absurd hb' (by simpa using hb.2)

example : edgeAB ∈ (run [.upsertNode (some nodeA), .upsertNode (some nodeB), .upsertEdge true (some edgeAB)]).edges := by
  decide +kernel

end Verif.Graph

namespace Verif.Router

variable {T V : Type*} [DecidableEq T]

/-- A batch with two routes of one new name is accepted by every router, and both are registered. -/
theorem C57_any_batch_violated (c : Cfg T V) (hs : c.hasStore = false) (e : T → Option V) (up : Bool) (s : State T V) (n : T)
    (hn : n ≠ c.empty) (us ws : List T) (hu : us ≠ []) (hw : ws ≠ []) (hnew : n ∉ names s) :
    (addBatch c e up s [fresh (n, us), fresh (n, ws)]).2 = none ∧
    names (addBatch c e up s [fresh (n, us), fresh (n, ws)]).1 = names s ++ [n, n] := by
  have h1 : s.routes.any (fun x => decide (x.name = n)) = false := by
    rw [List.any_eq_false]
    intro x hx
    simp only [decide_eq_true_eq]
    intro hxn
    exact hnew (by simp only [names, List.mem_map]; exact ⟨x, hx, hxn⟩)
  have hc : checkBatch c s.routes [fresh (n, us), fresh (n, ws)] = none := by
    unfold checkBatch
    rw [if_neg (by simpa [fresh] using hn), if_neg (by simpa [fresh] using hu), if_neg (by rw [Bool.not_eq_true]; exact h1)]
    unfold checkBatch
    rw [if_neg (by simpa [fresh] using hn), if_neg (by simpa [fresh] using hw), if_neg (by rw [Bool.not_eq_true]; exact h1)]
    rfl
  unfold addBatch
  rw [hc]
  simp [hs, names, fresh]

/-- When persisting fails, every new route stays registered although `Add` reports the failure, and every later attempt is
refused as a duplicate. -/
theorem C57_any_persist_violated (c : Cfg T V) (hs : c.hasStore = true) (e e' : T → Option V) (up : Bool) (s : State T V)
    (n : T) (hn : n ≠ c.empty) (us ws : List T) (hu : us ≠ []) (hw : ws ≠ []) (hnew : n ∉ names s) :
    (add c e false s (fresh (n, us))).2 = some .persist ∧
    names (add c e false s (fresh (n, us))).1 = names s ++ [n] ∧
    (add c e' up (add c e false s (fresh (n, us))).1 (fresh (n, ws))).2 = some .duplicate := by
  have h1 : s.routes.any (fun x => decide (x.name = n)) = false := by
    rw [List.any_eq_false]
    intro x hx
    simp only [decide_eq_true_eq]
    intro hxn
    exact hnew (by simp only [names, List.mem_map]; exact ⟨x, hx, hxn⟩)
  have hp : persist c e false s.stored (fresh (n, us)) = none := by
    unfold persist
    split <;> simp
  have ha : add c e false s (fresh (n, us)) = ({ s with routes := s.routes ++ [fresh (n, us)] }, some .persist) := by
    unfold add
    rw [if_neg (by simpa [fresh] using hn), if_neg (by simpa [fresh] using hu), if_neg (by rw [Bool.not_eq_true]; exact h1), if_pos hs, hp]
  rw [ha]
  refine ⟨rfl, by simp [names, fresh], ?_⟩
  unfold add
  rw [if_neg (by simpa [fresh] using hn), if_neg (by simpa [fresh] using hw), if_pos (by simp [fresh])]

example : (3 : Nat) ∉ names (run (exact true) init [.add 1 [7] emb0 true]) ∧ (exact true).hasStore = true ∧
    (3 : Nat) ≠ (exact true).empty := by decide +kernel

end Verif.Router

namespace Verif.Similarity

variable {T : Type*} [DecidableEq T]

theorem weight_scale (e f : BM25 T) (t : T) (x : ℝ) (ha : e.avg = f.avg) (hk : e.k1 = f.k1) (hb : e.b = f.b)
    (he : e.idf t = none) (hf : f.idf t = some x) (terms : List T) (w : ℝ) (hw : e.weight terms t = some w) :
    f.weight terms t = some (x * w) := by
  unfold BM25.weight at hw ⊢
  rw [← ha, ← hk, ← hb, hf]
  rw [he] at hw
  simp only [Option.getD_none, Option.getD_some, one_mul] at hw ⊢
  cases hv : e.avg with
  | none => simp [hv] at hw
  | some a =>
    simp only [hv] at hw ⊢
    by_cases h0 : a = 0
    · rw [if_pos h0] at hw ⊢
      by_cases hp : 0 < e.k1 ∧ 0 < e.b
      · rw [if_pos hp] at hw ⊢
        simp only [Option.some.injEq] at hw ⊢
        rw [← hw, mul_zero]
      · rw [if_neg hp] at hw
        simp at hw
    · rw [if_neg h0] at hw ⊢
      simp only [Option.some.injEq] at hw ⊢
      rw [← hw]

/-- Fitting again does not forget: a term that only the earlier corpus has keeps its weight from there, while an encoder
fitted on the later corpus only gives it the weight of an unknown term. The two differ by the factor the earlier corpus
set. -/
theorem C92_any_refit_violated (k1 b : ℝ) (d1 d2 : List (List T)) (t : T) (h1 : docFreq d1 t ≠ 0) (h2 : docFreq d2 t = 0)
    (terms : List T) (w : ℝ) (hw : ((BM25.new k1 b).fit d2).weight terms t = some w) :
    (((BM25.new k1 b).fit d1).fit d2).weight terms t =
      some (Real.log (((d1.length : ℝ) - docFreq d1 t + 1/2) / ((docFreq d1 t : ℝ) + 1/2) + 1) * w) := by
  refine weight_scale ((BM25.new k1 b).fit d2) (((BM25.new k1 b).fit d1).fit d2) t _ rfl rfl rfl ?_ ?_ terms w hw
  · simp [BM25.fit, BM25.new, h2]
  · simp only [BM25.fit, BM25.new, h2, if_true]
    rw [if_neg h1]

/-- The same for TF-IDF: the term is in the vector after fitting again, and absent after fitting the later corpus only. -/
theorem C92_any_tfidf_refit_violated (sub : Bool) (d1 d2 : List (List T)) (t : T) (h1 : docFreq d1 t ≠ 0)
    (h2 : docFreq d2 t = 0) (terms : List T) (ht : t ∈ terms) :
    (tfidfWeight sub (tfidfFit (tfidfFit (fun _ => none) d1) d2) terms t).isSome = true ∧
    tfidfWeight sub (tfidfFit (fun _ => none) d2) terms t = none := by
  simp [tfidfWeight, tfidfFit, ht, h1, h2]

example : docFreq [[1, 2], [3]] 1 ≠ 0 ∧ docFreq [[2], [3, 4]] 1 = 0 ∧
    (((BM25.new (T := Nat) (6/5) (3/4)).fit [[2], [3, 4]]).weight [1, 2] 1).isSome = true := by
  refine ⟨by decide, by decide, ?_⟩
  simp only [BM25.weight, BM25.fit, BM25.new]
  rw [if_neg (by simp)]
  norm_num

end Verif.Similarity

namespace Verif.FuncRouter

/-- No word with a letter in upper case is ever returned for a keyword, from no text. -/
theorem C149_any_case_violated (lib : Lib) (hl : ∀ x, lib.lower (lib.lower x) = lib.lower x) (text k v : Text)
    (hk : k.any isMeta = false) (hv : v.map lib.lower ≠ v) : keyHit lib (text.map lib.lower) k ≠ .group v := by
  intro h
  obtain ⟨-, -, pre, a, gap, post, ht, -⟩ := C149_value_from_text_partial lib text k v hk h
  apply hv
  have hall : ∀ x ∈ v, lib.lower x = x := by
    intro x hx
    have : x ∈ text.map lib.lower := by rw [ht]; simp [hx]
    obtain ⟨y, -, rfl⟩ := List.mem_map.1 this
    exact hl y
  calc v.map lib.lower = v.map id := List.map_congr_left hall
    _ = v := by simp

example : "Paris".toList.map asciiLib.lower ≠ "Paris".toList ∧ "city".toList.any isMeta = false := by decide +kernel

end Verif.FuncRouter

namespace Verif.FuncRouter

/-- The list of required parameters of a function makes no difference to any call: only the mark on each parameter does. -/
theorem C153_any_list_violated {H : Type} (lib : Lib) (f : Schema H) (required : List Text) (text : Text)
    (r : Router.Result Text) :
    callFor lib [(f.name, { f with required := required })] text r = callFor lib [(f.name, f)] text r := by
  unfold callFor
  split
  · split
    · rfl
    · rename_i n _ _ _
      by_cases hf : n = f.name
      · subst hf
        simp [List.lookup]
      · have : (n == f.name) = false := by simpa using hf
        simp [List.lookup, this]
  · rfl

end Verif.FuncRouter

namespace Verif.Thm.StoreProps

open Verif.Model.Store

/-- On a connection without the constraint, deleting any document leaves every chunk of it in the store. -/
theorem C17_any_delete_violated {W HI VI : Type} (env : Env W HI VI) (s : St W HI VI) (ho : s.closed = false) (d : String) :
    (step env s (.deleteDocument false false d)).2 = .ok ∧
    (step env s (.deleteDocument false false d)).1.db.embeddings = s.db.embeddings ∧
    ∀ x ∈ (step env s (.deleteDocument false false d)).1.db.documents, x.id ≠ d := by
  simp only [step, deleteDocument, ho]
  simp

example : (run env0 store0 [.createDocument false { id := "d", body := "" }, .upsert true false { embA with docID := "d" }]).closed =
    false := by decide

end Verif.Thm.StoreProps

namespace Verif.Range

open Verif.Model.Store

/-- The counts of a faceted search are the same whatever is searched for: neither the collection, nor the threshold, nor
the query, nor the number of records asked for make a difference. -/
theorem C124_any_ignored_violated {W HI VI : Type} (lib : Verif.Model.Filter.Lib ℚ) (c c' : Verif.Model.Search.Cfg W)
    (order order' : List (Row W) → List (Row W)) (sort : List (String × Nat) → List (String × Nat)) (s : St W HI VI)
    (query query' : List W) (o o' : FacetOpts) (hf : o.facets.map Prod.fst = o'.facets.map Prod.fst)
    (hm : o.maxValues = o'.maxValues) (hr : o.returnFacets = o'.returnFacets) (r r' : List (Verif.Model.Search.Hit W) × List FacetResult)
    (h : searchWithFacets lib c order sort s query o = .ok r) (h' : searchWithFacets lib c' order' sort s query' o' = .ok r') :
    r.2 = r'.2 := by
  unfold searchWithFacets at h h'
  split at h
  · simp at h
  · rename_i hc
    rw [if_neg hc] at h'
    split at h
    · simp at h
    · split at h'
      · simp at h'
      · simp only [Except.ok.injEq] at h h'
        rw [← h, ← h']
        simp only [hr, hm]
        split
        · have e : ∀ l : List (String × Facet), l.filterMap (fun f => facetCount lib sort s.db o'.maxValues f.1) =
              (l.map Prod.fst).filterMap (fun f => facetCount lib sort s.db o'.maxValues f) := by
            intro l
            rw [List.filterMap_map]; rfl
          rw [e, e, hf]
        · rfl

end Verif.Range

namespace Verif.Lexical

/-- Every keyword question that finds anything panics when the number of answers asked for is negative. -/
theorem C70_any_negative_topk_violated {I : Type*} [DecidableEq I] (sort : List (I × ℚ) → List (I × ℚ)) (topK : Int)
    (hk : topK < 0) (answers : List (Option (List (I × ℚ)))) (hm : loop topK 0 answers [] ≠ []) :
    candidates sort topK answers = .panic := by
  unfold candidates
  simp only [if_neg hm]
  rw [if_pos (by omega), if_pos hk]

example : loop (-2) 0 [some [('a', (1 : ℚ))]] [] ≠ [] := by decide +kernel

end Verif.Lexical
