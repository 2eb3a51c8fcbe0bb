import Verif.Thm.DimStats
import Verif.Thm.Chat
import Verif.Thm.GraphHybrid
import Verif.Thm.Range
import Verif.Thm.StoreProps2
import Verif.Thm.Geo
import Verif.Thm.Diversity
import Verif.Thm.GraphTools

/-!
What goes wrong, for every state or input rather than for one: the counterparts of some violations that are shown by an example
elsewhere.
-/
namespace Verif.DimStats

/-- C196, broken for every tie: each of the most frequent dimensions is the one reported for some order of the map. -/
theorem C196_any_tie_violated (lens : List Nat) (d : Nat) (hd : MostFrequent lens d) :
    ∃ o, Walks o ∧ (analyze o lens).primary = d := by
  obtain ⟨hin, hmax⟩ := hd
  have hc := counts_fold lens
  refine ⟨fun m => if d ∈ m.map Prod.fst then d :: (m.map Prod.fst).erase d else m.map Prod.fst, ?_, ?_⟩
  · intro m
    simp only
    split
    · rename_i h; exact (List.perm_cons_erase h).symm
    · exact List.Perm.refl _
  · have hl : ¬ lens.length = 0 := by
      rw [List.length_eq_zero_iff]; exact List.ne_nil_of_mem hin
    have hk : d ∈ (lens.foldl bump []).map Prod.fst := List.mem_map_of_mem ((hc.some d).2 hin)
    have hlook : ∀ x, ((lens.foldl bump []).lookup x).getD 0 ≤ lens.count d := by
      intro x
      cases h : (lens.foldl bump []).lookup x with
      | none => simp
      | some n =>
        have : (x, n) ∈ lens.foldl bump [] := by
          rw [List.lookup_eq_some_iff] at h
          obtain ⟨l1, l2, h1, _⟩ := h
          rw [h1]; simp
        have := (hc.only _ this).1
        simp only at this
        simp only [Option.getD_some, this]
        exact hmax x
    have hpos : 0 < lens.count d := List.count_pos_iff.2 hin
    have hstay : ∀ ks : List Nat, ks.foldl (better (lens.foldl bump [])) (d, lens.count d) = (d, lens.count d) := by
      intro ks
      induction ks with
      | nil => rfl
      | cons k ks ih =>
        rw [List.foldl_cons]
        have : better (lens.foldl bump []) (d, lens.count d) k = (d, lens.count d) := by
          unfold better
          simp only
          rw [if_neg (by have := hlook k; omega)]
        rw [this, ih]
    simp only [analyze, if_neg hl, if_pos hk, List.foldl_cons]
    have : better (lens.foldl bump []) (0, 0) d = (d, lens.count d) := by
      unfold better
      simp only [lookup_of_mem hc.keys ((hc.some d).2 hin), Option.getD_some]
      rw [if_pos hpos]
    rw [this, hstay]

example : MostFrequent [3, 4] 3 ∧ MostFrequent [3, 4] 4 := by
  constructor <;> refine ⟨by decide, ?_⟩ <;>
  · intro x
    by_cases h3 : x = 3
    · subst h3; decide
    · by_cases h4 : x = 4
      · subst h4; decide
      · rw [List.count_eq_zero_of_not_mem (by simp [h3, h4])]; exact Nat.zero_le _

end Verif.DimStats

namespace Verif.Chat

/-- C19: every negative limit panics, for every open store, session and query. -/
theorem C19_any_negative_violated {S : Type*} [LinearOrder S] (c : Cfg S) (s : State) (ho : s.closed = false) (q : List Int)
    (session : String) (limit : Int) (h : limit < 0) : searchChatHistory c s q session limit = .panic := by
  simp [searchChatHistory, ho, h]

end Verif.Chat

namespace Verif.Graph

/-- C52: all weights whose sum is off by at most 0.001 are used as they are, so what is in force does not sum to one. -/
theorem C52_any_weights_violated (w : Weights) (h0 : w.vector + w.graph + w.edge ≠ 1)
    (h : |w.vector + w.graph + w.edge - 1| ≤ 1 / 1000) :
    normWeights w = w ∧ (normWeights w).vector + (normWeights w).graph + (normWeights w).edge ≠ 1 := by
  have hz : w.vector + w.graph + w.edge ≠ 0 := by
    intro e
    rw [e] at h
    norm_num at h
  have : normWeights w = w := by
    simp only [normWeights, if_neg hz, if_neg (not_lt.2 h)]
  exact ⟨this, by rw [this]; exact h0⟩

example : (⟨5005 / 10000, 3 / 10, 2 / 10⟩ : Weights).vector + 3 / 10 + 2 / 10 ≠ 1 := by norm_num

end Verif.Graph

namespace Verif.Range
open Verif.Model.Store Verif.Model.Search Verif.Base Verif.Spec Verif.Thm.Search
open Verif.Model.Filter (Lib)

variable {W HI VI : Type}

/-- **C124, violated.** For every store: the facets of two searches that succeed are the same whatever the collection, the limit and the
threshold of the searches. -/
theorem C124_scope_ignored_violated (lib : Lib ℚ) (c : Cfg W) (order : List (Row W) → List (Row W))
    (sort : List (String × Nat) → List (String × Nat)) (s : St W HI VI) (query query' : List W) (o : FacetOpts) (b : Opts)
    (r r' : List (Hit W) × List FacetResult) (h : searchWithFacets lib c order sort s query o = .ok r)
    (h' : searchWithFacets lib c order sort s query' { o with base := b } = .ok r') : r.2 = r'.2 := by
  unfold searchWithFacets at h h'
  split at h
  · cases h
  · rename_i hc
    rw [if_neg hc] at h'
    split at h
    · cases h
    · split at h'
      · cases h'
      · simp only [Except.ok.injEq] at h h'
        rw [← h, ← h']

example : (searchWithFacets Verif.Aggregate.lib0 cfg0 id id store2 [1] { base := { topK := 5, collection := "c" }, returnFacets := true }).isOk ∧
    (searchWithFacets Verif.Aggregate.lib0 cfg0 id id store2 [1] { base := { topK := 5 }, returnFacets := true }).isOk := by decide +kernel

/-- **C123, violated.** For every store with more than ten times as many records in the scope as asked for, and every one of these records:
the database may give the rows in such an order that the record is left out, even if it is the best. -/
theorem C123_any_missed_violated (lib : Lib ℚ) (c : Cfg W) (hsort : SortsDesc c.sort)
    (sort : List (String × Nat) → List (String × Nat)) (s : St W HI VI) (hid : (s.db.embeddings.map Row.id).Nodup) (query : List W)
    (o : FacetOpts) (hk : 0 < o.base.topK) (r : Row W) (hr : r ∈ s.db.embeddings)
    (hmany : o.base.topK * 10 < ((s.db.embeddings.filter fun r =>
      if o.base.collection ≠ "" then collName s.db r = some o.base.collection else true).length : Int)) :
    ∃ order : List (Row W) → List (Row W), (∀ l, (order l).Perm l) ∧
      ∀ out facets, searchWithFacets lib c order sort s query o = .ok (out, facets) → ∀ h ∈ out, h.id ≠ r.id := by
  classical
  refine ⟨fun l => l.filter (fun x => decide (x.id ≠ r.id)) ++ l.filter (fun x => decide (x.id = r.id)), ?_, ?_⟩
  · intro l
    have := List.filter_append_perm (fun x : Row W => decide (x.id ≠ r.id)) l
    refine List.Perm.trans (List.Perm.of_eq ?_) this
    show _ ++ _ = _
    congr 1
    apply List.filter_congr
    intro x _
    simp
  · intro out facets h x hx
    unfold searchWithFacets at h
    split at h
    · cases h
    · split at h
      · cases h
      · rename_i cands hcands
        simp only [Except.ok.injEq, Prod.mk.injEq] at h
        obtain ⟨h, -⟩ := h
        subst h
        unfold facetCandidates at hcands
        split at hcands
        · cases hcands
        · simp only [Except.ok.injEq, if_pos hk] at hcands
          generalize hl : s.db.embeddings.filter (fun r =>
            if o.base.collection ≠ "" then decide (collName s.db r = some o.base.collection) else true) = rows at hcands hmany
          have hnd : (rows.map Row.id).Nodup := by
            rw [← hl]; exact List.Nodup.sublist (List.filter_sublist.map _) hid
          have hone : (rows.filter (fun x => decide (x.id = r.id))).length ≤ 1 := by
            rw [← List.countP_eq_length_filter]
            have : rows.countP (fun x => decide (x.id = r.id)) = (rows.map Row.id).count r.id := by
              rw [List.count, List.countP_map]
              congr 1
            rw [this]
            exact List.nodup_iff_count_le_one.1 hnd r.id
          have hsum : (rows.filter (fun x => decide (x.id ≠ r.id))).length + (rows.filter (fun x => decide (x.id = r.id))).length = rows.length := by
            have := List.length_eq_length_filter_add (l := rows) (fun x => decide (x.id ≠ r.id))
            rw [this]
            congr 2
            apply List.filter_congr
            intro x _
            simp
          have hx' : ∃ y ∈ cands, y.id = x.id := by
            have hm : x ∈ c.sort (if o.base.threshold > 0 then
                (cands.map (fun h => { h with score := combine c o.base query h })).filter (fun h => decide (h.score ≥ o.base.threshold))
                else cands.map (fun h => { h with score := combine c o.base query h })) := by
              unfold scoreCandidates at hx
              simp only at hx
              rw [take_if _ _ (by have := defaultK_pos o.base.topK; omega)] at hx
              exact List.mem_of_mem_take hx
            have hm := (hsort _).1.mem_iff.1 hm
            have hm : x ∈ cands.map (fun h => { h with score := combine c o.base query h }) := by
              split at hm
              · exact (List.mem_filter.1 hm).1
              · exact hm
            obtain ⟨y, hy, rfl⟩ := List.mem_map.1 hm
            exact ⟨y, hy, rfl⟩
          obtain ⟨y, hy, hyx⟩ := hx'
          rw [← hcands, List.take_append_of_le_length (by omega)] at hy
          obtain ⟨z, hz, rfl⟩ := List.mem_map.1 hy
          have := (List.mem_filter.1 (List.mem_of_mem_take hz)).2
          rw [← hyx]
          simpa [scan] using this

example : (store11.db.embeddings.map Row.id).Nodup ∧ (1 : Int) * 10 < (store11.db.embeddings.length : Int) := by decide +kernel

end Verif.Range

namespace Verif.Thm.StoreProps
open Verif.Model.Store Verif.Thm.Store

variable {W HI VI : Type}

/-- C05: in every store and for every outcome of the disk, the record with the empty id cannot be deleted. -/
theorem C05_never_deleted_violated (env : Env W HI VI) (s : St W HI VI) (fault : Bool) :
    (step env s (.delete fault "")).2 ≠ .ok ∧ (step env s (.delete fault "")).1 = s := by
  simp only [step, delete]
  split <;> simp

/-- C13: a batch that succeeds stores every vector as it is given, whatever dimension the store has. -/
theorem C13_any_batch_violated (env : Env W HI VI) (s : St W HI VI) (fk : Bool) (fault : Option Nat) (e : Emb W) (v : List W)
    (hv : e.vector = some v) (hd : v.length ≠ s.dim) (hok : (step env s (.upsertBatch fk fault [e])).2 = .ok) :
    ∃ r ∈ (step env s (.upsertBatch fk fault [e])).1.db.embeddings, r.id = e.id ∧ r.vector = v ∧
      r.vector.length ≠ (step env s (.upsertBatch fk fault [e])).1.dim := by
  simp only [step, upsertBatch, List.length_cons, List.length_nil] at hok ⊢
  by_cases hc : s.closed
  · rw [if_pos hc] at hok; cases hok
  rw [if_neg hc, if_neg (by simp)] at hok ⊢
  cases hb : batchLoop fk fault s.db 0 s.db [e] with
  | error er => rw [hb] at hok; cases hok
  | ok db' =>
    obtain ⟨_, _, _, hf⟩ := batchLoop_spec hb
    rcases hf e.id with ⟨pre, x, post, w, h1, _, _, h4, h5⟩ | ⟨h1, _⟩
    · have hx : x = e := by
        have : x ∈ [e] := by rw [h1]; simp
        simpa using this
      subst hx
      rw [hv, Option.some.injEq] at h4
      subst h4
      cases hfd : find db' x.id with
      | none => rw [hfd] at h5; cases h5
      | some r =>
        rw [hfd] at h5
        simp only [Option.map_some, Option.some.injEq] at h5
        have hm := List.mem_of_find?_eq_some hfd
        have hid := List.find?_some hfd
        have hvec : r.vector = v := congrArg Payload.vector h5
        exact ⟨r, hm, by simpa using hid, hvec, by simp only [hvec]; exact hd⟩
    · exact absurd rfl (h1 e (by simp))

example : (step env0 (init 2 none none) (.upsertBatch true none [{ id := "a", vector := some [1, 2, 3] }])).2 = .ok := by decide

end Verif.Thm.StoreProps

namespace Verif.Geo

/-- C55: inserting never removes anything from a cell, so a point found by a box is found by it after every further insert, also when its
own id is inserted again somewhere else. -/
theorem C55_any_reinsert_violated {K : Type} (c : Cfg K) (g : Index) (p x : Pt) (b : Box) (out : List Pt)
    (h : searchBox c g b = some out) (hx : x ∈ out) : ∃ out', searchBox c (insert c g p).1 b = some out' ∧ x ∈ out' := by
  unfold searchBox at h ⊢
  split at h
  · cases h
  · rename_i hv
    rw [if_neg hv]
    simp only [Option.some.injEq] at h
    subst h
    refine ⟨_, rfl, ?_⟩
    obtain ⟨h1, h2⟩ := List.mem_filter.1 hx
    refine List.mem_filter.2 ⟨?_, h2⟩
    have hg : ∀ j, x ∈ g.grid j → x ∈ (insert c g p).1.grid j := by
      intro j hj
      unfold insert
      split
      · exact hj
      · split
        · exact hj
        · simp only
          split
          · exact List.mem_append_left _ hj
          · exact hj
    unfold cells at h1 ⊢
    rw [List.mem_flatMap] at h1 ⊢
    obtain ⟨i, hi, h1⟩ := h1
    rw [List.mem_flatMap] at h1
    obtain ⟨j, hj, h1⟩ := h1
    exact ⟨i, hi, List.mem_flatMap.2 ⟨j, hj, hg _ h1⟩⟩

example : (⟨"a", ⟨1, 1⟩⟩ : Pt) ∈ (searchBox cfgQ (run cfgQ [.insert ⟨"a", ⟨1, 1⟩⟩]) ⟨0, 2, 0, 2⟩).getD [] := by decide +kernel

end Verif.Geo

namespace Verif.Diversity
open Verif.Model.Store Verif.Model.Search Verif.Base Verif.Spec Verif.Thm.Search

variable {W HI VI : Type}

/-- **C74, violated.** For every list of candidates longer than what is asked for, whichever is the best of them: the random
diversification may leave it out. -/
theorem C74_any_best_violated (sort : List (Hit W) → List (Hit W)) (hsort : ∀ l, (sort l).Perm l) (topK : Int) (hk : 0 < topK)
    (best : Hit W) (rest : List (Hit W)) (hmany : topK < ((best :: rest).length : Int)) (hid : ∀ x ∈ rest, x.id ≠ best.id) :
    ∃ (perm : Nat → List Nat) (out : List (Hit W)), (∀ n, (perm n).Perm (List.range n)) ∧
      diversifyRandom perm sort topK (best :: rest) = some out ∧ ∀ x ∈ out, x.id ≠ best.id := by
  refine ⟨fun n => (List.range n).reverse, _, fun n => List.reverse_perm _, by
    unfold diversifyRandom
    rw [if_neg (by omega)]
    simp only
    rw [if_neg (by split <;> omega)], ?_⟩
  intro x hx
  have hx := (hsort _).mem_iff.1 hx
  obtain ⟨i, hi, hxi⟩ := List.mem_filterMap.1 hx
  generalize hp : (if topK * 2 > ((best :: rest).length : Int) then ((best :: rest).length : Int) else topK * 2).toNat = m at *
  have hm : topK.toNat < m := by
    rw [← hp]; split <;> omega
  have hlen : ((best :: rest).take m).length = m := by
    rw [List.length_take]
    rw [← hp]
    split <;> omega
  rw [hlen] at hi
  have hi0 : 0 < i := by
    obtain ⟨j, hj, hji⟩ := List.mem_iff_getElem.1 hi
    have hj' : j < topK.toNat := by
      rw [List.length_take] at hj
      omega
    rw [List.getElem_take, List.getElem_reverse, List.getElem_range, List.length_range] at hji
    omega
  have hxt : ((best :: rest).take m)[i]? = some x := hxi
  have : (best :: rest)[i]? = some x := by
    rw [List.getElem?_take] at hxt
    split at hxt
    · exact hxt
    · cases hxt
  cases i with
  | zero => omega
  | succ i =>
    rw [List.getElem?_cons_succ] at this
    exact hid x (List.mem_of_getElem? this)

end Verif.Diversity

namespace Verif.GraphTools
open Verif.Base Verif.Graph Verif.Spec

/-- C142: for every graph and relation between known entities: recorded once on its own and again after other relations, it is stored
twice. -/
theorem C142_any_position_violated (u : Uni) (hb : blank u "related_to" = false) (s : State) (r : RelIn) (rs : List RelIn)
    (hne : rs ≠ []) (hends : ∀ x ∈ r :: rs, (resolve u "" x.src ≠ "" ∧ resolve u "" x.dst ≠ "") ∧
      (∃ n ∈ s.nodes, n.id = resolve u "" x.src) ∧ ∃ n ∈ s.nodes, n.id = resolve u "" x.dst)
    (hfresh : ∀ e ∈ relEdges u (rs ++ [r]), e.id ≠ relId (resolve u "" r.src) (resolve u "" r.dst)
      (if blank u r.rtype then "related_to" else r.rtype) 0) :
    ∃ e1 ∈ (upsertRelations u true true (upsertRelations u true true s [r]).1 (rs ++ [r])).1.edges,
    ∃ e2 ∈ (upsertRelations u true true (upsertRelations u true true s [r]).1 (rs ++ [r])).1.edges,
      Stands u r 0 e1 ∧ Stands u r rs.length e2 ∧ e1.id ≠ e2.id := by
  obtain ⟨s1, ids1, a1, -, -, a4, a5, -⟩ := C141_relations_partial u hb true s [r] (by
    intro x hx _ _ _
    have : x = r := by simpa using hx
    subst this
    exact (hends x (by simp)).2)
  obtain ⟨s2, ids2, b1, -, -, b4, -, b6⟩ := C141_relations_partial u hb true s1 (rs ++ [r]) (by
    intro x hx _ _ _
    rw [a5]
    refine (hends x ?_).2
    rcases List.mem_append.1 hx with h | h
    · exact List.mem_cons_of_mem _ h
    · have : x = r := by simpa using h
      subst this; simp)
  have hr := (hends r (by simp)).1
  obtain ⟨e1, c1, c2, -⟩ := a4 0 r (by simp) hr.1 hr.2
  obtain ⟨e2, d1, d2, -⟩ := b4 rs.length r (by simp) hr.1 hr.2
  rw [a1]
  simp only
  rw [b1]
  have hids : ids2 = (relEdges u (rs ++ [r])).map Edge.id := by
    rw [upsertRelations_eq hb] at b1
    simp only [Prod.mk.injEq, Option.some.injEq] at b1
    exact b1.2.symm
  have hnot : e1.id ∉ ids2 := by
    rw [hids]
    intro hm
    obtain ⟨e, he, hee⟩ := List.mem_map.1 hm
    apply hfresh e he
    rw [hee, c2.id, c2.src, c2.dst, c2.etype]
  refine ⟨e1, (b6 e1 hnot).2 c1, e2, d1, c2, d2, ?_⟩
  intro h
  rw [c2.id, d2.id] at h
  have := relId_pos h
  exact hne (List.length_eq_zero_iff.1 this.symm)

example : (∀ x ∈ [rel "Ada" "Bob", rel "Bob" "Cy"], (resolve uni0 "" x.src ≠ "" ∧ resolve uni0 "" x.dst ≠ "") ∧
      (∃ n ∈ twoEntities.nodes, n.id = resolve uni0 "" x.src) ∧ ∃ n ∈ twoEntities.nodes, n.id = resolve uni0 "" x.dst) ∧
    (∀ e ∈ relEdges uni0 ([rel "Bob" "Cy"] ++ [rel "Ada" "Bob"]), e.id ≠ relId (resolve uni0 "" "Ada") (resolve uni0 "" "Bob") "likes" 0) := by
  decide +kernel

end Verif.GraphTools
