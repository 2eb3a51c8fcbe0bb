import Verif.Thm.Flat
import Verif.Thm.Range
import Verif.Thm.Search
import Verif.Thm.GraphTraverse

/-!
C249: widening a search without a limit on the number of results never loses a result: a larger radius, more principals, a lower threshold,
fewer filter conditions, a greater depth, more types.
-/
namespace Verif.Flat
open Verif.Base

variable {V : Type}

/-- C249, exact index: a larger radius keeps every result with its distance. -/
theorem C249_radius (E : Env V) (d : Nat) (ops : List (Op V)) (o o' : List (String × V) → List (String × V)) (ho : ∀ l, (o l).Perm l)
    (ho' : ∀ l, (o' l).Perm l) (q : V) (r r' : ℚ) (hr : r ≤ r') :
    ∀ x ∈ rangeSearch E (run E (new V d) ops) o q r, x ∈ rangeSearch E (run E (new V d) ops) o' q r' := by
  rintro ⟨x, y⟩ hx
  by_cases hq : E.dim q = d
  · have h1 := ((C35_range_exact E d ops o ho q r).2 hq).2.2 x y
    have h2 := ((C35_range_exact E d ops o' ho' q r').2 hq).2.2 x y
    obtain ⟨a, b⟩ := h1.1 hx
    exact h2.2 ⟨a.trans hr, b⟩
  · rw [(C35_range_exact E d ops o ho q r).1 hq] at hx
    cases hx

example :
    rangeSearch lineEnv (run lineEnv (new Nat 1) [.insert "a" 9, .insert "c" 6, .insert "d" 20]) id 6 0 = [("c", 0)] ∧
    rangeSearch lineEnv (run lineEnv (new Nat 1) [.insert "a" 9, .insert "c" 6, .insert "d" 20]) id 6 4 = [("c", 0), ("a", 3)] := by
  constructor <;> decide +kernel

end Verif.Flat

namespace Verif.Thm.Search
open Verif.Model.Store Verif.Model.Search Verif.Base Verif.Spec

variable {W HI VI : Type}

/-- Fewer conditions fetch no fewer rows. -/
theorem fetch_mono (db : DB W) (o o' : Opts) (hc : o'.collection = o.collection ∨ o'.collection = "") (hf : ∀ kv ∈ o'.filter, kv ∈ o.filter) :
    ∀ h ∈ fetchCandidates db o, h ∈ fetchCandidates db o' := by
  intro h hh
  unfold fetchCandidates at hh ⊢
  obtain ⟨h1, h2⟩ := List.mem_filter.1 hh
  obtain ⟨r, hr, rfl⟩ := List.mem_map.1 h1
  obtain ⟨hr1, hr2⟩ := List.mem_filter.1 hr
  refine List.mem_filter.2 ⟨List.mem_map_of_mem (List.mem_filter.2 ⟨hr1, ?_⟩), ?_⟩
  · unfold sqlMatch at hr2 ⊢
    rw [Bool.and_eq_true] at hr2 ⊢
    refine ⟨?_, ?_⟩
    · rcases hc with hc | hc
      · rw [hc]; exact hr2.1
      · rw [hc]; simp
    · rw [List.all_eq_true] at hr2 ⊢
      exact fun kv hkv => hr2.2 kv (hf kv hkv)
  · unfold matchesFilter at h2 ⊢
    rw [List.all_eq_true] at h2 ⊢
    exact fun kv hkv => h2 kv (hf kv hkv)

theorem fetch_length (db : DB W) (o : Opts) : (fetchCandidates db o).length ≤ db.embeddings.length := by
  unfold fetchCandidates
  refine (List.length_filter_le _ _).trans ?_
  rw [List.length_map]
  exact List.length_filter_le _ _

/-- C249, search that scans the table: with a limit that is not reached, a lower threshold, fewer filter conditions or no collection instead
of one keep every result with its score. -/
theorem C249_search (c : Cfg W) (hs : SortsDesc c.sort) (s : St W HI VI) (query : List W) (o o' : Opts)
    (hc : o'.collection = o.collection ∨ o'.collection = "") (hf : ∀ kv ∈ o'.filter, kv ∈ o.filter) (ht : o'.threshold ≤ o.threshold)
    (hw : o'.textWeight = o.textWeight) (hq : o'.queryText = o.queryText) (hk : (s.db.embeddings.length : Int) ≤ o.topK)
    (hk' : (s.db.embeddings.length : Int) ≤ o'.topK) (out : List (Hit W)) (h : search c .linear s query o = .ok out) :
    ∃ out', search c .linear s query o' = .ok out' ∧ ∀ x ∈ out, x ∈ out' := by
  unfold search at h ⊢
  cases hp : prepareQuery c s query with
  | error e => rw [hp] at h; cases h
  | ok q =>
    rw [hp] at h
    simp only [Except.ok.injEq] at h
    refine ⟨_, rfl, ?_⟩
    have hcomb : ∀ x : Hit W, combine c o' q x = combine c o q x := by
      intro x
      unfold combine textWeight
      rw [hw, hq]
    have key : ∀ (p : Opts) (x : Hit W), (s.db.embeddings.length : Int) ≤ p.topK →
        (x ∈ serve c .linear s q p ↔ ∃ y ∈ fetchCandidates s.db p, x = { y with score := combine c p q y } ∧
          (p.threshold > 0 → p.threshold ≤ x.score)) := by
      intro p x hpk
      unfold serve searchLinear scoreCandidates
      simp only
      rw [if_neg]
      · rw [(hs _).1.mem_iff]
        constructor
        · intro hx
          split at hx
          · rename_i hpos
            obtain ⟨a, b⟩ := List.mem_filter.1 hx
            obtain ⟨y, hy, rfl⟩ := List.mem_map.1 a
            exact ⟨y, hy, rfl, fun _ => by simpa using b⟩
          · rename_i hneg
            obtain ⟨y, hy, rfl⟩ := List.mem_map.1 hx
            exact ⟨y, hy, rfl, fun hh => absurd hh hneg⟩
        · rintro ⟨y, hy, rfl, hth⟩
          split
          · rename_i hpos
            exact List.mem_filter.2 ⟨List.mem_map_of_mem (f := fun h : Hit W => { h with score := combine c p q h }) hy, by simpa using hth hpos⟩
          · exact List.mem_map_of_mem (f := fun h : Hit W => { h with score := combine c p q h }) hy
      · rw [(hs _).1.length_eq, not_lt]
        have h1 : (if p.threshold > 0 then ((fetchCandidates s.db p).map (fun h : Hit W => { h with score := combine c p q h })).filter
              (fun h => decide (h.score ≥ p.threshold))
            else (fetchCandidates s.db p).map (fun h : Hit W => { h with score := combine c p q h })).length ≤ s.db.embeddings.length := by
          have h2 := fetch_length s.db p
          split
          · exact (List.length_filter_le _ _).trans (by rw [List.length_map]; exact h2)
          · rw [List.length_map]; exact h2
        have h3 : p.topK ≤ defaultK p.topK := by
          unfold defaultK
          split <;> omega
        exact le_trans (by exact_mod_cast h1) (le_trans hpk h3)
    intro x hx
    rw [← h] at hx
    obtain ⟨y, hy, rfl, hth⟩ := (key o x hk).1 hx
    refine (key o' _ hk').2 ⟨y, fetch_mono s.db o o' hc hf y hy, by rw [hcomb], fun hpos => ?_⟩
    exact ht.trans (hth (lt_of_lt_of_le hpos ht))

/-- C249, access control: more principals keep every result. -/
theorem C249_principals (c : Cfg W) (hs : SortsDesc c.sort) (s : St W HI VI) (query : List W) (ps ps' : List String) (hp : ∀ p ∈ ps, p ∈ ps')
    (o : Opts) (hk : o.topK ≤ 0) (out : List (Hit W)) (h : searchWithACL c s query ps o = .ok out) :
    ∃ out', searchWithACL c s query ps' o = .ok out' ∧ ∀ x ∈ out, x ∈ out' := by
  unfold searchWithACL at h ⊢
  split at h
  · cases h
  · rename_i hc
    rw [if_neg hc]
    refine ⟨_, rfl, ?_⟩
    simp only [Except.ok.injEq] at h
    unfold scoreAndSort at h ⊢
    simp only at h ⊢
    rw [if_neg (by omega)] at h
    rw [if_neg (by omega)]
    intro x hx
    rw [← h, (hs _).1.mem_iff] at hx
    rw [(hs _).1.mem_iff]
    obtain ⟨y, hy, rfl⟩ := List.mem_map.1 hx
    refine List.mem_map_of_mem (f := fun h : Hit W => { h with score := c.sim query h.vector }) ?_
    obtain ⟨r, hr, rfl⟩ := List.mem_map.1 hy
    obtain ⟨hr1, hr2⟩ := List.mem_filter.1 hr
    refine List.mem_map_of_mem (List.mem_filter.2 ⟨hr1, ?_⟩)
    have hlen : ps.length > 0 → ps'.length > 0 := by
      intro hl
      obtain ⟨p, hpm⟩ := List.exists_mem_of_length_pos hl
      exact List.length_pos_of_mem (hp p hpm)
    have hmem : (match r.acl with | none => false | some l => l.any (fun a => decide (a ∈ ps))) = true →
        (match r.acl with | none => false | some l => l.any (fun a => decide (a ∈ ps'))) = true := by
      cases r.acl with
      | none => intro h; exact h
      | some l =>
        simp only [List.any_eq_true, decide_eq_true_eq]
        rintro ⟨a, ha, hap⟩
        exact ⟨a, ha, hp a hap⟩
    unfold aclMatch at hr2 ⊢
    simp only at hr2 ⊢
    by_cases hl : ps.length > 0
    · rw [if_pos hl] at hr2
      rw [if_pos (hlen hl)]
      split at hr2 <;> rename_i hcol
      · rw [if_pos hcol]
        rw [Bool.or_eq_true, Bool.and_eq_true] at hr2 ⊢
        exact hr2.imp_right (fun h => ⟨hmem h.1, h.2⟩)
      · rw [if_neg hcol]
        rw [Bool.or_eq_true] at hr2 ⊢
        exact hr2.imp_right hmem
    · rw [if_neg hl] at hr2
      have hpub : r.acl.isNone = true := by
        split at hr2
        · exact (Bool.and_eq_true _ _ ▸ hr2).1
        · exact hr2
      split
      · split <;> simp [hpub]
      · exact hr2

/-- A lower threshold and no collection. -/
example : (search cfg0 .linear store1 [1, 1] { collection := "c", topK := 9, threshold := 2 }).toOption.map (List.map (fun x => x.id)) = some ["b"] ∧
    (search cfg0 .linear store1 [1, 1] { topK := 9, threshold := 1 }).toOption.map (List.map (fun x => x.id)) = some ["e", "b", "a"] ∧
    (store1.db.embeddings.length : Int) ≤ 9 := by decide +kernel

/-- One principal more. -/
example : (searchWithACL cfg0 store1 [1, 1] ["v"] {}).toOption.map (List.map (fun x => x.id)) = some ["e", "a"] ∧
    (searchWithACL cfg0 store1 [1, 1] ["v", "u"] {}).toOption.map (List.map (fun x => x.id)) = some ["e", "b", "a"] := by decide +kernel

end Verif.Thm.Search

namespace Verif.Range
open Verif.Model.Store Verif.Model.Search Verif.Base Verif.Spec Verif.Thm.Search

variable {W HI VI : Type}

/-- C249, range search over the store: a larger radius, fewer filter conditions or no collection instead of one keep every result. -/
theorem C249_range (c : Cfg W) (sortAsc : List (Hit W) → List (Hit W)) (hs : ∀ l, (sortAsc l).Perm l) (s : St W HI VI) (query : List W)
    (r r' : ℚ) (hr : r ≤ r') (o o' : Opts) (hc : o'.collection = o.collection ∨ o'.collection = "") (hf : ∀ kv ∈ o'.filter, kv ∈ o.filter)
    (hk' : o'.topK ≤ 0) (out : List (Hit W)) (h : rangeSearch c sortAsc s query r o = .ok out) :
    ∃ out', rangeSearch c sortAsc s query r' o' = .ok out' ∧ ∀ x ∈ out, x ∈ out' := by
  unfold rangeSearch at h ⊢
  split at h
  · cases h
  · rename_i hcl
    split at h
    · cases h
    · rename_i hpos
      rw [if_neg hcl, if_neg (by linarith)]
      refine ⟨_, rfl, ?_⟩
      simp only [Except.ok.injEq] at h
      intro x hx
      rw [if_neg (by omega), (hs _).mem_iff]
      have hx1 : x ∈ sortAsc (within c query r (fetchCandidates s.db o)) := by
        rw [← h] at hx
        split at hx
        · exact List.mem_of_mem_take hx
        · exact hx
      rw [(hs _).mem_iff] at hx1
      unfold within at hx1 ⊢
      obtain ⟨y, hy, hyx⟩ := List.mem_filterMap.1 hx1
      refine List.mem_filterMap.2 ⟨y, fetch_mono s.db o o' hc hf y hy, ?_⟩
      split at hyx
      · cases hyx
      · rename_i hl
        rw [if_neg hl]
        simp only at hyx ⊢
        split at hyx
        · rename_i hd
          rw [if_pos (hd.trans hr)]
          exact hyx
        · cases hyx

example : (rangeSearch cfgE asc store1 [2, 0] 1 {}).toOption.map (List.map (fun h => h.id)) = some ["a", "b"] ∧
    (rangeSearch cfgE asc store1 [2, 0] 3 {}).toOption.map (List.map (fun h => h.id)) = some ["a", "b", "e"] := by
  decide +kernel

end Verif.Range

namespace Verif.Graph
open Verif.Base Verif.Spec

theorem walk_mono {α : Type} {R S : α → α → Prop} (h : ∀ a b, R a b → S a b) {a b : α} {n : Nat} (w : Walk R a n b) : Walk S a n b := by
  induction w with
  | nil => exact Walk.nil
  | snoc _ r ih => exact Walk.snoc ih (h _ _ r)

/-- C249, neighbourhood: a greater depth, all edge types instead of some or more edge types, more node types or all keep every node. -/
theorem C249_depth (s : State) (h : Unique s) (id : String) (o o' : Opts) (hl : o.limit ≤ 0) (hl' : o'.limit ≤ 0) (hd : GoodDir o.direction)
    (hdir : o'.direction = o.direction) (hdep : effDepth o ≤ effDepth o')
    (he : o'.edgeTypes = [] ∨ o.edgeTypes ≠ [] ∧ ∀ t ∈ o.edgeTypes, t ∈ o'.edgeTypes)
    (hn : o'.nodeTypes = [] ∨ o.nodeTypes ≠ [] ∧ ∀ t ∈ o.nodeTypes, t ∈ o'.nodeTypes) :
    ∃ r r', neighbors s id o = some (some r) ∧ neighbors s id o' = some (some r') ∧ ∀ n ∈ r, n ∈ r' := by
  obtain ⟨r, a1, -, a3⟩ := C42_neighbors_exact_partial s h id o hl hd
  obtain ⟨r', b1, -, b3⟩ := C42_neighbors_exact_partial s h id o' hl' (by rw [hdir]; exact hd)
  refine ⟨r, r', a1, b1, fun n hnr => ?_⟩
  obtain ⟨c1, c2, c3, c4⟩ := (a3 n).1 hnr
  refine (b3 n).2 ⟨c1, c2, ?_, ?_⟩
  · rcases hn with hn | ⟨hn, hn'⟩
    · exact Or.inl hn
    · exact Or.inr (hn' _ (c3.resolve_left hn))
  · obtain ⟨k, hk, w⟩ := c4
    refine ⟨k, hk.trans hdep, walk_mono ?_ w⟩
    rintro a b ⟨e, he1, he2, he3⟩
    refine ⟨e, he1, ?_, by rw [hdir]; exact he3⟩
    rcases he with he | ⟨he, he'⟩
    · exact Or.inl he
    · exact Or.inr (he' _ (he2.resolve_left he))

example : neighbors small "b" ⟨1, [], [], "", 0⟩ = some (some [typed "a" "person"]) ∧
    neighbors small "b" ⟨2, [], [], "", 0⟩ = some (some [typed "a" "person", typed "c" "person"]) := by
  constructor <;> decide +kernel

end Verif.Graph
