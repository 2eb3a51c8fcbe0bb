import Verif.Thm.Range
import Verif.Thm.Search
import Verif.Thm.GraphTraverse

/-!
C250: narrowing a search is choosing among its results. What a search without a limit gives for one collection, with further filter
conditions, above a threshold, within a smaller radius or for some node types is exactly what the wider search gives and what says of itself
that it is there.
-/
namespace Verif.Thm.Search
open Verif.Model.Store Verif.Model.Search Verif.Base Verif.Spec Verif.Thm.StoreProps

variable {W HI VI : Type}

/-- What a result says of itself meets the conditions. -/
def Says (x : Hit W) (extra : Meta) : Prop :=
  ∀ kv ∈ extra, if kv.1 = "doc_id" then x.docID = kv.2 else MetaHas x.metadata kv.1 kv.2

theorem scan_coll (db : DB W) (wf : Verif.Thm.Store.WF db) (r : Row W) (n : String) (hn : n ≠ "") :
    (scan db r).collection = n ↔ InColl db r n := by
  have := C16_shown db wf r n hn
  simp only [toRec] at this
  simp only [scan, collName]
  rw [← this]
  split
  · rename_i y hy; rw [hy]; rfl
  · rename_i hy; rw [hy]; rfl

theorem says_iff (x : Hit W) (r : Row W) (hx : shows x r) (extra : Meta) (he : ∀ kv ∈ extra, kv.1 = "doc_id" → kv.2 ≠ "") :
    Says x extra ↔ ∀ kv ∈ extra, if kv.1 = "doc_id" then r.docID = some kv.2 else MetaHas r.metadata kv.1 kv.2 := by
  unfold Says
  refine forall_congr' fun kv => forall_congr' fun hk => ?_
  by_cases hd : kv.1 = "doc_id"
  · rw [if_pos hd, if_pos hd, hx.2.2.2.1]
    have hne := he kv hk hd
    cases r.docID with
    | none => simp [hne.symm]
    | some d => simp
  · rw [if_neg hd, if_neg hd, hx.2.2.2.2]

/-- The results of a search of the table whose limit is not reached. -/
theorem linear_mem (c : Cfg W) (hs : SortsDesc c.sort) (s : St W HI VI) (wf : Verif.Thm.Store.WF s.db) (q : List W) (o : Opts)
    (hk : (s.db.embeddings.length : Int) ≤ o.topK) (x : Hit W) :
    x ∈ serve c .linear s q o ↔ ∃ r ∈ s.db.embeddings, InScope s.db o r ∧ x = hitOf c s.db o q r ∧ (0 < o.threshold → o.threshold ≤ x.score) := by
  simp only [serve]
  rw [searchLinear_eq, List.take_of_length_le]
  · rw [(hs _).1.mem_iff, List.mem_filter, List.mem_map]
    simp only [List.mem_filter, Bool.and_eq_true, sqlMatch_iff _ wf, matchesFilter_iff, decide_eq_true_eq, InScope, filterOK_iff]
    constructor
    · rintro ⟨⟨r, ⟨h1, ⟨h2, h3⟩, h4⟩, rfl⟩, h5⟩
      exact ⟨r, h1, ⟨h2, h3, h4⟩, rfl, h5⟩
    · rintro ⟨r, h1, ⟨h2, h3, h4⟩, rfl, h5⟩
      exact ⟨⟨r, ⟨h1, ⟨h2, h3⟩, h4⟩, rfl⟩, h5⟩
  · rw [(hs _).1.length_eq]
    refine (List.length_filter_le _ _).trans ?_
    rw [List.length_map]
    refine (List.length_filter_le _ _).trans ?_
    unfold asked
    split <;> omega

/-- C250, search of the table: a collection, further conditions and a threshold choose among the results. -/
theorem C250_search (c : Cfg W) (hs : SortsDesc c.sort) (s : St W HI VI) (wf : Verif.Thm.Store.WF s.db) (query : List W) (o : Opts)
    (hc : o.collection = "") (ht : o.threshold ≤ 0) (coll : String) (hcoll : coll ≠ "") (extra : Meta)
    (he : ∀ kv ∈ extra, kv.1 = "doc_id" → kv.2 ≠ "") (th : ℚ) (hth : 0 < th) (hk : (s.db.embeddings.length : Int) ≤ o.topK)
    (out : List (Hit W)) (h : search c .linear s query o = .ok out) :
    ∃ out', search c .linear s query { o with collection := coll, filter := o.filter ++ extra, threshold := th } = .ok out' ∧
      ∀ x, x ∈ out' ↔ x ∈ out ∧ x.collection = coll ∧ Says x extra ∧ th ≤ x.score := by
  obtain ⟨q, hq, rfl⟩ := prepared h
  refine ⟨serve c .linear s q { o with collection := coll, filter := o.filter ++ extra, threshold := th }, ?_, fun x => ?_⟩
  · unfold search
    rw [hq]
  rw [linear_mem c hs s wf q o hk, linear_mem c hs s wf q _ (by simpa using hk)]
  have e : ∀ r, hitOf c s.db { o with collection := coll, filter := o.filter ++ extra, threshold := th } q r = hitOf c s.db o q r := by
    intro r
    unfold hitOf combine textWeight
    rfl
  constructor
  · rintro ⟨r, h1, ⟨h2, h3⟩, rfl, h5⟩
    rw [e] at h5 ⊢
    have hsh : shows (hitOf c s.db o q r) r := ⟨rfl, rfl, rfl, rfl, rfl⟩
    refine ⟨⟨r, h1, ⟨fun hh => absurd hc hh, fun kv hkv => h3 kv (List.mem_append_left _ hkv)⟩, rfl, fun hh => absurd hh (not_lt.2 ht)⟩, ?_, ?_, h5 hth⟩
    · exact (scan_coll s.db wf r coll hcoll).2 (h2 hcoll)
    · exact (says_iff _ r hsh extra he).2 (fun kv hkv => h3 kv (List.mem_append_right _ hkv))
  · rintro ⟨⟨r, h1, ⟨h2, h3⟩, rfl, h5⟩, h6, h7, h8⟩
    have hsh : shows (hitOf c s.db o q r) r := ⟨rfl, rfl, rfl, rfl, rfl⟩
    refine ⟨r, h1, ⟨fun _ => (scan_coll s.db wf r coll hcoll).1 h6, fun kv hkv => ?_⟩, (e r).symm, fun _ => h8⟩
    rcases List.mem_append.1 hkv with hkv | hkv
    · exact h3 kv hkv
    · exact (says_iff _ r hsh extra he).1 h7 kv hkv

example : (search cfg0 .linear store1 [1, 1] { topK := 9 }).toOption.map (List.map (fun x => (x.id, x.collection, x.docID))) =
      some [("e", "default", ""), ("b", "c", ""), ("a", "c", "d")] ∧
    (search cfg0 .linear store1 [1, 1] { topK := 9, collection := "c", filter := [("doc_id", "d"), ("t", "x")], threshold := 1 }).toOption.map
      (List.map (fun x => x.id)) = some ["a"] ∧ (store1.db.embeddings.length : Int) ≤ 9 := by decide +kernel

theorem acl_mem (c : Cfg W) (hs : SortsDesc c.sort) (s : St W HI VI) (query : List W) (ps : List String) (o : Opts) (hk : o.topK ≤ 0)
    (out : List (Hit W)) (h : searchWithACL c s query ps o = .ok out) (x : Hit W) :
    x ∈ out ↔ ∃ r ∈ s.db.embeddings, aclMatch s.db ps o.collection r = true ∧ x = { scan s.db r with score := c.sim query r.vector } := by
  unfold searchWithACL at h
  split at h
  · cases h
  · simp only [Except.ok.injEq] at h
    unfold scoreAndSort at h
    simp only at h
    rw [if_neg (by omega)] at h
    rw [← h, (hs _).1.mem_iff]
    simp only [List.mem_map, List.mem_filter]
    constructor
    · rintro ⟨_, ⟨r, ⟨h1, h2⟩, rfl⟩, rfl⟩
      exact ⟨r, h1, h2, rfl⟩
    · rintro ⟨r, h1, h2, rfl⟩
      exact ⟨_, ⟨r, ⟨h1, h2⟩, rfl⟩, rfl⟩

/-- C250, access control: for a caller without principals, or when every record has readers, a collection chooses among the results. Missing:
records without readers when the caller has a principal (below). -/
theorem C250_acl_partial (c : Cfg W) (hs : SortsDesc c.sort) (s : St W HI VI) (wf : Verif.Thm.Store.WF s.db) (query : List W) (ps : List String)
    (o : Opts) (hc : o.collection = "") (hk : o.topK ≤ 0) (coll : String) (hcoll : coll ≠ "")
    (hp : ps = [] ∨ ∀ r ∈ s.db.embeddings, r.acl ≠ none) (out : List (Hit W)) (h : searchWithACL c s query ps o = .ok out) :
    ∃ out', searchWithACL c s query ps { o with collection := coll } = .ok out' ∧ ∀ x, x ∈ out' ↔ x ∈ out ∧ x.collection = coll := by
  have hok : ∃ out', searchWithACL c s query ps { o with collection := coll } = .ok out' := by
    unfold searchWithACL at h ⊢
    split at h
    · cases h
    · rename_i hcl
      rw [if_neg hcl]
      exact ⟨_, rfl⟩
  obtain ⟨out', h'⟩ := hok
  refine ⟨out', h', fun x => ?_⟩
  rw [acl_mem c hs s query ps o hk out h, acl_mem c hs s query ps { o with collection := coll } hk out' h']
  have e : ∀ r ∈ s.db.embeddings, aclMatch s.db ps coll r = true ↔ aclMatch s.db ps "" r = true ∧ (scan s.db r).collection = coll := by
    intro r hr
    have hin : (collName s.db r = some coll) ↔ (scan s.db r).collection = coll := by
      simp only [scan]
      cases collName s.db r with
      | none => simp [hcoll.symm]
      | some n => simp
    unfold aclMatch
    simp only [ne_eq, hcoll, not_false_eq_true, if_true, not_true_eq_false, if_false]
    rcases hp with rfl | hp
    · simp [hin]
    · have hn : r.acl.isNone = false := by
        cases ha : r.acl with
        | none => exact absurd ha (hp r hr)
        | some l => rfl
      rw [hn]
      split
      · simp [hin]
      · simp
  constructor
  · rintro ⟨r, h1, h2, rfl⟩
    obtain ⟨h3, h4⟩ := (e r h1).1 h2
    exact ⟨⟨r, h1, by rw [hc]; exact h3, rfl⟩, h4⟩
  · rintro ⟨⟨r, h1, h2, rfl⟩, h4⟩
    exact ⟨r, h1, (e r h1).2 ⟨by rw [hc] at h2; exact h2, h4⟩, rfl⟩

/-- C250 is violated by every store that holds a record without readers outside the collection asked for: a caller with a principal gets it. -/
theorem C250_acl_violated (c : Cfg W) (hs : SortsDesc c.sort) (s : St W HI VI) (wf : Verif.Thm.Store.WF s.db) (hcl : s.closed = false)
    (query : List W) (ps : List String) (hps : ps ≠ []) (o : Opts) (hcoll : o.collection ≠ "") (hk : o.topK ≤ 0) (r : Row W)
    (hr : r ∈ s.db.embeddings) (hacl : r.acl = none) (hout : ¬ InColl s.db r o.collection) :
    ∃ out x, searchWithACL c s query ps o = .ok out ∧ x ∈ out ∧ shows x r ∧ x.collection ≠ o.collection := by
  have hok : ∃ out, searchWithACL c s query ps o = .ok out := by
    unfold searchWithACL; rw [hcl]; exact ⟨_, rfl⟩
  obtain ⟨out, h⟩ := hok
  refine ⟨out, { scan s.db r with score := c.sim query r.vector }, h, (acl_mem c hs s query ps o hk out h _).2 ⟨r, hr, ?_, rfl⟩,
    ⟨rfl, rfl, rfl, rfl, rfl⟩, fun hh => hout ((scan_coll s.db wf r o.collection hcoll).1 hh)⟩
  unfold aclMatch
  simp [hacl, List.length_pos_iff.2 hps]

example : (searchWithACL cfg0 store1 [1, 1] [] {}).toOption.map (List.map (fun x => (x.id, x.collection))) = some [("e", "default"), ("a", "c")] ∧
    (searchWithACL cfg0 store1 [1, 1] [] { collection := "c" }).toOption.map (List.map (fun x => x.id)) = some ["a"] ∧
    (searchWithACL cfg0 store1 [1, 1] ["v"] { collection := "c" }).toOption.map (List.map (fun x => x.id)) = some ["e", "a"] := by
  decide +kernel

end Verif.Thm.Search

namespace Verif.Range
open Verif.Model.Store Verif.Model.Search Verif.Base Verif.Spec Verif.Thm.Search Verif.Thm.StoreProps

variable {W HI VI : Type}

/-- C250, range search: a smaller radius, a collection and further conditions choose among the results. -/
theorem C250_range (c : Cfg W) (sortAsc : List (Hit W) → List (Hit W)) (hs : ∀ l, (sortAsc l).Perm l) (s : St W HI VI)
    (wf : Verif.Thm.Store.WF s.db) (query : List W) (r r' : ℚ) (hr' : 0 < r') (hr : r' ≤ r) (o : Opts) (hc : o.collection = "") (hk : o.topK ≤ 0)
    (coll : String) (hcoll : coll ≠ "") (extra : Meta) (he : ∀ kv ∈ extra, kv.1 = "doc_id" → kv.2 ≠ "")
    (out : List (Hit W)) (h : rangeSearch c sortAsc s query r o = .ok out) :
    ∃ out', rangeSearch c sortAsc s query r' { o with collection := coll, filter := o.filter ++ extra } = .ok out' ∧
      ∀ x, x ∈ out' ↔ x ∈ out ∧ x.collection = coll ∧ Says x extra ∧ x.score ≤ r' := by
  have key : ∀ (p : Opts) (rad : ℚ) (x : Hit W), x ∈ within c query rad (fetchCandidates s.db p) ↔
      ∃ y ∈ s.db.embeddings, InScope s.db p y ∧ y.vector.length ≠ 0 ∧ x = { scan s.db y with score := distance (c.sim query y.vector) } ∧
        x.score ≤ rad := by
    intro p rad x
    unfold within fetchCandidates
    simp only [List.mem_filterMap, List.mem_filter, List.mem_map]
    constructor
    · rintro ⟨z, ⟨⟨y, ⟨h1, h2⟩, rfl⟩, h3⟩, h4⟩
      split at h4
      · cases h4
      · rename_i hl
        split at h4
        · rename_i hd
          cases h4
          rw [sqlMatch_iff _ wf] at h2
          rw [matchesFilter_iff] at h3
          exact ⟨y, h1, ⟨h2.1, (filterOK_iff p y).2 ⟨h2.2, h3⟩⟩, hl, rfl, hd⟩
        · cases h4
    · rintro ⟨y, h1, ⟨h2, h3⟩, hl, rfl, hd⟩
      obtain ⟨h3, h4⟩ := (filterOK_iff p y).1 h3
      refine ⟨scan s.db y, ⟨⟨y, ⟨h1, (sqlMatch_iff _ wf p y).2 ⟨h2, h3⟩⟩, rfl⟩, (matchesFilter_iff _ _ _).2 h4⟩, ?_⟩
      exact (if_neg hl).trans (if_pos hd)
  unfold rangeSearch at h ⊢
  split at h
  · cases h
  · rename_i hcl
    split at h
    · cases h
    · rw [if_neg hcl, if_neg (by linarith)]
      refine ⟨_, rfl, fun x => ?_⟩
      simp only [Except.ok.injEq] at h
      rw [if_neg (by omega)] at h
      rw [if_neg (by simp; omega), ← h, (hs _).mem_iff, (hs _).mem_iff, key, key]
      constructor
      · rintro ⟨y, h1, ⟨h2, h3⟩, hl, rfl, hd⟩
        have hsh : shows ({ scan s.db y with score := distance (c.sim query y.vector) } : Hit W) y := ⟨rfl, rfl, rfl, rfl, rfl⟩
        refine ⟨⟨y, h1, ⟨fun hh => absurd hc hh, fun kv hkv => h3 kv (List.mem_append_left _ hkv)⟩, hl, rfl, hd.trans hr⟩, ?_, ?_, hd⟩
        · exact (scan_coll s.db wf y coll hcoll).2 (h2 hcoll)
        · exact (says_iff _ y hsh extra he).2 (fun kv hkv => h3 kv (List.mem_append_right _ hkv))
      · rintro ⟨⟨y, h1, ⟨h2, h3⟩, hl, rfl, hd⟩, h6, h7, h8⟩
        have hsh : shows ({ scan s.db y with score := distance (c.sim query y.vector) } : Hit W) y := ⟨rfl, rfl, rfl, rfl, rfl⟩
        refine ⟨y, h1, ⟨fun _ => (scan_coll s.db wf y coll hcoll).1 h6, fun kv hkv => ?_⟩, hl, rfl, h8⟩
        rcases List.mem_append.1 hkv with hkv | hkv
        · exact h3 kv hkv
        · exact (says_iff _ y hsh extra he).1 h7 kv hkv

example : (rangeSearch cfgE asc store1 [2, 0] 3 {}).toOption.map (List.map (fun h => h.id)) = some ["a", "b", "e"] ∧
    (rangeSearch cfgE asc store1 [2, 0] 1 { collection := "c", filter := [("doc_id", "d")] }).toOption.map (List.map (fun h => h.id)) = some ["a"] := by
  decide +kernel

end Verif.Range

namespace Verif.Graph
open Verif.Base Verif.Spec

/-- C250, neighbourhood: naming node types chooses among the neighbours; nodes of other types are still walked through. -/
theorem C250_types (s : State) (h : Unique s) (id : String) (o : Opts) (hl : o.limit ≤ 0) (hd : GoodDir o.direction) (hn : o.nodeTypes = [])
    (ts : List String) (hts : ts ≠ []) :
    ∃ r r', neighbors s id o = some (some r) ∧ neighbors s id { o with nodeTypes := ts } = some (some r') ∧
      ∀ n, n ∈ r' ↔ n ∈ r ∧ n.ntype ∈ ts := by
  obtain ⟨r, a1, -, a3⟩ := C42_neighbors_exact_partial s h id o hl hd
  obtain ⟨r', b1, -, b3⟩ := C42_neighbors_exact_partial s h id { o with nodeTypes := ts } hl hd
  refine ⟨r, r', a1, b1, fun n => ?_⟩
  rw [a3, b3]
  constructor
  · rintro ⟨c1, c2, c3, c4⟩
    exact ⟨⟨c1, c2, Or.inl hn, c4⟩, c3.resolve_left hts⟩
  · rintro ⟨⟨c1, c2, _, c4⟩, c3⟩
    exact ⟨c1, c2, Or.inr c3, c4⟩

example : neighbors small "b" ⟨2, [], [], "", 0⟩ = some (some [typed "a" "person", typed "c" "person"]) ∧
    neighbors small "b" ⟨2, [], ["city"], "", 0⟩ = some (some []) := by constructor <;> decide +kernel

end Verif.Graph
