import Verif.Model.Search
import Verif.Thm.StoreProps2
import Mathlib.Tactic.Linarith
import Mathlib.Tactic.Ring
import Mathlib.Tactic.NormNum

/-! C08-C12 and the search part of C05: vector search over the record store. -/
namespace Verif.Thm.Search
open Verif.Model.Store Verif.Model.Search Verif.Base Verif.Spec Verif.Thm.StoreProps

variable {W HI VI : Type}

/-! ### Specification -/

/-- The metadata maps `k` to `v`; a key that is absent from a present map reads as the empty string. -/
def MetaHas (m : Option Meta) (k v : String) : Prop :=
  ∃ m', m = some m' ∧ (m'.lookup k = some v ∨ (v = "" ∧ m'.lookup k = none))

/-- The record satisfies the filter of the request, `doc_id` included. -/
def FilterOK (o : Opts) (r : Row W) : Prop :=
  ∀ kv ∈ o.filter, if kv.1 = "doc_id" then r.docID = some kv.2 else MetaHas r.metadata kv.1 kv.2

/-- The record is inside the scope of the request. -/
def InScope (db : DB W) (o : Opts) (r : Row W) : Prop :=
  (o.collection ≠ "" → InColl db r o.collection) ∧ FilterOK o r

/-- What the caller sees of row `r` with score `x`. -/
def shows (h : Hit W) (r : Row W) : Prop :=
  h.id = r.id ∧ h.vector = r.vector ∧ h.content = r.content ∧ h.docID = r.docID.getD "" ∧ h.metadata = r.metadata

/-- How many results are asked for: 10 when the request does not say. -/
def asked (o : Opts) : Nat := if o.topK ≤ 0 then 10 else o.topK.toNat

/-- The hit for row `r`. -/
def hitOf (c : Cfg W) (db : DB W) (o : Opts) (q : List W) (r : Row W) : Hit W :=
  { scan db r with score := combine c o q (scan db r) }

/-! ### Lemmas -/

theorem take_if (l : List (Hit W)) (k : Int) (hk : 0 ≤ k) :
    (if (l.length : Int) > k then l.take k.toNat else l) = l.take k.toNat := by
  split
  · rfl
  · rename_i h
    rw [List.take_of_length_le]; omega

theorem asked_eq (o : Opts) : (defaultK o.topK).toNat = asked o := by
  unfold defaultK asked; split <;> rfl

theorem defaultK_pos (k : Int) : 0 < defaultK k := by
  unfold defaultK; split <;> omega

theorem defaultK_idem (k : Int) : defaultK (defaultK k) = defaultK k := by
  unfold defaultK
  split
  · rfl
  · rfl

theorem asked_default (o : Opts) : asked { o with topK := defaultK o.topK } = asked o := by
  rw [← asked_eq, ← asked_eq, defaultK_idem]

theorem matchesFilter_iff (db : DB W) (r : Row W) (f : Meta) :
    matchesFilter (scan db r) f = true ↔ ∀ kv ∈ f, kv.1 ≠ "doc_id" → MetaHas r.metadata kv.1 kv.2 := by
  unfold matchesFilter
  rw [List.all_eq_true]
  refine forall_congr' fun kv => forall_congr' fun _ => ?_
  by_cases hk : kv.1 = "doc_id"
  · simp [hk]
  · simp only [hk, if_false, ne_eq, not_false_eq_true, true_implies, scan, MetaHas]
    cases r.metadata with
    | none => simp
    | some m =>
      constructor
      · intro h
        have h := of_decide_eq_true h
        refine ⟨m, rfl, ?_⟩
        cases hl : m.lookup kv.1 with
        | none => rw [hl] at h; exact Or.inr ⟨h.symm, rfl⟩
        | some x => rw [hl] at h; exact Or.inl (congrArg some h)
      · rintro ⟨m', hm, h⟩
        injection hm with hm
        subst hm
        rcases h with h | ⟨h, h'⟩
        · simp [h]
        · simp only [h', h]; rfl

theorem sqlMatch_iff (db : DB W) (wf : Verif.Thm.Store.WF db) (o : Opts) (r : Row W) :
    sqlMatch db o r = true ↔ (o.collection ≠ "" → InColl db r o.collection) ∧
      ∀ kv ∈ o.filter, kv.1 = "doc_id" → r.docID = some kv.2 := by
  unfold sqlMatch
  rw [Bool.and_eq_true]
  refine and_congr ?_ ?_
  · by_cases hc : o.collection = ""
    · simp [hc]
    · simp only [hc, ne_eq, not_false_eq_true, if_true, true_implies]
      cases hf : db.collections.find? (fun c => c.name = o.collection) with
      | none =>
        rw [List.find?_eq_none] at hf
        simp only [Bool.false_eq_true, false_iff]
        rintro ⟨c, hcm, hn, _⟩
        exact absurd hn (by simpa using hf c hcm)
      | some c =>
        have h1 := List.mem_of_find?_eq_some hf
        have h2 : c.name = o.collection := by simpa using List.find?_some hf
        simp only [decide_eq_true_eq]
        constructor
        · intro h; exact ⟨c, h1, h2, h.symm⟩
        · rintro ⟨x, hx, hn, hi⟩
          rw [← hi, Verif.Thm.Store.nodup_inj (fun c : Coll => c.name) wf.collNames hx h1 (by rw [hn, h2])]
  · rw [List.all_eq_true]
    refine forall_congr' fun kv => forall_congr' fun _ => ?_
    by_cases hk : kv.1 = "doc_id" <;> simp [hk]

theorem filterOK_iff (o : Opts) (r : Row W) : FilterOK o r ↔
    (∀ kv ∈ o.filter, kv.1 = "doc_id" → r.docID = some kv.2) ∧
      (∀ kv ∈ o.filter, kv.1 ≠ "doc_id" → MetaHas r.metadata kv.1 kv.2) := by
  unfold FilterOK
  constructor
  · intro h
    refine ⟨fun kv hk hd => ?_, fun kv hk hd => ?_⟩
    · have := h kv hk; rwa [if_pos hd] at this
    · have := h kv hk; rwa [if_neg hd] at this
  · rintro ⟨h1, h2⟩ kv hk
    by_cases hd : kv.1 = "doc_id"
    · rw [if_pos hd]; exact h1 kv hk hd
    · rw [if_neg hd]; exact h2 kv hk hd

theorem prepared {c : Cfg W} {via : Serve W} {s : St W HI VI} {query : List W} {o : Opts} {out : List (Hit W)}
    (h : search c via s query o = .ok out) : ∃ q, prepareQuery c s query = .ok q ∧ out = serve c via s q o := by
  unfold search at h
  split at h
  · cases h
  · rename_i q hq
    injection h with h
    exact ⟨q, hq, h.symm⟩

theorem searchLinear_eq (c : Cfg W) (db : DB W) (q : List W) (o : Opts) :
    searchLinear c db q o = (c.sort
      ((((db.embeddings.filter (fun r => sqlMatch db o r && matchesFilter (scan db r) o.filter)).map (hitOf c db o q))).filter
        (fun h => decide (o.threshold > 0 → h.score ≥ o.threshold)))).take (asked o) := by
  unfold searchLinear scoreCandidates fetchCandidates
  simp only
  rw [take_if _ _ (by have := defaultK_pos o.topK; omega), asked_eq]
  congr 2
  rw [show (((db.embeddings.filter (sqlMatch db o)).map (scan db)).filter (fun h => matchesFilter h o.filter)) =
      ((db.embeddings.filter (sqlMatch db o)).filter ((fun h => matchesFilter h o.filter) ∘ scan db)).map (scan db) from
    List.filter_map, List.map_map, List.filter_filter]
  have e1 : (fun r => (((fun h => matchesFilter h o.filter) ∘ scan db) r && sqlMatch db o r)) =
      (fun r => sqlMatch db o r && matchesFilter (scan db r) o.filter) := by
    funext r; simp [Bool.and_comm]
  rw [e1]
  have e2 : ((fun h => { h with score := combine c o q h }) ∘ scan db) = hitOf c db o q := rfl
  rw [e2]
  split
  · rename_i ht
    congr 1; funext h; simp [ht]
  · rename_i ht
    symm
    rw [List.filter_eq_self]
    intro h _
    simp [ht]

theorem filterMap_if {α β : Type} {f : α → Option β} {p : α → Bool} {g : α → β}
    (hf : ∀ x, f x = if p x then some (g x) else none) (l : List α) : l.filterMap f = (l.filter p).map g := by
  induction l with
  | nil => rfl
  | cons x xs ih =>
    rw [List.filterMap_cons, hf x, List.filter_cons]
    cases p x <;> simp [ih]

theorem processCandidates_eq (c : Cfg W) (db : DB W) (q : List W) (ids : List String) (o : Opts) (hk : 0 < o.topK) :
    processCandidates c q (fetchByIDs db ids) o = (c.sort
      (((db.embeddings.filter (fun r => decide (r.id ∈ ids) && decide (o.collection ≠ "" → (scan db r).collection = o.collection) &&
          matchesFilter (scan db r) o.filter)).map (hitOf c db o q)).filter
        (fun h => decide (o.threshold > 0 → h.score ≥ o.threshold)))).take (asked o) := by
  unfold processCandidates fetchByIDs
  simp only
  rw [take_if _ _ (by omega)]
  have : asked o = o.topK.toNat := by unfold asked; rw [if_neg (by omega)]
  rw [this]
  congr 2
  rw [List.filterMap_map, List.filter_map, List.filter_filter]
  rw [filterMap_if (p := fun r => decide (o.collection ≠ "" → (scan db r).collection = o.collection) &&
      matchesFilter (scan db r) o.filter && decide (o.threshold > 0 → (hitOf c db o q r).score ≥ o.threshold))
    (g := hitOf c db o q)]
  · rw [List.filter_filter]
    congr 1
    apply List.filter_congr
    intro r _
    simp only [Function.comp]
    generalize decide (r.id ∈ ids) = b1
    generalize matchesFilter (scan db r) o.filter = b2
    generalize decide (o.threshold > 0 → (hitOf c db o q r).score ≥ o.threshold) = b3
    generalize decide (o.collection ≠ "" → (scan db r).collection = o.collection) = b4
    revert b1 b2 b3 b4; decide
  · intro r
    simp only [Function.comp]
    by_cases h2 : o.collection ≠ "" → (scan db r).collection = o.collection
    · rw [if_neg (fun hh => hh.2 (h2 hh.1))]
      cases h3 : matchesFilter (scan db r) o.filter
      · simp
      · by_cases h4 : o.threshold > 0 → (hitOf c db o q r).score ≥ o.threshold
        · rw [if_neg (by simp), if_neg (fun hh => absurd hh.2 (not_lt.2 (h4 hh.1)))]
          rw [if_pos (by simp only [Bool.and_eq_true, decide_eq_true_eq]; exact ⟨⟨h2, trivial⟩, h4⟩)]
          rfl
        · have h4' : o.threshold > 0 ∧ combine c o q (scan db r) < o.threshold := by
            by_contra hh
            refine h4 (fun hp => not_lt.1 (fun hl => hh ⟨hp, hl⟩))
          rw [if_neg (by simp), if_pos h4']
          rw [if_neg (by simp only [Bool.and_eq_true, decide_eq_true_eq]; exact fun hh => h4 hh.2)]
    · have h2' : o.collection ≠ "" ∧ (scan db r).collection ≠ o.collection := by
        by_contra hh
        exact h2 (fun hne => by by_contra hx; exact hh ⟨hne, hx⟩)
      rw [if_pos h2', if_neg (by simp only [Bool.and_eq_true, decide_eq_true_eq]; exact fun hh => h2 hh.1.1)]

theorem hitOf_congr (c : Cfg W) (db : DB W) (q : List W) (r : Row W) {o o' : Opts} (e4 : o'.queryText = o.queryText)
    (e5 : o'.textWeight = o.textWeight) : hitOf c db o' q r = hitOf c db o q r := by
  have : combine c o' q (scan db r) = combine c o q (scan db r) := by
    have ht : textWeight c o' = textWeight c o := by unfold textWeight; rw [e5]
    unfold combine; rw [ht, e4]
  unfold hitOf; rw [this]

/-- Every path: a result is the hit of a table row that matches the non-`doc_id` keys and the threshold, and whose joined
collection name is the requested one; on the linear path `doc_id` matches too. -/
theorem serve_mem (c : Cfg W) (hsort : SortsDesc c.sort) (via : Serve W) (s : St W HI VI)
    (wf : Verif.Thm.Store.WF s.db) (q : List W) (o : Opts) (h : Hit W) (hh : h ∈ serve c via s q o) :
    ∃ r ∈ s.db.embeddings, h = hitOf c s.db o q r ∧ (o.collection ≠ "" → InColl s.db r o.collection) ∧
      (∀ kv ∈ o.filter, kv.1 ≠ "doc_id" → MetaHas r.metadata kv.1 kv.2) ∧
      (o.threshold > 0 → o.threshold ≤ h.score) ∧
      (via = .linear → ∀ kv ∈ o.filter, kv.1 = "doc_id" → r.docID = some kv.2) := by
  have hlin : ∀ o' : Opts, o'.collection = o.collection → o'.filter = o.filter → o'.threshold = o.threshold →
      o'.queryText = o.queryText → o'.textWeight = o.textWeight →
      h ∈ searchLinear c s.db q o' → ∃ r ∈ s.db.embeddings, h = hitOf c s.db o q r ∧
      (o.collection ≠ "" → InColl s.db r o.collection) ∧
      (∀ kv ∈ o.filter, kv.1 ≠ "doc_id" → MetaHas r.metadata kv.1 kv.2) ∧
      (o.threshold > 0 → o.threshold ≤ h.score) ∧
      (via = .linear → ∀ kv ∈ o.filter, kv.1 = "doc_id" → r.docID = some kv.2) := by
    intro o' e1 e2 e3 e4 e5 hm
    rw [searchLinear_eq] at hm
    have hm := (hsort _).1.mem_iff.1 (List.mem_of_mem_take hm)
    rw [List.mem_filter] at hm
    obtain ⟨hm, ht⟩ := hm
    obtain ⟨r, hr, rfl⟩ := List.mem_map.1 hm
    rw [List.mem_filter, Bool.and_eq_true, sqlMatch_iff _ wf, matchesFilter_iff, e1, e2] at hr
    refine ⟨r, hr.1, ?_, hr.2.1.1, hr.2.2, ?_, fun _ => hr.2.1.2⟩
    · exact hitOf_congr c s.db q r e4 e5
    · rw [e3] at ht; exact of_decide_eq_true ht
  have hidx : ∀ (ids : List String) (o' : Opts), 0 < o'.topK → o'.collection = o.collection → o'.filter = o.filter →
      o'.threshold = o.threshold → o'.queryText = o.queryText → o'.textWeight = o.textWeight → via ≠ .linear →
      h ∈ processCandidates c q (fetchByIDs s.db ids) o' → ∃ r ∈ s.db.embeddings, h = hitOf c s.db o q r ∧
      (o.collection ≠ "" → InColl s.db r o.collection) ∧
      (∀ kv ∈ o.filter, kv.1 ≠ "doc_id" → MetaHas r.metadata kv.1 kv.2) ∧
      (o.threshold > 0 → o.threshold ≤ h.score) ∧
      (via = .linear → ∀ kv ∈ o.filter, kv.1 = "doc_id" → r.docID = some kv.2) := by
    intro ids o' hk e1 e2 e3 e4 e5 hv hm
    rw [processCandidates_eq _ _ _ _ _ hk] at hm
    have hm := (hsort _).1.mem_iff.1 (List.mem_of_mem_take hm)
    rw [List.mem_filter] at hm
    obtain ⟨hm, ht⟩ := hm
    obtain ⟨r, hr, rfl⟩ := List.mem_map.1 hm
    rw [List.mem_filter, Bool.and_eq_true, Bool.and_eq_true, matchesFilter_iff, e1, e2] at hr
    refine ⟨r, hr.1, ?_, ?_, hr.2.2, ?_, fun hl => absurd hl hv⟩
    · exact hitOf_congr c s.db q r e4 e5
    · intro hne
      have hcn : (scan s.db r).collection = o.collection := by simpa using (of_decide_eq_true hr.2.1.2) hne
      simp only [scan, collName] at hcn
      cases hf : s.db.collections.find? (fun c => decide (c.id = r.cid)) with
      | none => rw [hf] at hcn; exact absurd hcn.symm hne
      | some x =>
        rw [hf] at hcn
        exact ⟨x, List.mem_of_find?_eq_some hf, by simpa using hcn, by simpa using List.find?_some hf⟩
    · rw [e3] at ht; exact of_decide_eq_true ht
  cases via with
  | linear => exact hlin o rfl rfl rfl rfl rfl hh
  | hnsw p =>
    simp only [serve, searchWithHNSW] at hh
    split at hh
    · exact hlin { o with topK := defaultK o.topK } rfl rfl rfl rfl rfl hh
    · exact hidx _ { o with topK := defaultK o.topK } (defaultK_pos _) rfl rfl rfl rfl rfl (by simp) hh
  | ivf p =>
    simp only [serve, searchWithIVF] at hh
    split at hh
    · exact hlin { o with topK := defaultK o.topK } rfl rfl rfl rfl rfl hh
    · split at hh
      · exact hlin { o with topK := defaultK o.topK } rfl rfl rfl rfl rfl hh
      · exact hidx _ { o with topK := defaultK o.topK } (defaultK_pos _) rfl rfl rfl rfl rfl (by simp) hh

/-! ### Non-vacuity data -/

/-- Similarity for examples: product of the first components. -/
def cfg0 : Cfg Nat :=
  { sim := fun a b => ((a.headD 0) * (b.headD 0) : Nat), textSim := none, textEnabled := false, defaultWeight := 0,
    validQuery := fun _ => true, adapt := fun _ _ _ => none,
    sort := insertSort (fun a => a.score) }

theorem cfg0_sorts : SortsDesc cfg0.sort := fun l => insertSort_sorts (fun h : Hit Nat => h.score) l

/-- Two collections, three records. -/
def store1 : St Nat Unit Unit :=
  run env0 store0 [.createCollection false "c" 0, .createDocument false { id := "d", body := "" },
    .upsert true false { id := "a", vector := some [1, 2], collection := "c", docID := "d", metadata := some [("t", "x")] },
    .upsert true false { id := "b", vector := some [3, 4], collection := "c", metadata := some [("t", "x")], acl := ["u"] },
    .upsert true false { id := "e", vector := some [5, 6] }]

theorem store1_wf : Verif.Thm.Store.WF store1.db := Verif.Thm.Store.run_wf env0 _ (Verif.Thm.Store.init_wf 2 none none) _

/-! ### C05, search part -/

/-- C05: search, on any path and whatever the index proposes, returns only ids that are stored; so a deleted id is not
found until it is written again. -/
theorem C05_search_stored (c : Cfg W) (hsort : SortsDesc c.sort) (via : Serve W) (s : St W HI VI)
    (wf : Verif.Thm.Store.WF s.db) (query : List W) (o : Opts) (out : List (Hit W))
    (h : search c via s query o = .ok out) (x : Hit W) (hx : x ∈ out) :
    ∃ r ∈ s.db.embeddings, shows x r := by
  obtain ⟨q, _, rfl⟩ := prepared h
  obtain ⟨r, hr, rfl, _⟩ := serve_mem c hsort via s wf q o x hx
  exact ⟨r, hr, rfl, rfl, rfl, rfl, rfl⟩

/-- C05: right after a successful delete no search on any path returns the id. -/
theorem C05_search_deleted (c : Cfg W) (hsort : SortsDesc c.sort) (via : Serve W) (env : Env W HI VI) (s : St W HI VI)
    (wf : Verif.Thm.Store.WF s.db) (fault : Bool) (id : String) (hok : (step env s (.delete fault id)).2 = .ok)
    (query : List W) (o : Opts) (out : List (Hit W))
    (h : search c via (step env s (.delete fault id)).1 query o = .ok out) : ∀ x ∈ out, x.id ≠ id := by
  intro x hx hxid
  have wf' := (Verif.Thm.Store.step_cases env s wf (.delete fault id) id).1
  obtain ⟨r, hr, hs⟩ := C05_search_stored c hsort via _ wf' query o out h x hx
  have hnf := (C05_removes_exactly env s wf fault id hok).1
  unfold getByID at hnf
  split at hnf
  · cases hnf
  · split at hnf
    · rename_i hf
      rw [List.find?_eq_none] at hf
      exact absurd (hs.1.symm.trans hxid) (by simpa using hf r hr)
    · cases hnf

/-! ### C08 -/

/-- C08: every result of a search with a collection name belongs to that collection, on every path and whatever
candidates the index proposes. -/
theorem C08_in_collection (c : Cfg W) (hsort : SortsDesc c.sort) (via : Serve W) (s : St W HI VI)
    (wf : Verif.Thm.Store.WF s.db) (query : List W) (o : Opts) (hcoll : o.collection ≠ "") (out : List (Hit W))
    (h : search c via s query o = .ok out) (x : Hit W) (hx : x ∈ out) :
    ∃ r ∈ s.db.embeddings, shows x r ∧ InColl s.db r o.collection ∧ x.collection = o.collection := by
  obtain ⟨q, _, rfl⟩ := prepared h
  obtain ⟨r, hr, rfl, hc, _⟩ := serve_mem c hsort via s wf q o x hx
  refine ⟨r, hr, ⟨rfl, rfl, rfl, rfl, rfl⟩, hc hcoll, ?_⟩
  have := (C16_shown s.db wf r o.collection hcoll).2 (hc hcoll)
  simp only [toRec] at this
  simp only [hitOf, scan, collName]
  split at this
  · rename_i y hy; rw [hy]; exact this
  · exact absurd this.symm hcoll

example : ∃ out, search cfg0 (.hnsw (fun _ _ => ["e", "a", "zombie"])) store1 [1, 1] { collection := "c", topK := 2 } = .ok out := ⟨_, rfl⟩

/-! ### C09 -/

open Classical in
/-- C09: linear search answers exactly "the K best scored records inside the scope and above the threshold". -/
theorem C09_linear_topK (c : Cfg W) (hsort : SortsDesc c.sort) (s : St W HI VI) (wf : Verif.Thm.Store.WF s.db)
    (query : List W) (o : Opts) (out : List (Hit W)) (h : search c .linear s query o = .ok out) :
    ∃ q, prepareQuery c s query = .ok q ∧
    IsTopK (fun x : Hit W => x.score)
      ((s.db.embeddings.filter (fun r => InScope s.db o r ∧ (0 < o.threshold → o.threshold ≤ combine c o q (scan s.db r)))).map
        (hitOf c s.db o q)) (asked o) out := by
  obtain ⟨q, hq, rfl⟩ := prepared h
  refine ⟨q, hq, ?_⟩
  simp only [serve]
  rw [searchLinear_eq]
  have : (s.db.embeddings.filter (fun r => decide (InScope s.db o r ∧ (0 < o.threshold → o.threshold ≤ combine c o q (scan s.db r))))).map
        (hitOf c s.db o q) =
      ((s.db.embeddings.filter (fun r => sqlMatch s.db o r && matchesFilter (scan s.db r) o.filter)).map (hitOf c s.db o q)).filter
        (fun h => decide (o.threshold > 0 → h.score ≥ o.threshold)) := by
    rw [List.filter_map, List.filter_filter]
    congr 1
    apply List.filter_congr
    intro r _
    rw [Bool.eq_iff_iff]
    simp only [Bool.and_eq_true, Function.comp, hitOf, decide_eq_true_iff]
    rw [sqlMatch_iff _ wf, matchesFilter_iff, InScope, filterOK_iff]
    constructor
    · rintro ⟨⟨h1, h2, h3⟩, h4⟩; exact ⟨decide_eq_true h4, ⟨h1, h2⟩, h3⟩
    · rintro ⟨h4, ⟨h1, h2⟩, h3⟩; exact ⟨⟨h1, h2, h3⟩, of_decide_eq_true h4⟩
  rw [this]
  exact isTopK_take _ _ _ _ (hsort _)

/-- C09: without text weighting the score is the vector similarity; with it, a weighted mean, so it lies between the two
similarities. -/
theorem C09_score (c : Cfg W) (o : Opts) (q : List W) (x : Hit W) (hw : 0 ≤ c.defaultWeight ∧ c.defaultWeight ≤ 1) :
    ((c.textSim = none ∨ o.queryText = "") → combine c o q x = c.sim q x.vector) ∧
    (∀ f, c.textSim = some f → min (c.sim q x.vector) (f o.queryText x.content) ≤ combine c o q x ∧
      combine c o q x ≤ max (c.sim q x.vector) (f o.queryText x.content)) := by
  have hb : 0 ≤ textWeight c o ∧ textWeight c o ≤ 1 := by
    unfold textWeight
    split
    · rename_i h; exact ⟨le_min h.le (by norm_num), min_le_right _ _⟩
    · split
      · exact hw
      · exact ⟨le_refl _, by norm_num⟩
  constructor
  · rintro (h | h)
    · simp [combine, h]
    · cases hc : c.textSim <;> simp [combine, h, hc]
  · intro f hf
    simp only [combine, hf]
    by_cases hq : o.queryText ≠ ""
    · simp only [if_pos hq]
      generalize f o.queryText x.content = t at *
      generalize c.sim q x.vector = v at *
      generalize textWeight c o = w at *
      split
      · constructor
        · rcases le_total v t with hvt | hvt
          · rw [min_eq_left hvt]; nlinarith
          · rw [min_eq_right hvt]; nlinarith
        · rcases le_total v t with hvt | hvt
          · rw [max_eq_right hvt]; nlinarith
          · rw [max_eq_left hvt]; nlinarith
      · exact ⟨min_le_left _ _, le_max_left _ _⟩
    · simp only [if_neg hq, gt_iff_lt, lt_self_iff_false, and_false, if_false]
      exact ⟨min_le_left _ _, le_max_left _ _⟩

/-- C09 on the index paths: best first and at most K of them. -/
theorem C09_ordered (c : Cfg W) (hsort : SortsDesc c.sort) (via : Serve W) (s : St W HI VI)
    (query : List W) (o : Opts) (out : List (Hit W)) (h : search c via s query o = .ok out) :
    out.Pairwise (fun a b => b.score ≤ a.score) ∧ out.length ≤ asked o := by
  obtain ⟨q, _, rfl⟩ := prepared h
  have hlin : ∀ o' : Opts, asked o' = asked o → (searchLinear c s.db q o').Pairwise (fun a b => b.score ≤ a.score) ∧
      (searchLinear c s.db q o').length ≤ asked o := by
    intro o' e
    rw [searchLinear_eq, e]
    exact ⟨(hsort _).2.sublist (List.take_sublist _ _), List.length_take_le _ _⟩
  have hidx : ∀ ids, (processCandidates c q (fetchByIDs s.db ids) { o with topK := defaultK o.topK }).Pairwise
      (fun a b => b.score ≤ a.score) ∧
      (processCandidates c q (fetchByIDs s.db ids) { o with topK := defaultK o.topK }).length ≤ asked o := by
    intro ids
    rw [processCandidates_eq _ _ _ _ _ (defaultK_pos _), asked_default]
    exact ⟨(hsort _).2.sublist (List.take_sublist _ _), List.length_take_le _ _⟩
  cases via with
  | linear => exact hlin o rfl
  | hnsw p =>
    simp only [serve, searchWithHNSW]
    split
    · exact hlin _ (asked_default o)
    · exact hidx _
  | ivf p =>
    simp only [serve, searchWithIVF]
    split
    · exact hlin _ (asked_default o)
    · split
      · exact hlin _ (asked_default o)
      · exact hidx _

open Classical in
/-- C09 on the index paths: among the stored records the index proposes, the answer is exactly the K best that pass the
collection, the metadata filter (without `doc_id`) and the threshold. -/
theorem C09_index_topK (c : Cfg W) (hsort : SortsDesc c.sort) (s : St W HI VI) (wf : Verif.Thm.Store.WF s.db)
    (propose : List W → Int → List String) (query q : List W) (o : Opts) (out : List (Hit W))
    (hq : prepareQuery c s query = .ok q) (hsome : propose q (defaultK o.topK * 2) ≠ [])
    (h : search c (.hnsw propose) s query o = .ok out) :
    IsTopK (fun x : Hit W => x.score)
      ((s.db.embeddings.filter (fun r => r.id ∈ propose q (defaultK o.topK * 2) ∧
          (o.collection ≠ "" → InColl s.db r o.collection) ∧
          (∀ kv ∈ o.filter, kv.1 ≠ "doc_id" → MetaHas r.metadata kv.1 kv.2) ∧
          (0 < o.threshold → o.threshold ≤ combine c o q (scan s.db r)))).map
        (hitOf c s.db o q)) (asked o) out := by
  unfold search at h
  rw [hq] at h
  injection h with h
  subst h
  simp only [serve, searchWithHNSW]
  rw [if_neg (fun hl => hsome (List.length_eq_zero_iff.1 hl))]
  rw [processCandidates_eq _ _ _ _ _ (defaultK_pos _), asked_default]
  have e : ∀ r, hitOf c s.db { o with topK := defaultK o.topK } q r = hitOf c s.db o q r := fun r => rfl
  have : (s.db.embeddings.filter (fun r => decide (r.id ∈ propose q (defaultK o.topK * 2) ∧
          (o.collection ≠ "" → InColl s.db r o.collection) ∧
          (∀ kv ∈ o.filter, kv.1 ≠ "doc_id" → MetaHas r.metadata kv.1 kv.2) ∧
          (0 < o.threshold → o.threshold ≤ combine c o q (scan s.db r))))).map (hitOf c s.db o q) =
      ((s.db.embeddings.filter (fun r => decide (r.id ∈ propose q (defaultK o.topK * 2)) &&
          decide (o.collection ≠ "" → (scan s.db r).collection = o.collection) &&
          matchesFilter (scan s.db r) o.filter)).map (hitOf c s.db { o with topK := defaultK o.topK } q)).filter
        (fun h => decide (o.threshold > 0 → h.score ≥ o.threshold)) := by
    rw [List.filter_map, List.filter_filter]
    have e' : hitOf c s.db { o with topK := defaultK o.topK } q = hitOf c s.db o q := rfl
    rw [e']
    congr 1
    apply List.filter_congr
    intro r _
    rw [Bool.eq_iff_iff]
    simp only [Bool.and_eq_true, Function.comp, hitOf, decide_eq_true_iff]
    rw [matchesFilter_iff]
    have hcoll : (o.collection ≠ "" → (scan s.db r).collection = o.collection) ↔
        (o.collection ≠ "" → InColl s.db r o.collection) := by
      refine imp_congr_right fun hne => ?_
      rw [← C16_shown s.db wf r o.collection hne]
      simp only [scan, collName, toRec]
      cases s.db.collections.find? (fun c => decide (c.id = r.cid)) <;> simp
    rw [hcoll]
    constructor
    · rintro ⟨h1, h2, h3, h4⟩; exact ⟨decide_eq_true h4, ⟨h1, h2⟩, h3⟩
    · rintro ⟨h4, ⟨h1, h2⟩, h3⟩; exact ⟨h1, h2, h3, of_decide_eq_true h4⟩
  rw [this]
  exact isTopK_take _ _ _ _ (hsort _)

example : search cfg0 .linear store1 [1, 1] { collection := "c", topK := 1, filter := [("t", "x")] } =
    .ok [{ id := "b", collection := "c", vector := [3, 4], content := "", docID := "", metadata := some [("t", "x")], score := 3 }] := by
  rfl

/-! ### C10 -/

/-- C10 on the linear path: every result matches every filter key, `doc_id` included, and the threshold. -/
theorem C10_linear (c : Cfg W) (hsort : SortsDesc c.sort) (s : St W HI VI) (wf : Verif.Thm.Store.WF s.db)
    (query : List W) (o : Opts) (out : List (Hit W)) (h : search c .linear s query o = .ok out) (x : Hit W) (hx : x ∈ out) :
    ∃ r ∈ s.db.embeddings, shows x r ∧ FilterOK o r ∧ (0 < o.threshold → o.threshold ≤ x.score) := by
  obtain ⟨q, _, rfl⟩ := prepared h
  obtain ⟨r, hr, rfl, _, h2, h3, h4⟩ := serve_mem c hsort .linear s wf q o x hx
  exact ⟨r, hr, ⟨rfl, rfl, rfl, rfl, rfl⟩, (filterOK_iff o r).2 ⟨h4 rfl, h2⟩, h3⟩

/-- C10, part, on every path: every result matches every filter key other than `doc_id`, and the threshold. Missing for the
full claim: `doc_id` on the index paths, see `C10_doc_id_violated`. -/
theorem C10_index_partial (c : Cfg W) (hsort : SortsDesc c.sort) (via : Serve W) (s : St W HI VI)
    (wf : Verif.Thm.Store.WF s.db) (query : List W) (o : Opts) (out : List (Hit W))
    (h : search c via s query o = .ok out) (x : Hit W) (hx : x ∈ out) :
    ∃ r ∈ s.db.embeddings, shows x r ∧ (∀ kv ∈ o.filter, kv.1 ≠ "doc_id" → MetaHas r.metadata kv.1 kv.2) ∧
      (0 < o.threshold → o.threshold ≤ x.score) := by
  obtain ⟨q, _, rfl⟩ := prepared h
  obtain ⟨r, hr, rfl, _, h2, h3, _⟩ := serve_mem c hsort via s wf q o x hx
  exact ⟨r, hr, ⟨rfl, rfl, rfl, rfl, rfl⟩, h2, h3⟩

/-- C10 is violated on the index paths: the `doc_id` filter is ignored there. -/
theorem C10_doc_id_violated : ∃ (c : Cfg Nat) (via : Serve Nat) (s : St Nat Unit Unit) (o : Opts) (out : List (Hit Nat)) (x : Hit Nat),
    SortsDesc c.sort ∧ Verif.Thm.Store.WF s.db ∧ o.filter = [("doc_id", "d")] ∧
    search c via s [1, 1] o = .ok out ∧ x ∈ out ∧ x.docID ≠ "d" ∧ ∀ r ∈ s.db.embeddings, r.id = x.id → r.docID ≠ some "d" :=
  ⟨cfg0, .hnsw (fun _ _ => ["b"]), store1, { filter := [("doc_id", "d")] },
    [{ id := "b", collection := "c", vector := [3, 4], content := "", docID := "", metadata := some [("t", "x")], score := 3 }],
    { id := "b", collection := "c", vector := [3, 4], content := "", docID := "", metadata := some [("t", "x")], score := 3 },
    cfg0_sorts, store1_wf, rfl, rfl, by simp, by decide, by decide⟩

/-! ### C11 -/

/-- The record is public or lists one of the principals. -/
def Permitted (r : Row W) (principals : List String) : Prop :=
  r.acl = none ∨ ∃ l, r.acl = some l ∧ ∃ p ∈ l, p ∈ principals

theorem scoreAndSort_mem (c : Cfg W) (hsort : SortsDesc c.sort) (q : List W) (cands : List (Hit W)) (o : Opts) (x : Hit W)
    (hx : x ∈ scoreAndSort c q cands o) : ∃ y ∈ cands, x = { y with score := c.sim q y.vector } := by
  unfold scoreAndSort at hx
  simp only at hx
  have : x ∈ c.sort (cands.map (fun h => { h with score := c.sim q h.vector })) := by
    split at hx
    · exact List.mem_of_mem_take hx
    · exact hx
  obtain ⟨y, hy, h⟩ := List.mem_map.1 ((hsort _).1.mem_iff.1 this)
  exact ⟨y, hy, h.symm⟩

/-- C11: only permitted records are returned, for any principals and collection. -/
theorem C11_permitted (c : Cfg W) (hsort : SortsDesc c.sort) (s : St W HI VI) (query : List W) (ps : List String)
    (o : Opts) (out : List (Hit W)) (h : searchWithACL c s query ps o = .ok out) (x : Hit W) (hx : x ∈ out) :
    ∃ r ∈ s.db.embeddings, shows x r ∧ Permitted r ps := by
  unfold searchWithACL at h
  split at h
  · cases h
  · injection h with h
    subst h
    obtain ⟨y, hy, rfl⟩ := scoreAndSort_mem c hsort _ _ _ _ hx
    obtain ⟨r, hr, rfl⟩ := List.mem_map.1 hy
    rw [List.mem_filter] at hr
    refine ⟨r, hr.1, ⟨rfl, rfl, rfl, rfl, rfl⟩, ?_⟩
    have hm := hr.2
    unfold aclMatch at hm
    unfold Permitted
    cases ha : r.acl with
    | none => exact Or.inl rfl
    | some l =>
      right
      refine ⟨l, rfl, ?_⟩
      simp only [ha, Option.isNone_some, Bool.false_or, Bool.false_and] at hm
      split at hm
      · split at hm
        · simp only [Bool.and_eq_true, List.any_eq_true, decide_eq_true_eq] at hm; exact hm.1
        · simpa using hm
      · split at hm <;> cases hm

open Classical in
/-- C11, completeness: without a collection the permitted records compete fairly; the answer is the K best of them. -/
theorem C11_topK (c : Cfg W) (hsort : SortsDesc c.sort) (s : St W HI VI) (query : List W) (ps : List String)
    (o : Opts) (hc : o.collection = "") (hk : 0 < o.topK) (out : List (Hit W)) (h : searchWithACL c s query ps o = .ok out) :
    IsTopK (fun x : Hit W => x.score)
      ((s.db.embeddings.filter (fun r => Permitted r ps)).map (fun r => { scan s.db r with score := c.sim query r.vector }))
      o.topK.toNat out := by
  unfold searchWithACL at h
  split at h
  · cases h
  · injection h with h
    subst h
    unfold scoreAndSort
    simp only
    have e : ∀ l : List (Hit W), (if o.topK > 0 ∧ (l.length : Int) > o.topK then l.take o.topK.toNat else l) = l.take o.topK.toNat := by
      intro l
      rw [← take_if l o.topK (by omega)]
      by_cases hl : (l.length : Int) > o.topK
      · rw [if_pos ⟨hk, hl⟩, if_pos hl]
      · rw [if_neg (fun hh => hl hh.2), if_neg hl]
    rw [e]
    have : (s.db.embeddings.filter (fun r => decide (Permitted r ps))) = s.db.embeddings.filter (aclMatch s.db ps o.collection) := by
      apply List.filter_congr
      intro r _
      rw [Bool.eq_iff_iff, decide_eq_true_eq]
      unfold Permitted aclMatch
      simp only [hc, ne_eq, not_true_eq_false, if_false]
      cases ha : r.acl with
      | none => simp
      | some l =>
        by_cases hp : ps.length > 0
        · simp [hp]
        · have : ps = [] := List.length_eq_zero_iff.1 (by omega)
          simp [this]
    rw [this, List.map_map]
    exact isTopK_take _ _ _ _ (hsort _)

/-- C11, part: the collection is respected when the caller has no principals. Missing for the full claim: callers with
principals, for whom public records of every collection are returned, see `C11_collection_violated`. -/
theorem C11_collection_partial (c : Cfg W) (hsort : SortsDesc c.sort) (s : St W HI VI) (query : List W)
    (o : Opts) (hc : o.collection ≠ "") (out : List (Hit W)) (h : searchWithACL c s query [] o = .ok out) (x : Hit W) (hx : x ∈ out) :
    ∃ r ∈ s.db.embeddings, shows x r ∧ InColl s.db r o.collection := by
  unfold searchWithACL at h
  split at h
  · cases h
  · injection h with h
    subst h
    obtain ⟨y, hy, rfl⟩ := scoreAndSort_mem c hsort _ _ _ _ hx
    obtain ⟨r, hr, rfl⟩ := List.mem_map.1 hy
    rw [List.mem_filter] at hr
    refine ⟨r, hr.1, ⟨rfl, rfl, rfl, rfl, rfl⟩, ?_⟩
    have hm := hr.2
    simp only [aclMatch, List.length_nil, gt_iff_lt, lt_self_iff_false, if_false, hc, ne_eq, not_false_eq_true, if_true,
      Bool.and_eq_true, decide_eq_true_iff] at hm
    unfold collName at hm
    cases hf : s.db.collections.find? (fun c => decide (c.id = r.cid)) with
    | none => rw [hf] at hm; simp at hm
    | some z =>
      rw [hf] at hm
      exact ⟨z, List.mem_of_find?_eq_some hf, by simpa using hm.2, by simpa using List.find?_some hf⟩

open Classical in
/-- C11, what a collection does: the answer is the K best of the records that are public or, where the caller names
principals, that list one of them in the collection; the collection restricts public records only when there are no
principals. -/
theorem C11_collection_topK_partial (c : Cfg W) (hsort : SortsDesc c.sort) (s : St W HI VI)
    (wf : Verif.Thm.Store.WF s.db) (query : List W) (ps : List String) (o : Opts) (hc : o.collection ≠ "")
    (hk : 0 < o.topK) (out : List (Hit W)) (h : searchWithACL c s query ps o = .ok out) :
    IsTopK (fun x : Hit W => x.score)
      ((s.db.embeddings.filter (fun r => (r.acl = none ∧ (ps = [] → InColl s.db r o.collection)) ∨
        ((∃ l, r.acl = some l ∧ ∃ p ∈ l, p ∈ ps) ∧ InColl s.db r o.collection))).map
          (fun r => { scan s.db r with score := c.sim query r.vector }))
      o.topK.toNat out := by
  have hcn : ∀ r : Row W, collName s.db r = some o.collection ↔ InColl s.db r o.collection := by
    intro r
    unfold collName InColl
    constructor
    · intro hm
      cases hf : s.db.collections.find? (fun c => decide (c.id = r.cid)) with
      | none => rw [hf] at hm; simp at hm
      | some z =>
        rw [hf] at hm
        exact ⟨z, List.mem_of_find?_eq_some hf, by simpa using hm, by simpa using List.find?_some hf⟩
    · rintro ⟨z, hz, hn, hi⟩
      cases hf : s.db.collections.find? (fun c => decide (c.id = r.cid)) with
      | none => exact absurd hi (by simpa using List.find?_eq_none.1 hf z hz)
      | some y =>
        have hy : y.id = r.cid := by simpa using List.find?_some hf
        have : y = z := Verif.Thm.Store.nodup_inj (fun c : Coll => c.id) wf.collIds (List.mem_of_find?_eq_some hf) hz
          (by rw [hy, hi])
        rw [this]; simp [hn]
  unfold searchWithACL at h
  split at h
  · cases h
  · injection h with h
    subst h
    unfold scoreAndSort
    simp only
    have e : ∀ l : List (Hit W), (if o.topK > 0 ∧ (l.length : Int) > o.topK then l.take o.topK.toNat else l) = l.take o.topK.toNat := by
      intro l
      rw [← take_if l o.topK (by omega)]
      by_cases hl : (l.length : Int) > o.topK
      · rw [if_pos ⟨hk, hl⟩, if_pos hl]
      · rw [if_neg (fun hh => hl hh.2), if_neg hl]
    rw [e, List.map_map]
    have hf : s.db.embeddings.filter (aclMatch s.db ps o.collection) =
        s.db.embeddings.filter (fun r => decide ((r.acl = none ∧ (ps = [] → InColl s.db r o.collection)) ∨
          ((∃ l, r.acl = some l ∧ ∃ p ∈ l, p ∈ ps) ∧ InColl s.db r o.collection))) := by
      apply List.filter_congr
      intro r _
      rw [Bool.eq_iff_iff, decide_eq_true_eq, ← hcn]
      unfold aclMatch
      simp only [hc, ne_eq, not_false_eq_true, if_true]
      cases ps with
      | nil => cases r.acl <;> simp
      | cons p ps => cases r.acl <;> simp
    rw [hf]
    exact isTopK_take _ _ _ _ (hsort _)

/-- C11 is violated: with a principal, a public record of another collection is returned. -/
theorem C11_collection_violated : ∃ (c : Cfg Nat) (s : St Nat Unit Unit) (o : Opts) (ps : List String) (out : List (Hit Nat)) (x : Hit Nat),
    SortsDesc c.sort ∧ Verif.Thm.Store.WF s.db ∧ o.collection = "c" ∧
    searchWithACL c s [1, 1] ps o = .ok out ∧ x ∈ out ∧ x.collection = "default" :=
  ⟨cfg0, store1, { collection := "c", topK := 1 }, ["u"],
    [{ id := "e", collection := "default", vector := [5, 6], content := "", docID := "", metadata := none, score := 5 }],
    { id := "e", collection := "default", vector := [5, 6], content := "", docID := "", metadata := none, score := 5 },
    cfg0_sorts, store1_wf, rfl, rfl, by simp, rfl⟩

/-! ### C12 -/

/-- Reciprocal rank fusion: the sum over the lists that contain `id` of `1 / (k + rank)`, ranks from 1. -/
def rrf (k : ℚ) (lists : List (List String)) (id : String) : ℚ :=
  (lists.map (fun l => if id ∈ l then 1 / (k + (l.idxOf id + 1 : ℕ)) else 0)).sum

theorem fuseVector_ids (k : ℚ) (i : Nat) (hs : List (Hit W)) : (fuseVector k i hs).map (fun h => h.id) = hs.map (fun h => h.id) := by
  induction hs generalizing i with
  | nil => rfl
  | cons h hs ih => simp [fuseVector, ih]

theorem fuseVector_score (k : ℚ) (i : Nat) (hs : List (Hit W)) (hnd : (hs.map (fun h => h.id)).Nodup) :
    ∀ x ∈ fuseVector k i hs, x.score = 1 / (k + ((hs.map (fun h => h.id)).idxOf x.id + i + 1 : ℕ)) := by
  induction hs generalizing i with
  | nil => simp [fuseVector]
  | cons h hs ih =>
    intro x hx
    simp only [List.map_cons, List.nodup_cons] at hnd
    simp only [fuseVector, List.mem_cons] at hx
    rcases hx with rfl | hx
    · simp
    · have hid : x.id ∈ hs.map (fun h => h.id) := by
        rw [← fuseVector_ids k (i + 1)]; exact List.mem_map_of_mem hx
      have hne : h.id ≠ x.id := fun hh => hnd.1 (hh ▸ hid)
      rw [ih (i + 1) hnd.2 x hx, List.map_cons, List.idxOf_cons_ne _ hne]
      congr 3; simp only [Nat.succ_eq_add_one]; omega

theorem fuseVector_mem (k : ℚ) (i : Nat) (hs : List (Hit W)) :
    ∀ x ∈ fuseVector k i hs, ∃ y ∈ hs, ∃ z, x = { y with score := z } := by
  induction hs generalizing i with
  | nil => simp [fuseVector]
  | cons h hs ih =>
    intro x hx
    simp only [fuseVector, List.mem_cons] at hx
    rcases hx with rfl | hx
    · exact ⟨h, by simp, _, rfl⟩
    · obtain ⟨y, hy, z, hz⟩ := ih (i + 1) x hx
      exact ⟨y, by simp [hy], z, hz⟩

/-- The table after folding in the full-text rows: ids once each, the union, with summed scores. -/
theorem fold_addHit (inc : String → ℚ) (rows : List (Hit W)) (hr : (rows.map (fun h => h.id)).Nodup) (acc : List (Hit W))
    (hacc : (acc.map (fun h => h.id)).Nodup) :
    let out := rows.foldl (fun acc h => addHit acc h (inc h.id)) acc
    (out.map (fun h => h.id)).Nodup ∧
    (∀ id, id ∈ out.map (fun h => h.id) ↔ id ∈ acc.map (fun h => h.id) ∨ id ∈ rows.map (fun h => h.id)) ∧
    (∀ x ∈ out,
      (∃ y ∈ acc, y.id = x.id ∧ x = { y with score := y.score + (if x.id ∈ rows.map (fun h => h.id) then inc x.id else 0) }) ∨
      (x.id ∉ acc.map (fun h => h.id) ∧ ∃ y ∈ rows, x = { y with score := inc y.id })) := by
  induction rows generalizing acc with
  | nil =>
    refine ⟨hacc, by simp, ?_⟩
    intro x hx
    exact Or.inl ⟨x, hx, rfl, by simp⟩
  | cons h rows ih =>
    simp only [List.map_cons, List.nodup_cons] at hr
    simp only [List.foldl_cons]
    by_cases hex : acc.any (fun x => x.id = h.id) = true
    · have hstep : addHit acc h (inc h.id) = acc.map (fun x => if x.id = h.id then { x with score := x.score + inc h.id } else x) := by
        unfold addHit; rw [if_pos hex]
      have hids : (addHit acc h (inc h.id)).map (fun h => h.id) = acc.map (fun h => h.id) := by
        rw [hstep, List.map_map]; congr 1; funext x; simp only [Function.comp]; split <;> rfl
      have hmem : h.id ∈ acc.map (fun h => h.id) := by
        rw [List.any_eq_true] at hex
        obtain ⟨y, hy, he⟩ := hex
        rw [← of_decide_eq_true he]; exact List.mem_map_of_mem hy
      obtain ⟨a, b, d⟩ := ih hr.2 (addHit acc h (inc h.id)) (by rw [hids]; exact hacc)
      refine ⟨a, ?_, ?_⟩
      · intro id
        rw [b id, hids, List.map_cons, List.mem_cons]
        constructor
        · rintro (h1 | h1)
          · exact Or.inl h1
          · exact Or.inr (Or.inr h1)
        · rintro (h1 | h1 | h1)
          · exact Or.inl h1
          · rw [h1]; exact Or.inl hmem
          · exact Or.inr h1
      · intro x hx
        rcases d x hx with ⟨y, hy, hyx, hxe⟩ | ⟨hn, y, hy, hxe⟩
        · left
          rw [hstep] at hy
          obtain ⟨z, hz, rfl⟩ := List.mem_map.1 hy
          by_cases hzh : z.id = h.id
          · simp only [hzh, if_true] at hyx hxe
            refine ⟨z, hz, hzh.trans (by rw [← hyx]), ?_⟩
            have hxid : x.id = h.id := by rw [← hyx]
            rw [hxe, hxid]
            simp [hzh, hr.1, hxid]
          · simp only [hzh, if_false] at hyx hxe
            refine ⟨z, hz, hyx, ?_⟩
            have hxid : x.id ≠ h.id := by rw [← hyx]; exact hzh
            rw [hxe]
            simp [List.mem_cons, hxid, hyx]
        · right
          rw [hids] at hn
          exact ⟨hn, y, by simp [hy], hxe⟩
    · have hstep : addHit acc h (inc h.id) = acc ++ [{ h with score := inc h.id }] := by
        unfold addHit; rw [if_neg hex]
      have hnm : h.id ∉ acc.map (fun h => h.id) := by
        intro hm
        obtain ⟨y, hy, he⟩ := List.mem_map.1 hm
        exact hex (List.any_eq_true.2 ⟨y, hy, by simp [he]⟩)
      have hids : (addHit acc h (inc h.id)).map (fun h => h.id) = acc.map (fun h => h.id) ++ [h.id] := by
        rw [hstep]; simp
      obtain ⟨a, b, d⟩ := ih hr.2 (addHit acc h (inc h.id)) (by
        rw [hids, List.nodup_append]
        refine ⟨hacc, by simp, ?_⟩
        intro u hu v hv
        rw [List.mem_singleton] at hv
        rw [hv]; exact fun hh => hnm (hh ▸ hu))
      refine ⟨a, ?_, ?_⟩
      · intro id
        rw [b id, hids, List.map_cons, List.mem_cons, List.mem_append, List.mem_singleton]
        tauto
      · intro x hx
        rcases d x hx with ⟨y, hy, hyx, hxe⟩ | ⟨hn, y, hy, hxe⟩
        · rw [hstep, List.mem_append, List.mem_singleton] at hy
          rcases hy with hy | rfl
          · left
            refine ⟨y, hy, hyx, ?_⟩
            have : x.id ≠ h.id := fun hh => hnm (by rw [← hh, ← hyx]; exact List.mem_map_of_mem hy)
            rw [hxe]
            simp [List.mem_cons, this, hyx]
          · right
            have hxid : x.id = h.id := hyx.symm
            refine ⟨by rw [hxid]; exact hnm, h, by simp, ?_⟩
            rw [hxe, hxid]
            simp [hr.1]
        · right
          rw [hids, List.mem_append, not_or] at hn
          exact ⟨hn.1, y, by simp [hy], hxe⟩

theorem hit_ids_nodup (c : Cfg W) (hsort : SortsDesc c.sort) (via : Serve W) (s : St W HI VI)
    (wf : Verif.Thm.Store.WF s.db) (query : List W) (o : Opts) (out : List (Hit W))
    (h : search c via s query o = .ok out) : (out.map (fun x => x.id)).Nodup := by
  obtain ⟨q, _, rfl⟩ := prepared h
  have key : ∀ (o' : Opts) (p : Row W → Bool) (t : Hit W → Bool) (n : Nat),
      (((c.sort (((s.db.embeddings.filter p).map (hitOf c s.db o' q)).filter t)).take n).map (fun x => x.id)).Nodup := by
    intro o' p t n
    refine List.Sublist.nodup ((List.take_sublist _ _).map _) ?_
    rw [((hsort _).1.map _).nodup_iff]
    refine List.Sublist.nodup (List.filter_sublist.map _) ?_
    rw [List.map_map]
    exact Verif.Thm.Store.nodup_map_filter (fun r : Row W => r.id) p wf.embIds
  cases via with
  | linear => simp only [serve]; rw [searchLinear_eq]; exact key _ _ _ _
  | hnsw p =>
    simp only [serve, searchWithHNSW]
    split
    · rw [searchLinear_eq]; exact key _ _ _ _
    · rw [processCandidates_eq _ _ _ _ _ (defaultK_pos _)]; exact key _ _ _ _
  | ivf p =>
    simp only [serve, searchWithIVF]
    split
    · rw [searchLinear_eq]; exact key _ _ _ _
    · split
      · rw [searchLinear_eq]; exact key _ _ _ _
      · rw [processCandidates_eq _ _ _ _ _ (defaultK_pos _)]; exact key _ _ _ _

/-- C12, part: hybrid search scores every id by reciprocal rank fusion of the two lists, lists each id once, best first,
at most TopK, cutting only the worst; the ids are those of the vector answer and the stored full-text answer. Missing for
the full claim: full-text hits are not confined to the collection and filter, see `C12_scope_violated`. -/
theorem C12_fusion_partial (c : Cfg W) (hsort : SortsDesc c.sort) (via : Serve W) (s : St W HI VI)
    (wf : Verif.Thm.Store.WF s.db) (query : List W) (fts : List String)
    (o : Opts) (rrfK : ℚ) (out : List (Hit W)) (h : hybridSearch c via s query fts o rrfK = .ok out) :
    ∃ vs fused, (if query.length > 0 then search c via s query o else .ok []) = .ok vs ∧
      (out.map (fun x => x.id)).Nodup ∧
      (∀ x ∈ fused, x.score = rrf (if rrfK = 0 then 60 else rrfK)
        [vs.map (fun x => x.id), fts] x.id) ∧
      (∀ id, id ∈ fused.map (fun x => x.id) ↔ id ∈ vs.map (fun x => x.id) ∨ (id ∈ fts ∧ ∃ r ∈ s.db.embeddings, r.id = id)) ∧
      (0 < o.topK → IsTopK (fun x : Hit W => x.score) fused o.topK.toNat out) ∧
      (o.topK ≤ 0 → IsRanked (fun x : Hit W => x.score) fused out) := by
  unfold hybridSearch at h
  split at h
  · cases h
  · split at h
    · cases h
    · rename_i vs hvs
      injection h with h
      have hvnd : (vs.map (fun x => x.id)).Nodup := by
        split at hvs
        · exact hit_ids_nodup c hsort via s wf query o vs hvs
        · injection hvs with hvs; rw [← hvs]; simp
      have hvstored : ∀ x ∈ vs, ∃ r ∈ s.db.embeddings, r.id = x.id := by
        intro x hx
        split at hvs
        · obtain ⟨r, hr, hs⟩ := C05_search_stored c hsort via s wf query o vs hvs x hx
          exact ⟨r, hr, hs.1.symm⟩
        · injection hvs with hvs; rw [← hvs] at hx; cases hx
      have hrows : (((s.db.embeddings.filter (fun r => decide (r.id ∈ fts))).map (scan s.db)).map (fun h => h.id)).Nodup := by
        rw [List.map_map]
        exact Verif.Thm.Store.nodup_map_filter (fun r : Row W => r.id) _ wf.embIds
      have hrowmem : ∀ id, id ∈ ((s.db.embeddings.filter (fun r => decide (r.id ∈ fts))).map (scan s.db)).map (fun h => h.id) ↔
          id ∈ fts ∧ ∃ r ∈ s.db.embeddings, r.id = id := by
        intro id
        rw [List.map_map, List.mem_map]
        constructor
        · rintro ⟨r, hr, rfl⟩
          rw [List.mem_filter, decide_eq_true_eq] at hr
          exact ⟨hr.2, r, hr.1, rfl⟩
        · rintro ⟨hf, r, hr, rfl⟩
          exact ⟨r, List.mem_filter.2 ⟨hr, by simpa using hf⟩, rfl⟩
      generalize hk : (if rrfK = 0 then 60 else rrfK) = k at h ⊢
      generalize hrw : (s.db.embeddings.filter (fun r => decide (r.id ∈ fts))).map (scan s.db) = rows at h hrows hrowmem
      obtain ⟨f1, f2, f3⟩ := fold_addHit (fun i => 1 / (k + rankOf fts i)) rows hrows (fuseVector k 0 vs)
        (by rw [fuseVector_ids]; exact hvnd)
      generalize hfused : rows.foldl (fun acc h => addHit acc h (1 / (k + rankOf fts h.id))) (fuseVector k 0 vs) = fused at h f1 f2 f3
      have hsorted := hsort fused
      refine ⟨vs, fused, hvs, ?_, ?_, ?_, ?_, ?_⟩
      · rw [← h]
        split
        · exact List.Sublist.nodup ((List.take_sublist _ _).map _) ((hsorted.1.map _).nodup_iff.2 f1)
        · exact (hsorted.1.map _).nodup_iff.2 f1
      · intro x hx
        simp only [rrf, List.map_cons, List.map_nil, List.sum_cons, List.sum_nil, add_zero]
        rcases f3 x hx with ⟨y, hy, hyx, hxe⟩ | ⟨hn, y, hy, hxe⟩
        · have hyv : y.id ∈ vs.map (fun x => x.id) := by
            rw [← fuseVector_ids k 0]; exact List.mem_map_of_mem hy
          have hys := fuseVector_score k 0 vs hvnd y hy
          have hxs : x.score = y.score + (if x.id ∈ rows.map (fun h => h.id) then 1 / (k + rankOf fts x.id) else 0) := by
            conv_lhs => rw [hxe]
          rw [hxs, hys, ← hyx, if_pos hyv]
          congr 1
          by_cases hm : y.id ∈ rows.map (fun h => h.id)
          · rw [if_pos hm, if_pos ((hrowmem _).1 hm).1]; rfl
          · rw [if_neg hm, if_neg]
            intro hf
            obtain ⟨z, hz, hzz⟩ := List.mem_map.1 hyv
            obtain ⟨r, hr, hrid⟩ := hvstored z hz
            exact hm ((hrowmem _).2 ⟨hf, r, hr, by rw [hrid]; exact hzz⟩)
        · rw [fuseVector_ids] at hn
          have hyr : y.id ∈ rows.map (fun h => h.id) := List.mem_map_of_mem hy
          have hxid : x.id = y.id := by rw [hxe]
          rw [if_neg hn, zero_add, hxid, if_pos ((hrowmem _).1 hyr).1, hxe]; rfl
      · intro id
        rw [f2 id, fuseVector_ids, hrowmem]
      · intro hpos
        have e : out = (c.sort fused).take o.topK.toNat := by
          rw [← h]
          split
          · rfl
          · rename_i hne
            rw [List.take_of_length_le]
            have : ¬ ((c.sort fused).length : Int) > o.topK := fun hh => hne ⟨hpos, hh⟩
            omega
        rw [e]
        exact isTopK_take _ _ _ _ hsorted
      · intro hneg
        rw [if_neg (fun hh => by omega)] at h
        rw [← h]
        exact ⟨hsorted.1, hsorted.2⟩

/-- C12, part: without text the answer stays in the requested collection and filter as far as `Search` does. -/
theorem C12_scope_partial (c : Cfg W) (hsort : SortsDesc c.sort) (s : St W HI VI)
    (wf : Verif.Thm.Store.WF s.db) (query : List W)
    (o : Opts) (rrfK : ℚ) (out : List (Hit W)) (h : hybridSearch c .linear s query [] o rrfK = .ok out) (x : Hit W) (hx : x ∈ out) :
    ∃ r ∈ s.db.embeddings, shows x r ∧ InScope s.db o r := by
  unfold hybridSearch at h
  split at h
  · cases h
  · split at h
    · cases h
    · rename_i vs hvs
      injection h with h
      have hrows : (s.db.embeddings.filter (fun r => decide (r.id ∈ ([] : List String)))).map (scan s.db) = [] := by
        simp
      simp only [hrows, List.foldl_nil] at h
      have hx' : x ∈ fuseVector (if rrfK = 0 then 60 else rrfK) 0 vs := by
        rw [← h] at hx
        generalize (if rrfK = 0 then 60 else rrfK) = k at hx ⊢
        apply (hsort _).1.mem_iff.1
        split at hx
        · exact List.mem_of_mem_take hx
        · exact hx
      obtain ⟨y, hy, z, rfl⟩ := fuseVector_mem _ _ _ x hx'
      split at hvs
      · obtain ⟨q, _, rfl⟩ := prepared hvs
        obtain ⟨r, hr, rfl, h1, h2, _, h4⟩ := serve_mem c hsort .linear s wf q o y hy
        exact ⟨r, hr, ⟨rfl, rfl, rfl, rfl, rfl⟩, h1, (filterOK_iff o r).2 ⟨h4 rfl, h2⟩⟩
      · injection hvs with hvs
        rw [← hvs] at hy; cases hy

/-- C12 is violated: a full-text hit outside the requested collection is returned. -/
theorem C12_scope_violated : ∃ (c : Cfg Nat) (s : St Nat Unit Unit) (o : Opts) (fts : List String) (out : List (Hit Nat)) (x : Hit Nat),
    SortsDesc c.sort ∧ Verif.Thm.Store.WF s.db ∧ o.collection = "c" ∧
    hybridSearch c .linear s [] fts o 0 = .ok out ∧ x ∈ out ∧ x.collection = "default" :=
  ⟨cfg0, store1, { collection := "c", topK := 1 }, ["e"],
    [{ id := "e", collection := "default", vector := [5, 6], content := "", docID := "", metadata := none, score := 1 / (60 + 1) }],
    { id := "e", collection := "default", vector := [5, 6], content := "", docID := "", metadata := none, score := 1 / (60 + 1) },
    cfg0_sorts, store1_wf, rfl, rfl, by simp, rfl⟩

example : ∃ out, hybridSearch cfg0 .linear store1 [1, 1] ["b", "e"] { topK := 2 } 0 = .ok out := ⟨_, rfl⟩

/-! ### C77 -/

/-- Who may read the record: its own list if it has one, else that of its document, else everybody. -/
def MayRead (db : DB W) (r : Row W) (principals : List String) : Prop :=
  match r.acl with
  | some l => ∃ p ∈ l, p ∈ principals
  | none => ∀ d ∈ db.documents, r.docID = some d.id → ∀ l, d.acl = some l → ∃ p ∈ l, p ∈ principals

/-- C77, part: ACL search respects the effective access list of every record that has a list of its own or whose document
has none. Missing for the full claim: inheritance from the document, see `C77_violated`. -/
theorem C77_effective_partial (c : Cfg W) (hsort : SortsDesc c.sort) (s : St W HI VI) (query : List W) (ps : List String)
    (o : Opts) (hown : ∀ r ∈ s.db.embeddings, r.acl = none → ∀ d ∈ s.db.documents, r.docID = some d.id → d.acl = none)
    (out : List (Hit W)) (h : searchWithACL c s query ps o = .ok out) (x : Hit W) (hx : x ∈ out) :
    ∃ r ∈ s.db.embeddings, shows x r ∧ MayRead s.db r ps := by
  obtain ⟨r, hr, hs, hp⟩ := C11_permitted c hsort s query ps o out h x hx
  refine ⟨r, hr, hs, ?_⟩
  unfold MayRead
  rcases hp with hp | ⟨l, hl, hp⟩
  · rw [hp]
    intro d hd hdoc l hl
    rw [hown r hr hp d hd hdoc] at hl; cases hl
  · rw [hl]; exact hp

/-- A document readable by `u` only, with a chunk that has no list of its own. -/
def store2 : St Nat Unit Unit :=
  run env0 store0 [.createDocument false { id := "d", body := "", acl := some ["u"] },
    .upsert true false { id := "a", vector := some [1, 2], docID := "d" }]

/-- C77 is violated: a chunk of a restricted document is returned to a caller without principals. -/
theorem C77_violated : ∃ (c : Cfg Nat) (s : St Nat Unit Unit) (out : List (Hit Nat)) (x : Hit Nat),
    SortsDesc c.sort ∧ Verif.Thm.Store.WF s.db ∧ searchWithACL c s [1, 1] [] {} = .ok out ∧ x ∈ out ∧
      ∀ r ∈ s.db.embeddings, r.id = x.id → ¬ MayRead s.db r [] := by
  refine ⟨cfg0, store2,
    [{ id := "a", collection := "default", vector := [1, 2], content := "", docID := "d", metadata := none, score := 1 }],
    { id := "a", collection := "default", vector := [1, 2], content := "", docID := "d", metadata := none, score := 1 },
    cfg0_sorts, Verif.Thm.Store.run_wf env0 _ (Verif.Thm.Store.init_wf 2 none none) _, rfl, by simp, ?_⟩
  have he : store2.db.embeddings =
      [{ id := "a", cid := 1, vector := [1, 2], content := "", docID := some "d", metadata := none, acl := none }] := by decide
  intro r hr _ hm
  rw [he, List.mem_singleton] at hr
  subst hr
  have := hm { id := "d", body := "", acl := some ["u"] } (by decide) rfl ["u"] rfl
  simp at this

/-- C77 is violated on every store: the answers are the same whatever the documents and their access lists are. -/
theorem C77_ignored_violated (c : Cfg W) (s : St W HI VI) (docs : List Doc) (query : List W) (ps : List String) (o : Opts) :
    searchWithACL c { s with db := { s.db with documents := docs } } query ps o = searchWithACL c s query ps o := rfl

example : ∀ r ∈ store1.db.embeddings, r.acl = none → ∀ d ∈ store1.db.documents, r.docID = some d.id → d.acl = none := by
  decide

/-! ### C78 -/

/-- The record's metadata has exactly the requested values. -/
def MetaMatch (m : Option Meta) (filters : Meta) : Prop := ∃ m', m = some m' ∧ ∀ kv ∈ filters, m'.lookup kv.1 = some kv.2

/-- C78, part: a filtered search returns exactly those of the K best that match the filter, in order. Missing for the full
claim: matching records outside the unfiltered K best are lost, see `C78_violated`. -/
theorem C78_post_filter_partial (c : Cfg W) (via : Serve W) (s : St W HI VI) (query : List W) (o : Opts) (filters : Meta)
    (out : List (Hit W)) (h : searchWithFilter c via s query o filters = .ok out) :
    ∃ all, search c via s query o = .ok all ∧ out.Sublist all ∧
      (filters ≠ [] → ∀ x, x ∈ out ↔ x ∈ all ∧ MetaMatch x.metadata filters) := by
  unfold searchWithFilter at h
  split at h
  · cases h
  · rename_i all hall
    injection h with h
    refine ⟨all, hall, ?_, ?_⟩
    · rw [← h]; split
      · exact List.filter_sublist
      · exact List.Sublist.refl _
    · intro hne x
      have hpos : filters.length > 0 := List.length_pos_iff.2 hne
      rw [← h, if_pos hpos]
      unfold filterByMetadata MetaMatch
      rw [List.mem_filter]
      refine and_congr_right fun _ => ?_
      cases x.metadata with
      | none => simp
      | some m => simp [List.all_eq_true]

/-- C78 is violated: with K = 1 the only matching record is not found because a better scored one does not match. -/
theorem C78_violated : ∃ (c : Cfg Nat) (s : St Nat Unit Unit) (o : Opts) (filters : Meta),
    SortsDesc c.sort ∧ Verif.Thm.Store.WF s.db ∧ o.topK = 1 ∧
    searchWithFilter c .linear s [1, 1] o filters = .ok [] ∧ ∃ r ∈ s.db.embeddings, MetaMatch r.metadata filters :=
  ⟨cfg0, store1, { topK := 1 }, [("t", "x")], cfg0_sorts, store1_wf, rfl, rfl,
    { id := "b", cid := 2, vector := [3, 4], content := "", docID := none, metadata := some [("t", "x")], acl := some ["u"] },
    by decide, [("t", "x")], rfl, by decide⟩

end Verif.Thm.Search
