import Verif.Thm.StoreIndex
import Verif.Thm.Search

/-!
C213: searching a small store through its own graph index is exact, from the calls on the store down to the graph: the store
keeps the index equal to the table (`C161_exact_partial`), the index finds the nearest of what it holds
(`C108_small_index_exact_partial`) and the search ranks what the index proposes (`C09_index_topK`).
-/
namespace Verif.Thm.StoreExact
open Verif.Model.Store Verif.Model.Search Verif.Spec Verif.Base Verif.Thm.Search Verif.Thm.StoreIndex
open Verif.Thm.Store (WF run_wf init_wf find nodup_inj)

open Verif.Thm.StoreProps (InColl)

variable {W VI : Type}

abbrev Ix (W : Type) := { h : Hnsw.Index (List W) // Hnsw.Inv h }

/-! ### What a history does to the index -/

/-- Every id the call may write satisfies `P`; the index handed over by a reopening satisfies `G`. -/
def Writes {HI : Type} (P : String → Prop) (G : HI → Prop) : Op W HI VI → Prop
  | .upsert _ _ e => P e.id
  | .upsertBatch _ _ es => ∀ e ∈ es, P e.id
  | .reopen _ h _ => ∀ x, h = some x → G x
  | _ => True

theorem fold_keeps {HI α : Type} {G : HI → Prop} {f : HI → α → HI} (l : List α) (hf : ∀ h, ∀ a ∈ l, G h → G (f h a)) :
    ∀ h, G h → G (l.foldl f h) := by
  induction l with
  | nil => intro h hg; exact hg
  | cons a l ih =>
    intro h hg
    exact ih (fun h b hb => hf h b (List.mem_cons_of_mem _ hb)) _ (hf h a List.mem_cons_self hg)

theorem map_keeps {HI : Type} {G : HI → Prop} {o : Option HI} {f : HI → HI} (ho : ∀ h, o = some h → G h)
    (hf : ∀ h, G h → G (f h)) : ∀ h, o.map f = some h → G h := by
  intro h hh
  obtain ⟨x, hx, rfl⟩ := Option.map_eq_some_iff.1 hh
  exact hf x (ho x hx)

theorem prepareRow_id {db : DB W} {e : Emb W} {r : Row W} (h : prepareRow db e = .ok r) : r.id = e.id := by
  unfold prepareRow at h
  split at h
  · cases h
  · split at h
    · cases h
    · injection h with h; rw [← h]

/-- A property of the index that insertions of permitted ids and removals keep holds after every history. -/
theorem step_keeps {HI : Type} (env : Env W HI VI) (P : String → Prop) (G : HI → Prop)
    (hins : ∀ h i v, P i → G h → G (env.hInsert h i v)) (hdel : ∀ h i, G h → G (env.hDelete h i))
    (s : St W HI VI) (hs : ∀ h, s.hnsw = some h → G h) (op : Op W HI VI) (hop : Writes P G op) :
    ∀ h, (step env s op).1.hnsw = some h → G h := by
  have hd : ∀ ids : List String, ∀ h, G h → G (ids.foldl env.hDelete h) := fun ids => fold_keeps ids fun h i _ => hdel h i
  cases op with
  | upsert fk f e =>
    rw [step]; unfold upsert
    split
    · exact hs
    · simp only []
      have hs1 : ∀ h, (if s.dim = 0 then { s with dim := (e.vector.getD []).length } else s).hnsw = some h → G h := by
        split <;> exact hs
      split
      · exact hs1
      · rename_i v hv
        split
        · exact hs1
        · rename_i row hrow
          split
          · exact hs1
          · split
            · exact hs1
            · refine map_keeps hs1 fun h hg => hins h _ _ ?_ hg
              rw [prepareRow_id hrow]
              exact hop
  | upsertBatch fk f es =>
    rw [step]; unfold upsertBatch
    split
    · exact hs
    · split
      · exact hs
      · split
        · exact hs
        · exact map_keeps hs fun h hg => fold_keeps es (fun h e he hg => hins h _ _ (hop e he) hg) h hg
  | delete f id =>
    rw [step]; unfold delete
    repeat' split
    all_goals first | exact hs | exact map_keeps hs fun h hg => hdel h _ hg
  | deleteByDocID f d =>
    rw [step]; unfold deleteByDocID
    repeat' split
    all_goals exact hs
  | deleteBatch f ids =>
    rw [step]; unfold deleteBatch
    simp only []
    repeat' split
    all_goals first | exact hs | exact map_keeps hs fun h hg => hd _ h hg
  | deleteByFilter f sel =>
    rw [step]; unfold deleteByFilter
    simp only []
    repeat' split
    all_goals first | exact hs | exact map_keeps hs fun h hg => hd _ h hg
  | clear f =>
    rw [step]; unfold clear
    repeat' split
    all_goals exact hs
  | clearByDocID f ds =>
    rw [step]; unfold clearByDocID
    repeat' split
    all_goals exact hs
  | createCollection f n d =>
    rw [step]; unfold createCollection
    repeat' split
    all_goals exact hs
  | deleteCollection f n =>
    rw [step]; unfold deleteCollection
    repeat' split
    all_goals exact hs
  | createDocument f d =>
    rw [step]; unfold createDocument
    repeat' split
    all_goals exact hs
  | updateDocument f d =>
    rw [step]; unfold updateDocument
    repeat' split
    all_goals exact hs
  | deleteDocument fk f id =>
    rw [step]; unfold deleteDocument
    simp only []
    repeat' split
    all_goals first | exact hs | exact map_keeps hs fun h hg => hd _ h hg
  | close => exact hs
  | reopen d h v => exact hop

theorem run_keeps {HI : Type} (env : Env W HI VI) (P : String → Prop) (G : HI → Prop)
    (hins : ∀ h i v, P i → G h → G (env.hInsert h i v)) (hdel : ∀ h i, G h → G (env.hDelete h i))
    (ops : List (Op W HI VI)) (s : St W HI VI) (hs : ∀ h, s.hnsw = some h → G h) (hops : ∀ op ∈ ops, Writes P G op) :
    ∀ h, (run env s ops).hnsw = some h → G h := by
  induction ops generalizing s with
  | nil => exact hs
  | cons op ops ih =>
    exact ih _ (step_keeps env P G hins hdel s hs op (hops op List.mem_cons_self))
      (fun o ho => hops o (List.mem_cons_of_mem _ ho))

/-- The index came about by insertions of the ids `ids` and removals, from an empty one. -/
def Grown (E : Hnsw.Env (List W)) (M efC : Nat) (ids : List String) (h : Ix W) : Prop :=
  ∃ calls : List (Hnsw.Op (List W)), (∀ c ∈ calls, c.ok ∧ c.single ∧ c.named) ∧
    (∀ x, (Hnsw.after calls x).isSome = true → x ∈ ids) ∧ Hnsw.run E (Hnsw.new (List W) M efC) calls = some h.1

theorem hrun_snoc (E : Hnsw.Env (List W)) (ops : List (Hnsw.Op (List W))) (op : Hnsw.Op (List W)) :
    ∀ h, Hnsw.run E h (ops ++ [op]) = (Hnsw.run E h ops).bind (fun h' => Hnsw.step E h' op) := by
  induction ops with
  | nil => intro h; simp [Hnsw.run]
  | cons o ops ih =>
    intro h
    rw [List.cons_append, Hnsw.run, Hnsw.run]
    cases Hnsw.step E h o with
    | none => rfl
    | some h' => exact ih h'

theorem after_snoc (ops : List (Hnsw.Op (List W))) (op : Hnsw.Op (List W)) :
    Hnsw.after (ops ++ [op]) = Hnsw.effect (Hnsw.after ops) op := by
  simp [Hnsw.after]

variable (adapt : List W → Nat → Nat → Option (List W)) (E : Hnsw.Env (List W)) (lv : String → Nat)
  (order : List (Hnsw.Node (List W)) → List (Hnsw.Node (List W))) (ho : ∀ l, (order l).Perm l)

theorem grown_insert (M efC : Nat) (ids : List String) (h : Ix W) (i : String) (v : List W) (hi : i ≠ "" ∧ i ∈ ids)
    (hg : Grown E M efC ids h) : Grown E M efC ids ((hnswEnv adapt E lv order ho).hInsert h i v) := by
  obtain ⟨calls, h1, h2, h3⟩ := hg
  refine ⟨calls ++ [.insert i v (lv i)], ?_, ?_, ?_⟩
  · intro c hc
    rcases List.mem_append.1 hc with hc | hc
    · exact h1 c hc
    · rw [List.mem_singleton] at hc; subst hc; exact ⟨trivial, trivial, hi.1⟩
  · intro x hx
    rw [after_snoc] at hx
    simp only [Hnsw.effect, Hnsw.offer, Option.isSome_or, Bool.or_eq_true] at hx
    rcases hx with hx | hx
    · exact h2 x hx
    · by_cases hxi : i = x
      · subst hxi; exact hi.2
      · simp [hxi] at hx
  · rw [hrun_snoc, h3]
    obtain ⟨h', e, c1, -, -⟩ := Hnsw.insert_some E h.1 i v (lv i) h.2
    have : ((hnswEnv adapt E lv order ho).hInsert h i v).1 = h' := by
      simp only [hnswEnv]
      split
      · rename_i hh; rw [c1] at hh; cases hh
      · rename_i h' e hh
        rw [c1] at hh
        injection hh with hh
        exact (congrArg Prod.fst hh).symm
    rw [this]
    simp [Hnsw.step, c1]

theorem grown_delete (M efC : Nat) (ids : List String) (h : Ix W) (i : String)
    (hg : Grown E M efC ids h) : Grown E M efC ids ((hnswEnv adapt E lv order ho).hDelete h i) := by
  obtain ⟨calls, h1, h2, h3⟩ := hg
  refine ⟨calls ++ [.delete i order], ?_, ?_, ?_⟩
  · intro c hc
    rcases List.mem_append.1 hc with hc | hc
    · exact h1 c hc
    · rw [List.mem_singleton] at hc; subst hc; exact ⟨ho, trivial, trivial⟩
  · intro x hx
    rw [after_snoc] at hx
    apply h2 x
    simp only [Hnsw.effect, Hnsw.remove] at hx
    split at hx
    · simpa using hx
    · exact hx
  · rw [hrun_snoc, h3]; rfl

/-! ### The search -/

/-- What the index proposes: the ids of a search with the configured candidate list size. -/
def proposals (ef : Nat) (h : Ix W) (q : List W) (k : Int) : List String :=
  ((Hnsw.search E h.1 q k.toNat ef).getD []).map Hnsw.Item.id

theorem topK_via {α : Type} (score : α → ℚ) (all : List α) (p : α → Bool) (k n : Nat) (hkn : k ≤ n) (out : List α)
    (h : IsTopK score (all.filter p) k out) (hlen : min n all.length ≤ (all.filter p).length)
    (hbest : ∀ r ∈ all, p r = false → ∀ x ∈ all, p x = true → score r ≤ score x) : IsTopK score all k out := by
  obtain ⟨rest, hp, hr⟩ := h.best
  refine ⟨h.ordered, ⟨rest ++ all.filter (fun x => !p x), ?_, ?_⟩, ?_⟩
  · rw [← List.append_assoc]
    exact (hp.append_right _).trans (List.filter_append_perm p all)
  · intro r hrm o ho
    have hom : o ∈ all.filter p := hp.mem_iff.1 (List.mem_append_left _ ho)
    rcases List.mem_append.1 hrm with hrm | hrm
    · exact hr r hrm o ho
    · obtain ⟨h1, h2⟩ := List.mem_filter.1 hrm
      obtain ⟨h3, h4⟩ := List.mem_filter.1 hom
      exact hbest r h1 (by simpa using h2) o h3 h4
  · have := h.size
    have h2 := List.length_filter_le p all
    omega

theorem asked_two (o : Opts) : (defaultK o.topK * 2).toNat = 2 * asked o := by
  unfold defaultK asked; split <;> omega

/-- What the index of a small store proposes: stored ids, as many as asked for or all, and none left out is nearer. -/
theorem proposals_spec (M efC ef : Nat) (hM : 0 < M) (ids : List String) (hlen : ids.length ≤ 2 * M + 1) (hef : ids.length ≤ ef)
    (s : St W (Ix W) VI) (wf : WF s.db) (h : Ix W) (hh : s.hnsw = some h) (hg : Grown E M efC ids h)
    (hx : Exact E.keep (fun h : Ix W => Hnsw.look h.1) s) (q : List W) (k : Int) :
    (∀ i ∈ proposals E ef h q k, ∃ r ∈ s.db.embeddings, r.id = i) ∧
    min k.toNat s.db.embeddings.length ≤ (s.db.embeddings.filter (fun r => decide (r.id ∈ proposals E ef h q k))).length ∧
    ∀ r ∈ s.db.embeddings, r.id ∉ proposals E ef h q k → ∀ x ∈ s.db.embeddings, x.id ∈ proposals E ef h q k →
      E.dist q (E.keep x.vector) ≤ E.dist q (E.keep r.vector) := by
  obtain ⟨calls, h1, h2, h3⟩ := hg
  obtain ⟨h', out, a1, a2, pool, a3, a4, a5⟩ := Hnsw.C108_small_index_exact_partial E M efC hM calls h1 ids h2 hlen q k.toNat ef hef
  obtain rfl : h' = h.1 := by rw [h3] at a1; exact (Option.some.inj a1).symm
  obtain ⟨h'', b1, -, -, b4⟩ := Hnsw.run_new E M efC calls (fun c hc => (h1 c hc).1)
  obtain rfl : h'' = h.1 := by rw [h3] at b1; exact (Option.some.inj b1).symm
  have hprop : proposals E ef h q k = out.map Hnsw.Item.id := by unfold proposals; rw [a2]; rfl
  have hlive : ∀ j w, live (fun h : Ix W => Hnsw.look h.1) h j = some w ↔ ∃ v, Hnsw.after calls j = some (v, false) ∧ w = E.keep v := by
    intro j w
    rw [← Hnsw.holds_live b4 j w]
    unfold live
    cases hl : Hnsw.look h.1 j with
    | none => simp [hl]
    | some p =>
      obtain ⟨a, d⟩ := p
      cases d <;> simp [hl]
  have hrow : ∀ r ∈ s.db.embeddings, find s.db r.id = some r := by
    intro r hr
    exact mem_find wf hr
  -- the pool consists of the stored rows
  have hpool : ∀ i : Hnsw.Item, i ∈ pool ↔ ∃ r ∈ s.db.embeddings, r.id = i.id ∧ i.dist = E.dist q (E.keep r.vector) := by
    intro i
    rw [a4 i]
    constructor
    · rintro ⟨v, hv, hd⟩
      have := (hlive i.id (E.keep v)).2 ⟨v, hv, rfl⟩
      rw [hx h hh i.id] at this
      obtain ⟨r, hr, hk⟩ := Option.map_eq_some_iff.1 this
      exact ⟨r, (find_mem hr).1, (find_mem hr).2, by rw [hk]; exact hd⟩
    · rintro ⟨r, hr, hid, hd⟩
      have := hx h hh r.id
      rw [hrow r hr] at this
      obtain ⟨v, hv, hk⟩ := (hlive r.id _).1 this
      exact ⟨v, hid ▸ hv, by rw [← hk]; exact hd⟩
  obtain ⟨rest, hp, hbest⟩ := a5.best
  have hnd : (out.map Hnsw.Item.id).Nodup := by
    have : ((out ++ rest).map Hnsw.Item.id).Nodup := ((hp.map Hnsw.Item.id).nodup_iff).2 a3
    rw [List.map_append] at this
    exact (List.nodup_append.1 this).1
  have hmem : ∀ i ∈ out, ∃ r ∈ s.db.embeddings, r.id = i.id ∧ i.dist = E.dist q (E.keep r.vector) :=
    fun i hi => (hpool i).1 (hp.mem_iff.1 (List.mem_append_left _ hi))
  refine ⟨?_, ?_, ?_⟩
  · intro i hi
    rw [hprop] at hi
    obtain ⟨t, ht, rfl⟩ := List.mem_map.1 hi
    obtain ⟨r, hr, hid, -⟩ := hmem t ht
    exact ⟨r, hr, hid⟩
  · have e1 : (out.map Hnsw.Item.id).length ≤
        ((s.db.embeddings.filter (fun r => decide (r.id ∈ proposals E ef h q k))).map (fun r => r.id)).length := by
      refine (List.subperm_of_subset hnd ?_).length_le
      intro i hi
      obtain ⟨t, ht, rfl⟩ := List.mem_map.1 hi
      obtain ⟨r, hr, hid, -⟩ := hmem t ht
      refine List.mem_map.2 ⟨r, List.mem_filter.2 ⟨hr, ?_⟩, hid⟩
      rw [decide_eq_true_eq, hprop, hid]
      exact hi
    have e2 : (s.db.embeddings.map (fun r => r.id)).length ≤ (pool.map Hnsw.Item.id).length := by
      refine (List.subperm_of_subset wf.embIds ?_).length_le
      intro i hi
      obtain ⟨r, hr, rfl⟩ := List.mem_map.1 hi
      exact List.mem_map.2 ⟨⟨r.id, _⟩, (hpool _).2 ⟨r, hr, rfl, rfl⟩, rfl⟩
    have e3 := a5.size
    simp only [List.length_map] at e1 e2
    omega
  · intro r hr hrp x hxm hxp
    rw [hprop] at hrp hxp
    obtain ⟨t, ht, hid⟩ := List.mem_map.1 hxp
    obtain ⟨x', hx', hid', hd'⟩ := hmem t ht
    obtain rfl : x' = x := nodup_inj (fun r : Row W => r.id) wf.embIds hx' hxm (hid'.trans hid)
    have hin : (⟨r.id, E.dist q (E.keep r.vector)⟩ : Hnsw.Item) ∈ out ++ rest :=
      hp.mem_iff.2 ((hpool _).2 ⟨r, hr, rfl, rfl⟩)
    rcases List.mem_append.1 hin with hin | hin
    · exact absurd (List.mem_map.2 ⟨_, hin, rfl⟩) hrp
    · have := hbest _ hin t ht
      rw [hd'] at this
      simpa using this

/-- A store with an empty graph index with parameters `M` and `efC`. -/
def fresh (W VI : Type) (dim M efC : Nat) : St W (Ix W) VI := init dim (some ⟨Hnsw.new (List W) M efC, Hnsw.inv_empty M (M * 2) efC⟩) none

theorem fresh_grown (dim M efC : Nat) (ids : List String) (h : Ix W) (hh : (fresh W VI dim M efC).hnsw = some h) :
    Grown E M efC ids h := by
  simp only [fresh, init, Option.some.injEq] at hh
  subst hh
  exact ⟨[], by simp, by simp [Hnsw.after], rfl⟩

theorem fresh_exact (dim M efC : Nat) : Exact E.keep (fun h : Ix W => Hnsw.look h.1) (fresh W VI dim M efC) := by
  intro h hh j
  simp only [fresh, init, Option.some.injEq] at hh
  subst hh
  rfl

/-- Where a history leaves the store and its index. -/
theorem history (dim M efC : Nat) (ids : List String) (ops : List (Op W (Ix W) Unit))
    (hw : ∀ op ∈ ops, Writes (fun i => i ≠ "" ∧ i ∈ ids) (Grown E M efC ids) op)
    (ht : Along (hnswEnv adapt E lv order ho) (Tracks (hnswEnv adapt E lv order ho) E.keep (fun h : Ix W => Hnsw.look h.1))
      (fresh W Unit dim M efC) ops) :
    let s := run (hnswEnv adapt E lv order ho) (fresh W Unit dim M efC) ops
    WF s.db ∧ (∀ h, s.hnsw = some h → Grown E M efC ids h) ∧ Exact E.keep (fun h : Ix W => Hnsw.look h.1) s :=
  ⟨run_wf _ _ (init_wf dim _ _) ops,
    run_keeps _ _ _ (fun h i v => grown_insert adapt E lv order ho M efC ids h i v)
      (fun h i => grown_delete adapt E lv order ho M efC ids h i) ops _ (fresh_grown E dim M efC ids) hw,
    C161_exact_partial (index_laws adapt E lv order ho) ops _ (init_wf dim _ _) (fresh_exact E dim M efC) ht⟩

theorem asked_pos (o : Opts) : 0 < asked o := by unfold asked; split <;> omega

theorem filter_hits (c : Cfg W) (db : DB W) (o : Opts) (q : List W) (rows : List (Row W)) (P : List String) :
    (rows.map (hitOf c db o q)).filter (fun x => decide (x.id ∈ P)) =
      (rows.filter (fun r => decide (r.id ∈ P))).map (hitOf c db o q) := by
  rw [List.filter_map]; rfl

theorem nothing {HI VI : Type} (c : Cfg W) (hsort : SortsDesc c.sort) (s : St W HI VI) (hnil : s.db.embeddings = [])
    (propose : List W → Int → List String) (query q : List W) (o : Opts) (out : List (Hit W)) (hq : prepareQuery c s query = .ok q)
    (hs : search c (.hnsw propose) s query o = .ok out) : out = [] := by
  have hsn : c.sort [] = [] := List.Perm.eq_nil (hsort []).1
  unfold search at hs
  rw [hq] at hs
  injection hs with hs
  subst hs
  simp [serve, searchWithHNSW, searchLinear, scoreCandidates, fetchCandidates, processCandidates, fetchByIDs, hnil, hsn]

open Classical in
/-- C213 (partial): a store that was never given more than `2 M + 1` ids, none of them twice and none removed behind the back of the
index, and that is searched through the index without collection, filter, threshold or text weight, returns exactly the `k` best of
all stored records, if a vector nearer for the index is never less similar for the store. Missing: larger stores, ids written again
and removals that do not reach the index, all of them violated (`C108_every_live_vector_found_violated`, `C161_rewrite_violated`). -/
theorem C213_exact_partial (dim M efC ef : Nat) (hM : 0 < M) (ids : List String) (hlen : ids.length ≤ 2 * M + 1) (hef : ids.length ≤ ef)
    (ops : List (Op W (Ix W) Unit)) (hw : ∀ op ∈ ops, Writes (fun i => i ≠ "" ∧ i ∈ ids) (Grown E M efC ids) op)
    (ht : Along (hnswEnv adapt E lv order ho) (Tracks (hnswEnv adapt E lv order ho) E.keep (fun h : Ix W => Hnsw.look h.1))
      (fresh W Unit dim M efC) ops)
    (h : Ix W) (hh : (run (hnswEnv adapt E lv order ho) (fresh W Unit dim M efC) ops).hnsw = some h)
    (c : Cfg W) (hsort : SortsDesc c.sort) (hts : c.textSim = none)
    (hsim : ∀ q a b, E.dist q (E.keep a) ≤ E.dist q (E.keep b) → c.sim q b ≤ c.sim q a)
    (query : List W) (o : Opts) (hc : o.collection = "") (hf : o.filter = []) (hth : o.threshold ≤ 0) (out : List (Hit W))
    (hs : search c (.hnsw (proposals E ef h)) (run (hnswEnv adapt E lv order ho) (fresh W Unit dim M efC) ops) query o = .ok out) :
    ∃ q, prepareQuery c (run (hnswEnv adapt E lv order ho) (fresh W Unit dim M efC) ops) query = .ok q ∧
      IsTopK (fun x : Hit W => x.score)
        ((run (hnswEnv adapt E lv order ho) (fresh W Unit dim M efC) ops).db.embeddings.map
          (hitOf c (run (hnswEnv adapt E lv order ho) (fresh W Unit dim M efC) ops).db o q)) (asked o) out ∧
      ∀ x ∈ out, x.score = c.sim q x.vector := by
  obtain ⟨wf, hg, hx⟩ := history adapt E lv order ho dim M efC ids ops hw ht
  generalize run (hnswEnv adapt E lv order ho) (fresh W Unit dim M efC) ops = s at *
  have hscore : ∀ q x, combine c o q x = c.sim q x.vector := by
    intro q x; simp [combine, hts]
  obtain ⟨q, hq, -⟩ := prepared hs
  refine ⟨q, hq, ?_⟩
  have hall : IsTopK (fun x : Hit W => x.score) (s.db.embeddings.map (hitOf c s.db o q)) (asked o) out := by
    obtain ⟨p1, p2, p3⟩ := proposals_spec E M efC ef hM ids hlen hef s wf h hh (hg h hh) hx q (defaultK o.topK * 2)
    rw [asked_two] at p2
    by_cases hsome : proposals E ef h q (defaultK o.topK * 2) = []
    · -- nothing proposed: nothing stored, and the linear search answers
      rw [hsome] at p2
      have hpos := asked_pos o
      have hnil : s.db.embeddings = [] := by
        apply List.length_eq_zero_iff.1
        simp only [List.not_mem_nil, decide_false, List.filter_false, List.length_nil] at p2
        omega
      rw [nothing c hsort s hnil _ query q o out hq hs]
      rw [hnil]
      exact ⟨List.Pairwise.nil, ⟨[], by simp, by simp⟩, by simp⟩
    · have t := C09_index_topK c hsort s wf (proposals E ef h) query q o out hq hsome hs
      have hpool : (s.db.embeddings.filter (fun r => r.id ∈ proposals E ef h q (defaultK o.topK * 2) ∧
          (o.collection ≠ "" → InColl s.db r o.collection) ∧
          (∀ kv ∈ o.filter, kv.1 ≠ "doc_id" → MetaHas r.metadata kv.1 kv.2) ∧
          (0 < o.threshold → o.threshold ≤ combine c o q (scan s.db r)))) =
          s.db.embeddings.filter (fun r => decide (r.id ∈ proposals E ef h q (defaultK o.topK * 2))) := by
        apply List.filter_congr
        intro r _
        rw [Bool.eq_iff_iff]
        simp [hc, hf, not_lt.2 hth]
      rw [hpool, ← filter_hits] at t
      refine topK_via _ _ _ _ (2 * asked o) (by omega) out t ?_ ?_
      · rw [filter_hits, List.length_map, List.length_map]; exact p2
      · intro r hr hrp x hxm hxp
        obtain ⟨r', hr', rfl⟩ := List.mem_map.1 hr
        obtain ⟨x', hx', rfl⟩ := List.mem_map.1 hxm
        show combine c o q _ ≤ combine c o q _
        rw [hscore, hscore]
        exact hsim q _ _ (p3 r' hr' (of_decide_eq_false hrp) x' hx' (of_decide_eq_true hxp))
  refine ⟨hall, ?_⟩
  intro x hxo
  obtain ⟨rest, hp, -⟩ := hall.best
  obtain ⟨r, -, rfl⟩ := List.mem_map.1 (hp.mem_iff.1 (List.mem_append_left _ hxo))
  exact hscore q _

open Classical in
/-- C213 (partial): when twice the number of results asked for reaches the number of ids ever written, the index proposes everything
stored, so that the search returns exactly the best records of the collection that match the filter and the threshold, whatever the
similarity. Missing: as above, and the filter key `doc_id`, which the index path ignores. -/
theorem C213_scope_partial (dim M efC ef : Nat) (hM : 0 < M) (ids : List String) (hlen : ids.length ≤ 2 * M + 1) (hef : ids.length ≤ ef)
    (ops : List (Op W (Ix W) Unit)) (hw : ∀ op ∈ ops, Writes (fun i => i ≠ "" ∧ i ∈ ids) (Grown E M efC ids) op)
    (ht : Along (hnswEnv adapt E lv order ho) (Tracks (hnswEnv adapt E lv order ho) E.keep (fun h : Ix W => Hnsw.look h.1))
      (fresh W Unit dim M efC) ops)
    (h : Ix W) (hh : (run (hnswEnv adapt E lv order ho) (fresh W Unit dim M efC) ops).hnsw = some h)
    (c : Cfg W) (hsort : SortsDesc c.sort) (query : List W) (o : Opts) (hbig : ids.length ≤ 2 * asked o)
    (hdoc : ∀ kv ∈ o.filter, kv.1 ≠ "doc_id") (out : List (Hit W))
    (hs : search c (.hnsw (proposals E ef h)) (run (hnswEnv adapt E lv order ho) (fresh W Unit dim M efC) ops) query o = .ok out) :
    ∃ q, prepareQuery c (run (hnswEnv adapt E lv order ho) (fresh W Unit dim M efC) ops) query = .ok q ∧
      IsTopK (fun x : Hit W => x.score)
        (((run (hnswEnv adapt E lv order ho) (fresh W Unit dim M efC) ops).db.embeddings.filter (fun r =>
            InScope (run (hnswEnv adapt E lv order ho) (fresh W Unit dim M efC) ops).db o r ∧
            (0 < o.threshold → o.threshold ≤ combine c o q
              (scan (run (hnswEnv adapt E lv order ho) (fresh W Unit dim M efC) ops).db r)))).map
          (hitOf c (run (hnswEnv adapt E lv order ho) (fresh W Unit dim M efC) ops).db o q)) (asked o) out := by
  obtain ⟨wf, hg, hx⟩ := history adapt E lv order ho dim M efC ids ops hw ht
  generalize run (hnswEnv adapt E lv order ho) (fresh W Unit dim M efC) ops = s at *
  obtain ⟨q, hq, -⟩ := prepared hs
  refine ⟨q, hq, ?_⟩
  obtain ⟨p1, p2, p3⟩ := proposals_spec E M efC ef hM ids hlen hef s wf h hh (hg h hh) hx q (defaultK o.topK * 2)
  rw [asked_two] at p2
  have hpos := asked_pos o
  -- no more is stored than was written
  have hrows : s.db.embeddings.length ≤ ids.length := by
    obtain ⟨calls, h1, h2, h3⟩ := hg h hh
    obtain ⟨h'', b1, -, -, b4⟩ := Hnsw.run_new E M efC calls (fun c hc => (h1 c hc).1)
    obtain rfl : h'' = h.1 := by rw [h3] at b1; exact (Option.some.inj b1).symm
    have : (s.db.embeddings.map (fun r => r.id)).length ≤ ids.length := by
      refine (List.subperm_of_subset wf.embIds ?_).length_le
      intro i hi
      obtain ⟨r, hr, rfl⟩ := List.mem_map.1 hi
      apply h2
      have hl := hx h hh r.id
      rw [mem_find wf hr] at hl
      have : (Hnsw.look h.1 r.id).isSome = true := by
        cases hk : Hnsw.look h.1 r.id with
        | some p => rfl
        | none => simp [live, hk] at hl
      rw [b4, Option.isSome_map] at this
      exact this
    simpa using this
  have hin : ∀ r ∈ s.db.embeddings, r.id ∈ proposals E ef h q (defaultK o.topK * 2) := by
    intro r hr
    have := List.length_filter_eq_length_iff.1 (le_antisymm (List.length_filter_le _ _) (by omega :
      s.db.embeddings.length ≤ (s.db.embeddings.filter (fun r => decide (r.id ∈ proposals E ef h q (defaultK o.topK * 2)))).length)) r hr
    simpa using this
  by_cases hnil : s.db.embeddings = []
  · rw [nothing c hsort s hnil _ query q o out hq hs, hnil]
    exact ⟨List.Pairwise.nil, ⟨[], by simp, by simp⟩, by simp⟩
  · have hsome : proposals E ef h q (defaultK o.topK * 2) ≠ [] := by
      obtain ⟨r, hr⟩ := List.exists_mem_of_ne_nil _ hnil
      exact List.ne_nil_of_mem (hin r hr)
    have t := C09_index_topK c hsort s wf (proposals E ef h) query q o out hq hsome hs
    have hpool : (s.db.embeddings.filter (fun r => r.id ∈ proposals E ef h q (defaultK o.topK * 2) ∧
          (o.collection ≠ "" → InColl s.db r o.collection) ∧
          (∀ kv ∈ o.filter, kv.1 ≠ "doc_id" → MetaHas r.metadata kv.1 kv.2) ∧
          (0 < o.threshold → o.threshold ≤ combine c o q (scan s.db r)))) =
        s.db.embeddings.filter (fun r => InScope s.db o r ∧ (0 < o.threshold → o.threshold ≤ combine c o q (scan s.db r))) := by
      apply List.filter_congr
      intro r hr
      rw [Bool.eq_iff_iff]
      simp only [decide_eq_true_eq, InScope, filterOK_iff]
      constructor
      · rintro ⟨-, h1, h2, h3⟩
        exact ⟨⟨h1, fun kv hk hd => absurd hd (hdoc kv hk), h2⟩, h3⟩
      · rintro ⟨⟨h1, -, h2⟩, h3⟩
        exact ⟨hin r hr, h1, h2, h3⟩
    rw [hpool] at t
    exact t

/-! ### A concrete case -/

def demoDist : Hnsw.Env (List Nat) := ⟨fun a b => ((a.sum - b.sum + (b.sum - a.sum) : Nat) : ℚ), id⟩

def demoCfg : Cfg Nat := { cfg0 with sim := fun a b => -((a.sum - b.sum + (b.sum - a.sum) : Nat) : ℚ) }

def demoOps : List (Op Nat (Ix Nat) Unit) :=
  [.upsert true false (demoRecord "a" 1), .upsert true false (demoRecord "b" 5), .upsert true false (demoRecord "c" 6),
   .delete false "a"]

def demoIds : List String := ["a", "b", "c"]

/-- The hypotheses hold of three writes and a removal, and the nearest record is returned. -/
example : (∀ op ∈ demoOps, Writes (fun i => i ≠ "" ∧ i ∈ demoIds) (Grown demoDist 4 10 demoIds) op) ∧
    Along demoEnv (Tracks demoEnv demoDist.keep (fun h : Ix Nat => Hnsw.look h.1)) (fresh Nat Unit 1 4 10) demoOps ∧
    (∀ q a b, demoDist.dist q (demoDist.keep a) ≤ demoDist.dist q (demoDist.keep b) → demoCfg.sim q b ≤ demoCfg.sim q a) ∧
    demoCfg.textSim = none ∧
    ∃ h, (run demoEnv (fresh Nat Unit 1 4 10) demoOps).hnsw = some h ∧
      ∃ out, search demoCfg (.hnsw (proposals demoDist 50 h)) (run demoEnv (fresh Nat Unit 1 4 10) demoOps) [4] { topK := 1 } = .ok out ∧
        out.map (fun x => x.id) = ["b"] := by
  refine ⟨?_, ⟨?_, ?_, ?_, trivial, trivial⟩, ?_, rfl, _, rfl, _, rfl, ?_⟩
  · intro op hop
    simp only [demoOps, List.mem_cons, List.not_mem_nil, or_false] at hop
    rcases hop with rfl | rfl | rfl | rfl
    · exact ⟨by decide, by decide⟩
    · exact ⟨by decide, by decide⟩
    · exact ⟨by decide, by decide⟩
    · trivial
  · intro h hh; cases hh; rfl
  · intro h hh; cases hh; decide +kernel
  · intro h hh; cases hh; decide +kernel
  · intro q a b h
    exact neg_le_neg h
  · decide +kernel

/-- With one record more than `2 M + 1` the search can miss the best record, here the one whose vector is the query itself, although no id
was written twice and nothing was removed. -/
theorem C213_larger_violated :
    ∃ h, (run demoEnv (fresh Nat Unit 1 1 200) [.upsert true false (demoRecord "a" 0), .upsert true false (demoRecord "b" 1),
        .upsert true false (demoRecord "c" 2), .upsert true false (demoRecord "far" 100)]).hnsw = some h ∧
      ∃ out, search demoCfg (.hnsw (proposals demoDist 50 h)) (run demoEnv (fresh Nat Unit 1 1 200)
        [.upsert true false (demoRecord "a" 0), .upsert true false (demoRecord "b" 1), .upsert true false (demoRecord "c" 2),
         .upsert true false (demoRecord "far" 100)]) [100] { topK := 10 } = .ok out ∧
        out.map (fun x => (x.id, x.score)) = [("c", -98), ("b", -99), ("a", -100)] ∧ demoCfg.sim [100] [100] = 0 := by
  refine ⟨_, rfl, _, rfl, ?_, ?_⟩
  · decide +kernel
  · decide +kernel

end Verif.Thm.StoreExact
