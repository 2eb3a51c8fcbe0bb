import Verif.Thm.StoreProps2
import Verif.Thm.Io
import Verif.Thm.Facade
import Verif.Thm.Quant
import Verif.Thm.GraphToolsRead
import Verif.Thm.Hindsight
import Verif.Thm.GraphExport
import Verif.Thm.GraphHybrid
import Verif.Thm.GraphAlgo
import Verif.Thm.ProductQuant
import Verif.Thm.RagChunk
import Verif.Thm.Search
import Verif.Thm.MultiIndex

/-!
Violations shown elsewhere on one example, for all states.
-/
namespace Verif.Thm.StoreProps
open Verif.Model.Store Verif.Thm.Store

variable {W HI VI : Type}

theorem deleteChunks_stops (f : Nat) : ∀ (k : Nat) (rows : List (Row W)) (n j : Nat) (ids : List String), 500 * k < ids.length → j + k = f →
    ∃ m, deleteChunks (some f) j rows n ids = (rows.filter (fun r => !(ids.take (500 * k)).contains r.id), m, true) := by
  intro k
  induction k with
  | zero =>
    intro rows n j ids hl hj
    refine ⟨n, ?_⟩
    unfold deleteChunks
    rw [dif_neg (by rintro rfl; simp at hl), if_pos (by rw [← hj]; rfl)]
    simp
  | succ k ih =>
    intro rows n j ids hl hj
    unfold deleteChunks
    rw [dif_neg (by rintro rfl; simp at hl), if_neg (by rw [Option.some.injEq]; omega)]
    simp only
    obtain ⟨m, hm⟩ := ih (rows.filter (fun r => !(ids.take 500).contains r.id))
      (n + (rows.length - (rows.filter (fun r => !(ids.take 500).contains r.id)).length)) (j + 1) (ids.drop 500)
      (by rw [List.length_drop]; omega) (by omega)
    refine ⟨m, ?_⟩
    rw [hm, List.filter_filter, show 500 * (k + 1) = 500 + 500 * k by omega, List.take_add]
    congr 1
    apply List.filter_congr
    intro r _
    simp only [List.contains_eq_mem, List.mem_append, Bool.decide_or, Bool.not_or, Bool.and_comm]

/-- C06 is violated in every open store by every deletion of more than 500 ids whose `k`-th statement fails, `k ≥ 1`: the error is
reported, but exactly the first `500 * k` ids that are not blank are gone, and every other record stays. -/
theorem C06_any_violated (env : Env W HI VI) (s : St W HI VI) (ho : s.closed = false) (ids : List String) (k : Nat)
    (hk : 500 * k < (ids.filter (fun i => !isBlank i)).length) :
    let t := step env s (.deleteBatch (some k) ids)
    t.2 = .err .io ∧
    (∀ i ∈ (ids.filter (fun i => !isBlank i)).take (500 * k), getByID t.1 i = .error .notFound) ∧
    ∀ i ∉ (ids.filter (fun i => !isBlank i)).take (500 * k), getByID t.1 i = getByID s i := by
  obtain ⟨m, hm⟩ := deleteChunks_stops k k s.db.embeddings 0 0 (ids.filter (fun i => !isBlank i)) hk (by omega)
  have hne : ids.length ≠ 0 := by
    intro h0
    rw [List.length_eq_zero_iff.1 h0] at hk
    simp at hk
  have hst : step env s (.deleteBatch (some k) ids) =
      (⟨⟨s.db.collections, s.db.nextColl, s.db.documents, s.db.embeddings.filter
        (fun r => !((ids.filter (fun i => !isBlank i)).take (500 * k)).contains r.id)⟩, s.dim, s.closed, s.hnsw, s.ivf⟩, .err .io) := by
    simp only [step, deleteBatch, ho, hm]
    simp only [Bool.false_eq_true, if_false, if_neg hne, if_true]
    rw [if_neg (by omega)]
  intro t
  have ht : t = _ := hst
  rw [ht]
  refine ⟨rfl, ?_, ?_⟩
  · intro i hi
    simp only [getByID, ho, Bool.false_eq_true, if_false]
    rw [List.find?_eq_none.2]
    intro r hr he
    rw [List.mem_filter] at hr
    have : r.id = i := by simpa using he
    rw [this] at hr
    simp [hi] at hr
  · intro i hi
    simp only [getByID, ho, Bool.false_eq_true, if_false]
    have hf : ∀ l : List (Row W), (l.filter (fun r => !((ids.filter (fun i => !isBlank i)).take (500 * k)).contains r.id)).find?
        (fun r => decide (r.id = i)) = l.find? (fun r => decide (r.id = i)) := by
      intro l
      rw [List.find?_filter]
      congr 1
      funext r
      by_cases he : r.id = i
      · simp [he, hi]
      · simp [he]
    rw [hf]
    rfl

example : 500 * 1 < ((List.replicate 501 "a").filter (fun i => !isBlank i)).length := by
  rw [List.filter_replicate, show isBlank "a" = false by decide]
  rw [if_pos (by rfl), List.length_replicate]
  omega

/-- C13 is violated in every store that holds a record: reopened without a dimension, it takes the dimension of the next vector written,
and the older record keeps its own. -/
theorem C13_any_reopen_violated (env : Env W HI VI) (s : St W HI VI) (wf : WF s.db) (h : Option HI) (v : Option VI) (id : String) (p : Payload W)
    (hp : payload s id = some p) (fk f : Bool) (e : Emb W) (hid : e.id ≠ id) (hne : e.vector.getD [] ≠ [])
    (hlen : (e.vector.getD []).length ≠ p.vector.length) :
    let t := step env (reopen s 0 h v).1 (.upsert fk f e)
    t.2 = .ok → t.1.dim = (e.vector.getD []).length ∧ payload t.1 id = some p ∧ p.vector.length ≠ t.1.dim := by
  intro t hok
  have hwf : WF (reopen s 0 h v).1.db := by
    rcases (step_cases env s wf (.reopen 0 h v) id) with ⟨hw, -⟩
    exact hw
  have hp' : payload (reopen s 0 h v).1 id = some p := by
    rcases (step_cases env s wf (.reopen 0 h v) id).2 with ⟨_, hw, _⟩ | ⟨_, hq⟩ | ⟨_, _, r, hr, hq⟩
    · exact hw.2.elim
    · rw [← hp]; exact hq
    · exact hq.elim
  have hdim : t.1.dim = (e.vector.getD []).length := by
    change (upsert env (reopen s 0 h v).1 fk f e).2 = .ok at hok
    change (upsert env (reopen s 0 h v).1 fk f e).1.dim = _
    have hd0 : (reopen s 0 h v).1.dim = 0 := rfl
    generalize (reopen s 0 h v).1 = r at hok hd0
    unfold upsert at hok ⊢
    split at hok
    · cases hok
    · rename_i hc
      rw [if_neg hc]
      simp only [hd0, if_true] at hok ⊢
      split at hok
      · rename_i hx; simp at hx
      · split at hok
        · cases hok
        · split at hok
          · cases hok
          · split at hok
            · cases hok
            · simp_all
  refine ⟨hdim, ?_, by rw [hdim]; exact fun h => hlen h.symm⟩
  rw [← hp']
  exact (Verif.Facade.upsert_written env _ hwf fk f e hok).2 id (by simpa using fun h => hid h.symm)

end Verif.Thm.StoreProps

namespace Verif.Io
open Verif.Model.Store Verif.Thm.Store

variable {W HI VI : Type}

/-- C122 is violated in every store: an import that was not asked to replace overwrites the record that has the id. -/
theorem C122_any_overwrites_violated (env : Env W HI VI) (b2 b3 : Bool) (c : Choice) (s : St W HI VI) (wf : WF s.db) (e : Emb W)
    (hok : (importOne env ⟨false, b2, b3⟩ c s e).2 = .ok false) :
    ∃ v, Verif.Facade.Kept env s.dim e.vector v ∧ payload (importOne env ⟨false, b2, b3⟩ c s e).1 e.id = some (written e v) := by
  have hu : importOne env ⟨false, b2, b3⟩ c s e = match upsert env s c.fk c.fault e with
    | (s', .ok) => (s', .ok false)
    | (s', .err er) => (s', .error er) := rfl
  rw [hu] at hok ⊢
  have hw := Verif.Facade.upsert_written env s wf c.fk c.fault e
  generalize upsert env s c.fk c.fault e = r at hok hw
  obtain ⟨s', o⟩ := r
  cases o with
  | err er => cases hok
  | ok => exact (hw rfl).1

end Verif.Io

namespace Verif.Quant

/-- C113 is violated by every trained quantizer: training it on a vector of its dimension followed by one of another dimension is refused,
but afterwards everything it ever encoded decodes to that first vector. -/
theorem C113_any_failed_train_violated (A : Arith) (s : SQ) (hs : s.Ready) (v bad : Vec) (vs : List Vec) (hv : v.length = s.dim)
    (hbad : bad.length ≠ s.dim) (w : Vec) (bs : List Nat) (he : s.encode w = some bs) :
    ∃ s', s.train A (v :: bad :: vs) = some (s', true) ∧ s'.trained = true ∧ s'.decode bs = some v := by
  have hz : ∀ v : Vec, List.zipWith widen (v.map (fun x => (x, x))) v = v.map (fun x => (x, x)) := by
    intro v
    induction v with
    | nil => rfl
    | cons x v ih => simp [widen, ih]
  have hval : ∀ (v : Vec) (qs : List Nat), qs.length = v.length → List.zipWith (value s.nbits) (v.map (fun x => (x, x))) qs = v := by
    intro v
    induction v with
    | nil => intro qs _; simp
    | cons x v ih =>
      intro qs hq
      cases qs with
      | nil => simp at hq
      | cons q qs => simp [value, ih qs (by simpa using hq)]
  refine ⟨{ s with ranges := v.map (fun x => (x, x)) }, ?_, hs.trained, ?_⟩
  · unfold SQ.train
    simp only
    rw [if_neg (by omega), List.take_of_length_le (by omega)]
    simp only [widenAll, hv, ne_eq, not_true_eq_false, if_false, if_pos hbad, hz]
  · unfold SQ.encode at he
    rw [hs.trained] at he
    simp only [Bool.true_eq_false, if_false] at he
    split at he
    · cases he
    · rename_i hw
      have hw : w.length = s.dim := by simpa using hw
      rw [Option.some.injEq] at he
      subst he
      have hl : (List.zipWith (code s.nbits) s.ranges w).length = s.dim := by
        rw [List.length_zipWith, hs.len, hw, Nat.min_self]
      have hpl : ∀ qs : List Nat, (pack s.nbits qs).length = (qs.length * s.nbits + 7) / 8 := by
        intro qs
        obtain ⟨b1, -⟩ := packAll_spec s.nbits qs 0 (List.replicate ((qs.length * s.nbits + 7) / 8) 0)
          (by rw [List.length_replicate]; omega) (by intro y hy; rw [(List.mem_replicate.1 hy).2]; omega)
        rw [pack, b1, List.length_replicate]
      obtain ⟨qs, a1, a2, -⟩ := unpackAll_spec (pack s.nbits (List.zipWith (code s.nbits) s.ranges w)) s.nbits s.dim 0 (by
        rw [hpl, hl]; omega)
      unfold SQ.decode
      simp only [hs.trained, Bool.true_eq_false, if_false, a1, Option.map_some, hval v qs (by rw [a2, hv])]

example : (⟨1, 1, [(0, 1)], true⟩ : SQ).Ready ∧ (⟨1, 1, [(0, 1)], true⟩ : SQ).encode [1] = some [1] :=
  ⟨⟨rfl, by simp, rfl, by simp⟩, by decide +kernel⟩

end Verif.Quant

namespace Verif.Hindsight

/-- C97 is violated for every bank and every set of memories: whenever an observation is found whose confidence reaches the minimum, the call
ends with an error or a panic and returns none of the observations. -/
theorem C97_any_error_violated (ord : List String → List String) (theme : List Seen → Bool) (ms : List Seen) (bank : Option Bank)
    (bankId : String) (minConf : ℚ) (o : Obs) (ho : some o ∈ detectPatterns ord theme ms bank bankId) (hc : minConf ≤ o.conf) :
    observe ord theme ms bank bankId minConf = .persistError ∨ observe ord theme ms bank bankId minConf = .panic := by
  unfold observe
  simp only
  split
  · exact Or.inr rfl
  · rw [if_pos]
    · exact Or.inl rfl
    · exact List.any_eq_true.2 ⟨o, List.mem_filterMap.2 ⟨_, ho, rfl⟩, decide_eq_true hc⟩

end Verif.Hindsight

namespace Verif.GraphTools
open Verif.Base Verif.Graph Verif.Spec

/-- C144 is violated in every graph: naming one entity `n` times, in whatever spellings, gives every chunk found the score `n`. -/
theorem C144_any_repeated_violated (u : Uni) (s : State) (hu : Unique s) (sort : List (String × Nat) → List (String × Nat))
    (hsort : ∀ l, SortedFrom byCount l (sort l)) (names : List String) (id : String) (hall : ∀ n ∈ names, resolve u "" n = id) (hne : names ≠ [])
    (topK hops : Int) : ∀ p ∈ byEntities u s sort names topK hops, p.2 = names.length := by
  intro p hp
  obtain ⟨-, -, -, h, -⟩ := C144_by_entities_partial u s hu sort hsort names hne topK hops
  obtain ⟨h1, h2⟩ := h p hp
  rw [h1] at h2 ⊢
  have hh : ∀ hops limit, ∀ n ∈ names, ∀ m ∈ names, hits u s hops limit n = hits u s hops limit m := by
    intro hops limit n hn m hm
    unfold hits
    rw [hall n hn, hall m hm]
  unfold count at h2 ⊢
  obtain ⟨n, hn, hpn⟩ := List.countP_pos_iff.1 h2
  rw [List.countP_eq_length]
  intro m hm
  rw [hh _ _ m hm n hn]
  exact hpn

end Verif.GraphTools

namespace Verif.Graph
open Verif.Base Verif.Spec

/-- C50 is violated by every edge whose weight has more than six decimals: whatever graph is exported to GraphML, the weights that come back
are whole multiples of a millionth and never zero. -/
theorem C50_any_weight_violated (L : Lib) (fk c1 c2 : Bool) (s : State) (e : Edge)
    (he : e ∈ (importML L fk c1 c2 init (tripML (exportML L s))).1.edges) : e.weight ≠ 0 ∧ ∃ n : Int, e.weight = n / 1000000 := by
  rw [importML_eq] at he
  obtain ⟨e0, h0, rfl⟩ := import_edge_mem fk c1 c2 _ _ e he
  obtain ⟨e1, -, rfl⟩ := List.mem_map.1 h0
  have hw : (mlEdgeTrip L e1).weight = sixDecimals e1.weight := by
    have hf : ∀ (l : List (String × String)) (x : Edge),
        (l.foldl (fun e d => readEdgeField L e (lookupLast mlKeys d.1) d.2) x).weight = x.weight := by
      intro l
      induction l with
      | nil => intro x; rfl
      | cons a l ih =>
        intro x
        rw [List.foldl_cons, ih]
        unfold readEdgeField
        split_ifs <;> rfl
    unfold mlEdgeTrip readMlEdge
    rw [hf]
    rfl
  unfold normEdge
  split_ifs with hz
  · exact ⟨by simp, 1000000, by norm_num⟩
  · refine ⟨hz, roundEven (e1.weight * 1000000), ?_⟩
    rw [hw]
    rfl

/-- C104 is violated in every graph: with a limit, a node of the neighbourhood that is met after as many others as the limit is not among the
results, however similar it is. -/
theorem C104_any_late_violated (sim : List ℚ → List ℚ → ℚ) (sort : List HResult → List HResult)
    (hs : ∀ l, SortedFrom (fun a b => b.vectorScore ≤ a.vectorScore) l (sort l)) (s : State) (hi : Inv s) (start : String)
    (v : List ℚ) (o : Opts) (hl : 0 < o.limit) (hd : GoodDir o.direction) (ht : o.nodeTypes = []) :
    ∃ all out, neighbors s start o.free = some (some all) ∧ graphVectorSearch sim sort s start v o = some (some out) ∧
      ∀ n ∈ all.drop o.limit.toNat, n.id ≠ start → ∀ x ∈ out, x.node.id ≠ n.id := by
  obtain ⟨all, out, h1, h2, h3⟩ := C104_limited_partial sim sort hs s hi start v o hl hd ht
  refine ⟨all, out, h1, h2, ?_⟩
  intro n hn hne x hx heq
  have hnd : (all.map Node.id).Nodup := by
    have := Verif.GraphTools.neighbors_ids_nodup s hi.2 start o.free hd
    rw [h1] at this
    exact this
  have hm : x ∈ ((s.nodes.filter (fun n => decide (n.id = start)) ++ all.take o.limit.toNat).map (fun n => plainResult (sim v n.vec) n)) :=
    let ⟨_, hp, _⟩ := h3.best
    hp.subset (List.mem_append_left _ hx)
  obtain ⟨y, hy, rfl⟩ := List.mem_map.1 hm
  simp only [plainResult] at heq
  rcases List.mem_append.1 hy with hy | hy
  · have := (List.mem_filter.1 hy).2
    exact hne (heq ▸ by simpa using this)
  · rw [← List.take_append_drop o.limit.toNat all, List.map_append, List.nodup_append] at hnd
    exact hnd.2.2 _ (List.mem_map_of_mem hy) _ (List.mem_map_of_mem hn) heq

end Verif.Graph

namespace Verif.PQuant

/-- C40 is violated by every quantizer read from data with more than 256 codewords: no code is ever 256 or more, so a part whose nearest
codeword is the one numbered `256 * q + r` is encoded as the one numbered `r`. -/
theorem C40_any_wrap_violated {F S : Type} [LT S] [DecidableLT S] (E : Env F S) (p : PQ F) (v : List F) (cs : List Nat)
    (h : p.encode E v = .ok cs) : cs.length = p.m ∧ ∀ (i c : Nat), cs[i]? = some c →
      ∃ x b, slice v (i * p.sub) p.sub = some x ∧ p.books[i]? = some b ∧ c = nearest E x (b.take p.k) 0 E.far 0 % 256 ∧
        (256 ≤ nearest E x (b.take p.k) 0 E.far 0 → c ≠ nearest E x (b.take p.k) 0 E.far 0) := by
  unfold PQ.encode at h
  split at h
  · cases h
  split at h
  · cases h
  split at h
  · cases h
  · rename_i cs' hc
    injection h with h
    subst h
    rw [allSome_forall] at hc
    refine ⟨by simpa using hc.length_eq.symm, ?_⟩
    intro i c hi
    have hlt : i < cs'.length := (List.getElem?_eq_some_iff.1 hi).1
    have hr : (List.range p.m)[i]? = some i := by
      rw [List.getElem?_range]
      have := hc.length_eq
      rw [List.length_range] at this
      omega
    have hx : codeAt E p v i = some c := by
      rw [List.forall₂_iff_get] at hc
      have := hc.2 i (by have := hc.1; omega) hlt
      simp only [List.get_eq_getElem, List.getElem_range] at this
      rw [this]
      rw [List.getElem?_eq_getElem hlt] at hi
      exact hi
    unfold codeAt at hx
    split at hx
    · rename_i x b h1 h2
      split at hx
      · cases hx
      · rw [Option.some.injEq] at hx
        exact ⟨x, b, h1, h2, hx.symm, fun hge heq => by rw [← hx] at heq; omega⟩
    · cases hx

end Verif.PQuant

namespace Verif.GraphTools

example : Verif.Graph.Unique graphE ∧ (∀ n ∈ ["Ada", "ADA"], resolve uni0 "" n = resolve uni0 "" "Ada") ∧
    byEntities uni0 graphE (fun l => l) ["Ada", "ADA"] 5 1 = [("c1", 2)] := by
  unfold Verif.Graph.Unique
  decide +kernel

end Verif.GraphTools

namespace Verif.Hindsight

example : some ⟨"alice", ["a", "b"], 1/5⟩ ∈ detectPatterns id (fun _ => false) [⟨"a", ["x"], true, false⟩, ⟨"b", ["x"], false, false⟩]
    (some bank0) "alice" := by decide +kernel

end Verif.Hindsight

namespace Verif.Thm.StoreProps
open Verif.Model.Store Verif.Thm.Store

example : (step env0 (reopen (run env0 (init 2 none none) [.upsert true false embA]) 0 none none).1
    (.upsert true false { id := "b", vector := some [1, 2, 3] })).2 = .ok ∧
    (payload (run env0 (init 2 none none) [.upsert true false embA]) "a").isSome := by decide

example : (Verif.Io.importOne env0 ⟨false, false, false⟩ ⟨true, false, false⟩ Verif.Io.src0
    { id := "a", vector := some [1, 2], content := "new" }).2 = .ok false := by decide

end Verif.Thm.StoreProps

namespace Verif.Graph
open Verif.Base Verif.Spec

/-- C42 is violated in every graph: with a limit and node types the answer is what the types leave of the first `limit` nodes met, so a node of
a wanted type that is met later is left out even when fewer than `limit` nodes are returned. -/
theorem C42_any_late_violated (s : State) (h : Inv s) (id : String) (o : Opts) (hl : 0 < o.limit) (hd : GoodDir o.direction) (hne : o.nodeTypes ≠ []) :
    ∃ all, neighbors s id ⟨o.maxDepth, o.edgeTypes, [], o.direction, 0⟩ = some (some all) ∧
      neighbors s id o = some (some ((all.take o.limit.toNat).filter (fun n => decide (n.ntype ∈ o.nodeTypes)))) ∧
      ∀ n ∈ all.drop o.limit.toNat, ∀ out, neighbors s id o = some (some out) → n ∉ out := by
  obtain ⟨d, et, nt, dir, lim⟩ := o
  obtain ⟨all, h1, h2, -⟩ := C42_limit_counts_partial s h id ⟨d, et, [], dir, lim⟩ hl hd rfl
  have hnd : (all.map Node.id).Nodup := by
    have := Verif.GraphTools.neighbors_ids_nodup s h.2 id (⟨d, et, [], dir, lim⟩ : Opts).free hd
    rw [h1] at this
    exact this
  have hloop : ∀ fuel st, neighborLoop s ⟨d, et, nt, dir, lim⟩ fuel st = neighborLoop s ⟨d, et, [], dir, lim⟩ fuel st := by
    have hscan : ∀ (u : String) (k : Nat) (es : List Edge) (st : Scan),
        scan ⟨d, et, nt, dir, lim⟩ u k st es = scan ⟨d, et, [], dir, lim⟩ u k st es := by
      intro u k es
      induction es with
      | nil => intro st; rfl
      | cons e es ih =>
        intro st
        have hdisc : discover ⟨d, et, nt, dir, lim⟩ u k st e = discover ⟨d, et, [], dir, lim⟩ u k st e := rfl
        simp only [scan, ih, hdisc]
    intro fuel
    induction fuel with
    | zero =>
      intro st
      unfold neighborLoop
      rfl
    | succ fuel ih =>
      intro st
      unfold neighborLoop
      simp only [hscan, ih]
      rfl
  have h3 : neighbors s id ⟨d, et, nt, dir, lim⟩ = some (some ((all.take lim.toNat).filter (fun n => decide (n.ntype ∈ nt)))) := by
    unfold neighbors at h2 ⊢
    rw [hloop]
    cases hx : neighborLoop s ⟨d, et, [], dir, lim⟩ (fuelA s) { visited := [id], ids := [], queue := [(id, 0)], stop := false } with
    | none => rw [hx] at h2; cases h2
    | some y =>
      rw [hx] at h2
      cases y with
      | none => cases h2
      | some ids =>
        simp only [Option.map_some, Option.some.injEq] at h2 ⊢
        rw [← h2]
        simp only at hne
        simp [loadNeighbors, hne]
  refine ⟨all, h1, h3, ?_⟩
  intro n hn out ho hno
  rw [h3, Option.some.injEq, Option.some.injEq] at ho
  subst ho
  have hin := (List.mem_filter.1 hno).1
  rw [← List.take_append_drop lim.toNat all, List.map_append, List.nodup_append] at hnd
  exact hnd.2.2 _ (List.mem_map_of_mem hin) _ (List.mem_map_of_mem hn) rfl

/-- A limit with a node type on the two-node cycle meets the premises. -/
example : Inv cycle ∧ (0 : Int) < (⟨1, [], ["person"], "both", 2⟩ : Opts).limit ∧ GoodDir (⟨1, [], ["person"], "both", 2⟩ : Opts).direction ∧
    (⟨1, [], ["person"], "both", 2⟩ : Opts).nodeTypes ≠ [] := by
  exact ⟨cycle_inv, by decide, by simp [GoodDir], by simp⟩

end Verif.Graph

namespace Verif.Thm.Search
open Verif.Model.Store Verif.Model.Search

variable {W HI VI : Type}

/-- C10 is violated in every store served by an index that proposes something: asking for one document gives what is found without asking. -/
theorem C10_any_doc_id_violated (c : Cfg W) (s : St W HI VI) (query : List W) (o : Opts) (d : String) (fs : Meta) (p : List W → Int → List String)
    (hp : ∀ q, p q (defaultK o.topK * 2) ≠ []) (pv : List W → Int → Option (List String))
    (hpv : ∀ q, ∃ ids, pv q (defaultK o.topK * 4) = some ids ∧ ids ≠ []) :
    search c (.hnsw p) s query { o with filter := ("doc_id", d) :: fs } = search c (.hnsw p) s query { o with filter := fs } ∧
    search c (.ivf pv) s query { o with filter := ("doc_id", d) :: fs } = search c (.ivf pv) s query { o with filter := fs } := by
  have hm : ∀ (h : Hit W), matchesFilter h (("doc_id", d) :: fs) = matchesFilter h fs := by
    intro h
    unfold matchesFilter
    rw [List.all_cons]
    simp
  have hpc : ∀ q cands (k : Int), processCandidates c q cands { o with filter := ("doc_id", d) :: fs, topK := k } =
      processCandidates c q cands { o with filter := fs, topK := k } := by
    intro q cands k
    unfold processCandidates
    simp only [hm]
    rfl
  unfold search
  constructor
  · cases prepareQuery c s query with
    | error e => rfl
    | ok q =>
      simp only [serve, searchWithHNSW]
      rw [if_neg (by simpa using hp q), if_neg (by simpa using hp q), hpc]
  · cases prepareQuery c s query with
    | error e => rfl
    | ok q =>
      obtain ⟨ids, h1, h2⟩ := hpv q
      simp only [serve, searchWithIVF, h1]
      rw [if_neg (by simpa using h2), if_neg (by simpa using h2), hpc]

/-- Indexes that find something meet the premises. -/
example : (∀ q : List Nat, (fun (_ : List Nat) (_ : Int) => ["a"]) q (defaultK 5 * 2) ≠ []) ∧
    ∀ q : List Nat, ∃ ids, (fun (_ : List Nat) (_ : Int) => some ["a"]) q (defaultK 5 * 4) = some ids ∧ ids ≠ [] :=
  ⟨fun _ => by simp, fun _ => ⟨["a"], rfl, by simp⟩⟩

end Verif.Thm.Search

namespace Verif.Rag
open Verif.Base

/-- C82 is violated by every name: inserting a character that is no letter, digit, space, hyphen or underscore anywhere inside it gives another
name with the same identifier. -/
theorem C82_any_violated (lower : Char → Char) (letter sp : Char → Bool) (a b : List Char) (x : Char) (hl : letter (lower x) = false)
    (h1 : lower x ≠ ' ') (h2 : lower x ≠ '-') (h3 : lower x ≠ '_') (ht : trim sp (a ++ x :: b) = a ++ x :: b) (ht' : trim sp (a ++ b) = a ++ b) :
    a ++ x :: b ≠ a ++ b ∧ entityId lower letter sp (a ++ x :: b) = entityId lower letter sp (a ++ b) := by
  refine ⟨?_, ?_⟩
  · intro h
    have := congrArg List.length h
    simp at this
  · unfold entityId
    rw [ht, ht']
    simp [hl, h1, h2, h3]

example : trim sp0 ("C++ developer".toList) = "C++ developer".toList ∧ trim sp0 ("C developer".toList) = "C developer".toList := by decide +kernel

end Verif.Rag

namespace Verif.MultiIndex

/-- C112 is violated for every dimension and every `M`: the index links as many nodes as the dimension says, and builds with `M` candidates. -/
theorem C112_any_parameters_violated (V : Type) (d M : Nat) : newHnswAdapter V d M = ⟨d, d * 2, M, [], ""⟩ ∧
    (d ≠ M → (newHnswAdapter V d M).M ≠ M) := ⟨rfl, fun h => h⟩

end Verif.MultiIndex
