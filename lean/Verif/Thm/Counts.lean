import Verif.Thm.Geo
import Verif.Thm.GraphTraverse
import Verif.Thm.GraphRead
import Verif.Thm.Hindsight
import Verif.Thm.Hnsw
import Verif.Thm.IndexStats
import Verif.Thm.MultiIndex
import Verif.Thm.Quant
import Verif.Thm.RagLexical
import Verif.Thm.TextSearch
import Verif.Model.GraphTools

/-! Sizes, densities, defaults and listings: what the small calls beside the main ones report. -/

namespace Verif.Geo

/-- C54: `Size` is the number of ids that were inserted and not removed since, for every history. -/
theorem C54_size {K : Type} (c : Cfg K) (ops : List Op) :
    ∃ ids : List String, ids.Nodup ∧ (∀ i, i ∈ ids ↔ (known ops i).isSome = true) ∧ size (run c ops) = ids.length := by
  obtain ⟨-, h1, h2⟩ := C54_points c ops ""
  exact ⟨_, h1, h2, by simp [size]⟩

example : size (run (K := ℚ) ⟨cell0, span0, fun _ _ => 0⟩
    [.insert ⟨"a", ⟨1, 2⟩⟩, .insert ⟨"b", ⟨1, 2⟩⟩, .insert ⟨"a", ⟨3, 4⟩⟩, .insert ⟨"c", ⟨91, 0⟩⟩, .delete "b"]) = 1 := by decide +kernel

end Verif.Geo

namespace Verif.Graph

/-- C48: the density is the number of stored edges over the number of ordered pairs of different nodes, and 0 when there is no
such pair. -/
theorem C48_density (s : State) (st : Stats) (h : statistics s = some st) :
    (2 ≤ s.nodes.length → st.density * (s.nodes.length * (s.nodes.length - 1)) = s.edges.length) ∧
    (s.nodes.length < 2 → st.density = 0) ∧ 0 ≤ st.density := by
  unfold statistics at h
  split at h
  · rename_i h0
    injection h with h
    subst h
    refine ⟨fun h2 => by omega, fun _ => rfl, le_refl _⟩
  · rename_i h0
    cases hc : countComponents s (s.nodes.map Node.id) [] 0 with
    | none => rw [hc] at h; cases h
    | some c =>
      rw [hc] at h
      simp only [Option.map_some, Option.some.injEq] at h
      subst h
      refine ⟨fun h2 => ?_, fun h2 => ?_, ?_⟩
      · have hq : (2 : ℚ) ≤ s.nodes.length := by exact_mod_cast h2
        have hp : (0 : ℚ) < (s.nodes.length : ℚ) * ((s.nodes.length : ℚ) - 1) := mul_pos (by linarith) (by linarith)
        simp only [gt_iff_lt, hp, if_true]
        exact div_mul_cancel₀ _ (ne_of_gt hp)
      · have h1 : s.nodes.length = 1 := by omega
        simp [h1]
      · simp only
        split
        · rename_i hp
          exact div_nonneg (by positivity) (le_of_lt hp)
        · exact le_refl _

/-- Several edges between the same nodes are counted each, so the density may be above 1. -/
example : (statistics ⟨[typed "a" "", typed "b" ""], [link "1" "a" "b", link "2" "a" "b", link "3" "a" "b"], none⟩).map Stats.density =
    some (3 / 2) := by decide +kernel

end Verif.Graph

namespace Verif.Hindsight

/-- C62: whatever configuration is given, the window and the trigger are positive; a value that is positive, the switch and the
roles are taken over as they are, and without a configuration retention is off. -/
theorem C62_config (c : Option ARCfg) :
    0 < (setAutoRetain c).window ∧ 0 < (setAutoRetain c).every ∧
    (∀ d, c = some d → (setAutoRetain c).enabled = d.enabled ∧ (setAutoRetain c).roles = d.roles ∧
      (0 < d.window → (setAutoRetain c).window = d.window) ∧ (d.window ≤ 0 → (setAutoRetain c).window = 6) ∧
      (0 < d.every → (setAutoRetain c).every = d.every) ∧ (d.every ≤ 0 → (setAutoRetain c).every = 2)) ∧
    (c = none → (setAutoRetain c).enabled = false) := by
  cases c with
  | none => simp [setAutoRetain]
  | some d =>
    unfold setAutoRetain
    by_cases hw : d.window ≤ 0 <;> by_cases he : d.every ≤ 0 <;> simp [hw, he] <;> omega

example : setAutoRetain (some ⟨true, -1, 5, ["user"]⟩) = ⟨true, 6, 5, ["user"]⟩ := rfl

/-- C64: every observation is about the bank asked, rests on at least two mentions in the memories recalled, names only these as its
sources, and its confidence is that of the number of mentions. -/
theorem C64_sources (ord : List String → List String) (theme : List Seen → Bool) (ms : List Seen) (bank : Option Bank)
    (bankId : String) : ∀ o, some o ∈ detectPatterns ord theme ms bank bankId →
      o.bank = bankId ∧ 2 ≤ o.sources.length ∧ (∀ i ∈ o.sources, ∃ m ∈ ms, m.id = i) ∧
      confidence o.sources.length bank = some o.conf := by
  have hmk : ∀ g o, 2 ≤ g.length → (∀ m ∈ g, m ∈ ms) → mkObs bank bankId g = some o →
      o.bank = bankId ∧ 2 ≤ o.sources.length ∧ (∀ i ∈ o.sources, ∃ m ∈ ms, m.id = i) ∧
      confidence o.sources.length bank = some o.conf := by
    intro g o hg hm h
    obtain ⟨c, hc, rfl⟩ := Option.map_eq_some_iff.1 h
    refine ⟨rfl, by simpa using hg, ?_, by simpa using hc⟩
    intro i hi
    obtain ⟨m, hmg, rfl⟩ := List.mem_map.1 hi
    exact ⟨m, hm m hmg, rfl⟩
  have hby : ∀ ent, ∀ m ∈ byEntity ms ent, m ∈ ms := by
    intro ent m hm
    obtain ⟨x, hx, h⟩ := List.mem_flatMap.1 hm
    obtain ⟨y, -, rfl⟩ := List.mem_map.1 h
    exact hx
  intro o ho
  unfold detectPatterns at ho
  split at ho
  · simp at ho
  · rename_i hl
    rcases List.mem_append.1 ho with h | h
    · obtain ⟨ent, _, h'⟩ := List.mem_flatMap.1 h
      unfold entityObs at h'
      split at h'
      · rename_i hg
        rcases List.mem_append.1 h' with h | h <;> split at h
        · exact hmk _ o hg (hby ent) (List.mem_singleton.1 h).symm
        · simp at h
        · exact hmk _ o hg (hby ent) (List.mem_singleton.1 h).symm
        · simp at h
      · simp at h'
    · split at h
      · exact hmk ms o (by omega) (fun m hm => hm) (List.mem_singleton.1 h).symm
      · simp at h

example : (detectPatterns id (fun _ => false) [⟨"m1", ["bob"], true, false⟩, ⟨"m2", ["bob"], false, false⟩, ⟨"m3", ["eve"], true, true⟩]
    (some { id := "b", name := "", description := "", background := "", disposition := some ⟨3, 3, 3⟩ }) "b").map
      (Option.map Obs.sources) = [some ["m1", "m2"]] := by decide +kernel

end Verif.Hindsight

namespace Verif.Hnsw
open Verif.Spec
variable {V : Type}

/-- C108 (partial): the search without a candidate list size is exact under the same bounds as the other one, the size being at
least 50. -/
theorem C108_default_partial (E : Env V) (M efC : Nat) (hM : 0 < M) (ops : List (Op V))
    (hok : ∀ op ∈ ops, op.ok ∧ op.single ∧ op.named) (ids : List String) (hids : ∀ x, (after ops x).isSome = true → x ∈ ids)
    (hlen : ids.length ≤ 2 * M + 1) (hef : ids.length ≤ 50) (q : V) (k : Nat) :
    ∃ h out, run E (new V M efC) ops = some h ∧ searchDefault E h q k = some out ∧ ∃ pool : List Item, (pool.map Item.id).Nodup ∧
      (∀ i, i ∈ pool ↔ ∃ v, after ops i.id = some (v, false) ∧ i.dist = E.dist q (E.keep v)) ∧ IsTopK (fun i => -i.dist) pool k out :=
  C108_small_index_exact_partial E M efC hM ops hok ids hids hlen q k _ (by split <;> omega)

example : (run lineEnv (new Nat 2 10) [.insert "a" 0 1, .insert "b" 5 0, .insert "c" 7 2]).bind (fun h => searchDefault lineEnv h 6 2) =
    some [⟨"b", 1⟩, ⟨"c", 1⟩] := by decide +kernel

/-- C30: the search without a candidate list size returns, after any history, only ids that were inserted and not deleted, each
once, nearest first and at most `k`. -/
theorem C30_default (E : Env V) (M efC : Nat) (ops : List (Op V)) (hok : ∀ op ∈ ops, op.ok) (q : V) (k : Nat) :
    ∃ h out, run E (new V M efC) ops = some h ∧ searchDefault E h q k = some out ∧
      (∀ i ∈ out, ∃ v, after ops i.id = some (v, false) ∧ i.dist = E.dist q (E.keep v)) ∧
      (out.map Item.id).Nodup ∧ out.Pairwise (fun a b => a.dist ≤ b.dist) ∧ out.length ≤ k :=
  C30_search_sound E M efC ops hok q k _

/-- C201: after any history the number of links reported is that of the live nodes, and the reported entry point is empty or a
stored id. -/
theorem C201_links (E : Env V) (M efC : Nat) (ops : List (Op V)) (hok : ∀ op ∈ ops, op.ok)
    (order : List (Node V) → List (Node V)) (ho : ∀ l, (order l).Perm l) :
    ∃ h, run E (new V M efC) ops = some h ∧
      (stats order h).edges = ((h.nodes.filter (fun n => !n.deleted)).map (fun n => (n.nbrs.map List.length).sum)).sum ∧
      ((stats order h).entry = "" ∨ (after ops (stats order h).entry).isSome = true) := by
  obtain ⟨h, a1, a2, -, a4⟩ := run_new E M efC ops hok
  refine ⟨h, a1, ?_, ?_⟩
  · have h2 := (count_all (order h.nodes) ⟨0, 0, 0, fun _ => 0⟩).2.1
    show ((order h.nodes).foldl count _).edges = _
    rw [h2, Nat.zero_add]
    exact (((ho h.nodes).filter _).map _).sum_eq
  · refine a2.entry.imp id (fun hs => ?_)
    have := (look_isSome h h.entry).2 hs
    rw [a4, Option.isSome_map] at this
    exact this

example : (run lineEnv (new Nat 2 10) [.insert "a" 0 1, .insert "b" 5 0, .insert "c" 7 2, .delete "c" id]).map
    (fun h => ((stats id h).edges, (stats id h).entry)) = some (5, "a") := by decide +kernel

end Verif.Hnsw

namespace Verif.MultiIndex
open Verif.Base
variable {σ V ρ : Type}

/-- C111: `Size` of a multi index is the size of its primary part, 0 while there is none; an index added under the primary name
becomes the primary part and one added under another name leaves the size alone. -/
theorem C111_size (L : Lib σ V ρ) (m : Multi σ) (n : String) (s : σ) :
    size L (addIndex m n s) = (if n = m.primary then L.size s else size L m) ∧
    (∀ x, getA (addIndex m n s).indices x = if x = n then some s else getA m.indices x) ∧
    (getA m.indices m.primary = none → size L m = 0) := by
  have hg : ∀ x, getA (addIndex m n s).indices x = if x = n then some s else getA m.indices x := by
    intro x
    exact get_put m.indices n x s
  refine ⟨?_, hg, ?_⟩
  · show ((getA (addIndex m n s).indices m.primary).map L.size).getD 0 = _
    rw [hg]
    by_cases h : n = m.primary
    · simp [h]
    · rw [if_neg (Ne.symm h), if_neg h]; rfl
  · intro h
    simp [size, h]

/-- C111: the hybrid index counts what its graph part holds: the id of a successful insertion is counted even when the cluster
part refuses it, and a deletion uncounts it although the cluster part keeps it. -/
theorem C111_hybrid_size (h : Hybrid V) (id : String) (order : List (Hnsw.Node V) → List (Hnsw.Node V)) :
    (h.delete id order).1.size = Hnsw.size (Hnsw.delete order h.hnsw id).1 ∧ (h.delete id order).1.ivf = h.ivf ∧
    (h.delete id order).2 = false ∧
    ∀ (E : Hnsw.Env V) (F : Ivf.Env V) v level h' e, h.insert E F id v level = some (h', e) →
      ∃ e', Hnsw.insert E h.hnsw id v level = some (h'.hnsw, e') ∧ h'.size = Hnsw.size h'.hnsw := by
  refine ⟨rfl, rfl, rfl, ?_⟩
  intro E F v level h' e hi
  unfold Hybrid.insert at hi
  split at hi
  · cases hi
  · rename_i g hg
    injection hi with hi
    injection hi with h1 h2
    subst h1
    exact ⟨true, hg, rfl⟩
  · rename_i g hg
    obtain ⟨r, -, hr⟩ := Option.map_eq_some_iff.1 hi
    injection hr with h1 h2
    subst h1
    exact ⟨false, hg, rfl⟩

example (L : Lib Nat Nat Unit) (m : Multi Nat) (h : m.primary = "hnsw") : size L (addIndex m "hnsw" 7) = L.size 7 := by
  rw [(C111_size L m "hnsw" 7).1, h]; rfl

end Verif.MultiIndex

namespace Verif.Quant

/-- C39: a new binary quantizer refuses to encode and to decode until it is trained; a training that fails leaves it so. -/
theorem C39_new (A : Arith) (dim : Nat) (v : Vec) (bs : List Nat) (vs : List Vec) :
    (BQ.new dim).encode v = none ∧ (BQ.new dim).decode A bs = none ∧
    (((BQ.new dim).train vs).2 = true → ((BQ.new dim).train vs).1 = BQ.new dim) ∧
    (((BQ.new dim).train vs).2 = false → ((BQ.new dim).train vs).1.Ready) := by
  refine ⟨by simp [BQ.encode, BQ.new], by simp [BQ.decode, BQ.new], fun h => ?_, fun h => ?_⟩
  · unfold BQ.train at h ⊢
    split_ifs at h ⊢ <;> simp_all
  · unfold BQ.train at h ⊢
    split_ifs at h ⊢ <;> first | exact ⟨rfl, by simp [BQ.new]⟩ | cases h

example : ((BQ.new 2).train [[1, 2], [3, 4]]).2 = false ∧ ((BQ.new 2).train [[1]]).2 = true := by decide +kernel

end Verif.Quant

namespace Verif.RagSearch
open Verif.Base Verif.Rag Verif.Spec

/-- C140: chunks fetched by id come with their entities unless graph retrieval is disabled or the mode is lexical. -/
theorem C140_entities (get : Text → Option (Text × Text)) (ents : Text → Option (List Text)) (m : Mode) (disable : Bool)
    (ids : List Text) (l : List Chunk) (h : getChunks get ents (loadEntities m disable true []) ids = some l) :
    ∀ c ∈ l, (disable = false ∧ m ≠ .lexical → ents c.id = some c.entities) ∧ (disable = true ∨ m = .lexical → c.entities = []) := by
  intro c hc
  obtain ⟨-, h1⟩ := (C140_get_chunks get ents _ ids).1 l h
  obtain ⟨-, h2, h3⟩ := h1 c hc
  refine ⟨fun hm => h2 ?_, fun hm => h3 ?_⟩
  · obtain ⟨h4, h5⟩ := hm
    subst h4
    cases m <;> simp [loadEntities] at h5 ⊢
  · rcases hm with rfl | rfl <;> simp [loadEntities]

/-- C140: a lexical search lists the entities of its chunks when graph retrieval is on and the mode is graph, or automatic with a
query that is blank or names an entity. -/
theorem C140_search_entities (m : Mode) (disable blank : Bool) (qn : List Text) :
    loadEntities m disable blank qn = true ↔ disable = false ∧ (m = .graph ∨ (m = .auto ∧ (blank = true ∨ qn ≠ []))) := by
  cases m <;> cases disable <;> cases blank <;> simp [loadEntities, List.length_pos_iff]

end Verif.RagSearch

namespace Verif.Facade
open Verif.Model.Store Verif.Model.Search Verif.Spec Verif.Base Verif.Thm.Search
open Verif.Thm.Store (WF payload)
variable {W HI VI : Type}

/-- C185: a hybrid text search is refused without an embedder, for an empty query, when the embedder fails and when the hybrid
search of the embedded query is refused, and in no other case. -/
theorem C185_hybrid_refused (c : Cfg W) (via : Serve W) (fts : String → List String) (emb : Option (Embedder W)) (s : St W HI VI)
    (query : String) (k : Int) :
    (hybridSearchText c via fts emb s query k = .error .noEmbedder ↔ emb = none) ∧
      (hybridSearchText c via fts emb s query k = .error .emptyText ↔ emb ≠ none ∧ query = "") ∧
      (hybridSearchText c via fts emb s query k = .error .embedding ↔
        ∃ E, emb = some E ∧ query ≠ "" ∧ E.embed query = none) ∧
      ∀ e, hybridSearchText c via fts emb s query k = .error (.store e) ↔
        ∃ E v, emb = some E ∧ query ≠ "" ∧ E.embed query = some v ∧
          hybridSearch c via s (v.getD []) (fts query) { topK := k } 0 = .error e := by
  cases emb with
  | none => simp [hybridSearchText]
  | some E =>
    by_cases hq : query = ""
    · simp [hybridSearchText, hq]
    · cases hE : E.embed query with
      | none => simp [hybridSearchText, hq, hE]
      | some v =>
        cases hs : hybridSearch c via s (v.getD []) (fts query) { topK := k } 0 with
        | ok hs' => simp [hybridSearchText, hq, hE, hs]
        | error er => simp [hybridSearchText, hq, hE, hs]

/-- C185: every hit of a hybrid text search is a stored record, each once; the scores are the rank fusion with constant 60 of the
two lists, and the best come first, at most as many as asked for. -/
theorem C185_hybrid (c : Cfg W) (hsort : SortsDesc c.sort) (via : Serve W) (fts : String → List String) (E : Embedder W)
    (s : St W HI VI) (wf : WF s.db) (query : String) (k : Int) (out : List (Hit W))
    (h : hybridSearchText c via fts (some E) s query k = .ok out) :
    ∃ v vs fused, E.embed query = some v ∧
      (if (v.getD []).length > 0 then search c via s (v.getD []) { topK := k } else .ok []) = .ok vs ∧
      (out.map (fun x => x.id)).Nodup ∧
      (∀ x ∈ fused, x.score = rrf 60 [vs.map (fun x => x.id), fts query] x.id) ∧
      (∀ id, id ∈ fused.map (fun x => x.id) ↔
        id ∈ vs.map (fun x => x.id) ∨ (id ∈ fts query ∧ ∃ r ∈ s.db.embeddings, r.id = id)) ∧
      (0 < k → IsTopK (fun x : Hit W => x.score) fused k.toNat out) ∧
      (k ≤ 0 → IsRanked (fun x : Hit W => x.score) fused out) := by
  unfold hybridSearchText at h
  simp only [] at h
  split at h
  · cases h
  · split at h
    · cases h
    · rename_i v hv
      split at h
      · cases h
      · rename_i hs hh
        injection h with h
        subst h
        obtain ⟨vs, fused, h1, h2, h3, h4, h5, h6⟩ := C12_fusion_partial c hsort via s wf _ _ _ _ _ hh
        exact ⟨v, vs, fused, hv, h1, h2, by simpa using h3, h4, h5, h6⟩

end Verif.Facade
