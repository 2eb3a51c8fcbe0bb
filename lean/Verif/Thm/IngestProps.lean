import Verif.Thm.Ingest
import Mathlib.Algebra.Order.Field.Rat
import Mathlib.Algebra.BigOperators.Group.List.Basic
import Mathlib.Tactic.Linarith

/-!
Properties of the ingestion of documents into the graph: C155 to C160.
-/
namespace Verif.Ingest
open Verif.Base Verif.Graph Verif.GraphTools

variable {u : Uni} {p : Props} {embed : List String → Option (List (List ℚ))} {dim : Nat}
  {extract : String → Option (Option Extraction)} {o : Orders} {f : Faults} {opts : Verif.Rag.IngestOpts} {doc title content : String}
  {s s' : State} {r : Result}

/-! ### C155: the document and its chunks -/

/-- The graph holds a document with these chunk texts: its node, a node for each chunk with the text, a link to each chunk and the links from each
chunk to the next. -/
structure Holds (s : State) (doc shown : String) (ts : List String) : Prop where
  root : ∃ n, getNode s (docId doc) = some n ∧ n.ntype = "document" ∧ n.content = shown
  chunk : ∀ i t, ts[i]? = some t → ∃ n, getNode s (chunkId doc i) = some n ∧ n.ntype = "chunk" ∧ n.content = t ∧ n.vec ≠ []
  link : ∀ i t, ts[i]? = some t → ∃ e ∈ s.edges, e.src = docId doc ∧ e.dst = chunkId doc i ∧ e.etype = "has_chunk"
  next : ∀ i t, ts[i + 1]? = some t → ∃ e ∈ s.edges, e.src = chunkId doc i ∧ e.dst = chunkId doc (i + 1) ∧ e.etype = "next"

theorem ends_of {fk : Bool} {s : State} {e : Edge} (h1 : getNode s e.src ≠ none) (h2 : getNode s e.dst ≠ none) :
    GraphTools.ends fk s e = true := by
  unfold GraphTools.ends
  rw [(hasNode_get s e.src).2 h1, (hasNode_get s e.dst).2 h2]
  simp

theorem wrote_holds {fk : Bool} {dn : Node} {its : List Item} {ts : List String} (h1 : its.map Item.i = List.range' 0 ts.length)
    (h2 : its.map Item.text = ts) (hvec : ∀ it ∈ its, it.vec ≠ []) {ev : String → List ℚ}
    (w : Wrote u p o fk doc dn its ev s s') (hd : dn.ntype = "document") :
    Holds s' doc dn.content ts := by
  have hch : ∀ i t, ts[i]? = some t → ∃ it ∈ its, it.i = i ∧ it.text = t := fun i t ht => item_at h1 h2 ht
  have hnode : ∀ i t, ts[i]? = some t → getNode s' (chunkId doc i) ≠ none := by
    intro i t ht
    obtain ⟨it, hit, rfl, -⟩ := hch i t ht
    rw [w.chunk it hit, if_neg (hvec it hit)]; simp
  refine ⟨⟨dn, w.root, hd, rfl⟩, ?_, ?_, ?_⟩
  · intro i t ht
    obtain ⟨it, hit, rfl, rfl⟩ := hch i t ht
    exact ⟨_, (w.chunk it hit).trans (if_neg (hvec it hit)), rfl, rfl, hvec it hit⟩
  · intro i t ht
    obtain ⟨it, hit, rfl, -⟩ := hch i t ht
    refine ⟨hasChunk doc it.i, (w.edges _).2 (Or.inl ⟨?_, ends_of (by show getNode s' (docId doc) ≠ none; rw [w.root]; simp) (hnode _ _ ht)⟩), rfl, rfl, rfl⟩
    unfold allEdges
    refine List.mem_append_left _ (List.mem_append_left _ (List.mem_flatMap.2 ⟨it, hit, List.mem_cons_self⟩))
  · intro i t ht
    obtain ⟨it, hit, hi, -⟩ := hch (i + 1) t ht
    have hlt : i < ts.length := by
      rcases Nat.lt_or_ge (i + 1) ts.length with h | h
      · omega
      · rw [List.getElem?_eq_none h] at ht; cases ht
    refine ⟨nextChunk doc (i + 1), (w.edges _).2 (Or.inl ⟨?_, ends_of (hnode i ts[i] (List.getElem?_eq_getElem hlt)) (hnode _ _ ht)⟩), rfl, rfl, rfl⟩
    unfold allEdges
    refine List.mem_append_left _ (List.mem_append_left _ (List.mem_flatMap.2 ⟨it, hit, ?_⟩))
    unfold structEdges
    rw [hi, if_pos (Nat.succ_pos i)]
    simp

theorem item_lt {ts : List String} {its : List Item} (h1 : its.map Item.i = List.range' 0 ts.length) (h2 : its.map Item.text = ts) {it : Item}
    (h : it ∈ its) : it.i < ts.length := by
  have := item_pos h1 h2 h
  rcases Nat.lt_or_ge it.i ts.length with hl | hl
  · exact hl
  · rw [List.getElem?_eq_none hl] at this; cases this

/-- C155: after a successful ingestion in which the embedder returned no empty vector for a chunk, the graph holds the document with all its chunks
in their order, and the answer names the document node and the chunk nodes in order. -/
theorem C155_held_partial (hf : Fine u o)
    (hemb : ∀ vs (i : Nat), embed (texts u content opts) = some vs → i < (texts u content opts).length → vs[i]? ≠ some [])
    (h : insertDocument u p embed dim extract o f opts doc title content s = (s', .ok r)) :
    Holds s' doc (firstNonEmpty u title content) (texts u content opts) ∧ r.doc = docId doc ∧
      r.chunks = (List.range (texts u content opts).length).map (chunkId doc) := by
  obtain ⟨vs, its, ev, h0, -, h1, h2, h3, -, w, rfl⟩ := insert_ok hf h
  refine ⟨wrote_holds h1 h2 (fun it hit hv => hemb _ _ h0 (item_lt h1 h2 hit) (by rw [(h3 it hit).1, hv])) w rfl, rfl, ?_⟩
  show its.map (fun it => chunkId doc it.i) = _
  have : its.map (fun it => chunkId doc it.i) = (its.map Item.i).map (chunkId doc) := by rw [List.map_map]; rfl
  rw [this, h1, List.range_eq_range']

/-- An edge that the ingestion of the document may add. -/
def Adds (u : Uni) (extract : String → Option (Option Extraction)) (doc : String) (ts : List String) (e : Edge) : Prop :=
  ∃ i t x, ts[i]? = some t ∧ extract t = some x ∧
    ((e.src = docId doc ∧ e.dst = chunkId doc i ∧ e.etype = "has_chunk" ∧ e.weight = 1) ∨
     (0 < i ∧ e.src = chunkId doc (i - 1) ∧ e.dst = chunkId doc i ∧ e.etype = "next" ∧ e.weight = 1) ∨
     (∃ y, x = some y ∧ ∃ n ∈ y.ents, blank u n.name = false ∧ e.src = chunkId doc i ∧ e.dst = entityNode u n.name ∧ e.etype = "mentions" ∧
       e.weight = 1) ∨
     (∃ y, x = some y ∧ ∃ q ∈ y.rels, blank u q.src = false ∧ blank u q.dst = false ∧ e.src = entityNode u q.src ∧ e.dst = entityNode u q.dst ∧
       e.etype = (if blank u q.rtype then "related_to" else q.rtype) ∧ e.weight = if q.weight = 0 then 1 else q.weight))

theorem ents_some {it : Item} {n : Ent} (h : n ∈ entsOf it) : ∃ y, it.ext = some y ∧ n ∈ y.ents := by
  unfold entsOf at h
  cases hx : it.ext with
  | none => rw [hx] at h; cases h
  | some y => rw [hx] at h; exact ⟨y, rfl, h⟩

theorem rels_some {it : Item} {q : Rel} (h : q ∈ relsOf it) : ∃ y, it.ext = some y ∧ q ∈ y.rels := by
  unfold relsOf at h
  cases hx : it.ext with
  | none => rw [hx] at h; cases h
  | some y => rw [hx] at h; exact ⟨y, rfl, h⟩

theorem related (hb : blank u "related_to" = false) (t : String) : firstNonEmpty u t "related_to" = if blank u t then "related_to" else t := by
  unfold firstNonEmpty
  rw [hb]; simp

/-- C155: nothing else is added. Every edge of the graph afterwards was there before or stands for a chunk, an order of chunks, an extracted
entity or an extracted relation; nodes with other ids stay as they were. -/
theorem C155_only (hf : Fine u o)
    (h : insertDocument u p embed dim extract o f opts doc title content s = (s', .ok r)) :
    (∀ e ∈ s'.edges, e ∈ s.edges ∨ Adds u extract doc (texts u content opts) e) ∧
    ∀ id, id ≠ docId doc → (∀ i, i < (texts u content opts).length → id ≠ chunkId doc i) →
      (∀ t ∈ texts u content opts, ∀ y, extract t = some (some y) → ∀ n ∈ y.ents, blank u n.name = false → id ≠ entityNode u n.name) →
      getNode s' id = getNode s id := by
  obtain ⟨vs, its, ev, h0, -, h1, h2, h3, -, w, rfl⟩ := insert_ok hf h
  constructor
  · intro e he
    rcases (w.edges e).1 he with ⟨ha, -⟩ | ⟨ha, -⟩
    · right
      obtain ⟨it, hit, hcase⟩ := all_mem hf ha
      refine ⟨it.i, it.text, it.ext, item_pos h1 h2 hit, (h3 it hit).2, ?_⟩
      rcases hcase with rfl | ⟨hi, rfl⟩ | ⟨n, hn, hb, rfl⟩ | ⟨q, hq, b1, b2, rfl⟩
      · exact Or.inl ⟨rfl, rfl, rfl, rfl⟩
      · exact Or.inr (Or.inl ⟨hi, rfl, rfl, rfl, rfl⟩)
      · obtain ⟨y, hy, hn⟩ := ents_some hn
        exact Or.inr (Or.inr (Or.inl ⟨y, hy, n, hn, hb, rfl, rfl, rfl, rfl⟩))
      · obtain ⟨y, hy, hq⟩ := rels_some hq
        exact Or.inr (Or.inr (Or.inr ⟨y, hy, q, hq, b1, b2, rfl, rfl, related hf.rel _, rfl⟩))
    · exact Or.inl ha
  · intro id i1 i2 i3
    refine w.frame id i1 ?_ ?_
    · intro it hit
      refine i2 it.i ?_
      have := item_pos h1 h2 hit
      rcases Nat.lt_or_ge it.i (texts u content opts).length with h | h
      · exact h
      · rw [List.getElem?_eq_none h] at this; cases this
    · intro e he
      obtain ⟨it, hit, n, hn, hb, rfl⟩ := texts_mem he
      obtain ⟨y, hy, hn⟩ := ents_some hn
      have ht : it.text ∈ texts u content opts := h2 ▸ List.mem_map_of_mem hit
      exact i3 it.text ht y (by rw [(h3 it hit).2, hy]) n hn hb

theorem embedded_each {g : String → List ℚ} (hg : ∀ l vs, embed l = some vs → vs = l.map g) {es : List (String × Ent)} {ev : String → List ℚ}
    (h : Embedded embed es ev) {e : String × Ent} (he : e ∈ es) : ev e.1 = g e.2.name := by
  obtain ⟨i, hi⟩ := List.mem_iff_getElem?.1 he
  rcases h with rfl | ⟨vs, h1, h2⟩
  · cases he
  · have := h2 i e hi
    rw [hg _ _ h1, List.map_map, List.getElem?_map, hi] at this
    simpa using this.symm

theorem all_order {o' : Orders} (hf : Fine u o) (hf' : Fine u o') {its : List Item} {e : Edge} :
    e ∈ allEdges u p o' doc its ↔ e ∈ allEdges u p o doc its := by
  unfold allEdges
  simp only [List.mem_append, (hf.ments _).mem_iff, (hf'.ments _).mem_iff, ((hf.rels _).map Prod.snd).mem_iff, ((hf'.rels _).map Prod.snd).mem_iff]

/-- C155: ingesting the same document once more, with an embedder that gives each text the same vector whenever it is asked, changes no node and no
edge, whatever the order in which entities and relations are visited. -/
theorem C155_again (hf : Fine u o) {o' : Orders} (hf' : Fine u o') {f' : Faults} (hfk : f'.fk = f.fk) {g : String → List ℚ}
    (hg : ∀ l vs, embed l = some vs → vs = l.map g) {s'' : State} {r' : Result}
    (h : insertDocument u p embed dim extract o f opts doc title content s = (s', .ok r))
    (h' : insertDocument u p embed dim extract o' f' opts doc title content s' = (s'', .ok r')) :
    (r'.doc = r.doc ∧ r'.chunks = r.chunks ∧ r'.ents.Perm r.ents) ∧ (∀ e, e ∈ s''.edges ↔ e ∈ s'.edges) ∧
    ∀ id, getNode s'' id = getNode s' id := by
  obtain ⟨vs, its, ev, h0, hc, h1, h2, h3, he, w, rfl⟩ := insert_ok hf h
  obtain ⟨vs', its', ev', h0', hc', -, -, -, he', w', rfl⟩ := insert_ok hf' h'
  rw [h0, Option.some.injEq] at h0'
  subst h0'
  rw [hc, Out.ok.injEq] at hc'
  subst hc'
  have hn : ∀ id, getNode s'' id = getNode s' id := by
    intro id
    by_cases h1 : id = docId doc
    · rw [h1, w.root, w'.root]
    by_cases h2 : ∃ it ∈ its, id = chunkId doc it.i
    · obtain ⟨it, hit, rfl⟩ := h2
      rw [w'.chunk it hit, w.chunk it hit]
      split <;> rfl
    by_cases h3 : ∃ e ∈ entityTexts u its, id = e.1
    · obtain ⟨e, hm, rfl⟩ := h3
      have : ev' e.1 = ev e.1 := by
        rw [embedded_each hg he ((hf.ents _).mem_iff.2 hm), embedded_each hg he' ((hf'.ents _).mem_iff.2 hm)]
      rw [w'.ent e hm, w.ent e hm, this]
      split <;> rfl
    · push Not at h2 h3
      exact w'.frame id h1 h2 h3
  refine ⟨⟨rfl, rfl, ?_⟩, ?_, hn⟩
  · exact ((hf'.ents _).trans (hf.ents _).symm).map _
  have hends : ∀ e, GraphTools.ends f'.fk s'' e = GraphTools.ends f.fk s' e := by
    intro e
    have : ∀ id, hasNode s''.nodes id = hasNode s'.nodes id := by
      intro id
      rw [Bool.eq_iff_iff, hasNode_get, hasNode_get, hn]
    unfold GraphTools.ends
    rw [this, this, hfk]
  intro e
  rw [w'.edges e]
  simp only [all_order hf hf', hends]
  constructor
  · rintro (⟨h1, h2⟩ | ⟨h1, -⟩)
    · exact (w.edges e).2 (Or.inl ⟨h1, h2⟩)
    · exact h1
  · intro he
    rcases (w.edges e).1 he with ⟨h1, h2⟩ | ⟨h1, h2⟩
    · exact Or.inl ⟨h1, h2⟩
    · exact Or.inr ⟨he, h2⟩

theorem no_touch (hfk : f.fk = true) (hcl : Closed s) {dn : Node} {its : List Item} {ev : String → List ℚ}
    (w : Wrote u p o f.fk doc dn its ev s s') {id : String} (hold : getNode s id = none) (hnone : getNode s' id = none) :
    ∀ e ∈ s'.edges, e.src ≠ id ∧ e.dst ≠ id := by
  have hold' : hasNode s.nodes id = false := by
    rw [← Bool.not_eq_true, hasNode_get]; simpa using hold
  intro e he
  rcases (w.edges e).1 he with ⟨-, hends⟩ | ⟨ha, -⟩
  · unfold GraphTools.ends at hends
    rw [hfk] at hends
    simp only [Bool.not_true, Bool.false_or, Bool.and_eq_true, hasNode_get] at hends
    exact ⟨fun hh => hends.1 (by rw [hh]; exact hnone), fun hh => hends.2 (by rw [hh]; exact hnone)⟩
  · obtain ⟨⟨n1, hn1, i1⟩, ⟨n2, hn2, i2⟩⟩ := hcl e ha
    unfold hasNode at hold'
    rw [List.any_eq_false] at hold'
    constructor
    · intro hh
      exact hold' n1 hn1 (decide_eq_true (i1.trans hh))
    · intro hh
      exact hold' n2 hn2 (decide_eq_true (i2.trans hh))

/-- C155 is violated when the embedder answers with an empty vector for a chunk: the call succeeds and names the chunk, but the graph has no node for
it and, with foreign keys enforced, no edge from the document to it or from its neighbours. -/
theorem C155_empty_violated (hf : Fine u o) (hfk : f.fk = true) (hcl : Closed s)
    (h : insertDocument u p embed dim extract o f opts doc title content s = (s', .ok r)) {vs : List (List ℚ)} {i : Nat}
    (hi : i < (texts u content opts).length) (hv : embed (texts u content opts) = some vs) (hempty : vs[i]? = some [])
    (hold : getNode s (chunkId doc i) = none) :
    chunkId doc i ∈ r.chunks ∧ getNode s' (chunkId doc i) = none ∧ ∀ e ∈ s'.edges, e.src ≠ chunkId doc i ∧ e.dst ≠ chunkId doc i := by
  obtain ⟨vs', its, ev, h0, -, h1, h2, h3, -, w, rfl⟩ := insert_ok hf h
  rw [hv, Option.some.injEq] at h0
  subst h0
  obtain ⟨it, hit, rfl, -⟩ := item_at h1 h2 (List.getElem?_eq_getElem hi)
  have hvec : it.vec = [] := by
    have := (h3 it hit).1
    rw [hempty, Option.some.injEq] at this
    exact this.symm
  have hnone : getNode s' (chunkId doc it.i) = none := by rw [w.chunk it hit, if_pos hvec, hold]
  exact ⟨List.mem_map.2 ⟨it, hit, rfl⟩, hnone, no_touch hfk hcl w hold hnone⟩

/-! ### C156: the entities -/

/-- C156: after a successful ingestion every entity that the extractor found with a name in a chunk has a node, whose name and type are those of an
entity found in the document under the same id; the chunk points to it; the answer lists exactly the ids of the entities found, each once. -/
theorem C156_entities_partial (hf : Fine u o)
    (hemb : ∀ l vs (i : Nat), embed l = some vs → i < l.length → vs[i]? ≠ some [])
    (h : insertDocument u p embed dim extract o f opts doc title content s = (s', .ok r)) :
    (∀ i t y, (texts u content opts)[i]? = some t → extract t = some (some y) → ∀ n ∈ y.ents, blank u n.name = false →
      entityNode u n.name ∈ r.ents ∧
      (∃ m, getNode s' (entityNode u n.name) = some m ∧ ∃ t' ∈ texts u content opts, ∃ y', extract t' = some (some y') ∧ ∃ n' ∈ y'.ents,
        blank u n'.name = false ∧ entityNode u n'.name = entityNode u n.name ∧ m.content = n'.name ∧ m.ntype = firstNonEmpty u n'.etype "entity") ∧
      ∃ e ∈ s'.edges, e.src = chunkId doc i ∧ e.dst = entityNode u n.name ∧ e.etype = "mentions" ∧ e.weight = 1) ∧
    r.ents.Nodup ∧
    ∀ id ∈ r.ents, ∃ t ∈ texts u content opts, ∃ y, extract t = some (some y) ∧ ∃ n ∈ y.ents, blank u n.name = false ∧ id = entityNode u n.name := by
  obtain ⟨vs, its, ev, h0, -, h1, h2, h3, hev, w, rfl⟩ := insert_ok hf h
  have hev0 : ∀ e ∈ entityTexts u its, ev e.1 ≠ [] := by
    intro e he hnil
    have he := (hf.ents _).mem_iff.2 he
    obtain ⟨i, hi⟩ := List.mem_iff_getElem?.1 he
    rcases hev with hh | ⟨vs', k1, k2⟩
    · rw [hh] at he; cases he
    · refine hemb _ vs' i k1 ?_ (by rw [k2 i e hi, hnil])
      rw [List.length_map]
      rcases Nat.lt_or_ge i (o.ents (entityTexts u its)).length with hl | hl
      · exact hl
      · rw [List.getElem?_eq_none hl] at hi; cases hi
  refine ⟨?_, ?_, ?_⟩
  · intro i t y ht hy n hn hb
    obtain ⟨it, hit, rfl, rfl⟩ := item_at h1 h2 ht
    have hext : it.ext = some y := by
      have := (h3 it hit).2
      rw [hy, Option.some.injEq] at this
      exact this.symm
    have hne : n ∈ entsOf it := by unfold entsOf; rw [hext]; exact hn
    have hm : (entityNode u n.name, (⟨n.name, firstNonEmpty u n.etype "entity"⟩ : Ent)) ∈ entries u it :=
      List.mem_map.2 ⟨n, List.mem_filter.2 ⟨hne, by simp [hb]⟩, rfl⟩
    obtain ⟨v, hv⟩ := fold_key (List.mem_flatMap.2 ⟨it, hit, hm⟩)
    have hv : (entityNode u n.name, v) ∈ entityTexts u its := hv
    have hg := (w.ent _ hv).trans (if_neg (hev0 _ hv))
    refine ⟨List.mem_map.2 ⟨_, (hf.ents _).mem_iff.2 hv, rfl⟩, ⟨_, hg, ?_⟩, ?_⟩
    · obtain ⟨it', hit', n', hn', hb', heq⟩ := texts_mem hv
      obtain ⟨y', hy', hn'⟩ := ents_some hn'
      simp only [Prod.mk.injEq] at heq
      refine ⟨it'.text, h2 ▸ List.mem_map_of_mem hit', y', by rw [(h3 it' hit').2, hy'], n', hn', hb', heq.1.symm, ?_, ?_⟩
      · rw [heq.2]
      · rw [heq.2]
    · refine ⟨mention (chunkId doc it.i) (entityNode u n.name), (w.edges _).2 (Or.inl ⟨?_, ?_⟩), rfl, rfl, rfl, rfl⟩
      · unfold allEdges
        refine List.mem_append_left _ (List.mem_append_right _ ((hf.ments _).mem_iff.2 (List.mem_flatMap.2 ⟨it, hit, List.mem_map.2 ⟨_, ?_, rfl⟩⟩)))
        rw [List.mem_dedup]
        exact List.mem_map.2 ⟨_, hm, rfl⟩
      · refine ends_of ?_ ?_
        · show getNode s' (chunkId doc it.i) ≠ none
          rw [w.chunk it hit, if_neg (fun hv => hemb _ _ _ h0 (item_lt h1 h2 hit) (by rw [(h3 it hit).1, hv]))]; simp
        · show getNode s' (entityNode u n.name) ≠ none
          simp only at hg
          rw [hg]; simp
  · show ((o.ents (entityTexts u its)).map Prod.fst).Nodup
    rw [((hf.ents _).map _).nodup_iff]
    exact fold_keys _ [] (by simp [KeysOk])
  · intro id hid
    obtain ⟨x, hx, rfl⟩ := List.mem_map.1 hid
    obtain ⟨it, hit, n, hn, hb, rfl⟩ := texts_mem ((hf.ents _).mem_iff.1 hx)
    obtain ⟨y, hy, hn⟩ := ents_some hn
    exact ⟨it.text, h2 ▸ List.mem_map_of_mem hit, y, by rw [(h3 it hit).2, hy], n, hn, hb, rfl⟩

/-- C156 is violated when the embedder answers with an empty vector for the name of an entity: the call succeeds and lists the entity, but the graph
has no node for it and, with foreign keys enforced, no mention of it. -/
theorem C156_empty_violated (hf : Fine u o) (hfk : f.fk = true) (hcl : Closed s) {g : String → List ℚ}
    (hg : ∀ l vs, embed l = some vs → vs = l.map g)
    (h : insertDocument u p embed dim extract o f opts doc title content s = (s', .ok r)) {id : String} (hid : id ∈ r.ents)
    (hempty : ∀ t ∈ texts u content opts, ∀ y, extract t = some (some y) → ∀ n ∈ y.ents, entityNode u n.name = id → g n.name = []) (hold : getNode s id = none) :
    getNode s' id = none ∧ ∀ e ∈ s'.edges, e.src ≠ id ∧ e.dst ≠ id := by
  obtain ⟨vs, its, ev, h0, -, h1, h2, h3, hev, w, rfl⟩ := insert_ok hf h
  obtain ⟨e, he, rfl⟩ := List.mem_map.1 hid
  have hm := (hf.ents _).mem_iff.1 he
  have hnil : ev e.1 = [] := by
    rw [embedded_each hg hev he]
    obtain ⟨it, hit, n, hn, -, rfl⟩ := texts_mem hm
    obtain ⟨y, hy, hn⟩ := ents_some hn
    exact hempty it.text (h2 ▸ List.mem_map_of_mem hit) y (by rw [(h3 it hit).2, hy]) n hn rfl
  have hnone : getNode s' e.1 = none := by rw [w.ent e hm, if_pos hnil, hold]
  exact ⟨hnone, no_touch hfk hcl w hold hnone⟩

/-! ### C157: the relations -/

/-- C157: after a successful ingestion every relation with two named ends that the extractor found in a chunk, and whose ends have nodes (or foreign
keys are not enforced), is stored with its ends and type; its weight is that of the last relation found in the same chunk with the same ends and
type. -/
theorem C157_relations_partial (hf : Fine u o)
    (h : insertDocument u p embed dim extract o f opts doc title content s = (s', .ok r)) :
    ∀ (i : Nat) t y, (texts u content opts)[i]? = some t → extract t = some (some y) → ∀ q ∈ y.rels, blank u q.src = false → blank u q.dst = false →
      (f.fk = true → getNode s' (entityNode u q.src) ≠ none ∧ getNode s' (entityNode u q.dst) ≠ none) →
      ∃ e ∈ s'.edges, e.src = entityNode u q.src ∧ e.dst = entityNode u q.dst ∧ e.etype = (if blank u q.rtype then "related_to" else q.rtype) ∧
        ∃ pre q' post, y.rels = pre ++ q' :: post ∧ entityNode u q'.src = e.src ∧ entityNode u q'.dst = e.dst ∧
          (if blank u q'.rtype then "related_to" else q'.rtype) = e.etype ∧ (e.weight = if q'.weight = 0 then 1 else q'.weight) ∧
          ∀ x ∈ post, blank u x.src = false → blank u x.dst = false → entityNode u x.src = e.src → entityNode u x.dst = e.dst →
            (if blank u x.rtype then "related_to" else x.rtype) ≠ e.etype := by
  obtain ⟨vs, its, ev, h0, -, h1, h2, h3, -, w, rfl⟩ := insert_ok hf h
  intro i t y ht hy q hq b1 b2 hfk
  obtain ⟨it, hit, rfl, rfl⟩ := item_at h1 h2 ht
  have hext : it.ext = some y := by
    have := (h3 it hit).2
    rw [hy, Option.some.injEq] at this
    exact this.symm
  have hry : relsOf it = y.rels := by unfold relsOf; rw [hext]
  obtain ⟨its1, its2, hsplit⟩ := List.mem_iff_append.1 hit
  have hnd : (its.map Item.i).Nodup := by rw [h1]; exact List.nodup_range'
  have hm : relEntry u p doc it.i q ∈ its.flatMap (relEntries u p doc) :=
    List.mem_flatMap.2 ⟨it, hit, List.mem_map.2 ⟨q, List.mem_filter.2 ⟨hry ▸ hq, by simp [b1, b2]⟩, rfl⟩⟩
  obtain ⟨v, hv⟩ := fold_key hm
  have hv' : ((relEntry u p doc it.i q).1, v) ∈ relations u p doc its := hv
  have hlast := (fold_mem _ _ _).1 hv
  -- the last entry with this key is one of this chunk
  have hother : ∀ x ∈ its2.flatMap (relEntries u p doc), x.1 ≠ (relEntry u p doc it.i q).1 := by
    intro x hx hk
    obtain ⟨it', hit', q', hq', c1, c2, rfl⟩ := relation_mem hx
    obtain ⟨k1, -⟩ := key_inj u hf.pipe p doc hk
    have hsame : it' = it := List.inj_on_of_nodup_map hnd (by rw [hsplit]; simp [hit']) hit k1
    subst hsame
    rw [hsplit, List.map_append, List.map_cons, List.nodup_append] at hnd
    exact (List.nodup_cons.1 hnd.2.1).1 (List.mem_map_of_mem hit')
  rw [hsplit, List.flatMap_append, List.flatMap_cons, List.reverse_append, List.reverse_append, List.append_assoc, List.find?_append,
    List.find?_append, List.find?_eq_none.2 (by
      intro x hx
      rw [decide_eq_true_eq]
      exact hother x (List.mem_reverse.1 hx)), Option.none_or] at hlast
  have hin : (relEntries u p doc it).reverse.find? (fun e => decide (e.1 = (relEntry u p doc it.i q).1)) = some ((relEntry u p doc it.i q).1, v) := by
    cases hfi : (relEntries u p doc it).reverse.find? (fun e => decide (e.1 = (relEntry u p doc it.i q).1)) with
    | none =>
      rw [List.find?_eq_none] at hfi
      exact absurd (decide_eq_true rfl) (hfi (relEntry u p doc it.i q) (List.mem_reverse.2
        (List.mem_map.2 ⟨q, List.mem_filter.2 ⟨hry ▸ hq, by simp [b1, b2]⟩, rfl⟩)))
    | some x => rw [hfi, Option.some_or] at hlast; exact hlast
  unfold relEntries at hin
  rw [← List.map_reverse, List.find?_map, hry] at hin
  obtain ⟨q', hq', heq⟩ := Option.map_eq_some_iff.1 hin
  have hkey : (relEntry u p doc it.i q).1 = (relEntry u p doc it.i q').1 := (congrArg Prod.fst heq).symm
  have hve : v = (relEntry u p doc it.i q').2 := (congrArg Prod.snd heq).symm
  obtain ⟨-, k2, k3, k4⟩ := key_inj u hf.pipe p doc hkey
  have hsrc : v.src = entityNode u q.src := by rw [hve, k2]; rfl
  have hdst : v.dst = entityNode u q.dst := by rw [hve, k3]; rfl
  rw [← List.filter_reverse, List.find?_filter] at hq'
  rw [List.find?_eq_some_iff_append] at hq'
  obtain ⟨hp, pre, post, happ, hbefore⟩ := hq'
  have hrels : y.rels = post.reverse ++ q' :: pre.reverse := by
    have := congrArg List.reverse happ
    simpa using this
  refine ⟨v, (w.edges v).2 (Or.inl ⟨?_, ?_⟩), hsrc, hdst, ?_, post.reverse, q', pre.reverse, hrels, ?_, ?_, ?_, ?_, ?_⟩
  · unfold allEdges
    exact List.mem_append_right _ (List.mem_map.2 ⟨_, (hf.rels _).mem_iff.2 hv', rfl⟩)
  · cases hk : f.fk with
    | false => rfl
    | true =>
      obtain ⟨g1, g2⟩ := hfk hk
      exact ends_of (by rw [hsrc]; exact g1) (by rw [hdst]; exact g2)
  · rw [← related hf.rel, k4, hve]; rfl
  · rw [hsrc, k2]
  · rw [hdst, k3]
  · rw [← related hf.rel, hve]; rfl
  · rw [hve]; rfl
  · intro x hx c1 c2 c3 c4 c5
    have := hbefore x (List.mem_reverse.1 hx)
    rw [hsrc] at c3
    rw [hdst] at c4
    rw [← related hf.rel, hve] at c5
    have c5 : firstNonEmpty u x.rtype "related_to" = firstNonEmpty u q.rtype "related_to" := by rw [k4]; exact c5
    have hk : (relEntry u p doc it.i x).1 = (relEntry u p doc it.i q).1 := by
      unfold relEntry
      simp only [c3, c4, c5]
    simp [c1, c2, hk] at this

/-- C157 is violated: a relation is dropped without an error when foreign keys are enforced and one of its ends was neither in the graph nor found as
an entity in the document: nothing in the graph touches that end after the ingestion that succeeded. -/
theorem C157_dropped_violated (hf : Fine u o) (hfk : f.fk = true) (hcl : Closed s)
    (h : insertDocument u p embed dim extract o f opts doc title content s = (s', .ok r)) (name : String)
    (hold : getNode s (entityNode u name) = none)
    (hno : ∀ t ∈ texts u content opts, ∀ y, extract t = some (some y) → ∀ n ∈ y.ents, blank u n.name = false →
      entityNode u n.name ≠ entityNode u name) :
    ∀ e ∈ s'.edges, e.src ≠ entityNode u name ∧ e.dst ≠ entityNode u name := by
  have hnone : getNode s' (entityNode u name) = none := by
    rw [(C155_only hf h).2 _ (kinds u doc doc name 0).2.2.symm (fun i _ => (kinds u doc doc name i).2.1.symm)
      (fun t ht y hy n hn hb hh => hno t ht y hy n hn hb hh.symm)]
    exact hold
  obtain ⟨vs, its, ev, h0, -, h1, h2, h3, -, w, rfl⟩ := insert_ok hf h
  exact no_touch hfk hcl w hold hnone

/-! ### C158: calls that fail -/

theorem finish_frame (u : Uni) (p : Props) (o : Orders) (f : Faults) (doc : String) (its : List Item) (s : State) (ids : List String)
    (ments : List Edge) : (finish u p o f doc its s ids ments).1.nodes = s.nodes ∧
      ((∀ r, (finish u p o f doc its s ids ments).2 ≠ .ok r) → (finish u p o f doc its s ids ments).1.edges = s.edges) := by
  unfold finish
  simp only
  generalize (its.flatMap (structEdges doc) ++ ments ++ (o.rels (relations u p doc its)).map Prod.snd) = es
  have hn : ∀ (l : List (Option Edge)) (s : State), (loop (batchEdge f.fk) s l).1.nodes = s.nodes := by
    intro l
    induction l with
    | nil => intro s; rfl
    | cons a l ih =>
      intro s
      show (loop (batchEdge f.fk) (batchEdge f.fk s a).1 l).1.nodes = _
      rw [ih]
      unfold batchEdge upsertEdge writeEdge
      cases a with
      | none => rfl
      | some e => simp only; split <;> (try rfl); split <;> (try rfl); split <;> rfl
  by_cases he : es.map some = []
  · have : upsertEdgesBatch f.fk f.c3 s (es.map some) = (s, some ⟨0, 0⟩) := by unfold upsertEdgesBatch; rw [if_pos he]
    rw [this]
    exact ⟨rfl, fun _ => rfl⟩
  · by_cases hc : f.c3 = false
    · have : upsertEdgesBatch f.fk f.c3 s (es.map some) = (s, none) := by unfold upsertEdgesBatch; rw [if_neg he, if_pos hc]
      rw [this]
      exact ⟨rfl, fun _ => rfl⟩
    · have : upsertEdgesBatch f.fk f.c3 s (es.map some) = ((loop (batchEdge f.fk) s (es.map some)).1, some (loop (batchEdge f.fk) s (es.map some)).2) := by
        unfold upsertEdgesBatch; rw [if_neg he, if_neg hc]
      rw [this]
      exact ⟨hn _ _, fun h => absurd rfl (h _)⟩

theorem store_frame (hf : Fine u o) (its : List Item) (s1 : State) :
    (∀ id, (∀ i, id ≠ chunkId doc i) → (∀ name, id ≠ entityNode u name) → getNode (store u p embed o f doc its s1).1 id = getNode s1 id) ∧
    ((∀ r, (store u p embed o f doc its s1).2 ≠ .ok r) → (store u p embed o f doc its s1).1.edges = s1.edges) := by
  unfold store
  split
  · exact ⟨fun _ _ _ => rfl, fun _ => rfl⟩
  simp only
  obtain ⟨a1, a2⟩ := nodes_frame f.c1 s1 (its.map (chunkNode p doc))
  have a2 : ∀ id, (∀ i, id ≠ chunkId doc i) → getNode (upsertNodesBatch f.c1 s1 ((its.map (chunkNode p doc)).map some)).1 id = getNode s1 id := by
    intro id hid
    refine a2 id ?_
    intro hm
    obtain ⟨n, hn, rfl⟩ := List.mem_map.1 hm
    obtain ⟨it, -, rfl⟩ := List.mem_map.1 hn
    exact hid _ rfl
  set s2 := (upsertNodesBatch f.c1 s1 ((its.map (chunkNode p doc)).map some)).1 with hs2
  cases (upsertNodesBatch f.c1 s1 ((its.map (chunkNode p doc)).map some)).2 with
  | none => exact ⟨fun id h1 _ => a2 id h1, fun _ => a1⟩
  | some k =>
    simp only
    split
    · obtain ⟨b1, b2⟩ := finish_frame u p o f doc its s2 [] []
      refine ⟨fun id h1 _ => ?_, fun h => (b2 h).trans a1⟩
      have : getNode (finish u p o f doc its s2 [] []).1 id = getNode s2 id := by unfold getNode; rw [b1]
      rw [this, a2 id h1]
    · cases embed ((o.ents (entityTexts u its)).map (fun e => e.2.name)) with
      | none => exact ⟨fun id h1 _ => a2 id h1, fun _ => a1⟩
      | some vs =>
        simp only
        cases hn : entityNodes p (o.ents (entityTexts u its)) vs with
        | none => exact ⟨fun id h1 _ => a2 id h1, fun _ => a1⟩
        | some ns =>
          simp only
          obtain ⟨n1, -, -⟩ := entityNodes_some hn
          obtain ⟨c1, c2⟩ := nodes_frame f.c2 s2 ns
          have c2 : ∀ id, (∀ name, id ≠ entityNode u name) → getNode (upsertNodesBatch f.c2 s2 (ns.map some)).1 id = getNode s2 id := by
            intro id hid
            refine c2 id ?_
            rw [n1]
            intro hm
            obtain ⟨x, hx, rfl⟩ := List.mem_map.1 hm
            obtain ⟨it, -, m, -, -, rfl⟩ := texts_mem ((hf.ents _).mem_iff.1 hx)
            exact hid m.name rfl
          cases (upsertNodesBatch f.c2 s2 (ns.map some)).2 with
          | none => exact ⟨fun id h1 h2 => (c2 id h2).trans (a2 id h1), fun _ => c1.trans a1⟩
          | some k2 =>
            simp only
            obtain ⟨b1, b2⟩ := finish_frame u p o f doc its (upsertNodesBatch f.c2 s2 (ns.map some)).1 ((o.ents (entityTexts u its)).map Prod.fst)
              (o.ments (mentions u doc its))
            refine ⟨fun id h1 h2 => ?_, fun h => (b2 h).trans (c1.trans a1)⟩
            have : getNode (finish u p o f doc its (upsertNodesBatch f.c2 s2 (ns.map some)).1 ((o.ents (entityTexts u its)).map Prod.fst)
              (o.ments (mentions u doc its))).1 id = getNode (upsertNodesBatch f.c2 s2 (ns.map some)).1 id := by unfold getNode; rw [b1]
            rw [this, c2 id h2, a2 id h1]

theorem docNode_frame (n : Node) (s : State) : (upsertNode s (some n)).1.edges = s.edges ∧
    ∀ id, id ≠ n.id → getNode (upsertNode s (some n)).1 id = getNode s id := by
  unfold upsertNode
  simp only
  split
  · exact ⟨rfl, fun _ _ => rfl⟩
  · split
    · exact ⟨rfl, fun _ _ => rfl⟩
    · refine ⟨rfl, fun id hid => ?_⟩
      unfold getNode
      rw [find_put, if_neg (fun h => hid h.symm)]

/-- C158: a call that fails or panics adds, changes and removes no edge, and touches no node but that of the document, of its chunks and of
entities. -/
theorem C158_failed_partial (hf : Fine u o) (h : ∀ r, (insertDocument u p embed dim extract o f opts doc title content s).2 ≠ .ok r) :
    (insertDocument u p embed dim extract o f opts doc title content s).1.edges = s.edges ∧
    ∀ id, id ≠ docId doc → (∀ i, id ≠ chunkId doc i) → (∀ name, id ≠ entityNode u name) →
      getNode (insertDocument u p embed dim extract o f opts doc title content s).1 id = getNode s id := by
  unfold insertDocument at h ⊢
  split
  · exact ⟨rfl, fun _ _ _ _ => rfl⟩
  rename_i h1
  rw [if_neg h1] at h
  simp only at h ⊢
  split
  · exact ⟨rfl, fun _ _ _ _ => rfl⟩
  rename_i h2
  rw [if_neg h2] at h
  cases hv : embed (texts u content opts) with
  | none => exact ⟨rfl, fun _ _ _ _ => rfl⟩
  | some vs =>
    rw [hv] at h
    simp only at h ⊢
    split
    · exact ⟨rfl, fun _ _ _ _ => rfl⟩
    rename_i h3
    rw [if_neg h3] at h
    obtain ⟨a1, a2⟩ := docNode_frame (docNode u p doc title content (average vs dim)) s
    split
    · exact ⟨a1, fun id i1 _ _ => a2 id i1⟩
    rename_i h4
    rw [if_neg h4] at h
    cases hc : collect extract vs 0 (texts u content opts) with
    | error => exact ⟨a1, fun id i1 _ _ => a2 id i1⟩
    | panic => exact ⟨a1, fun id i1 _ _ => a2 id i1⟩
    | ok its =>
      rw [hc] at h
      simp only at h ⊢
      obtain ⟨b1, b2⟩ := store_frame (p := p) (embed := embed) (f := f) (doc := doc) hf its
        (upsertNode s (some (docNode u p doc title content (average vs dim)))).1
      exact ⟨(b2 h).trans a1, fun id i1 i2 i3 => (b1 id i2 i3).trans (a2 id i1)⟩

/-- A call whose arguments are accepted and whose document record and document node are written. -/
theorem insert_started {vs : List (List ℚ)} (h1 : doc ≠ "") (h2 : blank u content = false) (h3 : texts u content opts ≠ [])
    (h4 : embed (texts u content opts) = some vs) (h5 : f.recordOk = true) (h6 : 0 < dim) :
    ∃ s1, getNode s1 (docId doc) = some (docNode u p doc title content (average vs dim)) ∧ s1.edges = s.edges ∧
      (∀ id, id ≠ docId doc → getNode s1 id = getNode s id) ∧
      insertDocument u p embed dim extract o f opts doc title content s =
        match collect extract vs 0 (texts u content opts) with
        | .error => (s1, .error)
        | .panic => (s1, .panic)
        | .ok its => store u p embed o f doc its s1 := by
  have hv : average vs dim ≠ [] := by
    intro h
    have := congrArg List.length h
    simp [average] at this
    omega
  have hid : (docNode u p doc title content (average vs dim)).id ≠ "" := (ne_empty u doc "" 0).2.1
  obtain ⟨a1, a2⟩ := docNode_frame (docNode u p doc title content (average vs dim)) s
  refine ⟨(upsertNode s (some (docNode u p doc title content (average vs dim)))).1, ?_, a1, a2, ?_⟩
  · unfold upsertNode
    simp only
    rw [if_neg hid, if_neg (show ¬ (docNode u p doc title content (average vs dim)).vec = [] from hv)]
    unfold getNode
    simp only
    rw [find_put, if_pos (show (docNode u p doc title content (average vs dim)).id = docId doc from rfl)]
  · unfold insertDocument
    rw [if_neg (by rintro (h | h); exact h1 h; rw [h2] at h; cases h)]
    simp only
    rw [if_neg h3, h4]
    simp only
    rw [h5, if_neg (by simp)]
    rw [if_neg]
    · cases collect extract vs 0 (texts u content opts) <;> rfl
    · unfold upsertNode
      simp only
      rw [if_neg hid, if_neg (show ¬ (docNode u p doc title content (average vs dim)).vec = [] from hv)]
      simp

theorem collect_error {vs : List (List ℚ)} : ∀ {ts : List String} {i : Nat}, i + ts.length ≤ vs.length → (∃ t ∈ ts, extract t = none) →
    collect extract vs i ts = .error
  | [], i, _, h => by obtain ⟨t, ht, -⟩ := h; cases ht
  | t :: ts, i, hl, h => by
    rw [List.length_cons] at hl
    unfold collect
    rw [List.getElem?_eq_getElem (by omega)]
    simp only
    cases hx : extract t with
    | none => rfl
    | some x =>
      simp only
      obtain ⟨t', ht', hn⟩ := h
      rcases List.mem_cons.1 ht' with rfl | ht'
      · rw [hx] at hn; cases hn
      · rw [collect_error (by omega) ⟨t', ht', hn⟩]

theorem collect_panic {vs : List (List ℚ)} : ∀ {ts : List String} {i : Nat}, i ≤ vs.length → vs.length < i + ts.length →
    (∀ t ∈ ts, extract t ≠ none) → collect extract vs i ts = .panic
  | [], i, h1, h2, _ => by simp at h2; omega
  | t :: ts, i, h1, h2, h => by
    rw [List.length_cons] at h2
    unfold collect
    rcases Nat.lt_or_ge i vs.length with hi | hi
    · rw [List.getElem?_eq_getElem hi]
      simp only
      cases hx : extract t with
      | none => exact absurd hx (h t List.mem_cons_self)
      | some x =>
        simp only
        rw [collect_panic (by omega) (by omega) (fun t' ht' => h t' (List.mem_cons_of_mem _ ht'))]
    · rw [List.getElem?_eq_none hi]

/-- C158 is violated: when the extractor fails on any chunk, the call returns an error but the node of the document stays in the graph, without any
chunk. -/
theorem C158_extractor_violated {vs : List (List ℚ)} (h1 : doc ≠ "") (h2 : blank u content = false) (h4 : embed (texts u content opts) = some vs)
    (h5 : f.recordOk = true) (h6 : 0 < dim) (h7 : vs.length = (texts u content opts).length)
    (h8 : ∃ t ∈ texts u content opts, extract t = none) :
    ∃ s', insertDocument u p embed dim extract o f opts doc title content s = (s', .error) ∧
      (∃ n, getNode s' (docId doc) = some n ∧ n.ntype = "document") ∧ s'.edges = s.edges ∧ ∀ i, getNode s' (chunkId doc i) = getNode s (chunkId doc i) := by
  have h3 : texts u content opts ≠ [] := by
    obtain ⟨t, ht, -⟩ := h8
    intro h; rw [h] at ht; cases ht
  obtain ⟨s1, a1, a2, a3, a4⟩ := insert_started (u := u) (p := p) (dim := dim) (extract := extract) (o := o) (title := title) (s := s) h1 h2 h3 h4 h5 h6
  rw [collect_error (by omega) h8] at a4
  exact ⟨s1, a4, ⟨_, a1, rfl⟩, a2, fun i => a3 _ (kinds u doc doc "" i).1⟩

/-- C158 is violated: an embedder that answers with fewer vectors than texts makes the call panic, with the node of the document written. -/
theorem C158_embedder_violated {vs : List (List ℚ)} (h1 : doc ≠ "") (h2 : blank u content = false) (h4 : embed (texts u content opts) = some vs)
    (h5 : f.recordOk = true) (h6 : 0 < dim) (h7 : vs.length < (texts u content opts).length)
    (h8 : ∀ t ∈ texts u content opts, extract t ≠ none) :
    ∃ s', insertDocument u p embed dim extract o f opts doc title content s = (s', .panic) ∧
      (∃ n, getNode s' (docId doc) = some n ∧ n.ntype = "document") := by
  have h3 : texts u content opts ≠ [] := by
    intro h; rw [h] at h7; simp at h7
  obtain ⟨s1, a1, a2, a3, a4⟩ := insert_started (u := u) (p := p) (dim := dim) (extract := extract) (o := o) (title := title) (s := s) h1 h2 h3 h4 h5 h6
  rw [collect_panic (by omega) (by omega) h8] at a4
  exact ⟨s1, a4, ⟨_, a1, rfl⟩⟩

/-! ### C159: ingestion without an embedder -/

/-- The orders that leave everything as it is. -/
def keep : Orders := ⟨id, id, id⟩

theorem ingest_eq (doc : String) (its : List Item) (hx : ∀ it ∈ its, it.ext = none) (s1 : State) :
    store u p embed keep f doc its s1 =
      if f.rowsOk = false then (s1, .error)
      else
        match (upsertNodesBatch f.c1 s1 ((its.map (chunkNode p doc)).map some)).2 with
        | none => ((upsertNodesBatch f.c1 s1 ((its.map (chunkNode p doc)).map some)).1, .error)
        | some _ =>
          let r2 := upsertEdgesBatch f.fk f.c3 (upsertNodesBatch f.c1 s1 ((its.map (chunkNode p doc)).map some)).1
            ((its.flatMap (structEdges doc)).map some)
          match r2.2 with
          | none => (r2.1, .error)
          | some _ => (r2.1, .ok ⟨docId doc, its.map (fun it => chunkId doc it.i), []⟩) := by
  have e1 : entityTexts u its = [] := by
    rw [List.eq_nil_iff_forall_not_mem]
    intro e he
    obtain ⟨it, hit, n, hn, -⟩ := texts_mem he
    obtain ⟨y, hy, -⟩ := ents_some hn
    rw [hx it hit] at hy; cases hy
  have e2 : relations u p doc its = [] := by
    rw [List.eq_nil_iff_forall_not_mem]
    intro e he
    obtain ⟨it, hit, q, hq, -⟩ := relation_mem (fold_sub he)
    obtain ⟨y, hy, -⟩ := rels_some hq
    rw [hx it hit] at hy; cases hy
  unfold store finish
  simp only [e1, e2, keep, id, List.map_nil, List.append_nil, if_true]
  rfl

/-- The items of the ingestion without an embedder. -/
def lexItems (vec : String → List ℚ) (ts : List String) : List Item := ts.zipIdx.map (fun q => (⟨q.2, q.1, vec q.1, none⟩ : Item))

theorem lexItems_ok (vec : String → List ℚ) (ts : List String) :
    (lexItems vec ts).map Item.i = List.range' 0 ts.length ∧ (lexItems vec ts).map Item.text = ts ∧
    ∀ it ∈ lexItems vec ts, it.vec = vec it.text ∧ it.ext = none := by
  refine ⟨?_, ?_, ?_⟩
  · unfold lexItems
    rw [List.map_map]
    exact List.zipIdx_map_snd 0 ts
  · unfold lexItems
    rw [List.map_map]
    exact List.zipIdx_map_fst 0 ts
  · intro it hit
    obtain ⟨q, -, rfl⟩ := List.mem_map.1 hit
    exact ⟨rfl, rfl⟩

theorem aux_ne (q : Char → Bool) : ∀ (l cur : List Char), cur ≠ [] → fieldsAux q cur l ≠ []
  | [], cur, h => by simp [fieldsAux, h]
  | c :: l, cur, h => by
    unfold fieldsAux
    split
    · simp
    · exact aux_ne q l _ (by simp)

theorem trim_of_fields (q : Char → Bool) (l : List Char) (h : fields q l = []) : trim q l = [] := by
  have : l.dropWhile q = [] := by
    unfold fields at h
    induction l with
    | nil => rfl
    | cons c l ih =>
      unfold fieldsAux at h
      split at h
      · rename_i hc
        rw [if_pos rfl] at h
        rw [List.dropWhile_cons, if_pos hc, ih h]
      · exact absurd h (aux_ne q l [c] (by simp))
  unfold trim
  rw [this]; rfl

theorem texts_ne (hs : u.space ' ' = true) (hn : u.space '\n' = true) (hr : u.space '\r' = true) (hb : blank u content = false) :
    texts u content opts ≠ [] := by
  intro h
  unfold texts at h
  rw [List.map_eq_nil_iff, Verif.Rag.C65_empty u.space hs hn hr] at h
  unfold blank at hb
  rw [decide_eq_false_iff_not] at hb
  exact hb (trim_of_fields u.space content.toList h)

/-- C159: without an embedder, a document with an id and a text that is not blank is ingested whenever the database accepts the writes: the graph then
holds it with all its chunks in their order, every chunk with the lexical vector of its text, and no other node or edge changes. -/
theorem C159_ingested (hc : u.letter ':' = false) (hp : u.letter '|' = false) (hb : blank u "related_to" = false)
    (hs : u.space ' ' = true) (hn : u.space '\n' = true) (hr : u.space '\r' = true) (vec : String → List ℚ)
    (hvec : ∀ t, vec t ≠ []) (h1 : doc ≠ "") (h2 : blank u content = false)
    (hw : f.recordOk = true ∧ f.rowsOk = true ∧ f.c1 = true ∧ f.c3 = true) :
    ∃ s' r, ingestDocument u p vec f opts doc title content s = (s', .ok r) ∧
      Holds s' doc (firstNonEmpty u title content) (texts u content opts) ∧ r.doc = docId doc ∧
      r.chunks = (List.range (texts u content opts).length).map (chunkId doc) ∧
      (∀ (i : Nat) t, (texts u content opts)[i]? = some t → ∃ n, getNode s' (chunkId doc i) = some n ∧ n.vec = vec t) ∧
      (∀ id, id ≠ docId doc → (∀ i, id ≠ chunkId doc i) → getNode s' id = getNode s id) ∧
      ∀ e ∈ s'.edges, e ∈ s.edges ∨ Adds u (fun _ => some none) doc (texts u content opts) e := by
  have h3 := texts_ne (opts := opts) hs hn hr h2
  have hf : Fine u keep := ⟨hc, hp, hb, fun _ => List.Perm.refl _, fun _ => List.Perm.refl _, fun _ => List.Perm.refl _⟩
  obtain ⟨w1, w2, w3, w4⟩ := hw
  obtain ⟨i1, i2, i3⟩ := lexItems_ok vec (texts u content opts)
  set its := lexItems vec (texts u content opts) with hits
  set dn := docNode u p doc title content (vec (firstNonEmpty u title content)) with hdn
  have hid : dn.id ≠ "" := (ne_empty u doc "" 0).2.1
  have hv : dn.vec ≠ [] := hvec _
  have hu : upsertNode s (some dn) = ({ s with nodes := putNode s.nodes dn, index := reindex s.index dn }, true) := by
    unfold upsertNode
    simp only
    rw [if_neg hid, if_neg hv]
  set s1 : State := { s with nodes := putNode s.nodes dn, index := reindex s.index dn } with hs1
  have hd : getNode s1 (docId doc) = some dn := by
    unfold getNode
    rw [hs1]
    simp only
    rw [find_put, if_pos (show dn.id = docId doc from rfl)]
  have hfr : ∀ id, id ≠ docId doc → getNode s1 id = getNode s id := by
    intro id hne
    unfold getNode
    rw [hs1]
    simp only
    rw [find_put, if_neg (show ¬ dn.id = id from fun h => hne h.symm)]
  have heq : ingestDocument u p vec f opts doc title content s = store u p (fun _ => some []) keep f doc its s1 := by
    rw [ingest_eq doc its (fun it hit => (i3 it hit).2) s1]
    unfold ingestDocument
    rw [if_neg (by rintro (h | h); exact h1 h; rw [h2] at h; cases h)]
    simp only
    rw [if_neg h3, if_neg (by rw [w1]; simp), ← hdn, hu]
    simp only
    rfl
  have hok : ∃ s' r, store u p (fun _ => some []) keep f doc its s1 = (s', .ok r) := by
    rw [ingest_eq doc its (fun it hit => (i3 it hit).2) s1, if_neg (by rw [w2]; simp), w3, w4]
    have hne : its ≠ [] := by
      intro h
      rw [h] at i2
      exact h3 i2.symm
    have e1 : ∃ k, (upsertNodesBatch true s1 ((its.map (chunkNode p doc)).map some)).2 = some k := by
      unfold upsertNodesBatch
      split
      · exact ⟨_, rfl⟩
      · exact ⟨_, rfl⟩
    obtain ⟨k, hk⟩ := e1
    rw [hk]
    simp only
    have e2 : ∀ s2 : State, ∃ k, (upsertEdgesBatch f.fk true s2 ((its.flatMap (structEdges doc)).map some)).2 = some k := by
      intro s2
      unfold upsertEdgesBatch
      split
      · exact ⟨_, rfl⟩
      · exact ⟨_, rfl⟩
    obtain ⟨k', hk'⟩ := e2 (upsertNodesBatch true s1 ((its.map (chunkNode p doc)).map some)).1
    rw [hk']
    exact ⟨_, _, rfl⟩
  obtain ⟨s', r, hsr⟩ := hok
  obtain ⟨⟨ev, -, w⟩, rfl⟩ := store_ok hf (by rw [i1]; exact List.nodup_range') hd hsr
  refine ⟨s', _, heq.trans hsr, wrote_holds i1 i2 (fun it hit => by rw [(i3 it hit).1]; exact hvec _) w rfl, rfl, ?_, ?_, ?_, ?_⟩
  · show its.map (fun it => chunkId doc it.i) = _
    have : its.map (fun it => chunkId doc it.i) = (its.map Item.i).map (chunkId doc) := by rw [List.map_map]; rfl
    rw [this, i1, List.range_eq_range']
  · intro i t ht
    obtain ⟨it, hit, rfl, rfl⟩ := item_at i1 i2 ht
    exact ⟨_, (w.chunk it hit).trans (if_neg (by rw [(i3 it hit).1]; exact hvec _)), (i3 it hit).1⟩
  · intro id j1 j2
    rw [w.frame id j1 (fun it _ => j2 it.i) ?_, hfr id j1]
    intro e he
    obtain ⟨it, hit, n, hn, -⟩ := texts_mem he
    obtain ⟨y, hy, -⟩ := ents_some hn
    rw [(i3 it hit).2] at hy; cases hy
  · intro e he
    rcases (w.edges e).1 he with ⟨ha, -⟩ | ⟨ha, -⟩
    · right
      obtain ⟨it, hit, hcase⟩ := all_mem hf ha
      refine ⟨it.i, it.text, none, item_pos i1 i2 hit, rfl, ?_⟩
      rcases hcase with rfl | ⟨hi, rfl⟩ | ⟨n, hn, -, -⟩ | ⟨q, hq, -, -, -⟩
      · exact Or.inl ⟨rfl, rfl, rfl, rfl⟩
      · exact Or.inr (Or.inl ⟨hi, rfl, rfl, rfl, rfl⟩)
      · obtain ⟨y, hy, -⟩ := ents_some hn
        rw [(i3 it hit).2] at hy; cases hy
      · obtain ⟨y, hy, -⟩ := rels_some hq
        rw [(i3 it hit).2] at hy; cases hy
    · exact Or.inl ha

/-- C159: the dimension of the vectors is positive, and is that of the collection when the collection has one. -/
theorem C159_dimension (c : Option Int) (config : Int) :
    0 < lexDim c config ∧ (∀ d : Nat, 0 < d → c = some d → lexDim c config = d) ∧
    (∀ d : Nat, 0 < d → config = d → (∀ k, c = some k → k ≤ 0) → lexDim c config = d) ∧
    ((∀ k, c = some k → k ≤ 0) → config ≤ 0 → lexDim c config = 64) := by
  unfold lexDim
  refine ⟨?_, ?_, ?_, ?_⟩
  · cases c with
    | none => simp only; split <;> omega
    | some d => simp only; split <;> (try split) <;> omega
  · rintro d hd rfl
    show (if (d : Int) > 0 then (d : Int).toNat else _) = d
    rw [if_pos (by omega)]
    simp
  · rintro d hd rfl hk
    cases c with
    | none => simp only; rw [if_pos (by omega)]; simp
    | some k =>
      have := hk k rfl
      simp only
      rw [if_neg (by omega), if_pos (by omega)]; simp
  · intro hk h
    cases c with
    | none => simp only; rw [if_neg (by omega)]
    | some k =>
      have := hk k rfl
      simp only
      rw [if_neg (by omega), if_neg (by omega)]

/-! ### C160: the vector of the document -/

theorem sum_bounds (l : List ℚ) (a b : ℚ) (h : ∀ x ∈ l, a ≤ x ∧ x ≤ b) : a * l.length ≤ l.sum ∧ l.sum ≤ b * l.length := by
  induction l with
  | nil => simp
  | cons x l ih =>
    obtain ⟨h1, h2⟩ := ih (fun y hy => h y (List.mem_cons_of_mem _ hy))
    obtain ⟨h3, h4⟩ := h x List.mem_cons_self
    rw [List.sum_cons, List.length_cons]
    push_cast
    constructor <;> nlinarith

/-- C160: the vector of the document has the embedder's dimension, and every coordinate lies between any bounds of that coordinate in the chunk
vectors; with one chunk it is the vector of the chunk. -/
theorem C160_mean (vs : List (List ℚ)) (dim : Nat) (hne : vs ≠ []) (hd : ∀ v ∈ vs, v.length = dim) :
    (average vs dim).length = dim ∧
    (∀ i a b, i < dim → (∀ v ∈ vs, ∀ x, v[i]? = some x → a ≤ x ∧ x ≤ b) → ∃ x, (average vs dim)[i]? = some x ∧ a ≤ x ∧ x ≤ b) ∧
    (∀ v, vs = [v] → average vs dim = v) := by
  refine ⟨by simp [average], ?_, ?_⟩
  · intro i a b hi h
    refine ⟨(vs.map (fun v => v.getD i 0)).sum / (if vs = [] then 1 else (vs.length : ℚ)), ?_, ?_⟩
    · unfold average
      rw [List.getElem?_map, List.getElem?_range hi]
      rfl
    · rw [if_neg hne]
      have hpos : (0 : ℚ) < (vs.length : ℚ) := by
        have : 0 < vs.length := List.length_pos_iff.2 hne
        exact_mod_cast this
      have := sum_bounds (vs.map (fun v => v.getD i 0)) a b (by
        intro x hx
        obtain ⟨v, hv, rfl⟩ := List.mem_map.1 hx
        have hl : i < v.length := by rw [hd v hv]; exact hi
        refine h v hv _ ?_
        rw [List.getD_eq_getElem?_getD, List.getElem?_eq_getElem hl]
        rfl)
      rw [List.length_map] at this
      exact ⟨(le_div_iff₀ hpos).2 this.1, (div_le_iff₀ hpos).2 this.2⟩
  · rintro v rfl
    have hv := hd v List.mem_cons_self
    apply List.ext_getElem
    · simp [average, hv]
    · intro i h1 h2
      simp [average, List.getD_eq_getElem?_getD, h2]

/-- `m` is the mean of the vectors `vs`, coordinate by coordinate. -/
def IsMean (vs : List (List ℚ)) (dim : Nat) (m : List ℚ) : Prop :=
  m.length = dim ∧ ∀ i x, m[i]? = some x → x * vs.length = (vs.map (fun v => v.getD i 0)).sum

/-- C160: after a successful ingestion the node of the document holds the mean of the vectors the embedder gave for the chunks, and a chunk
whose vector is not empty holds that vector. -/
theorem C160_stored (hf : Fine u o) (h : insertDocument u p embed dim extract o f opts doc title content s = (s', .ok r)) :
    ∃ vs, embed (texts u content opts) = some vs ∧ (∃ n, getNode s' (docId doc) = some n ∧ IsMean vs dim n.vec) ∧
      ∀ i < (texts u content opts).length, ∃ v, vs[i]? = some v ∧
        (v ≠ [] → ∃ n, getNode s' (chunkId doc i) = some n ∧ n.vec = v) := by
  obtain ⟨vs, its, ev, h0, -, h1, h2, h3, -, w, rfl⟩ := insert_ok hf h
  refine ⟨vs, h0, ⟨_, w.root, by simp [docNode, average], ?_⟩, ?_⟩
  · intro i x hx
    change (average vs dim)[i]? = some x at hx
    by_cases hv : vs = []
    · subst hv
      simp [average] at hx ⊢
    · have hpos : (vs.length : ℚ) ≠ 0 := by
        have : 0 < vs.length := List.length_pos_iff.2 hv
        exact_mod_cast this.ne'
      unfold average at hx
      rw [List.getElem?_map, if_neg hv] at hx
      rcases Nat.lt_or_ge i dim with hi | hi
      · rw [List.getElem?_range hi, Option.map_some, Option.some.injEq] at hx
        rw [← hx, div_mul_cancel₀ _ hpos]
      · rw [List.getElem?_eq_none (by simpa using hi)] at hx
        cases hx
  · intro i hi
    obtain ⟨it, hit, rfl, -⟩ := item_at h1 h2 (List.getElem?_eq_getElem hi)
    refine ⟨it.vec, (h3 it hit).1, fun hv => ⟨_, (w.chunk it hit).trans (if_neg hv), rfl⟩⟩

/-! ### Examples -/

/-- ASCII letters. -/
def uni0 : Uni := ⟨Char.toLower, Char.isAlphanum, fun c => c == ' ' || c == '\n' || c == '\r'⟩

/-- Two words to a chunk; the extractor finds one entity and a relation to another that is no entity. -/
def out0 : State × Out Result :=
  insertDocument uni0 (fun _ => "") (fun l => some (l.map (fun _ => [1, 2]))) 2
    (fun t => some (some ⟨[⟨t, ""⟩], [⟨t, "zz", "", 0⟩]⟩)) keep ⟨true, true, true, true, true, true⟩ ⟨2, 0⟩ "d" "" "aa bb cc" init

theorem fine0 : Fine uni0 keep :=
  ⟨by decide, by decide, by decide +kernel, fun _ => List.Perm.refl _, fun _ => List.Perm.refl _, fun _ => List.Perm.refl _⟩

/-- The hypotheses of C155 to C157 are met: the call succeeds, keeps both chunks and both entities, and drops the two relations. -/
example : (∃ r, out0.2 = .ok r ∧ r.chunks.length = 2 ∧ r.ents.length = 2) ∧ out0.1.edges.length = 5 ∧
    (∀ l vs (i : Nat), (fun l : List String => some (l.map (fun _ => [(1 : ℚ), 2]))) l = some vs → i < l.length → vs[i]? ≠ some []) ∧
    ∀ l vs, (fun l : List String => some (l.map (fun _ => [(1 : ℚ), 2]))) l = some vs → vs = l.map (fun _ => [1, 2]) := by
  refine ⟨⟨_, rfl, ?_, ?_⟩, ?_, ?_, ?_⟩
  · decide +kernel
  · decide +kernel
  · decide +kernel
  · intro l vs i h hi
    simp only [Option.some.injEq] at h
    subst h
    simp [List.getElem?_replicate, hi]
  · intro l vs h
    simp only [Option.some.injEq] at h
    exact h.symm

/-- The hypotheses of the C155 and C156 violations are met: the embedder has no vector for "cc". The call succeeds and lists two chunks and two
entities, of which the graph has one each. -/
def out1 : State × Out Result :=
  insertDocument uni0 (fun _ => "") (fun l => some (l.map (fun t => if t = "cc" then [] else [1, 2]))) 2
    (fun t => some (some ⟨[⟨t, ""⟩], []⟩)) keep ⟨true, true, true, true, true, true⟩ ⟨2, 0⟩ "d" "" "aa bb cc" init

example : (∃ r, out1.2 = .ok r ∧ r.chunks.length = 2 ∧ r.ents.length = 2 ∧ entityNode uni0 "cc" ∈ r.ents) ∧ out1.1.nodes.length = 3 ∧
    (texts uni0 "aa bb cc" ⟨2, 0⟩)[1]? = some "cc" ∧ getNode out1.1 (chunkId "d" 1) = none ∧ getNode out1.1 (entityNode uni0 "cc") = none := by
  refine ⟨⟨_, rfl, ?_, ?_, ?_⟩, ?_, ?_, ?_, ?_⟩ <;> decide +kernel

/-- The hypotheses of C157_dropped_violated are met by the same call. -/
example : Closed init ∧ getNode init (entityNode uni0 "zz") = none ∧
    (∀ t ∈ texts uni0 "aa bb cc" ⟨2, 0⟩, ∀ y, (fun t : String => some (some (⟨[⟨t, ""⟩], [⟨t, "zz", "", 0⟩]⟩ : Extraction))) t = some (some y) →
      ∀ n ∈ y.ents, blank uni0 n.name = false → entityNode uni0 n.name ≠ entityNode uni0 "zz") := by
  refine ⟨fun e he => (nomatch he), rfl, ?_⟩
  intro t ht y hy n hn _
  simp only [Option.some.injEq] at hy
  subst hy
  rw [List.mem_singleton] at hn
  subst hn
  have h : ∀ t ∈ texts uni0 "aa bb cc" ⟨2, 0⟩, entityNode uni0 t ≠ entityNode uni0 "zz" := by decide +kernel
  exact h t ht

/-- The hypotheses of the C158 theorems are met: two chunks, the extractor fails on the second; an embedder that answers with one vector. -/
example : "d" ≠ "" ∧ blank uni0 "aa bb cc" = false ∧ (texts uni0 "aa bb cc" ⟨2, 0⟩).length = 2 ∧
    (∃ t ∈ texts uni0 "aa bb cc" ⟨2, 0⟩, (fun t => if t = "cc" then none else some (none : Option Extraction)) t = none) := by decide +kernel

/-- The hypotheses of C159 are met. -/
example : uni0.letter ':' = false ∧ uni0.letter '|' = false ∧ blank uni0 "related_to" = false ∧ uni0.space ' ' = true ∧ uni0.space '\n' = true ∧
    uni0.space '\r' = true ∧ blank uni0 "aa bb" = false := by decide +kernel

/-- Two chunks: the mean. -/
example : average [[1, 4], [3, 0]] 2 = [2, 2] := by decide +kernel

end Verif.Ingest
