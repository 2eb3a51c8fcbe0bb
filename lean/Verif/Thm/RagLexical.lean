import Verif.Thm.RagSearch
import Verif.Thm.Lexical

/-!
Properties of the lexical retrieval over chunks and the graph (C138, C139) and of the chunk tools (C140).
-/
namespace Verif.RagSearch
open Verif.Base Verif.Rag Verif.Spec

/-! ### The chunks seen so far -/

/-- `c` is what several sightings of a chunk amount to: the text of one of them and the best score. -/
structure Sum (occ : List Chunk) (c : Chunk) : Prop where
  text : ∃ x ∈ occ, x.id = c.id ∧ x.doc = c.doc ∧ x.content = c.content
  attained : ∃ x ∈ occ, x.id = c.id ∧ c.score = x.score
  best : ∀ x ∈ occ, x.id = c.id → x.score ≤ c.score

structure LexInv (occ : List Chunk) (sds : List Text) (a : Acc) : Prop where
  nodup : (a.results.map Chunk.id).Nodup
  seeds : a.seeds.Nodup ∧ ∀ i, i ∈ a.seeds ↔ i ∈ sds
  what : ∀ c ∈ a.results, Sum occ c
  all : ∀ x ∈ occ, x.id ∈ a.results.map Chunk.id

theorem sum_skip {occ : List Chunk} {c x : Chunk} (h : Sum occ c) (hx : x.id = c.id → x.score ≤ c.score) : Sum (occ ++ [x]) c where
  text := by obtain ⟨y, hy, r⟩ := h.text; exact ⟨y, List.mem_append_left _ hy, r⟩
  attained := by obtain ⟨y, hy, r⟩ := h.attained; exact ⟨y, List.mem_append_left _ hy, r⟩
  best := by
    intro y hy
    rcases List.mem_append.1 hy with h1 | h1
    · exact h.best y h1
    · rw [List.mem_singleton.1 h1]; exact hx

theorem inv_add {occ : List Chunk} {sds : List Text} {a : Acc} (h : LexInv occ sds a) (x : Chunk) (seed : Bool) :
    LexInv (occ ++ [x]) (if seed then sds ++ [x.id] else sds) (addChunk a x seed) := by
  have hseeds : (addChunk a x seed).seeds.Nodup ∧
      ∀ i, i ∈ (addChunk a x seed).seeds ↔ i ∈ (if seed then sds ++ [x.id] else sds) := by
    unfold addChunk
    cases seed with
    | false => exact h.seeds
    | true =>
      simp only [if_true]
      by_cases hx : x.id ∈ a.seeds
      · rw [if_pos hx]
        refine ⟨h.seeds.1, fun i => ?_⟩
        rw [List.mem_append, List.mem_singleton, ← h.seeds.2]
        constructor
        · exact Or.inl
        · rintro (h1 | rfl)
          · exact h1
          · exact hx
      · rw [if_neg hx]
        refine ⟨?_, fun i => ?_⟩
        · rw [List.nodup_append]
          refine ⟨h.seeds.1, by simp, ?_⟩
          intro p hp q hq hpq
          rw [List.mem_singleton.1 hq] at hpq
          exact hx (hpq ▸ hp)
        · rw [List.mem_append, List.mem_append, h.seeds.2]
  have hres : (addChunk a x seed).results = match look a.results x.id with
    | none => put a.results { x with entities := [], rerank := 0 }
    | some r => if x.score > r.score then put a.results { r with score := x.score } else a.results := rfl
  cases hl : look a.results x.id with
  | none =>
    rw [hl] at hres
    simp only at hres
    have hno := look_none hl
    refine ⟨by rw [hres]; exact put_nodup _ _ h.nodup, hseeds, ?_, ?_⟩
    · intro c hc
      rw [hres] at hc
      rcases (mem_put _ _ _).1 hc with rfl | ⟨h1, h2⟩
      · refine ⟨⟨x, by simp, rfl, rfl, rfl⟩, ⟨x, by simp, rfl, rfl⟩, ?_⟩
        intro y hy hi
        rcases List.mem_append.1 hy with h3 | h3
        · exact absurd (hi ▸ h.all y h3) hno
        · rw [List.mem_singleton.1 h3]
      · exact sum_skip (h.what c h1) (fun h3 => absurd h3.symm h2)
    · intro y hy
      rw [hres, put_ids]
      rcases List.mem_append.1 hy with h3 | h3
      · exact Or.inr (h.all y h3)
      · rw [List.mem_singleton.1 h3]; exact Or.inl rfl
  | some r =>
    rw [hl] at hres
    simp only at hres
    obtain ⟨hr1, hr2⟩ := look_some hl
    have hrs := h.what r hr1
    by_cases hgt : x.score > r.score
    · rw [if_pos hgt] at hres
      refine ⟨by rw [hres]; exact put_nodup _ _ h.nodup, hseeds, ?_, ?_⟩
      · intro c hc
        rw [hres] at hc
        rcases (mem_put _ _ _).1 hc with rfl | ⟨h1, h2⟩
        · refine ⟨?_, ⟨x, by simp, hr2.symm, rfl⟩, ?_⟩
          · obtain ⟨y, h3, h4⟩ := hrs.text
            exact ⟨y, List.mem_append_left _ h3, h4⟩
          · intro y hy hi
            rcases List.mem_append.1 hy with h3 | h3
            · exact (hrs.best y h3 hi).trans hgt.le
            · rw [List.mem_singleton.1 h3]
        · exact sum_skip (h.what c h1) (fun h3 => absurd (h3.symm.trans hr2.symm) h2)
      · intro y hy
        rw [hres, put_ids]
        rcases List.mem_append.1 hy with h3 | h3
        · exact Or.inr (h.all y h3)
        · rw [List.mem_singleton.1 h3]; exact Or.inl hr2.symm
    · rw [if_neg hgt] at hres
      refine ⟨by rw [hres]; exact h.nodup, hseeds, ?_, ?_⟩
      · intro c hc
        rw [hres] at hc
        refine sum_skip (h.what c hc) (fun h3 => ?_)
        rw [id_inj h.nodup hc hr1 (h3.symm.trans hr2.symm)]
        exact not_lt.1 hgt
      · intro y hy
        rw [hres]
        rcases List.mem_append.1 hy with h3 | h3
        · exact h.all y h3
        · rw [List.mem_singleton.1 h3, ← hr2]; exact List.mem_map_of_mem hr1

theorem inv_adds {occ : List Chunk} {sds : List Text} {a : Acc} (h : LexInv occ sds a) (f : Chunk → Chunk) (xs : List Chunk) :
    LexInv (occ ++ xs.map f) (sds ++ xs.map (fun x => (f x).id)) (xs.foldl (fun a x => addChunk a (f x) true) a) := by
  induction xs generalizing occ sds a with
  | nil => simpa using h
  | cons x xs ih =>
    have := ih (inv_add h (f x) true)
    simpa using this

theorem add_entities (a : Acc) (x : Chunk) (b : Bool) : (addChunk a x b).entities = a.entities := rfl

/-- The chunk a linked node stands for. -/
def linkedChunk (n : Near) : Chunk := ⟨n.id, n.doc, n.content, 1 / 2, [], 0⟩

/-- The linked chunks among neighbours. -/
def linkedOf (ns : List Near) : List Chunk := (ns.filter (fun n => decide (n.ntype = chunkType))).map linkedChunk

theorem inv_touchLex {occ : List Chunk} {sds : List Text} {a : Acc} (h : LexInv occ sds a) (ns : List Near) :
    LexInv (occ ++ linkedOf ns) sds (ns.foldl touchLex a) := by
  induction ns generalizing occ a with
  | nil => simpa [linkedOf] using h
  | cons n ns ih =>
    rw [List.foldl_cons]
    by_cases h1 : n.ntype = entityType
    · have h2 : n.ntype ≠ chunkType := by rw [h1]; exact types_differ
      have e : linkedOf (n :: ns) = linkedOf ns := by simp [linkedOf, h2]
      rw [e]
      apply ih
      unfold touchLex
      rw [if_pos h1]
      exact ⟨h.nodup, h.seeds, h.what, h.all⟩
    · by_cases h2 : n.ntype = chunkType
      · have e : linkedOf (n :: ns) = linkedChunk n :: linkedOf ns := by simp [linkedOf, h2]
        rw [e]
        have := ih (inv_add h (linkedChunk n) false)
        have e2 : touchLex a n = addChunk a (linkedChunk n) false := by
          unfold touchLex
          rw [if_neg h1, if_pos h2]
          rfl
        rw [e2]
        simpa using this
      · have e : linkedOf (n :: ns) = linkedOf ns := by simp [linkedOf, h2]
        rw [e]
        apply ih
        unfold touchLex
        rw [if_neg h1, if_neg h2]
        exact h

theorem inv_expandAll (w : World) (l : List Text) : ∀ {occ : List Chunk} {sds : List Text} {a b : Acc}, LexInv occ sds a →
    expandAll w a l = some b →
    LexInv (occ ++ l.flatMap (fun i => linkedOf ((w.expand i).getD []))) sds b ∧ ∀ i ∈ l, (w.expand i).isSome := by
  induction l with
  | nil =>
    intro occ sds a b h hb
    simp only [expandAll, Option.some.injEq] at hb
    subst hb
    exact ⟨by simpa using h, by simp⟩
  | cons i l ih =>
    intro occ sds a b h hb
    cases hx : w.expand i with
    | none => simp [expandAll, hx] at hb
    | some ns =>
      simp only [expandAll, hx] at hb
      obtain ⟨h1, h2⟩ := ih (inv_touchLex h ns) hb
      refine ⟨by simpa [hx] using h1, ?_⟩
      intro j hj
      rcases List.mem_cons.1 hj with rfl | h3
      · rw [hx]; rfl
      · exact h2 j h3

theorem lex_init : LexInv [] [] ⟨[], [], []⟩ := ⟨List.nodup_nil, ⟨List.nodup_nil, by simp⟩, by simp, by simp⟩

theorem filterMap_look_ids (all : List Chunk) (hn : (all.map Chunk.id).Nodup) (is : List Text)
    (h : ∀ i ∈ is, i ∈ all.map Chunk.id) : (is.filterMap (look all)).map Chunk.id = is ∧ ∀ c ∈ is.filterMap (look all), c ∈ all := by
  constructor
  · induction is with
    | nil => rfl
    | cons i is ih =>
      obtain ⟨c, hc, he⟩ := List.mem_map.1 (h i List.mem_cons_self)
      have hl : look all i = some c := by rw [← he]; exact look_mem hn hc
      rw [List.filterMap_cons, hl]
      simp only [List.map_cons, he]
      rw [ih (fun j hj => h j (List.mem_cons_of_mem _ hj))]
  · intro c hc
    obtain ⟨s, _, hl⟩ := List.mem_filterMap.1 hc
    exact (look_some hl).1

/-- The seeds of a lexical search: hits by text and, if the graph is used and there are names, hits by entity with a floor. -/
def lexSeeds (L : Lib) (ug : Bool) (q : Text) (entityNames : List Text) (ts : List Chunk)
    (byEnt : List Text → Option (List Chunk)) : Option (List Chunk) :=
  let en := if ug = true ∧ entityNames.length = 0 then L.names q else entityNames
  if ug = true ∧ en.length > 0 then (byEnt en).map (fun cs => ts ++ cs.map floorScore) else some ts

theorem seeds_inv (ts cs : List Chunk) :
    LexInv (ts ++ cs.map floorScore) ((ts ++ cs.map floorScore).map Chunk.id)
      (cs.foldl (fun a c => addChunk a (floorScore c) true) (ts.foldl (fun a c => addChunk a c true) ⟨[], [], []⟩)) := by
  have h1 := inv_adds lex_init id ts
  simp only [List.nil_append, List.map_id, id] at h1
  have h2 := inv_adds h1 floorScore cs
  rw [List.map_append, List.map_map]
  exact h2

/-- Shape of a lexical search that uses the graph and answers with chunks. -/
theorem lex_graph_eq {L : Lib} {w : World} {m : Mode} {dis : Bool} {o : QueryOpts} {q : Text} {en : List Text} {ts : List Chunk}
    {byEnt : List Text → Option (List Chunk)} {r : Result} (hug : useGraph m dis (L.names q) en = true)
    (h : searchLexical L w m dis o q en (some ts) byEnt = some r) :
    ∃ occ, lexSeeds L true q en ts byEnt = some occ ∧ ((occ = [] ∧ r.chunks = []) ∨
      ∃ a b all, LexInv occ (occ.map Chunk.id) a ∧ expandAll w a a.seeds = some b ∧ attach w b.results = some all ∧
        r.chunks = pack (queryDefaults o) (rerank L.tok q (L.qe q) (queryDefaults o)
          (b.seeds.filterMap (look all) ++ related L (queryDefaults o) b.seeds all)) ∧ r.context = buildContext r.chunks) := by
  have hd : queryDefaults { o with rerank := true } = queryDefaults o := by
    unfold queryDefaults; cases o.rerank <;> rfl
  unfold searchLexical at h
  simp only [hug, hd] at h
  unfold lexSeeds
  simp only [true_and] at h ⊢
  have key : ∀ (occ : List Chunk) (a : Acc), LexInv occ (occ.map Chunk.id) a →
      (if a.seeds = [] then some (⟨[], if (true : Bool) = true then L.keys [] else [], []⟩ : Result)
      else if (true : Bool) = false then
        some ⟨pack (queryDefaults o) (rerank L.tok q (L.qe q) (queryDefaults o) (a.seeds.filterMap (look a.results))), [],
          buildContext (pack (queryDefaults o) (rerank L.tok q (L.qe q) (queryDefaults o) (a.seeds.filterMap (look a.results))))⟩
      else match expandAll w a a.seeds with
        | none => none
        | some b => match attach w b.results with
          | none => none
          | some all =>
            some ⟨pack (queryDefaults o) (rerank L.tok q (L.qe q) (queryDefaults o)
                (b.seeds.filterMap (look all) ++ related L (queryDefaults o) b.seeds all)),
              L.keys (b.entities ++ all.flatMap (·.entities)),
              buildContext (pack (queryDefaults o) (rerank L.tok q (L.qe q) (queryDefaults o)
                (b.seeds.filterMap (look all) ++ related L (queryDefaults o) b.seeds all)))⟩) = some r →
      ((occ = [] ∧ r.chunks = []) ∨
      ∃ a b all, LexInv occ (occ.map Chunk.id) a ∧ expandAll w a a.seeds = some b ∧ attach w b.results = some all ∧
        r.chunks = pack (queryDefaults o) (rerank L.tok q (L.qe q) (queryDefaults o)
          (b.seeds.filterMap (look all) ++ related L (queryDefaults o) b.seeds all)) ∧ r.context = buildContext r.chunks) := by
    intro occ a ha hr
    by_cases hs : a.seeds = []
    · rw [if_pos hs, Option.some.injEq] at hr
      left
      refine ⟨?_, by rw [← hr]⟩
      cases occ with
      | nil => rfl
      | cons c cs =>
        have := (ha.seeds.2 c.id).2 (by simp)
        rw [hs] at this
        cases this
    · rw [if_neg hs, if_neg (by simp)] at hr
      right
      cases hx : expandAll w a a.seeds with
      | none => rw [hx] at hr; simp at hr
      | some b =>
        rw [hx] at hr
        simp only at hr
        cases hat : attach w b.results with
        | none => rw [hat] at hr; simp at hr
        | some all =>
          rw [hat] at hr
          simp only [Option.some.injEq] at hr
          subst hr
          exact ⟨a, b, all, ha, hx, hat, rfl, rfl⟩
  have h0 := seeds_inv ts []
  simp only [List.map_nil, List.append_nil, List.foldl_nil] at h0
  by_cases hen : (if en.length = 0 then L.names q else en).length > 0
  · rw [if_pos hen]
    rw [if_pos hen] at h
    cases hb : byEnt (if en.length = 0 then L.names q else en) with
    | none => rw [hb] at h; simp at h
    | some cs =>
      rw [hb] at h
      simp only [Option.map_some] at h
      exact ⟨_, rfl, key _ _ (seeds_inv ts cs) h⟩
  · rw [if_neg hen]
    rw [if_neg hen] at h
    exact ⟨ts, rfl, key _ _ h0 h⟩

/-! ### C139 -/

/-- A sighting of a chunk: a seed, or a chunk the graph returns around a seed, which counts one half. -/
def Sighting (w : World) (seeds : List Chunk) (x : Chunk) : Prop :=
  x ∈ seeds ∨ ∃ s n, Links w seeds s n ∧ x.id = n.id ∧ x.doc = n.doc ∧ x.content = n.content ∧ x.score = 1 / 2

theorem mem_linkedOf (ns : List Near) (x : Chunk) : x ∈ linkedOf ns ↔ ∃ n ∈ ns, n.ntype = chunkType ∧ x = linkedChunk n := by
  unfold linkedOf
  rw [List.mem_map]
  constructor
  · rintro ⟨n, h1, rfl⟩
    rw [List.mem_filter, decide_eq_true_eq] at h1
    exact ⟨n, h1.1, h1.2, rfl⟩
  · rintro ⟨n, h1, h2, rfl⟩
    exact ⟨n, by rw [List.mem_filter, decide_eq_true_eq]; exact ⟨h1, h2⟩, rfl⟩

structure LexCand (w : World) (occ : List Chunk) (d : QueryOpts) (seeds : List Text) (all cand : List Chunk) : Prop where
  nodup : (cand.map Chunk.id).Nodup
  ents : ∀ c ∈ all, w.ents c.id = some c.entities
  sub : ∀ c ∈ cand, c ∈ all
  text : ∀ c ∈ all, ∃ x, Sighting w occ x ∧ x.id = c.id ∧ x.doc = c.doc ∧ x.content = c.content
  attained : ∀ c ∈ all, ∃ x, Sighting w occ x ∧ x.id = c.id ∧ x.score = c.score
  best : ∀ c ∈ all, ∀ x, Sighting w occ x → x.id = c.id → x.score ≤ c.score
  present : ∀ x, Sighting w occ x → x.id ∈ all.map Chunk.id
  seedIn : ∀ x ∈ occ, x.id ∈ cand.map Chunk.id
  cut : ∀ c ∈ all, c ∉ cand → ∃ l : List Chunk, (l.length : Int) = d.maxRelated ∧ (∀ x ∈ l, x ∈ cand ∧ c.score ≤ x.score)

theorem lexCand_spec (L : Lib) (hL : Sorts L) (w : World) (o : QueryOpts) (occ : List Chunk) (a b : Acc)
    (ha : LexInv occ (occ.map Chunk.id) a) (hb : expandAll w a a.seeds = some b) (all : List Chunk)
    (hall : attach w b.results = some all) :
    LexCand w occ (queryDefaults o) b.seeds all (b.seeds.filterMap (look all) ++ related L (queryDefaults o) b.seeds all) := by
  obtain ⟨hi, hx⟩ := inv_expandAll w a.seeds ha hb
  set occ' := occ ++ a.seeds.flatMap (fun i => linkedOf ((w.expand i).getD [])) with hocc
  have hsight1 : ∀ x, Sighting w occ x → ∃ y ∈ occ', y.id = x.id ∧ y.doc = x.doc ∧ y.content = x.content ∧ y.score = x.score := by
    rintro x (h1 | ⟨s, n, ⟨h1, h2, l, h3, h4⟩, h5, h6, h7, h8⟩)
    · exact ⟨x, List.mem_append_left _ h1, rfl, rfl, rfl, rfl⟩
    · refine ⟨linkedChunk n, ?_, h5.symm, h6.symm, h7.symm, h8.symm⟩
      apply List.mem_append_right
      rw [List.mem_flatMap]
      refine ⟨s.id, (ha.seeds.2 _).2 (List.mem_map_of_mem h1), (mem_linkedOf _ _).2 ⟨n, ?_, h2, rfl⟩⟩
      rw [h3]; exact h4
  have hsight2 : ∀ x ∈ occ', Sighting w occ x := by
    intro x hxm
    rcases List.mem_append.1 hxm with h1 | h1
    · exact Or.inl h1
    · obtain ⟨i, h2, h3⟩ := List.mem_flatMap.1 h1
      obtain ⟨n, h4, h5, rfl⟩ := (mem_linkedOf _ _).1 h3
      obtain ⟨s, h6, rfl⟩ := List.mem_map.1 ((ha.seeds.2 _).1 h2)
      cases he : w.expand s.id with
      | none => rw [he] at h4; simp at h4
      | some l =>
        rw [he] at h4
        exact Or.inr ⟨s, n, ⟨h6, h5, l, he, h4⟩, rfl, rfl, rfl, rfl⟩
  obtain ⟨h1, h2, h3⟩ := attach_spec w _ hall
  have hnall : (all.map Chunk.id).Nodup := h1 ▸ hi.nodup
  have hseed : ∀ i ∈ b.seeds, i ∈ all.map Chunk.id := by
    intro i h4
    obtain ⟨x, h5, rfl⟩ := List.mem_map.1 ((hi.seeds.2 i).1 h4)
    rw [h1]
    exact hi.all x (List.mem_append_left _ h5)
  obtain ⟨hf1, hf2⟩ := filterMap_look_ids all hnall b.seeds hseed
  have hmax : 1 ≤ (queryDefaults o).maxRelated := (C66_defaults o).2.2.1
  set pool := all.filter (fun c => decide (c.id ∉ b.seeds)) with hpool
  obtain ⟨hperm, hord⟩ := hL pool
  have htop := isTopK_take (fun c : Chunk => c.score) pool (L.sort pool) (queryDefaults o).maxRelated.toNat ⟨hperm, hord⟩
  have hrel : related L (queryDefaults o) b.seeds all = (L.sort pool).take (queryDefaults o).maxRelated.toNat := rfl
  have hrelpool : ∀ c ∈ related L (queryDefaults o) b.seeds all, c ∈ all ∧ c.id ∉ b.seeds := by
    intro c hc
    rw [hrel] at hc
    have := (hperm.mem_iff).1 (List.mem_of_mem_take hc)
    rw [hpool, List.mem_filter, decide_eq_true_eq] at this
    exact this
  refine ⟨?_, ?_, ?_, ?_, ?_, ?_, ?_, ?_, ?_⟩
  · rw [List.map_append, List.nodup_append, hf1]
    refine ⟨hi.seeds.1, ?_, ?_⟩
    · rw [hrel]
      refine List.Nodup.sublist ((List.take_sublist _ _).map _) ?_
      exact ((hperm.map Chunk.id).nodup_iff).2 (List.Nodup.sublist (List.filter_sublist.map _) hnall)
    · intro i h4 j h5 hij
      obtain ⟨c, h6, rfl⟩ := List.mem_map.1 h5
      exact (hrelpool c h6).2 (hij ▸ h4)
  · intro c hc
    obtain ⟨c0, h4, es, h5, rfl⟩ := h2 c hc
    exact h5
  · intro c hc
    rcases List.mem_append.1 hc with h4 | h4
    · exact hf2 c h4
    · exact (hrelpool c h4).1
  · intro c hc
    obtain ⟨c0, h4, es, h5, rfl⟩ := h2 c hc
    obtain ⟨x, h6, h7⟩ := (hi.what c0 h4).text
    exact ⟨x, hsight2 x h6, h7⟩
  · intro c hc
    obtain ⟨c0, h4, es, h5, rfl⟩ := h2 c hc
    obtain ⟨x, h6, h7, h8⟩ := (hi.what c0 h4).attained
    exact ⟨x, hsight2 x h6, h7, h8.symm⟩
  · intro c hc x hxs hxi
    obtain ⟨c0, h4, es, h5, rfl⟩ := h2 c hc
    obtain ⟨y, h6, h7, -, -, h8⟩ := hsight1 x hxs
    rw [← h8]
    exact (hi.what c0 h4).best y h6 (h7.trans hxi)
  · intro x hxs
    obtain ⟨y, h6, h7, -⟩ := hsight1 x hxs
    rw [h1, ← h7]
    exact hi.all y h6
  · intro x hxo
    rw [List.map_append, List.mem_append, hf1]
    exact Or.inl ((hi.seeds.2 _).2 (List.mem_map_of_mem hxo))
  · intro c hc hcn
    have hcs : c.id ∉ b.seeds := by
      intro hm
      apply hcn
      apply List.mem_append_left
      exact List.mem_filterMap.2 ⟨c.id, hm, look_mem hnall hc⟩
    have hcp : c ∈ pool := by
      rw [hpool, List.mem_filter, decide_eq_true_eq]
      exact ⟨hc, hcs⟩
    obtain ⟨rest, hr1, hr2⟩ := htop.best
    have hcr : c ∈ rest := by
      rcases List.mem_append.1 ((hr1.mem_iff).2 hcp) with h4 | h4
      · exact absurd (List.mem_append_right _ (hrel ▸ h4)) hcn
      · exact h4
    refine ⟨related L (queryDefaults o) b.seeds all, ?_, ?_⟩
    · have hlen := hr1.length_eq
      rw [List.length_append] at hlen
      have hsz := htop.size
      have hpos : 0 < rest.length := List.length_pos_of_mem hcr
      rw [hrel]
      omega
    · intro x hx
      exact ⟨List.mem_append_right _ hx, hr2 c hcr x (hrel ▸ hx)⟩

/-- C139: whatever the graph, the text hits and the entity hits: every chunk a lexical search returns is a text hit, an entity hit or a
chunk the graph returns around one; its text is that of such a sighting, its score the best over all of them (a text hit counts its text
score, an entity hit at least 3/4, a linked chunk 1/2), its entities those next to it; no chunk comes twice, the number of chunks keeps
within the budget and the context is that of the chunks. -/
theorem C139_sound (L : Lib) (hL : Sorts L) (w : World) (m : Mode) (dis : Bool) (o : QueryOpts) (q : Text) (en : List Text)
    (ts : List Chunk) (byEnt : List Text → Option (List Chunk)) (r : Result) (hug : useGraph m dis (L.names q) en = true)
    (h : searchLexical L w m dis o q en (some ts) byEnt = some r) :
    ∃ seeds, lexSeeds L true q en ts byEnt = some seeds ∧
    (∀ c ∈ r.chunks,
      (∃ x, Sighting w seeds x ∧ x.id = c.id ∧ x.doc = c.doc ∧ x.content = c.content) ∧
      (∃ x, Sighting w seeds x ∧ x.id = c.id ∧ x.score = c.score) ∧
      (∀ x, Sighting w seeds x → x.id = c.id → x.score ≤ c.score) ∧ w.ents c.id = some c.entities) ∧
    (r.chunks.map Chunk.id).Nodup ∧ (r.chunks.length : Int) ≤ (queryDefaults o).maxChunks ∧
    (seeds ≠ [] → r.context = buildContext r.chunks) := by
  obtain ⟨occ, h1, h2⟩ := lex_graph_eq hug h
  refine ⟨occ, h1, ?_⟩
  rcases h2 with ⟨h3, h4⟩ | ⟨a, b, all, h3, h4, h5, h6, h7⟩
  · rw [h4]
    have := (C66_defaults o).2.2.2.1
    refine ⟨by simp, by simp, by simp only [List.length_nil]; omega, fun hne => absurd h3 hne⟩
  · have hc := lexCand_spec L hL w o occ a b h3 h4 all h5
    obtain ⟨g1, g2, g3, -⟩ := ranked_spec L o q _ hc.nodup
    rw [← h6] at g1 g2 g3
    refine ⟨?_, g1, g2, fun _ => h7⟩
    intro c hcm
    obtain ⟨c', h8, h9⟩ := g3 c hcm
    have e1 : c.id = c'.id := (congrArg Chunk.id h9 : (bare c).id = (bare c').id)
    have e2 : c.doc = c'.doc := (congrArg Chunk.doc h9 : (bare c).doc = (bare c').doc)
    have e3 : c.content = c'.content := (congrArg Chunk.content h9 : (bare c).content = (bare c').content)
    have e4 : c.score = c'.score := (congrArg Chunk.score h9 : (bare c).score = (bare c').score)
    have e5 : c.entities = c'.entities := (congrArg Chunk.entities h9 : (bare c).entities = (bare c').entities)
    have h10 := hc.sub c' h8
    rw [e1, e2, e3, e4, e5]
    exact ⟨hc.text c' h10, hc.attained c' h10, hc.best c' h10, hc.ents c' h10⟩

/-! ### C138 -/

/-- The first chunk of a reranked list is the one with the best rerank score of all. -/
theorem rerank_head (tok : Text → Finset Text) (q : Text) (qe : Finset Text) (o : QueryOpts) (chunks : List Chunk) (hne : chunks ≠ []) :
    ∃ x, (rerank tok q qe (queryDefaults o) chunks).head? = some x ∧
      x ∈ List.zipWith (fun (c : Chunk) b => { c with rerank := rerankScore tok q qe b c }) chunks (normalize (chunks.map (·.score))) ∧
      ∀ y ∈ List.zipWith (fun (c : Chunk) b => { c with rerank := rerankScore tok q qe b c }) chunks (normalize (chunks.map (·.score))),
        y.rerank ≤ x.rerank := by
  obtain ⟨_, _, _, hm, _, _, hl, _⟩ := C66_defaults o
  have hlen := normalize_length (chunks.map (·.score))
  unfold rerank
  simp only
  have hpos : (List.zipWith (fun (c : Chunk) b => { c with rerank := rerankScore tok q qe b c }) chunks
      (normalize (chunks.map (·.score)))) ≠ [] := by
    intro h0
    have := congrArg List.length h0
    rw [List.length_zipWith, hlen, List.length_map] at this
    simp only [min_self, List.length_nil] at this
    exact hne (List.length_eq_zero_iff.1 this)
  generalize List.zipWith (fun (c : Chunk) b => { c with rerank := rerankScore tok q qe b c }) chunks
    (normalize (chunks.map (·.score))) = scored at hpos ⊢
  obtain ⟨n, hn⟩ : ∃ n, (queryDefaults o).maxChunks.toNat = n + 1 := ⟨(queryDefaults o).maxChunks.toNat - 1, by omega⟩
  rw [hn]
  cases scored with
  | nil => exact absurd rfl hpos
  | cons c cs =>
    obtain ⟨x, hx, hbest⟩ := bestIdx_spec
      (fun x => (queryDefaults o).lambda * x.rerank - (1 - (queryDefaults o).lambda) * maxRedundancy tok x []) c cs
    refine ⟨x, ?_, List.mem_of_getElem? hx, ?_⟩
    · simp only [selectLoop, hx]
      obtain ⟨t, rest, h1, -, -⟩ := selectLoop_spec tok (queryDefaults o).lambda n ([] ++ [x])
        ((c :: cs).eraseIdx (bestIdx (fun x => (queryDefaults o).lambda * x.rerank -
          (1 - (queryDefaults o).lambda) * maxRedundancy tok x []) (c :: cs)))
      rw [h1]; rfl
    · intro y hy
      have := hbest y hy
      simp only [maxRedundancy, List.foldl_nil, mul_zero, sub_zero] at this
      exact le_of_mul_le_mul_left this hl

theorem foldl_min_mem (xs : List ℚ) (x : ℚ) : xs.foldl (fun m s => if s < m then s else m) x ∈ x :: xs := by
  induction xs generalizing x with
  | nil => simp
  | cons a as ih =>
    rw [List.foldl_cons]
    split
    · exact List.mem_cons_of_mem _ (ih a)
    · rcases List.mem_cons.1 (ih x) with h | h
      · rw [h]; exact List.mem_cons_self
      · exact List.mem_cons_of_mem _ (List.mem_cons_of_mem _ h)

theorem foldl_max_mem (xs : List ℚ) (x : ℚ) : xs.foldl (fun m s => if s > m then s else m) x ∈ x :: xs := by
  induction xs generalizing x with
  | nil => simp
  | cons a as ih =>
    rw [List.foldl_cons]
    split
    · exact List.mem_cons_of_mem _ (ih a)
    · rcases List.mem_cons.1 (ih x) with h | h
      · rw [h]; exact List.mem_cons_self
      · exact List.mem_cons_of_mem _ (List.mem_cons_of_mem _ h)

/-- Normalising scores that are either 1/2 or at most 1/61, with both present: 1/2 becomes 1, the others at most 2/61. -/
theorem normalize_gap (l : List ℚ) (h0 : ∀ s ∈ l, 0 ≤ s) (h1 : ∀ s ∈ l, s = 1 / 2 ∨ s ≤ 1 / 61) (hbig : (1 / 2 : ℚ) ∈ l)
    (hsmall : ∃ s ∈ l, s ≤ 1 / 61) :
    ∃ f : ℚ → ℚ, normalize l = l.map f ∧ f (1 / 2) = 1 ∧ ∀ s ∈ l, s ≤ 1 / 61 → f s ≤ 2 / 61 := by
  cases l with
  | nil => cases hbig
  | cons x xs =>
    obtain ⟨t, ht1, ht2⟩ := hsmall
    have hle : ∀ s ∈ x :: xs, s ≤ 1 / 2 := by
      intro s hs
      rcases h1 s hs with h | h
      · exact h.le
      · linarith
    have hlo : ∀ y ∈ x :: xs, xs.foldl (fun m s => if s < m then s else m) x ≤ y := by
      intro y hy
      rcases List.mem_cons.1 hy with rfl | h
      · exact (foldl_min_le xs _).1
      · exact (foldl_min_le xs x).2 y h
    have hhi : ∀ y ∈ x :: xs, y ≤ xs.foldl (fun m s => if s > m then s else m) x := by
      intro y hy
      rcases List.mem_cons.1 hy with rfl | h
      · exact (foldl_max_le xs _).1
      · exact (foldl_max_le xs x).2 y h
    set lo := xs.foldl (fun m s => if s < m then s else m) x with hlod
    set hi := xs.foldl (fun m s => if s > m then s else m) x with hhid
    have hhi2 : hi = 1 / 2 := le_antisymm (hle _ (foldl_max_mem xs x)) (hhi _ hbig)
    have hlo0 : 0 ≤ lo := h0 _ (foldl_min_mem xs x)
    have hlot : lo ≤ 1 / 61 := (hlo t ht1).trans ht2
    have hgap : ¬ hi - lo < 1 / 1000000000 := by rw [hhi2]; intro h; linarith
    refine ⟨fun s => (s - lo) / (hi - lo), ?_, ?_, ?_⟩
    · unfold normalize
      simp only [← hlod, ← hhid, if_neg hgap]
    · simp only [hhi2]
      exact div_self (by intro h; linarith)
    · intro s hs hsle
      have hpos : 0 < hi - lo := by rw [hhi2]; linarith
      rw [div_le_iff₀ hpos, hhi2]
      have := h0 s hs
      linarith

/-- C138 is violated: take any lexical search that uses the graph and whose entities bring no hits. If the graph returns any chunk around
a text hit, then the first chunk of the answer is such a linked chunk: a text hit the graph does not link to another hit never comes
first, however well it matches, since a text hit scores at most 1/61 and a linked chunk 1/2. -/
theorem C138_text_hit_never_first_violated (L : Lib) (hL : Sorts L) (w : World) (m : Mode) (dis : Bool) (o : QueryOpts) (q : Text)
    (en : List Text) (ts : List Chunk) (byEnt : List Text → Option (List Chunk)) (r : Result)
    (hug : useGraph m dis (L.names q) en = true) (hbe : ∀ l, byEnt l = some [])
    (hts : ∀ c ∈ ts, 0 ≤ c.score ∧ c.score ≤ 1 / 61) (hlink : ∃ s n, Links w ts s n)
    (h : searchLexical L w m dis o q en (some ts) byEnt = some r) :
    ∃ c, r.chunks.head? = some c ∧ ∃ s n, Links w ts s n ∧ n.id = c.id := by
  obtain ⟨occ, h1, h2⟩ := lex_graph_eq hug h
  have hocc : occ = ts := by
    unfold lexSeeds at h1
    simp only [true_and, hbe, Option.map_some, List.map_nil, List.append_nil, ite_self, Option.some.injEq] at h1
    exact h1.symm
  subst hocc
  obtain ⟨s0, n0, hln⟩ := hlink
  have hne : occ ≠ [] := List.ne_nil_of_mem hln.1
  rcases h2 with ⟨h3, -⟩ | ⟨a, b, all, h3, h4, h5, h6, h7⟩
  · exact absurd h3 hne
  have hc := lexCand_spec L hL w o occ a b h3 h4 all h5
  set cand := b.seeds.filterMap (look all) ++ related L (queryDefaults o) b.seeds all with hcand
  -- scores are 1/2 for linked chunks and at most 1/61 for the others
  have hsig : ∀ x, Sighting w occ x → 0 ≤ x.score ∧ (x.score = 1 / 2 ∨ x.score ≤ 1 / 61) := by
    rintro x (hx | ⟨_, _, _, _, _, _, hx⟩)
    · exact ⟨(hts x hx).1, Or.inr (hts x hx).2⟩
    · rw [hx]; exact ⟨by norm_num, Or.inl rfl⟩
  have hall2 : ∀ c ∈ all, 0 ≤ c.score ∧ (c.score = 1 / 2 ∨ c.score ≤ 1 / 61) := by
    intro c hcm
    obtain ⟨x, g1, -, g3⟩ := hc.attained c hcm
    rw [← g3]; exact hsig x g1
  have hlinked : ∀ c ∈ all, c.score = 1 / 2 → ∃ s n, Links w occ s n ∧ n.id = c.id := by
    intro c hcm hcs
    obtain ⟨x, g1, g2, g3⟩ := hc.attained c hcm
    rcases g1 with g1 | ⟨s, n, g4, g5, -⟩
    · have := (hts x g1).2
      rw [g3, hcs] at this
      norm_num at this
    · exact ⟨s, n, g4, by rw [← g5, g2]⟩
  -- some linked chunk is a candidate
  have hbig : ∃ c ∈ cand, c.score = 1 / 2 := by
    obtain ⟨c, g1, g2⟩ := List.mem_map.1 (hc.present (linkedChunk n0) (Or.inr ⟨s0, n0, hln, rfl, rfl, rfl, rfl⟩))
    have g3 := hc.best c g1 (linkedChunk n0) (Or.inr ⟨s0, n0, hln, rfl, rfl, rfl, rfl⟩) g2.symm
    have g3 : (1 / 2 : ℚ) ≤ c.score := g3
    have g4 : c.score = 1 / 2 := by
      rcases (hall2 c g1).2 with g | g
      · exact g
      · linarith
    by_cases g5 : c ∈ cand
    · exact ⟨c, g5, g4⟩
    · obtain ⟨l, g6, g7⟩ := hc.cut c g1 g5
      have := (C66_defaults o).2.2.1
      cases l with
      | nil => simp only [List.length_nil] at g6; omega
      | cons x l =>
        obtain ⟨g8, g9⟩ := g7 x List.mem_cons_self
        refine ⟨x, g8, ?_⟩
        rcases (hall2 x (hc.sub x g8)).2 with g | g
        · exact g
        · rw [g4] at g9; linarith
  obtain ⟨big, hb1, hb2⟩ := hbig
  have hcne : cand ≠ [] := List.ne_nil_of_mem hb1
  obtain ⟨x, g1, g2, g3⟩ := rerank_head L.tok q (L.qe q) o cand hcne
  have hhead : r.chunks.head? = some x := by
    rw [h6, (C66_pack o _).2.2.2.2.1]
    exact g1
  refine ⟨x, hhead, ?_⟩
  -- the candidate behind the head
  have hidx : ∀ y ∈ List.zipWith (fun (c : Chunk) b => { c with rerank := rerankScore L.tok q (L.qe q) b c }) cand
      (normalize (cand.map (·.score))), ∀ f : ℚ → ℚ, normalize (cand.map (·.score)) = (cand.map (·.score)).map f →
      ∃ c ∈ cand, y = { c with rerank := rerankScore L.tok q (L.qe q) (f c.score) c } := by
    intro y hy f hf
    rw [hf, List.map_map, List.zipWith_map_right, List.zipWith_self] at hy
    obtain ⟨c, hcm, rfl⟩ := List.mem_map.1 hy
    exact ⟨c, hcm, rfl⟩
  by_cases hsm : ∃ c ∈ cand, c.score ≤ 1 / 61
  · obtain ⟨f, f1, f2, f3⟩ := normalize_gap (cand.map (·.score))
      (by intro s hs; obtain ⟨c, hcm, rfl⟩ := List.mem_map.1 hs; exact (hall2 c (hc.sub c hcm)).1)
      (by intro s hs; obtain ⟨c, hcm, rfl⟩ := List.mem_map.1 hs; exact (hall2 c (hc.sub c hcm)).2)
      (by rw [← hb2]; exact List.mem_map.2 ⟨big, hb1, rfl⟩)
      (by obtain ⟨c, hcm, hcs⟩ := hsm; exact ⟨c.score, List.mem_map.2 ⟨c, hcm, rfl⟩, hcs⟩)
    obtain ⟨c, hcm, rfl⟩ := hidx x g2 f f1
    rcases (hall2 c (hc.sub c hcm)).2 with g | g
    · exact hlinked c (hc.sub c hcm) g
    · exfalso
      have hbz : { big with rerank := rerankScore L.tok q (L.qe q) (f big.score) big } ∈
          List.zipWith (fun (c : Chunk) b => { c with rerank := rerankScore L.tok q (L.qe q) b c }) cand
            (normalize (cand.map (·.score))) := by
        rw [f1, List.map_map, List.zipWith_map_right, List.zipWith_self]
        exact List.mem_map.2 ⟨big, hb1, rfl⟩
      have k1 := g3 _ hbz
      have k2 := f3 c.score (List.mem_map.2 ⟨c, hcm, rfl⟩) g
      simp only [hb2, f2, rerankScore] at k1
      have o1 := overlapScore_range (L.tok q) (L.tok big.content)
      have o2 := overlapScore_range (L.qe q) (L.tok (joinSp big.entities))
      have o3 := overlapScore_range (L.tok q) (L.tok c.content)
      have o4 := overlapScore_range (L.qe q) (L.tok (joinSp c.entities))
      linarith [o1.1, o2.1, o3.2, o4.2]
  · obtain ⟨i, hi, rfl⟩ := List.mem_iff_getElem.1 g2
    rw [List.length_zipWith] at hi
    rw [List.getElem_zipWith]
    have hcm : cand[i]'(by omega) ∈ cand := List.getElem_mem _
    rcases (hall2 _ (hc.sub _ hcm)).2 with g | g
    · exact hlinked (cand[i]'(by omega)) (hc.sub _ hcm) g
    · exact absurd ⟨_, hcm, g⟩ hsm

/-- The scores of a text search are within the bound of C138: they are reciprocals of at least 61 times weights of at most 1. -/
theorem C138_text_scores (get : Text → Option (Text × Text)) (ents : Text → Option (List Text)) (withEnts : Bool)
    (sort : List (Text × ℚ) → List (Text × ℚ)) (hsort : ∀ l, (sort l).Perm l) (topK : Int)
    (rankings : List (Option (List Text))) (ts : List Chunk)
    (h : searchText get ents withEnts sort topK (rankings.map (fun a => a.map (fun l => Verif.Lexical.textOnly l topK))) = some ts) :
    ∀ c ∈ ts, 0 ≤ c.score ∧ c.score ≤ 1 / 61 := by
  have hto : ∀ l : List Text, ∀ p ∈ Verif.Lexical.textOnly l topK, 0 ≤ p.2 ∧ p.2 ≤ 1 / 61 := by
    intro l p hp
    unfold Verif.Lexical.textOnly at hp
    obtain ⟨y, -, rfl⟩ := List.mem_map.1 (List.mem_of_mem_take hp)
    unfold Verif.Lexical.rrf
    have hy : (0 : ℚ) ≤ y.2 := by positivity
    constructor
    · positivity
    · apply one_div_le_one_div_of_le <;> linarith
  have hw : ∀ (as : List (Option (List (Text × ℚ)))) (idx : Nat), (∀ a ∈ as, ∀ l, a = some l → ∀ p ∈ l, 0 ≤ p.2 ∧ p.2 ≤ 1 / 61) →
      ∀ p ∈ Verif.Lexical.weighted idx as, 0 ≤ p.2 ∧ p.2 ≤ 1 / 61 := by
    intro as
    induction as with
    | nil => intro idx _ p hp; simp [Verif.Lexical.weighted] at hp
    | cons a as ih =>
      intro idx ha p hp
      unfold Verif.Lexical.weighted at hp
      rcases List.mem_append.1 hp with hp | hp
      · obtain ⟨y, hy, rfl⟩ := List.mem_map.1 hp
        cases a with
        | none => simp at hy
        | some l =>
          obtain ⟨b1, b2⟩ := ha _ List.mem_cons_self l rfl y hy
          have hm0 : (0 : ℚ) ≤ max (1 - (idx : ℚ) / 20) (4 / 5) := le_max_of_le_right (by norm_num)
          have hm1 : max (1 - (idx : ℚ) / 20) (4 / 5) ≤ (1 : ℚ) := by
            apply max_le
            · have : (0 : ℚ) ≤ (idx : ℚ) / 20 := by positivity
              linarith
            · norm_num
          exact ⟨mul_nonneg b1 hm0, (mul_le_of_le_one_right b1 hm1).trans b2⟩
      · exact ih _ (fun a' h' => ha a' (List.mem_cons_of_mem _ h')) p hp
  have hload : ∀ (is : List (Text × ℚ)) (l : List Chunk), loadChunks get ents withEnts is = some l →
      ∀ c ∈ l, ∃ p ∈ is, c.score = p.2 := by
    intro is
    induction is with
    | nil => intro l hl c hc; simp only [loadChunks, Option.some.injEq] at hl; subst hl; cases hc
    | cons p is ih =>
      intro l hl c hc
      obtain ⟨i, x⟩ := p
      unfold loadChunks at hl
      cases hg : get i with
      | none =>
        rw [hg] at hl
        obtain ⟨p, h1, h2⟩ := ih l hl c hc
        exact ⟨p, List.mem_cons_of_mem _ h1, h2⟩
      | some dc =>
        obtain ⟨doc, content⟩ := dc
        rw [hg] at hl
        simp only at hl
        cases he : (if withEnts then ents i else some []) with
        | none => rw [he] at hl; simp at hl
        | some es =>
          cases ht : loadChunks get ents withEnts is with
          | none => rw [he, ht] at hl; simp at hl
          | some l' =>
            rw [he, ht] at hl
            simp only [Option.some.injEq] at hl
            subst hl
            rcases List.mem_cons.1 hc with rfl | hc
            · exact ⟨_, List.mem_cons_self, rfl⟩
            · obtain ⟨p, h1, h2⟩ := ih l' ht c hc
              exact ⟨p, List.mem_cons_of_mem _ h1, h2⟩
  unfold searchText at h
  cases hcd : Verif.Lexical.candidates sort topK (rankings.map (fun a => a.map (fun l => Verif.Lexical.textOnly l topK))) with
  | panic => rw [hcd] at h; simp at h
  | ok rs =>
    rw [hcd] at h
    simp only at h
    intro c hc
    obtain ⟨p, hp, he⟩ := hload rs ts h c hc
    rw [he]
    set answers := rankings.map (fun a => a.map (fun l => Verif.Lexical.textOnly l topK)) with hans
    have hall : ∀ a ∈ answers, ∀ l, a = some l → ∀ p ∈ l, 0 ≤ p.2 ∧ p.2 ≤ 1 / 61 := by
      rintro a ha l rfl p hp
      obtain ⟨b, -, hb⟩ := List.mem_map.1 ha
      cases b with
      | none => simp at hb
      | some ids =>
        simp only [Option.map_some, Option.some.injEq] at hb
        exact hto ids p (hb ▸ hp)
    have hmem : p ∈ Verif.Lexical.loop topK 0 answers [] := by
      unfold Verif.Lexical.candidates at hcd
      simp only at hcd
      split at hcd
      · injection hcd with hcd; rw [← hcd] at hp; cases hp
      · split at hcd
        · split at hcd
          · cases hcd
          · injection hcd with hcd
            rw [← hcd] at hp
            exact (hsort _).mem_iff.1 (List.mem_of_mem_take hp)
        · injection hcd with hcd
          rw [← hcd] at hp
          exact (hsort _).mem_iff.1 hp
    rcases Verif.Lexical.best_loop topK answers with hb | ⟨hb, -⟩
    · exact hw answers 0 hall p (hb.real p hmem)
    · exact hw (answers.take 1) 0 (fun a ha => hall a (List.mem_of_mem_take ha)) p (hb.real p hmem)

/-- A stored graph: the text hits a and c; b is linked to a through an entity and does not contain the query. -/
def linkedGraph : Verif.Graph.State :=
  [node "chunk:a:000" "acme hires" "chunk", node "chunk:b:000" "quarterly numbers" "chunk", node "chunk:c:000" "red fox" "chunk",
    node "entity:acme" "Acme" "entity"].foldl
    (fun s n => (Verif.Graph.upsertNode s (some n)).1) Verif.Graph.init |> fun s =>
  [edge "edge:mention:chunk:a:000:entity:acme" "chunk:a:000" "entity:acme",
    edge "edge:mention:chunk:b:000:entity:acme" "chunk:b:000" "entity:acme"].foldl
    (fun s e => (Verif.Graph.upsertEdge true s (some e)).1) s

def worldL : World := worldOf (fun _ => []) id 32 (queryDefaults opts0) linkedGraph

def hitsL : List Chunk :=
  [⟨"chunk:c:000".toList, "c".toList, "red fox".toList, 1 / 61, [], 0⟩, ⟨"chunk:a:000".toList, "a".toList, "acme hires".toList, 1 / 62, [], 0⟩]

/-- The query "red fox" is answered with a chunk that shares no word with it ahead of the chunk that is the query word for word. -/
theorem C138_witness_violated :
    (searchLexical lib0 worldL .graph false opts0 "red fox".toList [] (some hitsL) (fun _ => some [])).map
      (fun r => r.chunks.map (fun c => (c.id, c.content))) =
    some [("chunk:b:000".toList, "quarterly numbers".toList), ("chunk:c:000".toList, "red fox".toList),
      ("chunk:a:000".toList, "acme hires".toList)] := by
  decide +kernel

/-- The hypotheses of C138 and C139 hold for this search. -/
example : useGraph .graph false (lib0.names "red fox".toList) [] = true ∧ (∀ c ∈ hitsL, 0 ≤ c.score ∧ c.score ≤ 1 / 61) ∧
    ∃ s n, Links worldL hitsL s n := by
  refine ⟨by decide +kernel, by decide +kernel, hitsL[1], ⟨"chunk:b:000".toList, "quarterly numbers".toList, "chunk".toList, []⟩, ?_⟩
  refine ⟨by decide +kernel, rfl, [⟨"entity:acme".toList, "Acme".toList, "entity".toList, []⟩,
    ⟨"chunk:b:000".toList, "quarterly numbers".toList, "chunk".toList, []⟩], ?_, by decide +kernel⟩
  decide +kernel

/-- C138, the part that holds: without the graph the chunks are the text hits, each once. -/
theorem C138_without_graph_partial (L : Lib) (w : World) (m : Mode) (dis : Bool) (o : QueryOpts) (q : Text)
    (en : List Text) (ts : List Chunk) (byEnt : List Text → Option (List Chunk)) (hug : useGraph m dis (L.names q) en = false) :
    ∃ r, searchLexical L w m dis o q en (some ts) byEnt = some r ∧ r.entities = [] ∧ (r.chunks.map Chunk.id).Nodup ∧
      ∀ c ∈ r.chunks, ∃ s ∈ ts, c.id = s.id ∧ c.doc = s.doc ∧ c.content = s.content := by
  have h0 := seeds_inv ts []
  simp only [List.map_nil, List.append_nil, List.foldl_nil] at h0
  have hd : queryDefaults { o with rerank := true } = queryDefaults o := by
    unfold queryDefaults; cases o.rerank <;> rfl
  unfold searchLexical
  simp only [hug, hd, Bool.false_eq_true, false_and, if_false, if_true]
  split
  · exact ⟨_, rfl, rfl, by simp, by simp⟩
  · refine ⟨_, rfl, rfl, ?_⟩
    simp only
    set a := ts.foldl (fun a c => addChunk a c true) ⟨[], [], []⟩ with ha
    have hseed : ∀ i ∈ a.seeds, i ∈ a.results.map Chunk.id := by
      intro i h4
      obtain ⟨x, h5, rfl⟩ := List.mem_map.1 ((h0.seeds.2 i).1 h4)
      exact h0.all x h5
    obtain ⟨hf1, hf2⟩ := filterMap_look_ids a.results h0.nodup a.seeds hseed
    obtain ⟨g1, -, g3, -⟩ := ranked_spec L o q (a.seeds.filterMap (look a.results)) (by rw [hf1]; exact h0.seeds.1)
    refine ⟨g1, fun c hc => ?_⟩
    obtain ⟨c', h8, h9⟩ := g3 c hc
    obtain ⟨x, k1, k2, k3, k4⟩ := (h0.what c' (hf2 c' h8)).text
    have e1 : c.id = c'.id := (congrArg Chunk.id h9 : (bare c).id = (bare c').id)
    have e2 : c.doc = c'.doc := (congrArg Chunk.doc h9 : (bare c).doc = (bare c').doc)
    have e3 : c.content = c'.content := (congrArg Chunk.content h9 : (bare c).content = (bare c').content)
    exact ⟨x, k1, e1.trans k2.symm, e2.trans k3.symm, e3.trans k4.symm⟩

example : useGraph .lexical false (lib0.names "red fox".toList) [] = false := by decide +kernel

/-! ### C140 -/

/-- C140: the chunk tool returns the stored chunks for the ids asked, in the order asked, with their stored text, and skips the ids that
are not stored; an id asked twice is returned twice. It fails only when the graph cannot list the entities of a stored chunk. -/
theorem C140_get_chunks (get : Text → Option (Text × Text)) (ents : Text → Option (List Text)) (withEnts : Bool) (ids : List Text) :
    (∀ l, getChunks get ents withEnts ids = some l →
      l.map Chunk.id = ids.filter (fun i => (get i).isSome) ∧
      ∀ c ∈ l, get c.id = some (c.doc, c.content) ∧ (withEnts = true → ents c.id = some c.entities) ∧
        (withEnts = false → c.entities = [])) ∧
    ((getChunks get ents withEnts ids).isNone ↔ withEnts = true ∧ ∃ i ∈ ids, (get i).isSome ∧ (ents i).isNone) := by
  unfold getChunks
  induction ids with
  | nil => simp [loadChunks]
  | cons i ids ih =>
    rw [List.map_cons]
    cases hg : get i with
    | none =>
      have e : loadChunks get ents withEnts ((i, 0) :: ids.map (fun i => (i, 0))) =
          loadChunks get ents withEnts (ids.map (fun i => (i, 0))) := by
        rw [loadChunks, hg]
      rw [e]
      simp only [List.filter_cons, hg, Option.isSome_none, Bool.false_eq_true, if_false, List.mem_cons, exists_eq_or_imp,
        false_and, false_or]
      exact ih
    | some dc =>
      obtain ⟨doc, content⟩ := dc
      have e : loadChunks get ents withEnts ((i, 0) :: ids.map (fun i => (i, 0))) =
          match (if withEnts then ents i else some []), loadChunks get ents withEnts (ids.map (fun i => (i, 0))) with
          | some es, some l => some (⟨i, doc, content, 0, es, 0⟩ :: l)
          | _, _ => none := by
        simp only [loadChunks, hg]; rfl
      rw [e]
      have e2 : (∃ j ∈ i :: ids, (get j).isSome = true ∧ (ents j).isNone = true) ↔
          (ents i).isNone = true ∨ ∃ j ∈ ids, (get j).isSome = true ∧ (ents j).isNone = true := by
        simp only [List.mem_cons, exists_eq_or_imp, hg, Option.isSome_some, true_and]
      rw [e2]
      have e3 : (i :: ids).filter (fun i => (get i).isSome) = i :: ids.filter (fun i => (get i).isSome) := by
        simp [List.filter_cons, hg]
      rw [e3]
      cases he : (if withEnts then ents i else some []) with
      | none =>
        have hw : withEnts = true := by cases withEnts <;> simp_all
        subst hw
        rw [if_pos rfl] at he
        simp [he]
      | some es =>
        have hni : ¬ (withEnts = true ∧ (ents i).isNone = true) := by
          rintro ⟨rfl, h1⟩
          rw [if_pos rfl] at he
          rw [he] at h1
          cases h1
        cases ht : loadChunks get ents withEnts (ids.map (fun i => (i, 0))) with
        | none =>
          rw [ht] at ih
          have := ih.2.1 rfl
          refine ⟨by simp, fun _ => ⟨this.1, Or.inr this.2⟩, fun _ => rfl⟩
        | some l' =>
          rw [ht] at ih
          obtain ⟨h1, h2⟩ := ih.1 l' rfl
          refine ⟨?_, ?_, ?_⟩
          · intro l hl
            simp only [Option.some.injEq] at hl
            subst hl
            refine ⟨by rw [List.map_cons, h1], ?_⟩
            intro c hc
            rcases List.mem_cons.1 hc with rfl | hc
            · refine ⟨hg, ?_, ?_⟩
              · rintro rfl; simpa using he
              · rintro rfl; simpa using he.symm
            · exact h2 c hc
          · intro h; cases h
          · rintro ⟨h3, h4 | h4⟩
            · exact absurd ⟨h3, h4⟩ hni
            · exact absurd (ih.2.2 ⟨h3, h4⟩) (by simp)

/-- C140: the context tool packs those chunks in the order asked: the chunks of the context are a subsequence of them that starts with
the first, keeps the budgets, and leaves a chunk out only when a budget is used up; the context is the text of the packed chunks. -/
theorem C140_build_context (get : Text → Option (Text × Text)) (ents : Text → Option (List Text)) (withEnts : Bool) (ids : List Text)
    (o : QueryOpts) (out : List Chunk) (ctx : Text) (h : buildTool get ents withEnts ids o = some (out, ctx)) :
    ctx = buildContext out ∧ List.Sublist (out.map Chunk.id) (ids.filter (fun i => (get i).isSome)) ∧
    (∀ c ∈ out, get c.id = some (c.doc, c.content)) ∧
    (out.map Chunk.id).head? = (ids.filter (fun i => (get i).isSome)).head? ∧
    (out.length : Int) ≤ (queryDefaults o).maxChunks ∧
    ((blen ctx : Int) ≤ (queryDefaults o).maxChars ∨ out.length ≤ 1) ∧
    (∀ i ∈ ids, ∀ doc content, get i = some (doc, content) → i ∈ out.map Chunk.id ∨
      Excused (queryDefaults o) out ⟨i, doc, content, 0, [], 0⟩) := by
  unfold buildTool at h
  cases hl : getChunks get ents withEnts ids with
  | none => rw [hl] at h; simp at h
  | some l =>
    rw [hl] at h
    simp only [Option.map_some, Option.some.injEq, Prod.mk.injEq] at h
    obtain ⟨h1, h2⟩ := h
    obtain ⟨k1, k2⟩ := (C140_get_chunks get ents withEnts ids).1 l hl
    obtain ⟨p1, p2, -, p4, p5, p6⟩ := C66_pack o (byPosition l)
    rw [h1] at p1 p2 p4 p5 p6 h2
    have hids : (byPosition l).map Chunk.id = l.map Chunk.id := by
      unfold byPosition
      rw [List.map_map]
      have e : (Chunk.id ∘ fun p : Chunk × Nat => { p.1 with score := (l.length : ℚ) - p.2, rerank := (l.length : ℚ) - p.2 }) =
        (fun p : Chunk × Nat => p.1.id) := rfl
      rw [e]
      have : (l.zipIdx.map (fun p : Chunk × Nat => p.1.id)) = (l.zipIdx.map Prod.fst).map Chunk.id := by
        rw [List.map_map]; rfl
      rw [this, List.zipIdx_map_fst]
    have hget : ∀ c ∈ byPosition l, get c.id = some (c.doc, c.content) := by
      intro c hc
      unfold byPosition at hc
      obtain ⟨p, hp, rfl⟩ := List.mem_map.1 hc
      have : p.1 ∈ l := by
        have := List.mem_map_of_mem (f := Prod.fst) hp
        rwa [List.zipIdx_map_fst] at this
      exact (k2 p.1 this).1
    refine ⟨h2.symm, ?_, ?_, ?_, p2, ?_, ?_⟩
    · rw [← k1, ← hids]; exact p1.map _
    · intro c hc; exact hget c (p1.subset hc)
    · rw [← k1, ← hids, List.head?_map, List.head?_map, p5]
    · rw [← h2]; exact p4
    · intro i hi doc content hgi
      have : i ∈ (byPosition l).map Chunk.id := by
        rw [hids, k1, List.mem_filter]
        exact ⟨hi, by rw [hgi]; rfl⟩
      obtain ⟨c, hc, rfl⟩ := List.mem_map.1 this
      have hg := hget c hc
      rw [hgi, Option.some.injEq, Prod.mk.injEq] at hg
      obtain ⟨g1, g2⟩ := hg
      rcases p6 c hc with h3 | h3
      · exact Or.inl (List.mem_map_of_mem h3)
      · right
        unfold Excused lineLen at h3 ⊢
        simpa [g1, g2, contextLine] using h3

def get0 (i : Text) : Option (Text × Text) :=
  if i = "a".toList then some ("d".toList, "one".toList) else if i = "b".toList then some ("d".toList, "two".toList) else none

example : (buildTool get0 (fun _ => some []) true ["b".toList, "x".toList, "a".toList] opts0).map (fun p => (p.1.map Chunk.id, p.2)) =
    some (["b".toList, "a".toList], "[d/b] two\n[d/a] one".toList) := by decide +kernel

end Verif.RagSearch
