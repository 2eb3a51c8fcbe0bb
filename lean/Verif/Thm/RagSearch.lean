import Verif.Model.RagSearch
import Verif.Thm.RagPack
import Verif.Base.Sort
import Mathlib.Data.List.Perm.Subperm
import Mathlib.Data.List.Nodup
import Mathlib.Data.List.Dedup
import Mathlib.Tactic.Ring
import Mathlib.Tactic.Linarith

/-!
Properties of retrieval over chunks and the graph (C135-C138).
-/
namespace Verif.RagSearch
open Verif.Base Verif.Rag Verif.Spec

/-! ### Maps of chunks -/

theorem mem_put (l : List Chunk) (c x : Chunk) : x ∈ put l c ↔ x = c ∨ (x ∈ l ∧ x.id ≠ c.id) := by
  unfold put
  split
  · rename_i h
    obtain ⟨y, hy, he⟩ := List.any_eq_true.1 h
    have he := of_decide_eq_true he
    rw [List.mem_map]
    constructor
    · rintro ⟨z, hz, rfl⟩
      split
      · exact Or.inl rfl
      · rename_i hn; exact Or.inr ⟨hz, hn⟩
    · rintro (rfl | ⟨h1, h2⟩)
      · exact ⟨y, hy, by rw [if_pos he]⟩
      · exact ⟨x, h1, by rw [if_neg h2]⟩
  · rename_i h
    rw [List.mem_append, List.mem_singleton]
    constructor
    · rintro (h1 | h1)
      · refine Or.inr ⟨h1, fun h2 => h ?_⟩
        exact List.any_eq_true.2 ⟨x, h1, decide_eq_true h2⟩
      · exact Or.inl h1
    · rintro (h1 | h1)
      · exact Or.inr h1
      · exact Or.inl h1.1

theorem put_nodup (l : List Chunk) (c : Chunk) (h : (l.map Chunk.id).Nodup) : ((put l c).map Chunk.id).Nodup := by
  unfold put
  split
  · rw [List.map_map]
    have : (l.map (Chunk.id ∘ fun x => if x.id = c.id then c else x)) = l.map Chunk.id := by
      apply List.map_congr_left
      intro x _
      simp only [Function.comp]
      split
      · rename_i hx; exact hx.symm
      · rfl
    rw [this]; exact h
  · rename_i hn
    rw [List.map_append, List.map_singleton, List.nodup_append]
    refine ⟨h, by simp, ?_⟩
    intro a ha b hb hab
    obtain ⟨x, hx, rfl⟩ := List.mem_map.1 ha
    rw [List.mem_singleton] at hb
    exact hn (List.any_eq_true.2 ⟨x, hx, decide_eq_true (hab.trans hb)⟩)

theorem put_ids (l : List Chunk) (c : Chunk) (i : Text) : i ∈ (put l c).map Chunk.id ↔ i = c.id ∨ i ∈ l.map Chunk.id := by
  simp only [List.mem_map, mem_put]
  constructor
  · rintro ⟨x, rfl | ⟨h1, _⟩, rfl⟩
    · exact Or.inl rfl
    · exact Or.inr ⟨x, h1, rfl⟩
  · rintro (rfl | ⟨x, h1, rfl⟩)
    · exact ⟨c, Or.inl rfl, rfl⟩
    · by_cases h : x.id = c.id
      · exact ⟨c, Or.inl rfl, h.symm⟩
      · exact ⟨x, Or.inr ⟨h1, h⟩, rfl⟩

theorem look_some {l : List Chunk} {i : Text} {c : Chunk} (h : look l i = some c) : c ∈ l ∧ c.id = i :=
  ⟨List.mem_of_find?_eq_some h, by
    have := List.find?_some h
    exact of_decide_eq_true this⟩

theorem look_none {l : List Chunk} {i : Text} (h : look l i = none) : i ∉ l.map Chunk.id := by
  intro hm
  obtain ⟨x, hx, rfl⟩ := List.mem_map.1 hm
  have := List.find?_eq_none.1 h x hx
  exact this (decide_eq_true rfl)

theorem id_inj {l : List Chunk} (h : (l.map Chunk.id).Nodup) {a b : Chunk} (ha : a ∈ l) (hb : b ∈ l) (he : a.id = b.id) :
    a = b := List.inj_on_of_nodup_map h ha hb he

theorem look_mem {l : List Chunk} (h : (l.map Chunk.id).Nodup) {c : Chunk} (hc : c ∈ l) : look l c.id = some c := by
  cases hl : look l c.id with
  | none => exact absurd (List.mem_map_of_mem hc) (look_none hl)
  | some x =>
    obtain ⟨h1, h2⟩ := look_some hl
    rw [id_inj h h1 hc h2]

/-! ### Ranking and packing -/

/-- A chunk without its rerank score. -/
def bare (c : Chunk) : Chunk := { c with rerank := 0 }

theorem rerank_on (o : QueryOpts) : (queryDefaults o).rerank = true := by
  unfold queryDefaults; cases o.rerank <;> rfl

theorem ranked_spec (L : Lib) (o : QueryOpts) (q : Text) (cand : List Chunk) (hn : (cand.map Chunk.id).Nodup) :
    let d := queryDefaults o
    let out := pack d (rerank L.tok q (L.qe q) d cand)
    (out.map Chunk.id).Nodup ∧ (out.length : Int) ≤ d.maxChunks ∧ (∀ c ∈ out, ∃ c' ∈ cand, bare c = bare c') ∧
    ((cand.length : Int) ≤ d.maxChunks → ∀ c' ∈ cand, (∃ c ∈ out, bare c = bare c') ∨ Excused d out c') := by
  intro d out
  obtain ⟨⟨rest, hp⟩, hl, -⟩ := C81_rerank L.tok q (L.qe q) o cand
  obtain ⟨hs, hlen, -, -, -, hex⟩ := C66_pack o (rerank L.tok q (L.qe q) (queryDefaults o) cand)
  have hbare : ∀ l : List Chunk, (l.map bare).map Chunk.id = l.map Chunk.id := by
    intro l; rw [List.map_map]; rfl
  have hmem : ∀ c ∈ rerank L.tok q (L.qe q) d cand, ∃ c' ∈ cand, bare c = bare c' := by
    intro c hc
    have h1 : bare c ∈ (rerank L.tok q (L.qe q) d cand ++ rest).map bare :=
      List.mem_map_of_mem (List.mem_append_left _ hc)
    have h2 := (List.Perm.mem_iff hp).1 h1
    obtain ⟨c', h3, h4⟩ := List.mem_map.1 h2
    exact ⟨c', h3, h4.symm⟩
  refine ⟨?_, hlen, fun c hc => hmem c (hs.subset hc), ?_⟩
  · refine List.Nodup.sublist (hs.map _) ?_
    have h1 := hp.map Chunk.id
    have h2 : ((rerank L.tok q (L.qe q) d cand ++ rest).map Chunk.id).Nodup := by
      have := hbare (rerank L.tok q (L.qe q) d cand ++ rest)
      rw [← this]
      exact (h1.nodup_iff).2 ((hbare cand).symm ▸ hn)
    rw [List.map_append] at h2
    exact (List.nodup_append.1 h2).1
  · intro hc c' hc'
    have hr : rest = [] := by
      have h1 := hp.length_eq
      rw [List.length_map, List.length_map, List.length_append] at h1
      have hl' : ((rerank L.tok q (L.qe q) d cand).length : Int) = min d.maxChunks cand.length := hl
      have h1' : (rerank L.tok q (L.qe q) d cand).length + rest.length = cand.length := h1
      rw [min_eq_right hc] at hl'
      have : (rest.length : Int) = 0 := by omega
      exact List.length_eq_zero_iff.1 (by omega)
    subst hr
    have h1 : bare c' ∈ cand.map bare := List.mem_map_of_mem hc'
    have h2 := (List.Perm.mem_iff hp).2 h1
    rw [List.append_nil] at h2
    obtain ⟨c, h3, h4⟩ := List.mem_map.1 h2
    have h4 : bare c = bare c' := h4
    rcases hex c h3 with h5 | h5
    · exact Or.inl ⟨c, h5, h4⟩
    · right
      have e1 : c.doc = c'.doc := (congrArg Chunk.doc h4 : (bare c).doc = (bare c').doc)
      have e2 : lineLen c = lineLen c' := by
        unfold lineLen
        rw [e1, show c.content = c'.content from (congrArg Chunk.content h4 : (bare c).content = (bare c').content), show c.id = c'.id from (congrArg Chunk.id h4 : (bare c).id = (bare c').id)]
      unfold Excused at h5 ⊢
      rw [e1, e2] at h5
      exact h5

/-! ### The loop over the seeds -/

/-- What the loop has seen so far: seeds, and neighbours with the score of the seed they were reached from. -/
structure Seen where
  seeds : List Chunk
  nears : List (ℚ × Near)

/-- The chunk `c` is a linked chunk with the best half score among the links seen. -/
structure BestLink (nears : List (ℚ × Near)) (c : Chunk) : Prop where
  text : ∃ p ∈ nears, p.2.ntype = chunkType ∧ p.2.id = c.id ∧ c.doc = p.2.doc ∧ c.content = p.2.content
  attained : ∃ p ∈ nears, p.2.ntype = chunkType ∧ p.2.id = c.id ∧ c.score = p.1 * (1 / 2)
  best : ∀ p ∈ nears, p.2.ntype = chunkType → p.2.id = c.id → p.1 * (1 / 2) ≤ c.score
  blank : c.entities = [] ∧ c.rerank = 0

/-- A seed as the loop stores it. -/
def fresh (s : Chunk) : Chunk := { s with entities := [], rerank := 0 }

structure LoopInv (e : Seen) (a : Acc) : Prop where
  nodup : (a.results.map Chunk.id).Nodup
  seeds : a.seeds = e.seeds.map Chunk.id
  what : ∀ c ∈ a.results, (∃ s ∈ e.seeds, c = fresh s) ∨ (c.id ∉ e.seeds.map Chunk.id ∧ BestLink e.nears c)
  seedIn : ∀ s ∈ e.seeds, s.id ∈ a.results.map Chunk.id
  nearIn : ∀ p ∈ e.nears, p.2.ntype = chunkType → p.2.id ∈ a.results.map Chunk.id
  ents : ∀ x, x ∈ a.entities ↔ ∃ p ∈ e.nears, p.2.ntype = entityType ∧ p.2.content = x

theorem types_differ : entityType ≠ chunkType := by decide

theorem inv_seed {e : Seen} {a : Acc} (h : LoopInv e a) (s : Chunk) (hs : s.id ∉ e.seeds.map Chunk.id) :
    LoopInv { e with seeds := e.seeds ++ [s] }
      { a with results := put a.results { s with entities := [], rerank := 0 }, seeds := a.seeds ++ [s.id] } where
  nodup := put_nodup _ _ h.nodup
  seeds := by simp [h.seeds]
  what := by
    intro c hc
    rcases (mem_put _ _ _).1 hc with rfl | ⟨h1, h2⟩
    · exact Or.inl ⟨s, by simp, rfl⟩
    · rcases h.what c h1 with ⟨s', h3, h4⟩ | ⟨h3, h4⟩
      · exact Or.inl ⟨s', List.mem_append_left _ h3, h4⟩
      · right
        refine ⟨?_, h4⟩
        rw [List.map_append, List.mem_append]
        rintro (h5 | h5)
        · exact h3 h5
        · exact h2 (by simpa using h5)
  seedIn := by
    intro s' hs'
    rw [put_ids]
    rcases List.mem_append.1 hs' with h1 | h1
    · exact Or.inr (h.seedIn s' h1)
    · left
      rw [List.mem_singleton.1 h1]
  nearIn := fun p hp ht => (put_ids _ _ _).2 (Or.inr (h.nearIn p hp ht))
  ents := h.ents

theorem bestLink_skip {nears : List (ℚ × Near)} {c : Chunk} (h : BestLink nears c) (p : ℚ × Near)
    (hp : p.2.ntype = chunkType → p.2.id = c.id → p.1 * (1 / 2) ≤ c.score) : BestLink (nears ++ [p]) c where
  text := by obtain ⟨x, hx, r⟩ := h.text; exact ⟨x, List.mem_append_left _ hx, r⟩
  attained := by obtain ⟨x, hx, r⟩ := h.attained; exact ⟨x, List.mem_append_left _ hx, r⟩
  best := by
    intro x hx
    rcases List.mem_append.1 hx with h1 | h1
    · exact h.best x h1
    · rw [List.mem_singleton.1 h1]; exact hp
  blank := h.blank

theorem inv_touch {e : Seen} {a : Acc} (h : LoopInv e a) (x : ℚ) (n : Near) :
    LoopInv { e with nears := e.nears ++ [(x, n)] } (touch x a n) := by
  unfold touch
  by_cases h1 : n.ntype = entityType
  · rw [if_pos h1]
    have hne : n.ntype ≠ chunkType := by rw [h1]; exact types_differ
    refine ⟨h.nodup, h.seeds, ?_, h.seedIn, ?_, ?_⟩
    · intro c hc
      rcases h.what c hc with h2 | ⟨h2, h3⟩
      · exact Or.inl h2
      · exact Or.inr ⟨h2, bestLink_skip h3 _ (fun h4 => absurd h4 hne)⟩
    · intro p hp ht
      rcases List.mem_append.1 hp with h2 | h2
      · exact h.nearIn p h2 ht
      · rw [List.mem_singleton.1 h2] at ht; exact absurd ht hne
    · intro y
      simp only [List.mem_append, List.mem_singleton, h.ents]
      constructor
      · rintro (⟨p, h2, h3⟩ | rfl)
        · exact ⟨p, Or.inl h2, h3⟩
        · exact ⟨(x, n), Or.inr rfl, h1, rfl⟩
      · rintro ⟨p, h2 | rfl, h3, h4⟩
        · exact Or.inl ⟨p, h2, h3, h4⟩
        · exact Or.inr h4.symm
  · rw [if_neg h1]
    have hents : ∀ y, y ∈ a.entities ↔ ∃ p ∈ e.nears ++ [(x, n)], p.2.ntype = entityType ∧ p.2.content = y := by
      intro y
      rw [h.ents]
      constructor
      · rintro ⟨p, h2, h3⟩; exact ⟨p, List.mem_append_left _ h2, h3⟩
      · rintro ⟨p, h2, h3, h4⟩
        rcases List.mem_append.1 h2 with h5 | h5
        · exact ⟨p, h5, h3, h4⟩
        · rw [List.mem_singleton.1 h5] at h3; exact absurd h3 h1
    by_cases h2 : n.ntype = chunkType
    · rw [if_pos h2]
      by_cases h3 : n.id ∈ a.seeds
      · rw [if_pos h3]
        refine ⟨h.nodup, h.seeds, ?_, h.seedIn, ?_, hents⟩
        · intro c hc
          rcases h.what c hc with h4 | ⟨h4, h5⟩
          · exact Or.inl h4
          · refine Or.inr ⟨h4, bestLink_skip h5 _ (fun _ h6 => ?_)⟩
            rw [h.seeds] at h3
            exact absurd (h6 ▸ h3) h4
        · intro p hp ht
          rcases List.mem_append.1 hp with h4 | h4
          · exact h.nearIn p h4 ht
          · rw [List.mem_singleton.1 h4]
            rw [h.seeds] at h3
            obtain ⟨s, hs, he⟩ := List.mem_map.1 h3
            show n.id ∈ _
            rw [← he]
            exact h.seedIn s hs
      · rw [if_neg h3]
        have h3' : n.id ∉ e.seeds.map Chunk.id := h.seeds ▸ h3
        cases hl : look a.results n.id with
        | none =>
          have hno := look_none hl
          simp only
          refine ⟨put_nodup _ _ h.nodup, h.seeds, ?_, ?_, ?_, hents⟩
          · intro c hc
            rcases (mem_put _ _ _).1 hc with rfl | ⟨h4, h5⟩
            · refine Or.inr ⟨h3', ⟨⟨(x, n), by simp, h2, rfl, rfl, rfl⟩, ⟨(x, n), by simp, h2, rfl, rfl⟩, ?_, rfl, rfl⟩⟩
              intro p hp ht hi
              rcases List.mem_append.1 hp with h6 | h6
              · have := h.nearIn p h6 ht
                rw [hi] at this
                exact absurd this hno
              · rw [List.mem_singleton.1 h6]
            · rcases h.what c h4 with h6 | ⟨h6, h7⟩
              · exact Or.inl h6
              · exact Or.inr ⟨h6, bestLink_skip h7 _ (fun _ h8 => absurd h8.symm h5)⟩
          · intro s hs
            exact (put_ids _ _ _).2 (Or.inr (h.seedIn s hs))
          · intro p hp ht
            rw [put_ids]
            rcases List.mem_append.1 hp with h4 | h4
            · exact Or.inr (h.nearIn p h4 ht)
            · rw [List.mem_singleton.1 h4]; exact Or.inl rfl
        | some r =>
          obtain ⟨hr1, hr2⟩ := look_some hl
          have hrb : BestLink e.nears r := by
            rcases h.what r hr1 with ⟨s, h4, h5⟩ | ⟨_, h5⟩
            · exfalso
              apply h3'
              rw [← hr2, h5]
              exact List.mem_map.2 ⟨s, h4, rfl⟩
            · exact h5
          simp only
          by_cases hgt : x * (1 / 2) > r.score
          · rw [if_pos hgt]
            refine ⟨put_nodup _ _ h.nodup, h.seeds, ?_, ?_, ?_, hents⟩
            · intro c hc
              rcases (mem_put _ _ _).1 hc with rfl | ⟨h4, h5⟩
              · refine Or.inr ⟨by simpa [hr2] using h3', ⟨?_, ⟨(x, n), by simp, h2, hr2.symm, rfl⟩, ?_, hrb.blank⟩⟩
                · obtain ⟨p, h6, h7⟩ := hrb.text
                  exact ⟨p, List.mem_append_left _ h6, h7⟩
                · intro p hp ht hi
                  rcases List.mem_append.1 hp with h6 | h6
                  · exact (hrb.best p h6 ht hi).trans hgt.le
                  · rw [List.mem_singleton.1 h6]
              · rcases h.what c h4 with h6 | ⟨h6, h7⟩
                · exact Or.inl h6
                · exact Or.inr ⟨h6, bestLink_skip h7 _ (fun _ h8 => absurd (h8.symm.trans hr2.symm) h5)⟩
            · intro s hs
              exact (put_ids _ _ _).2 (Or.inr (h.seedIn s hs))
            · intro p hp ht
              rw [put_ids]
              rcases List.mem_append.1 hp with h4 | h4
              · exact Or.inr (h.nearIn p h4 ht)
              · rw [List.mem_singleton.1 h4]; exact Or.inl hr2.symm
          · rw [if_neg hgt]
            refine ⟨h.nodup, h.seeds, ?_, h.seedIn, ?_, hents⟩
            · intro c hc
              rcases h.what c hc with h4 | ⟨h4, h5⟩
              · exact Or.inl h4
              · refine Or.inr ⟨h4, bestLink_skip h5 _ (fun _ h6 => ?_)⟩
                have : c = r := id_inj h.nodup hc hr1 (h6.symm.trans hr2.symm)
                rw [this]; exact not_lt.1 hgt
            · intro p hp ht
              rcases List.mem_append.1 hp with h4 | h4
              · exact h.nearIn p h4 ht
              · rw [List.mem_singleton.1 h4]
                show n.id ∈ _
                rw [← hr2]
                exact List.mem_map_of_mem hr1
    · rw [if_neg h2]
      refine ⟨h.nodup, h.seeds, ?_, h.seedIn, ?_, hents⟩
      · intro c hc
        rcases h.what c hc with h4 | ⟨h4, h5⟩
        · exact Or.inl h4
        · exact Or.inr ⟨h4, bestLink_skip h5 _ (fun h6 => absurd h6 h2)⟩
      · intro p hp ht
        rcases List.mem_append.1 hp with h4 | h4
        · exact h.nearIn p h4 ht
        · rw [List.mem_singleton.1 h4] at ht; exact absurd ht h2

theorem inv_touches {e : Seen} {a : Acc} (h : LoopInv e a) (x : ℚ) (ns : List Near) :
    LoopInv { e with nears := e.nears ++ ns.map (fun n => (x, n)) } (ns.foldl (touch x) a) := by
  induction ns generalizing e a with
  | nil => simpa using h
  | cons n ns ih =>
    have := ih (inv_touch h x n)
    simpa using this

/-- The neighbours a list of seeds has. -/
def nearsOf (w : World) (ss : List Chunk) : List (ℚ × Near) :=
  ss.flatMap (fun s => ((w.expand s.id).getD []).map (fun n => (s.score, n)))

theorem inv_visitAll (w : World) (ss : List Chunk) : ∀ {e : Seen} {a b : Acc}, LoopInv e a →
    ((e.seeds ++ ss).map Chunk.id).Nodup → visitAll w true a ss = some b →
    LoopInv ⟨e.seeds ++ ss, e.nears ++ nearsOf w ss⟩ b ∧ ∀ s ∈ ss, (w.expand s.id).isSome := by
  induction ss with
  | nil =>
    intro e a b h _ hb
    simp only [visitAll, Option.some.injEq] at hb
    subst hb
    refine ⟨by simpa [nearsOf] using h, by simp⟩
  | cons s ss ih =>
    intro e a b h hn hb
    have hs : s.id ∉ e.seeds.map Chunk.id := by
      intro hm
      rw [List.map_append, List.map_cons, List.nodup_append] at hn
      exact hn.2.2 _ hm _ (List.mem_cons_self) rfl
    simp only [visitAll, visit, if_true] at hb
    cases hx : w.expand s.id with
    | none => rw [hx] at hb; simp at hb
    | some ns =>
      rw [hx] at hb
      simp only [Option.map_some] at hb
      have h1 := inv_touches (inv_seed h s hs) s.score ns
      obtain ⟨h2, h3⟩ := ih h1 (by simpa using hn) hb
      refine ⟨by simpa [nearsOf, hx] using h2, ?_⟩
      intro s' hs'
      rcases List.mem_cons.1 hs' with rfl | h4
      · rw [hx]; rfl
      · exact h3 s' h4

theorem visitAll_plain (w : World) (ss : List Chunk) : ∀ {e : Seen} {a : Acc}, LoopInv e a →
    ((e.seeds ++ ss).map Chunk.id).Nodup → ∃ b, visitAll w false a ss = some b ∧ LoopInv ⟨e.seeds ++ ss, e.nears⟩ b := by
  induction ss with
  | nil => intro e a h _; exact ⟨a, rfl, by simpa using h⟩
  | cons s ss ih =>
    intro e a h hn
    have hs : s.id ∉ e.seeds.map Chunk.id := by
      intro hm
      rw [List.map_append, List.map_cons, List.nodup_append] at hn
      exact hn.2.2 _ hm _ (List.mem_cons_self) rfl
    obtain ⟨b, h1, h2⟩ := ih (inv_seed h s hs) (by simpa using hn)
    refine ⟨b, ?_, by simpa using h2⟩
    simp only [visitAll, visit]
    exact h1

theorem inv_init : LoopInv ⟨[], []⟩ ⟨[], [], []⟩ :=
  ⟨List.nodup_nil, rfl, by simp, by simp, by simp, by simp⟩

theorem attach_spec (w : World) (l : List Chunk) : ∀ {l' : List Chunk}, attach w l = some l' →
    l'.map Chunk.id = l.map Chunk.id ∧ (∀ c ∈ l', ∃ c0 ∈ l, ∃ es, w.ents c0.id = some es ∧ c = { c0 with entities := es }) ∧
    ∀ c0 ∈ l, ∃ es, w.ents c0.id = some es ∧ { c0 with entities := es } ∈ l' := by
  induction l with
  | nil => intro l' h; simp only [attach, Option.some.injEq] at h; subst h; simp
  | cons a l ih =>
    intro l' h
    unfold attach at h
    cases he : w.ents a.id with
    | none => rw [he] at h; simp at h
    | some es =>
      cases hr : attach w l with
      | none => rw [he, hr] at h; simp at h
      | some l2 =>
        rw [he, hr] at h
        simp only [Option.some.injEq] at h
        subst h
        obtain ⟨h1, h2, h3⟩ := ih hr
        refine ⟨by simp [h1], ?_, ?_⟩
        · intro c hc
          rcases List.mem_cons.1 hc with rfl | h4
          · exact ⟨a, List.mem_cons_self, es, he, rfl⟩
          · obtain ⟨c0, h5, h6⟩ := h2 c h4
            exact ⟨c0, List.mem_cons_of_mem _ h5, h6⟩
        · intro c0 hc
          rcases List.mem_cons.1 hc with rfl | h4
          · exact ⟨es, he, List.mem_cons_self⟩
          · obtain ⟨es', h5, h6⟩ := h3 c0 h4
            exact ⟨es', h5, List.mem_cons_of_mem _ h6⟩

/-! ### C135 -/

/-- The seed `s` is linked to the chunk node `n`: the graph returns the node around the seed. -/
def Links (w : World) (ss : List Chunk) (s : Chunk) (n : Near) : Prop :=
  s ∈ ss ∧ n.ntype = "chunk".toList ∧ ∃ l, w.expand s.id = some l ∧ n ∈ l

/-- What a returned chunk must be: a seed as the search scored it, or a chunk linked to a seed, with its text from the graph and
half the score of the best seed it is linked to. -/
def Right (w : World) (ss : List Chunk) (c : Chunk) : Prop :=
  (∃ s ∈ ss, c.id = s.id ∧ c.doc = s.doc ∧ c.content = s.content ∧ c.score = s.score) ∨
  ((∀ s ∈ ss, s.id ≠ c.id) ∧
    (∃ s n, Links w ss s n ∧ n.id = c.id ∧ c.doc = n.doc ∧ c.content = n.content) ∧
    (∃ s n, Links w ss s n ∧ n.id = c.id ∧ c.score = s.score / 2) ∧
    ∀ s n, Links w ss s n → n.id = c.id → s.score / 2 ≤ c.score)

/-- `sort` sorts by descending score. -/
def Sorts (L : Lib) : Prop := ∀ l, SortedFrom (fun a b : Chunk => b.score ≤ a.score) l (L.sort l)

theorem mem_nearsOf (w : World) (ss : List Chunk) (p : ℚ × Near) :
    p ∈ nearsOf w ss ↔ ∃ s ∈ ss, ∃ l, w.expand s.id = some l ∧ p.2 ∈ l ∧ p.1 = s.score := by
  unfold nearsOf
  rw [List.mem_flatMap]
  constructor
  · rintro ⟨s, hs, hp⟩
    obtain ⟨n, hn, rfl⟩ := List.mem_map.1 hp
    cases hx : w.expand s.id with
    | none => rw [hx] at hn; simp at hn
    | some l => rw [hx] at hn; exact ⟨s, hs, l, hx, hn, rfl⟩
  · rintro ⟨s, hs, l, hx, hn, he⟩
    refine ⟨s, hs, List.mem_map.2 ⟨p.2, by rw [hx]; exact hn, ?_⟩⟩
    rw [← he]

theorem right_of_inv {w : World} {ss : List Chunk} {c : Chunk}
    (h : (∃ s ∈ ss, c = fresh s) ∨ (c.id ∉ ss.map Chunk.id ∧ BestLink (nearsOf w ss) c)) : Right w ss c := by
  rcases h with ⟨s, h1, rfl⟩ | ⟨h1, h2⟩
  · exact Or.inl ⟨s, h1, rfl, rfl, rfl, rfl⟩
  · right
    refine ⟨fun s hs he => h1 (List.mem_map.2 ⟨s, hs, he⟩), ?_, ?_, ?_⟩
    · obtain ⟨p, h3, h4, h5, h6, h7⟩ := h2.text
      obtain ⟨s, h8, l, h9, h10, -⟩ := (mem_nearsOf _ _ _).1 h3
      exact ⟨s, p.2, ⟨h8, h4, l, h9, h10⟩, h5, h6, h7⟩
    · obtain ⟨p, h3, h4, h5, h6⟩ := h2.attained
      obtain ⟨s, h8, l, h9, h10, h11⟩ := (mem_nearsOf _ _ _).1 h3
      exact ⟨s, p.2, ⟨h8, h4, l, h9, h10⟩, h5, by rw [h6, h11]; ring⟩
    · rintro s n ⟨h3, h4, l, h5, h6⟩ h7
      have := h2.best (s.score, n) ((mem_nearsOf _ _ _).2 ⟨s, h3, l, h5, h6, rfl⟩) h4 h7
      simpa [div_eq_mul_inv] using this

/-- Everything about the candidates of a search that uses the graph. -/
structure Cand (w : World) (ss : List Chunk) (d : QueryOpts) (a : Acc) (all cand : List Chunk) (L : Lib) : Prop where
  allNodup : (all.map Chunk.id).Nodup
  allIds : ∀ i, i ∈ all.map Chunk.id ↔ i ∈ ss.map Chunk.id ∨ ∃ s n, Links w ss s n ∧ n.id = i
  right : ∀ c ∈ all, Right w ss c ∧ w.ents c.id = some c.entities
  nodup : (cand.map Chunk.id).Nodup
  sub : ∀ c ∈ cand, c ∈ all
  seeds : ∀ s ∈ ss, s.id ∈ cand.map Chunk.id
  size : (cand.length : Int) ≤ ss.length + d.maxRelated
  cut : ∀ c ∈ all, c ∉ cand → ((cand.filter (fun x => decide (x.id ∉ ss.map Chunk.id))).length : Int) = d.maxRelated ∧
    ∀ x ∈ cand, x.id ∉ ss.map Chunk.id → c.score ≤ x.score
  seedLen : (cand.filter (fun x => decide (x.id ∉ ss.map Chunk.id))).length ≤ d.maxRelated.toNat

theorem filterMap_look_seeds (all : List Chunk) (hn : (all.map Chunk.id).Nodup) (ss : List Chunk)
    (h : ∀ s ∈ ss, s.id ∈ all.map Chunk.id) : (ss.filterMap (fun s => look all s.id)).map Chunk.id = ss.map Chunk.id ∧
    ∀ c ∈ ss.filterMap (fun s => look all s.id), c ∈ all := by
  constructor
  · induction ss with
    | nil => rfl
    | cons s ss ih =>
      obtain ⟨c, hc, he⟩ := List.mem_map.1 (h s List.mem_cons_self)
      have hl : look all s.id = some c := by rw [← he]; exact look_mem hn hc
      rw [List.filterMap_cons, hl]
      simp only [List.map_cons, he]
      rw [ih (fun s' hs' => h s' (List.mem_cons_of_mem _ hs'))]
  · intro c hc
    obtain ⟨s, _, hl⟩ := List.mem_filterMap.1 hc
    exact (look_some hl).1

theorem cand_spec (L : Lib) (hL : Sorts L) (w : World) (o : QueryOpts) (ss : List Chunk) (hn : (ss.map Chunk.id).Nodup) (a : Acc)
    (ha : visitAll w true ⟨[], [], []⟩ ss = some a) (all : List Chunk) (hall : attach w a.results = some all) :
    Cand w ss (queryDefaults o) a all
      (ss.filterMap (fun s => look all s.id) ++ related L (queryDefaults o) a.seeds all) L := by
  obtain ⟨hi, hx⟩ := inv_visitAll w ss inv_init (by simpa using hn) ha
  simp only [List.nil_append] at hi
  obtain ⟨h1, h2, h3⟩ := attach_spec w _ hall
  have hnall : (all.map Chunk.id).Nodup := h1 ▸ hi.nodup
  have hseed : ∀ s ∈ ss, s.id ∈ all.map Chunk.id := fun s hs => h1 ▸ hi.seedIn s hs
  obtain ⟨hf1, hf2⟩ := filterMap_look_seeds all hnall ss hseed
  have hmax : 1 ≤ (queryDefaults o).maxRelated := (C66_defaults o).2.2.1
  set pool := all.filter (fun c => decide (c.id ∉ a.seeds)) with hpool
  obtain ⟨hperm, hord⟩ := hL pool
  have htop := isTopK_take (fun c : Chunk => c.score) pool (L.sort pool) (queryDefaults o).maxRelated.toNat ⟨hperm, hord⟩
  have hrel : related L (queryDefaults o) a.seeds all = (L.sort pool).take (queryDefaults o).maxRelated.toNat := rfl
  have hrelpool : ∀ c ∈ related L (queryDefaults o) a.seeds all, c ∈ all ∧ c.id ∉ ss.map Chunk.id := by
    intro c hc
    rw [hrel] at hc
    have := (hperm.mem_iff).1 (List.mem_of_mem_take hc)
    rw [hpool, List.mem_filter, decide_eq_true_eq, hi.seeds] at this
    exact this
  have hfilter : (ss.filterMap (fun s => look all s.id) ++ related L (queryDefaults o) a.seeds all).filter
      (fun x => decide (x.id ∉ ss.map Chunk.id)) = related L (queryDefaults o) a.seeds all := by
    rw [List.filter_append]
    have e1 : (ss.filterMap (fun s => look all s.id)).filter (fun x => decide (x.id ∉ ss.map Chunk.id)) = [] := by
      rw [List.filter_eq_nil_iff]
      intro c hc
      have : c.id ∈ ss.map Chunk.id := by rw [← hf1]; exact List.mem_map_of_mem hc
      simpa using this
    have e2 : (related L (queryDefaults o) a.seeds all).filter (fun x => decide (x.id ∉ ss.map Chunk.id)) =
        related L (queryDefaults o) a.seeds all := by
      rw [List.filter_eq_self]
      intro c hc
      exact decide_eq_true (hrelpool c hc).2
    rw [e1, e2, List.nil_append]
  have hrellen : (related L (queryDefaults o) a.seeds all).length ≤ (queryDefaults o).maxRelated.toNat := by
    rw [hrel, List.length_take]; omega
  refine ⟨hnall, ?_, ?_, ?_, ?_, ?_, ?_, ?_, ?_⟩
  · intro i
    rw [h1]
    constructor
    · intro hm
      obtain ⟨c, hc, rfl⟩ := List.mem_map.1 hm
      rcases hi.what c hc with ⟨s, h4, rfl⟩ | ⟨_, h5⟩
      · exact Or.inl (List.mem_map.2 ⟨s, h4, rfl⟩)
      · obtain ⟨p, h6, h7, h8, -⟩ := h5.text
        obtain ⟨s, h9, l, h10, h11, -⟩ := (mem_nearsOf _ _ _).1 h6
        exact Or.inr ⟨s, p.2, ⟨h9, h7, l, h10, h11⟩, h8⟩
    · rintro (h4 | ⟨s, n, ⟨h4, h5, l, h6, h7⟩, rfl⟩)
      · obtain ⟨s, h5, rfl⟩ := List.mem_map.1 h4
        exact hi.seedIn s h5
      · exact hi.nearIn (s.score, n) ((mem_nearsOf _ _ _).2 ⟨s, h4, l, h6, h7, rfl⟩) h5
  · intro c hc
    obtain ⟨c0, h4, es, h5, rfl⟩ := h2 c hc
    have hr : Right w ss c0 := right_of_inv (hi.what c0 h4)
    exact ⟨hr, h5⟩
  · rw [List.map_append, List.nodup_append, hf1]
    refine ⟨hn, ?_, ?_⟩
    · rw [hrel]
      refine List.Nodup.sublist ((List.take_sublist _ _).map _) ?_
      exact ((hperm.map Chunk.id).nodup_iff).2 (List.Nodup.sublist (List.filter_sublist.map _) hnall)
    · intro i h4 j h5 hij
      obtain ⟨c, h6, rfl⟩ := List.mem_map.1 h5
      exact (hrelpool c h6).2 (hij ▸ h4)
  · intro c hc
    rcases List.mem_append.1 hc with h4 | h4
    · exact hf2 c h4
    · exact (hrelpool c h4).1
  · intro s hs
    rw [List.map_append, List.mem_append, hf1]
    exact Or.inl (List.mem_map_of_mem hs)
  · rw [List.length_append]
    have e1 : (ss.filterMap (fun s => look all s.id)).length = ss.length := by
      have := congrArg List.length hf1
      simpa using this
    omega
  · intro c hc hcn
    have hcs : c.id ∉ ss.map Chunk.id := by
      intro hm
      obtain ⟨s, h4, h5⟩ := List.mem_map.1 hm
      apply hcn
      apply List.mem_append_left
      exact List.mem_filterMap.2 ⟨s, h4, by rw [h5]; exact look_mem hnall hc⟩
    have hcp : c ∈ pool := by
      rw [hpool, List.mem_filter, decide_eq_true_eq, hi.seeds]
      exact ⟨hc, hcs⟩
    obtain ⟨rest, hr1, hr2⟩ := htop.best
    have hcr : c ∈ rest := by
      have := (hr1.mem_iff).2 hcp
      rcases List.mem_append.1 this with h4 | h4
      · exact absurd (List.mem_append_right _ (hrel ▸ h4)) hcn
      · exact h4
    rw [hfilter]
    constructor
    · have hlen := hr1.length_eq
      rw [List.length_append] at hlen
      have hsz := htop.size
      have hpos : 0 < rest.length := List.length_pos_of_mem hcr
      rw [hrel]
      omega
    · intro x hx hxs
      refine hr2 c hcr x ?_
      rcases List.mem_append.1 hx with h4 | h4
      · exfalso; apply hxs; rw [← hf1]; exact List.mem_map_of_mem h4
      · exact hrel ▸ h4
  · rw [hfilter]; exact hrellen

theorem right_bare {w : World} {ss : List Chunk} {c c' : Chunk} (h : bare c = bare c') (hr : Right w ss c') : Right w ss c := by
  have e1 : c.id = c'.id := (congrArg Chunk.id h : (bare c).id = (bare c').id)
  have e2 : c.doc = c'.doc := (congrArg Chunk.doc h : (bare c).doc = (bare c').doc)
  have e3 : c.content = c'.content := (congrArg Chunk.content h : (bare c).content = (bare c').content)
  have e4 : c.score = c'.score := (congrArg Chunk.score h : (bare c).score = (bare c').score)
  unfold Right at hr ⊢
  rw [e1, e2, e3, e4]
  exact hr

theorem search_graph_eq {L : Lib} {w : World} {m : Mode} {dis : Bool} {o : QueryOpts} {q : Text} {ss : List Chunk}
    (hss : ss ≠ []) (hug : useGraph m dis (L.names q) [] = true) {r : Result} (h : search L w m dis o q (some ss) = some r) :
    ∃ a all, visitAll w true ⟨[], [], []⟩ ss = some a ∧ attach w a.results = some all ∧
      r.chunks = pack (queryDefaults o) (rerank L.tok q (L.qe q) (queryDefaults o)
        (ss.filterMap (fun s => look all s.id) ++ related L (queryDefaults o) a.seeds all)) ∧
      r.entities = L.keys (a.entities ++ all.flatMap (·.entities)) ∧ r.context = buildContext r.chunks := by
  cases ss with
  | nil => exact absurd rfl hss
  | cons s ss =>
    unfold search at h
    simp only [hug] at h
    cases hv : visitAll w true ⟨[], [], []⟩ (s :: ss) with
    | none => rw [hv] at h; simp at h
    | some a =>
      rw [hv] at h
      simp only [Bool.true_eq_false, if_false] at h
      cases hat : attach w a.results with
      | none => rw [hat] at h; simp at h
      | some all =>
        rw [hat] at h
        simp only [Option.some.injEq] at h
        subst h
        refine ⟨a, all, rfl, hat, ?_, rfl, rfl⟩
        simp only [finish, rerank_on, if_true]

/-- C135: when a search over chunks and the graph answers, every chunk of the answer is a seed of the vector search with its score, or
a chunk the graph links to a seed with half the score of the best such seed; no chunk is listed twice; each comes with its own
entities; there are at most `MaxContextChunks` chunks; the context is the listed chunks. -/
theorem C135_sound (L : Lib) (hL : Sorts L) (w : World) (m : Mode) (dis : Bool) (o : QueryOpts) (q : Text) (ss : List Chunk)
    (hss : ss ≠ []) (hn : (ss.map Chunk.id).Nodup) (hug : useGraph m dis (L.names q) [] = true) (r : Result)
    (h : search L w m dis o q (some ss) = some r) :
    (∀ c ∈ r.chunks, Right w ss c ∧ w.ents c.id = some c.entities) ∧ (r.chunks.map Chunk.id).Nodup ∧
    (r.chunks.length : Int) ≤ (queryDefaults o).maxChunks ∧ r.context = buildContext r.chunks := by
  obtain ⟨a, all, h1, h2, h3, -, h5⟩ := search_graph_eq hss hug h
  have hc := cand_spec L hL w o ss hn a h1 all h2
  obtain ⟨r1, r2, r3, -⟩ := ranked_spec L o q _ hc.nodup
  rw [h3] at h5 ⊢
  refine ⟨?_, r1, r2, h5⟩
  intro c hcm
  obtain ⟨c', h6, h7⟩ := r3 c hcm
  obtain ⟨h8, h9⟩ := hc.right c' (hc.sub c' h6)
  have e1 : c.id = c'.id := (congrArg Chunk.id h7 : (bare c).id = (bare c').id)
  have e5 : c.entities = c'.entities := (congrArg Chunk.entities h7 : (bare c).entities = (bare c').entities)
  exact ⟨right_bare h7 h8, by rw [e1, e5]; exact h9⟩

/-- C135: when the chunk budget covers the seeds and the linked chunks asked for (the default), every seed is in the answer unless the
budget of its document or of the context is used up; and a linked chunk that is missing for no such reason had to give way to
`MaxRelatedChunks` linked chunks with scores at least as high. -/
theorem C135_complete (L : Lib) (hL : Sorts L) (w : World) (m : Mode) (dis : Bool) (o : QueryOpts) (q : Text) (ss : List Chunk)
    (hss : ss ≠ []) (hn : (ss.map Chunk.id).Nodup) (hug : useGraph m dis (L.names q) [] = true) (r : Result)
    (hb : (ss.length : Int) + (queryDefaults o).maxRelated ≤ (queryDefaults o).maxChunks)
    (h : search L w m dis o q (some ss) = some r) :
    (∀ s ∈ ss, s.id ∈ r.chunks.map Chunk.id ∨ Excused (queryDefaults o) r.chunks s) ∧
    (∀ s n, Links w ss s n → n.id ∉ ss.map Chunk.id → n.id ∈ r.chunks.map Chunk.id ∨
      (∃ n', n'.id = n.id ∧ (∃ s', Links w ss s' n') ∧ Excused (queryDefaults o) r.chunks ⟨n'.id, n'.doc, n'.content, 0, [], 0⟩) ∨
      ∃ better : List Text, better.Nodup ∧ (better.length : Int) = (queryDefaults o).maxRelated ∧
        ∀ i ∈ better, i ∉ ss.map Chunk.id ∧ ∃ s' n', Links w ss s' n' ∧ n'.id = i ∧ s.score / 2 ≤ s'.score / 2) := by
  obtain ⟨a, all, h1, h2, h3, -, -⟩ := search_graph_eq hss hug h
  have hc := cand_spec L hL w o ss hn a h1 all h2
  obtain ⟨-, -, -, r4⟩ := ranked_spec L o q _ hc.nodup
  set cand := ss.filterMap (fun s => look all s.id) ++ related L (queryDefaults o) a.seeds all with hcand
  have r4 := r4 (by have := hc.size; omega)
  rw [← h3] at r4
  have hin : ∀ c' ∈ cand, c'.id ∈ r.chunks.map Chunk.id ∨ Excused (queryDefaults o) r.chunks c' := by
    intro c' hc'
    rcases r4 c' hc' with ⟨c, h6, h7⟩ | h6
    · exact Or.inl (List.mem_map.2 ⟨c, h6, (congrArg Chunk.id h7 : (bare c).id = (bare c').id)⟩)
    · exact Or.inr h6
  have hexc : ∀ c c' : Chunk, c.id = c'.id → c.doc = c'.doc → c.content = c'.content →
      Excused (queryDefaults o) r.chunks c → Excused (queryDefaults o) r.chunks c' := by
    intro c c' e1 e2 e3 he
    have e4 : lineLen c = lineLen c' := by unfold lineLen; rw [e1, e2, e3]
    unfold Excused at he ⊢
    rw [e2, e4] at he
    exact he
  constructor
  · intro s hs
    obtain ⟨c, h6, h7⟩ := List.mem_map.1 (hc.seeds s hs)
    rcases hin c h6 with h8 | h8
    · exact Or.inl (h7 ▸ h8)
    · right
      rcases (hc.right c (hc.sub c h6)).1 with ⟨s', h9, h10, h11, h12, -⟩ | ⟨h9, -⟩
      · have : s' = s := id_inj hn h9 hs (h10.symm.trans h7)
        subst this
        exact hexc c s' h10 h11 h12 h8
      · exact absurd h7.symm (h9 s hs)
  · intro s n hl hns
    obtain ⟨c, h6, h7⟩ := List.mem_map.1 ((hc.allIds n.id).2 (Or.inr ⟨s, n, hl, rfl⟩))
    obtain ⟨hR, -⟩ := hc.right c h6
    by_cases hcc : c ∈ cand
    · rcases hin c hcc with h8 | h8
      · exact Or.inl (h7 ▸ h8)
      · rcases hR with ⟨s', h9, h10, h11, h12, -⟩ | ⟨_, ⟨s', n', h9, h10, h11, h12⟩, _⟩
        · exact absurd (List.mem_map.2 ⟨s', h9, h10.symm.trans h7⟩) hns
        · right; left
          exact ⟨n', h10.trans h7, ⟨s', h9⟩, hexc c _ h10.symm h11 h12 h8⟩
    · right; right
      obtain ⟨h8, h9⟩ := hc.cut c h6 hcc
      refine ⟨(cand.filter (fun x => decide (x.id ∉ ss.map Chunk.id))).map Chunk.id,
        List.Nodup.sublist (List.filter_sublist.map _) hc.nodup, by simpa using h8, ?_⟩
      intro i hi
      obtain ⟨x, hx, rfl⟩ := List.mem_map.1 hi
      rw [List.mem_filter, decide_eq_true_eq] at hx
      refine ⟨hx.2, ?_⟩
      rcases (hc.right x (hc.sub x hx.1)).1 with ⟨s', h10, h11, -⟩ | ⟨_, _, ⟨s', n', h10, h11, h12⟩, _⟩
      · exact absurd (List.mem_map.2 ⟨s', h10, h11.symm⟩) hx.2
      · refine ⟨s', n', h10, h11, ?_⟩
        rw [← h12]
        refine le_trans ?_ (h9 x hx.1 hx.2)
        rcases hR with ⟨s2, h13, h14, -⟩ | ⟨_, _, _, h13⟩
        · exfalso
          apply hcc
          rw [hcand]
          apply List.mem_append_left
          exact List.mem_filterMap.2 ⟨s2, h13, by rw [← h14]; exact look_mem hc.allNodup h6⟩
        · exact h13 s n hl h7.symm

/-- `keys` lists a set. -/
def Keys (L : Lib) : Prop := ∀ l, (L.keys l).Nodup ∧ ∀ x, x ∈ L.keys l ↔ x ∈ l

/-- C135: the entities of the answer are, each once, those the graph returns around a seed and those next to a seed or to a chunk linked
to a seed (also when that chunk itself was cut from the answer). -/
theorem C135_entities (L : Lib) (hL : Sorts L) (hK : Keys L) (w : World) (m : Mode) (dis : Bool) (o : QueryOpts) (q : Text)
    (ss : List Chunk) (hss : ss ≠ []) (hn : (ss.map Chunk.id).Nodup) (hug : useGraph m dis (L.names q) [] = true) (r : Result)
    (h : search L w m dis o q (some ss) = some r) :
    r.entities.Nodup ∧ ∀ x, x ∈ r.entities ↔
      (∃ s ∈ ss, ∃ l n, w.expand s.id = some l ∧ n ∈ l ∧ n.ntype = "entity".toList ∧ n.content = x) ∨
      (∃ i es, (i ∈ ss.map Chunk.id ∨ ∃ s n, Links w ss s n ∧ n.id = i) ∧ w.ents i = some es ∧ x ∈ es) := by
  obtain ⟨a, all, h1, h2, -, h4, -⟩ := search_graph_eq hss hug h
  have hc := cand_spec L hL w o ss hn a h1 all h2
  obtain ⟨hi, -⟩ := inv_visitAll w ss inv_init (by simpa using hn) h1
  simp only [List.nil_append] at hi
  rw [h4]
  refine ⟨(hK _).1, fun x => ?_⟩
  rw [(hK _).2, List.mem_append, hi.ents, List.mem_flatMap]
  refine or_congr ?_ ?_
  · constructor
    · rintro ⟨p, h5, h6, h7⟩
      obtain ⟨s, h8, l, h9, h10, -⟩ := (mem_nearsOf _ _ _).1 h5
      exact ⟨s, h8, l, p.2, h9, h10, h6, h7⟩
    · rintro ⟨s, h8, l, n, h9, h10, h6, h7⟩
      exact ⟨(s.score, n), (mem_nearsOf _ _ _).2 ⟨s, h8, l, h9, h10, rfl⟩, h6, h7⟩
  · constructor
    · rintro ⟨c, h5, h6⟩
      exact ⟨c.id, c.entities, (hc.allIds _).1 (List.mem_map_of_mem h5), (hc.right c h5).2, h6⟩
    · rintro ⟨i, es, h5, h6, h7⟩
      obtain ⟨c, h8, rfl⟩ := List.mem_map.1 ((hc.allIds i).2 h5)
      refine ⟨c, h8, ?_⟩
      have := (hc.right c h8).2
      rw [h6, Option.some.injEq] at this
      rw [← this]; exact h7

/-- C135: the search fails exactly when a call to the graph does. -/
theorem C135_answers (L : Lib) (w : World) (m : Mode) (dis : Bool) (o : QueryOpts) (q : Text)
    (ss : List Chunk) (hn : (ss.map Chunk.id).Nodup)
    (hx : ∀ i, (w.expand i).isSome) (he : ∀ i, (w.ents i).isSome) : (search L w m dis o q (some ss)).isSome := by
  have hat : ∀ l, (attach w l).isSome := by
    intro l
    induction l with
    | nil => rfl
    | cons c l ih =>
      obtain ⟨es, h1⟩ := Option.isSome_iff_exists.1 (he c.id)
      obtain ⟨l', h2⟩ := Option.isSome_iff_exists.1 ih
      simp [attach, h1, h2]
  have hv : ∀ (b : Bool) (l : List Chunk) (a : Acc), (visitAll w b a l).isSome := by
    intro b l
    induction l with
    | nil => intro a; rfl
    | cons s l ih =>
      intro a
      obtain ⟨ns, h1⟩ := Option.isSome_iff_exists.1 (hx s.id)
      cases b <;> simp [visitAll, visit, h1, ih]
  cases ss with
  | nil => rfl
  | cons s ss =>
    unfold search
    simp only
    obtain ⟨a, h1⟩ := Option.isSome_iff_exists.1 (hv (useGraph m dis (L.names q) []) (s :: ss) ⟨[], [], []⟩)
    rw [h1]
    simp only
    split
    · rfl
    · obtain ⟨l', h2⟩ := Option.isSome_iff_exists.1 (hat a.results)
      rw [h2]; rfl

/-! ### C136 -/

/-- C136 without the graph (mode lexical, graph disabled, or no name in the query): every chunk of the answer is a seed, unchanged, so
in the collection that was searched, and no entities are listed. Missing: searches that use the graph, see
`C136_other_collection_violated`. -/
theorem C136_seeds_only_partial (L : Lib) (w : World) (m : Mode) (dis : Bool) (o : QueryOpts) (q : Text) (ss : List Chunk)
    (hn : (ss.map Chunk.id).Nodup) (hug : useGraph m dis (L.names q) [] = false) :
    ∃ r, search L w m dis o q (some ss) = some r ∧ r.entities = [] ∧ (r.chunks.map Chunk.id).Nodup ∧
      ∀ c ∈ r.chunks, ∃ s ∈ ss, c.id = s.id ∧ c.doc = s.doc ∧ c.content = s.content ∧ c.score = s.score := by
  cases ss with
  | nil => exact ⟨_, rfl, rfl, by simp, by simp⟩
  | cons s0 ss0 =>
    set ss := s0 :: ss0 with hss
    obtain ⟨a, h1, h2⟩ := visitAll_plain w ss inv_init (by simpa using hn)
    simp only [List.nil_append] at h2
    obtain ⟨hf1, hf2⟩ := filterMap_look_seeds a.results h2.nodup ss h2.seedIn
    refine ⟨⟨finish L (queryDefaults o) q (ss.filterMap (fun s => look a.results s.id)), [],
      buildContext (finish L (queryDefaults o) q (ss.filterMap (fun s => look a.results s.id)))⟩, ?_, rfl, ?_, ?_⟩
    · unfold search
      rw [hss]
      simp only [hug]
      rw [← hss, h1]
      simp only [if_true]
    · simp only [finish, rerank_on, if_true]
      exact (ranked_spec L o q _ (hf1 ▸ hn)).1
    · simp only [finish, rerank_on, if_true]
      intro c hc
      obtain ⟨c', h3, h4⟩ := (ranked_spec L o q _ (hf1 ▸ hn)).2.2.1 c hc
      have hc' : c'.id ∈ ss.map Chunk.id := by rw [← hf1]; exact List.mem_map_of_mem h3
      rcases h2.what c' (hf2 c' h3) with ⟨s, h5, rfl⟩ | ⟨h5, -⟩
      · exact ⟨s, h5, (congrArg Chunk.id h4 : (bare c).id = _), (congrArg Chunk.doc h4 : (bare c).doc = _),
          (congrArg Chunk.content h4 : (bare c).content = _), (congrArg Chunk.score h4 : (bare c).score = _)⟩
      · exact absurd hc' h5

/-- C136 when the graph links the seeds only to chunks of the same collection (`In`): the answer stays in it. Missing: nothing in the
code keeps the links in a collection, see `C136_other_collection_violated`. -/
theorem C136_linked_partial (L : Lib) (hL : Sorts L) (w : World) (m : Mode) (dis : Bool) (o : QueryOpts) (q : Text) (ss : List Chunk)
    (hss : ss ≠ []) (hn : (ss.map Chunk.id).Nodup) (hug : useGraph m dis (L.names q) [] = true) (r : Result)
    (h : search L w m dis o q (some ss) = some r) (In : Text → Prop) (hs : ∀ s ∈ ss, In s.id)
    (hl : ∀ s n, Links w ss s n → In n.id) : ∀ c ∈ r.chunks, In c.id := by
  intro c hc
  rcases ((C135_sound L hL w m dis o q ss hss hn hug r h).1 c hc).1 with ⟨s, h1, h2, -⟩ | ⟨_, ⟨s, n, h1, h2, -⟩, _⟩
  · rw [h2]; exact hs s h1
  · rw [← h2]; exact hl s n h1

/-! A concrete library and a concrete stored graph. -/

def lib0 : Lib where
  sort := insertSort (fun c : Chunk => c.score)
  keys := List.dedup
  tok := fun t => (fields (fun c => c == ' ') t).toFinset
  names := fun q => [q]

theorem lib0_sorts : Sorts lib0 := fun l => insertSort_sorts (fun c : Chunk => c.score) l

theorem lib0_keys : Keys lib0 := fun l => ⟨List.nodup_dedup l, fun _ => List.mem_dedup⟩

def node (id content ntype : String) : Verif.Graph.Node := ⟨id, [1], content, ntype, ""⟩
def edge (id a b : String) : Verif.Graph.Edge := ⟨id, a, b, "mentions", 1, "", []⟩

/-- Two documents, ingested into two collections, that mention the same entity. -/
def shared : Verif.Graph.State :=
  [node "chunk:a:000" "Acme hires" "chunk", node "chunk:b:000" "Acme salaries" "chunk", node "entity:acme" "Acme" "entity"].foldl
    (fun s n => (Verif.Graph.upsertNode s (some n)).1) Verif.Graph.init |> fun s =>
  [edge "edge:mention:chunk:a:000:entity:acme" "chunk:a:000" "entity:acme",
    edge "edge:mention:chunk:b:000:entity:acme" "chunk:b:000" "entity:acme"].foldl
    (fun s e => (Verif.Graph.upsertEdge true s (some e)).1) s

def opts0 : QueryOpts := ⟨0, 0, 0, 0, 0, 0, false, 0⟩

def seedA : Chunk := ⟨"chunk:a:000".toList, "a".toList, "Acme hires".toList, 9 / 10, [], 0⟩

def worldS : World := worldOf (fun _ => []) id 16 (queryDefaults opts0) shared

/-- C136: a search in the collection of document a, whose only chunk there is the seed, returns the text of a chunk of document b, which
is in another collection, because both mention the same entity. -/
theorem C136_other_collection_violated :
    (search lib0 worldS .auto false opts0 "Acme".toList (some [seedA])).map (fun r => r.chunks.map (fun c => (c.id, c.content))) =
      some [("chunk:a:000".toList, "Acme hires".toList), ("chunk:b:000".toList, "Acme salaries".toList)] := by
  decide +kernel

/-- The hypotheses of C135 hold for this search. -/
example : ([seedA].map Chunk.id).Nodup ∧ useGraph .auto false (lib0.names "Acme".toList) [] = true ∧
    (search lib0 worldS .auto false opts0 "Acme".toList (some [seedA])).isSome ∧
    (1 : Int) + (queryDefaults opts0).maxRelated ≤ (queryDefaults opts0).maxChunks := by
  decide +kernel

example : Links worldS [seedA] seedA ⟨"chunk:b:000".toList, "Acme salaries".toList, "chunk".toList, []⟩ := by
  refine ⟨List.mem_singleton_self _, rfl, ?_⟩
  refine ⟨[⟨"entity:acme".toList, "Acme".toList, "entity".toList, []⟩,
    ⟨"chunk:b:000".toList, "Acme salaries".toList, "chunk".toList, []⟩], by decide +kernel, by decide +kernel⟩

example : useGraph .lexical false (lib0.names "Acme".toList) [] = false := rfl

/-! ### C137 -/

/-- C137: whatever the caller asks, the options in force rerank. -/
theorem C137_always_reranks_violated (o : QueryOpts) : (queryDefaults { o with rerank := false }).rerank = true := rerank_on _

def sd (i : String) (content : String) (x : ℚ) : Chunk := ⟨i.toList, i.toList, content.toList, x, [], 0⟩

/-- C137: with `Rerank: false` a chunk with the lower search score comes first. -/
theorem C137_order_violated :
    (search lib0 worldS .lexical false { opts0 with rerank := false } "red fox".toList
      (some [sd "1" "cat" 1, sd "2" "red fox" (9 / 10), sd "3" "dog" 0])).map (fun r => r.chunks.map (fun c => (c.id, c.score))) =
    some [("2".toList, 9 / 10), ("1".toList, 1), ("3".toList, 0)] := by
  decide +kernel

end Verif.RagSearch
