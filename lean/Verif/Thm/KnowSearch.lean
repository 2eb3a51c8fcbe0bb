import Verif.Model.KnowSearch
import Verif.Base.Sort
import Mathlib.Data.List.Sort
import Mathlib.Data.List.TakeWhile

namespace Verif.KnowSearch

open Verif.Base Verif.Rag Verif.RagSearch

/-! ### C192 -/

/-- The first of the best chunks of a document in a list: no chunk of the document before it is as good, none after it is
better. -/
structure FirstBest (chunks : List Chunk) (id : Text) (c : Chunk) : Prop where
  own : keyOf c = id
  first : ∃ a b, chunks = a ++ c :: b ∧ (∀ x ∈ a, keyOf x = id → x.score < c.score) ∧
    ∀ x ∈ b, keyOf x = id → x.score ≤ c.score

/-- What a hit has to show, given the chunks retrieved and the stored documents. -/
structure Shows (sp : Char → Bool) (docs : Text → Option Info) (chunks : List Chunk) (f : Found) : Prop where
  best : ∃ c, FirstBest chunks f.id c ∧ f.score = c.score ∧
    (Reflect.snippet sp c.content ≠ [] → f.snippet = Reflect.snippet sp c.content)
  some_chunk : ∃ c ∈ chunks, keyOf c = f.id ∧ f.snippet = Reflect.snippet sp c.content
  doc : (∃ c ∈ chunks, c.doc = f.id ∧ c.doc ≠ []) → docs f.id = some f.info
  nodoc : (∀ c ∈ chunks, keyOf c = f.id → c.doc = []) → f.info = noInfo
  listed : ∀ x, x ∈ f.chunks ↔ ∃ c ∈ chunks, keyOf c = f.id ∧ c.id = x
  once : f.chunks.Nodup
  entities : ∀ x, x ∈ f.entities ↔ ∃ c ∈ chunks, keyOf c = f.id ∧ x ∈ c.entities
  eonce : f.entities.Nodup

/-- The invariant of the loop. -/
structure Good (sp : Char → Bool) (docs : Text → Option Info) (pre : List Chunk) (gs : List Found) : Prop where
  uniq : (gs.map Found.id).Nodup
  all : ∀ c ∈ pre, keyOf c ∈ gs.map Found.id
  shows : ∀ g ∈ gs, Shows sp docs pre g

theorem mem_addNew {l : List Text} {x y : Text} : y ∈ addNew l x ↔ y ∈ l ∨ y = x := by
  unfold addNew
  split
  · rename_i hx
    constructor
    · exact Or.inl
    · rintro (h | rfl)
      · exact h
      · exact hx
  · simp

theorem addNew_nodup {l : List Text} (h : l.Nodup) (x : Text) : (addNew l x).Nodup := by
  unfold addNew
  split
  · exact h
  · rename_i hx
    rw [List.nodup_append]
    exact ⟨h, by simp, by intro a ha b hb; simp at hb; rw [hb]; rintro rfl; exact hx ha⟩

theorem addNews (xs : List Text) : ∀ l : List Text, l.Nodup →
    (xs.foldl addNew l).Nodup ∧ ∀ y, y ∈ xs.foldl addNew l ↔ y ∈ l ∨ y ∈ xs := by
  induction xs with
  | nil => intro l h; simp [h]
  | cons x xs ih =>
    intro l h
    have := ih _ (addNew_nodup h x)
    refine ⟨this.1, fun y => ?_⟩
    rw [List.foldl_cons, this.2, mem_addNew]
    simp only [List.mem_cons]
    tauto

/-- A hit of another document is not touched. -/
theorem shows_other {sp : Char → Bool} {docs : Text → Option Info} {pre : List Chunk} {g : Found} {c : Chunk}
    (h : Shows sp docs pre g) (hk : keyOf c ≠ g.id) : Shows sp docs (pre ++ [c]) g := by
  have hsub : ∀ (P : Chunk → Prop), (∃ x ∈ pre ++ [c], keyOf x = g.id ∧ P x) ↔ ∃ x ∈ pre, keyOf x = g.id ∧ P x := by
    intro P
    constructor
    · rintro ⟨x, hx, h1, h2⟩
      rcases List.mem_append.1 hx with hx | hx
      · exact ⟨x, hx, h1, h2⟩
      · rw [List.mem_singleton] at hx
        subst hx
        exact absurd h1 hk
    · rintro ⟨x, hx, h1⟩
      exact ⟨x, List.mem_append_left _ hx, h1⟩
  refine ⟨?_, (hsub _).2 h.some_chunk, ?_, ?_, ?_, h.once, ?_, h.eonce⟩
  · obtain ⟨b, ⟨hb, l, r, hpre, hl, hr⟩, hs⟩ := h.best
    refine ⟨b, ⟨hb, l, r ++ [c], by simp [hpre], hl, ?_⟩, hs⟩
    intro x hx hxk
    rcases List.mem_append.1 hx with hx | hx
    · exact hr x hx hxk
    · rw [List.mem_singleton] at hx
      subst hx
      exact absurd hxk hk
  · rintro ⟨x, hx, h1, h2⟩
    have hkx : keyOf x = g.id := by unfold keyOf; rw [if_neg h2]; exact h1
    obtain ⟨y, hy, hyk⟩ := (hsub (fun y => y.doc = g.id ∧ y.doc ≠ [])).1 ⟨x, hx, hkx, h1, h2⟩
    exact h.doc ⟨y, hy, hyk.2⟩
  · intro hn
    exact h.nodoc (fun x hx => hn x (List.mem_append_left _ hx))
  · intro x; rw [h.listed, hsub]
  · intro x; rw [h.entities, hsub]

/-- What the loop has at hand for a chunk: its document when it names one. -/
def Loaded (docs : Text → Option Info) (c : Chunk) (d : Option Info) : Prop :=
  if c.doc = [] then d = none else d ≠ none ∧ docs c.doc = d

/-- A hit sees one more of its chunks. -/
theorem shows_see {sp : Char → Bool} {docs : Text → Option Info} {pre : List Chunk} {g : Found} {c : Chunk}
    {d : Option Info} (h : Shows sp docs pre g) (hk : keyOf c = g.id) (hd : Loaded docs c d) :
    Shows sp docs (pre ++ [c]) (see sp g c d) := by
  have hid : (see sp g c d).id = g.id := rfl
  have hex : ∀ (P : Chunk → Prop), (∃ x ∈ pre ++ [c], keyOf x = g.id ∧ P x) ↔
      (∃ x ∈ pre, keyOf x = g.id ∧ P x) ∨ P c := by
    intro P
    constructor
    · rintro ⟨x, hx, h1, h2⟩
      rcases List.mem_append.1 hx with hx | hx
      · exact Or.inl ⟨x, hx, h1, h2⟩
      · rw [List.mem_singleton] at hx
        subst hx
        exact Or.inr h2
    · rintro (⟨x, hx, h1⟩ | h1)
      · exact ⟨x, List.mem_append_left _ hx, h1⟩
      · exact ⟨c, by simp, hk, h1⟩
  obtain ⟨b, ⟨hb, l, r, hpre, hl, hr⟩, hs, hsn⟩ := h.best
  have hle : ∀ x ∈ pre, keyOf x = g.id → x.score ≤ g.score := by
    intro x hx hxk
    rw [hs]
    rw [hpre] at hx
    rcases List.mem_append.1 hx with hx | hx
    · exact le_of_lt (hl x hx hxk)
    · rcases List.mem_cons.1 hx with rfl | hx
      · exact le_refl _
      · exact hr x hx hxk
  constructor
  · by_cases hgt : c.score > g.score
    · refine ⟨c, ⟨hk, pre, [], rfl, ?_, by simp⟩, by simp [see, hgt], ?_⟩
      · intro x hx hxk; exact lt_of_le_of_lt (hle x hx hxk) hgt
      · intro hne; simp [see, hgt, hne]
    · refine ⟨b, ⟨hb, l, r ++ [c], by simp [hpre], hl, ?_⟩, by simp only [see, hgt, if_false]; exact hs, ?_⟩
      · intro x hx hxk
        rcases List.mem_append.1 hx with hx | hx
        · exact hr x hx hxk
        · rw [List.mem_singleton] at hx
          subst hx
          rw [← hs]; exact not_lt.1 hgt
      · intro hne
        simp only [see, hgt, false_and, if_false]
        exact hsn hne
  · rw [hid]
    simp only [see]
    split
    · exact ⟨c, by simp, hk, rfl⟩
    · exact (hex _).2 (Or.inl h.some_chunk)
  · rintro ⟨x, hx, h1, h2⟩
    rw [hid] at h1 ⊢
    by_cases hc : c.doc = []
    · have hdn : d = none := by simpa [Loaded, hc] using hd
      subst hdn
      simp only [see, Option.getD_none]
      apply h.doc
      rcases List.mem_append.1 hx with hx | hx
      · exact ⟨x, hx, h1, h2⟩
      · rw [List.mem_singleton] at hx
        subst hx
        exact absurd hc h2
    · have hdd : d ≠ none ∧ docs c.doc = d := by simpa [Loaded, hc] using hd
      have hkc : c.doc = g.id := by rw [← hk]; unfold keyOf; rw [if_neg hc]
      cases hd' : d with
      | none => exact absurd hd' hdd.1
      | some i =>
        rw [hd', hkc] at hdd
        simp only [see, Option.getD_some]
        exact hdd.2
  · intro hn
    rw [hid] at hn
    have hcd : c.doc = [] := hn c (by simp) hk
    have hdn : d = none := by simpa [Loaded, hcd] using hd
    subst hdn
    simp only [see, Option.getD_none]
    exact h.nodoc (fun x hx => hn x (List.mem_append_left _ hx))
  · intro x
    rw [hid, hex (fun y => y.id = x)]
    simp only [see, mem_addNew, h.listed]
    exact or_congr Iff.rfl eq_comm
  · exact addNew_nodup h.once _
  · intro x
    rw [hid, hex (fun y => x ∈ y.entities)]
    simp only [see]
    rw [(addNews c.entities g.entities h.eonce).2, h.entities]
  · exact (addNews c.entities g.entities h.eonce).1

/-- A new hit with its first chunk. -/
theorem shows_new {sp : Char → Bool} {docs : Text → Option Info} {pre : List Chunk} {c : Chunk} {d : Option Info}
    (hn : ∀ x ∈ pre, keyOf x ≠ keyOf c) (hd : Loaded docs c d) :
    Shows sp docs (pre ++ [c]) (see sp ⟨keyOf c, noInfo, c.score, Reflect.snippet sp c.content, [], []⟩ c d) := by
  have hex : ∀ (P : Chunk → Prop), (∃ x ∈ pre ++ [c], keyOf x = keyOf c ∧ P x) ↔ P c := by
    intro P
    constructor
    · rintro ⟨x, hx, h1, h2⟩
      rcases List.mem_append.1 hx with hx | hx
      · exact absurd h1 (hn x hx)
      · rw [List.mem_singleton] at hx
        subst hx
        exact h2
    · intro h; exact ⟨c, by simp, rfl, h⟩
  constructor
  · refine ⟨c, ⟨rfl, pre, [], rfl, ?_, by simp⟩, by simp [see], by simp [see]⟩
    intro x hx hxk; exact absurd hxk (hn x hx)
  · exact ⟨c, by simp, rfl, by simp [see]⟩
  · rintro ⟨x, hx, h1, h2⟩
    have hkx : keyOf x = keyOf c := by unfold keyOf; rw [if_neg h2]; exact h1
    rcases List.mem_append.1 hx with hx | hx
    · exact absurd hkx (hn x hx)
    · rw [List.mem_singleton] at hx
      subst hx
      have hdd : d ≠ none ∧ docs x.doc = d := by simpa [Loaded, h2] using hd
      have hkc : x.doc = keyOf x := h1
      cases hd' : d with
      | none => exact absurd hd' hdd.1
      | some i =>
        rw [hd', hkc] at hdd
        simp only [see, Option.getD_some]
        exact hdd.2
  · intro h
    have hcd : c.doc = [] := h c (by simp) rfl
    have hdn : d = none := by simpa [Loaded, hcd] using hd
    subst hdn
    simp [see]
  · intro x
    rw [show (see sp ⟨keyOf c, noInfo, c.score, Reflect.snippet sp c.content, [], []⟩ c d).id = keyOf c from rfl,
      hex (fun y => y.id = x)]
    simp only [see, mem_addNew, List.not_mem_nil, false_or]
    exact eq_comm
  · exact addNew_nodup List.nodup_nil _
  · intro x
    rw [show (see sp ⟨keyOf c, noInfo, c.score, Reflect.snippet sp c.content, [], []⟩ c d).id = keyOf c from rfl,
      hex (fun y => x ∈ y.entities)]
    simp only [see]
    rw [(addNews c.entities [] (by simp)).2]
    simp
  · exact (addNews c.entities [] (by simp)).1

theorem ids_map (sp : Char → Bool) (c : Chunk) (d : Option Info) (gs : List Found) :
    (gs.map (fun g => if g.id = keyOf c then see sp g c d else g)).map Found.id = gs.map Found.id := by
  rw [List.map_map]
  apply List.map_congr_left
  intro g _
  simp only [Function.comp]
  split <;> rfl

theorem good_add {sp : Char → Bool} {docs : Text → Option Info} {pre : List Chunk} {gs : List Found}
    (h : Good sp docs pre gs) (c : Chunk) (d : Option Info) (hd : Loaded docs c d) :
    Good sp docs (pre ++ [c]) (addChunk sp gs c d) := by
  unfold addChunk
  by_cases hany : gs.any (fun g => decide (g.id = keyOf c)) = true
  · simp only [hany, if_true]
    have hin : keyOf c ∈ gs.map Found.id := by
      rw [List.any_eq_true] at hany
      obtain ⟨g, hg, hk⟩ := hany
      exact List.mem_map.2 ⟨g, hg, by simpa using hk⟩
    refine ⟨by rw [ids_map]; exact h.uniq, ?_, ?_⟩
    · intro x hx
      rw [ids_map]
      rcases List.mem_append.1 hx with hx | hx
      · exact h.all x hx
      · rw [List.mem_singleton] at hx; subst hx; exact hin
    · intro g hg
      obtain ⟨g0, hg0, rfl⟩ := List.mem_map.1 hg
      split
      · rename_i hk; exact shows_see (h.shows g0 hg0) hk.symm hd
      · rename_i hk; exact shows_other (h.shows g0 hg0) (fun e => hk e.symm)
  · simp only [hany, Bool.false_eq_true, if_false]
    have hno : ∀ g ∈ gs, g.id ≠ keyOf c := by
      intro g hg e
      exact hany (List.any_eq_true.2 ⟨g, hg, by simpa using e⟩)
    refine ⟨?_, ?_, ?_⟩
    · rw [ids_map, List.map_append, List.nodup_append]
      refine ⟨h.uniq, by simp, ?_⟩
      intro a ha b hb
      simp at hb
      obtain ⟨g, hg, rfl⟩ := List.mem_map.1 ha
      rw [hb]; exact hno g hg
    · intro x hx
      rw [ids_map, List.map_append]
      rcases List.mem_append.1 hx with hx | hx
      · exact List.mem_append_left _ (h.all x hx)
      · rw [List.mem_singleton] at hx; subst hx; simp
    · intro g hg
      obtain ⟨g0, hg0, rfl⟩ := List.mem_map.1 hg
      rcases List.mem_append.1 hg0 with hg0 | hg0
      · rw [if_neg (hno g0 hg0)]
        exact shows_other (h.shows g0 hg0) (fun e => hno g0 hg0 e.symm)
      · rw [List.mem_singleton] at hg0
        subst hg0
        rw [if_pos rfl]
        refine shows_new ?_ hd
        intro x hx e
        have := h.all x hx
        rw [e] at this
        obtain ⟨g, hg, hk⟩ := List.mem_map.1 this
        exact hno g hg hk

theorem good_group {sp : Char → Bool} {docs : Text → Option Info} (cs : List Chunk) : ∀ (pre : List Chunk) (gs out : List Found),
    Good sp docs pre gs → group sp docs gs cs = some out → Good sp docs (pre ++ cs) out := by
  induction cs with
  | nil => intro pre gs out h ho; simp [group] at ho; subst ho; simpa using h
  | cons c cs ih =>
    intro pre gs out h ho
    rw [group] at ho
    have key : pre ++ c :: cs = (pre ++ [c]) ++ cs := by simp
    rw [key]
    split at ho
    · rename_i hc
      exact ih _ _ _ (good_add h c none (by simp [Loaded, hc])) ho
    · rename_i hc
      split at ho
      · exact absurd ho (by simp)
      · rename_i d hdoc
        exact ih _ _ _ (good_add h c (some d) (by simp [Loaded, hc, hdoc])) ho

theorem group_none {sp : Char → Bool} {docs : Text → Option Info} (cs : List Chunk) : ∀ gs : List Found,
    group sp docs gs cs = none ↔ ∃ c ∈ cs, c.doc ≠ [] ∧ docs c.doc = none := by
  induction cs with
  | nil => intro gs; simp [group]
  | cons c cs ih =>
    intro gs
    rw [group]
    split
    · rename_i hc; rw [ih]; simp [hc]
    · rename_i hc
      split
      · rename_i hd; simp [hc, hd]
      · rename_i d hd; rw [ih]; simp [hd]

/-- Before in the result: higher score, or the same score and an id that is not greater. -/
def before (le : Text → Text → Prop) (a b : Found) : Prop := b.score < a.score ∨ (a.score = b.score ∧ le a.id b.id)

/-- C192: what a successful knowledge search shows. Every hit stands for one document (a chunk without a document stands for
itself), no two for the same; its score is that of its best chunk, its snippet is made from the first of its best chunks
unless that is blank, and always from one of its chunks; title, source, author and metadata are those of the stored document;
its chunk ids and entities are exactly those of its chunks, each once. Every retrieved chunk is listed under a hit, and hits
come by descending score. For all retrieved chunks, documents and every sort that sorts. -/
theorem C192_hits (E : Env) (r : Req) (resp : Response) (le : Text → Text → Prop)
    (hsort : ∀ l, SortedFrom (before le) l (E.sort l)) (horder : ∀ l, (E.order l).Perm l)
    (h : search E r = .ok resp) :
    (∀ f ∈ resp.results, Shows E.sp E.docs resp.chunks f) ∧ (resp.results.map Found.id).Nodup ∧
    (∀ c ∈ resp.chunks, ∃ f ∈ resp.results, f.id = keyOf c ∧ c.id ∈ f.chunks) ∧
    resp.results.Pairwise (fun a b => b.score ≤ a.score) := by
  unfold search at h
  split at h
  · exact absurd h (by simp)
  · split at h
    · exact absurd h (by simp)
    · rename_i res hres
      split at h
      · exact absurd h (by simp)
      · rename_i hs hhs
        simp only [Except.ok.injEq] at h
        subst h
        simp only
        unfold hitsOf at hhs
        cases hg : group E.sp E.docs [] res.chunks with
        | none => rw [hg] at hhs; simp at hhs
        | some gs =>
          rw [hg] at hhs
          simp only [Option.map_some, Option.some.injEq] at hhs
          subst hhs
          have good : Good E.sp E.docs res.chunks gs := by
            have := good_group res.chunks [] [] gs ⟨by simp, by simp, by simp⟩ hg
            simpa using this
          obtain ⟨hp, hpw⟩ := hsort (gs.map (fun g => { g with entities := E.order g.entities }))
          have hids : (gs.map (fun g => { g with entities := E.order g.entities })).map Found.id = gs.map Found.id := by
            rw [List.map_map]; rfl
          have hsh : ∀ f ∈ E.sort (gs.map (fun g => { g with entities := E.order g.entities })),
              Shows E.sp E.docs res.chunks f := by
            intro f hf
            obtain ⟨g, hgm, rfl⟩ := List.mem_map.1 (hp.mem_iff.1 hf)
            have hs := good.shows g hgm
            exact ⟨hs.best, hs.some_chunk, hs.doc, hs.nodoc, hs.listed, hs.once,
              fun x => by rw [(horder g.entities).mem_iff]; exact hs.entities x, (horder g.entities).nodup_iff.2 hs.eonce⟩
          refine ⟨hsh, ?_, ?_, ?_⟩
          · rw [(hp.map Found.id).nodup_iff, hids]; exact good.uniq
          · intro c hc
            have hk := good.all c hc
            rw [← hids] at hk
            obtain ⟨f, hf, hfk⟩ := List.mem_map.1 hk
            have hf' := hp.mem_iff.2 hf
            exact ⟨f, hf', hfk, ((hsh f hf').listed c.id).2 ⟨c, hc, hfk.symm, rfl⟩⟩
          · refine hpw.imp ?_
            rintro a b (h1 | h1)
            · exact le_of_lt h1
            · exact le_of_eq h1.1.symm

/-- C192: a search is refused for a blank query; otherwise it fails exactly when the retrieval fails or a document of a
retrieved chunk cannot be loaded: one missing document costs the whole answer. -/
theorem C192_refused (E : Env) (r : Req) :
    (search E r = .error .emptyText ↔ ∀ c ∈ r.query, E.sp c = true) ∧
    (∀ res, retrieve E r = some res → (∃ c ∈ r.query, E.sp c = false) →
      (search E r = .error .document ↔ ∃ c ∈ res.chunks, c.doc ≠ [] ∧ E.docs c.doc = none)) := by
  have ht : trim E.sp r.query = [] ↔ ∀ c ∈ r.query, E.sp c = true := by
    unfold trim
    rw [List.reverse_eq_nil_iff, List.dropWhile_eq_nil_iff]
    constructor
    · intro h
      have hd : r.query.dropWhile E.sp = [] := by
        cases he : r.query.dropWhile E.sp with
        | nil => rfl
        | cons x xs =>
          have hx := List.head_dropWhile_not E.sp (l := r.query) (by rw [he]; simp)
          simp only [he, List.head_cons] at hx
          have := h x (by rw [he]; simp)
          rw [hx] at this
          exact absurd this (by simp)
      exact List.dropWhile_eq_nil_iff.1 hd
    · intro h
      rw [List.dropWhile_eq_nil_iff.2 h]
      simp
  constructor
  · unfold search
    rw [← ht]
    constructor
    · intro h
      split at h
      · rename_i h1; exact h1
      · split at h
        · exact absurd h (by simp)
        · split at h <;> exact absurd h (by simp)
    · intro h; rw [if_pos h]
  · rintro res hres ⟨c, hc, hsp⟩
    have hne : ¬ trim E.sp r.query = [] := by
      rw [ht]; intro h; rw [h c hc] at hsp; exact absurd hsp (by simp)
    rw [← group_none (sp := E.sp) res.chunks []]
    unfold search
    rw [if_neg hne, hres]
    simp only
    unfold hitsOf
    cases group E.sp E.docs [] res.chunks <;> simp

/-- C192: the chunks, entities and context of the answer are those of the retrieval, and the query is repeated. -/
theorem C192_passes_through (E : Env) (r : Req) (resp : Response) (h : search E r = .ok resp) :
    resp.query = r.query ∧ retrieve E r = some ⟨resp.chunks, resp.entities, resp.context⟩ := by
  unfold search at h
  split at h
  · exact absurd h (by simp)
  · split at h
    · exact absurd h (by simp)
    · rename_i res hres
      split at h
      · exact absurd h (by simp)
      · simp only [Except.ok.injEq] at h
        subst h
        exact ⟨rfl, hres⟩

/-! ### C193 -/

/-- C193, broken: with an embedder and any mode but "lexical", entity names, keywords and alternate queries of the request
have no effect on the outcome, whatever they are. -/
theorem C193_hints_violated (E : Env) (r : Req) (hE : E.embedder = true) (hm : parseMode E.lower E.sp r.mode ≠ .lexical)
    (names keywords alternates : List Text) :
    search E { r with names := names, keywords := keywords, alternates := alternates } = search E r := by
  unfold search retrieve
  simp [hE, hm]

/-- C193 where it holds: without an embedder, or in lexical mode, the whole request reaches the lexical retrieval. -/
theorem C193_hints_partial (E : Env) (r : Req) (h : E.embedder = false ∨ parseMode E.lower E.sp r.mode = .lexical) :
    retrieve E r = E.lexical r := by
  unfold retrieve
  rw [if_neg]
  rintro ⟨h1, h2⟩
  rcases h with h | h
  · rw [h] at h1; exact absurd h1 (by simp)
  · exact h2 h

/-- C193: the limits of the request reach the semantic retrieval, with the documented defaults for those not given. -/
theorem C193_limits (E : Env) (r : Req) (hE : E.embedder = true) (hm : parseMode E.lower E.sp r.mode ≠ .lexical) :
    ∃ coll o, retrieve E r = E.semantic r.query coll o (parseMode E.lower E.sp r.mode) r.disableGraph ∧
      (r.collection ≠ [] → coll = r.collection) ∧
      (0 < r.opts.topK → o.topK = r.opts.topK) ∧ (r.opts.topK ≤ 0 → o.topK = 4) ∧
      (0 < r.opts.maxHops → o.maxHops = r.opts.maxHops) ∧ (r.opts.maxHops ≤ 0 → o.maxHops = 2) ∧
      (0 < r.opts.maxRelated → o.maxRelated = r.opts.maxRelated) ∧ (r.opts.maxRelated ≤ 0 → o.maxRelated = o.topK) ∧
      (0 < r.opts.maxChunks → o.maxChunks = r.opts.maxChunks) ∧
      (r.opts.maxChunks ≤ 0 → o.maxChunks = o.topK + o.maxRelated) ∧
      (0 < r.opts.maxChars → o.maxChars = r.opts.maxChars) ∧ (r.opts.maxChars ≤ 0 → o.maxChars = 2400) ∧
      (0 < r.opts.perDoc → o.perDoc = r.opts.perDoc) ∧ (r.opts.perDoc ≤ 0 → o.perDoc = 2) ∧
      (0 < r.opts.lambda → r.opts.lambda ≤ 1 → o.lambda = r.opts.lambda) ∧ o.rerank = true := by
  refine ⟨collOf r.collection, queryDefaults { r.opts with rerank := true }, ?_, ?_⟩
  · unfold retrieve; rw [if_pos ⟨hE, hm⟩]
  · refine ⟨fun h => by simp [collOf, h], ?_, ?_, ?_, ?_, ?_, ?_, ?_, ?_, ?_, ?_, ?_, ?_, ?_, ?_⟩ <;>
      simp only [queryDefaults] <;> try (intro h; split_ifs <;> omega)
    · intro h1 h2
      rw [if_neg]
      simp only [Bool.or_eq_true, decide_eq_true_eq, not_or, not_le, not_lt, gt_iff_lt]
      exact ⟨h1, h2⟩
    · simp

/-! ### Not vacuous -/

/-- Three chunks of one document and one without a document; the second and third are equally good. -/
def sampleChunks : List Chunk :=
  [⟨['a'], ['d'], ['x'], 1, [['E']], 0⟩, ⟨['b'], ['d'], ['y', ' ', 'y'], 2, [], 0⟩, ⟨['c'], ['d'], ['z'], 2, [['F'], ['E']], 0⟩,
    ⟨['o'], [], ['w'], 3, [], 0⟩]

def sampleEnv : Env where
  embedder := true
  lower := id
  sp := (· == ' ')
  semantic := fun _ _ _ _ _ => some ⟨sampleChunks, [], []⟩
  lexical := fun r => some ⟨[⟨['k'], [], r.keywords.flatten, 1, [], 0⟩], [], []⟩
  docs := fun d => if d = ['d'] then some ⟨['T'], ['S'], ['A'], ['M']⟩ else none
  sort := fun l => l.insertionSort (fun a b => b.score ≤ a.score)
  order := id

def sampleReq (mode : Text) : Req := ⟨['q'], [], ⟨0, 0, 0, 0, 0, 0, false, 0⟩, [], [['k', 'w']], [], mode, false⟩

example : (match search sampleEnv (sampleReq []) with | .ok r => r.results | .error _ => []) =
    [⟨['o'], noInfo, 3, bytes ['w'], [['o']], []⟩,
     ⟨['d'], ⟨['T'], ['S'], ['A'], ['M']⟩, 2, bytes ['y', ' ', 'y'], [['a'], ['b'], ['c']], [['E'], ['F']]⟩] := by
  decide +kernel

/-- The sample sort sorts. -/
example : (∀ l, SortedFrom (before fun _ _ => True) l (sampleEnv.sort l)) ∧ ∀ l, (sampleEnv.order l).Perm l := by
  refine ⟨fun l => ⟨List.perm_insertionSort _ l, ?_⟩, fun l => List.Perm.refl l⟩
  haveI : Std.Total (fun a b : Found => b.score ≤ a.score) := ⟨fun a b => le_total _ _⟩
  haveI : IsTrans Found (fun a b : Found => b.score ≤ a.score) := ⟨fun a b c h1 h2 => le_trans h2 h1⟩
  refine (List.pairwise_insertionSort (fun a b : Found => b.score ≤ a.score) l).imp ?_
  intro a b h
  rcases lt_or_eq_of_le h with h | h
  · exact Or.inl h
  · exact Or.inr ⟨h.symm, trivial⟩

example : parseMode sampleEnv.lower sampleEnv.sp [] ≠ .lexical ∧
    parseMode sampleEnv.lower sampleEnv.sp "lexical".toList = .lexical := by decide +kernel

/-- In lexical mode the keywords reach the retrieval. -/
example : (retrieve sampleEnv (sampleReq "lexical".toList)).map (fun r => r.chunks.map Chunk.content) = some [['k', 'w']] := by
  decide +kernel

/-- A chunk of a document that cannot be loaded. -/
example : search { sampleEnv with docs := fun _ => none } (sampleReq []) = .error .document := by decide +kernel

end Verif.KnowSearch
