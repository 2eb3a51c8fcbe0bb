import Verif.Thm.RagLexical

/-!
C218: which searches use the graph, told from the options of the call. C139 for chunks found by entity.
-/
namespace Verif.RagSearch
open Verif.Base Verif.Rag

/-- The mode is the given word, up to case and surrounding blanks. -/
def Says (lower : Char → Char) (sp : Char → Bool) (mode : Text) (w : String) : Prop := (trim sp mode).map lower = w.toList

/-- The caller wants no graph. -/
def Off (lower : Char → Char) (sp : Char → Bool) (mode : Text) (disable : Bool) : Prop := disable = true ∨ Says lower sp mode "lexical"

/-- The caller wants the graph, or leaves it open and the question (or the caller) names an entity. -/
def On (lower : Char → Char) (sp : Char → Bool) (mode : Text) (disable : Bool) (named : Prop) : Prop :=
  disable = false ∧ (Says lower sp mode "graph" ∨ (¬ Says lower sp mode "lexical" ∧ named))

theorem useGraph_off {lower : Char → Char} {sp : Char → Bool} {mode : Text} {dis : Bool} (h : Off lower sp mode dis) (qn en : List Text) :
    useGraph (parseMode lower sp mode) dis qn en = false := by
  unfold useGraph
  rcases h with h | h
  · rw [if_pos h]
  · split
    · rfl
    · have : parseMode lower sp mode = .lexical := by
        unfold parseMode
        unfold Says at h
        rw [h]
        decide
      rw [this]

theorem useGraph_on {lower : Char → Char} {sp : Char → Bool} {mode : Text} {dis : Bool} {qn en : List Text}
    (h : On lower sp mode dis (qn ≠ [] ∨ en ≠ [])) : useGraph (parseMode lower sp mode) dis qn en = true := by
  obtain ⟨h0, h⟩ := h
  unfold useGraph
  rw [if_neg (by simp [h0])]
  rcases h with h | ⟨h1, h2⟩
  · have : parseMode lower sp mode = .graph := by
      unfold parseMode
      unfold Says at h
      rw [h]
      decide
    rw [this]
  · have hauto : ∀ b : Bool, b = true → (match parseMode lower sp mode with | .lexical => false | .graph => true | .auto => b) = true := by
      intro b hb
      unfold parseMode
      unfold Says at h1
      simp only
      split_ifs <;> simp [hb]
    apply hauto
    split
    · rfl
    · rename_i he
      rcases h2 with h2 | h2
      · simpa [List.length_pos_iff] using h2
      · exact absurd (List.length_pos_iff.2 h2) he

theorem useGraph_open {lower : Char → Char} {sp : Char → Bool} {mode : Text} {dis : Bool} (h : ¬ Says lower sp mode "graph") :
    useGraph (parseMode lower sp mode) dis [] [] = false := by
  unfold useGraph
  split
  · rfl
  · unfold Says at h
    unfold parseMode
    simp only [List.length_nil, gt_iff_lt, lt_self_iff_false, if_false, decide_false]
    split_ifs <;> rfl

/-- C218: when the caller disables the graph or asks for the mode "lexical" in any case and with any blanks around it, or leaves the mode open and
neither the question nor the caller names an entity, the answer has hits of the search only, with their texts, and no entities; the graph is not asked. -/
theorem C218_off (L : Lib) (w : World) (lower : Char → Char) (sp : Char → Bool) (mode : Text) (dis : Bool) (o : QueryOpts) (q : Text)
    (en : List Text) (hits : List Chunk) (byEnt : List Text → Option (List Chunk))
    (h : Off lower sp mode dis ∨ (¬ Says lower sp mode "graph" ∧ L.names q = [] ∧ en = [])) :
    ((hits.map Chunk.id).Nodup → ∃ r, (∀ w' : World, search L w' (parseMode lower sp mode) dis o q (some hits) = some r) ∧ r.entities = [] ∧
      ∀ c ∈ r.chunks, ∃ s ∈ hits, c.id = s.id ∧ c.doc = s.doc ∧ c.content = s.content ∧ c.score = s.score) ∧
    ∃ r, (∀ w' : World, searchLexical L w' (parseMode lower sp mode) dis o q en (some hits) byEnt = some r) ∧ r.entities = [] ∧
      ∀ c ∈ r.chunks, ∃ s ∈ hits, c.id = s.id ∧ c.doc = s.doc ∧ c.content = s.content := by
  have hug : ∀ e, (e = [] ∨ e = en) → useGraph (parseMode lower sp mode) dis (L.names q) e = false := by
    intro e he
    rcases h with h | ⟨h1, h2, h3⟩
    · exact useGraph_off h _ _
    · have : e = [] := by rcases he with he | he <;> simp [he, h3]
      rw [h2, this]
      exact useGraph_open h1
  constructor
  · intro hn
    obtain ⟨r, h1, h2, -, h4⟩ := C136_seeds_only_partial L w (parseMode lower sp mode) dis o q hits hn (hug [] (.inl rfl))
    refine ⟨r, fun w' => ?_, h2, h4⟩
    have hv : ∀ (l : List Chunk) (a : Acc), visitAll w' false a l = visitAll w false a l := by
      intro l
      induction l with
      | nil => intro a; rfl
      | cons x l ih =>
        intro a
        simp only [visitAll, visit, Bool.false_eq_true, if_false, ih]
    rw [← h1]
    unfold search
    simp only [hug [] (.inl rfl), hv, if_true]
  · obtain ⟨r, h1, h2, -, h4⟩ := C138_without_graph_partial L w (parseMode lower sp mode) dis o q en hits byEnt (hug en (.inr rfl))
    refine ⟨r, fun w' => ?_, h2, h4⟩
    rw [← h1]
    unfold searchLexical
    simp only [hug en (.inr rfl), Bool.false_eq_true, false_and, if_false, if_true]

/-- C218: when the caller asks for the mode "graph" in any case and with any blanks around it, or leaves the mode open and the question names an
entity, a search with vectors asks the graph: it fails if the graph cannot be read around a hit, and otherwise lists the entities around the hits and
next to the chunks found. -/
theorem C218_on (L : Lib) (hL : Sorts L) (hK : Keys L) (w : World) (lower : Char → Char) (sp : Char → Bool) (mode : Text) (dis : Bool) (o : QueryOpts)
    (q : Text) (hits : List Chunk) (hne : hits ≠ []) (hn : (hits.map Chunk.id).Nodup) (h : On lower sp mode dis (L.names q ≠ [])) :
    ((∃ s ∈ hits, w.expand s.id = none) → search L w (parseMode lower sp mode) dis o q (some hits) = none) ∧
    ∀ r, search L w (parseMode lower sp mode) dis o q (some hits) = some r → r.entities.Nodup ∧ ∀ x, x ∈ r.entities ↔
      (∃ s ∈ hits, ∃ l n, w.expand s.id = some l ∧ n ∈ l ∧ n.ntype = "entity".toList ∧ n.content = x) ∨
      (∃ i es, (i ∈ hits.map Chunk.id ∨ ∃ s n, Links w hits s n ∧ n.id = i) ∧ w.ents i = some es ∧ x ∈ es) := by
  have hug : useGraph (parseMode lower sp mode) dis (L.names q) [] = true :=
    useGraph_on ⟨h.1, h.2.imp id (fun k => ⟨k.1, .inl k.2⟩)⟩
  refine ⟨?_, fun r hr => C135_entities L hL hK w _ dis o q hits hne hn hug r hr⟩
  rintro ⟨s, hs, he⟩
  have hv : ∀ (l : List Chunk) (a : Acc), s ∈ l → visitAll w true a l = none := by
    intro l
    induction l with
    | nil => intro a ha; cases ha
    | cons x l ih =>
      intro a ha
      simp only [visitAll]
      rcases List.mem_cons.1 ha with rfl | ha
      · simp [visit, he]
      · split
        · rfl
        · exact ih _ ha
  unfold search
  cases hits with
  | nil => exact absurd rfl hne
  | cons x xs => simp only [hug, hv _ _ hs]

/-- C218 for the search by words: it asks for the chunks of the entities named by the caller (or else by the question), and fails when they cannot be
read; it fails when the graph cannot be read around a hit. -/
theorem C218_on_lexical (L : Lib) (w : World) (lower : Char → Char) (sp : Char → Bool) (mode : Text) (dis : Bool) (o : QueryOpts) (q : Text)
    (en : List Text) (ts : List Chunk) (byEnt : List Text → Option (List Chunk)) (h : On lower sp mode dis (L.names q ≠ [] ∨ en ≠ [])) :
    let asked := if en = [] then L.names q else en
    (asked ≠ [] → byEnt asked = none → searchLexical L w (parseMode lower sp mode) dis o q en (some ts) byEnt = none) ∧
    ∀ r, searchLexical L w (parseMode lower sp mode) dis o q en (some ts) byEnt = some r → ∀ s ∈ ts, w.expand s.id ≠ none := by
  intro asked
  have hug := useGraph_on h
  have hask : (if en.length = 0 then L.names q else en) = asked := by simp [asked]
  constructor
  · intro h1 h2
    unfold searchLexical
    simp only [hug, true_and, hask, if_pos (List.length_pos_iff.2 h1), h2, Option.map_none]
  · intro r hr s hs he
    obtain ⟨occ, h1, h2⟩ := lex_graph_eq hug hr
    have hocc : s ∈ occ := by
      unfold lexSeeds at h1
      simp only [true_and, hask] at h1
      split at h1
      · obtain ⟨cs, -, rfl⟩ := Option.map_eq_some_iff.1 h1
        exact List.mem_append_left _ hs
      · injection h1 with h1; rw [← h1]; exact hs
    rcases h2 with ⟨h3, -⟩ | ⟨a, b, all, h3, h4, h5, h6, h7⟩
    · rw [h3] at hocc; cases hocc
    · have hx : ∀ (l : List Text) (a b : Acc), expandAll w a l = some b → s.id ∉ l := by
        intro l
        induction l with
        | nil => intro a b _ hm; cases hm
        | cons i l ih =>
          intro a b hab hm
          simp only [expandAll] at hab
          cases hw : w.expand i with
          | none => rw [hw] at hab; cases hab
          | some ns =>
            rw [hw] at hab
            rcases List.mem_cons.1 hm with e | hm
            · rw [e, hw] at he; cases he
            · exact ih _ _ hab hm
      exact hx _ _ _ h4 ((h3.seeds.2 _).2 (List.mem_map_of_mem hocc))

/-- One way a search by words finds a chunk, with the score it gives: a text hit counts its text score, a chunk of an entity asked for at least 3/4, a
chunk the graph returns around either 1/2. -/
def Found (w : World) (ts es : List Chunk) (i : Text) (x : ℚ) : Prop :=
  (∃ t ∈ ts, t.id = i ∧ x = t.score) ∨ (∃ e ∈ es, e.id = i ∧ x = max (3 / 4) e.score) ∨
  (x = 1 / 2 ∧ ∃ s, (s ∈ ts ∨ s ∈ es) ∧ ∃ l n, w.expand s.id = some l ∧ n ∈ l ∧ n.ntype = "chunk".toList ∧ n.id = i)

theorem floor_id (e : Chunk) : (floorScore e).id = e.id := by unfold floorScore; split <;> rfl

theorem floor_score (e : Chunk) : (floorScore e).score = max (3 / 4) e.score := by
  unfold floorScore
  split
  · rename_i h; exact (max_eq_left h.le).symm
  · rename_i h; exact (max_eq_right (not_lt.1 h)).symm

/-- C139: the score of every chunk of a search by words that uses the graph is the best over all the ways the chunk was found. -/
theorem C139_scores (L : Lib) (hL : Sorts L) (w : World) (lower : Char → Char) (sp : Char → Bool) (mode : Text) (dis : Bool) (o : QueryOpts) (q : Text)
    (en : List Text) (ts : List Chunk) (byEnt : List Text → Option (List Chunk)) (h : On lower sp mode dis (L.names q ≠ [] ∨ en ≠ [])) (r : Result)
    (hr : searchLexical L w (parseMode lower sp mode) dis o q en (some ts) byEnt = some r) :
    let asked := if en = [] then L.names q else en
    ∃ es, (if asked = [] then some [] else byEnt asked) = some es ∧
      ∀ c ∈ r.chunks, Found w ts es c.id c.score ∧ ∀ x, Found w ts es c.id x → x ≤ c.score := by
  intro asked
  have hug := useGraph_on h
  have hask : (if en.length = 0 then L.names q else en) = asked := by simp [asked]
  obtain ⟨seeds, h1, h2, -⟩ := C139_sound L hL w _ dis o q en ts byEnt r hug hr
  obtain ⟨es, he, rfl⟩ : ∃ es, (if asked = [] then some [] else byEnt asked) = some es ∧ seeds = ts ++ es.map floorScore := by
    unfold lexSeeds at h1
    simp only [true_and, hask] at h1
    split at h1
    · rename_i hl
      obtain ⟨cs, hc, rfl⟩ := Option.map_eq_some_iff.1 h1
      exact ⟨cs, by rw [if_neg (List.length_pos_iff.1 hl), hc], rfl⟩
    · rename_i hl
      injection h1 with h1
      refine ⟨[], ?_, by simp [h1]⟩
      rw [if_pos]
      by_contra hne
      exact hl (List.length_pos_iff.2 hne)
  refine ⟨es, he, fun c hc => ?_⟩
  have hin : ∀ s, s ∈ ts ++ es.map floorScore → ∃ s', (s' ∈ ts ∨ s' ∈ es) ∧ s'.id = s.id := by
    intro s hs
    rcases List.mem_append.1 hs with hs | hs
    · exact ⟨s, .inl hs, rfl⟩
    · obtain ⟨e, h3, rfl⟩ := List.mem_map.1 hs
      exact ⟨e, .inr h3, (floor_id e).symm⟩
  obtain ⟨-, ⟨x, h3, h4, h5⟩, h6, -⟩ := h2 c hc
  constructor
  · rw [← h4, ← h5]
    rcases h3 with h3 | ⟨s, n, ⟨k1, k2, l, k3, k4⟩, e1, e2, e3, e4⟩
    · rcases List.mem_append.1 h3 with h3 | h3
      · exact .inl ⟨x, h3, rfl, rfl⟩
      · obtain ⟨e, h7, rfl⟩ := List.mem_map.1 h3
        exact .inr (.inl ⟨e, h7, (floor_id e).symm, floor_score e⟩)
    · obtain ⟨s', h7, h8⟩ := hin s k1
      exact .inr (.inr ⟨e4, s', h7, l, n, by rw [h8]; exact k3, k4, k2, e1.symm⟩)
  · rintro x' (⟨t, ht, e1, rfl⟩ | ⟨e, he', e1, rfl⟩ | ⟨rfl, s, hs, l, n, k1, k2, k3, k4⟩)
    · exact h6 t (.inl (List.mem_append_left _ ht)) e1
    · rw [← floor_score]
      exact h6 _ (.inl (List.mem_append_right _ (List.mem_map_of_mem he'))) ((floor_id e).trans e1)
    · refine h6 ⟨n.id, n.doc, n.content, 1 / 2, [], 0⟩ (.inr ?_) k4
      rcases hs with hs | hs
      · exact ⟨s, n, ⟨List.mem_append_left _ hs, k3, l, k1, k2⟩, rfl, rfl, rfl, rfl⟩
      · refine ⟨floorScore s, n, ⟨List.mem_append_right _ (List.mem_map_of_mem hs), k3, l, ?_, k2⟩, rfl, rfl, rfl, rfl⟩
        rw [floor_id]; exact k1

/-! ### Examples -/

def spc (c : Char) : Bool := c == ' '

example : Off id spc " lexical ".toList false ∧ Off id spc "graph".toList true := by
  constructor
  · right; show _ = _; decide
  · left; rfl

example : On id spc "graph".toList false (lib0.names "red fox".toList ≠ []) ∧
    (searchLexical lib0 worldL (parseMode id spc "graph".toList) false opts0 "red fox".toList [] (some hitsL) (fun _ => some [])).isSome := by
  constructor
  · exact ⟨rfl, .inl (by show _ = _; decide)⟩
  · decide +kernel

/-- A chunk found by its entity only. -/
example : ((searchLexical lib0 worldL (parseMode id spc "auto".toList) false opts0 "red fox".toList ["acme".toList] (some [])
    (fun _ => some [hitsL[1]])).map (fun r => r.chunks.map (fun c => c.score))) = some [3 / 4, 1 / 2] ∧
    On id spc "auto".toList false (lib0.names "red fox".toList ≠ [] ∨ ["acme".toList] ≠ []) := by
  constructor
  · decide +kernel
  · exact ⟨rfl, .inr ⟨by show ¬ (_ = _); decide, .inr (by simp)⟩⟩

end Verif.RagSearch
