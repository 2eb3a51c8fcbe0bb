import Verif.Model.Rag
import Mathlib.Data.List.Chain

/-!
C65: chunking covers the document. C72: chunk identifiers do not collide.
-/
namespace Verif.Rag
open Verif.Base

/-! ### Specification -/

/-- `ps` cuts the word list `ws` into pieces: none empty, none longer than `size`, each piece but the last full,
each next piece starting with exactly the last `o` words of the one before, and dropping those repeats gives back
`ws`. -/
structure Cover {α : Type*} (size o : Nat) (ws : List α) (ps : List (List α)) : Prop where
  sizes : ∀ p ∈ ps, p ≠ [] ∧ p.length ≤ size
  overlap : ps.IsChain (fun a b => a.length = size ∧ o < b.length ∧ b.take o = a.drop (a.length - o))
  whole : ∃ h t, ps = h :: t ∧ h = ws.take size ∧ ws = h ++ (t.map (List.drop o)).flatten

/-- The lines of a text that contain a word. -/
def lines (sp : Char → Bool) (text : List Char) : List (List Char) :=
  (fields newline text).filter (fun l => fields sp l ≠ [])

/-! ### Lemmas -/

/-- `chunkLoop` before joining the words. -/
def pieces {α : Type*} (ws : List α) (size step : Nat) : Nat → Nat → List (List α)
  | 0, _ => []
  | fuel + 1, start =>
    if start < ws.length then
      let stop := if start + size > ws.length then ws.length else start + size
      (ws.drop start).take (stop - start) ::
        (if stop = ws.length then [] else pieces ws size step fuel (start + step))
    else []

theorem chunkLoop_eq (words : List (List Char)) (size step fuel start : Nat) :
    chunkLoop words size step fuel start = (pieces words size step fuel start).map joinSp := by
  induction fuel generalizing start with
  | zero => rfl
  | succ n ih =>
    simp only [chunkLoop, pieces]
    split
    · simp only [List.map_cons]
      congr 1
      generalize (if start + size > words.length then words.length else start + size) = stop
      split
      · rfl
      · exact ih _
    · rfl

theorem pieces_cover {α : Type*} (ws : List α) (size o : Nat) (ho : o < size) (fuel start : Nat)
    (hs : start < ws.length) (hf : ws.length - start ≤ fuel) :
    Cover size o (ws.drop start) (pieces ws size (size - o) fuel start) := by
  induction fuel generalizing start with
  | zero => omega
  | succ n ih =>
    simp only [pieces, if_pos hs]
    by_cases hlast : ws.length ≤ start + size
    · have hstop : (if start + size > ws.length then ws.length else start + size) = ws.length := by
        split <;> omega
      rw [hstop, if_pos rfl]
      have hfull : (ws.drop start).take (ws.length - start) = ws.drop start := by
        apply List.take_of_length_le; simp
      rw [hfull]
      refine ⟨?_, by simp, ⟨_, _, rfl, ?_, by simp⟩⟩
      · intro p hp
        simp only [List.mem_singleton] at hp
        subst hp
        refine ⟨?_, by simp; omega⟩
        intro h
        have := congrArg List.length h
        simp at this; omega
      · rw [List.take_of_length_le]; simp; omega
    · have hstop : (if start + size > ws.length then ws.length else start + size) = start + size := by
        split <;> omega
      rw [hstop, if_neg (by omega)]
      have hsub : start + size - start = size := by omega
      rw [hsub]
      have h1 : start + (size - o) < ws.length := by omega
      have hc := ih (start + (size - o)) h1 (by omega)
      obtain ⟨h, t, he, hh, hw⟩ := hc.whole
      have hlen : (((ws.drop start).take size)).length = size := by simp; omega
      have hhlen : o < h.length := by rw [hh]; simp; omega
      have hdd : ws.drop (start + (size - o)) = (ws.drop start).drop (size - o) := by
        rw [List.drop_drop]
      refine ⟨?_, ?_, ⟨_, _, rfl, rfl, ?_⟩⟩
      · intro p hp
        rcases List.mem_cons.1 hp with rfl | hp
        · refine ⟨?_, by omega⟩
          intro h'
          rw [h'] at hlen; simp at hlen; omega
        · exact hc.sizes p hp
      · have hch := hc.overlap
        rw [he] at hch ⊢
        refine List.IsChain.cons_cons ⟨hlen, hhlen, ?_⟩ hch
        rw [hlen, hh, hdd, List.take_take, List.drop_take]
        congr 1
        omega
      · rw [he]
        have h2 : (ws.drop start).drop size = h.drop o ++ (t.map (List.drop o)).flatten := by
          have h3 : (ws.drop start).drop size = (ws.drop (start + (size - o))).drop o := by
            rw [List.drop_drop, List.drop_drop]; congr 1; omega
          rw [h3, hw, List.drop_append_of_le_length (by omega)]
        rw [List.map_cons, List.flatten_cons, ← h2, List.take_append_drop]

theorem pieces_sub {α : Type*} (ws : List α) (size step fuel start : Nat) :
    ∀ p ∈ pieces ws size step fuel start, p <:+: ws := by
  induction fuel generalizing start with
  | zero => simp [pieces]
  | succ n ih =>
    intro p hp
    simp only [pieces] at hp
    generalize (if start + size > ws.length then ws.length else start + size) = stop at hp
    split at hp
    · rcases List.mem_cons.1 hp with rfl | hp
      · exact ((List.take_prefix _ _).isInfix).trans (List.drop_suffix _ _).isInfix
      · split at hp
        · simp at hp
        · exact ih _ p hp
    · simp at hp

theorem splitParagraph_cover (sp : Char → Bool) (hsp : sp ' ' = true) (size o : Nat) (ho : o < size)
    (para : List Char) (hne : fields sp para ≠ []) :
    Cover size o (fields sp para) ((splitParagraph sp size o para).map (fields sp)) := by
  have hw := fields_words sp para
  unfold splitParagraph
  simp only [fields_trim]
  rw [if_neg (fun h => hne (fields_trim_nil sp para h)), if_neg (by simpa using hne)]
  split
  · rename_i hle
    simp only [List.map_cons, List.map_nil, fields_joinSp sp hsp _ hw]
    refine ⟨?_, by simp, ⟨_, _, rfl, by rw [List.take_of_length_le hle], by simp⟩⟩
    intro p hp
    simp only [List.mem_singleton] at hp
    subst hp
    exact ⟨hne, hle⟩
  · rename_i hgt
    rw [if_neg (by omega : ¬ (size - o ≤ 0)), chunkLoop_eq, List.map_map]
    have hc := pieces_cover (fields sp para) size o ho (fields sp para).length 0 (by omega) (by omega)
    have he : (pieces (fields sp para) size (size - o) (fields sp para).length 0).map (fields sp ∘ joinSp) =
        pieces (fields sp para) size (size - o) (fields sp para).length 0 := by
      conv_rhs => rw [← List.map_id (pieces (fields sp para) size (size - o) (fields sp para).length 0)]
      apply List.map_congr_left
      intro p hp
      have hs := pieces_sub _ _ _ _ _ p hp
      exact fields_joinSp sp hsp p (fun w hw' => hw w (hs.subset hw'))
    rw [he]
    simpa using hc

theorem splitParagraph_blank (sp : Char → Bool) (size o : Nat) (para : List Char) (h : fields sp para = []) :
    splitParagraph sp size o para = [] := by
  unfold splitParagraph
  simp only [fields_trim, h]
  split <;> simp

theorem flatMap_filter_blank {α β : Type*} (p : α → Bool) (f : α → List β) (l : List α)
    (h : ∀ a, p a = false → f a = []) : l.flatMap f = (l.filter p).flatMap f := by
  induction l with
  | nil => rfl
  | cons a as ih =>
    rw [List.flatMap_cons, List.filter_cons]
    split
    · rw [List.flatMap_cons, ih]
    · rename_i hp
      rw [h a (by simpa using hp), ih, List.nil_append]

theorem ingestDefaults_ok (o : IngestOpts) :
    0 ≤ (ingestDefaults o).chunkOverlap ∧ (ingestDefaults o).chunkOverlap < (ingestDefaults o).chunkSize := by
  unfold ingestDefaults
  simp only
  constructor
  · split <;> split <;> (try split) <;> omega
  · split <;> split <;> (try split) <;> omega

/-! ### C65 -/

/-- C65: the options used are valid whatever the caller passes, and a valid choice of the caller is kept. -/
theorem C65_defaults (o : IngestOpts) :
    0 ≤ (ingestDefaults o).chunkOverlap ∧ (ingestDefaults o).chunkOverlap < (ingestDefaults o).chunkSize ∧
    (0 ≤ o.chunkOverlap → o.chunkOverlap < o.chunkSize → ingestDefaults o = o) := by
  refine ⟨(ingestDefaults_ok o).1, (ingestDefaults_ok o).2, fun h1 h2 => ?_⟩
  unfold ingestDefaults
  simp only
  rw [if_neg (by omega), if_neg (by omega), if_neg (by omega)]

/-- C65: for every text and every options, the chunks are, line by line, a cut of the line's words into
pieces with exactly the overlap in force. -/
theorem C65_cover (sp : Char → Bool) (hsp : sp ' ' = true) (text : List Char) (o : IngestOpts) :
    ∃ groups : List (List (List Char)),
      ingestChunks sp text o = groups.flatten ∧
      List.Forall₂ (fun line g => Cover (ingestDefaults o).chunkSize.toNat (ingestDefaults o).chunkOverlap.toNat
        (fields sp line) (g.map (fields sp))) (lines sp text) groups := by
  have hd := ingestDefaults_ok o
  set size := (ingestDefaults o).chunkSize.toNat with hsize
  set ov := (ingestDefaults o).chunkOverlap.toNat with hov
  have hlt : ov < size := by omega
  refine ⟨(lines sp text).map (splitParagraph sp size ov), ?_, ?_⟩
  · show splitText sp text size ov = _
    rw [splitText, flatMap_filter_blank (fun l => decide (fields sp l ≠ []))]
    · rfl
    · intro a ha
      apply splitParagraph_blank
      simpa using ha
  · rw [List.forall₂_map_right_iff, List.forall₂_same]
    intro x hx
    refine splitParagraph_cover sp hsp size ov hlt x ?_
    simpa [lines] using (List.mem_filter.1 hx).2

/-- C65: no word is lost and none is reordered: the text's words, in order, are a subsequence of the words of
the chunks read one after the other. -/
theorem C65_no_word_lost (sp : Char → Bool) (hsp : sp ' ' = true) (hn : sp '\n' = true) (hr : sp '\r' = true)
    (text : List Char) (o : IngestOpts) :
    List.Sublist (fields sp text) ((ingestChunks sp text o).flatMap (fields sp)) := by
  obtain ⟨groups, he, hg⟩ := C65_cover sp hsp text o
  have hnl : ∀ c, newline c = true → sp c = true := by
    intro c hc
    simp only [newline, Bool.or_eq_true, beq_iff_eq] at hc
    rcases hc with rfl | rfl <;> assumption
  rw [he, ← fields_refine sp newline hnl text]
  have hl : (fields newline text).flatMap (fields sp) = (lines sp text).flatMap (fields sp) := by
    apply flatMap_filter_blank (fun l => decide (fields sp l ≠ []))
    intro a ha
    simpa using ha
  rw [hl]
  clear he hl
  revert hg
  generalize lines sp text = ls
  intro hg
  induction hg with
  | nil => simp
  | cons h _ ih =>
    rw [List.flatMap_cons, List.flatten_cons, List.flatMap_append]
    refine List.Sublist.append ?_ ih
    obtain ⟨hd, t, e, _, hw⟩ := h.whole
    rw [hw, List.flatMap_def, e, List.flatten_cons]
    refine List.Sublist.append_left ?_ _
    clear e hw
    induction t with
    | nil => simp
    | cons p ps ih =>
      simp only [List.map_cons, List.flatten_cons]
      exact (List.drop_sublist _ _).append ih

/-- C65: every chunk is a run of consecutive words of the text, at least one and at most the chunk size. -/
theorem C65_chunk_bounds (sp : Char → Bool) (hsp : sp ' ' = true) (text : List Char) (o : IngestOpts) :
    ∀ c ∈ ingestChunks sp text o, c ≠ [] ∧ 1 ≤ (fields sp c).length ∧
      ((fields sp c).length : Int) ≤ (ingestDefaults o).chunkSize := by
  obtain ⟨groups, he, hg⟩ := C65_cover sp hsp text o
  have hd := ingestDefaults_ok o
  intro c hc
  rw [he] at hc
  clear he
  revert hg
  generalize lines sp text = ls
  intro hg
  induction hg with
  | nil => simp at hc
  | cons h _ ih =>
    rw [List.flatten_cons, List.mem_append] at hc
    rcases hc with hc | hc
    · have := h.sizes (fields sp c) (List.mem_map_of_mem hc)
      refine ⟨?_, ?_, by omega⟩
      · rintro rfl; exact this.1 rfl
      · exact List.length_pos_iff.2 this.1
    · exact ih hc

/-- C65: there are no chunks exactly when the text has no words, so ingestion refuses only blank texts. -/
theorem C65_empty (sp : Char → Bool) (hsp : sp ' ' = true) (hn : sp '\n' = true) (hr : sp '\r' = true)
    (text : List Char) (o : IngestOpts) : ingestChunks sp text o = [] ↔ fields sp text = [] := by
  constructor
  · intro h
    have := C65_no_word_lost sp hsp hn hr text o
    rw [h] at this
    simpa using this
  · intro h
    obtain ⟨groups, he, hg⟩ := C65_cover sp hsp text o
    have hnl : ∀ c, newline c = true → sp c = true := by
      intro c hc
      simp only [newline, Bool.or_eq_true, beq_iff_eq] at hc
      rcases hc with rfl | rfl <;> assumption
    have hl : lines sp text = [] := by
      rw [← fields_refine sp newline hnl text] at h
      rw [lines, List.filter_eq_nil_iff]
      intro a ha
      rw [List.flatMap_eq_nil_iff] at h
      simpa using h a ha
    rw [hl] at hg
    cases hg
    simpa using he

/-- The sample for the examples: ASCII white space, and words of one letter. -/
def sp0 (c : Char) : Bool := c == ' ' || c == '\n' || c == '\r'

example : (ingestChunks sp0 "a b c d e\n\n f\r g  ".toList ⟨3, 1⟩).map String.ofList =
    ["a b c", "c d e", "f", "g"] := by decide
example : sp0 ' ' = true ∧ sp0 '\n' = true ∧ sp0 '\r' = true := by decide
example : Cover 3 1 [1, 2, 3, 4, 5] [[1, 2, 3], [3, 4, 5]] :=
  ⟨by decide, by decide, ⟨_, _, rfl, by decide, by decide⟩⟩

/-! ### C72 -/

theorem digit_toNat (n : Nat) (h : n < 10) : (Char.ofNat (48 + n)).toNat = 48 + n := by
  have : n = 0 ∨ n = 1 ∨ n = 2 ∨ n = 3 ∨ n = 4 ∨ n = 5 ∨ n = 6 ∨ n = 7 ∨ n = 8 ∨ n = 9 := by omega
  rcases this with rfl | rfl | rfl | rfl | rfl | rfl | rfl | rfl | rfl | rfl <;> rfl

/-- Reading a decimal text. -/
def readDec (l : List Char) : Nat := l.foldl (fun n c => 10 * n + (c.toNat - 48)) 0

theorem readDec_append (l : List Char) (c : Char) : readDec (l ++ [c]) = 10 * readDec l + (c.toNat - 48) := by
  simp [readDec]

theorem readDec_decimal (n : Nat) : readDec (decimal n) = n := by
  induction n using Nat.strongRecOn with
  | ind n ih =>
    rw [decimal]
    split
    · rename_i h; simp only [readDec, List.foldl_cons, List.foldl_nil]; rw [digit_toNat n h]; omega
    · rename_i h
      rw [readDec_append, ih (n / 10) (by omega), digit_toNat _ (by omega)]
      omega

theorem readDec_zeros (k : Nat) (l : List Char) : readDec (List.replicate k '0' ++ l) = readDec l := by
  induction k with
  | zero => rfl
  | succ n ih =>
    rw [List.replicate_succ, List.cons_append]
    simpa [readDec] using ih

theorem readDec_pad3 (n : Nat) : readDec (pad3 n) = n := by
  rw [pad3, readDec_zeros, readDec_decimal]

theorem decimal_no_colon (n : Nat) : ':' ∉ decimal n := by
  induction n using Nat.strongRecOn with
  | ind n ih =>
    have key : ∀ m, m < 10 → Char.ofNat (48 + m) ≠ ':' := by
      intro m hm h
      have := digit_toNat m hm
      rw [h] at this
      have h2 : (':').toNat = 58 := rfl
      omega
    rw [decimal]
    split
    · rename_i h; simpa using (key n h).symm
    · rename_i h
      simp only [List.mem_append, List.mem_singleton, not_or]
      exact ⟨ih _ (by omega), (key _ (by omega)).symm⟩

theorem pad3_no_colon (n : Nat) : ':' ∉ pad3 n := by
  simp [pad3, decimal_no_colon, List.mem_replicate]

theorem split_last (a b x y : List Char) (hx : ':' ∉ x) (hy : ':' ∉ y) (h : a ++ ':' :: x = b ++ ':' :: y) :
    a = b ∧ x = y := by
  induction a generalizing b with
  | nil =>
    cases b with
    | nil => simpa using h
    | cons c cs =>
      simp only [List.nil_append, List.cons_append, List.cons.injEq] at h
      exact absurd (h.2 ▸ (by simp : ':' ∈ cs ++ ':' :: y)) hx
  | cons c cs ih =>
    cases b with
    | nil =>
      simp only [List.nil_append, List.cons_append, List.cons.injEq] at h
      exact absurd (h.2 ▸ (by simp : ':' ∈ cs ++ ':' :: x)) hy
    | cons d ds =>
      simp only [List.cons_append, List.cons.injEq] at h
      obtain ⟨h1, h2⟩ := ih ds h.2
      exact ⟨by rw [h.1, h1], h2⟩

/-- C72: chunk identifiers determine the document and the position, for all document ids (any characters) and
all positions (also beyond three digits). -/
theorem C72_chunk_ids (d1 d2 : List Char) (i j : Nat) (h : chunkId d1 i = chunkId d2 j) : d1 = d2 ∧ i = j := by
  unfold chunkId at h
  rw [List.append_assoc, List.append_assoc, List.append_cancel_left_eq] at h
  obtain ⟨h1, h2⟩ := split_last _ _ _ _ (pad3_no_colon i) (pad3_no_colon j) h
  exact ⟨h1, by rw [← readDec_pad3 i, h2, readDec_pad3]⟩

/-- C72: the ids of a document's chunks are pairwise different. -/
theorem C72_document_chunks (d : List Char) (n : Nat) : ((List.range n).map (chunkId d)).Nodup := by
  refine List.Nodup.map ?_ List.nodup_range
  intro i j h
  exact (C72_chunk_ids d d i j h).2

/-- C72: chunk, document and entity nodes never share an identifier. -/
theorem C72_kinds (lower : Char → Char) (letter sp : Char → Bool) (d d' e : List Char) (i : Nat) :
    chunkId d i ≠ docNodeId d' ∧ chunkId d i ≠ entityId lower letter sp e ∧
    docNodeId d' ≠ entityId lower letter sp e := by
  have h1 : (chunkId d i).head? = some 'c' := rfl
  have h2 : (docNodeId d').head? = some 'd' := rfl
  have h3 : (entityId lower letter sp e).head? = some 'e' := rfl
  refine ⟨fun h => ?_, fun h => ?_, fun h => ?_⟩
  · rw [h, h2] at h1; cases h1
  · rw [h, h3] at h1; cases h1
  · rw [h, h3] at h2; cases h2

/-- C82: different entity names may share an identifier (punctuation and all letters outside the table are
dropped): the node of one is overwritten by the other. -/
theorem C82_violated :
    ∃ a b : List Char, a ≠ b ∧ ∀ (letter : Char → Bool), letter 'c' = true → letter '+' = false → letter '#' = false →
      entityId id letter sp0 a = entityId id letter sp0 b :=
  by
  refine ⟨['c', '+', '+'], ['c', '#'], by decide, fun letter h1 h2 h3 => ?_⟩
  have e1 : trim sp0 ['c', '+', '+'] = ['c', '+', '+'] := by decide
  have e2 : trim sp0 ['c', '#'] = ['c', '#'] := by decide
  have e3 : ('+' == ' ' || '+' == '-' || '+' == '_') = false := by decide
  have e4 : ('#' == ' ' || '#' == '-' || '#' == '_') = false := by decide
  unfold entityId
  rw [e1, e2]
  have f1 : List.filterMap (fun r => if letter r = true then some r else
      if (r == ' ' || r == '-' || r == '_') = true then some '_' else none) (['c', '+', '+'].map id) = ['c'] := by
    simp [h1, h2]
  have f2 : List.filterMap (fun r => if letter r = true then some r else
      if (r == ' ' || r == '-' || r == '_') = true then some '_' else none) (['c', '#'].map id) = ['c'] := by
    simp [h1, h3]
  simp only [f1, f2]

/-- A name made of lower-case letters and digits only. -/
def Plain (lower : Char → Char) (letter sp : Char → Bool) (name : List Char) : Prop :=
  name ≠ [] ∧ ∀ c ∈ name, letter c = true ∧ lower c = c ∧ sp c = false ∧ c ≠ '_'

theorem trim_id (p : Char → Bool) (l : List Char) (h : ∀ c ∈ l, p c = false) : trim p l = l := by
  have hd : ∀ m : List Char, (∀ c ∈ m, p c = false) → m.dropWhile p = m := by
    intro m hm
    cases m with
    | nil => rfl
    | cons a as => rw [List.dropWhile_cons, if_neg (by simp [hm a (by simp)])]
  unfold trim
  rw [hd l h, hd l.reverse (by simpa using h), List.reverse_reverse]

theorem entityId_plain (lower : Char → Char) (letter sp : Char → Bool) (name : List Char)
    (h : Plain lower letter sp name) : entityId lower letter sp name = "entity:".toList ++ name := by
  unfold entityId
  have e1 : trim sp name = name := trim_id sp name (fun c hc => (h.2 c hc).2.2.1)
  have e2 : name.map lower = name := by
    conv_rhs => rw [← List.map_id name]
    exact List.map_congr_left (fun c hc => (h.2 c hc).2.1)
  have e3 : name.filterMap (fun r =>
      if letter r then some r else if r == ' ' || r == '-' || r == '_' then some '_' else none) = name := by
    conv_rhs => rw [← List.filterMap_some (l := name)]
    apply List.filterMap_congr
    intro c hc
    rw [if_pos (h.2 c hc).1]
  have e4 : trim (fun c => c == '_') name = name :=
    trim_id _ name (fun c hc => by simpa using (h.2 c hc).2.2.2)
  simp only [e1, e2, e3, e4, if_neg h.1]

/-- C82 for names made of lower-case letters and digits: different names have different nodes. Missing: names
with upper-case letters, blanks and punctuation, which are normalised (see `C82_violated`). -/
theorem C82_plain_partial (lower : Char → Char) (letter sp : Char → Bool) (a b : List Char)
    (ha : Plain lower letter sp a) (hb : Plain lower letter sp b)
    (h : entityId lower letter sp a = entityId lower letter sp b) : a = b := by
  rw [entityId_plain _ _ _ _ ha, entityId_plain _ _ _ _ hb, List.append_cancel_left_eq] at h
  exact h

example : Plain id (fun c => c.isAlphanum) sp0 "acme42".toList := by
  refine ⟨by decide, by decide⟩

example : chunkId "a:b".toList 7 = "chunk:a:b:007".toList ∧ chunkId "a".toList 1234 = "chunk:a:1234".toList := by
  constructor <;> simp [chunkId, pad3, decimal]

end Verif.Rag
