import Verif.Model.GraphTools
import Mathlib.Data.Fintype.Pigeonhole
import Mathlib.Data.Fintype.Card
import Mathlib.Data.List.Nodup
import Mathlib.Algebra.BigOperators.Group.List.Basic
import Mathlib.Tactic.Common

/-!
The lexical vector and the full-text queries used when no embedder is configured: C147, C148.
-/
namespace Verif.GraphTools

open Verif.Base

/-- The dimension in use. -/
def effDim (dim : Int) : Nat := if dim ≤ 0 then 64 else dim.toNat

theorem effDim_pos (dim : Int) : 0 < effDim dim := by unfold effDim; split <;> omega

theorem bumpAt_length (v : List Nat) (i : Nat) : (bumpAt v i).length = v.length := by simp [bumpAt]

theorem bumpAt_get (v : List Nat) (i j : Nat) (hi : i < v.length) (hj : j < v.length) :
    (bumpAt v i).getD j 0 = v.getD j 0 + if i = j then 1 else 0 := by
  unfold bumpAt
  simp only [List.getD_eq_getElem?_getD, List.getElem?_set]
  by_cases h : i = j
  · subst h; simp [hi]
  · simp [h]

theorem fold_length (f : Text → Nat) (ws : List Text) (v : List Nat) :
    (ws.foldl (fun v w => bumpAt v (f w)) v).length = v.length := by
  induction ws generalizing v with
  | nil => rfl
  | cons w ws ih => rw [List.foldl_cons, ih, bumpAt_length]

theorem fold_get (f : Text → Nat) (ws : List Text) (v : List Nat) (hf : ∀ w ∈ ws, f w < v.length) (j : Nat) (hj : j < v.length) :
    (ws.foldl (fun v w => bumpAt v (f w)) v).getD j 0 = v.getD j 0 + ws.countP (fun w => decide (f w = j)) := by
  induction ws generalizing v with
  | nil => simp
  | cons w ws ih =>
    rw [List.foldl_cons, ih _ (fun x hx => by rw [bumpAt_length]; exact hf x (by simp [hx])) (by rw [bumpAt_length]; exact hj),
      bumpAt_get v _ _ (hf w (by simp)) hj, List.countP_cons]
    by_cases h : f w = j <;> simp [h] <;> omega

/-- C147: the lexical vector has the configured dimension (64 when none is given). Each entry is the number of words of the text whose hash
falls on it, words being cut at white space, in lower case and without surrounding punctuation; a text without any word gives the first
unit vector. -/
theorem C147_counts (u : Uni) (hash : Text → Nat) (t : Text) (dim : Int) :
    (lexVec u hash t dim).length = effDim dim ∧
    (tokens u t ≠ [] → ∀ j < effDim dim,
      (lexVec u hash t dim).getD j 0 = (tokens u t).countP (fun w => decide (hash w % effDim dim = j))) ∧
    (tokens u t = [] → lexVec u hash t dim = (List.replicate (effDim dim) 0).set 0 1) := by
  have hd := effDim_pos dim
  have e : lexVec u hash t dim =
      (let v := (tokens u t).foldl (fun v w => bumpAt v (hash w % effDim dim)) (List.replicate (effDim dim) 0)
       if v.all (fun x => decide (x = 0)) then v.set 0 1 else v) := rfl
  have hlen := fold_length (fun w => hash w % effDim dim) (tokens u t) (List.replicate (effDim dim) 0)
  rw [List.length_replicate] at hlen
  have hget : ∀ j < effDim dim,
      ((tokens u t).foldl (fun v w => bumpAt v (hash w % effDim dim)) (List.replicate (effDim dim) 0)).getD j 0 =
        (tokens u t).countP (fun w => decide (hash w % effDim dim = j)) := by
    intro j hj
    rw [fold_get (fun w => hash w % effDim dim) (tokens u t) (List.replicate (effDim dim) 0)
      (fun w _ => by rw [List.length_replicate]; exact Nat.mod_lt _ hd) j (by simpa using hj)]
    simp [List.getD_eq_getElem?_getD, List.getElem?_replicate, hj]
  rw [e]
  refine ⟨?_, ?_, ?_⟩
  · simp only
    split
    · rw [List.length_set]; exact hlen
    · exact hlen
  · intro hne j hj
    simp only
    rw [if_neg]
    · exact hget j hj
    · intro hall
      rw [List.all_eq_true] at hall
      obtain ⟨w, ws, hw⟩ := List.exists_cons_of_ne_nil hne
      have hi : hash w % effDim dim < effDim dim := Nat.mod_lt _ hd
      have h0 := hget _ hi
      have hpos : 0 < (tokens u t).countP (fun x => decide (hash x % effDim dim = hash w % effDim dim)) :=
        List.countP_pos_iff.2 ⟨w, by rw [hw]; simp, by simp⟩
      rw [← h0, List.getD_eq_getElem?_getD, List.getElem?_eq_getElem (by rw [hlen]; exact hi)] at hpos
      have := hall _ (List.getElem_mem (by rw [hlen]; exact hi))
      rw [decide_eq_true_eq] at this
      rw [Option.getD_some] at hpos
      omega
  · intro h0
    rw [h0]
    simp

/-- C147: the vector is never the zero vector, so a similarity to it is always defined. -/
theorem C147_never_zero (u : Uni) (hash : Text → Nat) (t : Text) (dim : Int) :
    ∃ j < effDim dim, 0 < (lexVec u hash t dim).getD j 0 := by
  obtain ⟨-, h2, h3⟩ := C147_counts u hash t dim
  have hd := effDim_pos dim
  by_cases h : tokens u t = []
  · refine ⟨0, hd, ?_⟩
    rw [h3 h, List.getD_eq_getElem?_getD, List.getElem?_set]
    simp [hd]
  · obtain ⟨w, ws, hw⟩ := List.exists_cons_of_ne_nil h
    refine ⟨hash w % effDim dim, Nat.mod_lt _ hd, ?_⟩
    rw [h2 h _ (Nat.mod_lt _ hd)]
    exact List.countP_pos_iff.2 ⟨w, by rw [hw]; simp, by simp⟩

/-- Two vectors of one length with the same entries are the same. -/
theorem eq_of_getD {a b : List Nat} (n : Nat) (ha : a.length = n) (hb : b.length = n) (h : ∀ j < n, a.getD j 0 = b.getD j 0) : a = b := by
  apply List.ext_getElem (by omega)
  intro i h1 h2
  have := h i (by omega)
  simpa [List.getD_eq_getElem?_getD, List.getElem?_eq_getElem h1, List.getElem?_eq_getElem h2] using this

/-- C147: texts with the same words, in any order, have the same vector. -/
theorem C147_bag (u : Uni) (hash : Text → Nat) (t t' : Text) (dim : Int) (h : (tokens u t).Perm (tokens u t')) :
    lexVec u hash t dim = lexVec u hash t' dim := by
  obtain ⟨a1, a2, a3⟩ := C147_counts u hash t dim
  obtain ⟨b1, b2, b3⟩ := C147_counts u hash t' dim
  by_cases h0 : tokens u t = []
  · have h0' : tokens u t' = [] := by rw [h0] at h; exact List.nil_perm.1 h
    rw [a3 h0, b3 h0']
  · have h0' : tokens u t' ≠ [] := fun e => h0 (by rw [e] at h; exact List.perm_nil.1 h)
    apply eq_of_getD (effDim dim) a1 b1
    intro j hj
    rw [a2 h0 j hj, b2 h0' j hj]
    exact h.countP_eq _

/-- C147: words put in another order, and in another case, give the same vector. -/
theorem C147_order_and_case (u : Uni) (hash : Text → Nat) (dim : Int) (ws ws' : List Text) (hsp : u.space (u.lower ' ') = true)
    (hl : u.lower (' ') = ' ') (hw : ∀ w ∈ ws, IsWord u.space (w.map u.lower))
    (h : (ws.map (List.map u.lower)).Perm (ws'.map (List.map u.lower))) :
    lexVec u hash (joinSp ws) dim = lexVec u hash (joinSp ws') dim := by
  have hj : ∀ l : List Text, (joinSp l).map u.lower = joinSp (l.map (List.map u.lower)) := by
    intro l
    induction l with
    | nil => rfl
    | cons a l ih =>
      cases l with
      | nil => rfl
      | cons b l =>
        show List.map u.lower (a ++ ' ' :: joinSp (b :: l)) = List.map u.lower a ++ ' ' :: joinSp ((b :: l).map (List.map u.lower))
        rw [List.map_append, List.map_cons, ih, hl]
  apply C147_bag
  unfold tokens
  rw [hj, hj]
  rw [hl] at hsp
  have hw1 : ∀ w ∈ ws.map (List.map u.lower), IsWord u.space w := by
    intro w hm
    obtain ⟨x, hx, rfl⟩ := List.mem_map.1 hm
    exact hw x hx
  rw [fields_joinSp u.space hsp _ hw1, fields_joinSp u.space hsp _ (fun w hm => hw1 w (h.mem_iff.2 hm))]
  exact (h.map _).filter _

/-- C147: whatever the hash and the dimension, there are two different words with the same vector: equal vectors do not mean equal texts. -/
theorem C147_collision (u : Uni) (hash : Text → Nat) (dim : Int) (hl : u.lower 'a' = 'a') (hs : u.space 'a' = false) :
    ∃ w w' : Text, w ≠ w' ∧ tokens u w = [w] ∧ tokens u w' = [w'] ∧ lexVec u hash w dim = lexVec u hash w' dim := by
  have hd := effDim_pos dim
  have htok : ∀ n : Nat, tokens u (List.replicate (n + 1) 'a') = [List.replicate (n + 1) 'a'] := by
    intro n
    have hw : IsWord u.space (List.replicate (n + 1) 'a') :=
      ⟨by simp, fun c hc => by rw [List.eq_of_mem_replicate hc]; exact hs⟩
    have hf : fields u.space (List.replicate (n + 1) 'a') = [List.replicate (n + 1) 'a'] := by
      have := fieldsAux_noSep u.space [] (List.replicate (n + 1) 'a') [] hw.2
      rw [List.append_nil, List.append_nil] at this
      unfold fields
      rw [this]
      simp [fieldsAux]
    have he : edgeChar 'a' = false := by decide
    have ht : trim edgeChar (List.replicate (n + 1) 'a') = List.replicate (n + 1) 'a' := by
      unfold trim
      rw [List.replicate_succ, List.dropWhile_cons, if_neg (by rw [he]; decide), ← List.replicate_succ, List.reverse_replicate,
        List.replicate_succ, List.dropWhile_cons, if_neg (by rw [he]; decide), ← List.replicate_succ, List.reverse_replicate]
    unfold tokens
    rw [List.map_replicate, hl, hf]
    simp only [List.map_cons, List.map_nil, ht]
    simp
  let f : Nat → Fin (effDim dim) := fun n => ⟨hash (List.replicate (n + 1) 'a') % effDim dim, Nat.mod_lt _ hd⟩
  obtain ⟨m, n, hne, hmn⟩ := Finite.exists_ne_map_eq_of_infinite f
  refine ⟨List.replicate (m + 1) 'a', List.replicate (n + 1) 'a', ?_, htok m, htok n, ?_⟩
  · intro e
    have := congrArg List.length e
    simp only [List.length_replicate] at this
    omega
  · obtain ⟨a1, a2, -⟩ := C147_counts u hash (List.replicate (m + 1) 'a') dim
    obtain ⟨b1, b2, -⟩ := C147_counts u hash (List.replicate (n + 1) 'a') dim
    have hmn' : hash (List.replicate (m + 1) 'a') % effDim dim = hash (List.replicate (n + 1) 'a') % effDim dim := congrArg Fin.val hmn
    apply eq_of_getD (effDim dim) a1 b1
    intro j hj
    rw [a2 (by rw [htok]; simp) j hj, b2 (by rw [htok]; simp) j hj, htok, htok]
    simp only [List.countP_cons, List.countP_nil, hmn']

/-- An ASCII alphabet. -/
def ascii : Uni := ⟨Char.toLower, fun c => c.isAlphanum, fun c => c.isWhitespace⟩

example : ascii.space (ascii.lower ' ') = true ∧ ascii.lower ' ' = ' ' ∧ ascii.lower 'a' = 'a' ∧ ascii.space 'a' = false ∧
    (∀ w ∈ ["Alice".toList, "met".toList], IsWord ascii.space (w.map ascii.lower)) := by
  unfold IsWord; decide

example : lexVec ascii List.length "The cat, the DOG met.".toList 4 = [0, 0, 0, 5] := by decide +kernel
example : lexVec ascii List.length " ... ".toList 3 = [1, 0, 0] := by decide +kernel

/-! ### C148: the full-text queries -/

theorem addNew_nodup {l : List Text} (h : l.Nodup) (x : Text) : (addNew l x).Nodup := by
  unfold addNew
  split
  · exact h
  · rename_i hx
    rw [List.nodup_append]
    refine ⟨h, by simp, ?_⟩
    intro a ha b hb e
    simp only [List.mem_singleton] at hb
    subst hb; subst e; exact hx ha

theorem addNew_mem (l : List Text) (x y : Text) : y ∈ addNew l x ↔ y ∈ l ∨ y = x := by
  unfold addNew
  split
  · rename_i hx
    constructor
    · exact Or.inl
    · rintro (h | h)
      · exact h
      · rw [h]; exact hx
  · simp

theorem addNew_prefix (l : List Text) (x : Text) : l <+: addNew l x := by
  unfold addNew
  split
  · exact List.prefix_refl _
  · exact List.prefix_append _ _

theorem foldAdd_nodup (ws : List Text) {l : List Text} (h : l.Nodup) : (ws.foldl addNew l).Nodup := by
  induction ws generalizing l with
  | nil => exact h
  | cons w ws ih => exact ih (addNew_nodup h w)

theorem foldAdd_mem (ws l : List Text) (y : Text) : y ∈ ws.foldl addNew l ↔ y ∈ l ∨ y ∈ ws := by
  induction ws generalizing l with
  | nil => simp
  | cons w ws ih => rw [List.foldl_cons, ih, addNew_mem, List.mem_cons, or_assoc]

/-- The English function words that are no keywords. -/
def ignored : List String :=
  ["a", "an", "and", "are", "as", "at", "be", "by", "does", "for", "from", "how", "in", "into", "is", "it", "of", "on", "or", "that",
    "the", "their", "there", "these", "this", "to", "was", "were", "what", "when", "where", "which", "who", "why", "with"]

/-- C148: the keywords of a text are, each once, exactly its maximal runs of letters and digits in lower case that are at least two bytes
long and are not on the list of stop words. -/
theorem C148_keywords (u : Uni) (hu : ∀ c, edgeChar c = true → u.letter c = false) (q : Text) :
    (keywords u q).Nodup ∧
    ∀ w, w ∈ keywords u q ↔ (w ∈ fields (fun c => !u.letter c) (q.map u.lower) ∧ 2 ≤ bytes w ∧ w ∉ ignored.map String.toList) := by
  change _ ∧ ∀ w, w ∈ keywords u q ↔ (w ∈ fields (fun c => !u.letter c) (q.map u.lower) ∧ 2 ≤ bytes w ∧ w ∉ stopwords.map String.toList)
  refine ⟨foldAdd_nodup _ List.nodup_nil, fun w => ?_⟩
  unfold keywords
  rw [foldAdd_mem]
  have htrim : ∀ x : Text, (∀ c ∈ x, u.letter c = true) → trim edgeChar x = x := by
    intro x hx
    have hdw : ∀ y : Text, (∀ c ∈ y, u.letter c = true) → y.dropWhile edgeChar = y := by
      intro y hy
      cases y with
      | nil => rfl
      | cons c cs =>
        rw [List.dropWhile_cons, if_neg]
        intro he
        have h1 := hu c he
        rw [hy c (by simp)] at h1
        cases h1
    unfold trim
    rw [hdw x hx, hdw x.reverse (fun c hc => hx c (List.mem_reverse.1 hc)), List.reverse_reverse]
  have hfw := fields_words (fun c => !u.letter c) (q.map u.lower)
  have hmap : (fields (fun c => !u.letter c) (q.map u.lower)).map (trim edgeChar) = fields (fun c => !u.letter c) (q.map u.lower) := by
    conv_rhs => rw [← List.map_id (fields (fun c => !u.letter c) (q.map u.lower))]
    apply List.map_congr_left
    intro x hx
    refine htrim x (fun c hc => ?_)
    have := (hfw x hx).2 c hc
    simpa using this
  rw [hmap, List.mem_filter]
  simp only [List.not_mem_nil, false_or, Bool.and_eq_true, decide_eq_true_eq]
  constructor
  · rintro ⟨h1, ⟨-, h2⟩, h3⟩; exact ⟨h1, h2, h3⟩
  · rintro ⟨h1, h2, h3⟩; exact ⟨h1, ⟨(hfw w h1).1, h2⟩, h3⟩

/-- A query built from terms: some terms, joined by ` OR `. -/
theorem addQuery_nodup (u : Uni) {l : List Text} (h : l.Nodup) (x : Text) : (addQuery u l x).Nodup := by
  unfold addQuery
  simp only
  split
  · exact h
  · exact addNew_nodup h _

theorem addQuery_mem (u : Uni) (l : List Text) (x y : Text) :
    y ∈ addQuery u l x ↔ y ∈ l ∨ (y = trim u.space x ∧ y ≠ []) := by
  unfold addQuery
  simp only
  split
  · rename_i h
    constructor
    · exact Or.inl
    · rintro (g | ⟨g1, g2⟩)
      · exact g
      · exact absurd (g1.trans h) g2
  · rename_i h
    rw [addNew_mem]
    constructor
    · rintro (g | g)
      · exact Or.inl g
      · exact Or.inr ⟨g, by rw [g]; exact h⟩
    · rintro (g | ⟨g, -⟩)
      · exact Or.inl g
      · exact Or.inr g

theorem addQuery_prefix (u : Uni) (l : List Text) (x : Text) : l <+: addQuery u l x := by
  unfold addQuery
  simp only
  split
  · exact List.prefix_refl _
  · exact addNew_prefix _ _

theorem foldQuery_nodup (u : Uni) (ws : List Text) {l : List Text} (h : l.Nodup) : (ws.foldl (addQuery u) l).Nodup := by
  induction ws generalizing l with
  | nil => exact h
  | cons w ws ih => exact ih (addQuery_nodup u h w)

theorem foldQuery_mem (u : Uni) (ws l : List Text) (y : Text) :
    y ∈ ws.foldl (addQuery u) l ↔ y ∈ l ∨ (y ≠ [] ∧ ∃ w ∈ ws, y = trim u.space w) := by
  induction ws generalizing l with
  | nil => simp
  | cons w ws ih =>
    rw [List.foldl_cons, ih, addQuery_mem, or_assoc]
    apply or_congr Iff.rfl
    simp only [List.mem_cons, exists_eq_or_imp]
    constructor
    · rintro (⟨g1, g2⟩ | ⟨g1, g2⟩)
      · exact ⟨g2, Or.inl g1⟩
      · exact ⟨g1, Or.inr g2⟩
    · rintro ⟨g1, g2 | g2⟩
      · exact Or.inl ⟨g2, g1⟩
      · exact Or.inr ⟨g1, g2⟩

theorem foldQuery_prefix (u : Uni) (ws l : List Text) : l <+: ws.foldl (addQuery u) l := by
  induction ws generalizing l with
  | nil => exact List.prefix_refl _
  | cons w ws ih => exact (addQuery_prefix u l w).trans (ih _)

theorem trim_trim (p : Char → Bool) (x : Text) : trim p (trim p x) = trim p x := by
  have hdd : ∀ l : Text, (l.dropWhile p).dropWhile p = l.dropWhile p := by
    intro l
    induction l with
    | nil => rfl
    | cons c cs ih =>
      rw [List.dropWhile_cons]
      split
      · exact ih
      · rename_i h; rw [List.dropWhile_cons, if_neg h]
  have hnot : ∀ l : Text, (∀ c ∈ (l.dropWhile p).head?, p c = false) := by
    intro l
    induction l with
    | nil => simp
    | cons c cs ih =>
      rw [List.dropWhile_cons]
      split
      · exact ih
      · rename_i h; simpa using h
  have hkeep : ∀ l : Text, (∀ c ∈ l.head?, p c = false) → l.dropWhile p = l := by
    intro l hl
    cases l with
    | nil => rfl
    | cons c cs => rw [List.dropWhile_cons, if_neg (by simp [hl c (by simp)])]
  -- cutting at the end does not expose a separator at the front
  have hpre : ∀ l : Text, (l.reverse.dropWhile p).reverse <+: l := by
    intro l
    have := List.dropWhile_suffix p (l := l.reverse)
    rw [← List.reverse_prefix, List.reverse_reverse] at this
    exact this
  unfold trim
  have h1 : (((x.dropWhile p).reverse.dropWhile p).reverse).dropWhile p = ((x.dropWhile p).reverse.dropWhile p).reverse := by
    apply hkeep
    intro c hc
    have hp := hpre (x.dropWhile p)
    obtain ⟨t, ht⟩ := hp
    apply hnot x
    rw [← ht]
    generalize (((x.dropWhile p).reverse).dropWhile p).reverse = m at hc
    cases m with
    | nil => simp at hc
    | cons a m => simpa using hc
  rw [h1, List.reverse_reverse, hdd]

/-- C148: the queries sent to the full-text index are all different, none is blank, the first is the trimmed question (when it is not blank).
Each of them is the question, one of the alternates, or some keywords joined by ` OR `. -/
theorem C148_queries (u : Uni) (q : Text) (kws alternates : List Text) :
    let qs := searchQueries u q kws alternates
    qs.Nodup ∧ [] ∉ qs ∧ (trim u.space q ≠ [] → qs.head? = some (trim u.space q)) ∧
    (∀ a ∈ alternates, trim u.space a ≠ [] → trim u.space a ∈ qs) ∧
    (∀ x ∈ qs, x = trim u.space q ∨ (∃ a ∈ alternates, x = trim u.space a) ∨
      ∃ ws, ws ≠ [] ∧ (∀ w ∈ ws, ∃ k, (k ∈ keywords u (joinSp kws) ∨ k ∈ keywords u (trim u.space q)) ∧ (w = k ∨ w = k ++ ['*'])) ∧
        x = trim u.space (joinOr ws)) ∧
    qs.length ≤ alternates.length + 4 := by
  intro qs
  set t := trim u.space q with ht
  set l0 := if t ≠ [] then addQuery u [] t else [] with hl0
  set l1 := alternates.foldl (addQuery u) l0 with hl1
  set planned := keywords u (joinSp kws) with hpl
  set auto := keywords u t with hau
  set l2 := if auto.length > 0 then addQuery u l1 (joinOr auto) else l1 with hl2
  set all := mergeKeywords planned auto with hall
  have hqs : qs = if all.length > 0 then addQuery u (addQuery u l2 (joinOr (formatTerms all false))) (joinOr (formatTerms all true)) else l2 := rfl
  have htt : trim u.space t = t := trim_trim u.space q
  -- what is in each stage
  have m0 : ∀ y, y ∈ l0 ↔ y = t ∧ y ≠ [] := by
    intro y
    rw [hl0]
    split
    · rw [addQuery_mem, htt]; simp
    · rename_i h
      rw [not_not] at h
      rw [h]; simp
  have m1 : ∀ y, y ∈ l1 ↔ (y = t ∧ y ≠ []) ∨ (y ≠ [] ∧ ∃ w ∈ alternates, y = trim u.space w) := by
    intro y; rw [hl1, foldQuery_mem, m0]
  have n0 : l0.Nodup := by
    rw [hl0]; split
    · exact addQuery_nodup u List.nodup_nil _
    · exact List.nodup_nil
  have n1 : l1.Nodup := foldQuery_nodup u _ n0
  have n2 : l2.Nodup := by
    rw [hl2]; split
    · exact addQuery_nodup u n1 _
    · exact n1
  have p1 : l0 <+: l1 := foldQuery_prefix u _ _
  have p2 : l1 <+: l2 := by
    rw [hl2]; split
    · exact addQuery_prefix u _ _
    · exact List.prefix_refl _
  have p3 : l2 <+: qs := by
    rw [hqs]; split
    · exact (addQuery_prefix u _ _).trans (addQuery_prefix u _ _)
    · exact List.prefix_refl _
  have hmall : ∀ w, w ∈ all ↔ (w ∈ planned ∨ w ∈ auto) ∧ w ≠ [] := by
    intro w
    rw [hall, mergeKeywords, foldAdd_mem, List.mem_filter, List.mem_append]
    simp
  have hterm : ∀ b, ∀ w ∈ formatTerms all b, ∃ k, (k ∈ planned ∨ k ∈ auto) ∧ (w = k ∨ w = k ++ ['*']) := by
    intro b w hw
    unfold formatTerms at hw
    obtain ⟨k, hk, rfl⟩ := List.mem_map.1 hw
    refine ⟨k, ((hmall k).1 (List.mem_filter.1 hk).1).1, ?_⟩
    split
    · exact Or.inr rfl
    · exact Or.inl rfl
  have hne : ∀ b, all.length > 0 → formatTerms all b ≠ [] := by
    intro b hpos
    obtain ⟨w, hw⟩ := List.length_pos_iff_exists_mem.1 hpos
    unfold formatTerms
    intro h
    rw [List.map_eq_nil_iff, List.filter_eq_nil_iff] at h
    exact h w hw (by simpa using ((hmall w).1 hw).2)
  -- every stage, one by one
  have cl2 : ∀ x ∈ l2, x ≠ [] ∧ (x = t ∨ (∃ a ∈ alternates, x = trim u.space a) ∨
      ∃ ws, ws ≠ [] ∧ (∀ w ∈ ws, ∃ k, (k ∈ planned ∨ k ∈ auto) ∧ (w = k ∨ w = k ++ ['*'])) ∧ x = trim u.space (joinOr ws)) := by
    intro x hx
    have h1 : ∀ x ∈ l1, x ≠ [] ∧ (x = t ∨ (∃ a ∈ alternates, x = trim u.space a) ∨
      ∃ ws, ws ≠ [] ∧ (∀ w ∈ ws, ∃ k, (k ∈ planned ∨ k ∈ auto) ∧ (w = k ∨ w = k ++ ['*'])) ∧ x = trim u.space (joinOr ws)) := by
      intro x hx
      rcases (m1 x).1 hx with ⟨g1, g2⟩ | ⟨g1, g2⟩
      · exact ⟨g2, Or.inl g1⟩
      · exact ⟨g1, Or.inr (Or.inl g2)⟩
    rw [hl2] at hx
    split at hx
    · rename_i hpos
      rcases (addQuery_mem u _ _ _).1 hx with g | ⟨g1, g2⟩
      · exact h1 x g
      · refine ⟨g2, Or.inr (Or.inr ⟨auto, List.ne_nil_of_length_pos hpos, fun w hw => ⟨w, Or.inr hw, Or.inl rfl⟩, g1⟩)⟩
    · exact h1 x hx
  have clq : ∀ x ∈ qs, x ≠ [] ∧ (x = t ∨ (∃ a ∈ alternates, x = trim u.space a) ∨
      ∃ ws, ws ≠ [] ∧ (∀ w ∈ ws, ∃ k, (k ∈ planned ∨ k ∈ auto) ∧ (w = k ∨ w = k ++ ['*'])) ∧ x = trim u.space (joinOr ws)) := by
    intro x hx
    rw [hqs] at hx
    split at hx
    · rename_i hpos
      rcases (addQuery_mem u _ _ _).1 hx with g | ⟨g1, g2⟩
      · rcases (addQuery_mem u _ _ _).1 g with g | ⟨g1, g2⟩
        · exact cl2 x g
        · exact ⟨g2, Or.inr (Or.inr ⟨_, hne false hpos, hterm false, g1⟩)⟩
      · exact ⟨g2, Or.inr (Or.inr ⟨_, hne true hpos, hterm true, g1⟩)⟩
    · exact cl2 x hx
  have la : ∀ (l : List Text) x, (addQuery u l x).length ≤ l.length + 1 := by
    intro l x
    unfold addQuery addNew
    simp only
    split
    · omega
    · split
      · omega
      · simp
  have lf : ∀ (ws l : List Text), (ws.foldl (addQuery u) l).length ≤ l.length + ws.length := by
    intro ws
    induction ws with
    | nil => intro l; simp
    | cons w ws ih =>
      intro l
      have h1 := ih (addQuery u l w)
      have h2 := la l w
      rw [List.foldl_cons, List.length_cons]; omega
  refine ⟨?_, fun h => (clq [] h).1 rfl, ?_, ?_, fun x hx => (clq x hx).2, ?_⟩
  · rw [hqs]; split
    · exact addQuery_nodup u (addQuery_nodup u n2 _) _
    · exact n2
  · intro h
    have e0 : l0 = [t] := by
      rw [hl0, if_pos h]
      unfold addQuery addNew
      simp only [htt, if_neg h]
      simp
    obtain ⟨r, hr⟩ := (p1.trans p2).trans p3
    rw [← hr, e0]; rfl
  · intro a ha hne'
    exact (p2.trans p3).subset ((m1 _).2 (Or.inr ⟨hne', a, ha, rfl⟩))
  · have a0 : l0.length ≤ 1 := by
      rw [hl0]; split
      · exact la [] t
      · simp
    have a1 : l1.length ≤ l0.length + alternates.length := lf _ _
    have a2 : l2.length ≤ l1.length + 1 := by
      rw [hl2]; split
      · exact la _ _
      · omega
    have a3 : qs.length ≤ l2.length + 2 := by
      rw [hqs]; split
      · have b1 := la (addQuery u l2 (joinOr (formatTerms all false))) (joinOr (formatTerms all true))
        have b2 := la l2 (joinOr (formatTerms all false))
        omega
      · omega
    omega

/-- C148: a keyword given by the caller or found in the question is never dropped: one of the queries is the ` OR ` of terms that include it. -/
theorem C148_complete (u : Uni) (hsp : ∀ c, u.space c = true → u.letter c = false) (q : Text) (kws alternates : List Text)
    (he : ∀ c, edgeChar c = true → u.letter c = false)
    (k : Text) (hk : k ∈ keywords u (joinSp kws) ∨ k ∈ keywords u (trim u.space q)) :
    ∃ ws, k ∈ ws ∧ joinOr ws ∈ searchQueries u q kws alternates ∧
      ∀ w ∈ ws, w ∈ keywords u (joinSp kws) ∨ w ∈ keywords u (trim u.space q) := by
  set t := trim u.space q with ht
  set planned := keywords u (joinSp kws) with hpl
  set auto := keywords u t with hau
  set all := mergeKeywords planned auto with hall
  have hword : ∀ w, (w ∈ planned ∨ w ∈ auto) → w ≠ [] ∧ ∀ c ∈ w, u.letter c = true := by
    have hgen : ∀ (x w : Text), w ∈ keywords u x → w ≠ [] ∧ ∀ c ∈ w, u.letter c = true := by
      intro x w hw
      have := fields_words _ _ w (((C148_keywords u he x).2 w).1 hw).1
      exact ⟨this.1, fun c hc => by simpa using this.2 c hc⟩
    rintro w (h | h)
    · exact hgen _ w h
    · exact hgen _ w h
  have hmall : ∀ w, w ∈ all ↔ (w ∈ planned ∨ w ∈ auto) := by
    intro w
    rw [hall, mergeKeywords, foldAdd_mem, List.mem_filter, List.mem_append]
    simp only [List.not_mem_nil, false_or, decide_eq_true_eq]
    exact ⟨fun h => h.1, fun h => ⟨h, (hword w h).1⟩⟩
  have hfmt : formatTerms all false = all := by
    unfold formatTerms
    rw [List.filter_eq_self.2 (fun w hw => by simpa using (hword w ((hmall w).1 hw)).1)]
    simp
  have hkall : k ∈ all := (hmall k).2 hk
  have hlast : ∀ ws : List Text, ws ≠ [] → (∀ w ∈ ws, w ≠ [] ∧ ∀ c ∈ w, u.letter c = true) →
      joinOr ws ≠ [] ∧ (∀ c ∈ (joinOr ws).head?, u.letter c = true) ∧ (∀ c ∈ (joinOr ws).getLast?, u.letter c = true) := by
    intro ws
    induction ws with
    | nil => intro h; exact absurd rfl h
    | cons w ws ih =>
      intro _ hw
      obtain ⟨w1, w2⟩ := hw w (by simp)
      obtain ⟨c0, w', hw'⟩ := List.exists_cons_of_ne_nil w1
      cases ws with
      | nil =>
        refine ⟨w1, ?_, ?_⟩
        · intro c hc; exact w2 c (List.mem_of_mem_head? hc)
        · intro c hc; exact w2 c (List.mem_of_getLast? hc)
      | cons v vs =>
        obtain ⟨i1, -, i3⟩ := ih (by simp) (fun x hx => hw x (by simp [hx]))
        have e : joinOr (w :: v :: vs) = w ++ " OR ".toList ++ joinOr (v :: vs) := rfl
        rw [e]
        refine ⟨?_, ?_, ?_⟩
        · simp [w1]
        · intro c hc
          rw [hw'] at hc w2
          simp only [List.cons_append, List.head?_cons, Option.mem_def, Option.some.injEq] at hc
          exact w2 c (by rw [← hc]; simp)
        · intro c hc
          rw [List.getLast?_append] at hc
          obtain ⟨z, hz⟩ : ∃ z, (joinOr (v :: vs)).getLast? = some z := by
            cases h : (joinOr (v :: vs)).getLast? with
            | none => exact absurd (List.getLast?_eq_none_iff.1 h) i1
            | some z => exact ⟨z, rfl⟩
          rw [hz] at hc
          simp only [Option.some_or, Option.mem_def, Option.some.injEq] at hc
          exact i3 c (by rw [hz, hc]; rfl)
  obtain ⟨j1, j2, j3⟩ := hlast all (List.ne_nil_of_mem hkall) (fun w hw => hword w ((hmall w).1 hw))
  have htrim : trim u.space (joinOr all) = joinOr all := by
    have hkeep : ∀ l : Text, (∀ c ∈ l.head?, u.letter c = true) → l.dropWhile u.space = l := by
      intro l hl
      cases l with
      | nil => rfl
      | cons c cs =>
        rw [List.dropWhile_cons, if_neg]
        intro h
        have := hsp c h
        rw [hl c (by simp)] at this
        cases this
    unfold trim
    rw [hkeep _ j2, hkeep _ (by rw [List.head?_reverse]; exact j3), List.reverse_reverse]
  refine ⟨all, hkall, ?_, fun w hw => (hmall w).1 hw⟩
  have hpos : all.length > 0 := List.length_pos_of_mem hkall
  show joinOr all ∈ (if all.length > 0 then _ else _)
  rw [if_pos hpos, hfmt]
  refine (addQuery_prefix u _ _).subset ?_
  rw [addQuery_mem]
  exact Or.inr ⟨htrim.symm, j1⟩

/-- The hypotheses are met by ASCII. -/
example : ∀ c ∈ " \t\r\n.,!?;:\"'()[]{}<>".toList, ascii.letter c = false := by decide

example : searchQueries ascii " Who is Ada Lovelace? ".toList ["math".toList] ["ada".toList] =
    ["Who is Ada Lovelace?", "ada", "ada OR lovelace", "math OR ada OR lovelace", "math* OR ada* OR lovelace*"].map String.toList := by
  decide +kernel

end Verif.GraphTools
