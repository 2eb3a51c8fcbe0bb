import Verif.Model.Rag
import Mathlib.Tactic.Linarith
import Mathlib.Tactic.Positivity
import Mathlib.Tactic.FieldSimp
import Mathlib.Tactic.Ring
import Mathlib.Tactic.NormNum
import Mathlib.Algebra.Order.Field.Basic

/-!
C66: context packing. C81: reranking of context chunks. C82: entity identifiers.
-/
namespace Verif.Rag
open Verif.Base

/-! ### Specification -/

/-- Number of chunks of one document. -/
def ofDoc (d : List Char) (l : List Chunk) : Nat := (l.filter (fun c => c.doc = d)).length

/-- Room a chunk may take in the context, generously. -/
def room (l : List Chunk) : Nat := (l.map lineLen).sum

/-! ### Lemmas on the packing loop -/

structure PackInv (o : QueryOpts) (p : Pack) : Prop where
  counts : ∀ d, d ≠ [] → p.counts d = ofDoc d p.packed
  chars : p.chars = room p.packed
  len : (p.packed.length : Int) ≤ o.maxChunks
  perDoc : ∀ d, d ≠ [] → (ofDoc d p.packed : Int) ≤ o.perDoc
  fits : (p.chars : Int) ≤ o.maxChars ∨ p.packed.length ≤ 1

theorem ofDoc_append (d : List Char) (l : List Chunk) (c : Chunk) :
    ofDoc d (l ++ [c]) = ofDoc d l + if c.doc = d then 1 else 0 := by
  unfold ofDoc
  rw [List.filter_append, List.length_append]
  congr 1
  by_cases h : c.doc = d <;> simp [h]

theorem room_append (l : List Chunk) (c : Chunk) : room (l ++ [c]) = room l + lineLen c := by
  simp [room]

theorem packStep_inv (o : QueryOpts) (p : Pack) (c : Chunk) (h : PackInv o p)
    (hl : ¬ (p.packed.length : Int) ≥ o.maxChunks) : PackInv o (packStep o.maxChunks o.maxChars o.perDoc p c) := by
  unfold packStep
  split
  · exact h
  · split
    · exact h
    · rename_i h1 h2
      refine ⟨?_, ?_, ?_, ?_, ?_⟩
      · intro d hd
        rw [ofDoc_append]
        simp only
        split
        · rename_i hcd
          simp only
          split
          · rename_i e; subst e; rw [h.counts _ hd]; simp
          · rename_i e; rw [h.counts _ hd, if_neg (fun e' => e e'.symm)]; simp
        · rename_i hcd
          have : c.doc = [] := by simpa using hcd
          rw [h.counts _ hd, if_neg (by rw [this]; exact fun e => hd e.symm)]; simp
      · show p.chars + lineLen c = _
        rw [room_append, h.chars]
      · simp only [List.length_append, List.length_singleton]; push_cast; omega
      · intro d hd
        rw [ofDoc_append]
        by_cases e : c.doc = d
        · subst e
          have h3 : ¬ ((p.counts c.doc : Int) ≥ o.perDoc) := fun h' => h1 ⟨hd, h'⟩
          have h4 := h.counts _ hd
          rw [if_pos rfl]; push_cast; omega
        · rw [if_neg e]; simpa using h.perDoc d hd
      · show ((p.chars + lineLen c : Nat) : Int) ≤ o.maxChars ∨ _
        by_cases h0 : p.packed.length > 0
        · left
          have : ¬ (((p.chars + lineLen c : Nat) : Int) > o.maxChars) := fun h' => h2 ⟨h0, h'⟩
          omega
        · right
          simp only [List.length_append, List.length_singleton]; omega

theorem packLoop_inv (o : QueryOpts) (p : Pack) (cs : List Chunk) (h : PackInv o p) :
    PackInv o (packLoop o.maxChunks o.maxChars o.perDoc p cs) := by
  induction cs generalizing p with
  | nil => exact h
  | cons c cs ih =>
    simp only [packLoop]
    split
    · exact h
    · rename_i hl; exact ih _ (packStep_inv o p c h hl)

theorem packStep_packed (o : QueryOpts) (p : Pack) (c : Chunk) :
    (packStep o.maxChunks o.maxChars o.perDoc p c).packed = p.packed ∨
    (packStep o.maxChunks o.maxChars o.perDoc p c).packed = p.packed ++ [c] := by
  unfold packStep
  split
  · exact .inl rfl
  · split
    · exact .inl rfl
    · exact .inr rfl

theorem packLoop_sub (o : QueryOpts) (p : Pack) (cs : List Chunk) :
    ∃ t, (packLoop o.maxChunks o.maxChars o.perDoc p cs).packed = p.packed ++ t ∧ List.Sublist t cs := by
  induction cs generalizing p with
  | nil => exact ⟨[], by simp [packLoop], by simp⟩
  | cons c cs ih =>
    simp only [packLoop]
    split
    · exact ⟨[], by simp, by simp⟩
    · obtain ⟨t, ht, hs⟩ := ih (packStep o.maxChunks o.maxChars o.perDoc p c)
      rcases packStep_packed o p c with e | e
      · exact ⟨t, by rw [ht, e], hs.trans (List.sublist_cons_self c cs)⟩
      · exact ⟨c :: t, by rw [ht, e]; simp, List.Sublist.cons_cons c hs⟩

theorem ofDoc_mono (d : List Char) (l t : List Chunk) : ofDoc d l ≤ ofDoc d (l ++ t) := by
  simp [ofDoc, List.filter_append]

theorem room_mono (l t : List Chunk) : room l ≤ room (l ++ t) := by simp [room]

/-- Why a chunk is not in the packed list. -/
def Excused (o : QueryOpts) (out : List Chunk) (c : Chunk) : Prop :=
  (out.length : Int) = o.maxChunks ∨ (c.doc ≠ [] ∧ (ofDoc c.doc out : Int) = o.perDoc) ∨
    ((room out + lineLen c : Nat) : Int) > o.maxChars

theorem packLoop_max (o : QueryOpts) (p : Pack) (cs : List Chunk) (h : PackInv o p) :
    ∀ c ∈ cs, c ∈ (packLoop o.maxChunks o.maxChars o.perDoc p cs).packed ∨
      Excused o (packLoop o.maxChunks o.maxChars o.perDoc p cs).packed c := by
  induction cs generalizing p with
  | nil => simp
  | cons a as ih =>
    intro c hc
    by_cases hl : (p.packed.length : Int) ≥ o.maxChunks
    · right; left
      simp only [packLoop, if_pos hl]
      have := h.len; omega
    · have hstep := packStep_inv o p a h hl
      have hi := packLoop_inv o _ as hstep
      have e : packLoop o.maxChunks o.maxChars o.perDoc p (a :: as) =
          packLoop o.maxChunks o.maxChars o.perDoc (packStep o.maxChunks o.maxChars o.perDoc p a) as := by
        simp only [packLoop, if_neg hl]
      rw [e]
      rcases List.mem_cons.1 hc with rfl | hc
      · obtain ⟨t, ht, _⟩ := packLoop_sub o (packStep o.maxChunks o.maxChars o.perDoc p c) as
        by_cases h1 : c.doc ≠ [] ∧ (p.counts c.doc : Int) ≥ o.perDoc
        · right; right; left
          have e1 : (packStep o.maxChunks o.maxChars o.perDoc p c) = p := by
            unfold packStep; rw [if_pos h1]
          rw [e1] at ht hi ⊢
          have h2 := hi.perDoc c.doc h1.1
          have h3 := h.counts c.doc h1.1
          have h4 := ofDoc_mono c.doc p.packed t
          rw [← ht] at h4
          exact ⟨h1.1, by omega⟩
        · by_cases h2 : p.packed.length > 0 ∧ ((p.chars + lineLen c : Nat) : Int) > o.maxChars
          · right; right; right
            have e1 : (packStep o.maxChunks o.maxChars o.perDoc p c) = p := by
              unfold packStep; rw [if_neg h1, if_pos h2]
            rw [e1] at ht hi ⊢
            have h4 := room_mono p.packed t
            rw [← ht, ← h.chars] at h4
            have := h2.2
            omega
          · left
            have e1 : (packStep o.maxChunks o.maxChars o.perDoc p c).packed = p.packed ++ [c] := by
              unfold packStep; rw [if_neg h1, if_neg h2]
            rw [ht, e1]
            simp
      · exact ih _ hstep c hc

theorem queryDefaults_ok (o : QueryOpts) :
    1 ≤ (queryDefaults o).topK ∧ 1 ≤ (queryDefaults o).maxHops ∧ 1 ≤ (queryDefaults o).maxRelated ∧
    1 ≤ (queryDefaults o).maxChunks ∧ 1 ≤ (queryDefaults o).maxChars ∧ 1 ≤ (queryDefaults o).perDoc ∧
    0 < (queryDefaults o).lambda ∧ (queryDefaults o).lambda ≤ 1 := by
  unfold queryDefaults
  simp only
  refine ⟨?_, ?_, ?_, ?_, ?_, ?_, ?_, ?_⟩
  · split <;> omega
  · split <;> omega
  · split <;> split <;> (try split) <;> omega
  · split <;> (try split) <;> (try split) <;> (try split) <;> omega
  · split <;> omega
  · split <;> omega
  · split
    · norm_num
    · rename_i h
      simp only [Bool.or_eq_true, decide_eq_true_eq, not_or, not_le] at h
      exact h.1
  · split
    · norm_num
    · rename_i h
      simp only [Bool.or_eq_true, decide_eq_true_eq, not_or, not_lt] at h
      exact h.2

theorem initInv (o : QueryOpts) (h : 1 ≤ o.maxChunks) (hd : 1 ≤ o.perDoc) : PackInv o ⟨[], fun _ => 0, 0⟩ :=
  ⟨fun d _ => rfl, rfl, by simp; omega, fun d _ => by simp [ofDoc]; omega, .inr (by simp)⟩

theorem packLoop_head (o : QueryOpts) (hm : 1 ≤ o.maxChunks) (hd : 1 ≤ o.perDoc) (c : Chunk) (cs : List Chunk) :
    ∃ t, (packLoop o.maxChunks o.maxChars o.perDoc ⟨[], fun _ => 0, 0⟩ (c :: cs)).packed = c :: t ∧
      List.Sublist t cs := by
  have e : packLoop o.maxChunks o.maxChars o.perDoc ⟨[], fun _ => 0, 0⟩ (c :: cs) =
      packLoop o.maxChunks o.maxChars o.perDoc
        (packStep o.maxChunks o.maxChars o.perDoc ⟨[], fun _ => 0, 0⟩ c) cs := by
    rw [packLoop, if_neg (by simp; omega)]
  have e1 : (packStep o.maxChunks o.maxChars o.perDoc ⟨[], fun _ => 0, 0⟩ c).packed = [c] := by
    unfold packStep; rw [if_neg (by simp; intro; omega), if_neg (by simp)]; rfl
  obtain ⟨t, ht, hs⟩ := packLoop_sub o (packStep o.maxChunks o.maxChars o.perDoc ⟨[], fun _ => 0, 0⟩ c) cs
  exact ⟨t, by rw [e, ht, e1]; rfl, hs⟩

/-- What `pack` computes once the options are valid: the loop's result. -/
theorem pack_eq (o : QueryOpts) (hm : 1 ≤ o.maxChunks) (hd : 1 ≤ o.perDoc) (chunks : List Chunk) :
    pack o chunks = (packLoop o.maxChunks o.maxChars o.perDoc ⟨[], fun _ => 0, 0⟩ chunks).packed := by
  unfold pack
  cases chunks with
  | nil => simp [packLoop]
  | cons c cs =>
    obtain ⟨t, ht, _⟩ := packLoop_head o hm hd c cs
    rw [if_neg (by simp)]
    simp only
    rw [if_neg (by rw [ht]; simp)]

theorem blen_append (a b : List Char) : blen (a ++ b) = blen a + blen b := by simp [blen]
theorem blen_cons (c : Char) (l : List Char) : blen (c :: l) = c.utf8Size + blen l := by simp [blen]

theorem contextLine_len (c : Chunk) : blen (contextLine c) + 4 ≤ lineLen c := by
  have h1 : ('[').utf8Size = 1 := rfl
  have h2 : (']').utf8Size = 1 := rfl
  have h3 : (' ').utf8Size = 1 := rfl
  have h4 : ('/').utf8Size = 1 := rfl
  unfold contextLine lineLen
  simp only [blen_append, blen_cons, h1, h2, h3]
  split
  · simp only [blen_append, blen_cons, h4]; omega
  · omega

theorem buildContext_len (l : List Chunk) : blen (buildContext l) ≤ room l := by
  have hn : ('\n').utf8Size = 1 := rfl
  unfold buildContext room
  induction l with
  | nil => simp [joinNl, blen]
  | cons c cs ih =>
    have hc := contextLine_len c
    cases cs with
    | nil => simp only [List.map_cons, List.map_nil, joinNl, List.sum_cons, List.sum_nil]; omega
    | cons d ds =>
      have e : joinNl ((c :: d :: ds).map contextLine) =
          contextLine c ++ '\n' :: joinNl ((d :: ds).map contextLine) := rfl
      have e2 : ((c :: d :: ds).map lineLen).sum = lineLen c + ((d :: ds).map lineLen).sum := rfl
      rw [e, e2, blen_append, blen_cons, hn]
      omega

/-! ### C66 -/

/-- C66: after defaults every budget is at least one. -/
theorem C66_defaults (o : QueryOpts) :
    1 ≤ (queryDefaults o).topK ∧ 1 ≤ (queryDefaults o).maxHops ∧ 1 ≤ (queryDefaults o).maxRelated ∧
    1 ≤ (queryDefaults o).maxChunks ∧ 1 ≤ (queryDefaults o).maxChars ∧ 1 ≤ (queryDefaults o).perDoc ∧
    0 < (queryDefaults o).lambda ∧ (queryDefaults o).lambda ≤ 1 := queryDefaults_ok o

/-- C66: for every ranked chunk list and every options: the packed chunks keep the ranking order, respect the
chunk, document and character budgets (the last unless one chunk alone exceeds it), start with the best chunk,
and nothing is left out without a budget being the reason. -/
theorem C66_pack (o : QueryOpts) (chunks : List Chunk) :
    let d := queryDefaults o
    let out := pack d chunks
    List.Sublist out chunks ∧
    (out.length : Int) ≤ d.maxChunks ∧
    (∀ doc, doc ≠ [] → (ofDoc doc out : Int) ≤ d.perDoc) ∧
    ((blen (buildContext out) : Int) ≤ d.maxChars ∨ out.length ≤ 1) ∧
    out.head? = chunks.head? ∧
    (∀ c ∈ chunks, c ∈ out ∨ Excused d out c) := by
  obtain ⟨_, _, _, hm, _, hd, _, _⟩ := queryDefaults_ok o
  intro d out
  have hinv := packLoop_inv d _ chunks (initInv d hm hd)
  have he : out = _ := pack_eq d hm hd chunks
  refine ⟨?_, he ▸ hinv.len, fun doc hdoc => he ▸ hinv.perDoc doc hdoc, ?_, ?_, ?_⟩
  · obtain ⟨t, ht, hs⟩ := packLoop_sub d ⟨[], fun _ => 0, 0⟩ chunks
    rw [he, ht]; simpa using hs
  · rcases hinv.fits with h | h
    · left
      have h1 := buildContext_len out
      have h2 := hinv.chars
      rw [← he] at h2
      omega
    · exact .inr (he ▸ h)
  · rw [he]
    cases chunks with
    | nil => simp [packLoop]
    | cons c cs =>
      obtain ⟨t, ht, _⟩ := packLoop_head d hm hd c cs
      rw [ht]; rfl
  · rw [he]
    exact packLoop_max d _ chunks (initInv d hm hd)

/-- C66: the context is empty only when there are no chunks. -/
theorem C66_nonempty (o : QueryOpts) (chunks : List Chunk) :
    pack (queryDefaults o) chunks = [] ↔ chunks = [] := by
  have h := (C66_pack o chunks).2.2.2.2.1
  constructor
  · intro e; rw [e] at h; cases chunks <;> simp_all
  · intro e; subst e; rfl

def ch (id doc content : String) (s : ℚ) : Chunk :=
  { id := id.toList, doc := doc.toList, content := content.toList, score := s, entities := [] }

example : ((pack (queryDefaults ⟨0, 0, 0, 3, 40, 1, false, 0⟩)
    [ch "a" "x" "hello" 3, ch "b" "x" "again" 2, ch "c" "y" "a very long content that does not fit" 1,
     ch "d" "y" "ok" 1]).map (fun c => String.ofList c.id)) = ["a", "d"] := by decide

/-! ### C81 -/

theorem overlapScore_range (a b : Finset (List Char)) : 0 ≤ overlapScore a b ∧ overlapScore a b ≤ 1 := by
  unfold overlapScore
  split
  · exact ⟨le_rfl, zero_le_one⟩
  · rename_i h
    rw [not_or] at h
    have ha : 0 < a.card := Nat.pos_of_ne_zero h.1
    have h1 : (a ∩ b).card ≤ a.card := Finset.card_le_card Finset.inter_subset_left
    have h2 : (a ∩ b).card ≤ b.card := Finset.card_le_card Finset.inter_subset_right
    have h1' : ((a ∩ b).card : ℚ) ≤ a.card := by exact_mod_cast h1
    have h2' : ((a ∩ b).card : ℚ) ≤ b.card := by exact_mod_cast h2
    have h0 : (0 : ℚ) ≤ ((a ∩ b).card : ℚ) := by positivity
    have ha' : (0 : ℚ) < a.card := by exact_mod_cast ha
    have hb' : (0 : ℚ) < b.card := by exact_mod_cast Nat.pos_of_ne_zero h.2
    split
    · exact ⟨div_nonneg h0 hb'.le, (div_le_one hb').2 h2'⟩
    · exact ⟨div_nonneg h0 ha'.le, (div_le_one ha').2 h1'⟩

theorem foldl_min_le (xs : List ℚ) (x : ℚ) :
    xs.foldl (fun m s => if s < m then s else m) x ≤ x ∧
    ∀ y ∈ xs, xs.foldl (fun m s => if s < m then s else m) x ≤ y := by
  induction xs generalizing x with
  | nil => simp
  | cons a as ih =>
    simp only [List.foldl_cons, List.mem_cons, forall_eq_or_imp]
    split
    · rename_i h
      obtain ⟨h1, h2⟩ := ih a
      exact ⟨h1.trans h.le, h1, h2⟩
    · rename_i h
      obtain ⟨h1, h2⟩ := ih x
      exact ⟨h1, h1.trans (not_lt.1 h), h2⟩

theorem foldl_max_le (xs : List ℚ) (x : ℚ) :
    x ≤ xs.foldl (fun m s => if s > m then s else m) x ∧
    ∀ y ∈ xs, y ≤ xs.foldl (fun m s => if s > m then s else m) x := by
  induction xs generalizing x with
  | nil => simp
  | cons a as ih =>
    simp only [List.foldl_cons, List.mem_cons, forall_eq_or_imp]
    split
    · rename_i h
      obtain ⟨h1, h2⟩ := ih a
      exact ⟨(le_of_lt h).trans h1, h1, h2⟩
    · rename_i h
      obtain ⟨h1, h2⟩ := ih x
      exact ⟨h1, (not_lt.1 h).trans h1, h2⟩

theorem normalize_length (l : List ℚ) : (normalize l).length = l.length := by
  cases l with
  | nil => rfl
  | cons x xs => simp only [normalize]; split <;> simp

theorem normalize_range (l : List ℚ) : ∀ s ∈ normalize l, 0 ≤ s ∧ s ≤ 1 := by
  cases l with
  | nil => simp [normalize]
  | cons x xs =>
    intro s hs
    simp only [normalize] at hs
    split at hs
    · obtain ⟨_, _, rfl⟩ := List.mem_map.1 hs
      exact ⟨zero_le_one, le_rfl⟩
    · rename_i hd
      obtain ⟨y, hy, rfl⟩ := List.mem_map.1 hs
      obtain ⟨l1, l2⟩ := foldl_min_le xs x
      obtain ⟨u1, u2⟩ := foldl_max_le xs x
      set lo := xs.foldl (fun m s => if s < m then s else m) x
      set hi := xs.foldl (fun m s => if s > m then s else m) x
      have hlo : lo ≤ y := by
        rcases List.mem_cons.1 hy with rfl | h
        · exact l1
        · exact l2 y h
      have hhi : y ≤ hi := by
        rcases List.mem_cons.1 hy with rfl | h
        · exact u1
        · exact u2 y h
      have hpos : 0 < hi - lo := lt_of_lt_of_le (by norm_num) (not_lt.1 hd)
      exact ⟨div_nonneg (by linarith) hpos.le, (div_le_one hpos).2 (by linarith)⟩

theorem bestIdx_spec (f : Chunk → ℚ) (c : Chunk) (cs : List Chunk) :
    ∃ x, (c :: cs)[bestIdx f (c :: cs)]? = some x ∧ ∀ y ∈ c :: cs, f y ≤ f x := by
  -- invariant of the scan over a processed prefix
  have H : ∀ (rest pre : List Chunk) (st : Nat × Nat × ℚ),
      st.1 = pre.length → (∃ x, pre[st.2.1]? = some x ∧ f x = st.2.2 ∧ ∀ y ∈ pre, f y ≤ f x) →
      ∃ x, (pre ++ rest)[(rest.foldl (fun (p : Nat × Nat × ℚ) x =>
        if f x > p.2.2 then (p.1 + 1, p.1, f x) else (p.1 + 1, p.2)) st).2.1]? = some x ∧
        ∀ y ∈ pre ++ rest, f y ≤ f x := by
    intro rest
    induction rest with
    | nil =>
      intro pre st _ ⟨x, h1, _, h3⟩
      exact ⟨x, by simpa using h1, by simpa using h3⟩
    | cons a as ih =>
      intro pre st hst ⟨x, h1, h2, h3⟩
      simp only [List.foldl_cons]
      have := ih (pre ++ [a]) (if f a > st.2.2 then (st.1 + 1, st.1, f a) else (st.1 + 1, st.2))
        (by split <;> simp [hst]) (by
          split
          · rename_i hgt
            refine ⟨a, by simp [hst], rfl, ?_⟩
            intro y hy
            rcases List.mem_append.1 hy with hy | hy
            · exact ((h3 y hy).trans (h2.le)).trans (le_of_lt hgt)
            · rw [List.mem_singleton.1 hy]
          · rename_i hle
            have hlt : st.2.1 < pre.length := by
              by_contra hcon
              rw [List.getElem?_eq_none (by omega)] at h1
              cases h1
            refine ⟨x, ?_, h2, ?_⟩
            · simpa [List.getElem?_append_left hlt] using h1
            · intro y hy
              rcases List.mem_append.1 hy with hy | hy
              · exact h3 y hy
              · rw [List.mem_singleton.1 hy, h2]; exact not_lt.1 hle)
      simpa using this
  exact H cs [c] (1, 0, f c) rfl ⟨c, by simp, rfl, by simp⟩

theorem perm_eraseIdx {α : Type*} (l : List α) (i : Nat) (x : α) (h : l[i]? = some x) :
    (x :: l.eraseIdx i).Perm l := by
  induction l generalizing i with
  | nil => simp at h
  | cons a as ih =>
    cases i with
    | zero =>
      simp only [List.getElem?_cons_zero, Option.some.injEq] at h
      subst h; simp
    | succ n =>
      simp only [List.getElem?_cons_succ] at h
      simp only [List.eraseIdx_cons_succ]
      exact (List.Perm.swap a x _).trans ((ih n h).cons a)

theorem selectLoop_spec (tok : List Char → Finset (List Char)) (lam : ℚ) (n : Nat) (sel rem : List Chunk) :
    ∃ t rest, selectLoop tok lam n sel rem = sel ++ t ∧ (t ++ rest).Perm rem ∧ t.length = min n rem.length := by
  induction n generalizing sel rem with
  | zero => exact ⟨[], rem, by simp [selectLoop], by simp, by simp⟩
  | succ n ih =>
    cases rem with
    | nil => exact ⟨[], [], by simp [selectLoop], by simp, by simp⟩
    | cons c cs =>
      obtain ⟨x, hx, _⟩ := bestIdx_spec
        (fun x => lam * x.rerank - (1 - lam) * maxRedundancy tok x sel) c cs
      simp only [selectLoop, hx]
      obtain ⟨t, rest, h1, h2, h3⟩ := ih (sel ++ [x])
        ((c :: cs).eraseIdx (bestIdx (fun x => lam * x.rerank - (1 - lam) * maxRedundancy tok x sel) (c :: cs)))
      have hp := perm_eraseIdx _ _ x hx
      refine ⟨x :: t, rest, by rw [h1]; simp, ?_, ?_⟩
      · rw [List.cons_append]
        exact (h2.cons x).trans hp
      · have := hp.length_eq
        simp only [List.length_cons] at this ⊢
        rw [h3]
        omega

/-- C81: reranking returns chunks of the input (each at most as often as it was given), as many as the budget
and the input allow, each unchanged apart from its rerank score, which lies in [0,1]. -/
theorem C81_rerank (tok : List Char → Finset (List Char)) (q : List Char) (qe : Finset (List Char))
    (o : QueryOpts) (chunks : List Chunk) :
    let out := rerank tok q qe (queryDefaults o) chunks
    (∃ rest, ((out ++ rest).map (fun c => { c with rerank := 0 })).Perm
      (chunks.map (fun c => { c with rerank := 0 }))) ∧
    (out.length : Int) = min (queryDefaults o).maxChunks chunks.length ∧
    ∀ c ∈ out, 0 ≤ c.rerank ∧ c.rerank ≤ 1 := by
  intro out
  have hm := (queryDefaults_ok o).2.2.2.1
  have hlen := normalize_length (chunks.map (·.score))
  have hrange := normalize_range (chunks.map (·.score))
  set base := normalize (chunks.map (·.score)) with hb
  obtain ⟨t, rest, h1, h2, h3⟩ := selectLoop_spec tok (queryDefaults o).lambda (queryDefaults o).maxChunks.toNat []
    (List.zipWith (fun c b => { c with rerank := rerankScore tok q qe b c }) chunks base)
  have hout : out = t := by
    show selectLoop _ _ _ _ _ = _
    rw [h1]; rfl
  rw [hout]
  refine ⟨⟨rest, ?_⟩, ?_, ?_⟩
  · refine (h2.map _).trans ?_
    rw [List.length_map] at hlen
    clear h2 h3 h1 hout hb
    have : ∀ (cs : List Chunk) (bs : List ℚ), bs.length = cs.length →
        (List.zipWith (fun c b => { c with rerank := rerankScore tok q qe b c }) cs bs).map
          (fun c => { c with rerank := 0 }) = cs.map (fun c => { c with rerank := 0 }) := by
      intro cs
      induction cs with
      | nil => intro bs _; simp
      | cons c cs ih =>
        intro bs hl
        cases bs with
        | nil => simp at hl
        | cons b bs =>
          simp only [List.length_cons, Nat.add_right_cancel_iff] at hl
          simp only [List.zipWith_cons_cons, List.map_cons]
          rw [ih bs hl]
    rw [this chunks base hlen]
  · rw [h3, List.length_zipWith, hlen, List.length_map]
    push_cast
    omega
  · intro c hc
    have hc' : c ∈ t ++ rest := List.mem_append_left _ hc
    have := h2.mem_iff.1 hc'
    obtain ⟨i, hi, e⟩ := List.getElem_of_mem this
    rw [List.getElem_zipWith] at e
    subst e
    have hbi := hrange (base[i]'(by rw [List.length_zipWith] at hi; omega)) (List.getElem_mem _)
    show 0 ≤ rerankScore _ _ _ _ _ ∧ rerankScore _ _ _ _ _ ≤ 1
    unfold rerankScore
    have r1 := overlapScore_range (tok q) (tok (chunks[i]'(by rw [List.length_zipWith] at hi; omega)).content)
    have r2 := overlapScore_range qe (tok (joinSp (chunks[i]'(by rw [List.length_zipWith] at hi; omega)).entities))
    constructor <;> linarith [hbi.1, hbi.2, r1.1, r1.2, r2.1, r2.2]

/-- C81: the first chunk of the reranked list has the highest rerank score of all. -/
theorem C81_best_first (tok : List Char → Finset (List Char)) (q : List Char) (qe : Finset (List Char))
    (o : QueryOpts) (chunks : List Chunk) (b : Chunk)
    (h : (rerank tok q qe (queryDefaults o) chunks).head? = some b) :
    ∀ c ∈ rerank tok q qe (queryDefaults o) chunks, c.rerank ≤ b.rerank := by
  obtain ⟨_, _, _, hm, _, _, hl, _⟩ := queryDefaults_ok o
  unfold rerank at h ⊢
  simp only at h ⊢
  generalize List.zipWith (fun (c : Chunk) b => { c with rerank := rerankScore tok q qe b c }) chunks
    (normalize (chunks.map (·.score))) = scored at h ⊢
  obtain ⟨n, hn⟩ : ∃ n, (queryDefaults o).maxChunks.toNat = n + 1 := ⟨(queryDefaults o).maxChunks.toNat - 1, by omega⟩
  rw [hn] at h ⊢
  cases hsc : scored with
  | nil => rw [hsc] at h; simp [selectLoop] at h
  | cons c cs =>
    obtain ⟨x, hx, hbest⟩ := bestIdx_spec
      (fun x => (queryDefaults o).lambda * x.rerank - (1 - (queryDefaults o).lambda) * maxRedundancy tok x []) c cs
    have hall : ∀ y ∈ c :: cs, y.rerank ≤ x.rerank := by
      intro y hy
      have := hbest y hy
      simp only [maxRedundancy, List.foldl_nil, mul_zero, sub_zero] at this
      exact le_of_mul_le_mul_left this hl
    rw [hsc] at h
    simp only [selectLoop, hx] at h ⊢
    obtain ⟨t, rest, h1, h2, _⟩ := selectLoop_spec tok (queryDefaults o).lambda n ([] ++ [x])
      ((c :: cs).eraseIdx (bestIdx (fun x => (queryDefaults o).lambda * x.rerank -
        (1 - (queryDefaults o).lambda) * maxRedundancy tok x []) (c :: cs)))
    rw [h1] at h ⊢
    have hb : b = x := by simpa using h.symm
    subst hb
    intro y hy
    apply hall
    have hp := perm_eraseIdx _ _ b hx
    rcases List.mem_append.1 hy with hy | hy
    · have : y = b := by simpa using hy
      rw [this]; exact hp.mem_iff.1 (by simp)
    · exact hp.mem_iff.1 (List.mem_cons_of_mem _ (h2.mem_iff.1 (List.mem_append_left _ hy)))

/-! The greedy rule of C81, said without the scan: what a chunk is compared by, and what makes the choice right. -/

/-- The share of common tokens, of the larger of the two sets. -/
def common (a b : Finset (List Char)) : ℚ := ((a ∩ b).card : ℚ) / max (a.card : ℚ) (b.card : ℚ)

/-- How alike two chunks are: by their tokens, and at least 0.85 when they are of one named document. -/
def alike (tok : List Char → Finset (List Char)) (c e : Chunk) : ℚ :=
  if c.doc ≠ [] ∧ e.doc = c.doc then max (common (tok c.content) (tok e.content)) 0.85
  else common (tok c.content) (tok e.content)

/-- `r` is the likeness of `c` to the nearest of `sel`, 0 when there is none. -/
def Redundant (tok : List Char → Finset (List Char)) (c : Chunk) (sel : List Chunk) (r : ℚ) : Prop :=
  (∀ e ∈ sel, alike tok c e ≤ r) ∧ ((∃ e ∈ sel, r = alike tok c e) ∨ sel = [] ∧ r = 0)

/-- `rel` are the scores moved and stretched to [0,1], or all 1 when they hardly differ. -/
def Stretched (scores rel : List ℚ) : Prop :=
  (scores = [] ∧ rel = []) ∨ ∃ lo ∈ scores, ∃ hi ∈ scores, (∀ s ∈ scores, lo ≤ s ∧ s ≤ hi) ∧
    ((hi - lo < 1e-9 ∧ rel = scores.map (fun _ => 1)) ∨
      (1e-9 ≤ hi - lo ∧ rel = scores.map (fun s => (s - lo) / (hi - lo))))

/-- The rerank scores the chunks get: 60 % of the stretched search score, 25 % for the words shared with the question,
15 % for the names. -/
def Rescored (tok : List Char → Finset (List Char)) (q : List Char) (qe : Finset (List Char))
    (chunks scored : List Chunk) : Prop :=
  ∃ rel, Stretched (chunks.map (·.score)) rel ∧ scored.length = chunks.length ∧
    ∀ (i : Nat) (c : Chunk) (b : ℚ), chunks[i]? = some c → rel[i]? = some b →
      ∃ r, r = 0.6 * b + 0.25 * common (tok q) (tok c.content) + 0.15 * common qe (tok (joinSp c.entities)) ∧
        scored[i]? = some { c with rerank := r }

theorem overlapScore_common (a b : Finset (List Char)) : overlapScore a b = common a b := by
  unfold overlapScore common
  split
  · rename_i h
    rcases h with h | h <;> rw [Finset.card_eq_zero] at h <;> subst h <;> simp
  · split
    · rename_i h
      have : (a.card : ℚ) ≤ b.card := by exact_mod_cast h.le
      rw [max_eq_right this]
    · rename_i h
      have : (b.card : ℚ) ≤ a.card := by exact_mod_cast not_lt.1 h
      rw [max_eq_left this]

theorem foldl_min_mem (xs : List ℚ) (x : ℚ) :
    xs.foldl (fun m s => if s < m then s else m) x ∈ x :: xs := by
  induction xs generalizing x with
  | nil => simp
  | cons a as ih =>
    simp only [List.foldl_cons]
    split
    · have := ih a; simp only [List.mem_cons] at this ⊢; tauto
    · have := ih x; simp only [List.mem_cons] at this ⊢; tauto

theorem foldl_max_mem (xs : List ℚ) (x : ℚ) :
    xs.foldl (fun m s => if s > m then s else m) x ∈ x :: xs := by
  induction xs generalizing x with
  | nil => simp
  | cons a as ih =>
    simp only [List.foldl_cons]
    split
    · have := ih a; simp only [List.mem_cons] at this ⊢; tauto
    · have := ih x; simp only [List.mem_cons] at this ⊢; tauto

theorem normalize_stretched (l : List ℚ) : Stretched l (normalize l) := by
  cases l with
  | nil => exact .inl ⟨rfl, rfl⟩
  | cons x xs =>
    refine .inr ⟨_, foldl_min_mem xs x, _, foldl_max_mem xs x, ?_, ?_⟩
    · obtain ⟨l1, l2⟩ := foldl_min_le xs x
      obtain ⟨u1, u2⟩ := foldl_max_le xs x
      intro s hs
      rcases List.mem_cons.1 hs with rfl | h
      · exact ⟨l1, u1⟩
      · exact ⟨l2 s h, u2 s h⟩
    · simp only [normalize]
      split
      · rename_i h; exact .inl ⟨by norm_num at h ⊢; exact h, rfl⟩
      · rename_i h; exact .inr ⟨by norm_num at h ⊢; exact h, rfl⟩

theorem alike_nonneg (tok : List Char → Finset (List Char)) (c e : Chunk) : 0 ≤ alike tok c e := by
  have h := (overlapScore_range (tok c.content) (tok e.content)).1
  rw [overlapScore_common] at h
  unfold alike
  split
  · exact h.trans (le_max_left _ _)
  · exact h

theorem maxRedundancy_redundant (tok : List Char → Finset (List Char)) (c : Chunk) (sel : List Chunk) :
    Redundant tok c sel (maxRedundancy tok c sel) := by
  have e0 : maxRedundancy tok c sel = (sel.map (alike tok c)).foldl (fun m s => if s > m then s else m) 0 := by
    unfold maxRedundancy
    rw [List.foldl_map]
    congr 1
    funext m e
    have : (if c.doc ≠ [] ∧ c.doc = e.doc then max (overlapScore (tok c.content) (tok e.content)) (17 / 20)
        else overlapScore (tok c.content) (tok e.content)) = alike tok c e := by
      unfold alike
      rw [overlapScore_common]
      by_cases h : c.doc ≠ [] ∧ c.doc = e.doc
      · rw [if_pos h, if_pos ⟨h.1, h.2.symm⟩]; norm_num
      · rw [if_neg h, if_neg (fun h' => h ⟨h'.1, h'.2.symm⟩)]
    simp only [this]
  rw [e0]
  obtain ⟨h1, h2⟩ := foldl_max_le (sel.map (alike tok c)) 0
  refine ⟨fun e he => h2 _ (List.mem_map_of_mem he), ?_⟩
  have hm := foldl_max_mem (sel.map (alike tok c)) 0
  rcases List.mem_cons.1 hm with hz | hm
  · cases sel with
    | nil => exact .inr ⟨rfl, hz⟩
    | cons e es =>
      refine .inl ⟨e, by simp, ?_⟩
      have := h2 (alike tok c e) (by simp)
      rw [hz] at this ⊢
      exact le_antisymm (alike_nonneg tok c e) this
  · obtain ⟨e, he, ee⟩ := List.mem_map.1 hm
    exact .inl ⟨e, he, ee.symm⟩

theorem redundant_unique {tok : List Char → Finset (List Char)} {c : Chunk} {sel : List Chunk} {r r' : ℚ}
    (h : Redundant tok c sel r) (h' : Redundant tok c sel r') : r = r' := by
  obtain ⟨u, a⟩ := h
  obtain ⟨u', a'⟩ := h'
  rcases a with ⟨e, he, rfl⟩ | ⟨rfl, rfl⟩
  · rcases a' with ⟨e', he', rfl⟩ | ⟨rfl, _⟩
    · exact le_antisymm (u' e he) (u e' he')
    · simp at he
  · rcases a' with ⟨e', he', rfl⟩ | ⟨_, rfl⟩
    · simp at he'
    · rfl

theorem selectLoop_greedy (tok : List Char → Finset (List Char)) (lam : ℚ) (n : Nat) (sel rem : List Chunk) :
    ∃ t rest, selectLoop tok lam n sel rem = sel ++ t ∧ (t ++ rest).Perm rem ∧ t.length = min n rem.length ∧
      ∀ pre x post, t = pre ++ x :: post → ∀ y ∈ post ++ rest,
        lam * y.rerank - (1 - lam) * maxRedundancy tok y (sel ++ pre) ≤
          lam * x.rerank - (1 - lam) * maxRedundancy tok x (sel ++ pre) := by
  induction n generalizing sel rem with
  | zero => exact ⟨[], rem, by simp [selectLoop], by simp, by simp, by simp⟩
  | succ n ih =>
    cases rem with
    | nil => exact ⟨[], [], by simp [selectLoop], by simp, by simp, by simp⟩
    | cons c cs =>
      obtain ⟨x, hx, hb⟩ := bestIdx_spec
        (fun x => lam * x.rerank - (1 - lam) * maxRedundancy tok x sel) c cs
      simp only [selectLoop, hx]
      obtain ⟨t, rest, h1, h2, h3, h4⟩ := ih (sel ++ [x])
        ((c :: cs).eraseIdx (bestIdx (fun x => lam * x.rerank - (1 - lam) * maxRedundancy tok x sel) (c :: cs)))
      have hp := perm_eraseIdx _ _ x hx
      refine ⟨x :: t, rest, by rw [h1]; simp, ?_, ?_, ?_⟩
      · rw [List.cons_append]
        exact (h2.cons x).trans hp
      · have := hp.length_eq
        simp only [List.length_cons] at this ⊢
        rw [h3]
        omega
      · intro pre z post he y hy
        cases pre with
        | nil =>
          simp only [List.nil_append, List.cons.injEq] at he
          obtain ⟨rfl, rfl⟩ := he
          rw [List.append_nil]
          exact hb y (hp.mem_iff.1 (List.mem_cons_of_mem _ (h2.mem_iff.1 hy)))
        | cons p ps =>
          simp only [List.cons_append, List.cons.injEq] at he
          obtain ⟨rfl, he⟩ := he
          have := h4 ps z post he y hy
          simpa using this

/-- C81: the chunks get the rerank scores described by `Rescored`, and they are chosen one after the other, each time
one that is best by relevance weighed against its likeness to the nearest chunk chosen before: no chunk that comes
later or is left out would have been better at that place. -/
theorem C81_greedy (tok : List Char → Finset (List Char)) (q : List Char) (qe : Finset (List Char))
    (o : QueryOpts) (chunks : List Chunk) :
    let lam := (queryDefaults o).lambda
    let out := rerank tok q qe (queryDefaults o) chunks
    ∃ scored rest, Rescored tok q qe chunks scored ∧ (out ++ rest).Perm scored ∧
      ∀ pre x post, out = pre ++ x :: post → ∀ y ∈ post ++ rest, ∀ rx ry,
        Redundant tok x pre rx → Redundant tok y pre ry →
        lam * y.rerank - (1 - lam) * ry ≤ lam * x.rerank - (1 - lam) * rx := by
  intro lam out
  have hlen := normalize_length (chunks.map (·.score))
  obtain ⟨t, rest, h1, h2, _, h4⟩ := selectLoop_greedy tok lam (queryDefaults o).maxChunks.toNat []
    (List.zipWith (fun c b => { c with rerank := rerankScore tok q qe b c }) chunks
      (normalize (chunks.map (·.score))))
  have hout : out = t := by
    show selectLoop _ _ _ _ _ = _
    rw [h1]; rfl
  rw [hout]
  refine ⟨_, rest, ⟨_, normalize_stretched _, ?_, ?_⟩, h2, ?_⟩
  · rw [List.length_zipWith, hlen, List.length_map, min_self]
  · intro i c b hc hb
    refine ⟨_, rfl, ?_⟩
    rw [List.getElem?_zipWith, hc, hb]
    simp only [rerankScore, overlapScore_common]
    norm_num
    ring
  · intro pre x post he y hy rx ry hrx hry
    have := h4 pre x post he y hy
    rw [List.nil_append, redundant_unique (maxRedundancy_redundant tok y pre) hry,
      redundant_unique (maxRedundancy_redundant tok x pre) hrx] at this
    exact this

/-- A tokenizer for the examples: the whole text is one token. -/
def tok0 (t : List Char) : Finset (List Char) := {t}

example : ((rerank tok0 "hello".toList ∅ (queryDefaults ⟨0, 0, 0, 2, 0, 0, false, 0⟩)
    [ch "a" "x" "bye" 1, ch "b" "x" "hello" 2, ch "c" "y" "bye" 1]).map (fun c => String.ofList c.id)) =
    ["b", "c"] := by decide +kernel

/-- In this example the second place went to "c": "a" is of the document of "b", which counts as a likeness of 0.85. -/
example : Redundant tok0 (ch "a" "x" "bye" 1) [ch "b" "x" "hello" 2] 0.85 ∧
    Redundant tok0 (ch "c" "y" "bye" 1) [ch "b" "x" "hello" 2] 0 := by
  have h := maxRedundancy_redundant tok0 (ch "a" "x" "bye" 1) [ch "b" "x" "hello" 2]
  have h' := maxRedundancy_redundant tok0 (ch "c" "y" "bye" 1) [ch "b" "x" "hello" 2]
  rw [show maxRedundancy tok0 (ch "a" "x" "bye" 1) [ch "b" "x" "hello" 2] = 0.85 by decide +kernel] at h
  rw [show maxRedundancy tok0 (ch "c" "y" "bye" 1) [ch "b" "x" "hello" 2] = 0 by decide +kernel] at h'
  exact ⟨h, h'⟩

end Verif.Rag
