import Verif.Thm.FtsQuery
import Verif.Thm.LexTools
import Verif.Thm.MemoryWrites

/-!
C216: a memory is found by a word it contains. The keyword search of memories (`Model.Memory`) with the queries made from the question
(`Model.GraphTools`), read in the query language of the index (`Model.FtsQuery`).
-/
namespace Verif.FtsMemory
open Verif.Base Verif.Memory
open Verif.FtsQuery hiding Text
open Verif.GraphTools (Uni searchQueries joinOr edgeChar)

variable {V S T : Type} [LinearOrder S] [DecidableEq T]

/-- The environment of the memory functions: the index answers a query as its language says, and the queries are those made from the
question, the keywords and the alternates. -/
structure Wired (e : Env V S) (L : Lib T) (u : Uni) (kws alts : List Text) : Prop where
  space : e.sp = u.space
  refuses : ∀ q rows, parse q = none → e.fts q rows = none
  answers : ∀ q rows x, parse q = some x → ∃ hits, e.fts q rows = some hits ∧
    (hits.map Prod.fst).Perm (rows.filter (fun r => L.sat r.content x))
  queries : ∀ q, trim u.space q ≠ [] → trim u.space q :: e.moreQueries q = searchQueries u q kws alts

/-- What is assumed of Unicode: letters and digits are characters of bare words, are not spaces and not cut off; lower case has no capitals
of ASCII. -/
structure Letters (u : Uni) : Prop where
  bare : ∀ c, u.letter c = true → bare c = true
  space : ∀ c, u.space c = true → u.letter c = false
  edge : ∀ c, edgeChar c = true → u.letter c = false
  lower : ∀ c, ¬ ('A' ≤ u.lower c ∧ u.lower c ≤ 'Z')

theorem fieldsAux_chars (p : Char → Bool) (cur l w : List Char) (h : w ∈ fieldsAux p cur l) : ∀ c ∈ w, c ∈ cur ∨ c ∈ l := by
  induction l generalizing cur with
  | nil =>
    simp only [fieldsAux] at h
    split_ifs at h
    · cases h
    · rw [List.mem_singleton] at h
      subst h
      intro c hc
      exact .inl (by simpa using hc)
  | cons d l ih =>
    simp only [fieldsAux] at h
    split_ifs at h
    · intro c hc
      rcases ih [] h c hc with h | h
      · cases h
      · exact .inr (by simp [h])
    · rcases List.mem_cons.1 h with rfl | h
      · intro c hc
        exact .inl (by simpa using hc)
      · intro c hc
        rcases ih [] h c hc with h | h
        · cases h
        · exact .inr (by simp [h])
    · intro c hc
      rcases ih (d :: cur) h c hc with h | h
      · rcases List.mem_cons.1 h with rfl | h
        · exact .inr (by simp)
        · exact .inl h
      · exact .inr (by simp [h])

/-- Keywords are plain words. -/
theorem keyword_plain (u : Uni) (hu : Letters u) (q k : Text) (hk : k ∈ GraphTools.keywords u q) : PlainWord k := by
  have hf := (((GraphTools.C148_keywords u hu.edge q).2 k).1 hk).1
  have hw := fields_words _ _ k hf
  refine ⟨hw.1, fun c hc => hu.bare c (by simpa using hw.2 c hc), ?_⟩
  intro ho
  obtain ⟨c, ks, rfl⟩ := List.exists_cons_of_ne_nil hw.1
  have hc : c ∈ q.map u.lower := by
    rcases fieldsAux_chars _ [] _ _ hf c (by simp) with h | h
    · cases h
    · exact h
  obtain ⟨d, -, rfl⟩ := List.mem_map.1 hc
  have hcap : ∀ x : Char, x ∈ ['A', 'O', 'N'] → 'A' ≤ x ∧ x ≤ 'Z' := by decide
  refine hu.lower d (hcap _ ?_)
  simp only [operators, List.mem_cons, List.cons.injEq, List.not_mem_nil, or_false] at ho ⊢
  tauto

theorem sound_of_wired {e : Env V S} {L : Lib T} {u : Uni} {kws alts : List Text} (h : Wired e L u kws alts)
    (hs : ∀ l, (e.sortHits l).Perm l) (hd : ∀ l, (e.sortHits l).Pairwise (fun a b => b.2 ≤ a.2)) : Sound e := by
  refine ⟨?_, hs, hd⟩
  intro q rows l hl x hx
  cases hp : parse q with
  | none => rw [h.refuses q rows hp] at hl; cases hl
  | some y =>
    obtain ⟨hits, h1, h2⟩ := h.answers q rows y hp
    rw [h1] at hl
    obtain rfl := Option.some.inj hl
    exact (List.mem_filter.1 (h2.mem_iff.1 (List.mem_map.2 ⟨x, hx, rfl⟩))).1

/-- A search with a candidate succeeds. -/
theorem search_ok (e : Env V S) (now : Int) (s : State V) (b query : Text) (topK : Int) (hq : trim e.sp query ≠ [])
    (y : Row V × ℚ) (hy : Cand e now (s.rows.filter (fun r => r.bucket == b && decide (r.bucket ∈ s.buckets)))
      (if topK ≤ 0 then 5 else topK.toNat) (trim e.sp query :: e.moreQueries query) y) :
    ∃ hits, searchLexical e now s b query topK = .ok hits := by
  unfold searchLexical
  simp only
  rw [if_neg hq]
  set rows := s.rows.filter (fun r => r.bucket == b && decide (r.bucket ∈ s.buckets))
  set k := if topK ≤ 0 then 5 else topK.toNat
  have hM := lexLoop_merged e now rows k 0 (trim e.sp query :: e.moreQueries query) [] false (fun _ => False)
    ⟨by simp, by simp, by simp⟩
  obtain ⟨z, hz, -⟩ := hM.best y (.inr hy)
  generalize hl : lexLoop e now rows k 0 (trim e.sp query :: e.moreQueries query) ([], false) = l at hz
  obtain ⟨m, f⟩ := l
  simp only
  rw [if_neg]
  · exact ⟨_, rfl⟩
  · rintro ⟨h0, -⟩
    rw [List.length_eq_zero_iff.1 h0] at hz
    cases hz

/-- C216: after every history, a live memory of the bucket that has a keyword of the question (or one of the keywords given) is found:
the search succeeds, and the memory is listed unless the list is full.
Missing: buckets that hold more than four memories per place in the list, when some of them are expired (see `C84`). -/
theorem C216_found_partial (e : Env V S) (L : Lib T) (u : Uni) (kws alts : List Text) (hu : Letters u) (hw : Wired e L u kws alts)
    (hsort : ∀ l, (e.sortHits l).Perm l) (hdesc : ∀ l, (e.sortHits l).Pairwise (fun a b => b.2 ≤ a.2))
    (ops : List (Int × Op)) (now : Int) (b query : Text) (topK : Int) (hq : trim u.space query ≠ [])
    (r : Row V) (hr : r ∈ (run e (init : State V) ops).rows) (hb : r.bucket = b) (hlive : expired now r = false)
    (k : Text) (hk : k ∈ GraphTools.keywords u (joinSp kws) ∨ k ∈ GraphTools.keywords u (trim u.space query))
    (hhas : Has L.tok k r.content)
    (hroom : (∀ x ∈ (run e (init : State V) ops).rows, x.bucket = b → expired now x = false) ∨
      ((run e (init : State V) ops).rows.filter (fun x => decide (x.bucket = b))).length ≤ 4 * (if topK ≤ 0 then 5 else topK.toNat)) :
    ∃ hits, searchLexical e now (run e (init : State V) ops) b query topK = .ok hits ∧
      (r.id ∈ hits.map (fun h => h.1.id) ∨ hits.length = if topK ≤ 0 then 5 else topK.toNat) := by
  set s := run e (init : State V) ops with hs
  set n := if topK ≤ 0 then 5 else topK.toNat with hn
  have hn0 : 0 < n := by rw [hn]; split <;> omega
  have hg : Good s := good_run e ops
  set rows := s.rows.filter (fun r => r.bucket == b && decide (r.bucket ∈ s.buckets)) with hrows
  have hmem : ∀ x, x ∈ rows ↔ x ∈ s.rows ∧ x.bucket = b := by
    intro x
    rw [hrows, List.mem_filter]
    simp only [Bool.and_eq_true, beq_iff_eq, decide_eq_true_eq]
    exact ⟨fun h => ⟨h.1, h.2.1⟩, fun h => ⟨h.1, h.2, hg.held x h.1⟩⟩
  obtain ⟨ws, hkw, hjoin, hws⟩ := GraphTools.C148_complete u hu.space query kws alts hu.edge k hk
  have hplain : ∀ w ∈ ws, PlainWord w := fun w hw' => (hws w hw').elim (keyword_plain u hu _ w) (keyword_plain u hu _ w)
  obtain ⟨w0, ws', rfl⟩ := List.exists_cons_of_ne_nil (List.ne_nil_of_mem hkw)
  obtain ⟨x, hx, hsat⟩ := C215_any (T := T) w0 ws' hplain
  obtain ⟨hits, hf, hperm⟩ := hw.answers _ rows x hx
  rw [← hw.queries query hq] at hjoin
  obtain ⟨i, hi⟩ := List.mem_iff_getElem?.1 hjoin
  rw [show u.space = e.sp from hw.space.symm] at hi hq
  set qs := trim e.sp query :: e.moreQueries query with hqs
  have hcand : ∀ y rank, (y, rank) ∈ hits.take (4 * n) → expired now y = false →
      Cand e now rows n qs (y, 1 / (1 + |rank|) * max (4 / 5) (1 - (i : ℚ) / 20)) :=
    fun y rank h1 h2 => ⟨i, _, hits, rank, hi, hf, h1, h2, rfl⟩
  have hrin : r ∈ hits.map Prod.fst :=
    hperm.mem_iff.2 (List.mem_filter.2 ⟨(hmem r).2 ⟨hr, hb⟩, (hsat L r.content).2 ⟨k, hkw, hhas⟩⟩)
  have hnd : (hits.map (fun h => h.1.id)).Nodup := by
    have h1 : (rows.map Row.id).Nodup := hg.once.sublist ((List.filter_sublist).map Row.id)
    have h2 : ((rows.filter (fun r => L.sat r.content x)).map Row.id).Nodup := h1.sublist ((List.filter_sublist).map Row.id)
    have h3 := ((hperm.map Row.id).nodup_iff).2 h2
    rwa [List.map_map] at h3
  have hsnd := sound_of_wired hw hsort hdesc
  by_cases hle : hits.length ≤ 4 * n
  · obtain ⟨⟨r', rank⟩, hmemr, hfst⟩ := List.mem_map.1 hrin
    simp only at hfst
    subst hfst
    have hc := hcand r' rank (by rw [List.take_of_length_le hle]; exact hmemr) hlive
    obtain ⟨out, ho⟩ := search_ok e now s b query topK hq _ hc
    refine ⟨out, ho, ?_⟩
    by_contra hcon
    simp only [not_or] at hcon
    exact hcon.2 ((C189_best e hsnd now s b query topK out ho).2.2.2.2 _ hc hcon.1).1
  · have hall : ∀ x ∈ s.rows, x.bucket = b → expired now x = false := by
      rcases hroom with h | h
      · exact h
      · exfalso
        have h1 : hits.length = (rows.filter (fun r => L.sat r.content x)).length := by
          have := hperm.length_eq
          rwa [List.length_map] at this
        have h2 : (rows.filter (fun r => L.sat r.content x)).length ≤ rows.length := List.length_filter_le _ _
        have h3 : rows = s.rows.filter (fun x => decide (x.bucket = b)) := by
          rw [hrows]
          apply List.filter_congr
          intro y hy
          have hh := hg.held y hy
          by_cases e1 : y.bucket = b
          · rw [e1] at hh
            simp [e1, hh]
          · simp [e1]
        rw [h1] at hle
        have h4 := congrArg List.length h3
        omega
    have hlive' : ∀ y ∈ hits.take (4 * n), expired now y.1 = false := by
      intro y hy
      have h1 : y.1 ∈ rows := (List.mem_filter.1 (hperm.mem_iff.1 (List.mem_map.2 ⟨y, List.mem_of_mem_take hy, rfl⟩))).1
      exact hall y.1 ((hmem y.1).1 h1).1 ((hmem y.1).1 h1).2
    have hlen : (hits.take (4 * n)).length = 4 * n := by rw [List.length_take]; omega
    obtain ⟨y0, hy0⟩ : ∃ y, y ∈ hits.take (4 * n) := by
      cases h : hits.take (4 * n) with
      | nil => rw [h] at hlen; simp at hlen; omega
      | cons y l => exact ⟨y, by simp⟩
    obtain ⟨out, ho⟩ := search_ok e now s b query topK hq _ (hcand y0.1 y0.2 hy0 (hlive' y0 hy0))
    refine ⟨out, ho, .inr ?_⟩
    by_contra hne
    have hbest := C189_best e hsnd now s b query topK out ho
    have hsub : (hits.take (4 * n)).map (fun h => h.1.id) ⊆ out.map (fun h => h.1.id) := by
      intro j hj
      obtain ⟨y, hy, rfl⟩ := List.mem_map.1 hj
      by_contra hno
      exact hne (hbest.2.2.2.2 _ (hcand y.1 y.2 hy (hlive' y hy)) hno).1
    have h1 : ((hits.take (4 * n)).map (fun h => h.1.id)).Nodup := hnd.sublist ((List.take_sublist _ _).map _)
    have h2 := (List.subperm_of_subset h1 hsub).length_le
    rw [List.length_map, List.length_map, hlen] at h2
    have h3 := hbest.2.2.1
    omega

theorem lexLoop_none (e : Env V S) (now : Int) (rows : List (Row V)) (k idx : Nat) (qs : List Text) (f : Bool)
    (h : ∀ q ∈ qs, e.fts q rows = none ∨ e.fts q rows = some []) (hf : f = true ∨ ∃ q ∈ qs, e.fts q rows = none) :
    lexLoop e now rows k idx qs ([], f) = ([], true) := by
  induction qs generalizing idx f with
  | nil =>
    rcases hf with rfl | ⟨q, hq, -⟩
    · rfl
    · cases hq
  | cons q qs ih =>
    have h' : ∀ q ∈ qs, e.fts q rows = none ∨ e.fts q rows = some [] := fun x hx => h x (by simp [hx])
    simp only [lexLoop]
    rcases h q (by simp) with hq | hq
    · rw [hq]
      exact ih (idx + 1) true h' (.inl rfl)
    · rw [hq]
      show lexLoop e now rows k (idx + 1) qs (List.foldl mergeHit [] _, f) = _
      rw [List.take_nil, List.filter_nil, List.map_nil, List.foldl_nil]
      refine ih (idx + 1) f h' ?_
      rcases hf with hf | ⟨y, hy, hn⟩
      · exact .inl hf
      · rcases List.mem_cons.1 hy with rfl | hy
        · rw [hq] at hn; cases hn
        · exact .inr ⟨y, hy, hn⟩

/-- C216, violated: whatever the history, when the question cannot be read by the index (`Unreadable`, for example because it ends in a
question mark) and no memory of the bucket satisfies any of the other queries, a keyword search fails instead of finding nothing. -/
theorem C216_error_violated (e : Env V S) (L : Lib T) (u : Uni) (kws alts : List Text) (hw : Wired e L u kws alts)
    (ops : List (Int × Op)) (now : Int) (b query : Text) (topK : Int) (hq : trim u.space query ≠ [])
    (hbad : Unreadable (trim u.space query))
    (hnone : ∀ r ∈ (run e (init : State V) ops).rows, r.bucket = b →
      ∀ y ∈ searchQueries u query kws alts, ∀ x, parse y = some x → L.sat r.content x = false) :
    searchLexical e now (run e (init : State V) ops) b query topK = .error .fts := by
  set s := run e (init : State V) ops
  unfold searchLexical
  simp only
  rw [hw.space, if_neg hq]
  rw [lexLoop_none e now _ _ 0 (trim u.space query :: e.moreQueries query) false]
  · simp
  · rw [hw.queries query hq]
    intro y hy
    cases hp : parse y with
    | none => exact .inl (hw.refuses y _ hp)
    | some x =>
      refine .inr ?_
      obtain ⟨hits, h1, h2⟩ := hw.answers y (s.rows.filter (fun r => r.bucket == b && decide (r.bucket ∈ s.buckets))) x hp
      have h3 : (s.rows.filter (fun r => r.bucket == b && decide (r.bucket ∈ s.buckets))).filter (fun r => L.sat r.content x) = [] := by
        rw [List.filter_eq_nil_iff]
        intro r hr
        rw [List.mem_filter] at hr
        have hb : r.bucket = b := by
          have := hr.2
          simp only [Bool.and_eq_true, beq_iff_eq] at this
          exact this.1
        rw [hnone r hr.1 hb y hy x hp]
        simp
      rw [h3, List.perm_nil, List.map_eq_nil_iff] at h2
      rw [h1, h2]
  · exact .inr ⟨_, by simp, hw.refuses _ _ (C215_refused_violated _ hbad)⟩

/-! ### Cases -/

/-- The environment exists: the index of the model, ranks all one, no embedder. -/
def demoEnv (kws alts : List Text) : Env Unit ℚ :=
  { sp := GraphTools.ascii.space, lower := GraphTools.ascii.lower, embedder := none, sim := fun _ _ => 0
    fts := fun q rows => (parse q).map (fun x => (rows.filter (fun r => FtsQuery.demo.sat r.content x)).map (fun r => (r, -1)))
    sortHits := fun l => l.insertionSort (fun a b => b.2 ≤ a.2)
    moreQueries := fun q => (searchQueries GraphTools.ascii q kws alts).tail }

theorem demo_wired (kws alts : List Text) : Wired (demoEnv kws alts) FtsQuery.demo GraphTools.ascii kws alts := by
  refine ⟨rfl, ?_, ?_, ?_⟩
  · intro q rows h
    simp [demoEnv, h]
  · intro q rows x h
    refine ⟨(rows.filter (fun r => FtsQuery.demo.sat r.content x)).map (fun r => (r, -1)), by simp only [demoEnv, h, Option.map_some], ?_⟩
    rw [List.map_map]
    have : (Prod.fst ∘ fun r : Row Unit => (r, (-1 : ℚ))) = id := rfl
    rw [this, List.map_id]
  · intro q hq
    have h := (GraphTools.C148_queries GraphTools.ascii q kws alts).2.2.1 hq
    show _ :: (searchQueries GraphTools.ascii q kws alts).tail = _
    exact List.cons_head?_tail h

example (l : List (Row Unit × ℚ)) : ((demoEnv [] []).sortHits l).Perm l ∧ ((demoEnv [] []).sortHits l).Pairwise (fun a b => b.2 ≤ a.2) := by
  haveI : Std.Total (fun a b : Row Unit × ℚ => b.2 ≤ a.2) := ⟨fun a b => le_total b.2 a.2⟩
  haveI : IsTrans (Row Unit × ℚ) (fun a b => b.2 ≤ a.2) := ⟨fun a b c h1 h2 => le_trans h2 h1⟩
  exact ⟨List.perm_insertionSort _ l, List.pairwise_insertionSort _ l⟩

theorem demo_letters : Letters GraphTools.ascii := by
  refine ⟨?_, ?_, ?_, ?_⟩
  · intro c h
    simp only [GraphTools.ascii, Char.isAlphanum, Char.isAlpha, Char.isUpper, Char.isLower, Char.isDigit, Bool.or_eq_true, Bool.and_eq_true,
      decide_eq_true_eq] at h
    simp only [bare, Bool.or_eq_true, Bool.and_eq_true, decide_eq_true_eq]
    rcases h with (h | h) | h
    · exact .inl (.inl (.inl (.inl (.inr h))))
    · exact .inl (.inl (.inl (.inl (.inl h))))
    · exact .inl (.inl (.inl (.inr h)))
  · intro c h
    simp only [GraphTools.ascii, Char.isWhitespace, Bool.or_eq_true, decide_eq_true_eq, beq_iff_eq] at h
    rcases h with ((rfl | rfl) | rfl) | rfl <;> decide
  · intro c h
    have : ∀ x ∈ " \t\r\n.,!?;:\"'()[]{}<>".toList, GraphTools.ascii.letter x = false := by decide
    exact this c (by simpa [edgeChar] using h)
  · intro c h
    simp only [GraphTools.ascii, Char.toLower] at h
    split at h
    · rename_i hc
      obtain ⟨h1, h2⟩ := hc
      simp only [Char.le_def, UInt32.le_iff_toNat_le] at h h1 h2
      have e1 : 'A'.val.toNat = 65 := rfl
      have e2 : 'Z'.val.toNat = 90 := rfl
      simp only [UInt32.toNat_add, e1, e2] at h h1 h2
      have e3 : ('a'.val - 'A'.val).toNat = 32 := rfl
      rw [e3] at h
      omega
    · rename_i hc
      exact hc ⟨h.1, h.2⟩

/-- A memory, and the question it answers. -/
def saved : SaveReq := ⟨"m".toList, "My name is Alice".toList, "user".toList, "u".toList, [], [], 0⟩

example : ∃ r, r ∈ (run (demoEnv [] []) (init : State Unit) [(0, .save saved)]).rows ∧ r.bucket = "memory:user:u:default".toList ∧
    expired 7 r = false ∧ "name".toList ∈ GraphTools.keywords GraphTools.ascii "What is my name?".toList ∧
    Has FtsQuery.demo.tok "name".toList r.content ∧ trim GraphTools.ascii.space "What is my name?".toList ≠ [] := by
  refine ⟨_, List.mem_cons_self, by decide +kernel, by decide +kernel, by decide +kernel, ⟨by decide +kernel, by decide +kernel⟩, by decide +kernel⟩
example : ((searchLexical (demoEnv [] []) 7 (run (demoEnv [] []) (init : State Unit) [(0, .save saved)]) "memory:user:u:default".toList
    "What is my name?".toList 3).toOption.map (fun l => l.map (fun h => h.1.id))) = some ["m".toList] := by decide +kernel
/-- Nothing was saved: the question fails, without the question mark it finds nothing. -/
example : (match searchLexical (demoEnv [] []) 7 (init : State Unit) "memory:user:u:default".toList "What is my name?".toList 3 with
      | .error e => some e
      | .ok _ => none) = some .fts ∧
    (searchLexical (demoEnv [] []) 7 (init : State Unit) "memory:user:u:default".toList "What is my name".toList 3).toOption.map List.length
      = some 0 := by decide +kernel

end Verif.FtsMemory
