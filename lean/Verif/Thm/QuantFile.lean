import Verif.Model.QuantFile
import Verif.Thm.Quant
import Mathlib.Tactic.Ring
import Mathlib.Tactic.Linarith

/-!
C239: quantizers on disk. C240: the projecting quantizer.
-/
namespace Verif.Quant

theorem sent_getD {α : Type} [DecidableEq α] (zero x old : α) (h : x = zero → old = zero) : (sent zero x).getD old = x := by
  unfold sent
  split
  · rename_i hx; rw [hx]; exact h hx
  · rfl

/-! ### C239 -/

/-- C239, proved part: a scalar quantizer that was trained on vectors with components comes back as it was, whatever the quantizer it is
loaded into held: it encodes and decodes as before. -/
theorem C239_scalar_partial (s t : SQ) (hs : s.Ready) (hd : 0 < s.dim) : t.load s.save = s := by
  have h1 : s.ranges ≠ [] := by
    intro h; have := hs.len; rw [h] at this; simp at this; omega
  have h2 := hs.bits
  obtain ⟨d, n, r, tr⟩ := s
  simp only [SQ.load, SQ.save, SQ.mk.injEq]
  refine ⟨sent_getD _ _ _ ?_, sent_getD _ _ _ ?_, sent_getD _ _ _ ?_, sent_getD _ _ _ ?_⟩
  · intro h; exact absurd h (Nat.pos_iff_ne_zero.1 hd)
  · intro h; simp only at h2; omega
  · intro h; exact absurd h h1
  · intro h; exact absurd (hs.trained.symm.trans h) (by simp)

/-- C239, proved part: likewise a binary quantizer. -/
theorem C239_binary_partial (b c : BQ) (hb : b.Ready) (hd : 0 < b.dim) : c.load b.save = b := by
  have h1 : b.thr ≠ [] := by
    intro h; have := hb.len; rw [h] at this; simp at this; omega
  obtain ⟨d, r, tr⟩ := b
  simp only [BQ.load, BQ.save, BQ.mk.injEq]
  refine ⟨sent_getD _ _ _ ?_, sent_getD _ _ _ ?_, sent_getD _ _ _ ?_⟩
  · intro h; exact absurd h (Nat.pos_iff_ne_zero.1 hd)
  · intro h; exact absurd h h1
  · intro h; exact absurd (hb.trained.symm.trans h) (by simp)

/-- C239, proved part: any quantizer, trained or not, comes back when it is loaded into a new one of the same kind. -/
theorem C239_new_partial (s t : SQ) (ht : SQ.new s.dim s.nbits = some t) (hl : s.ranges.length = s.dim) (b : BQ) (hb : b.thr.length = b.dim) :
    t.load s.save = s ∧ (BQ.new b.dim).load b.save = b := by
  have ht : t = ⟨s.dim, s.nbits, List.replicate s.dim (0, 0), false⟩ := by
    unfold SQ.new at ht
    split at ht
    · cases ht
    · exact (Option.some.inj ht).symm
  subst ht
  obtain ⟨d, n, r, tr⟩ := s
  obtain ⟨d', r', tr'⟩ := b
  simp only at hl hb
  refine ⟨?_, ?_⟩
  · simp only [SQ.load, SQ.save, SQ.mk.injEq]
    refine ⟨sent_getD _ _ _ id, sent_getD _ _ _ id, sent_getD _ _ _ ?_, sent_getD _ _ _ fun _ => rfl⟩
    intro h; rw [h] at hl; simp at hl; simp [← hl]
  · simp only [BQ.load, BQ.save, BQ.new, BQ.mk.injEq]
    refine ⟨sent_getD _ _ _ id, sent_getD _ _ _ ?_, sent_getD _ _ _ fun _ => rfl⟩
    intro h; rw [h] at hb; simp at hb; simp [← hb]

/-- C239 is violated: a quantizer that was saved before it was trained refuses vectors, but loaded into one that was trained it codes every
vector of its dimension, with ranges without width. For every trained quantizer, dimension and number of bits. -/
theorem C239_untrained_violated (dim nbits : Nat) (s t : SQ) (hs : SQ.new dim nbits = some s) (hd : 0 < dim) (ht : t.trained = true)
    (v : Vec) (hv : v.length = dim) :
    s.encode v = none ∧ (t.load s.save).encode v ≠ none ∧ (t.load s.save).ranges = List.replicate dim (0, 0) := by
  have hs' : s = ⟨dim, nbits, List.replicate dim (0, 0), false⟩ := by
    unfold SQ.new at hs
    split at hs
    · cases hs
    · exact (Option.some.inj hs).symm
  subst hs'
  have h1 : (t.load (SQ.save ⟨dim, nbits, List.replicate dim (0, 0), false⟩)).trained = true := by
    simp [SQ.load, SQ.save, sent, ht]
  have h2 : (t.load (SQ.save ⟨dim, nbits, List.replicate dim (0, 0), false⟩)).dim = dim := by
    simp only [SQ.load, SQ.save]
    exact sent_getD _ _ _ fun h => absurd h (Nat.pos_iff_ne_zero.1 hd)
  have h3 : List.replicate dim ((0, 0) : ℚ × ℚ) ≠ [] := by
    intro h; have := congrArg List.length h; simp at this; omega
  refine ⟨by simp [SQ.encode], ?_, ?_⟩
  · unfold SQ.encode
    rw [h1, h2]
    simp [hv]
  · simp only [SQ.load, SQ.save]
    exact sent_getD _ _ _ fun h => absurd h h3

/-! ### C240 -/

/-- The scalar product of a vector with the beginning of a row. -/
def dot (v row : Vec) : ℚ := (List.zipWith (· * ·) v row).sum

theorem rowSum_eq : ∀ (v row : Vec), v.length ≤ row.length → rowSum v row = some (dot v row)
  | [], _, _ => rfl
  | x :: v, [], h => by simp at h
  | x :: v, p :: row, h => by
    simp only [List.length_cons, Nat.add_le_add_iff_right] at h
    simp [rowSum, rowSum_eq v row h, dot]

theorem rowSum_short : ∀ (v row : Vec), row.length < v.length → rowSum v row = none
  | [], _, h => by simp at h
  | x :: v, [], _ => rfl
  | x :: v, p :: row, h => by
    simp only [List.length_cons, Nat.add_lt_add_iff_right] at h
    simp [rowSum, rowSum_short v row h]

theorem mapM_all {α β : Type} {f : α → Option β} {g : α → β} : ∀ (l : List α), (∀ a ∈ l, f a = some (g a)) → l.mapM f = some (l.map g)
  | [], _ => rfl
  | a :: l, h => by
    rw [List.mapM_cons, h a List.mem_cons_self, mapM_all l fun x hx => h x (List.mem_cons_of_mem _ hx)]
    rfl

/-- A projecting quantizer for vectors of dimension `n`: a row of that length for each output dimension. -/
structure OBQ.Fits (o : OBQ) (n : Nat) : Prop where
  rows : o.proj.length = o.base.dim
  row : ∀ r ∈ o.proj, r.length = n

/-- C240: a vector of at most the input dimension is projected to its scalar products with the rows, one for each output dimension. -/
theorem C240_project (o : OBQ) (n : Nat) (ho : o.Fits n) (v : Vec) (hv : v.length ≤ n) :
    o.project v = some (o.proj.map (dot v)) ∧ (o.proj.map (dot v)).length = o.base.dim := by
  refine ⟨?_, by simp [ho.rows]⟩
  unfold OBQ.project
  rw [List.take_of_length_le (by rw [ho.rows])]
  exact mapM_all _ fun r hr => rowSum_eq _ _ (by rw [ho.row r hr]; exact hv)

theorem dot_linear (a : ℚ) : ∀ (v w row : Vec), v.length = w.length →
    dot (List.zipWith (fun x y => a * x + y) v w) row = a * dot v row + dot w row
  | [], [], _, _ => by simp [dot]
  | [], _ :: _, _, h => by simp at h
  | _ :: _, [], _, h => by simp at h
  | x :: v, y :: w, [], _ => by simp [dot]
  | x :: v, y :: w, p :: row, h => by
    have := dot_linear a v w row (by simpa using h)
    simp only [dot] at this
    simp only [dot, List.zipWith_cons_cons, List.sum_cons, this]
    ring

/-- C240: projection is linear. -/
theorem C240_linear (o : OBQ) (n : Nat) (ho : o.Fits n) (a : ℚ) (v w : Vec) (hv : v.length = n) (hw : w.length = n) :
    ∃ pv pw, o.project v = some pv ∧ o.project w = some pw ∧
      o.project (List.zipWith (fun x y => a * x + y) v w) = some (List.zipWith (fun x y => a * x + y) pv pw) := by
  refine ⟨_, _, (C240_project o n ho v (by omega)).1, (C240_project o n ho w (by omega)).1, ?_⟩
  rw [(C240_project o n ho _ (by simp [hv, hw])).1]
  congr 1
  generalize o.proj = l
  induction l with
  | nil => rfl
  | cons r l ih => simp only [List.map_cons, List.zipWith_cons_cons, ih, dot_linear a v w r (hv.trans hw.symm)]

/-- C240, proved part: a caller who projects a vector first gets a code: a bit for each row, set exactly when the scalar product with the row
exceeds the threshold of the row. -/
theorem C240_code_partial (o : OBQ) (n : Nat) (ho : o.Fits n) (hb : o.base.Ready) (v : Vec) (hv : v.length = n) :
    ∃ p bs, o.project v = some p ∧ o.encode p = some bs ∧
      ∀ (d : Nat) (r : Vec) (t : ℚ), o.proj[d]? = some r → o.base.thr[d]? = some t → (bit bs d = true ↔ t < dot v r) := by
  obtain ⟨h1, h2⟩ := C240_project o n ho v (by omega)
  obtain ⟨bs, h3, -, -, h4, -⟩ := C39_encode_signs o.base hb _ h2
  refine ⟨_, bs, h1, h3, ?_⟩
  intro d r t hr ht
  exact h4 d t _ ht (by simp [hr])

/-- C240 is violated: the quantizer does not project what it is given to code or to learn from. A vector of the input dimension is refused
unless the two dimensions are equal, training on such vectors is refused, and whatever it codes it codes without its projections. -/
theorem C240_encode_violated (o : OBQ) (n : Nat) (hn : n ≠ o.base.dim) (hd : 0 < o.base.dim) :
    (∀ v : Vec, v.length = n → o.encode v = none) ∧
    (∀ vs : List Vec, (∀ v ∈ vs, v.length = n) → o.train vs = (o, true)) ∧
    ∀ (rows : List Vec) (v : Vec), (OBQ.mk o.base rows).encode v = o.encode v := by
  refine ⟨?_, ?_, fun _ _ => rfl⟩
  · intro v hv
    unfold OBQ.encode BQ.encode
    split
    · rfl
    · rw [if_pos (by rw [hv]; exact hn)]
  · intro vs hvs
    have : o.base.train vs = (o.base, true) := by
      unfold BQ.train
      split
      · rfl
      · rename_i hne
        rw [if_pos]
        refine ⟨by omega, ?_⟩
        obtain ⟨v, hv⟩ := List.exists_mem_of_ne_nil vs hne
        exact List.any_eq_true.2 ⟨v, hv, by simpa [hvs v hv] using hn⟩
    unfold OBQ.train
    rw [this]

/-- C240 is violated: a vector longer than the input dimension panics, one that is shorter is taken for the vector padded with zeros. -/
theorem C240_length_violated (o : OBQ) (n : Nat) (ho : o.Fits n) (hd : 0 < o.base.dim) :
    (∀ v : Vec, n < v.length → o.project v = none) ∧
    ∀ (v : Vec) (k : Nat), v.length + k ≤ n → o.project (v ++ List.replicate k 0) = o.project v ∧ (o.project v).isSome := by
  constructor
  · intro v hv
    unfold OBQ.project
    rw [List.take_of_length_le (by rw [ho.rows])]
    have hr := ho.rows
    cases hp : o.proj with
    | nil => rw [hp] at hr; simp at hr; omega
    | cons r l =>
      rw [List.mapM_cons, rowSum_short v r (by rw [ho.row r (by simp [hp])]; exact hv)]
      rfl
  · intro v k hk
    rw [(C240_project o n ho v (by omega)).1, (C240_project o n ho _ (by simpa using hk)).1]
    refine ⟨?_, rfl⟩
    congr 1
    refine List.map_congr_left fun r _ => ?_
    have : ∀ (v row : Vec), dot (v ++ List.replicate k 0) row = dot v row := by
      intro v
      induction v with
      | nil =>
        intro row
        have : ∀ (k : Nat) (row : Vec), dot (List.replicate k 0) row = 0 := by
          intro k
          induction k with
          | zero => intro row; simp [dot]
          | succ k ih =>
            intro row
            cases row with
            | nil => simp [dot]
            | cons p row => have := ih row; simp only [dot] at this; simp [dot, List.replicate_succ, this]
        simpa [dot] using this k row
      | cons x v ih =>
        intro row
        cases row with
        | nil => simp [dot]
        | cons p row => have := ih row; simp only [dot] at this; simp [dot, this]
    exact this v r

/-- C240 is violated: the projections are not saved. A quantizer loaded from the file of another has the thresholds of that one and the random
projections it was made with, for whatever those are. -/
theorem C240_saved_violated (o c : OBQ) (hb : o.base.Ready) (hd : 0 < o.base.dim) :
    (c.load o.save).base = o.base ∧ (c.load o.save).proj = c.proj ∧ ∀ rows, (OBQ.mk o.base rows).save = o.save :=
  ⟨C239_binary_partial o.base c.base hb hd, rfl, fun _ => rfl⟩

/-! ### The hypotheses are met -/

example : (⟨2, 8, [(0, 1), (-1, 1)], true⟩ : SQ).Ready := ⟨rfl, by decide, rfl, by decide +kernel⟩

/-- Projecting from three dimensions to two. -/
def sampleO : OBQ := ⟨⟨2, [0, 1], true⟩, [[1, 0, 2], [0, 1, 1]]⟩

example : sampleO.Fits 3 ∧ sampleO.base.Ready ∧ sampleO.project [1, 2, 3] = some [7, 5] ∧ (3 : Nat) ≠ sampleO.base.dim := by
  refine ⟨⟨rfl, by decide +kernel⟩, ⟨rfl, rfl⟩, by decide +kernel, by decide⟩

/-- The same vector, coded by the quantizer and by one loaded from its file with other projections. -/
example : (sampleO.project [1, 2, 3]).bind sampleO.encode = some [3] ∧
    (((OBQ.new 2 [[-1, 0, 0], [0, 0, 1]]).load sampleO.save).project [1, 2, 3]).bind
      ((OBQ.new 2 [[-1, 0, 0], [0, 0, 1]]).load sampleO.save).encode = some [2] := by decide +kernel

example : SQ.new 2 8 = some ⟨2, 8, [(0, 0), (0, 0)], false⟩ := by decide +kernel

/-- C240: the whole use of it. A new projecting quantizer, trained on the projections of any vectors of the input dimension, accepts
them, keeps its projections, and then codes the projection of a vector by comparing each entry with the mean of that entry over the
training vectors. -/
theorem C240_trained_partial (n : Nat) (rows : List Vec) (hrows : rows ≠ []) (hn : ∀ r ∈ rows, r.length = n) (vs : List Vec)
    (hvs : vs ≠ []) (hl : ∀ v ∈ vs, v.length = n) (v : Vec) (hv : v.length = n) :
    ∃ ps o, vs.mapM (OBQ.new rows.length rows).project = some ps ∧ (OBQ.new rows.length rows).train ps = (o, false) ∧
      ∃ p bs, o.project v = some p ∧ o.encode p = some bs ∧
        ∀ (d : Nat) (r : Vec), rows[d]? = some r → (bit bs d = true ↔ (vs.map (fun w => dot w r)).sum / vs.length < dot v r) := by
  have hfit : (OBQ.new rows.length rows).Fits n := ⟨rfl, hn⟩
  have hps : vs.mapM (OBQ.new rows.length rows).project = some (vs.map (fun w => rows.map (dot w))) :=
    mapM_all _ fun w hw => (C240_project _ n hfit w (by rw [hl w hw])).1
  have hd : 0 < (OBQ.new rows.length rows).base.dim := by
    show 0 < rows.length
    exact List.length_pos_iff.2 hrows
  have htr : (OBQ.new rows.length rows).base.train (vs.map (fun w => rows.map (dot w))) =
      (⟨rows.length, (List.range rows.length).map (fun d => (column (vs.map (fun w => rows.map (dot w))) d).sum /
        ((vs.map (fun w => rows.map (dot w))).length : ℚ)), true⟩, false) := by
    unfold BQ.train
    rw [if_neg (by simpa using hvs), if_neg]
    · rfl
    · rintro ⟨-, h⟩
      rw [List.any_eq_true] at h
      obtain ⟨x, hx, h⟩ := h
      obtain ⟨w, -, rfl⟩ := List.mem_map.1 hx
      simp [OBQ.new, BQ.new] at h
  refine ⟨_, _, hps, by unfold OBQ.train; rw [htr], ?_⟩
  have hfit' : OBQ.Fits ⟨⟨rows.length, (List.range rows.length).map (fun d => (column (vs.map (fun w => rows.map (dot w))) d).sum /
        ((vs.map (fun w => rows.map (dot w))).length : ℚ)), true⟩, rows⟩ n := ⟨rfl, hn⟩
  obtain ⟨p, bs, h1, h2, h3⟩ := C240_code_partial _ n hfit' ⟨rfl, by simp⟩ v hv
  refine ⟨p, bs, h1, h2, ?_⟩
  intro d r hr
  have hdl : d < rows.length := by
    by_contra hc
    rw [List.getElem?_eq_none (by omega)] at hr
    simp at hr
  rw [h3 d r ((vs.map (fun w => dot w r)).sum / vs.length) hr ?_]
  have hcol : column (vs.map (fun w => rows.map (dot w))) d = vs.map (fun w => dot w r) := by
    simp [column, hr]
  simp [hdl, hcol]

example : ([[1, 0, 2], [0, 1, 1]] : List Vec) ≠ [] ∧ (∀ r ∈ ([[1, 0, 2], [0, 1, 1]] : List Vec), r.length = 3) ∧
    ((OBQ.new 2 [[1, 0, 2], [0, 1, 1]]).train [[3, 1], [5, 2]]).2 = false := by decide +kernel

/-- C240: training on nothing, or on vectors that are not projections, is refused and changes nothing. -/
theorem C240_refused (outputDim : Nat) (rows : List Vec) (hd : 0 < outputDim) (ps : List Vec) :
    (((OBQ.new outputDim rows).train ps).2 = true ↔ (ps = [] ∨ ∃ p ∈ ps, p.length ≠ outputDim)) ∧
    (((OBQ.new outputDim rows).train ps).2 = true → ((OBQ.new outputDim rows).train ps).1 = OBQ.new outputDim rows) := by
  obtain ⟨h1, h2, -⟩ := C113_binary_train (OBQ.new outputDim rows).base hd ps
  refine ⟨?_, ?_⟩
  · show ((OBQ.new outputDim rows).base.train ps).2 = true ↔ _
    rw [← Bool.not_eq_false, h1]
    have : (OBQ.new outputDim rows).base.dim = outputDim := rfl
    rw [this]
    constructor
    · intro h
      by_contra hc
      push Not at hc
      exact h ⟨hc.1, hc.2⟩
    · rintro (h | ⟨p, hp, hne⟩) ⟨a, b⟩
      · exact a h
      · exact hne (b p hp)
  · intro h
    have := h2 h
    unfold OBQ.train
    rw [this]

end Verif.Quant
