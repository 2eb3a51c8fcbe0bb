import Verif.Model.BinaryIndex
import Verif.Thm.Quant

/-!
C241: replacing the quantizer of an index in use. C242: an index with a binary quantizer.
-/
namespace Verif.BinaryIndex

open Verif.Quant

variable {I : Type} [DecidableEq I]

/-! ### C241 -/

/-- The quantizer an operation sets. -/
def setOf : Op I → Option (Option Coder)
  | .set q => some q
  | .insert _ _ => none

/-- The quantizer set last. -/
def installed (ops : List (Op I)) : Option Coder :=
  (ops.filterMap setOf).getLast?.join

theorem foldl_quant (ops : List (Op I)) : ∀ ix : Ix I, (ops.foldl BinaryIndex.step ix).quant =
    ((ops.filterMap setOf).getLast?).getD ix.quant := by
  induction ops with
  | nil => intro ix; rfl
  | cons o ops ih =>
    intro ix
    rw [List.foldl_cons, ih]
    cases o with
    | insert id v =>
      have : (BinaryIndex.step ix (.insert id v)).quant = ix.quant := by
        simp only [BinaryIndex.step, insert]
        split <;> rfl
      rw [this]
      rfl
    | set q =>
      have e : (Op.set q :: ops).filterMap setOf = q :: ops.filterMap setOf := rfl
      rw [e]
      cases h : (ops.filterMap setOf) with
      | nil => rfl
      | cons a l => rw [List.getLast?_cons_cons, List.getLast?_eq_some_getLast (by simp)]; rfl

theorem run_quant (ops : List (Op I)) : (run ops).quant = installed ops := by
  unfold run
  rw [foldl_quant]
  unfold installed
  cases (ops.filterMap setOf).getLast? with
  | none => rfl
  | some q => simp

theorem find_kept (id : I) (n : QuantIndex.Node I) (ops : List (Op I)) : ∀ ix : Ix I,
    ix.nodes.find? (fun n => n.id = id) = some n → (ops.foldl BinaryIndex.step ix).nodes.find? (fun n => n.id = id) = some n := by
  induction ops with
  | nil => intro ix h; exact h
  | cons o ops ih =>
    intro ix h
    rw [List.foldl_cons]
    apply ih
    cases o with
    | set q => exact h
    | insert j v =>
      simp only [BinaryIndex.step, insert]
      split
      · exact h
      · simp [List.find?_append, h]

theorem find_none (id : I) (ops : List (Op I)) : ∀ ix : Ix I, ix.nodes.find? (fun n => n.id = id) = none →
    (∀ v, Op.insert id v ∉ ops) → (ops.foldl BinaryIndex.step ix).nodes.find? (fun n => n.id = id) = none := by
  induction ops with
  | nil => intro ix h _; exact h
  | cons o ops ih =>
    intro ix h hn
    rw [List.foldl_cons]
    refine ih _ ?_ fun v hv => hn v (List.mem_cons_of_mem _ hv)
    cases o with
    | set q => exact h
    | insert j v =>
      have hj : j ≠ id := by
        rintro rfl
        exact hn v List.mem_cons_self
      simp only [BinaryIndex.step, insert]
      split
      · exact h
      · simp [List.find?_append, h, hj]

theorem seen_foldl (ix : Ix I) (pre post : List (Op I)) (id : I) (v : Vec) (h : ix.nodes.find? (fun n => n.id = id) = none)
    (hn : ∀ w, Op.insert id w ∉ pre) :
    seenBy ((pre ++ .insert id v :: post).foldl BinaryIndex.step ix) id =
      match (pre.foldl BinaryIndex.step ix).quant.bind (fun q => q.encode v) with
      | none => some v
      | some bs => ((pre ++ .insert id v :: post).foldl BinaryIndex.step ix).quant.bind (fun q => q.decode bs) := by
  have h0 := find_none id pre ix h hn
  generalize hx : pre.foldl BinaryIndex.step ix = ix0 at h0
  have hany : ix0.nodes.any (fun n => n.id = id) = false := by
    rw [List.any_eq_false]
    exact List.find?_eq_none.1 h0
  have h1 : (BinaryIndex.step ix0 (.insert id v)).nodes.find? (fun n => n.id = id) =
      some ⟨id, if (ix0.quant.bind (fun q => q.encode v)).isSome then none else some v, ix0.quant.bind (fun q => q.encode v)⟩ := by
    simp only [BinaryIndex.step, insert, hany]
    simp [List.find?_append, h0]
  have h2 := find_kept id _ post _ h1
  have hf : (pre ++ .insert id v :: post).foldl BinaryIndex.step ix = post.foldl BinaryIndex.step (step ix0 (.insert id v)) := by
    rw [List.foldl_append, hx, List.foldl_cons]
  rw [hf]
  unfold seenBy
  rw [h2]
  simp only [Option.bind_some, seen]
  cases ix0.quant.bind (fun q => q.encode v) with
  | none => rfl
  | some bs => rfl

/-- C241: what the index works with for a record, after any sequence of insertions and changes of the quantizer: the vector that was
inserted first under its id, if the quantizer of that time did not encode it; else what the quantizer set last makes of the
code. -/
theorem C241_seen (pre post : List (Op I)) (id : I) (v : Vec) (hn : ∀ w, Op.insert id w ∉ pre) :
    seenBy (run (pre ++ .insert id v :: post)) id =
      match (installed pre).bind (fun q => q.encode v) with
      | none => some v
      | some bs => (installed (pre ++ .insert id v :: post)).bind (fun q => q.decode bs) := by
  rw [← run_quant, ← run_quant]
  exact seen_foldl (new I) pre post id v rfl hn

/-- C241: an id that was never inserted is not in the index. -/
theorem C241_absent (ops : List (Op I)) (id : I) (hn : ∀ w, Op.insert id w ∉ ops) : seenBy (run ops) id = none := by
  unfold seenBy run
  rw [find_none id ops (new I) rfl hn]
  rfl

/-- C241 (partial): records inserted while no quantizer was set keep their vectors whatever quantizers are set later. -/
theorem C241_raw_partial (pre post : List (Op I)) (id : I) (v : Vec) (hn : ∀ w, Op.insert id w ∉ pre) (hq : installed pre = none) :
    seenBy (run (pre ++ .insert id v :: post)) id = some v := by
  rw [C241_seen pre post id v hn, hq]
  rfl

/-- C241 (partial): a change of the quantizer leaves a record as it is, if the new quantizer reads its code as the old one did. -/
theorem C241_same_partial (pre mid : List (Op I)) (id : I) (v : Vec) (hn : ∀ w, Op.insert id w ∉ pre) (q : Option Coder)
    (hq : ∀ bs, (installed pre).bind (fun c => c.encode v) = some bs →
      q.bind (fun c => c.decode bs) = (installed (pre ++ .insert id v :: mid)).bind (fun c => c.decode bs)) :
    seenBy (run (pre ++ .insert id v :: (mid ++ [.set q]))) id = seenBy (run (pre ++ .insert id v :: mid)) id := by
  rw [C241_seen _ _ _ _ hn, C241_seen _ _ _ _ hn]
  cases h : (installed pre).bind (fun c => c.encode v) with
  | none => rfl
  | some bs =>
    have : installed (pre ++ Op.insert id v :: (mid ++ [.set q])) = q := by
      simp [installed, setOf, List.filterMap_append, List.filterMap_cons]
    simp only [this]
    exact hq bs h

/-- C241 is violated: switching quantization off puts every record that was encoded at the largest distance from every query. -/
theorem C241_off_violated (pre mid : List (Op I)) (id : I) (v : Vec) (hn : ∀ w, Op.insert id w ∉ pre) (bs : List Nat)
    (hq : (installed pre).bind (fun c => c.encode v) = some bs) :
    seenBy (run (pre ++ .insert id v :: (mid ++ [.set none]))) id = none := by
  rw [C241_seen _ _ _ _ hn, hq]
  have : installed (pre ++ Op.insert id v :: (mid ++ [.set none])) = none := by
    simp [installed, setOf, List.filterMap_append, List.filterMap_cons]
  simp only [this, Option.bind_none]

/-- C241 is violated: a record encoded with one binary quantizer is read with the thresholds of the next. -/
theorem C241_replaced_violated (A : Arith) (b c : BQ) (hb : b.Ready) (hc : c.Ready) (hd : c.dim = b.dim) (id : I) (v : Vec)
    (hv : v.length = b.dim) :
    ∃ bs, b.encode v = some bs ∧ seenBy (run [.set (some (coder A b)), .insert id v, .set (some (coder A c))]) id = c.decode A bs ∧
      ∃ w, c.decode A bs = some w := by
  obtain ⟨bs, h1, h2, -⟩ := encode_spec b hb v hv
  refine ⟨bs, h1, ?_, ?_⟩
  · have := C241_seen [.set (some (coder A b))] [.set (some (coder A c))] id v (by simp)
    simp only [List.cons_append, List.nil_append] at this
    rw [this]
    have e1 : installed [(Op.set (some (coder A b)) : Op I)] = some (coder A b) := rfl
    have e2 : installed [Op.set (some (coder A b)), .insert id v, .set (some (coder A c))] = some (coder A c) := rfl
    rw [e1, e2]
    simp [coder, h1]
  · cases h : c.decode A bs with
    | none => exact absurd h2 (by rw [← hd]; exact (C39_decode_rejects A c hc bs).1 h)
    | some w => exact ⟨w, rfl⟩

/-! ### C242 -/

/-- Each component replaced by a value above or below its threshold, on the side where it is. -/
def sides (A : Arith) (thr v : Vec) : Vec := List.zipWith (fun t x => if t < x then A.up t else A.down t) thr v

theorem binary_round (A : Arith) (b : BQ) (hb : b.Ready) (v : Vec) (hv : v.length = b.dim) :
    ∃ bs, b.encode v = some bs ∧ b.decode A bs = some (sides A b.thr v) := by
  obtain ⟨bs, h1, h2, -, h4, -⟩ := C39_encode_signs b hb v hv
  refine ⟨bs, h1, ?_⟩
  unfold BQ.decode
  rw [if_neg (by simp [hb.trained]), if_neg (by simp [h2])]
  congr 1
  apply List.ext_getElem?
  intro d
  rw [List.getElem?_mapIdx, sides, List.getElem?_zipWith]
  by_cases hd : d < b.thr.length
  · have hd' : d < v.length := by rw [hv, ← hb.len]; exact hd
    rw [List.getElem?_eq_getElem hd, List.getElem?_eq_getElem hd']
    simp only [Option.map_some]
    congr 1
    have := h4 d _ _ (List.getElem?_eq_getElem hd) (List.getElem?_eq_getElem hd')
    rw [testBit_bit]
    by_cases ht : b.thr[d] < v[d]
    · rw [if_pos ht, if_pos (this.2 ht)]
    · rw [if_neg ht, if_neg (fun h => ht (this.1 h))]
  · rw [List.getElem?_eq_none (by omega)]
    simp

theorem seen_coded (A : Arith) (b : BQ) (hb : b.Ready) (ix : Ix I) (hq : ix.quant = some (coder A b)) (ps : List (I × Vec))
    (hn : (ps.map (·.1)).Nodup) (hx : ∀ p ∈ ps, ix.nodes.find? (fun n => n.id = p.1) = none) (hd : ∀ p ∈ ps, p.2.length = b.dim)
    (p : I × Vec) (hp : p ∈ ps) :
    seenBy ((ps.map (fun p => Op.insert p.1 p.2)).foldl BinaryIndex.step ix) p.1 = some (sides A b.thr p.2) := by
  obtain ⟨l, r, rfl⟩ := List.append_of_mem hp
  have hfilter : ∀ l : List (I × Vec), (l.map (fun p => Op.insert p.1 p.2)).filterMap setOf = [] := by
    intro l; simp [List.filterMap_eq_nil_iff, setOf]
  rw [List.map_append, List.map_cons, seen_foldl ix _ _ p.1 p.2 (hx p hp)]
  · rw [foldl_quant, foldl_quant, hfilter, List.filterMap_append, List.filterMap_cons_none (by rfl), hfilter, hfilter]
    obtain ⟨bs, h1, h2⟩ := binary_round A b hb p.2 (hd p hp)
    simp [hq, coder, h1, h2]
  · intro w hw
    obtain ⟨r', hr', e⟩ := List.mem_map.1 hw
    simp only [Op.insert.injEq] at e
    rw [List.map_append, List.map_cons, List.nodup_append] at hn
    exact hn.2.2 r'.1 (List.mem_map_of_mem hr') p.1 List.mem_cons_self e.1

theorem insertAll_ix (A : Arith) (ps : List (I × Vec)) : ∀ s : St I,
    (insertAll A s ps).ix A = (ps.map (fun p => Op.insert p.1 p.2)).foldl BinaryIndex.step (s.ix A) ∧ (insertAll A s ps).quant = s.quant := by
  induction ps with
  | nil => intro s; exact ⟨rfl, rfl⟩
  | cons p ps ih =>
    intro s
    obtain ⟨h1, h2⟩ := ih (s.insert A p.1 p.2)
    refine ⟨?_, h2⟩
    show (insertAll A (s.insert A p.1 p.2) ps).ix A = _
    rw [h1, List.map_cons, List.foldl_cons]
    congr 1
    simp only [St.ix, St.insert, step, insert]
    by_cases h : s.nodes.any (fun n => n.id = p.1) = true
    · simp only [h, if_true]
    · simp only [h, if_false, Bool.false_eq_true]

/-- The means of the components of some vectors. -/
def means (dim : Nat) (vs : List Vec) : Vec := (List.range dim).map (fun d => (vs.map (fun v => v[d]?.getD 0)).sum / vs.length)

theorem train_means (dim : Nat) (vs : List Vec) (hne : vs ≠ []) (hd : ∀ v ∈ vs, v.length = dim) (b : BQ) (hb : b.dim = dim) :
    (b.train vs).1 = ⟨dim, means dim vs, true⟩ := by
  unfold BQ.train
  rw [if_neg hne, if_neg]
  · simp [hb, means, column]
  · rintro ⟨-, h⟩
    obtain ⟨v, hv, h⟩ := List.any_eq_true.1 h
    exact (of_decide_eq_true h) ((hd v hv).trans hb.symm)

/-- C242 (partial): opening a store with binary quantization, the index sees of every record on which side of the means of the first 1000
records each component is, and nothing else. -/
theorem C242_open_partial (A : Arith) (dim : Nat) (rows : List (I × Vec)) (hne : rows ≠ []) (hn : (rows.map (·.1)).Nodup)
    (hd : ∀ p ∈ rows, p.2.length = dim) (p : I × Vec) (hp : p ∈ rows) :
    seenBy ((openStore A dim rows).ix A) p.1 = some (sides A (means dim ((rows.take 1000).map (·.2))) p.2) := by
  have hne' : (rows.take 1000).map (·.2) ≠ [] := by
    cases rows with
    | nil => exact absurd rfl hne
    | cons p ps => simp
  have ht : trainOn (BQ.new dim) rows = ⟨dim, means dim ((rows.take 1000).map (·.2)), true⟩ := by
    unfold trainOn
    refine train_means dim _ hne' ?_ _ rfl
    intro v hv
    obtain ⟨r, hr, rfl⟩ := List.mem_map.1 hv
    exact hd r (List.mem_of_mem_take hr)
  unfold openStore
  rw [(insertAll_ix A rows _).1, ht]
  have hl : (means dim ((rows.take 1000).map (·.2))).length = dim := by simp [means]
  generalize means dim ((rows.take 1000).map (·.2)) = m at hl
  exact seen_coded A ⟨dim, m, true⟩ ⟨rfl, hl⟩ (St.ix A ⟨rows, ⟨dim, m, true⟩, []⟩) rfl rows hn (fun _ _ => rfl) hd p hp

theorem sides_inj (A : Arith) (hA : ∀ t, A.down t ≠ A.up t) : ∀ (thr v w : Vec), v.length = thr.length → w.length = thr.length →
    (sides A thr v = sides A thr w ↔ ∀ (d : Nat) (t x y : ℚ), thr[d]? = some t → v[d]? = some x → w[d]? = some y → (t < x ↔ t < y))
  | [], [], [], _, _ => ⟨fun _ d t x y h => by simp at h, fun _ => rfl⟩
  | t :: thr, x :: v, y :: w, hv, hw => by
    have ih := sides_inj A hA thr v w (by simpa using hv) (by simpa using hw)
    simp only [sides, List.zipWith_cons_cons, List.cons.injEq] at ih ⊢
    rw [ih]
    constructor
    · rintro ⟨h1, h2⟩ d t' x' y' ht hx hy
      cases d with
      | zero =>
        simp only [List.getElem?_cons_zero, Option.some.injEq] at ht hx hy
        subst ht hx hy
        by_cases a : t < x <;> by_cases b : t < y <;> simp only [a, b, if_true, if_false] at h1 ⊢
        · exact absurd h1.symm (hA t)
        · exact absurd h1 (hA t)
      | succ d => exact h2 d t' x' y' (by simpa using ht) (by simpa using hx) (by simpa using hy)
    · intro h
      refine ⟨?_, fun d t' x' y' ht hx hy => h (d + 1) t' x' y' (by simpa using ht) (by simpa using hx) (by simpa using hy)⟩
      have := h 0 t x y rfl rfl rfl
      by_cases a : t < x
      · rw [if_pos a, if_pos (this.1 a)]
      · rw [if_neg a, if_neg (fun b => a (this.2 b))]

/-- C242 is violated: in every such store two records are the same to the index exactly when no component of theirs lies on different sides
of the mean. However far apart the vectors are, the index cannot tell them apart. -/
theorem C242_same_violated (A : Arith) (hA : ∀ t, A.down t ≠ A.up t) (dim : Nat) (rows : List (I × Vec)) (hn : (rows.map (·.1)).Nodup)
    (hd : ∀ p ∈ rows, p.2.length = dim) (p q : I × Vec) (hp : p ∈ rows) (hq : q ∈ rows) :
    seenBy ((openStore A dim rows).ix A) p.1 = seenBy ((openStore A dim rows).ix A) q.1 ↔
      ∀ (d : Nat) (t x y : ℚ), (means dim ((rows.take 1000).map (·.2)))[d]? = some t → p.2[d]? = some x → q.2[d]? = some y →
        (t < x ↔ t < y) := by
  have hne : rows ≠ [] := List.ne_nil_of_mem hp
  rw [C242_open_partial A dim rows hne hn hd p hp, C242_open_partial A dim rows hne hn hd q hq, Option.some.injEq]
  exact sides_inj A hA _ _ _ (by rw [hd p hp]; simp [means]) (by rw [hd q hq]; simp [means])

theorem upserts_trained (A : Arith) (ps : List (I × Vec)) : ∀ s : St I, s.quant.trained = true →
    (ps.foldl (upsert A) s).ix A = (ps.map (fun p => Op.insert p.1 p.2)).foldl BinaryIndex.step (s.ix A) := by
  induction ps with
  | nil => intro s _; rfl
  | cons p ps ih =>
    intro s hs
    rw [List.foldl_cons, List.map_cons, List.foldl_cons]
    have hq : (upsert A s p).quant = s.quant := by simp [upsert, hs, St.insert]
    rw [ih _ (by rw [hq]; exact hs)]
    congr 1
    simp only [upsert, hs, if_true, St.ix, St.insert, step, insert]
    by_cases h : s.nodes.any (fun n => n.id = p.1) = true
    · simp only [h, if_true]
    · simp only [h, if_false, Bool.false_eq_true]
      rfl

theorem means_one (v : Vec) : means v.length [v] = v := by
  apply List.ext_getElem?
  intro d
  simp only [means, List.getElem?_map, List.map_cons, List.map_nil, List.sum_cons, List.sum_nil]
  by_cases hd : d < v.length
  · simp [hd]
  · simp [hd]

/-- C242 is violated: in a new store with binary quantization, the index sees of whatever is written after the first record only which
components exceed those of the first record, because the quantizer is trained on that record alone. -/
theorem C242_fresh_violated (A : Arith) (p : I × Vec) (ps : List (I × Vec)) (hd : ∀ r ∈ ps, r.2.length = p.2.length)
    (hn : ((p :: ps).map (·.1)).Nodup) :
    seenBy (((p :: ps).foldl (upsert A) ⟨[], BQ.new p.2.length, []⟩).ix A) p.1 = some p.2 ∧
    ∀ r ∈ ps, seenBy (((p :: ps).foldl (upsert A) ⟨[], BQ.new p.2.length, []⟩).ix A) r.1 = some (sides A p.2 r.2) := by
  have h1 : upsert A ⟨[], BQ.new p.2.length, []⟩ p = ⟨[p], BQ.new p.2.length, [⟨p.1, some p.2, none⟩]⟩ := by
    simp [upsert, BQ.new, trainOn, BQ.train, St.insert, insert, St.ix, coder, BQ.encode, QuantIndex.put]
  rw [List.foldl_cons, h1]
  cases ps with
  | nil =>
    refine ⟨?_, by simp⟩
    simp [seenBy, seen, St.ix]
  | cons r rs =>
    have ht : trainOn (BQ.new p.2.length) [p] = ⟨p.2.length, p.2, true⟩ := by
      unfold trainOn
      have := train_means p.2.length [p.2] (by simp) (by simp) (BQ.new p.2.length) rfl
      rw [means_one] at this
      simpa using this
    have h2 : (r :: rs).foldl (upsert A) (⟨[p], BQ.new p.2.length, [⟨p.1, some p.2, none⟩]⟩ : St I) =
        (r :: rs).foldl (upsert A) ⟨[p], ⟨p.2.length, p.2, true⟩, [⟨p.1, some p.2, none⟩]⟩ := by
      rw [List.foldl_cons, List.foldl_cons]
      congr 1
      simp only [upsert]
      have e1 : (BQ.new p.2.length).trained = false := rfl
      simp only [e1, Bool.false_eq_true, if_false, if_true, ht]
    rw [h2, upserts_trained A _ _ rfl]
    rw [List.map_cons, List.nodup_cons] at hn
    constructor
    · unfold seenBy
      rw [find_kept p.1 ⟨p.1, some p.2, none⟩ _ _ (by simp [St.ix])]
      simp [seen]
    · intro x hx
      refine seen_coded A ⟨p.2.length, p.2, true⟩ ⟨rfl, rfl⟩ _ rfl (r :: rs) hn.2 ?_ hd x hx
      intro y hy
      have : p.1 ≠ y.1 := fun e => hn.1 (e ▸ List.mem_map_of_mem hy)
      simp [St.ix, this]

/-! ### C243 -/

/-- C243 (partial): records the index kept as they are (no quantizer at the time, or not yet trained) are seen as they are, whatever type of
quantization the store is opened with. -/
theorem C243_raw_partial (A : Arith) (dim nbits : Nat) (f : SQFile) (g : BQFile) (nodes : List (QuantIndex.Node I)) (id : I)
    (n : QuantIndex.Node I) (v : Vec) (hf : nodes.find? (fun n => n.id = id) = some n) (hn : n.raw = some v) :
    seenBy (reopenBinary A dim f nodes) id = some v ∧ seenBy (reopenScalar dim nbits g nodes) id = some v := by
  simp [seenBy, reopenBinary, reopenScalar, hf, seen, hn]

theorem find_coded (q : SQ) (v : Vec) (bs : List Nat) (h : q.encode v = some bs) (id : I) (pre post : List (QuantIndex.Node I))
    (hn : ∀ n ∈ pre, n.id ≠ id) :
    (pre ++ (⟨id, none, some bs⟩ : QuantIndex.Node I) :: post).find? (fun n => n.id = id) = some ⟨id, none, some bs⟩ := by
  rw [List.find?_append, List.find?_eq_none.2 (by intro n hn'; simpa using hn n hn')]
  simp

/-- C243 is violated: a store that kept scalar codes of two bits or more, opened with binary quantization, puts every coded record of eight
components or more at the largest distance from every query; the quantizer counts as trained, so that it is never fitted, with all
thresholds zero. -/
theorem C243_to_binary_violated (A : Arith) (s : SQ) (hs : s.Ready) (hd : 8 ≤ s.dim) (hb : 2 ≤ s.nbits) (v : Vec) (hv : v.length = s.dim)
    (id : I) (pre post : List (QuantIndex.Node I)) (hn : ∀ n ∈ pre, n.id ≠ id) :
    ∃ bs, s.encode v = some bs ∧ seenBy (reopenBinary A s.dim s.save (pre ++ ⟨id, none, some bs⟩ :: post)) id = none ∧
      loadScalar (BQ.new s.dim) s.save = ⟨s.dim, List.replicate s.dim 0, true⟩ := by
  obtain ⟨bs, h1, h2, -⟩ := decode_encode s hs v hv
  have hl : loadScalar (BQ.new s.dim) s.save = ⟨s.dim, List.replicate s.dim 0, true⟩ := by
    have hne : s.dim ≠ 0 := by omega
    simp [loadScalar, SQ.save, sent, hs.trained, BQ.new, hne]
  refine ⟨bs, h1, ?_, hl⟩
  unfold seenBy reopenBinary
  rw [find_coded s v bs h1 id pre post hn]
  simp only [Option.bind_some, seen, hl, coder]
  rw [C39_decode_rejects A _ ⟨rfl, by simp⟩, h2]
  show (s.dim * s.nbits + 7) / 8 ≠ (s.dim + 7) / 8
  have : s.dim * 2 ≤ s.dim * s.nbits := Nat.mul_le_mul_left _ hb
  omega

/-- C243 is violated the other way round too: with binary codes and scalar quantization of two bits or more. -/
theorem C243_to_scalar_violated (b : BQ) (hb : b.Ready) (hd : 8 ≤ b.dim) (nbits : Nat) (h2 : 2 ≤ nbits) (h8 : nbits ≤ 8) (v : Vec)
    (hv : v.length = b.dim) (id : I) (pre post : List (QuantIndex.Node I)) (hn : ∀ n ∈ pre, n.id ≠ id) :
    ∃ bs, b.encode v = some bs ∧ seenBy (reopenScalar b.dim nbits b.save (pre ++ ⟨id, none, some bs⟩ :: post)) id = none := by
  obtain ⟨bs, e1, e2, -⟩ := encode_spec b hb v hv
  refine ⟨bs, e1, ?_⟩
  have hnew : SQ.new b.dim nbits = some ⟨b.dim, nbits, List.replicate b.dim (0, 0), false⟩ := by
    unfold SQ.new
    rw [if_neg (by omega)]
  have hl : loadBinary ⟨b.dim, nbits, List.replicate b.dim (0, 0), false⟩ b.save = ⟨b.dim, nbits, List.replicate b.dim (0, 0), true⟩ := by
    have hne : b.dim ≠ 0 := by omega
    simp [loadBinary, BQ.save, sent, hb.trained, hne]
  unfold seenBy reopenScalar
  rw [List.find?_append, List.find?_eq_none.2 (by intro n hn'; simpa using hn n hn'), hnew]
  simp only [List.find?_cons, decide_true, Option.none_or, Option.bind_some, seen, Option.map_some, hl]
  unfold SQ.decode
  simp only [Bool.true_eq_false, if_false]
  rw [unpackAll_short _ _ _ _ (by omega) ?_]
  · rfl
  · rw [e2]
    have : b.dim * 2 ≤ b.dim * nbits := Nat.mul_le_mul_left _ h2
    omega

example : ∃ s, SQ.new 8 4 = some s ∧ ∃ r, s.train ⟨fun x => x + 1, fun x => x, fun x => x⟩ [[1, 2, 3, 4, 5, 6, 7, 8], [0, 0, 0, 0, 0, 0, 0, 0]] = some (r, false) ∧
    (r.encode [1, 1, 1, 1, 1, 1, 1, 1]).map List.length = some 4 := by
  refine ⟨_, rfl, _, rfl, ?_⟩
  decide +kernel

/-- The half steps of `Decode`. -/
def half : Arith := ⟨fun x => x + 1, fun x => x + 1 / 2, fun x => x - 1 / 2⟩

example : (∀ t, half.down t ≠ half.up t) ∧
    (openStore half 2 [(1, [0, 0]), (2, [4, 2]), (3, [100, 1])]).quant.thr = [104 / 3, 1] ∧
    seenBy ((openStore half 2 [(1, [0, 0]), (2, [4, 2]), (3, [100, 1])]).ix half) 3 = some [104 / 3 + 1 / 2, 1 / 2] := by
  refine ⟨fun t => by simp only [half]; intro h; linarith, by decide +kernel, by decide +kernel⟩

example : seenBy (run [.set (some (coder half ⟨2, [0, 0], true⟩)), .insert 1 [3, -1], .set none, .insert 2 [3, -1]]) 1 = none ∧
    seenBy (run [.set (some (coder half ⟨2, [0, 0], true⟩)), .insert 1 [3, -1], .set none, .insert 2 [3, -1]]) 2 = some [3, -1] := by
  decide +kernel

end Verif.BinaryIndex
