import Verif.Model.QuantIndex
import Verif.Thm.Quant

/-!
What an HNSW index with a scalar quantizer works with after opening a store, after upserts and batches, and after training.
-/
namespace Verif.QuantIndex

open Verif.Quant

variable {I : Type} [DecidableEq I]

/-- `w` stands for `v`: in every component the nearest value of the range, rounded down by less than a step. -/
def Near (q : SQ) (v w : Vec) : Prop :=
  w.length = v.length ∧ ∀ (d : Nat) (r : ℚ × ℚ) (x y : ℚ), q.ranges[d]? = some r → v[d]? = some x → w[d]? = some y →
    y ≤ clamp r x ∧ clamp r x < y + step q.nbits r ∧ Within r y

/-- `w` is below `v` by less than a step in every component. -/
def Close (q : SQ) (v w : Vec) : Prop :=
  w.length = v.length ∧ ∀ (d : Nat) (r : ℚ × ℚ) (x y : ℚ), q.ranges[d]? = some r → v[d]? = some x → w[d]? = some y →
    0 ≤ x - y ∧ x - y < step q.nbits r

theorem Near.close {q : SQ} {v w : Vec} (h : Near q v w)
    (hin : ∀ (d : Nat) (r : ℚ × ℚ) (x : ℚ), q.ranges[d]? = some r → v[d]? = some x → Within r x) : Close q v w := by
  refine ⟨h.1, fun d r x y hr hx hy => ?_⟩
  obtain ⟨a, b, -⟩ := h.2 d r x y hr hx hy
  obtain ⟨c1, c2⟩ := hin d r x hr hx
  have : clamp r x = x := by
    unfold clamp
    rw [min_eq_right c2, max_eq_right c1]
  rw [this] at a b
  constructor <;> linarith

/-- The node made for a vector. -/
def mk (q : Option SQ) (p : I × Vec) : Node I :=
  ⟨p.1, if (q.bind (fun q => q.encode p.2)).isSome then none else some p.2, q.bind (fun q => q.encode p.2)⟩

theorem seen_mk (q : SQ) (hq : q.Ready) (ns : List (Node I)) (p : I × Vec) (hp : p.2.length = q.dim) :
    ∃ w, seen ⟨some q, ns⟩ (mk (some q) p) = some w ∧ Near q p.2 w := by
  obtain ⟨bs, w, h1, h2, h3, h4⟩ := C38_error_below_step_partial q hq p.2 hp
  refine ⟨w, ?_, by rw [h3, hp], h4⟩
  simp [seen, mk, h1, h2]

theorem seen_raw (q : Option SQ) (hq : ∀ s, q = some s → s.trained = false) (ix : Ix I) (p : I × Vec) :
    seen ix (mk q p) = some p.2 := by
  have : q.bind (fun q => q.encode p.2) = none := by
    cases q with
    | none => rfl
    | some s => simp [SQ.encode, hq s rfl]
  simp [seen, mk, this]

theorem insert_new (ix : Ix I) (p : I × Vec) (h : p.1 ∉ ix.nodes.map (·.id)) :
    insert ix p.1 p.2 = (⟨ix.quant, ix.nodes ++ [mk ix.quant p]⟩, true) := by
  unfold insert
  rw [if_neg]
  · rfl
  · simpa using h

theorem insertAll_new (ps : List (I × Vec)) : ∀ ix : Ix I, (ps.map (·.1)).Nodup → (∀ p ∈ ps, p.1 ∉ ix.nodes.map (·.id)) →
    insertAll ix ps = ⟨ix.quant, ix.nodes ++ ps.map (mk ix.quant)⟩ := by
  induction ps with
  | nil => intro ix _ _; simp [insertAll]
  | cons p ps ih =>
    intro ix hn hi
    rw [List.map_cons, List.nodup_cons] at hn
    rw [insertAll, insert_new ix p (hi p List.mem_cons_self)]
    simp only
    rw [ih _ hn.2]
    · simp
    · intro r hr
      simp only [List.map_append, List.map_cons, List.map_nil, List.mem_append, List.mem_singleton, not_or]
      refine ⟨hi r (List.mem_cons_of_mem _ hr), ?_⟩
      intro e
      change r.1 = p.1 at e
      exact hn.1 (e ▸ List.mem_map_of_mem hr)

theorem find_mk (q : Option SQ) (ps : List (I × Vec)) (hn : (ps.map (·.1)).Nodup) (p : I × Vec) (hp : p ∈ ps) :
    (ps.map (mk q)).find? (fun n => n.id = p.1) = some (mk q p) := by
  induction ps with
  | nil => simp at hp
  | cons r ps ih =>
    rw [List.map_cons, List.nodup_cons] at hn
    rw [List.map_cons, List.find?_cons]
    rcases List.mem_cons.1 hp with rfl | hp
    · simp [mk]
    · have : r.1 ≠ p.1 := fun e => hn.1 (e ▸ List.mem_map_of_mem hp)
      simp only [mk, decide_eq_true_eq, this, decide_false]
      exact ih hn.2 hp

theorem seenBy_mk (q : Option SQ) (ps : List (I × Vec)) (hn : (ps.map (·.1)).Nodup) (p : I × Vec) (hp : p ∈ ps) :
    seenBy ⟨q, ps.map (mk q)⟩ p.1 = seen ⟨q, ps.map (mk q)⟩ (mk q p) := by
  unfold seenBy
  simp only [find_mk q ps hn p hp, Option.bind_some]

/-- Training a new quantizer on rows of its dimension. -/
theorem train_new (A : Arith) (hA : A.Lifts) (dim nbits : Nat) (hb : 1 ≤ nbits ∧ nbits ≤ 8) (ns : List (Node I)) (rows : List (I × Vec))
    (hne : rows ≠ []) (hd : ∀ p ∈ rows, p.2.length = dim) :
    ∃ s q, SQ.new dim nbits = some s ∧ s.trained = false ∧ trainQuantizer A ⟨some s, ns⟩ rows = some (⟨some q, ns⟩, false) ∧ q.Ready ∧ q.dim = dim ∧ q.nbits = nbits ∧
      ∀ p ∈ rows.take 1000, ∀ (d : Nat) (r : ℚ × ℚ) (x : ℚ), q.ranges[d]? = some r → p.2[d]? = some x → Within r x := by
  have hne' : (rows.take 1000).map (·.2) ≠ [] := by
    cases rows with
    | nil => exact absurd rfl hne
    | cons p ps => simp
  obtain ⟨s, q, h1, h2, h3, h4, h5, h6⟩ := C113_train_covers A hA dim nbits hb ((rows.take 1000).map (·.2)) hne' (by
    intro v hv
    obtain ⟨p, hp, rfl⟩ := List.mem_map.1 hv
    exact hd p (List.mem_of_mem_take hp))
  refine ⟨s, q, h1, ?_, ?_, h3, h4, h5, fun p hp => h6 p.2 (List.mem_map_of_mem hp)⟩
  · unfold SQ.new at h1
    split at h1
    · simp at h1
    · simp only [Option.some.injEq] at h1
      rw [← h1]
  · unfold trainQuantizer
    simp only
    rw [if_neg (by simpa using hne'), h2]
    rfl

/-- C178: opening a store with scalar quantization on, the index sees every record within a step of its vector if the record is
one of the first 1000, and within a step of the nearest vector in the range of these otherwise. -/
theorem C178_open_partial (A : Arith) (hA : A.Lifts) (dim nbits : Nat) (hb : 1 ≤ nbits ∧ nbits ≤ 8) (rows : List (I × Vec))
    (hne : rows ≠ []) (hn : (rows.map (·.1)).Nodup) (hd : ∀ p ∈ rows, p.2.length = dim) :
    ∃ ix q, openIndex A (some (dim, nbits)) rows = some ix ∧ ix.quant = some q ∧ q.Ready ∧ q.nbits = nbits ∧
      (∀ p ∈ rows, ∃ w, seenBy ix p.1 = some w ∧ Near q p.2 w) ∧
      ∀ p ∈ rows.take 1000, ∃ w, seenBy ix p.1 = some w ∧ Close q p.2 w := by
  obtain ⟨s, q, h1, -, h2, h3, h4, h5, h6⟩ := train_new A hA dim nbits hb [] rows hne hd
  have hs : ∀ p ∈ rows, ∃ w, seenBy ⟨some q, rows.map (mk (some q))⟩ p.1 = some w ∧ Near q p.2 w := by
    intro p hp
    rw [seenBy_mk _ _ hn p hp]
    exact seen_mk q h3 _ p (by rw [hd p hp, h4])
  refine ⟨⟨some q, rows.map (mk (some q))⟩, q, ?_, rfl, h3, h5, hs, ?_⟩
  · unfold openIndex
    simp only [Option.bind_some, h1, h2, Option.map_some]
    rw [insertAll_new rows _ hn (by simp)]
    rfl
  · intro p hp
    obtain ⟨w, e1, e2⟩ := hs p (List.mem_of_mem_take hp)
    exact ⟨w, e1, e2.close (h6 p hp)⟩

/-- C178: the same for a batch of new records written to a store without records. -/
theorem C178_batch_partial (A : Arith) (hA : A.Lifts) (dim nbits : Nat) (hb : 1 ≤ nbits ∧ nbits ≤ 8) (rows : List (I × Vec))
    (hne : rows ≠ []) (hn : (rows.map (·.1)).Nodup) (hd : ∀ p ∈ rows, p.2.length = dim) :
    ∃ s q, upsertBatch A dim ⟨[], ⟨SQ.new dim nbits, []⟩⟩ rows = some (s, false) ∧ s.ix.quant = some q ∧ q.Ready ∧ q.nbits = nbits ∧
      (∀ p ∈ rows, ∃ w, seenBy s.ix p.1 = some w ∧ Near q p.2 w) ∧
      ∀ p ∈ rows.take 1000, ∃ w, seenBy s.ix p.1 = some w ∧ Close q p.2 w := by
  obtain ⟨s, q, h1, h0, h2, h3, h4, h5, h6⟩ := train_new A hA dim nbits hb [] rows hne hd
  have hs : ∀ p ∈ rows, ∃ w, seenBy ⟨some q, rows.map (mk (some q))⟩ p.1 = some w ∧ Near q p.2 w := by
    intro p hp
    rw [seenBy_mk _ _ hn p hp]
    exact seen_mk q h3 _ p (by rw [hd p hp, h4])
  refine ⟨⟨putAll [] rows, ⟨some q, rows.map (mk (some q))⟩⟩, q, ?_, rfl, h3, h5, hs, ?_⟩
  · unfold upsertBatch
    rw [if_neg hne, h1]
    simp only [Option.map_some, Option.getD_some, h0, Bool.false_eq_true, if_false, h2]
    rw [if_neg (by simpa using hd), insertAll_new rows _ hn (by simp)]
    rfl
  · intro p hp
    obtain ⟨w, e1, e2⟩ := hs p (List.mem_of_mem_take hp)
    exact ⟨w, e1, e2.close (h6 p hp)⟩

/-- Upserts of new records while the quantizer is trained or there is none. -/
theorem upserts_new (A : Arith) (ps : List (I × Vec)) : ∀ s : St I, (s.ix.quant.map SQ.trained).getD true = true → (ps.map (·.1)).Nodup →
    (∀ p ∈ ps, p.1 ∉ s.ix.nodes.map (·.id)) →
    ∃ rows, upserts A s ps = some ⟨rows, ⟨s.ix.quant, s.ix.nodes ++ ps.map (mk s.ix.quant)⟩⟩ := by
  induction ps with
  | nil => intro s _ _ _; exact ⟨s.rows, by simp [upserts]⟩
  | cons p ps ih =>
    intro s ht hn hi
    rw [List.map_cons, List.nodup_cons] at hn
    obtain ⟨rows, h⟩ := ih ⟨put s.rows p.1 p.2, ⟨s.ix.quant, s.ix.nodes ++ [mk s.ix.quant p]⟩⟩ ht hn.2 (by
      intro r hr
      simp only [List.map_append, List.map_cons, List.map_nil, List.mem_append, List.mem_singleton, not_or]
      refine ⟨hi r (List.mem_cons_of_mem _ hr), ?_⟩
      intro e
      change r.1 = p.1 at e
      exact hn.1 (e ▸ List.mem_map_of_mem hr))
    refine ⟨rows, ?_⟩
    rw [upserts]
    unfold upsert
    simp only [ht, if_true, Option.map_some, insert_new s.ix p (hi p List.mem_cons_self), Option.bind_some, h]
    simp

/-- C178: without quantization the index works with the vectors of all new records as they are. -/
theorem C178_off (A : Arith) (ps : List (I × Vec)) (hn : (ps.map (·.1)).Nodup) :
    ∃ s, upserts A ⟨[], ⟨none, []⟩⟩ ps = some s ∧ ∀ p ∈ ps, seenBy s.ix p.1 = some p.2 := by
  obtain ⟨rows, h⟩ := upserts_new A ps ⟨[], ⟨none, []⟩⟩ rfl hn (by simp)
  refine ⟨_, h, fun p hp => ?_⟩
  simp only [List.nil_append]
  rw [seenBy_mk _ _ hn p hp]
  exact seen_raw none (by simp) _ p

/-- C178 (partial): new records written one by one to a store whose quantizer is trained are seen within a step of the nearest
vector of the trained range. The claim asks for the vector itself. -/
theorem C178_trained_partial (A : Arith) (q : SQ) (hq : q.Ready) (s : St I) (hs : s.ix.quant = some q) (ps : List (I × Vec))
    (hn : (ps.map (·.1)).Nodup) (hi : ∀ p ∈ ps, p.1 ∉ s.ix.nodes.map (·.id)) (hd : ∀ p ∈ ps, p.2.length = q.dim) :
    ∃ s', upserts A s ps = some s' ∧ ∀ p ∈ ps, ∃ w, seenBy s'.ix p.1 = some w ∧ Near q p.2 w := by
  obtain ⟨rows, h⟩ := upserts_new A ps s (by simp [hs, hq.trained]) hn hi
  refine ⟨_, h, fun p hp => ?_⟩
  obtain ⟨w, e1, e2⟩ := seen_mk q hq (s.ix.nodes ++ ps.map (mk (some q))) p (hd p hp)
  refine ⟨w, ?_, e2⟩
  unfold seenBy
  simp only [hs]
  rw [List.find?_append, List.find?_eq_none.2, Option.none_or, find_mk _ _ hn p hp]
  · exact e1
  · intro n hn' e
    exact hi p hp (by simp only [decide_eq_true_eq] at e; exact e ▸ List.mem_map_of_mem hn')

/-- Training a new quantizer on one vector. -/
theorem train_one (A : Arith) (dim nbits : Nat) (ns : List (Node I)) (p : I × Vec) (hp : p.2.length = dim) :
    trainQuantizer A ⟨some ⟨dim, nbits, List.replicate dim (0, 0), false⟩, ns⟩ [p] =
      some (⟨some ⟨dim, nbits, p.2.map (fun x => (x, A.bump x)), true⟩, ns⟩, false) := by
  have e : List.zipWith widen ((p.2.take dim).map (fun x => (x, x))) p.2 = p.2.map (fun x => (x, x)) := by
    rw [← hp, List.take_length]
    apply List.ext_getElem?
    intro d
    rw [List.getElem?_zipWith, List.getElem?_map]
    cases h : p.2[d]? <;> simp [widen]
  have t : ([p] : List (I × Vec)).take 1000 = [p] := rfl
  simp only [trainQuantizer, t, List.map_cons, List.map_nil, List.length_singleton, Nat.one_ne_zero, if_false,
    SQ.train, hp, lt_self_iff_false, widenAll, ne_eq, not_true_eq_false, e, Option.map_some]
  simp [spread, Function.comp_def]

/-- C178 is violated: in a new store with scalar quantization, whatever records are written one by one after the first, the index
sees each of them as the vector of the first, up to the epsilon, because the quantizer is trained on the first record alone. -/
theorem C178_fresh_violated (A : Arith) (hA : A.Lifts) (dim nbits : Nat) (hb : 1 ≤ nbits ∧ nbits ≤ 8) (p : I × Vec) (ps : List (I × Vec))
    (hp : p.2.length = dim) (hd : ∀ r ∈ ps, r.2.length = dim) (hn : ((p :: ps).map (·.1)).Nodup) :
    ∃ s, upserts A ⟨[], ⟨SQ.new dim nbits, []⟩⟩ (p :: ps) = some s ∧ seenBy s.ix p.1 = some p.2 ∧
      ∀ r ∈ ps, ∃ w, seenBy s.ix r.1 = some w ∧ w.length = dim ∧
        ∀ (d : Nat) (x y : ℚ), p.2[d]? = some x → w[d]? = some y → x ≤ y ∧ y ≤ A.bump x := by
  have hnew : SQ.new dim nbits = some ⟨dim, nbits, List.replicate dim (0, 0), false⟩ := by
    unfold SQ.new
    rw [if_neg (by omega)]
  rw [hnew]
  generalize hs0 : (⟨dim, nbits, List.replicate dim (0, 0), false⟩ : SQ) = s0
  have ht0 : s0.trained = false := by rw [← hs0]
  have hmk : (mk (some s0) p : Node I) = ⟨p.1, some p.2, none⟩ := by simp [mk, SQ.encode, ht0]
  have h1 : upsert A ⟨[], ⟨some s0, []⟩⟩ p.1 p.2 = some ⟨[p], ⟨some s0, [⟨p.1, some p.2, none⟩]⟩⟩ := by
    unfold upsert
    simp only [Option.map_some, Option.getD_some, ht0, Bool.false_eq_true, if_false, trainQuantizer, List.take_nil, List.map_nil,
      List.length_nil, if_true]
    rw [insert_new _ p (by simp), hmk]
    rfl
  have hn' := hn
  rw [List.map_cons, List.nodup_cons] at hn'
  rw [upserts, h1, Option.bind_some]
  have hraw : ∀ (q : SQ) (ns : List (Node I)), seenBy ⟨some q, ⟨p.1, some p.2, none⟩ :: ns⟩ p.1 = some p.2 := by
    intro q ns
    simp [seenBy, seen]
  cases ps with
  | nil => exact ⟨_, rfl, hraw _ _, by simp⟩
  | cons r rs =>
    generalize hq : (⟨dim, nbits, p.2.map (fun x => (x, A.bump x)), true⟩ : SQ) = q
    have hr : q.Ready := by
      subst hq
      refine ⟨rfl, hb.1, by simp [hp], ?_⟩
      intro t ht
      obtain ⟨x, -, rfl⟩ := List.mem_map.1 ht
      exact hA x
    have ht : trainQuantizer A ⟨some s0, [⟨p.1, some p.2, none⟩]⟩ [p] = some (⟨some q, [⟨p.1, some p.2, none⟩]⟩, false) := by
      rw [← hs0, ← hq]
      exact train_one A dim nbits _ p hp
    have e : upserts A ⟨[p], ⟨some s0, [⟨p.1, some p.2, none⟩]⟩⟩ (r :: rs) = upserts A ⟨[p], ⟨some q, [⟨p.1, some p.2, none⟩]⟩⟩ (r :: rs) := by
      rw [upserts, upserts]
      congr 1
      unfold upsert
      simp only [Option.map_some, Option.getD_some, ht0, hr.trained, Bool.false_eq_true, if_false, if_true, ht]
    have hi : ∀ t ∈ r :: rs, t.1 ∉ ([⟨p.1, some p.2, none⟩] : List (Node I)).map (·.id) := by
      intro t ht' hc
      simp only [List.map_cons, List.map_nil, List.mem_singleton] at hc
      exact hn'.1 (hc ▸ List.mem_map_of_mem ht')
    rw [e]
    obtain ⟨rows, h2⟩ := upserts_new A (r :: rs) ⟨[p], ⟨some q, [⟨p.1, some p.2, none⟩]⟩⟩ (by simp [hr.trained]) hn'.2 hi
    obtain ⟨s', h3, h4⟩ := C178_trained_partial A q hr ⟨[p], ⟨some q, [⟨p.1, some p.2, none⟩]⟩⟩ rfl (r :: rs) hn'.2 hi (by
      intro t ht'
      rw [hd t ht', ← hq])
    refine ⟨s', h3, ?_, ?_⟩
    · rw [h2] at h3
      rw [← Option.some.inj h3]
      exact hraw _ _
    · intro t ht'
      obtain ⟨w, e1, e2, e3⟩ := h4 t ht'
      refine ⟨w, e1, by rw [e2, hd t ht'], ?_⟩
      intro d x y hx hy
      have hdl : d < t.2.length := by
        rw [← e2]
        exact (List.getElem?_eq_some_iff.1 hy).1
      obtain ⟨-, -, c⟩ := e3 d (x, A.bump x) t.2[d] y (by rw [← hq]; simp [hx]) (List.getElem?_eq_getElem hdl) hy
      exact c

/-- The codes of another quantizer of the same shape. -/
theorem decode_other (q s : SQ) (hq : q.Ready) (hs : s.trained = true) (hd : s.dim = q.dim) (hb : s.nbits = q.nbits) (v : Vec) (hv : v.length = q.dim) :
    (q.encode v).bind s.decode = some (List.zipWith (value q.nbits) s.ranges (List.zipWith (code q.nbits) q.ranges v)) := by
  have hlen : (List.zipWith (code q.nbits) q.ranges v).length = q.dim := by rw [List.length_zipWith, hq.len, hv, Nat.min_self]
  obtain ⟨-, -, a3⟩ := C38_packing_lossless q.nbits (List.zipWith (code q.nbits) q.ranges v) (by
    intro c hc
    obtain ⟨i, hi, rfl⟩ := List.getElem_of_mem hc
    rw [List.getElem_zipWith]
    exact code_lt _ _ _) []
  rw [List.append_nil] at a3
  simp only [SQ.encode, hq.trained, Bool.true_eq_false, if_false, hv, ne_eq, not_true_eq_false, Option.bind_some, SQ.decode, hs, hd, hb, ← hlen, a3, Option.map_some]

/-- C178 is violated: training again, which the interface offers for stores in use, moves the vectors the index has kept: after opening a
store with the records 0 and 1, writing a record with any larger value and training, the index sees 1 as that value. -/
theorem C178_retrain_violated (A : Arith) (nbits : Nat) (hb : 1 ≤ nbits ∧ nbits ≤ 8) (B : ℚ) (hB : 1 < B) :
    ∃ ix s ix', openIndex A (some (1, nbits)) [(0, [0]), (1, [1])] = some ix ∧ seenBy ix 1 = some [1] ∧
      upsert A ⟨[(0, [0]), (1, [1])], ix⟩ 2 [B] = some s ∧ s.rows = [(0, [0]), (1, [1]), (2, [B])] ∧
      trainQuantizer A s.ix s.rows = some (ix', false) ∧ seenBy ix' 1 = some [B] := by
  have hm : (0 : ℚ) < ((2 ^ nbits - 1 : Nat) : ℚ) := by exact_mod_cast top_pos nbits hb.1
  have h10 : ¬ (1 : ℚ) < 0 := by norm_num
  have hcode : code nbits (0, 1) 1 = 2 ^ nbits - 1 := by
    have e : normalized (0, 1) 1 = 1 := by simp [normalized, h10]
    unfold code
    rw [e, one_mul, Nat.floor_natCast]
  have hval : ∀ h : ℚ, value nbits (0, h) (2 ^ nbits - 1) = h := by
    intro h
    simp only [value, sub_zero, add_zero]
    rw [div_self hm.ne', one_mul]
  generalize hq : (⟨1, nbits, [(0, 1)], true⟩ : SQ) = q
  generalize hq' : (⟨1, nbits, [(0, B)], true⟩ : SQ) = q'
  have hr : q.Ready := by subst hq; exact ⟨rfl, hb.1, rfl, by simp⟩
  have hdec : (q.encode [1]).bind q.decode = some [1] := by
    rw [decode_other q q hr hr.trained rfl rfl [1] (by subst hq; rfl)]
    subst hq
    simp [hcode, hval]
  have hdec' : (q.encode [1]).bind q'.decode = some [B] := by
    rw [decode_other q q' hr (by subst hq'; rfl) (by subst hq hq'; rfl) (by subst hq hq'; rfl) [1] (by subst hq; rfl)]
    subst hq hq'
    simp [hcode, hval]
  obtain ⟨c, hc⟩ : ∃ c, q.encode [1] = some c := ⟨_, by subst hq; rfl⟩
  rw [hc, Option.bind_some] at hdec hdec'
  have hm1 : (mk (some q) (1, [1]) : Node Nat) = ⟨1, none, some c⟩ := by simp [mk, hc]
  refine ⟨⟨some q, [mk (some q) (0, [0]), mk (some q) (1, [1])]⟩,
    ⟨[(0, [0]), (1, [1]), (2, [B])], ⟨some q, [mk (some q) (0, [0]), mk (some q) (1, [1]), mk (some q) (2, [B])]⟩⟩,
    ⟨some q', [mk (some q) (0, [0]), mk (some q) (1, [1]), mk (some q) (2, [B])]⟩, ?_, ?_, ?_, rfl, ?_, ?_⟩
  · have ht : trainQuantizer A ⟨SQ.new 1 nbits, []⟩ [((0 : Nat), [0]), (1, [1])] = some (⟨some q, []⟩, false) := by
      subst hq
      simp [trainQuantizer, SQ.new, show ¬ (nbits = 0 ∨ 8 < nbits) by omega, SQ.train, widenAll, widen, spread]
    unfold openIndex
    simp only [Option.bind_some, ht, Option.map_some]
    rw [insertAll_new _ _ (by simp) (by simp)]
    rfl
  · rw [hm1]
    simp [seenBy, seen, mk, hdec]
  · unfold upsert
    simp only [Option.map_some, Option.getD_some, hr.trained, if_true]
    rw [insert_new _ (2, [B]) (by simp [mk])]
    rfl
  · subst hq hq'
    have h0 : ¬ B < 0 := by linarith
    have h1 : ¬ B = 0 := by linarith
    simp [trainQuantizer, SQ.train, widenAll, widen, spread, hB, h0, h1, h10, show (0 : ℚ) ≤ B by linarith]
  · rw [hm1]
    simp [seenBy, seen, mk, hdec']

/-- C178 is violated: a batch whose first vector is too short panics while the quantizer is not trained, instead of being refused. -/
theorem C178_batch_panics_violated (A : Arith) (dim nbits : Nat) (hb : 1 ≤ nbits ∧ nbits ≤ 8) (s : St I) (hs : s.ix.quant = SQ.new dim nbits)
    (p : I × Vec) (ps : List (I × Vec)) (hp : p.2.length < dim) : upsertBatch A dim s (p :: ps) = none := by
  have hnew : SQ.new dim nbits = some ⟨dim, nbits, List.replicate dim (0, 0), false⟩ := by
    unfold SQ.new
    rw [if_neg (by omega)]
  unfold upsertBatch
  rw [if_neg (by simp), hs, hnew]
  simp only [Option.map_some, Option.getD_some, Bool.false_eq_true, if_false]
  have : trainQuantizer A s.ix (p :: ps) = none := by
    unfold trainQuantizer
    rw [hs, hnew]
    simp only [List.take_succ_cons, List.map_cons, List.length_cons, Nat.succ_ne_zero, if_false]
    rw [C113_short_first_vector_panics_violated A _ _ _ hp]
    rfl
  rw [this]
  rfl

/-- The example arithmetic. -/
def arith1 : Arith := ⟨fun x => x + 1 / 1000000, fun x => x, fun x => x⟩

theorem arith1_lifts : arith1.Lifts := by
  intro x
  simp [arith1]

/-- Three records in a new store: the second and the third are seen like the first. -/
example : ∃ s, upserts arith1 ⟨[], ⟨SQ.new 2 8, []⟩⟩ [("a", [1, 0]), ("b", [0, 1]), ("c", [-5, 9])] = some s ∧ seenBy s.ix "a" = some [1, 0] ∧
    seenBy s.ix "b" = some [1, 1 / 1000000] ∧ seenBy s.ix "c" = some [1, 1 / 1000000] :=
  ⟨_, rfl, by decide +kernel⟩

/-- The same records in a batch. -/
example : ∃ s, upsertBatch arith1 2 ⟨[], ⟨SQ.new 2 8, []⟩⟩ [("a", [1, 0]), ("b", [0, 1]), ("c", [-5, 9])] = some (s, false) ∧
    seenBy s.ix "b" = some [-1 / 85, 84 / 85] ∧ seenBy s.ix "c" = some [-5, 9] :=
  ⟨_, rfl, by decide +kernel⟩

example : ([("a", [1, 0]), ("b", [0, 1]), ("c", [-5, 9])] : List (String × Vec)) ≠ [] ∧ (([("a", [1, 0]), ("b", [0, 1]), ("c", [-5, 9])] : List (String × Vec)).map (·.1)).Nodup ∧
    ∀ p ∈ ([("a", [1, 0]), ("b", [0, 1]), ("c", [-5, 9])] : List (String × Vec)), p.2.length = 2 := by
  decide +kernel

/-- A trained quantizer with a record outside its range. -/
example : ∃ (q : SQ) (s : St String), q.Ready ∧ s.ix.quant = some q ∧ ∃ s', upserts arith1 s [("c", [7])] = some s' ∧ seenBy s'.ix "c" = some [1] :=
  ⟨⟨1, 2, [(0, 1)], true⟩, ⟨[], ⟨some ⟨1, 2, [(0, 1)], true⟩, []⟩⟩, ⟨rfl, by decide, rfl, by simp⟩, rfl, _, rfl, by decide +kernel⟩

end Verif.QuantIndex
