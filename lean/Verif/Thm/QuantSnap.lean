import Verif.Thm.QuantIndex

/-!
C179: snapshots of a quantised index.
-/
namespace Verif.QuantIndex

open Verif.Quant

variable {I : Type} [DecidableEq I]

/-- An index that works with the same vector for every id. -/
def Same (a b : Ix I) : Prop := ∀ id, seenBy a id = seenBy b id

/-- The vectors that are only kept as codes. -/
def OnlyCode (n : Node I) : Prop := n.raw = none

/-- What `insert` leaves: a node has its vector or a code, and a code only if there is a quantizer. -/
def Proper (ix : Ix I) : Prop := ∀ n ∈ ix.nodes, n.raw.isSome ∨ (n.coded.isSome ∧ ix.quant.isSome)

theorem insert_proper (ix : Ix I) (h : Proper ix) (id : I) (v : Vec) : Proper (insert ix id v).1 := by
  unfold insert
  split
  · exact h
  · intro n hn
    simp only [List.mem_append, List.mem_singleton] at hn
    rcases hn with hn | rfl
    · exact h n hn
    · cases hq : ix.quant with
      | none => simp
      | some q => cases he : q.encode v <;> simp [he]

theorem insertAll_proper (ps : List (I × Vec)) : ∀ ix : Ix I, Proper ix → Proper (insertAll ix ps) := by
  induction ps with
  | nil => exact fun _ h => h
  | cons p ps ih => exact fun ix h => ih _ (insert_proper ix h _ _)

theorem train_proper (A : Arith) (ix ix' : Ix I) (rows : List (I × Vec)) (e : Bool) (h : Proper ix) (ht : trainQuantizer A ix rows = some (ix', e)) : Proper ix' := by
  unfold trainQuantizer at ht
  split at ht
  · simp only [Option.some.injEq, Prod.mk.injEq] at ht
    exact ht.1 ▸ h
  · simp only at ht
    split at ht
    · simp only [Option.some.injEq, Prod.mk.injEq] at ht
      exact ht.1 ▸ h
    · obtain ⟨r, -, hr⟩ := Option.map_eq_some_iff.1 ht
      simp only [Prod.mk.injEq] at hr
      rw [← hr.1]
      intro n hn
      rcases h n hn with h1 | h1
      · exact Or.inl h1
      · exact Or.inr ⟨h1.1, rfl⟩

theorem upserts_proper (A : Arith) (ps : List (I × Vec)) : ∀ s s' : St I, Proper s.ix → upserts A s ps = some s' → Proper s'.ix := by
  induction ps with
  | nil =>
    intro s s' h e
    simp only [upserts, Option.some.injEq] at e
    exact e ▸ h
  | cons p ps ih =>
    intro s s' h e
    rw [upserts] at e
    obtain ⟨s1, h1, h2⟩ := Option.bind_eq_some_iff.1 e
    refine ih s1 s' ?_ h2
    unfold upsert at h1
    simp only at h1
    obtain ⟨ix, h3, rfl⟩ := Option.map_eq_some_iff.1 h1
    apply insert_proper
    split at h3
    · exact Option.some.inj h3 ▸ h
    · obtain ⟨r, h4, rfl⟩ := Option.map_eq_some_iff.1 h3
      exact train_proper A s.ix r.1 s.rows r.2 h h4

/-- C179: a snapshot that was written completely gives the index back: after reopening with the same bit width, every record is seen as
before closing, whatever was on disk before and whether or not quantization is still on. -/
theorem C179_saved (A : Arith) (d : Disk I) (ix : Ix I) (hp : Proper ix) (quantized : Option Nat) (nbits : Nat) (hb : 1 ≤ nbits ∧ nbits ≤ 8) :
    ∃ ix', reopen A quantized nbits (save d ix 2) = some ix' ∧ Same ix' ix ∧ ix'.nodes = ix.nodes ∧ (∀ q, ix.quant = some q → ix'.quant = some q) := by
  cases hq : ix.quant with
  | some q =>
    refine ⟨ix, ?_, fun _ => rfl, rfl, by simp [hq]⟩
    simp only [reopen, save, ge_iff_le, Nat.one_le_ofNat, if_true, le_refl, hq, Option.isSome_some, and_self, hb]
    rw [← hq]
  | none =>
    refine ⟨⟨if d.quant.isSome ∧ 1 ≤ nbits ∧ nbits ≤ 8 then d.quant else quantized.bind (fun dim => SQ.new dim nbits), ix.nodes⟩, ?_, ?_, rfl, by simp⟩
    · simp only [reopen, save, ge_iff_le, Nat.one_le_ofNat, if_true, le_refl, hq, Option.isSome_none, Bool.false_eq_true, and_false, if_false]
    intro id
    unfold seenBy
    simp only
    cases hf : ix.nodes.find? (fun n => n.id = id) with
    | none => rfl
    | some n =>
      have := hp n (List.mem_of_find?_eq_some hf)
      simp only [hq, Option.isSome_none, Bool.false_eq_true, and_false, or_false] at this
      obtain ⟨v, hv⟩ := Option.isSome_iff_exists.1 this
      simp [seen, hv]

/-- C179: over histories: open a store, write any records, close it and open it again. -/
theorem C179_history (A : Arith) (q : Option (Nat × Nat)) (rows : List (I × Vec)) (ix : Ix I) (h1 : openIndex A q rows = some ix)
    (ps : List (I × Vec)) (s : St I) (h2 : upserts A ⟨rows, ix⟩ ps = some s) (d : Disk I)
    (quantized : Option Nat) (nbits : Nat) (hb : 1 ≤ nbits ∧ nbits ≤ 8) :
    ∃ ix', reopen A quantized nbits (save d s.ix 2) = some ix' ∧ Same ix' s.ix := by
  have hp : Proper ix := by
    unfold openIndex at h1
    obtain ⟨r, h3, rfl⟩ := Option.map_eq_some_iff.1 h1
    exact insertAll_proper rows _ (train_proper A _ r.1 rows r.2 (by intro n hn; simp at hn) h3)
  obtain ⟨ix', e1, e2, -⟩ := C179_saved A d s.ix (upserts_proper A ps ⟨rows, ix⟩ s hp h2) quantized nbits hb
  exact ⟨ix', e1, e2⟩

/-- C179: a crash before the first statement leaves the disk as it was. -/
theorem C179_crash_before (d : Disk I) (ix : Ix I) : save d ix 0 = d := by
  simp [save]

/-- C179 (partial): a crash between the two statements does no harm if the quantizer on disk is the current one. -/
theorem C179_crash_between_partial (A : Arith) (d : Disk I) (ix : Ix I) (hq : d.quant = ix.quant) (hs : ix.quant.isSome)
    (quantized : Option Nat) (nbits : Nat) (hb : 1 ≤ nbits ∧ nbits ≤ 8) : reopen A quantized nbits (save d ix 1) = some ix := by
  simp only [reopen, save, ge_iff_le, le_refl, if_true, Nat.reduceLeDiff, false_and, if_false, hq, hs, hb, and_self]

/-- C179 is violated: when the first snapshot of a store is cut off between its two statements, none of the records kept as codes is seen
after reopening; the index is not built again, because there is a snapshot. -/
theorem C179_first_snapshot_violated (A : Arith) (d : Disk I) (hd : d.quant = none) (ix : Ix I) (quantized : Option Nat) (nbits : Nat) :
    ∃ ix', reopen A quantized nbits (save d ix 1) = some ix' ∧ ix'.nodes = ix.nodes ∧ ∀ n ∈ ix.nodes, OnlyCode n → seen ix' n = none := by
  refine ⟨⟨quantized.bind (fun dim => SQ.new dim nbits), ix.nodes⟩, ?_, rfl, ?_⟩
  · simp [reopen, save, hd]
  · intro n _ hn
    unfold OnlyCode at hn
    simp only [seen, hn]
    cases n.coded with
    | none => rfl
    | some bs =>
      cases quantized with
      | none => rfl
      | some dim =>
        simp only [Option.bind_some, SQ.new]
        split <;> simp [SQ.decode]

/-- C179 is violated: reopening with a bit width out of range (quantization switched off by an empty configuration) loses the quantizer: none
of the records kept as codes is seen. -/
theorem C179_bits_violated (A : Arith) (d : Disk I) (ix : Ix I) (quantized : Option Nat) (nbits : Nat) (hb : ¬ (1 ≤ nbits ∧ nbits ≤ 8)) :
    ∃ ix', reopen A quantized nbits (save d ix 2) = some ix' ∧ ix'.nodes = ix.nodes ∧ ∀ n ∈ ix.nodes, OnlyCode n → seen ix' n = none := by
  refine ⟨⟨none, ix.nodes⟩, ?_, rfl, ?_⟩
  · have e : quantized.bind (fun dim => SQ.new dim nbits) = none := by
      cases quantized with
      | none => rfl
      | some dim => simp [SQ.new]; omega
    simp only [reopen, hb, and_false, if_false, e]
    simp only [save, ge_iff_le, Nat.one_le_ofNat, if_true, le_refl]
    split_ifs <;> rfl
  · intro n _ hn
    unfold OnlyCode at hn
    simp only [seen, hn]
    cases n.coded <;> rfl

/-- Three records, the third kept as a code only after training. -/
def ixA : Ix String := ⟨some ⟨1, 2, [(0, 3)], true⟩, [⟨"a", some [0], none⟩, ⟨"b", none, some [2]⟩]⟩

example : Proper ixA ∧ OnlyCode (⟨"b", none, some [2]⟩ : Node String) ∧ seenBy ixA "b" = some [2] := by
  refine ⟨?_, rfl, by decide +kernel⟩
  intro n hn
  simp only [ixA, List.mem_cons, List.not_mem_nil, or_false] at hn
  rcases hn with rfl | rfl <;> simp [ixA]

example : (reopen arith1 (some 1) 2 (save ⟨[], none, none⟩ ixA 2)).bind (seenBy · "b") = some [2] ∧
    (reopen arith1 (some 1) 2 (save ⟨[], none, none⟩ ixA 1)).bind (seenBy · "b") = none ∧
    (reopen arith1 (some 1) 2 (save ⟨[], none, some ⟨1, 2, [(0, 3)], true⟩⟩ ixA 1)).bind (seenBy · "b") = some [2] ∧
    (reopen arith1 none 0 (save ⟨[], none, none⟩ ixA 2)).bind (seenBy · "b") = none := by
  decide +kernel

/-- A history that reaches a proper index. -/
example : ∃ s, upserts arith1 ⟨[], ⟨SQ.new 2 8, []⟩⟩ [("a", [1, 0]), ("b", [0, 1])] = some s ∧ s.ix.nodes.map (fun n => n.raw.isSome) = [true, false] :=
  ⟨_, rfl, by decide +kernel⟩

end Verif.QuantIndex
