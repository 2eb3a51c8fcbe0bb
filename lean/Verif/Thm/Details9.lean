import Verif.Thm.Hnsw
import Verif.Thm.MultiIndex
import Verif.Model.QuantIndex

/-!
C112: what an HNSW part of a multi index answers. C178: what a batch leaves in the table.
-/
namespace Verif.MultiIndex
open Verif.Spec

variable {V : Type}

/-- C112 (partial): an HNSW part that never held more than `2 d + 1` ids, for vectors with `d` components, answers with the `k` nearest
live vectors, provided it never held more than 50 ids or more ids than it is asked for.
Missing: larger parts, see C108. -/
theorem C112_adapter_exact_partial (E : Hnsw.Env V) (d M : Nat) (hd : 0 < d) (ops : List (Hnsw.Op V))
    (hok : ∀ op ∈ ops, op.ok ∧ op.single ∧ op.named) (ids : List String) (hids : ∀ x, (Hnsw.after ops x).isSome = true → x ∈ ids)
    (hlen : ids.length ≤ 2 * d + 1) (q : V) (k : Nat) (hk : ids.length ≤ 50 ∨ ids.length ≤ k) :
    ∃ h out, Hnsw.run E (newHnswAdapter V d M) ops = some h ∧ (hnswLib E).search h q k = some out ∧
      ∃ pool : List Hit, (pool.map Prod.fst).Nodup ∧
        (∀ i, i ∈ pool ↔ ∃ v, Hnsw.after ops i.1 = some (v, false) ∧ i.2 = E.dist q (E.keep v)) ∧ IsTopK (fun i : Hit => -i.2) pool k out := by
  obtain ⟨h, out, h1, h2, pool, h3, h4, h5⟩ := Hnsw.C108_small_index_exact_partial E d M hd ops hok ids hids hlen q k (adapterEf k)
    (by unfold adapterEf; split <;> omega)
  refine ⟨h, out.map hitOf, h1, by simp [hnswLib, h2], pool.map hitOf, ?_, ?_, ?_⟩
  · rw [List.map_map]; exact h3
  · intro i
    rw [List.mem_map]
    constructor
    · rintro ⟨x, hx, rfl⟩; exact (h4 x).1 hx
    · intro hi; exact ⟨⟨i.1, i.2⟩, (h4 ⟨i.1, i.2⟩).2 hi, rfl⟩
  · obtain ⟨o1, ⟨rest, o2, o3⟩, o4⟩ := h5
    refine ⟨List.pairwise_map.2 o1, ⟨rest.map hitOf, ?_, ?_⟩, by simp [o4]⟩
    · rw [← List.map_append]; exact o2.map _
    · intro r hr o ho
      obtain ⟨r', hr', rfl⟩ := List.mem_map.1 hr
      obtain ⟨o', ho', rfl⟩ := List.mem_map.1 ho
      exact o3 r' hr' o' ho'

example : (Hnsw.run Hnsw.lineEnv (newHnswAdapter Nat 2 16) [.insert "a" 0 1, .insert "b" 5 0, .insert "c" 7 2]).bind
    (fun h => (hnswLib Hnsw.lineEnv).search h 6 2) = some [("b", 1), ("c", 1)] := by decide +kernel

end Verif.MultiIndex

namespace Verif.QuantIndex
open Verif.Quant

variable {I : Type} [DecidableEq I]

theorem mem_put (rows : List (I × Vec)) (id i : I) (v w : Vec) :
    (i, w) ∈ put rows id v ↔ (i = id ∧ w = v) ∨ (i ≠ id ∧ (i, w) ∈ rows) := by
  simp only [put, List.mem_append, List.mem_filter, List.mem_singleton, Prod.mk.injEq, decide_eq_true_eq]
  tauto

theorem mem_putAll (ps rows : List (I × Vec)) (i : I) (w : Vec) : (i, w) ∈ putAll rows ps ↔
    (∃ before behind, ps = before ++ (i, w) :: behind ∧ i ∉ behind.map Prod.fst) ∨ (i ∉ ps.map Prod.fst ∧ (i, w) ∈ rows) := by
  induction ps generalizing rows with
  | nil => simp [putAll]
  | cons p ps ih =>
    rw [putAll, ih, mem_put]
    constructor
    · rintro (⟨a, b, rfl, h⟩ | ⟨h, ⟨h1, h2⟩ | ⟨h1, h2⟩⟩)
      · exact .inl ⟨p :: a, b, rfl, h⟩
      · exact .inl ⟨[], ps, by rw [h1, h2]; rfl, h⟩
      · exact .inr ⟨by simpa [h1] using h, h2⟩
    · rintro (⟨a, b, e, h⟩ | ⟨h, h2⟩)
      · cases a with
        | nil =>
          simp only [List.nil_append, List.cons.injEq] at e
          obtain ⟨rfl, rfl⟩ := e
          exact .inr ⟨h, .inl ⟨rfl, rfl⟩⟩
        | cons x a =>
          simp only [List.cons_append, List.cons.injEq] at e
          exact .inl ⟨a, b, e.2, h⟩
      · simp only [List.map_cons, List.mem_cons, not_or] at h
        exact .inr ⟨h.2, .inr ⟨h.1, h2⟩⟩

/-- C178: after a batch that succeeds, the table holds for every id of the batch the vector that the batch gives last for it, and for
every other id what it held before. After a batch that fails it holds what it held before. -/
theorem C178_batch_rows (A : Arith) (dim : Nat) (s s' : St I) (ps : List (I × Vec)) (e : Bool)
    (h : upsertBatch A dim s ps = some (s', e)) :
    (e = true → s'.rows = s.rows) ∧
    (e = false → ∀ i w, (i, w) ∈ s'.rows ↔
      (∃ before behind, ps = before ++ (i, w) :: behind ∧ i ∉ behind.map Prod.fst) ∨ (i ∉ ps.map Prod.fst ∧ (i, w) ∈ s.rows)) := by
  unfold upsertBatch at h
  split_ifs at h with h0
  · simp only [Option.some.injEq, Prod.mk.injEq] at h
    obtain ⟨rfl, rfl⟩ := h
    subst h0
    simp
  all_goals
    simp only [Option.map_eq_some_iff] at h
    obtain ⟨ix, -, h⟩ := h
    simp only [Prod.mk.injEq] at h
    obtain ⟨rfl, rfl⟩ := h
    first
    | exact ⟨fun _ => rfl, by simp⟩
    | exact ⟨by simp, fun _ i w => mem_putAll ps s.rows i w⟩

/-- A batch that gives an id twice, over a row that was there. -/
example : putAll [(1, [(5 : ℚ)]), (2, [6])] [(1, [7]), (3, [8]), (1, [9])] = [(2, [6]), (3, [8]), (1, [9])] := by decide +kernel

end Verif.QuantIndex
