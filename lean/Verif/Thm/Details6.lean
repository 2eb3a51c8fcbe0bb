import Verif.Thm.BankGraph

/-!
Details stated outright: which banks are found, and that a deleted bank is gone.
-/
namespace Verif.BankGraph
open Verif.Graph Verif.Hindsight

/-- **C233.** A bank that is found is a bank the system knows, or it was made from the stored node of its id, which has the type `bank`; a
node of another type is never shown as a bank. -/
theorem C233_found (s : State) (id : String) (b : Bank) (h : (getBank s id).2 = some b) :
    (b ∈ s.banks ∧ b.id = id) ∨ ∃ n, getNode s.g id = some n ∧ n.ntype = "bank" ∧ b = ⟨n.id, n.content, n.content, "", none⟩ := by
  unfold getBank at h
  split at h
  · rename_i x hx
    simp only [Option.some.injEq] at h
    subst h
    exact Or.inl ⟨List.mem_of_find?_eq_some hx, by simpa using List.find?_some hx⟩
  · split at h
    · rename_i n hn
      split at h
      · rename_i ht
        simp only [Option.some.injEq] at h
        exact Or.inr ⟨n, hn, ht, h.symm⟩
      · cases h
    · cases h

/-- **C233.** A bank that was deleted is not found, neither at once nor after a restart, and every other known bank is still known. -/
theorem C233_gone (fk : Bool) (s : State) (id : String) (h : (deleteBank fk s id).2 = .ok) :
    (getBank (deleteBank fk s id).1 id).2 = none ∧ (getBank (restart (deleteBank fk s id).1) id).2 = none ∧
      ∀ b, b.id ≠ id → (b ∈ (deleteBank fk s id).1.banks ↔ b ∈ s.banks) := by
  unfold deleteBank at h ⊢
  split
  · have hn : ∀ n ∈ (deleteNode fk s.g id).1.nodes, n.id ≠ id := by
      intro n hn
      unfold deleteNode at hn
      split at hn
      · have := (List.mem_filter.1 hn).2
        simpa using this
      · rename_i hh
        intro he
        exact hh (List.any_eq_true.2 ⟨n, hn, by simp [he]⟩)
    have hg : getNode (deleteNode fk s.g id).1 id = none := by
      unfold getNode
      rw [List.find?_eq_none]
      intro x hx
      simpa using hn x hx
    refine ⟨?_, ?_, ?_⟩
    · have hb : findBank ⟨(deleteNode fk s.g id).1, s.banks.filter (fun b => decide (b.id ≠ id))⟩ id = none := by
        unfold findBank
        rw [List.find?_eq_none]
        intro x hx
        simpa using (List.mem_filter.1 hx).2
      unfold getBank; simp only [hb, hg]
    · have hb : findBank (restart ⟨(deleteNode fk s.g id).1, s.banks.filter (fun b => decide (b.id ≠ id))⟩) id = none := by
        unfold findBank
        rw [List.find?_eq_none]
        intro x hx
        obtain ⟨n, hn', rfl⟩ := List.mem_map.1 hx
        have := hn n (List.mem_filter.1 hn').1
        simp [toBank, Hindsight.bankOfNode, this]
      have hg' : getNode (restart ⟨(deleteNode fk s.g id).1, s.banks.filter (fun b => decide (b.id ≠ id))⟩).g id = none := hg
      unfold getBank; simp only [hb, hg']
    · intro b hb
      simp [List.mem_filter, hb]
  · rename_i hh
    rw [if_neg hh] at h
    cases h

example : (deleteBank true (run demoCalls) "bank1").2 = .ok ∧ (getBank (run demoCalls) "bank1").2.isSome ∧ (getBank (run demoCalls) "p1").2 = none := by
  decide +kernel

end Verif.BankGraph
