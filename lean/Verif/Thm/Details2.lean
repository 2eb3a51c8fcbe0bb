import Verif.Thm.Titles
import Verif.Thm.ChatMemory
import Mathlib.Tactic.IntervalCases
import Mathlib.Data.List.Nodup

/-!
Further details of properties proved elsewhere.
-/
namespace Verif.Titles

theorem toNat_eq {c : Char} {n : Nat} (h : c.toNat = n) : c = Char.ofNat n := by
  rw [← h, Char.ofNat_toNat]

/-- C219: the letters of a name are the Latin capitals, the small Latin letters and the digits, no others. -/
theorem C219_letters (c : Char) :
    (upper c = true ↔ c ∈ "ABCDEFGHIJKLMNOPQRSTUVWXYZ".toList) ∧
    (low c = true ↔ c ∈ "abcdefghijklmnopqrstuvwxyz0123456789".toList) := by
  constructor
  · constructor
    · intro h
      simp only [upper, Bool.and_eq_true, decide_eq_true_eq, Char.le_def, UInt32.le_iff_toNat_le] at h
      obtain ⟨h1, h2⟩ := h
      have h1 : 65 ≤ c.toNat := h1
      have h2 : c.toNat ≤ 90 := h2
      generalize hn : c.toNat = n at h1 h2
      rw [toNat_eq hn]
      interval_cases n <;> decide +kernel
    · intro h
      have : ∀ c ∈ "ABCDEFGHIJKLMNOPQRSTUVWXYZ".toList, upper c = true := by decide +kernel
      exact this c h
  · constructor
    · intro h
      simp only [low, Bool.or_eq_true, Bool.and_eq_true, decide_eq_true_eq, Char.le_def, UInt32.le_iff_toNat_le] at h
      rcases h with ⟨h1, h2⟩ | ⟨h1, h2⟩
      · have h1 : 97 ≤ c.toNat := h1
        have h2 : c.toNat ≤ 122 := h2
        generalize hn : c.toNat = n at h1 h2
        rw [toNat_eq hn]
        interval_cases n <;> decide +kernel
      · have h1 : 48 ≤ c.toNat := h1
        have h2 : c.toNat ≤ 57 := h2
        generalize hn : c.toNat = n at h1 h2
        rw [toNat_eq hn]
        interval_cases n <;> decide +kernel
    · intro h
      have : ∀ c ∈ "abcdefghijklmnopqrstuvwxyz0123456789".toList, low c = true := by decide +kernel
      exact this c h

end Verif.Titles

namespace Verif.MemRec
open Verif.Base Verif.Memory

/-- No two sessions and no two messages share an id. -/
def Once (s : State) : Prop := (s.buckets.map Prod.fst).Nodup ∧ (s.msgs.map Msg.id).Nodup

theorem lookup_none_keys {l : List (Text × Text)} {k : Text} (h : (l.lookup k).isSome = false) : k ∉ l.map Prod.fst := by
  induction l with
  | nil => simp
  | cons a l ih =>
    obtain ⟨x, y⟩ := a
    by_cases hk : k = x
    · simp [hk] at h
    · have hb : (k == x) = false := by simpa using hk
      simp only [List.lookup_cons, hb] at h
      simp [hk, ih h]

theorem nodup_snoc {α : Type*} {l : List α} {a : α} (h : l.Nodup) (ha : a ∉ l) : (l ++ [a]).Nodup := by
  rw [List.nodup_append]
  refine ⟨h, by simp, ?_⟩
  intro x hx y hy
  rw [List.mem_singleton.1 hy]
  rintro rfl
  exact ha hx

theorem once_upsert {ms : List Msg} (h : (ms.map Msg.id).Nodup) (m : Msg) : ((upsert ms m).map Msg.id).Nodup := by
  unfold upsert
  split
  · rw [List.map_map]
    have : (Msg.id ∘ fun x => if (x.id == m.id) = true then { m with created := x.created } else x) = Msg.id := by
      funext x
      simp only [Function.comp]
      split
      · rename_i hx; simpa using (beq_iff_eq.1 hx).symm
      · rfl
    rw [this]; exact h
  · rename_i hn
    rw [List.map_append]
    refine nodup_snoc h ?_
    intro hm
    obtain ⟨x, hx, he⟩ := List.mem_map.1 hm
    exact hn (List.any_eq_true.2 ⟨x, hx, by simpa using he⟩)

/-- C232: through every history of chat and memory calls, of whatever ids, no two sessions and no two messages come to share an id. -/
theorem C232_once (sp : Char → Bool) (lower : Char → Char) (cs : List Call) (s : State) (h : Once s) : Once (callRun sp lower s cs) := by
  induction cs generalizing s with
  | nil => exact h
  | cons c cs ih =>
    apply ih
    obtain ⟨h1, h2⟩ := h
    cases c with
    | session id user =>
      simp only [callStep, createSession]
      split
      · exact ⟨h1, h2⟩
      · rename_i hn
        refine ⟨?_, h2⟩
        simp only [List.map_append]
        exact nodup_snoc h1 (lookup_none_keys (Bool.eq_false_iff.2 hn))
    | message fk now m =>
      simp only [callStep, addMessage]
      split
      · exact ⟨h1, h2⟩
      split
      · exact ⟨h1, h2⟩
      · rename_i hn _
        refine ⟨h1, ?_⟩
        simp only [List.map_append]
        refine nodup_snoc h2 ?_
        intro hm
        obtain ⟨x, hx, he⟩ := List.mem_map.1 hm
        exact hn (List.any_eq_true.2 ⟨x, hx, by simpa using he⟩)
    | memory now op =>
      cases op with
      | save q =>
        simp only [callStep, step, save]
        split
        · exact ⟨h1, h2⟩
        split
        · exact ⟨h1, h2⟩
        split
        · exact ⟨h1, h2⟩
        refine ⟨?_, once_upsert h2 _⟩
        simp only
        split
        · exact h1
        · rename_i hn
          simp only [List.map_append]
          exact nodup_snoc h1 (lookup_none_keys (Bool.eq_false_iff.2 hn))
      | update q =>
        simp only [callStep, step, update]
        split
        · exact ⟨h1, h2⟩
        split
        · exact ⟨h1, h2⟩
        refine ⟨h1, ?_⟩
        simp only [List.map_map]
        refine (congrArg List.Nodup (List.map_congr_left fun m _ => ?_)).mpr h2
        simp only [Function.comp]
        split <;> rfl
      | delete id =>
        simp only [callStep, step, delete]
        split
        · exact ⟨h1, h2⟩
        refine ⟨?_, h2.sublist (List.Sublist.map _ List.filter_sublist)⟩
        simp only
        split
        · exact h1
        · exact h1.sublist (List.Sublist.map _ List.filter_sublist)

/-- C232: creating a session that exists is refused and changes nothing, as does a message under an id that is taken. -/
theorem C232_taken (fk : Bool) (now : Int) (s : State) :
    (∀ id user, id ∈ s.buckets.map Prod.fst → createSession s id user = (s, false)) ∧
    (∀ m : Msg, m.id ∈ s.msgs.map Msg.id → addMessage fk now s m = (s, false)) := by
  constructor
  · intro id user h
    unfold createSession
    rw [if_pos]
    by_contra hn
    exact lookup_none_keys (Bool.eq_false_iff.2 hn) h
  · intro m h
    unfold addMessage
    rw [if_pos]
    obtain ⟨x, hx, he⟩ := List.mem_map.1 h
    exact List.any_eq_true.2 ⟨x, hx, by simpa using he⟩

example : Once (⟨[("s".toList, "u".toList), ("t".toList, "u".toList)],
    [⟨"m".toList, "s".toList, [], [], [], 0⟩, ⟨"n".toList, "s".toList, [], [], [], 0⟩]⟩ : State) := by
  refine ⟨by decide +kernel, by decide +kernel⟩

end Verif.MemRec
