import Verif.Model.Hindsight
import Mathlib.Data.List.Induction
import Mathlib.Data.List.Basic

/-!
Which messages automatic retention shows to the extractor: C207.
-/
namespace Verif.Hindsight

/-- Messages stored one after the other, each extraction that is fired running at once. -/
def prompt (ms : List Msg) : List ChatOp := ms.flatMap (fun m => [.add m true, .run 0])

/-- The extractor has been given the message. -/
def Shown (s : Chat) (m : Msg) : Prop := ∃ w ∈ s.received, m ∈ w

theorem prompt_snoc (c : ARCfg) (s : Chat) (ms : List Msg) (m : Msg) :
    chatRun c s (prompt (ms ++ [m])) = runExtract c (addMessage c true (chatRun c s (prompt ms)) m true) 0 := by
  simp [prompt, chatRun, List.flatMap_append, chatStep]

theorem mem_take_or_drop {α : Type} {l : List α} {x : α} (n : Nat) (h : x ∈ l) : x ∈ l.take n ∨ x ∈ l.drop n := by
  rw [← List.take_append_drop n l] at h
  exact List.mem_append.1 h

/-- C207: in one session whose messages all count, with a window not shorter than the trigger and extractions that run at once, all but the last
`TriggerEvery - 1` messages have been shown to the extractor, after any number of messages. -/
theorem C207_covered_partial (c : ARCfg) (hc : c.enabled = true) (he : 0 < c.every) (hw : c.every ≤ c.window) (hr : c.roles = [])
    (sess : String) (hs : sess ≠ "") (ms : List Msg) (hm : ∀ m ∈ ms, m.session = sess) :
    ∃ j : Nat, (j : Int) < c.every ∧ ∀ m ∈ ms.take (ms.length - j), Shown (chatRun c chatInit (prompt ms)) m := by
  suffices h : (chatRun c chatInit (prompt ms)).log = ms ∧ (chatRun c chatInit (prompt ms)).pending = [] ∧
      ∃ j : Nat, (chatRun c chatInit (prompt ms)).counter = j ∧ (j : Int) < c.every ∧ j ≤ ms.length ∧
        ∀ m ∈ ms.take (ms.length - j), Shown (chatRun c chatInit (prompt ms)) m by
    obtain ⟨-, -, j, -, h1, -, h2⟩ := h
    exact ⟨j, h1, h2⟩
  induction ms using List.reverseRecOn with
  | nil => exact ⟨rfl, rfl, 0, rfl, he, Nat.le_refl _, fun m h => by cases h⟩
  | append_singleton ms m ih =>
    obtain ⟨i1, i2, j, i3, i4, i5, i6⟩ := ih (fun x hx => hm x (List.mem_append_left _ hx))
    have hmm : m.session = sess := hm m (List.mem_append_right _ (List.mem_singleton.2 rfl))
    rw [prompt_snoc]
    generalize chatRun c chatInit (prompt ms) = s at i1 i2 i3 i6
    have hf : (ms ++ [m]).filter (fun x => decide (x.session = sess)) = ms ++ [m] := by
      rw [List.filter_eq_self]; intro x hx; simpa using hm x hx
    by_cases hge : s.counter + 1 ≥ c.every
    · have ha : addMessage c true s m true =
          { s with log := ms ++ [m], counter := 0, pending := [sess], fired := s.fired + 1 } := by
        simp [addMessage, hc, hmm, hs, hr, roleMatches, hge, i1, i2]
      have hne : (history (ms ++ [m]) sess c.window) ≠ [] := by
        unfold history
        simp only [hf]
        rw [if_neg (by omega)]
        simp only [List.reverse_append, List.reverse_cons, List.reverse_nil, List.nil_append, List.singleton_append, ne_eq, List.reverse_eq_nil_iff]
        obtain ⟨k, hk⟩ : ∃ k, c.window.toNat = k + 1 := ⟨c.window.toNat - 1, by omega⟩
        rw [hk]; simp
      have hx : runExtract c (addMessage c true s m true) 0 =
          { s with log := ms ++ [m], counter := 0, pending := [], received := s.received ++ [(history (ms ++ [m]) sess c.window).reverse], fired := s.fired + 1 } := by
        rw [ha]; simp [runExtract, hne]
      rw [hx]
      refine ⟨rfl, rfl, 0, rfl, he, Nat.zero_le _, ?_⟩
      intro x hx'
      have hx' : x ∈ ms ++ [m] := List.mem_of_mem_take hx'
      by_cases hold : x ∈ ms.take (ms.length - j)
      · obtain ⟨w, hw1, hw2⟩ := i6 x hold
        exact ⟨w, List.mem_append_left _ hw1, hw2⟩
      · refine ⟨_, List.mem_append_right _ (List.mem_singleton.2 rfl), ?_⟩
        rw [List.mem_reverse]
        unfold history
        simp only [hf]
        rw [if_neg (by omega), List.mem_reverse]
        have hd : x ∈ (ms ++ [m]).drop (ms.length - j) := by
          rcases mem_take_or_drop (ms.length - j) hx' with h | h
          · rw [List.take_append_of_le_length (by omega)] at h; exact absurd h hold
          · exact h
        have : x ∈ ((ms ++ [m]).reverse).take (j + 1) := by
          rw [List.take_reverse, List.mem_reverse]
          have : (ms ++ [m]).length - (j + 1) = ms.length - j := by simp
          rw [this]; exact hd
        exact (List.take_subset_take_left _ (by omega)) this
    · have ha : addMessage c true s m true = { s with log := ms ++ [m], counter := s.counter + 1 } := by
        simp [addMessage, hc, hmm, hs, hr, roleMatches, hge, i1]
      have hx : runExtract c (addMessage c true s m true) 0 = { s with log := ms ++ [m], counter := s.counter + 1 } := by
        rw [ha]; simp [runExtract, i2]
      rw [hx]
      refine ⟨rfl, i2, j + 1, by simp [i3], by push_cast; omega, by simp [i5], ?_⟩
      intro x hx'
      have : (ms ++ [m]).length - (j + 1) = ms.length - j := by simp
      rw [this, List.take_append_of_le_length (by omega)] at hx'
      exact i6 x hx'

/-- Two sessions that take turns. -/
def turns (a b : String) (n : Nat) : List Msg := (List.range n).flatMap (fun i => [⟨a, "user", i⟩, ⟨b, "user", i⟩])

/-- C207: sessions share one counter: with the default trigger of two and two sessions that take turns, the extractor never sees a message of the first
session, however long the chat goes on and however long the window is. -/
theorem C207_sessions_violated (a b : String) (ha : a ≠ "") (hb : b ≠ "") (hab : a ≠ b) (window : Int) (n : Nat) :
    ∀ m ∈ turns a b n, m.session = a → ¬ Shown (chatRun ⟨true, window, 2, []⟩ chatInit (prompt (turns a b n))) m := by
  suffices h : (chatRun ⟨true, window, 2, []⟩ chatInit (prompt (turns a b n))).pending = [] ∧
      (chatRun ⟨true, window, 2, []⟩ chatInit (prompt (turns a b n))).counter = 0 ∧
      ∀ w ∈ (chatRun ⟨true, window, 2, []⟩ chatInit (prompt (turns a b n))).received, ∀ x ∈ w, x.session = b by
    rintro m - hm ⟨w, hw, hmw⟩
    exact hab (hm.symm.trans (h.2.2 w hw m hmw))
  induction n with
  | zero => exact ⟨rfl, rfl, fun w h => by cases h⟩
  | succ n ih =>
    have e : turns a b (n + 1) = (turns a b n ++ [⟨a, "user", n⟩]) ++ [⟨b, "user", n⟩] := by
      simp [turns, List.range_succ, List.flatMap_append]
    rw [e, prompt_snoc, prompt_snoc]
    generalize chatRun ⟨true, window, 2, []⟩ chatInit (prompt (turns a b n)) = s at ih
    obtain ⟨h1, h2, h3⟩ := ih
    have e1 : runExtract ⟨true, window, 2, []⟩ (addMessage ⟨true, window, 2, []⟩ true s ⟨a, "user", n⟩ true) 0 =
        { s with log := s.log ++ [⟨a, "user", n⟩], counter := 1 } := by
      simp [addMessage, runExtract, ha, roleMatches, h1, h2]
    rw [e1]
    have e2 : addMessage ⟨true, window, 2, []⟩ true { s with log := s.log ++ [⟨a, "user", n⟩], counter := 1 } ⟨b, "user", n⟩ true =
        ⟨s.log ++ [⟨a, "user", n⟩] ++ [⟨b, "user", n⟩], 0, [b], s.received, s.fired + 1⟩ := by
      simp [addMessage, hb, roleMatches, h1]
    rw [e2]
    unfold runExtract
    simp only [List.getElem?_cons_zero, List.eraseIdx_cons_zero]
    split
    · exact ⟨rfl, rfl, h3⟩
    · refine ⟨rfl, rfl, ?_⟩
      intro w hw
      rcases List.mem_append.1 hw with hw | hw
      · exact h3 w hw
      · rw [List.mem_singleton] at hw
        subst hw
        intro x hx
        rw [List.mem_reverse] at hx
        unfold history at hx
        simp only at hx
        have : x ∈ (s.log ++ [Msg.mk a "user" n] ++ [Msg.mk b "user" n]).filter (fun m : Msg => decide (m.session = b)) := by
          split at hx
          · exact hx
          · exact List.mem_reverse.1 (List.mem_of_mem_take (List.mem_reverse.1 hx))
        simpa using (List.mem_filter.1 this).2

/-- C207: messages whose role does not count push the others out of the window: the window is taken over all roles. -/
theorem C207_roles_violated :
    ¬ Shown (chatRun ⟨true, 2, 2, ["user"]⟩ chatInit (prompt [⟨"s", "user", 1⟩, ⟨"s", "assistant", 2⟩, ⟨"s", "user", 3⟩])) ⟨"s", "user", 1⟩ := by
  rintro ⟨w, hw, hm⟩
  have : (chatRun ⟨true, 2, 2, ["user"]⟩ chatInit (prompt [⟨"s", "user", 1⟩, ⟨"s", "assistant", 2⟩, ⟨"s", "user", 3⟩])).received =
    [[⟨"s", "user", 3⟩, ⟨"s", "assistant", 2⟩]] := by decide
  rw [this, List.mem_singleton] at hw
  subst hw
  revert hm; decide

/-- Five messages with the default configuration: four have been shown. -/
example : (chatRun ⟨true, 6, 2, []⟩ chatInit (prompt ((List.range 5).map (fun i => ⟨"s", "user", i⟩)))).received.map (·.map Msg.body) =
    [[1, 0], [3, 2, 1, 0]] := by decide

example : turns "a" "b" 2 = [⟨"a", "user", 0⟩, ⟨"b", "user", 0⟩, ⟨"a", "user", 1⟩, ⟨"b", "user", 1⟩] := by decide

end Verif.Hindsight
