import Verif.Thm.RetainCover

/-!
Violations for all states: messages of other roles between two counted ones.
-/
namespace Verif.Hindsight

theorem quiet (c : ARCfg) (others : List Msg) (hr : ∀ x ∈ others, roleMatches x.role c.roles = false) (s : Chat) (hp : s.pending = []) :
    chatRun c s (prompt others) = { s with log := s.log ++ others } := by
  induction others using List.reverseRecOn with
  | nil => simp [prompt, chatRun]
  | append_singleton ms m ih =>
    rw [prompt_snoc, ih (fun x hx => hr x (List.mem_append_left _ hx))]
    have hm := hr m (List.mem_append_right _ (List.mem_singleton.2 rfl))
    unfold addMessage
    simp only [hm, Bool.true_eq_false, if_false, Bool.false_eq_true, ite_self]
    simp [runExtract, hp]

/-- C207 is violated for every window and every set of roles: a message that counts, then a window of messages of the session that do not
count, then the message that fires the extraction. The first is not shown then, although both count. -/
theorem C207_any_roles_violated (c : ARCfg) (hc : c.enabled = true) (he : c.every = 2) (hw : 0 < c.window) (sess : String) (hs : sess ≠ "")
    (a b : Msg) (ha : a.session = sess ∧ roleMatches a.role c.roles = true) (hb : b.session = sess ∧ roleMatches b.role c.roles = true)
    (hab : a ≠ b) (others : List Msg) (ho : ∀ x ∈ others, x.session = sess ∧ roleMatches x.role c.roles = false)
    (hl : c.window ≤ others.length + 1) :
    ¬ Shown (chatRun c chatInit (prompt (a :: others ++ [b]))) a ∧
      Shown (chatRun c chatInit (prompt (a :: others ++ [b]))) b := by
  have hno : a ∉ others := fun h => by have := (ho a h).2; rw [ha.2] at this; cases this
  have e1 : chatRun c chatInit (prompt [a]) = ⟨[a], 1, [], [], 0⟩ := by
    simp [prompt, chatRun, chatStep, addMessage, hc, ha.1, ha.2, hs, he, chatInit, runExtract]
  have e2 : chatRun c chatInit (prompt (a :: others)) = ⟨a :: others, 1, [], [], 0⟩ := by
    have : prompt (a :: others) = prompt [a] ++ prompt others := by simp [prompt]
    rw [this]
    unfold chatRun
    rw [List.foldl_append]
    show chatRun c (chatRun c chatInit (prompt [a])) (prompt others) = _
    rw [e1, quiet c others (fun x hx => (ho x hx).2) _ rfl]
    rfl
  have e3 : addMessage c true ⟨a :: others, 1, [], [], 0⟩ b true = ⟨a :: others ++ [b], 0, [sess], [], 1⟩ := by
    simp [addMessage, hc, hb.1, hb.2, hs, he]
  have hf : (a :: others ++ [b]).filter (fun m => decide (m.session = sess)) = a :: others ++ [b] := by
    rw [List.filter_eq_self]
    intro x hx
    simp only [List.cons_append, List.mem_cons, List.mem_append, List.not_mem_nil, or_false] at hx
    rcases hx with rfl | hx | rfl
    · simpa using ha.1
    · simpa using (ho x hx).1
    · simpa using hb.1
  obtain ⟨k, hk⟩ : ∃ k, c.window.toNat = k + 1 := ⟨c.window.toNat - 1, by omega⟩
  have hh : history (a :: others ++ [b]) sess c.window = (b :: others.reverse.take k).reverse := by
    unfold history
    simp only [hf]
    rw [if_neg (by omega), hk]
    simp only [List.cons_append, List.reverse_cons, List.reverse_append, List.reverse_nil, List.nil_append, List.take_succ_cons, List.singleton_append]
    rw [List.take_append_of_le_length (by simp; omega)]
  have e4 : (chatRun c chatInit (prompt (a :: others ++ [b]))).received = [b :: others.reverse.take k] := by
    rw [prompt_snoc, e2, e3]
    unfold runExtract
    simp only [List.getElem?_cons_zero, hh]
    simp
  constructor
  · rintro ⟨w, hw', hm⟩
    rw [e4, List.mem_singleton] at hw'
    subst hw'
    rcases List.mem_cons.1 hm with h | h
    · exact hab h
    · exact hno (List.mem_reverse.1 (List.mem_of_mem_take h))
  · exact ⟨_, by rw [e4]; exact List.mem_singleton.2 rfl, List.mem_cons_self⟩

/-- The default window of six and the roles of the documentation. -/
example : roleMatches "user" ["user"] = true ∧ roleMatches "assistant" ["user"] = false ∧
    (∀ x ∈ (List.range 5).map (fun i => (⟨"s", "assistant", i⟩ : Msg)), x.session = "s" ∧ roleMatches x.role ["user"] = false) ∧
    (6 : Int) ≤ ((List.range 5).map (fun i => (⟨"s", "assistant", i⟩ : Msg))).length + 1 := by decide

end Verif.Hindsight
