import Verif.Model.GraphHnsw
import Verif.Base.Sort
import Verif.Spec.Walk
import Verif.Thm.GraphTraverse
import Mathlib.Tactic.Linarith
import Mathlib.Tactic.Ring
import Mathlib.Tactic.Positivity

/-! C51, C105 and C106: the graph store's vector index. -/
namespace Verif.GHnsw
open Verif.Spec Verif.Base Verif.Graph

/-- The sort of the environment puts candidates in descending score. -/
def Sorts (E : Env) : Prop := ∀ l, SortedFrom (fun a b => b.score ≤ a.score) l (E.sort l)

def keys (h : Index) : List String := h.vectors.map Prod.fst

theorem vec_some_mem {h : Index} {i : String} {v : List ℚ} (hv : vec h i = some v) : i ∈ keys h := by
  unfold vec at hv
  rw [Option.map_eq_some_iff] at hv
  obtain ⟨p, hp, -⟩ := hv
  have h1 := List.find?_some hp
  simp only [decide_eq_true_eq] at h1
  exact List.mem_map.2 ⟨p, List.mem_of_find?_eq_some hp, h1⟩

theorem vec_of_mem {h : Index} {i : String} (hi : i ∈ keys h) : ∃ v, vec h i = some v := by
  cases hv : vec h i with
  | some v => exact ⟨v, rfl⟩
  | none =>
    unfold vec at hv
    rw [Option.map_eq_none_iff, List.find?_eq_none] at hv
    obtain ⟨p, hp, rfl⟩ := List.mem_map.1 hi
    exact absurd (decide_eq_true rfl) (hv p hp)

theorem mark_inj {a b : String} (h : mark a = mark b) : a = b := by
  unfold mark at h
  have := congrArg String.toList h
  rw [String.toList_append, String.toList_append] at this
  exact String.toList_inj.1 (List.append_cancel_right this)

/-- The connections of a node at a level. -/
def eff (h : Index) (level : Nat) (a : String) : List String := (h.conns level a).getD []

/-- One step along the connections of a level. -/
def Linked (h : Index) (level : Nat) (a b : String) : Prop := b ∈ eff h level a

/-- The candidates are live, distinct, scored and remembered, and connected with the entry. -/
structure Good (E : Env) (h : Index) (query : List ℚ) (level : Nat) (entry : String) (cands : List Cand) (visited : List String) :
    Prop where
  nodup : (cands.map Cand.id).Nodup
  live : ∀ c ∈ cands, ∃ v, vec h c.id = some v ∧ c.score = E.sim query v
  seen : ∀ c ∈ cands, c.id ∈ visited
  reach : ∀ c ∈ cands, Reach (Linked h level) entry c.id

theorem Good.perm {E : Env} {h : Index} {query : List ℚ} {level : Nat} {entry : String} {l l' : List Cand} {visited : List String}
    (hg : Good E h query level entry l visited) (hp : l'.Perm l) : Good E h query level entry l' visited :=
  ⟨(hp.map Cand.id).nodup_iff.2 hg.nodup, fun c hc => hg.live c (hp.mem_iff.1 hc), fun c hc => hg.seen c (hp.mem_iff.1 hc),
    fun c hc => hg.reach c (hp.mem_iff.1 hc)⟩

theorem explore_spec (E : Env) (h : Index) (query : List ℚ) (level : Nat) (entry self : String) (hr : Reach (Linked h level) entry self)
    (cs : List String) : ∀ x : List Cand × List String, (∀ c ∈ cs, Linked h level self c) → Good E h query level entry x.1 x.2 →
    Good E h query level entry (explore E h query self cs x).1 (explore E h query self cs x).2 ∧
    (∃ more, (explore E h query self cs x).1 = x.1 ++ more) ∧
    (∀ y, y ∈ (explore E h query self cs x).2 ↔ y ∈ x.2 ∨ (y ∈ (explore E h query self cs x).1.map Cand.id ∧ y ∉ x.1.map Cand.id)) ∧
    (∀ c ∈ cs, c ∈ keys h → c ≠ self → c ∈ (explore E h query self cs x).2) := by
  induction cs with
  | nil =>
    intro x _ hg
    refine ⟨hg, ⟨[], by simp [explore]⟩, ?_, by simp⟩
    intro y
    simp only [explore]
    constructor
    · exact Or.inl
    · rintro (h1 | ⟨h1, h2⟩)
      · exact h1
      · exact absurd h1 h2
  | cons c cs ih =>
    intro x hcs hg
    have hcs' : ∀ c ∈ cs, Linked h level self c := fun d hd => hcs d (List.mem_cons_of_mem _ hd)
    rw [explore]
    by_cases hc : c ∈ x.2 ∨ c = self
    · rw [if_pos hc]
      obtain ⟨h1, h2, h3, h4⟩ := ih x hcs' hg
      refine ⟨h1, h2, h3, ?_⟩
      intro d hd hk hne
      rcases List.mem_cons.1 hd with rfl | hd
      · exact (h3 d).2 (Or.inl (hc.resolve_right hne))
      · exact h4 d hd hk hne
    · rw [if_neg hc]
      push Not at hc
      cases hv : vec h c with
      | none =>
        obtain ⟨h1, h2, h3, h4⟩ := ih x hcs' hg
        refine ⟨h1, h2, h3, ?_⟩
        intro d hd hk hne
        rcases List.mem_cons.1 hd with rfl | hd
        · obtain ⟨v, hv'⟩ := vec_of_mem hk
          rw [hv] at hv'
          simp at hv'
        · exact h4 d hd hk hne
      | some v =>
        have hnew : c ∉ x.1.map Cand.id := by
          intro hm
          obtain ⟨d, hd, he⟩ := List.mem_map.1 hm
          exact hc.1 (he ▸ hg.seen d hd)
        have hg' : Good E h query level entry (x.1 ++ [⟨c, E.sim query v⟩]) (c :: x.2) := by
          refine ⟨?_, ?_, ?_, ?_⟩
          · rw [List.map_append, List.nodup_append]
            refine ⟨hg.nodup, by simp, ?_⟩
            intro a ha b hb hab
            simp only [List.map_cons, List.map_nil, List.mem_singleton] at hb
            subst hb
            exact hnew (hab ▸ ha)
          · intro d hd
            rcases List.mem_append.1 hd with hd | hd
            · exact hg.live d hd
            · simp only [List.mem_singleton] at hd
              subst hd
              exact ⟨v, hv, rfl⟩
          · intro d hd
            rcases List.mem_append.1 hd with hd | hd
            · exact List.mem_cons_of_mem _ (hg.seen d hd)
            · simp only [List.mem_singleton] at hd
              subst hd
              exact List.mem_cons_self
          · intro d hd
            rcases List.mem_append.1 hd with hd | hd
            · exact hg.reach d hd
            · simp only [List.mem_singleton] at hd
              subst hd
              exact hr.trans (Reach.single (hcs c List.mem_cons_self))
        obtain ⟨h1, ⟨more, h2⟩, h3, h4⟩ := ih (x.1 ++ [⟨c, E.sim query v⟩], c :: x.2) hcs' hg'
        refine ⟨h1, ⟨⟨c, E.sim query v⟩ :: more, by rw [h2]; simp⟩, ?_, ?_⟩
        · intro y
          rw [h3, List.mem_cons]
          have hin : c ∈ (explore E h query self cs (x.1 ++ [⟨c, E.sim query v⟩], c :: x.2)).1.map Cand.id := by
            rw [h2]; simp
          simp only [List.map_append, List.mem_append, List.map_cons, List.map_nil, List.mem_singleton, not_or]
          constructor
          · rintro ((rfl | h5) | ⟨h5, h6, h7⟩)
            · exact Or.inr ⟨hin, hnew⟩
            · exact Or.inl h5
            · exact Or.inr ⟨h5, h6⟩
          · rintro (h5 | ⟨h5, h6⟩)
            · exact Or.inl (Or.inr h5)
            · by_cases hy : y = c
              · exact Or.inl (Or.inl hy)
              · exact Or.inr ⟨h5, h6, hy⟩
        · intro d hd hk hne
          rcases List.mem_cons.1 hd with rfl | hd
          · exact (h3 d).2 (Or.inl List.mem_cons_self)
          · exact h4 d hd hk hne

/-- The nodes that could still be expanded. -/
def unmarked (h : Index) (visited : List String) : Nat := ((keys h).filter (fun i => decide (mark i ∉ visited))).length

theorem unmarked_lt (h : Index) (visited visited' : List String) (i : String) (hi : i ∈ keys h) (hm : mark i ∉ visited)
    (hm' : mark i ∈ visited') (hsub : ∀ y ∈ visited, y ∈ visited') : unmarked h visited' < unmarked h visited := by
  unfold unmarked
  have hle : ∀ l : List String, (l.filter (fun i => decide (mark i ∉ visited'))).length ≤ (l.filter (fun i => decide (mark i ∉ visited))).length := by
    intro l
    induction l with
    | nil => simp
    | cons a l ih =>
      by_cases h1 : mark a ∉ visited'
      · rw [List.filter_cons_of_pos (by simpa using h1), List.filter_cons_of_pos (by simpa using fun h2 => h1 (hsub _ h2))]
        simp only [List.length_cons]; omega
      · rw [List.filter_cons_of_neg (by simpa using h1)]
        rw [List.filter_cons]
        split_ifs
        · simp only [List.length_cons]; omega
        · exact ih
  generalize keys h = l at hi
  induction l with
  | nil => simp at hi
  | cons a l ih =>
    by_cases ha : a = i
    · subst ha
      rw [List.filter_cons_of_neg (by simpa using hm'), List.filter_cons_of_pos (by simpa using hm)]
      have := hle l
      simp only [List.length_cons]; omega
    · have h1 := ih ((List.mem_cons.1 hi).resolve_left (Ne.symm ha))
      by_cases h2 : mark a ∉ visited'
      · rw [List.filter_cons_of_pos (by simpa using h2), List.filter_cons_of_pos (by simpa using fun h3 => h2 (hsub _ h3))]
        simp only [List.length_cons]; omega
      · rw [List.filter_cons_of_neg (by simpa using h2), List.filter_cons]
        split_ifs
        · simp only [List.length_cons]; omega
        · exact h1

/-- What the beam search knows about expansion. -/
structure Expanded (h : Index) (level : Nat) (cands : List Cand) (visited : List String) : Prop where
  ids : ∀ i ∈ keys h, i ∈ visited → i ∈ cands.map Cand.id
  marks : ∀ i ∈ keys h, mark i ∈ visited → i ∈ cands.map Cand.id
  done : ∀ c ∈ cands, mark c.id ∈ visited → ∀ d ∈ eff h level c.id, d ∈ keys h → d ∈ cands.map Cand.id

/-- No stored id is another stored id followed by the mark. -/
def NoClash (h : Index) : Prop := ∀ i ∈ keys h, ∀ j ∈ keys h, i ≠ mark j

theorem beam_spec (E : Env) (hE : Sorts E) (h : Index) (query : List ℚ) (ef level : Nat) (entry : String) : ∀ (fuel : Nat)
    (cands : List Cand) (visited : List String), Good E h query level entry cands visited → unmarked h visited ≤ fuel →
    ∃ l vis, beam E h query ef level fuel cands visited = some l ∧ Good E h query level entry l vis ∧
      (∀ c ∈ cands, c.id ∈ l.map Cand.id) ∧
      (NoClash h → Expanded h level cands visited →
        (l.length ≥ ef * 2 ∨ l = [] ∨ ∀ c ∈ l, ∀ d ∈ eff h level c.id, d ∈ keys h → d ∈ l.map Cand.id)) := by
  intro fuel
  induction fuel with
  | zero =>
    intro cands visited hg hf
    rw [beam]
    by_cases hc : cands.length ≥ ef * 2 ∨ cands = []
    · rw [if_pos hc]
      exact ⟨cands, visited, rfl, hg, fun c hc => List.mem_map_of_mem hc, fun _ _ => hc.elim Or.inl (fun h => Or.inr (Or.inl h))⟩
    · rw [if_neg hc]
      have hgs := hg.perm (hE cands).1
      cases hfind : (E.sort cands).find? (fun c => decide (mark c.id ∉ visited)) with
      | none =>
        refine ⟨_, visited, rfl, hgs, fun c hc => List.mem_map_of_mem ((hE cands).1.mem_iff.2 hc), ?_⟩
        intro _ hx
        refine Or.inr (Or.inr ?_)
        intro c hc' d hd hk
        rw [List.find?_eq_none] at hfind
        have h1 := hfind c hc'
        simp only [decide_eq_true_eq, not_not] at h1
        have h2 := hx.done c ((hE cands).1.mem_iff.1 hc') h1 d hd hk
        exact ((hE cands).1.map Cand.id).mem_iff.2 h2
      | some c =>
        exfalso
        have h1 := List.find?_some hfind
        simp only [decide_eq_true_eq] at h1
        obtain ⟨v, hv, -⟩ := hgs.live c (List.mem_of_find?_eq_some hfind)
        have := unmarked_lt h visited (mark c.id :: visited) c.id (vec_some_mem hv) h1 List.mem_cons_self
          (fun y hy => List.mem_cons_of_mem _ hy)
        omega
  | succ n ih =>
    intro cands visited hg hf
    rw [beam]
    by_cases hc : cands.length ≥ ef * 2 ∨ cands = []
    · rw [if_pos hc]
      exact ⟨cands, visited, rfl, hg, fun c hc => List.mem_map_of_mem hc, fun _ _ => hc.elim Or.inl (fun h => Or.inr (Or.inl h))⟩
    · rw [if_neg hc]
      have hgs := hg.perm (hE cands).1
      cases hfind : (E.sort cands).find? (fun c => decide (mark c.id ∉ visited)) with
      | none =>
        refine ⟨_, visited, rfl, hgs, fun c hc => List.mem_map_of_mem ((hE cands).1.mem_iff.2 hc), ?_⟩
        intro _ hx
        refine Or.inr (Or.inr ?_)
        intro c hc' d hd hk
        rw [List.find?_eq_none] at hfind
        have h1 := hfind c hc'
        simp only [decide_eq_true_eq, not_not] at h1
        have h2 := hx.done c ((hE cands).1.mem_iff.1 hc') h1 d hd hk
        exact ((hE cands).1.map Cand.id).mem_iff.2 h2
      | some c =>
        simp only
        have h1 := List.find?_some hfind
        simp only [decide_eq_true_eq] at h1
        have hcm := List.mem_of_find?_eq_some hfind
        obtain ⟨v, hv, -⟩ := hgs.live c hcm
        have hck := vec_some_mem hv
        have hg1 : Good E h query level entry (E.sort cands) (mark c.id :: visited) :=
          ⟨hgs.nodup, hgs.live, fun d hd => List.mem_cons_of_mem _ (hgs.seen d hd), hgs.reach⟩
        obtain ⟨e1, ⟨more, e2⟩, e3, e4⟩ := explore_spec E h query level entry c.id (hgs.reach c hcm)
          ((h.conns level c.id).getD []) (E.sort cands, mark c.id :: visited) (fun d hd => hd) hg1
        generalize explore E h query c.id ((h.conns level c.id).getD []) (E.sort cands, mark c.id :: visited) = x at e1 e2 e3 e4 ⊢
        have hlt := unmarked_lt h visited x.2 c.id hck h1 ((e3 _).2 (Or.inl List.mem_cons_self))
          (fun y hy => (e3 _).2 (Or.inl (List.mem_cons_of_mem _ hy)))
        obtain ⟨l, vis, f1, f2, f3, f4⟩ := ih x.1 x.2 e1 (by omega)
        have hin : ∀ y, y ∈ cands.map Cand.id → y ∈ x.1.map Cand.id := by
          intro y hy
          rw [e2, List.map_append]
          exact List.mem_append_left _ (((hE cands).1.map Cand.id).mem_iff.2 hy)
        refine ⟨l, vis, f1, f2, ?_, ?_⟩
        · intro d hd
          obtain ⟨d', hd', he⟩ := List.mem_map.1 (hin d.id (List.mem_map_of_mem hd))
          rw [← he]
          exact f3 d' hd'
        · intro hn hx
          apply f4 hn
          have hids : ∀ i ∈ keys h, i ∈ x.2 → i ∈ x.1.map Cand.id := by
            intro i hi hv
            rcases (e3 i).1 hv with h2 | ⟨h2, -⟩
            · rcases List.mem_cons.1 h2 with h3 | h3
              · exact absurd h3 (hn i hi c.id hck)
              · exact hin _ (hx.ids i hi h3)
            · exact h2
          refine ⟨hids, ?_, ?_⟩
          · intro i hi hm
            rcases (e3 _).1 hm with h2 | ⟨h2, -⟩
            · rcases List.mem_cons.1 h2 with h3 | h3
              · rw [mark_inj h3, e2, List.map_append]
                exact List.mem_append_left _ (List.mem_map_of_mem hcm)
              · exact hin _ (hx.marks i hi h3)
            · exfalso
              obtain ⟨d', hd', he⟩ := List.mem_map.1 h2
              obtain ⟨v', hv', -⟩ := e1.live d' hd'
              exact hn d'.id (vec_some_mem hv') i hi he
          intro d hd hm f hf hk
          rcases (e3 _).1 hm with h2 | ⟨h2, -⟩
          · rcases List.mem_cons.1 h2 with h3 | h3
            · have hdc : d.id = c.id := mark_inj h3
              rw [hdc] at hf
              by_cases hfc : f = c.id
              · rw [hfc, ← hdc]; exact List.mem_map_of_mem hd
              · exact hids f hk (e4 f hf hk hfc)
            · rw [e2, List.mem_append] at hd
              rcases hd with hd | hd
              · exact hin _ (hx.done d ((hE cands).1.mem_iff.1 hd) h3 f hf hk)
              · exfalso
                obtain ⟨v'', hv'', -⟩ := e1.live d (by rw [e2]; exact List.mem_append_right _ hd)
                have h4 := hx.marks d.id (vec_some_mem hv'') h3
                have h5 := ((hE cands).1.map Cand.id).mem_iff.2 h4
                have h6 := e1.nodup
                rw [e2, List.map_append, List.nodup_append] at h6
                exact h6.2.2 _ h5 _ (List.mem_map_of_mem hd) rfl
          · exfalso
            obtain ⟨d', hd', he⟩ := List.mem_map.1 h2
            obtain ⟨v', hv', -⟩ := e1.live d' hd'
            obtain ⟨v'', hv'', -⟩ := e1.live d hd
            exact hn d'.id (vec_some_mem hv') d.id (vec_some_mem hv'') he

theorem unmarked_start (h : Index) (visited : List String) : unmarked h visited ≤ h.vectors.length := by
  unfold unmarked
  refine (List.length_filter_le _ _).trans ?_
  simp [keys]

/-- What a level search returns: live, distinct, correctly scored, in order, at most `ef`, linked with the entry. -/
theorem searchLevel_sound (E : Env) (hE : Sorts E) (h : Index) (query : List ℚ) (entry : String) (ef level : Nat) :
    ∃ l, searchLevel E h query entry ef level = some l ∧ (l.map Cand.id).Nodup ∧
      (∀ c ∈ l, ∃ v, vec h c.id = some v ∧ c.score = E.sim query v) ∧
      (∀ c ∈ l, Reach (Linked h level) entry c.id) ∧
      l.Pairwise (fun a b => b.score ≤ a.score) ∧ l.length ≤ ef ∧
      (entry ≠ "" → entry ∈ keys h → 0 < ef → l ≠ []) := by
  unfold searchLevel
  by_cases h0 : entry = ""
  · rw [if_pos h0]
    exact ⟨[], rfl, by simp, by simp, by simp, List.Pairwise.nil, by simp, fun h => absurd h0 h⟩
  · rw [if_neg h0]
    cases hv : vec h entry with
    | none =>
      refine ⟨[], rfl, by simp, by simp, by simp, List.Pairwise.nil, by simp, ?_⟩
      intro _ hk _
      obtain ⟨v, hv'⟩ := vec_of_mem hk
      rw [hv] at hv'
      simp at hv'
    | some v =>
      have hg : Good E h query level entry [⟨entry, E.sim query v⟩] [entry] := by
        refine ⟨by simp, ?_, ?_, ?_⟩ <;> intro c hc <;> simp only [List.mem_singleton] at hc <;> subst hc
        · exact ⟨v, hv, rfl⟩
        · exact List.mem_singleton_self _
        · exact Reach.refl _
      obtain ⟨l, vis, f1, f2, f3, -⟩ := beam_spec E hE h query ef level entry (h.vectors.length + 1) _ _ hg (by
        have := unmarked_start h [entry]; omega)
      have hs := f2.perm (hE l).1
      refine ⟨(E.sort l).take ef, by simp only [f1, Option.map_some], ?_, ?_, ?_, ?_, ?_, ?_⟩
      · rw [List.map_take]; exact hs.nodup.sublist (List.take_sublist _ _)
      · exact fun c hc => hs.live c (List.mem_of_mem_take hc)
      · exact fun c hc => hs.reach c (List.mem_of_mem_take hc)
      · exact (hE l).2.sublist (List.take_sublist _ _)
      · rw [List.length_take]; exact Nat.min_le_left _ _
      · intro _ _ hef hn
        rw [List.take_eq_nil_iff] at hn
        rcases hn with hn | hn
        · omega
        · have h1 := (hE l).1
          rw [hn] at h1
          have h2 := h1.symm.eq_nil
          have h3 := f3 _ (List.mem_singleton_self _)
          rw [h2] at h3
          simp at h3

/-- When all nodes fit, a level search finds everything linked with the entry. -/
theorem searchLevel_complete (E : Env) (hE : Sorts E) (h : Index) (query : List ℚ) (entry : String) (ef level : Nat)
    (h0 : entry ≠ "") (hk : entry ∈ keys h) (hn : NoClash h) (hef : h.vectors.length ≤ ef)
    (hclosed : ∀ a b, b ∈ eff h level a → b ∈ keys h) (i : String) (hr : Reach (Linked h level) entry i) (l : List Cand)
    (hl : searchLevel E h query entry ef level = some l) : i ∈ l.map Cand.id := by
  unfold searchLevel at hl
  rw [if_neg h0] at hl
  obtain ⟨v, hv⟩ := vec_of_mem hk
  simp only [hv] at hl
  have hg : Good E h query level entry [⟨entry, E.sim query v⟩] [entry] := by
    refine ⟨by simp, ?_, ?_, ?_⟩ <;> intro c hc <;> simp only [List.mem_singleton] at hc <;> subst hc
    · exact ⟨v, hv, rfl⟩
    · exact List.mem_singleton_self _
    · exact Reach.refl _
  have hx : Expanded h level [⟨entry, E.sim query v⟩] [entry] := by
    refine ⟨?_, ?_, ?_⟩
    · intro i _ hi; simpa using hi
    · intro i hi hm
      simp only [List.mem_singleton] at hm
      exact absurd hm.symm (hn entry hk i hi)
    · intro c hc hm
      simp only [List.mem_singleton] at hc hm
      subst hc
      exact absurd hm.symm (hn entry hk entry hk)
  obtain ⟨r, vis, f1, f2, f3, f4⟩ := beam_spec E hE h query ef level entry (h.vectors.length + 1) _ _ hg (by
    have := unmarked_start h [entry]; omega)
  rw [f1, Option.map_some, Option.some.injEq] at hl
  have hlen : r.length ≤ h.vectors.length := by
    have hsub : (r.map Cand.id) ⊆ keys h := by
      intro y hy
      obtain ⟨c, hc, rfl⟩ := List.mem_map.1 hy
      obtain ⟨v', hv', -⟩ := f2.live c hc
      exact vec_some_mem hv'
    have := (List.subperm_of_subset f2.nodup hsub).length_le
    simpa [keys] using this
  have htake : (E.sort r).take ef = E.sort r := by
    rw [List.take_eq_self_iff, (hE r).1.length_eq]; omega
  rw [htake] at hl
  subst hl
  rw [((hE r).1.map Cand.id).mem_iff]
  have hentry := f3 _ (List.mem_singleton_self _)
  have hpos : 0 < h.vectors.length := by
    have : 0 < (keys h).length := List.length_pos_of_mem hk
    simpa [keys] using this
  have hcl : ∀ c ∈ r, ∀ d ∈ eff h level c.id, d ∈ keys h → d ∈ r.map Cand.id := by
    rcases f4 hn hx with h1 | h1 | h1
    · omega
    · rw [h1] at hentry; simp at hentry
    · exact h1
  refine reach_closed (fun y => y ∈ r.map Cand.id) hentry ?_ hr
  intro a b ha hab
  obtain ⟨c, hc, rfl⟩ := List.mem_map.1 ha
  exact hcl c hc b hab (hclosed _ _ hab)

/-! ### C51 -/

theorem connectAll_same (id : String) (level : Nat) (cs : List Cand) : ∀ (n : Nat) (h : Index),
    (connectAll id level n cs h).vectors = h.vectors ∧ (connectAll id level n cs h).entry = h.entry ∧
    (connectAll id level n cs h).maxConns = h.maxConns := by
  have ha : ∀ (h : Index) (a b : String), (addConnection h level a b).vectors = h.vectors ∧
      (addConnection h level a b).entry = h.entry ∧ (addConnection h level a b).maxConns = h.maxConns := by
    intro h a b
    have hh : ∀ (h h' : Index) (a b : String), addHalf h level a b = some h' →
        h'.vectors = h.vectors ∧ h'.entry = h.entry ∧ h'.maxConns = h.maxConns := by
      intro h h' a b he
      unfold addHalf at he
      simp only at he
      split_ifs at he
      · obtain rfl := Option.some.inj he; exact ⟨rfl, rfl, rfl⟩
      · obtain rfl := Option.some.inj he; exact ⟨rfl, rfl, rfl⟩
    unfold addConnection
    cases h1 : addHalf h level a b with
    | none => exact ⟨rfl, rfl, rfl⟩
    | some g =>
      have e1 := hh _ _ _ _ h1
      simp only
      cases h2 : addHalf g level b a with
      | none => exact e1
      | some g' =>
        have e2 := hh _ _ _ _ h2
        exact ⟨e2.1.trans e1.1, e2.2.1.trans e1.2.1, e2.2.2.trans e1.2.2⟩
  induction cs with
  | nil => intro n h; exact ⟨rfl, rfl, rfl⟩
  | cons c cs ih =>
    intro n h
    rw [connectAll]
    split_ifs
    · have h1 := ih (n - 1) (addConnection h level id c.id)
      have h2 := ha h id c.id
      exact ⟨h1.1.trans h2.1, h1.2.1.trans h2.2.1, h1.2.2.trans h2.2.2⟩
    · exact ih n h

theorem connectLevels_same (E : Env) (hE : Sorts E) (id : String) (v : List ℚ) (l : Nat) : ∀ h : Index,
    ∃ h', connectLevels E id v l h = some h' ∧ h'.vectors = h.vectors ∧ h'.entry = h.entry ∧ h'.maxConns = h.maxConns := by
  induction l with
  | zero =>
    intro h
    obtain ⟨cs, hc, -⟩ := searchLevel_sound E hE h v h.entry 1 0
    rw [connectLevels, hc]
    exact ⟨_, rfl, connectAll_same _ _ _ _ _⟩
  | succ l ih =>
    intro h
    obtain ⟨cs, hc, -⟩ := searchLevel_sound E hE h v h.entry 1 (l + 1)
    rw [connectLevels, hc]
    have h1 := connectAll_same id (l + 1) cs (if l + 1 = 0 then h.maxConns * 2 else h.maxConns) h
    obtain ⟨h', e1, e2, e3, e4⟩ := ih (connectAll id (l + 1) (if l + 1 = 0 then h.maxConns * 2 else h.maxConns) cs h)
    exact ⟨h', e1, e2.trans h1.1, e3.trans h1.2.1, e4.trans h1.2.2⟩

theorem descend_total (E : Env) (hE : Sorts E) (h : Index) (query : List ℚ) (l : Nat) : ∀ cur, ∃ e, descend E h query l cur = some e := by
  induction l with
  | zero => exact fun cur => ⟨cur, rfl⟩
  | succ l ih =>
    intro cur
    obtain ⟨cs, hc, -⟩ := searchLevel_sound E hE h query h.entry 1 (l + 1)
    rw [descend, hc]
    cases cs with
    | nil => exact ih cur
    | cons c cs => exact ih c.id

theorem search_sound (E : Env) (hE : Sorts E) (h : Index) (query : List ℚ) (k : Nat) :
    ∃ l, search E h query k = some l ∧ (l.map Cand.id).Nodup ∧
      (∀ c ∈ l, ∃ v, vec h c.id = some v ∧ c.score = E.sim query v) ∧
      l.Pairwise (fun a b => b.score ≤ a.score) ∧ l.length ≤ k := by
  unfold search
  by_cases h0 : h.entry = ""
  · rw [if_pos h0]
    exact ⟨[], rfl, by simp, by simp, List.Pairwise.nil, by simp⟩
  · rw [if_neg h0]
    obtain ⟨e, he⟩ := descend_total E hE h query (nodeLevel h h.entry) h.entry
    rw [he]
    obtain ⟨l, h1, h2, h3, h4, h5, h6, h7⟩ := searchLevel_sound E hE h query e (if k * 2 < 50 then 50 else k * 2) 0
    refine ⟨l.take k, by simp only [h1, Option.map_some], ?_, ?_, ?_, ?_⟩
    · rw [List.map_take]; exact h2.sublist (List.take_sublist _ _)
    · exact fun c hc => h3 c (List.mem_of_mem_take hc)
    · exact h5.sublist (List.take_sublist _ _)
    · rw [List.length_take]; exact Nat.min_le_left _ _

/-- The vectors a history of adds and removes leaves, as a map from ids. -/
def latest : List Op → (String → Option (List ℚ)) → String → Option (List ℚ)
  | [], m => m
  | .add id v _ :: os, m => latest os (fun i => if i = id then some v else m i)
  | .remove _ id :: os, m => latest os (fun i => if i = id then none else m i)

theorem unlink_vectors (h : Index) (level : Nat) (id : String) :
    (unlink h level id).vectors = h.vectors ∧ (unlink h level id).entry = h.entry := by
  have hd : ∀ (g : Index) (a : String), (dropConn g level a id).vectors = g.vectors ∧ (dropConn g level a id).entry = g.entry := by
    intro g a
    unfold dropConn
    cases g.conns level a with
    | none => exact ⟨rfl, rfl⟩
    | some l => simp only; split_ifs <;> exact ⟨rfl, rfl⟩
  unfold unlink
  cases h.conns level id with
  | none => exact ⟨rfl, rfl⟩
  | some l =>
    have : ∀ (l : List String) (g : Index), (l.foldl (fun g c => dropConn g level c id) g).vectors = g.vectors ∧
        (l.foldl (fun g c => dropConn g level c id) g).entry = g.entry := by
      intro l
      induction l with
      | nil => exact fun g => ⟨rfl, rfl⟩
      | cons a l ih =>
        intro g
        have h1 := ih (dropConn g level a id)
        have h2 := hd g a
        exact ⟨h1.1.trans h2.1, h1.2.trans h2.2⟩
    exact this l h

theorem remove_vectors (order : List String → List String) (h : Index) (id : String) :
    (remove order h id).vectors = h.vectors.filter (fun p => decide (p.1 ≠ id)) := by
  have h1 : ∀ (ls : List Nat) (g : Index), (ls.foldl (fun g l => unlink g l id) g).vectors = g.vectors := by
    intro ls
    induction ls with
    | nil => exact fun g => rfl
    | cons l ls ih => intro g; exact (ih _).trans (unlink_vectors g l id).1
  have h2 : ∀ (is : List String) (g : Index), (is.foldl (fun g i =>
      if g.entry = "" ∨ nodeLevel g i > nodeLevel g g.entry then { g with entry := i } else g) g).vectors = g.vectors := by
    intro is
    induction is with
    | nil => exact fun g => rfl
    | cons i is ih =>
      intro g
      rw [List.foldl_cons, ih]
      split_ifs <;> rfl
  unfold remove
  simp only
  split_ifs
  · rw [h2]; simp only; rw [h1]
  · rw [h1]

theorem vec_filter (l : List (String × List ℚ)) (id i : String) :
    ((l.filter (fun p => decide (p.1 ≠ id))).find? (fun p => decide (p.1 = i))).map Prod.snd =
      if i = id then none else (l.find? (fun p => decide (p.1 = i))).map Prod.snd := by
  induction l with
  | nil => simp
  | cons p l ih =>
    by_cases h1 : p.1 = id
    · rw [List.filter_cons_of_neg (by simpa using h1), ih]
      split_ifs with h2
      · rfl
      · rw [List.find?_cons_of_neg (by simp only [decide_eq_true_eq]; intro h3; exact h2 (h3.symm.trans h1))]
    · rw [List.filter_cons_of_pos (by simpa using h1)]
      by_cases h3 : p.1 = i
      · rw [List.find?_cons_of_pos (by simpa using h3), List.find?_cons_of_pos (by simpa using h3),
          if_neg (fun h => h1 (h3.trans h))]
      · rw [List.find?_cons_of_neg (by simpa using h3), List.find?_cons_of_neg (by simpa using h3), ih]

theorem register_vec (h : Index) (id : String) (v : List ℚ) (level : Nat) (i : String) :
    vec (register h id v level) i = if i = id then some v else vec h i := by
  unfold vec register
  simp only [List.find?_append]
  have := vec_filter h.vectors id i
  by_cases hi : i = id
  · rw [if_pos hi] at this ⊢
    rw [Option.map_eq_none_iff] at this
    rw [this]
    simp [hi]
  · rw [if_neg hi] at this ⊢
    rw [← this]
    have h2 : List.find? (fun p : String × List ℚ => decide (p.1 = i)) [(id, v)] = none := by
      simp [Ne.symm hi]
    rw [h2]
    simp

theorem run_latest (E : Env) (hE : Sorts E) (ops : List Op) : ∀ h : Index, ∃ h', run E h ops = some h' ∧
    ∀ i, vec h' i = latest ops (vec h) i := by
  induction ops with
  | nil => exact fun h => ⟨h, rfl, fun _ => rfl⟩
  | cons o ops ih =>
    intro h
    cases o with
    | add id v level =>
      obtain ⟨h1, e1, e2, -⟩ := connectLevels_same E hE id v level (moveEntry (register h id v level) id level)
      have hv : ∀ i, vec h1 i = if i = id then some v else vec h i := by
        intro i
        rw [← register_vec h id v level i]
        unfold vec
        rw [e2]
        unfold moveEntry
        split_ifs <;> rfl
      obtain ⟨h', f1, f2⟩ := ih h1
      refine ⟨h', ?_, ?_⟩
      · rw [run, step, add, e1]; exact f1
      · intro i
        rw [f2, latest]
        congr 1
        funext j
        exact hv j
    | remove order id =>
      obtain ⟨h', f1, f2⟩ := ih (remove order h id)
      refine ⟨h', ?_, ?_⟩
      · rw [run, step]; exact f1
      · intro i
        rw [f2, latest]
        congr 1
        funext j
        unfold vec
        rw [remove_vectors]
        exact vec_filter h.vectors id j

/-- C51 (soundness): after every history of adds and removes, with any level choices, a search returns only ids that are in
the index, each once, with the similarity to the vector stored last, best first, and at most as many as asked for. -/
theorem C51_search_sound (E : Env) (hE : Sorts E) (ops : List Op) (query : List ℚ) (k : Nat) :
    ∃ h l, run E (new 16) ops = some h ∧ search E h query k = some l ∧ (l.map Cand.id).Nodup ∧
      (∀ c ∈ l, ∃ v, latest ops (fun _ => none) c.id = some v ∧ c.score = E.sim query v) ∧
      l.Pairwise (fun a b => b.score ≤ a.score) ∧ l.length ≤ k := by
  obtain ⟨h, h1, h2⟩ := run_latest E hE ops (new 16)
  obtain ⟨l, h3, h4, h5, h6, h7⟩ := search_sound E hE h query k
  refine ⟨h, l, h1, h3, h4, ?_, h6, h7⟩
  intro c hc
  obtain ⟨v, hv, hs⟩ := h5 c hc
  exact ⟨v, by rw [← hv, h2]; rfl, hs⟩

/-- A node without connections is all that a search from it finds. -/
theorem searchLevel_isolated (E : Env) (hE : Sorts E) (h : Index) (query : List ℚ) (id : String) (v : List ℚ) (ef level : Nat)
    (h0 : id ≠ "") (hv : vec h id = some v) (hc : eff h level id = []) (hef : 0 < ef) :
    searchLevel E h query id ef level = some [⟨id, E.sim query v⟩] := by
  obtain ⟨l, h1, h2, h3, h4, -, -, h5⟩ := searchLevel_sound E hE h query id ef level
  rw [h1]
  have hid : ∀ c ∈ l, c.id = id := by
    intro c hcm
    refine reach_closed (fun y => y = id) rfl ?_ (h4 c hcm)
    intro a b ha hab
    subst ha
    unfold Linked at hab
    rw [hc] at hab
    simp at hab
  have hne := h5 h0 (vec_some_mem hv) hef
  cases l with
  | nil => exact absurd rfl hne
  | cons c l =>
    have hl : l = [] := by
      rw [List.eq_nil_iff_forall_not_mem]
      intro d hd
      rw [List.map_cons, List.nodup_cons] at h2
      apply h2.1
      rw [hid c List.mem_cons_self, ← hid d (List.mem_cons_of_mem _ hd)]
      exact List.mem_map_of_mem hd
    subst hl
    obtain ⟨v', hv', hs⟩ := h3 c List.mem_cons_self
    have hci := hid c List.mem_cons_self
    rw [hci, hv] at hv'
    obtain rfl := Option.some.inj hv'
    cases c
    simp only at hci hs
    rw [hci, hs]

theorem nodeLevel_congr {h h' : Index} (i : String) (hc : ∀ l, eff h' l i = eff h l i) : nodeLevel h' i = nodeLevel h i := by
  unfold nodeLevel
  generalize maxLevels - 1 = n
  induction n with
  | zero => rfl
  | succ n ih =>
    have := hc (n + 1)
    unfold eff at this
    rw [levelFrom, levelFrom, this, ih]

theorem nodeLevel_zero {h : Index} (i : String) (hc : ∀ l, 0 < l → eff h l i = []) : nodeLevel h i = 0 := by
  unfold nodeLevel
  generalize maxLevels - 1 = n
  induction n with
  | zero => rfl
  | succ n ih =>
    have := hc (n + 1) (by omega)
    unfold eff at this
    rw [levelFrom, this, ih]
    simp

theorem register_eff (h : Index) (id : String) (v : List ℚ) (level l : Nat) (i : String) :
    eff (register h id v level) l i = eff h l i := by
  unfold eff register
  simp only
  split_ifs <;> simp

/-- C51: whenever a new id is added at a level above the entry's, it becomes the entry before it is connected, ends up with no
connections, and from then on is the only node that any search finds, however many nodes the index holds. -/
theorem C51_higher_level_isolates_violated (E : Env) (hE : Sorts E) (h : Index) (id : String) (v : List ℚ) (level : Nat)
    (h0 : id ≠ "") (hf : ∀ l, eff h l id = []) (hl : nodeLevel h h.entry < level) :
    ∃ h', add E h id v level = some h' ∧ (∀ i ∈ keys h, i ∈ keys h') ∧
      ∀ query k, 0 < k → search E h' query k = some [⟨id, E.sim query v⟩] := by
  have hm : moveEntry (register h id v level) id level = { register h id v level with entry := id } := by
    unfold moveEntry
    rw [if_pos]
    right
    have : nodeLevel (register h id v level) (register h id v level).entry = nodeLevel h h.entry :=
      nodeLevel_congr h.entry (fun l => register_eff h id v level l _)
    rw [this]
    exact hl
  generalize hg : ({ register h id v level with entry := id } : Index) = g at hm
  have hge : ∀ l, eff g l id = [] := by
    intro l
    rw [← hg]
    exact (register_eff h id v level l id).trans (hf l)
  have hgv : vec g id = some v := by
    rw [← hg]
    exact (register_vec h id v level id).trans (if_pos rfl)
  have hgent : g.entry = id := by rw [← hg]
  have hconn : ∀ l, connectLevels E id v l g = some g := by
    intro l
    have hnone : ∀ (n lv : Nat) (x : ℚ), connectAll id lv n [⟨id, x⟩] g = g := by
      intro n lv x
      rw [connectAll, if_neg (by simp), connectAll]
    induction l with
    | zero => rw [connectLevels, hgent, searchLevel_isolated E hE g v id v 1 0 h0 hgv (hge 0) (by omega)]; simp only [hnone]
    | succ l ih =>
      rw [connectLevels, hgent, searchLevel_isolated E hE g v id v 1 (l + 1) h0 hgv (hge _) (by omega)]
      simp only [hnone]
      exact ih
  refine ⟨g, by rw [add, hm, hconn], ?_, ?_⟩
  · intro i hi
    obtain ⟨w, hw⟩ := vec_of_mem hi
    have : ∃ u, vec g i = some u := by
      rw [← hg]
      change ∃ u, vec (register h id v level) i = some u
      rw [register_vec]
      split_ifs
      · exact ⟨v, rfl⟩
      · exact ⟨w, hw⟩
    obtain ⟨u, hu⟩ := this
    exact vec_some_mem hu
  · intro query k hk
    unfold search
    rw [hgent, if_neg h0, nodeLevel_zero id (fun l _ => hge l), descend]
    have hef : 0 < (if k * 2 < 50 then 50 else k * 2) := by split_ifs <;> omega
    simp only [searchLevel_isolated E hE g query id v _ 0 h0 hgv (hge 0) hef, Option.map_some]
    cases k with
    | zero => omega
    | succ k => simp

def testEnv : Env := ⟨fun a b => if a = b then 1 else 0, insertSort Cand.score⟩

theorem testEnv_sorts : Sorts testEnv := insertSort_sorts Cand.score

/-- The same on two nodes: the first node is lost although the query equals its vector. -/
theorem C51_finds_every_node_violated :
    ((run testEnv (new 16) [.add "a" [1] 0, .add "b" [2] 1]).bind (fun h => search testEnv h [1] 2)) = some [⟨"b", 0⟩] := by
  decide +kernel

/-! Small indexes whose later nodes are all drawn at level 0. -/

/-- The invariant of such indexes. -/
structure Small (h : Index) : Prop where
  cap : h.maxConns = 16
  nodup : (keys h).Nodup
  upper : ∀ l i, 0 < l → eff h l i = []
  sub : ∀ a b, b ∈ eff h 0 a → a ∈ keys h ∧ b ∈ keys h ∧ b ≠ a
  enodup : ∀ a, (eff h 0 a).Nodup
  symm : ∀ a b, b ∈ eff h 0 a → a ∈ eff h 0 b
  entry : h.entry ∈ keys h
  name : h.entry ≠ ""
  conn : ∀ i ∈ keys h, Reach (Linked h 0) h.entry i

theorem setConns_eff (h : Index) (l : Nat) (a : String) (x : List String) (k : Nat) (i : String) :
    eff (setConns h l a x) k i = if k = l ∧ i = a then x else eff h k i := by
  unfold eff setConns
  simp only
  split_ifs <;> simp

/-- Connecting two nodes that have room. -/
theorem addConnection_eff (h : Index) (a b : String) (hab : a ≠ b) (hs : b ∈ eff h 0 a ↔ a ∈ eff h 0 b)
    (hroom : b ∉ eff h 0 a → (eff h 0 a).length < h.maxConns ∧ (eff h 0 b).length < h.maxConns)
    (hroom' : b ∈ eff h 0 a → (eff h 0 a).length ≤ h.maxConns ∧ (eff h 0 b).length ≤ h.maxConns) (k : Nat) (i : String) :
    eff (addConnection h 0 a b) k i = if k = 0 ∧ b ∉ eff h 0 a then
      (if i = a then eff h 0 a ++ [b] else if i = b then eff h 0 b ++ [a] else eff h k i) else eff h k i := by
  by_cases hm : b ∈ eff h 0 a
  · rw [if_neg (by simp [hm])]
    unfold addConnection addHalf
    have e0 : (h.conns 0 a).getD [] = eff h 0 a := rfl
    simp only [e0]
    by_cases hl : (eff h 0 a).length < h.maxConns
    · rw [if_pos hl, if_pos hm]
    · rw [if_neg hl]
      simp only
      have e1 : ((setConns h 0 a (eff h 0 a)).conns 0 b).getD [] = eff h 0 b := by
        have := setConns_eff h 0 a (eff h 0 a) 0 b
        unfold eff at this ⊢
        rw [this, if_neg (by simp [Ne.symm hab])]
      have e2 : (setConns h 0 a (eff h 0 a)).maxConns = h.maxConns := rfl
      simp only [e1, e2]
      by_cases hl2 : (eff h 0 b).length < h.maxConns
      · rw [if_pos hl2, if_pos (hs.1 hm)]
        simp only
        rw [setConns_eff]
        split_ifs with h1
        · rw [h1.1, h1.2]
        · rfl
      · rw [if_neg hl2]
        simp only
        rw [setConns_eff, setConns_eff]
        split_ifs with h1 h2
        · rw [h1.1, h1.2]
        · rw [h2.1, h2.2]
        · rfl
  · obtain ⟨r1, r2⟩ := hroom hm
    unfold addConnection addHalf
    have e0 : (h.conns 0 a).getD [] = eff h 0 a := rfl
    simp only [e0]
    rw [if_pos r1, if_neg hm]
    simp only
    have e1 : ((setConns h 0 a (eff h 0 a ++ [b])).conns 0 b).getD [] = eff h 0 b := by
      have := setConns_eff h 0 a (eff h 0 a ++ [b]) 0 b
      unfold eff at this ⊢
      rw [this, if_neg (by simp [Ne.symm hab])]
    have e2 : (setConns h 0 a (eff h 0 a ++ [b])).maxConns = h.maxConns := rfl
    simp only [e1, e2]
    rw [if_pos r2, if_neg (fun hc => hm (hs.2 hc))]
    simp only
    rw [setConns_eff, setConns_eff]
    by_cases hk : k = 0
    · subst hk
      simp only [true_and, hm, not_false_eq_true, and_true, if_true]
      by_cases hi : i = b
      · rw [if_pos hi, if_neg (by rw [hi]; exact Ne.symm hab), if_pos hi]
      · rw [if_neg hi]
        split_ifs <;> rfl
    · rw [if_neg (by simp [hk]), if_neg (by simp [hk]), if_neg (by simp [hk])]

/-- A list of distinct members of another list that leaves out two of them is shorter by two. -/
theorem short_two {l m : List String} (hl : l.Nodup) (hm : m.Nodup) (hsub : ∀ x ∈ l, x ∈ m) {a b : String} (ha : a ∈ m) (hb : b ∈ m)
    (hab : a ≠ b) (hal : a ∉ l) (hbl : b ∉ l) : l.length + 2 ≤ m.length := by
  have h1 : (a :: b :: l).Nodup := by
    simp only [List.nodup_cons, List.mem_cons, not_or]
    exact ⟨⟨hab, hal⟩, hbl, hl⟩
  have h2 : (a :: b :: l) ⊆ m := by
    intro x hx
    rcases List.mem_cons.1 hx with rfl | hx
    · exact ha
    · rcases List.mem_cons.1 hx with rfl | hx
      · exact hb
      · exact hsub x hx
  have := (List.subperm_of_subset h1 h2).length_le
  simpa using this

theorem short_one {l m : List String} (hl : l.Nodup) (hsub : ∀ x ∈ l, x ∈ m) {a : String} (ha : a ∈ m) (hal : a ∉ l) :
    l.length + 1 ≤ m.length := by
  have h1 : (a :: l).Nodup := List.nodup_cons.2 ⟨hal, hl⟩
  have h2 : (a :: l) ⊆ m := by
    intro x hx
    rcases List.mem_cons.1 hx with rfl | hx
    · exact ha
    · exact hsub x hx
  have := (List.subperm_of_subset h1 h2).length_le
  simpa using this

theorem register_keys (h : Index) (id : String) (v : List ℚ) (level : Nat) (i : String) :
    i ∈ keys (register h id v level) ↔ i = id ∨ i ∈ keys h := by
  unfold keys register
  simp only [List.map_append, List.mem_append, List.mem_map, List.mem_filter, decide_eq_true_eq, List.map_cons, List.map_nil,
    List.mem_singleton]
  constructor
  · rintro (⟨p, ⟨hp, -⟩, rfl⟩ | h1)
    · exact Or.inr ⟨p, hp, rfl⟩
    · exact Or.inl h1
  · rintro (h1 | ⟨p, hp, rfl⟩)
    · exact Or.inr h1
    · by_cases he : p.1 = id
      · exact Or.inr he
      · exact Or.inl ⟨p, ⟨hp, he⟩, rfl⟩

theorem register_nodup (h : Index) (id : String) (v : List ℚ) (level : Nat) (hn : (keys h).Nodup) : (keys (register h id v level)).Nodup := by
  unfold keys register
  rw [List.map_append, List.nodup_append]
  refine ⟨hn.sublist (List.filter_sublist.map _), by simp, ?_⟩
  intro a ha b hb hab
  simp only [List.map_cons, List.map_nil, List.mem_singleton] at hb
  obtain ⟨p, hp, rfl⟩ := List.mem_map.1 ha
  simp only [List.mem_filter, decide_eq_true_eq] at hp
  exact hp.2 (hab.trans hb)

theorem reach_mono {h h' : Index} (hsub : ∀ a b, b ∈ eff h 0 a → b ∈ eff h' 0 a) {a b : String} (hr : Reach (Linked h 0) a b) :
    Reach (Linked h' 0) a b := by
  obtain ⟨n, w⟩ := hr
  exact ⟨n, w.mono (fun x y hxy => hsub x y hxy)⟩

/-- Adding at level 0 to a small index keeps it connected. -/
theorem small_add (E : Env) (hE : Sorts E) (h : Index) (hs : Small h) (id : String) (v : List ℚ)
    (hsize : (keys (register h id v 0)).length ≤ 17) :
    ∃ h', add E h id v 0 = some h' ∧ Small h' ∧ (∀ i, i ∈ keys h' ↔ i = id ∨ i ∈ keys h) := by
  generalize hg : register h id v 0 = g at hsize
  have hmv : moveEntry g id 0 = g := by
    unfold moveEntry
    rw [if_neg]
    push Not
    rw [← hg]
    exact ⟨hs.name, Nat.zero_le _⟩
  have hgk : ∀ i, i ∈ keys g ↔ i = id ∨ i ∈ keys h := by intro i; rw [← hg]; exact register_keys h id v 0 i
  have hgn : (keys g).Nodup := by rw [← hg]; exact register_nodup h id v 0 hs.nodup
  have hge : ∀ l i, eff g l i = eff h l i := by intro l i; rw [← hg]; exact register_eff h id v 0 l i
  have hgent : g.entry = h.entry := by rw [← hg]; rfl
  have hgcap : g.maxConns = 16 := by rw [← hg]; exact hs.cap
  have hentk : g.entry ∈ keys g := by rw [hgent]; exact (hgk _).2 (Or.inr hs.entry)
  have hlink : ∀ a b, Linked g 0 a b ↔ Linked h 0 a b := by intro a b; unfold Linked; rw [hge]
  obtain ⟨cs, hcs, c2, c3, c4, -, c6, c7⟩ := searchLevel_sound E hE g v g.entry 1 0
  have hne := c7 (by rw [hgent]; exact hs.name) hentk (by omega)
  -- exactly one candidate
  have hone : ∃ c, cs = [c] := by
    cases cs with
    | nil => exact absurd rfl hne
    | cons c l =>
      cases l with
      | nil => exact ⟨c, rfl⟩
      | cons d l => simp at c6
  obtain ⟨c, rfl⟩ := hone
  obtain ⟨w, hw, -⟩ := c3 c List.mem_cons_self
  have hck := vec_some_mem hw
  have hcr : Reach (Linked g 0) g.entry c.id := c4 c List.mem_cons_self
  -- the invariant without reachability of the new node
  have hsub : ∀ a b, b ∈ eff g 0 a → a ∈ keys g ∧ b ∈ keys g ∧ b ≠ a := by
    intro a b hb
    rw [hge] at hb
    obtain ⟨h1, h2, h3⟩ := hs.sub a b hb
    exact ⟨(hgk a).2 (Or.inr h1), (hgk b).2 (Or.inr h2), h3⟩
  have hsymm : ∀ a b, b ∈ eff g 0 a → a ∈ eff g 0 b := by
    intro a b hb; rw [hge] at hb ⊢; exact hs.symm a b hb
  have hidk : id ∈ keys g := (hgk id).2 (Or.inl rfl)
  have holdreach : ∀ i ∈ keys h, Reach (Linked g 0) g.entry i := by
    intro i hi
    rw [hgent]
    exact reach_mono (fun a b hb => by rw [hge]; exact hb) (hs.conn i hi)
  by_cases hci : c.id = id
  · -- the node itself is the best candidate, so it was reachable and nothing changes
    refine ⟨g, ?_, ?_, hgk⟩
    · rw [add, hg, hmv, connectLevels, hcs]
      simp only [connectAll]
      rw [if_neg (by simp [hci])]
    · refine ⟨hgcap, hgn, fun l i hl => (hge l i).trans (hs.upper l i hl), hsub, fun a => by rw [hge]; exact hs.enodup a, hsymm,
        hentk, by rw [hgent]; exact hs.name, ?_⟩
      intro i hi
      rcases (hgk i).1 hi with rfl | hi
      · rw [← hci]; exact hcr
      · exact holdreach i hi
  · have hsame := connectAll_same id 0 [c] (g.maxConns * 2) g
    have hconn : connectAll id 0 (g.maxConns * 2) [c] g = addConnection g 0 id c.id := by
      rw [connectAll, if_pos ⟨hci, by rw [hgcap]; omega⟩, connectAll]
    have hselfc : ∀ a, a ∉ eff g 0 a := fun a ha => (hsub a a ha).2.2 rfl
    have heff : ∀ k i, eff (addConnection g 0 id c.id) k i = if k = 0 ∧ c.id ∉ eff g 0 id then
        (if i = id then eff g 0 id ++ [c.id] else if i = c.id then eff g 0 c.id ++ [id] else eff g k i) else eff g k i := by
      intro k i
      apply addConnection_eff g id c.id (Ne.symm hci) ⟨hsymm _ _, hsymm _ _⟩
      · intro hn
        have hn' : id ∉ eff g 0 c.id := fun hc => hn (hsymm _ _ hc)
        have l1 := short_two (l := eff g 0 id) (by rw [hge]; exact hs.enodup id) hgn (fun x hx => (hsub _ _ hx).2.1) hidk hck
          (Ne.symm hci) (hselfc id) hn
        have l2 := short_two (l := eff g 0 c.id) (by rw [hge]; exact hs.enodup c.id) hgn (fun x hx => (hsub _ _ hx).2.1) hidk hck
          (Ne.symm hci) hn' (hselfc c.id)
        rw [hgcap]
        omega
      · intro _
        have l1 := short_one (l := eff g 0 id) (by rw [hge]; exact hs.enodup id) (fun x hx => (hsub _ _ hx).2.1) hidk (hselfc id)
        have l2 := short_one (l := eff g 0 c.id) (by rw [hge]; exact hs.enodup c.id) (fun x hx => (hsub _ _ hx).2.1) hck (hselfc c.id)
        rw [hgcap]
        omega
    rw [hconn] at hsame
    have hkeys : ∀ i, i ∈ keys (addConnection g 0 id c.id) ↔ i ∈ keys g := by intro i; unfold keys; rw [hsame.1]
    have hkeq : keys (addConnection g 0 id c.id) = keys g := by unfold keys; rw [hsame.1]
    refine ⟨addConnection g 0 id c.id, ?_, ?_, fun i => (hkeys i).trans (hgk i)⟩
    · rw [add, hg, hmv, connectLevels, hcs]
      simp only [if_true]
      rw [hconn]
    · by_cases hn : c.id ∉ eff g 0 id
      · have hn' : id ∉ eff g 0 c.id := fun hc => hn (hsymm _ _ hc)
        have hmem : ∀ a b, b ∈ eff (addConnection g 0 id c.id) 0 a ↔ b ∈ eff g 0 a ∨ (a = id ∧ b = c.id) ∨ (a = c.id ∧ b = id) := by
          intro a b
          rw [heff, if_pos ⟨rfl, hn⟩]
          by_cases ha : a = id
          · subst ha
            rw [if_pos rfl]
            simp only [List.mem_append, List.mem_singleton, true_and]
            constructor
            · rintro (h1 | h1)
              · exact Or.inl h1
              · exact Or.inr (Or.inl h1)
            · rintro (h1 | h1 | ⟨h1, -⟩)
              · exact Or.inl h1
              · exact Or.inr h1
              · exact absurd h1.symm hci
          · rw [if_neg ha]
            by_cases ha' : a = c.id
            · subst ha'
              rw [if_pos rfl]
              simp [hci]
            · rw [if_neg ha']
              simp [ha, ha']
        refine ⟨hsame.2.2.trans hgcap, hkeq ▸ hgn, ?_, ?_, ?_, ?_, by rw [hsame.2.1, hkeq]; exact hentk,
          by rw [hsame.2.1, hgent]; exact hs.name, ?_⟩
        · intro l i hl
          rw [heff, if_neg (by simp; omega), hge]
          exact hs.upper l i hl
        · intro a b hb
          rw [hkeys, hkeys]
          rcases (hmem a b).1 hb with h1 | ⟨rfl, rfl⟩ | ⟨rfl, rfl⟩
          · exact hsub a b h1
          · exact ⟨hidk, hck, hci⟩
          · exact ⟨hck, hidk, Ne.symm hci⟩
        · intro a
          rw [heff, if_pos ⟨rfl, hn⟩]
          have happ : ∀ (l : List String) (x : String), l.Nodup → x ∉ l → (l ++ [x]).Nodup := by
            intro l x hl hx
            rw [List.nodup_append]
            refine ⟨hl, by simp, ?_⟩
            intro p hp r hr hpr
            simp only [List.mem_singleton] at hr
            subst hr
            exact hx (hpr ▸ hp)
          split_ifs
          · exact happ _ _ (by rw [hge]; exact hs.enodup _) hn
          · exact happ _ _ (by rw [hge]; exact hs.enodup _) hn'
          · rw [hge]; exact hs.enodup _
        · intro a b hb
          rcases (hmem a b).1 hb with h1 | ⟨rfl, rfl⟩ | ⟨rfl, rfl⟩
          · exact (hmem b a).2 (Or.inl (hsymm _ _ h1))
          · exact (hmem _ _).2 (Or.inr (Or.inr ⟨rfl, rfl⟩))
          · exact (hmem _ _).2 (Or.inr (Or.inl ⟨rfl, rfl⟩))
        · intro i hi
          rw [hkeys] at hi
          have hup : ∀ {x y}, Reach (Linked g 0) x y → Reach (Linked (addConnection g 0 id c.id) 0) x y :=
            fun hr => reach_mono (fun a b hb => (hmem a b).2 (Or.inl hb)) hr
          rw [hsame.2.1]
          rcases (hgk i).1 hi with rfl | hi
          · exact (hup hcr).trans (Reach.single ((hmem _ _).2 (Or.inr (Or.inr ⟨rfl, rfl⟩))))
          · exact hup (holdreach i hi)
      · have he : ∀ k i, eff (addConnection g 0 id c.id) k i = eff g k i := by
          intro k i
          rw [heff, if_neg (by simp only [not_and]; intro _; exact hn)]
        rw [not_not] at hn
        refine ⟨hsame.2.2.trans hgcap, hkeq ▸ hgn, ?_, ?_, ?_, ?_, by rw [hsame.2.1, hkeq]; exact hentk,
          by rw [hsame.2.1, hgent]; exact hs.name, ?_⟩
        · intro l i hl; rw [he, hge]; exact hs.upper l i hl
        · intro a b hb; rw [he] at hb; rw [hkeys, hkeys]; exact hsub a b hb
        · intro a; rw [he, hge]; exact hs.enodup a
        · intro a b hb; rw [he] at hb ⊢; exact hsymm a b hb
        · intro i hi
          rw [hkeys] at hi
          rw [hsame.2.1]
          have hup : ∀ {x y}, Reach (Linked g 0) x y → Reach (Linked (addConnection g 0 id c.id) 0) x y :=
            fun hr => reach_mono (fun a b hb => by rw [he]; exact hb) hr
          rcases (hgk i).1 hi with rfl | hi
          · exact hup (hcr.trans (Reach.single (hsymm _ _ hn)))
          · exact hup (holdreach i hi)

/-- The first node, at whatever level. -/
theorem small_first (E : Env) (hE : Sorts E) (id : String) (v : List ℚ) (level : Nat) (h0 : id ≠ "") :
    ∃ h, add E (new 16) id v level = some h ∧ Small h ∧ ∀ i, i ∈ keys h ↔ i = id := by
  have hm : moveEntry (register (new 16) id v level) id level = { register (new 16) id v level with entry := id } := by
    unfold moveEntry
    have he : (register (new 16) id v level).entry = "" := rfl
    simp only [he, true_or, if_true]
  generalize hg : ({ register (new 16) id v level with entry := id } : Index) = g at hm
  have hge : ∀ l i, eff g l i = [] := by
    intro l i
    rw [← hg]
    exact (register_eff (new 16) id v level l i).trans rfl
  have hgv : vec g id = some v := by
    rw [← hg]
    exact (register_vec (new 16) id v level id).trans (if_pos rfl)
  have hgent : g.entry = id := by rw [← hg]
  have hconn : ∀ l, connectLevels E id v l g = some g := by
    intro l
    have hnone : ∀ (n lv : Nat) (x : ℚ), connectAll id lv n [⟨id, x⟩] g = g := by
      intro n lv x
      rw [connectAll, if_neg (by simp), connectAll]
    induction l with
    | zero => rw [connectLevels, hgent, searchLevel_isolated E hE g v id v 1 0 h0 hgv (hge 0 _) (by omega)]; simp only [hnone]
    | succ l ih =>
      rw [connectLevels, hgent, searchLevel_isolated E hE g v id v 1 (l + 1) h0 hgv (hge _ _) (by omega)]
      simp only [hnone]
      exact ih
  have hk : keys g = [id] := by rw [← hg]; simp [keys, register, new]
  refine ⟨g, by rw [add, hm, hconn], ?_, by intro i; rw [hk]; simp⟩
  refine ⟨by rw [← hg]; rfl, by rw [hk]; simp, fun l i _ => hge l i, ?_, ?_, ?_, by rw [hk, hgent]; simp, by rw [hgent]; exact h0, ?_⟩
  · intro a b hb; rw [hge] at hb; simp at hb
  · intro a; rw [hge]; simp
  · intro a b hb; rw [hge] at hb; simp at hb
  · intro i hi
    rw [hk, List.mem_singleton] at hi
    rw [hi, hgent]
    exact Reach.refl _

theorem run_small (E : Env) (hE : Sorts E) (rest : List (String × List ℚ)) : ∀ h : Index, Small h →
    (keys h ++ rest.map Prod.fst).dedup.length ≤ 17 →
    ∃ h', run E h (rest.map (fun p => Op.add p.1 p.2 0)) = some h' ∧ Small h' ∧
      ∀ i, i ∈ keys h' ↔ i ∈ keys h ∨ i ∈ rest.map Prod.fst := by
  induction rest with
  | nil => intro h hs _; exact ⟨h, rfl, hs, by simp⟩
  | cons p rest ih =>
    intro h hs hlen
    have hle : ∀ l : List String, l.Nodup → (∀ x ∈ l, x ∈ keys h ∨ x ∈ (p :: rest).map Prod.fst) → l.length ≤ 17 := by
      intro l hl hsub
      refine le_trans ((List.subperm_of_subset hl ?_).length_le) hlen
      intro x hx
      rw [List.mem_dedup, List.mem_append]
      exact hsub x hx
    obtain ⟨h1, e1, e2, e3⟩ := small_add E hE h hs p.1 p.2 (hle _ (register_nodup h p.1 p.2 0 hs.nodup) (by
      intro x hx
      rcases (register_keys h p.1 p.2 0 x).1 hx with rfl | hx
      · right; simp
      · exact Or.inl hx))
    obtain ⟨h', f1, f2, f3⟩ := ih h1 e2 (hle _ (List.nodup_dedup _) (by
      intro x hx
      rw [List.mem_dedup, List.mem_append, e3] at hx
      rcases hx with (rfl | hx) | hx
      · right; simp
      · exact Or.inl hx
      · right; rw [List.map_cons]; exact List.mem_cons_of_mem _ hx))
    refine ⟨h', ?_, f2, ?_⟩
    · rw [List.map_cons, run, step, e1]; exact f1
    · intro i
      rw [f3, e3, List.map_cons, List.mem_cons]
      tauto

/-- C51 (completeness, guarded): an index of at most 17 distinct ids built by adds of which all but the first are drawn at
level 0 returns every id when asked for as many as it holds, with the similarity to its last vector. No id may be another id
followed by "_expanded". -/
theorem C51_small_index_finds_every_node_partial (E : Env) (hE : Sorts E) (id : String) (v : List ℚ) (level : Nat)
    (rest : List (String × List ℚ)) (h0 : id ≠ "") (hsize : (id :: rest.map Prod.fst).dedup.length ≤ 17)
    (hclash : ∀ i ∈ id :: rest.map Prod.fst, ∀ j ∈ id :: rest.map Prod.fst, i ≠ j ++ "_expanded") (query : List ℚ) (k : Nat)
    (hk : (id :: rest.map Prod.fst).dedup.length ≤ k) :
    ∃ h l, run E (new 16) (Op.add id v level :: rest.map (fun p => Op.add p.1 p.2 0)) = some h ∧ search E h query k = some l ∧
      ∀ i ∈ id :: rest.map Prod.fst, ∃ u, latest (Op.add id v level :: rest.map (fun p => Op.add p.1 p.2 0)) (fun _ => none) i = some u ∧
        ⟨i, E.sim query u⟩ ∈ l := by
  obtain ⟨h1, a1, a2, a3⟩ := small_first E hE id v level h0
  have hk1 : keys h1 = [id] := by
    have hl := a2.nodup
    have : ∀ x ∈ keys h1, x = id := fun x hx => (a3 x).1 hx
    cases hkk : keys h1 with
    | nil => have := (a3 id).2 rfl; rw [hkk] at this; simp at this
    | cons x l =>
      rw [hkk] at hl this
      have hx := this x List.mem_cons_self
      cases l with
      | nil => rw [hx]
      | cons y l =>
        have hy := this y (by simp)
        rw [hx, hy] at hl
        simp at hl
  obtain ⟨h, b1, b2, b3⟩ := run_small E hE rest h1 a2 (by rw [hk1]; exact hsize)
  have hrun : run E (new 16) (Op.add id v level :: rest.map (fun p => Op.add p.1 p.2 0)) = some h := by
    rw [run, step, a1]; exact b1
  have hkeys : ∀ i, i ∈ keys h ↔ i ∈ id :: rest.map Prod.fst := by
    intro i
    rw [b3, a3, List.mem_cons]
  have hlen : h.vectors.length ≤ (id :: rest.map Prod.fst).dedup.length := by
    have : (keys h).length ≤ (id :: rest.map Prod.fst).dedup.length :=
      (List.subperm_of_subset b2.nodup (fun x hx => List.mem_dedup.2 ((hkeys x).1 hx))).length_le
    simpa [keys] using this
  have hn : NoClash h := fun i hi j hj => hclash i ((hkeys i).1 hi) j ((hkeys j).1 hj)
  obtain ⟨l, s1, s2, s3, s4, s5⟩ := search_sound E hE h query k
  refine ⟨h, l, hrun, s1, ?_⟩
  obtain ⟨h', r1, r2⟩ := run_latest E hE (Op.add id v level :: rest.map (fun p => Op.add p.1 p.2 0)) (new 16)
  rw [hrun] at r1
  obtain rfl := Option.some.inj r1
  intro i hi
  have hik := (hkeys i).2 hi
  obtain ⟨u, hu⟩ := vec_of_mem hik
  refine ⟨u, by rw [← hu, r2]; rfl, ?_⟩
  have hfull := s1
  unfold search at hfull
  rw [if_neg b2.name, nodeLevel_zero h.entry (fun l hl => b2.upper l _ hl), descend] at hfull
  simp only at hfull
  obtain ⟨r, t1, t2, t3, t4, t5, t6, t7⟩ := searchLevel_sound E hE h query h.entry (if k * 2 < 50 then 50 else k * 2) 0
  rw [t1, Option.map_some, Option.some.injEq] at hfull
  have hin := searchLevel_complete E hE h query h.entry (if k * 2 < 50 then 50 else k * 2) 0 b2.name b2.entry hn
    (by split_ifs <;> omega) (fun a b hb => (b2.sub a b hb).2.1) i (b2.conn i hik) r t1
  have hrl : r.length ≤ k := by
    have hsub : (r.map Cand.id) ⊆ keys h := by
      intro y hy
      obtain ⟨c, hc, rfl⟩ := List.mem_map.1 hy
      obtain ⟨v', hv', -⟩ := t3 c hc
      exact vec_some_mem hv'
    have := (List.subperm_of_subset t2 hsub).length_le
    have h2 : (keys h).length = h.vectors.length := by simp [keys]
    rw [List.length_map] at this
    omega
  rw [List.take_of_length_le hrl] at hfull
  subst hfull
  obtain ⟨c, hc, hci⟩ := List.mem_map.1 hin
  obtain ⟨u', hu', hsc⟩ := t3 c hc
  rw [hci, hu] at hu'
  obtain rfl := Option.some.inj hu'
  have : c = ⟨i, E.sim query u⟩ := by
    cases c
    simp only at hci hsc
    rw [hci, hsc]
  rw [← this]
  exact hc

example : ((run testEnv (new 16) [.add "a" [1] 0, .add "b" [2] 0, .add "c" [3] 0]).bind (fun h => search testEnv h [3] 3)) =
    some [⟨"c", 1⟩, ⟨"a", 0⟩, ⟨"b", 0⟩] := by decide +kernel

/-! The searches of the graph store that use the index. -/

theorem hnswCollect_spec (s : State) (k : Nat) (threshold : ℚ) (cs : List Cand) : ∀ acc, acc.length ≤ k →
    hnswCollect s k threshold cs acc =
      (acc ++ (cs.filter (fun c => decide (threshold ≤ c.score))).filterMap (fun c => (getNode s c.id).map (fun n => (n, c.score)))).take k := by
  induction cs with
  | nil => intro acc ha; simp [hnswCollect, List.take_of_length_le ha]
  | cons c cs ih =>
    intro acc ha
    rw [hnswCollect]
    by_cases ht : threshold ≤ c.score
    · rw [List.filter_cons_of_pos (p := fun c : Cand => decide (threshold ≤ c.score)) (by simpa using ht)]
      by_cases hl : acc.length < k
      · rw [if_pos ⟨ht, hl⟩]
        cases hg : getNode s c.id with
        | none => simp only [List.filterMap_cons, hg, Option.map_none]; exact ih acc ha
        | some n =>
          simp only [List.filterMap_cons, hg, Option.map_some]
          rw [ih _ (by rw [List.length_append, List.length_singleton]; omega)]
          simp
      · rw [if_neg (by simp [hl]), ih acc ha]
        have : acc.length = k := by omega
        rw [List.take_append_of_le_length (by omega), List.take_append_of_le_length (by omega)]
    · rw [if_neg (by simp [not_le.1 ht]), List.filter_cons_of_neg (p := fun c : Cand => decide (threshold ≤ c.score)) (by simpa using ht)]
      exact ih acc ha

/-- C105: for every history of the index, graph, query and threshold, vector search over the graph returns at most `k` stored
nodes, no node twice, best first, each with the similarity to the vector indexed last under its id and none below the
threshold; a stored node that the index found among its best `2k` and that passes the threshold is missing only when `k`
nodes at least as good are there. -/
theorem C105_index_backed_search (E : Env) (hE : Sorts E) (ops : List Op) (s : State) (hu : Unique s) (query : List ℚ) (k : Nat)
    (threshold : ℚ) :
    ∃ h cs out, run E (new 16) ops = some h ∧ search E h query (k * 2) = some cs ∧ hnswSearch E h s query k threshold = some out ∧
      out.length ≤ k ∧ (out.map (fun r => r.1.id)).Nodup ∧ out.Pairwise (fun a b => b.2 ≤ a.2) ∧
      (∀ r ∈ out, r.1 ∈ s.nodes ∧ threshold ≤ r.2 ∧ ∃ v, latest ops (fun _ => none) r.1.id = some v ∧ r.2 = E.sim query v) ∧
      ∀ n ∈ s.nodes, ∀ x, ⟨n.id, x⟩ ∈ cs → threshold ≤ x → (n, x) ∈ out ∨ (out.length = k ∧ ∀ r ∈ out, x ≤ r.2) := by
  obtain ⟨h, h1, h2⟩ := run_latest E hE ops (new 16)
  obtain ⟨cs, h3, h4, h5, h6, h7⟩ := search_sound E hE h query (k * 2)
  refine ⟨h, cs, hnswCollect s k threshold cs [], h1, h3, by rw [hnswSearch, h3]; rfl, ?_⟩
  rw [hnswCollect_spec s k threshold cs [] (Nat.zero_le k), List.nil_append]
  generalize hpool : (cs.filter (fun c => decide (threshold ≤ c.score))).filterMap (fun c => (getNode s c.id).map (fun n => (n, c.score))) = pool
  have hmem : ∀ r, r ∈ pool ↔ r.1 ∈ s.nodes ∧ threshold ≤ r.2 ∧ ⟨r.1.id, r.2⟩ ∈ cs := by
    intro r
    rw [← hpool, List.mem_filterMap]
    constructor
    · rintro ⟨c, hc, hr⟩
      rw [Option.map_eq_some_iff] at hr
      obtain ⟨n, hn, rfl⟩ := hr
      simp only [List.mem_filter, decide_eq_true_eq] at hc
      obtain ⟨hn1, hn2⟩ := (getNode_mem s hu c.id n).1 hn
      refine ⟨hn1, hc.2, ?_⟩
      simp only [hn2]
      exact hc.1
    · rintro ⟨a1, a2, a3⟩
      refine ⟨⟨r.1.id, r.2⟩, by simpa using ⟨a3, a2⟩, ?_⟩
      simp only [(getNode_mem s hu r.1.id r.1).2 ⟨a1, rfl⟩, Option.map_some]
  have hord : pool.Pairwise (fun a b => b.2 ≤ a.2) := by
    rw [← hpool, List.pairwise_filterMap]
    refine (h6.sublist List.filter_sublist).imp ?_
    intro a b hab x hx y hy
    rw [Option.map_eq_some_iff] at hx hy
    obtain ⟨n, -, rfl⟩ := hx
    obtain ⟨m, -, rfl⟩ := hy
    exact hab
  have hnod : (pool.map (fun r => r.1.id)).Nodup := by
    rw [← hpool, List.Nodup, List.pairwise_map, List.pairwise_filterMap]
    have := (List.pairwise_map.1 h4).sublist (List.filter_sublist (p := fun c : Cand => decide (threshold ≤ c.score)))
    refine this.imp ?_
    intro a b hab x hx y hy
    rw [Option.map_eq_some_iff] at hx hy
    obtain ⟨n, hn, rfl⟩ := hx
    obtain ⟨m, hm, rfl⟩ := hy
    simp only
    rw [((getNode_mem s hu a.id n).1 hn).2, ((getNode_mem s hu b.id m).1 hm).2]
    exact hab
  refine ⟨by rw [List.length_take]; exact Nat.min_le_left _ _, hnod.sublist ((List.take_sublist k pool).map _),
    hord.sublist (List.take_sublist k pool), ?_, ?_⟩
  · intro r hr
    obtain ⟨a1, a2, a3⟩ := (hmem r).1 (List.mem_of_mem_take hr)
    obtain ⟨v, hv, hs⟩ := h5 _ a3
    refine ⟨a1, a2, v, ?_, hs⟩
    rw [← hv, h2]
    rfl
  · intro n hn x hx ht
    have hin : (n, x) ∈ pool := (hmem (n, x)).2 ⟨hn, ht, hx⟩
    rw [← List.take_append_drop k pool] at hin hord
    rcases List.mem_append.1 hin with h8 | h8
    · exact Or.inl h8
    · right
      refine ⟨?_, fun r hr => (List.pairwise_append.1 hord).2.2 r hr _ h8⟩
      have : (pool.drop k).length ≠ 0 := by
        intro h0
        rw [List.length_eq_zero_iff] at h0
        rw [h0] at h8
        simp at h8
      rw [List.length_drop] at this
      rw [List.length_take]
      omega

theorem chain_length {s : State} {ids : List String} {es : List Edge} (h : Chain s ids es) : ids.length = es.length + 1 := by
  induction h with
  | one => rfl
  | snoc _ _ _ ih => simp only [List.length_append, List.length_cons, List.length_nil] at ih ⊢; omega

theorem chain_walk {s : State} {ids : List String} {es : List Edge} (h : Chain s ids es) : ∀ a b, ids.head? = some a → ids.getLast? = some b →
    Walk (Follows s) a es.length b := by
  induction h with
  | one x =>
    intro a b ha hb
    simp only [List.head?_cons, Option.some.injEq, List.getLast?_singleton] at ha hb
    subst ha hb
    exact .nil
  | @snoc ids es x e hc he hx ih =>
    intro a b ha hb
    simp only [List.getLast?_append, List.getLast?_singleton, Option.some_or, Option.some.injEq] at hb
    subst hb
    rw [List.length_append]
    refine .snoc (ih a x ?_ (by simp)) ⟨e, he, hx, rfl⟩
    rw [List.head?_append] at ha
    cases hh : (ids ++ [x]).head? with
    | none => simp at hh
    | some y => rw [hh] at ha; simpa using ha

/-- How near a node is to the centres: the largest `1 / (hops + 1)` over all directed walks from a centre, 0 without any. -/
structure Proximity (s : State) (centres : List String) (b : String) (g : ℚ) : Prop where
  nonneg : 0 ≤ g
  above : ∀ c ∈ centres, ∀ k, Walk (Follows s) c k b → 1 / ((k : ℚ) + 1) ≤ g
  attained : g = 0 ∨ ∃ c ∈ centres, ∃ k, Walk (Follows s) c k b ∧ g = 1 / ((k : ℚ) + 1)

theorem centreScore_spec (s : State) (h : Inv s) (b : String) (hb : ∃ n ∈ s.nodes, n.id = b) (cs : List String) : ∀ done best,
    Proximity s done b best → ∃ g, centreScore s b cs best = some g ∧ Proximity s (done ++ cs) b g := by
  induction cs with
  | nil => intro done best hp; exact ⟨best, rfl, by simpa using hp⟩
  | cons c cs ih =>
    intro done best hp
    have hnext : ∀ g, Proximity s (done ++ [c]) b g → ∃ g', centreScore s b cs g = some g' ∧ Proximity s (done ++ c :: cs) b g' := by
      intro g hg
      obtain ⟨g', h1, h2⟩ := ih (done ++ [c]) g hg
      exact ⟨g', h1, by simpa using h2⟩
    have hskip : (∀ k, ¬ Walk (Follows s) c k b) → Proximity s (done ++ [c]) b best := by
      intro hno
      refine ⟨hp.nonneg, ?_, ?_⟩
      · intro x hx k hw
        rcases List.mem_append.1 hx with hx | hx
        · exact hp.above x hx k hw
        · rw [List.mem_singleton] at hx
          subst hx
          exact absurd hw (hno k)
      · rcases hp.attained with h0 | ⟨x, hx, k, h1, h2⟩
        · exact Or.inl h0
        · exact Or.inr ⟨x, List.mem_append_left _ hx, k, h1, h2⟩
    rw [centreScore]
    by_cases hc : ∃ n ∈ s.nodes, n.id = c
    · obtain ⟨r, h1, h2, h3⟩ := C43_shortest_path s h c b hc
      rw [h1]
      by_cases hr : Reach (Follows s) c b
      · obtain ⟨p, rfl, p1, p2, p3, -, -, p6, -, p8⟩ := h2 hr
        simp only
        have hlen : p.nodes.length = p.edges.length + 1 := by simpa using chain_length p1
        have hw := chain_walk p1 c b p2 p3
        have hcast : (p.nodes.length : ℚ) = (p.edges.length : ℚ) + 1 := by rw [hlen]; push_cast; ring
        rw [hcast]
        have hall : ∀ k, Walk (Follows s) c k b → 1 / ((k : ℚ) + 1) ≤ 1 / ((p.edges.length : ℚ) + 1) := by
          intro k hk
          have := p8 k hk
          rw [p6] at this
          apply one_div_le_one_div_of_le
          · positivity
          · have : (p.edges.length : ℚ) ≤ k := by exact_mod_cast this
            linarith
        by_cases hbig : 1 / ((p.edges.length : ℚ) + 1) > best
        · rw [if_pos ⟨by omega, hbig⟩]
          apply hnext
          refine ⟨by positivity, ?_, Or.inr ⟨c, by simp, p.edges.length, hw, rfl⟩⟩
          intro x hx k hk
          rcases List.mem_append.1 hx with hx | hx
          · exact le_trans (hp.above x hx k hk) (le_of_lt hbig)
          · rw [List.mem_singleton] at hx
            subst hx
            exact hall k hk
        · rw [if_neg (by simp only [not_and]; intro _; exact hbig)]
          apply hnext
          refine ⟨hp.nonneg, ?_, ?_⟩
          · intro x hx k hk
            rcases List.mem_append.1 hx with hx | hx
            · exact hp.above x hx k hk
            · rw [List.mem_singleton] at hx
              subst hx
              exact le_trans (hall k hk) (not_lt.1 hbig)
          · rcases hp.attained with h0 | ⟨x, hx, k, h4, h5⟩
            · exact Or.inl h0
            · exact Or.inr ⟨x, List.mem_append_left _ hx, k, h4, h5⟩
      · rw [h3 hr]
        simp only
        exact hnext _ (hskip (fun k hk => hr ⟨k, hk⟩))
    · have hno : ∀ k, ¬ Walk (Follows s) c k b := by
        have hgen : ∀ k x, Walk (Follows s) c k x → x = c := by
          intro k x hw
          induction hw with
          | nil => rfl
          | snoc _ hxy ih =>
            obtain ⟨e, he, e1, -⟩ := hxy
            obtain ⟨n, hn, hne⟩ := (h.1 e he).1
            exact absurd ⟨n, hn, by rw [hne, e1, ih]⟩ hc
        intro k hw
        rw [hgen k b hw] at hb
        exact hc hb
      rcases C43_unknown_start s h c b hc with h1 | h1 <;> rw [h1] <;> simp only <;> exact hnext _ (hskip hno)

/-- What one result of the combined search must be. -/
structure Combined (s : State) (q : TQuery) (r : TResult) : Prop where
  stored : r.node ∈ s.nodes
  near : q.vectorThreshold ≤ r.vectorScore
  graph : Proximity s q.centres r.node.id r.graphScore
  total : r.total = q.vectorWeight * r.vectorScore + q.graphWeight * r.graphScore
  high : q.totalThreshold ≤ r.total

theorem proximity_unique {s : State} {cs : List String} {b : String} {g g' : ℚ} (h : Proximity s cs b g) (h' : Proximity s cs b g') : g = g' := by
  have key : ∀ {g g' : ℚ}, Proximity s cs b g → Proximity s cs b g' → g ≤ g' := by
    intro g g' h h'
    rcases h.attained with h0 | ⟨c, hc, k, h1, h2⟩
    · rw [h0]; exact h'.nonneg
    · rw [h2]; exact h'.above c hc k h1
  exact le_antisymm (key h h') (key h' h)

theorem scoreCands_spec (s : State) (h : Inv s) (q : TQuery) (cs : List Cand) (hn : (cs.map Cand.id).Nodup) :
    ∃ l, scoreCands s q cs = some l ∧ (l.map (fun r => r.node.id)).Nodup ∧
      ∀ r, r ∈ l ↔ Combined s q r ∧ ⟨r.node.id, r.vectorScore⟩ ∈ cs := by
  induction cs with
  | nil => exact ⟨[], rfl, by simp, by simp⟩
  | cons c cs ih =>
    rw [List.map_cons, List.nodup_cons] at hn
    obtain ⟨rest, h1, h2, h3⟩ := ih hn.2
    rw [scoreCands, h1]
    simp only
    have hkeep : (∀ r, Combined s q r → ⟨r.node.id, r.vectorScore⟩ = c → False) →
        ∃ l, some rest = some l ∧ (l.map (fun r => r.node.id)).Nodup ∧
          ∀ r, r ∈ l ↔ Combined s q r ∧ ⟨r.node.id, r.vectorScore⟩ ∈ c :: cs := by
      intro hno
      refine ⟨rest, rfl, h2, ?_⟩
      intro r
      rw [h3 r]
      constructor
      · rintro ⟨a, b⟩; exact ⟨a, List.mem_cons_of_mem _ b⟩
      · rintro ⟨a, b⟩
        rcases List.mem_cons.1 b with b | b
        · exact absurd b (fun hb => hno r a hb)
        · exact ⟨a, b⟩
    by_cases ht : c.score ≥ q.vectorThreshold
    · rw [if_pos ht]
      cases hg : getNode s c.id with
      | none =>
        simp only
        apply hkeep
        rintro r hr rfl
        rw [(getNode_mem s h.2 r.node.id r.node).2 ⟨hr.stored, rfl⟩] at hg
        simp at hg
      | some n =>
        obtain ⟨n1, n2⟩ := (getNode_mem s h.2 c.id n).1 hg
        obtain ⟨g, g1, g2⟩ := centreScore_spec s h c.id ⟨n, n1, n2⟩ q.centres [] 0 ⟨le_refl _, by simp, Or.inl rfl⟩
        rw [List.nil_append] at g2
        simp only [g1]
        have hsame : ∀ r, Combined s q r → ⟨r.node.id, r.vectorScore⟩ = c →
            r = ⟨n, c.score, g, q.vectorWeight * c.score + q.graphWeight * g⟩ := by
          rintro ⟨rn, rv, rg, rt⟩ hr hrc
          simp only at hrc
          have e1 : rn.id = c.id := by rw [← hrc]
          have e2 : rv = c.score := by rw [← hrc]
          have e3 : rn = n := by
            have := (getNode_mem s h.2 c.id rn).2 ⟨hr.stored, e1⟩
            rw [hg] at this
            exact (Option.some.inj this).symm
          have e4 : rg = g := proximity_unique hr.graph (by simp only [e1]; exact g2)
          have e5 := hr.total
          simp only at e5
          subst e3 e4 e2
          rw [e5]
        by_cases hT : q.vectorWeight * c.score + q.graphWeight * g ≥ q.totalThreshold
        · rw [if_pos hT]
          refine ⟨_, rfl, ?_, ?_⟩
          · rw [List.map_cons, List.nodup_cons]
            refine ⟨?_, h2⟩
            intro hin
            obtain ⟨r, hr, hrn⟩ := List.mem_map.1 hin
            apply hn.1
            rw [← n2]
            simp only at hrn
            rw [← hrn]
            exact List.mem_map.2 ⟨_, ((h3 r).1 hr).2, rfl⟩
          · intro r
            rw [List.mem_cons, h3 r]
            constructor
            · rintro (rfl | ⟨a, b⟩)
              · refine ⟨⟨n1, ht, by simp only [n2]; exact g2, rfl, hT⟩, ?_⟩
                simp only [n2]
                exact List.mem_cons_self
              · exact ⟨a, List.mem_cons_of_mem _ b⟩
            · rintro ⟨a, b⟩
              rcases List.mem_cons.1 b with b | b
              · exact Or.inl (hsame r a b)
              · exact Or.inr ⟨a, b⟩
        · rw [if_neg hT]
          apply hkeep
          intro r hr hrc
          have := hsame r hr hrc
          have hh := hr.high
          rw [this] at hh
          exact hT hh
    · rw [if_neg ht]
      apply hkeep
      rintro r hr rfl
      exact ht hr.near

/-- C106: for every history of the index, graph and query, the search that combines the index with closeness to the centres
returns the best `TopK`, no node twice and best total first, of exactly the stored nodes that the index found and that pass
both thresholds; the total is the weighted sum of the similarity to the vector indexed last and of `1 / (hops + 1)` for the
shortest directed path from any centre. -/
theorem C106_index_and_closeness (E : Env) (hE : Sorts E) (sort : List TResult → List TResult)
    (hs : ∀ l, SortedFrom (fun a b => b.total ≤ a.total) l (sort l)) (ops : List Op) (s : State) (h : Inv s) (q : TQuery) :
    ∃ ix cs out pool, run E (new 16) ops = some ix ∧ search E ix q.vector (q.topK * 3) = some cs ∧
      hnswHybridSearch E sort ix s q = some out ∧ (pool.map (fun r : TResult => r.node.id)).Nodup ∧
      IsTopK TResult.total pool q.topK out ∧
      (∀ r, r ∈ pool ↔ Combined s q r ∧ ⟨r.node.id, r.vectorScore⟩ ∈ cs) ∧
      ∀ r ∈ pool, ∃ v, latest ops (fun _ => none) r.node.id = some v ∧ r.vectorScore = E.sim q.vector v := by
  obtain ⟨ix, h1, h2⟩ := run_latest E hE ops (new 16)
  obtain ⟨cs, h3, h4, h5, h6, h7⟩ := search_sound E hE ix q.vector (q.topK * 3)
  obtain ⟨pool, h8, h9, h10⟩ := scoreCands_spec s h q cs h4
  refine ⟨ix, cs, (sort pool).take q.topK, pool, h1, h3, by rw [hnswHybridSearch, h3]; simp only [h8, Option.map_some], h9,
    isTopK_take _ _ _ _ (hs pool), h10, ?_⟩
  intro r hr
  obtain ⟨v, hv, hsim⟩ := h5 _ ((h10 r).1 hr).2
  refine ⟨v, ?_, hsim⟩
  rw [← hv, h2]
  rfl

example : ((run testEnv (new 16) [.add "a" [1] 0, .add "b" [2] 0, .add "x" [3] 0]).bind (fun h => hnswSearch testEnv h small [1] 2 0)) =
    some [(typed "a" "person", 1), (typed "b" "place", 0)] := by decide +kernel

example : ((run testEnv (new 16) [.add "a" [1] 0, .add "b" [2] 0, .add "x" [3] 0]).bind
      (fun h => hnswHybridSearch testEnv (insertSort TResult.total) h small ⟨[2], ["a"], 2, 0, 0, 1, 1⟩)) =
    some [⟨typed "b" "place", 1, 1 / 2, 3 / 2⟩, ⟨typed "a" "person", 0, 1, 1⟩] := by decide +kernel

end Verif.GHnsw
