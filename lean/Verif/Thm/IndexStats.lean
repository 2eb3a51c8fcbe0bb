import Verif.Model.IndexStats
import Verif.Thm.Hnsw
import Verif.Thm.Ivf
import Verif.Thm.Lsh
import Mathlib.Algebra.Order.BigOperators.Group.List
import Mathlib.Tactic.Ring

/-! C201: the statistics of the vector indexes. -/

namespace Verif.Hnsw
open Verif.Base Verif.Spec
variable {V : Type}

/-- The nodes that are not deleted. -/
def live (l : List (Node V)) : List (Node V) := l.filter (fun n => !n.deleted)

theorem count_all (l : List (Node V)) : ∀ c : Counts,
    (l.foldl count c).active = c.active + (live l).length ∧
    (l.foldl count c).edges = c.edges + ((live l).map (fun n => (n.nbrs.map List.length).sum)).sum ∧
    (∀ k, (l.foldl count c).levels k = c.levels k + ((live l).filter (fun n => decide (n.level = k))).length) ∧
    (∀ n ∈ live l, n.level ≤ (l.foldl count c).maxLevel) ∧ c.maxLevel ≤ (l.foldl count c).maxLevel ∧
    ((l.foldl count c).maxLevel = c.maxLevel ∨ ∃ n ∈ live l, n.level = (l.foldl count c).maxLevel) := by
  induction l with
  | nil => intro c; simp [live]
  | cons a l ih =>
    intro c
    rw [List.foldl_cons]
    obtain ⟨h1, h2, h3, h4, h5, h6⟩ := ih (count c a)
    rw [h1, h2]
    cases hd : a.deleted with
    | true =>
      have hc : count c a = c := by simp [count, hd]
      have hl : live (a :: l) = live l := by simp [live, hd]
      rw [hc] at h3 h4 h5 h6 ⊢
      rw [hl]
      exact ⟨rfl, rfl, h3, h4, h5, h6⟩
    | false =>
      have hl : live (a :: l) = a :: live l := by simp [live, hd]
      have hc : count c a = ⟨c.active + 1, c.edges + (a.nbrs.map List.length).sum, if a.level > c.maxLevel then a.level else c.maxLevel,
          fun l => if l = a.level then c.levels l + 1 else c.levels l⟩ := by simp [count, hd]
      rw [hl]
      generalize hm : (l.foldl count (count c a)).maxLevel = m at h4 h5 h6 ⊢
      rw [hc] at h3 h5 h6 ⊢
      simp only at h3 h5 h6 ⊢
      refine ⟨by simp; omega, by simp; omega, ?_, ?_, ?_, ?_⟩
      · intro k
        rw [h3 k, List.filter_cons]
        by_cases hk : k = a.level
        · subst hk; simp; omega
        · simp [hk, Ne.symm hk]
      · intro n hn
        rcases List.mem_cons.1 hn with rfl | hn
        · split at h5 <;> omega
        · exact h4 n hn
      · split at h5 <;> omega
      · rcases h6 with h6 | ⟨n, hn, e⟩
        · split at h6
          · right; exact ⟨a, by simp, h6.symm⟩
          · left; exact h6
        · right; exact ⟨n, by simp [hn], e⟩

/-- **C201 (HNSW).** After any history the statistics count the ids present and those deleted: the live nodes are as many
as `Size` says and as many as the ids the history left, live and deleted make up the total, each level counts the live
nodes of that level, the maximum level is the greatest among live nodes (0 without any), the average is the number of
links per live node. Whatever the order in which the nodes are visited. -/
theorem C201_hnsw (E : Env V) (M efC : Nat) (ops : List (Op V)) (hok : ∀ op ∈ ops, op.ok)
    (order : List (Node V) → List (Node V)) (ho : ∀ l, (order l).Perm l) :
    ∃ h, run E (new V M efC) ops = some h ∧
      (∃ ids : List String, ids.Nodup ∧ (∀ x, x ∈ ids ↔ ∃ v, after ops x = some (v, false)) ∧ (stats order h).active = ids.length) ∧
      (stats order h).active = size h ∧
      ((stats order h).active : Int) + (stats order h).deleted = (stats order h).total ∧ 0 ≤ (stats order h).deleted ∧
      (∀ k, (stats order h).levels k = (h.nodes.filter (fun n => !n.deleted && decide (n.level = k))).length) ∧
      (∀ n ∈ h.nodes, n.deleted = false → n.level ≤ (stats order h).maxLevel) ∧
      (0 < size h → ∃ n ∈ h.nodes, n.deleted = false ∧ n.level = (stats order h).maxLevel) ∧
      (size h = 0 → (stats order h).maxLevel = 0 ∧ (stats order h).avgEdges = 0) ∧
      (0 < size h → (stats order h).avgEdges * size h =
        ((h.nodes.filter (fun n => !n.deleted)).map (fun n => (n.nbrs.map List.length).sum)).sum) := by
  obtain ⟨h, hr, -, -, live', hl1, hl2, hl3⟩ := C110_errors_and_size E M efC ops hok
  have hp := ho h.nodes
  have hlp : (live (order h.nodes)).Perm (live h.nodes) := hp.filter _
  obtain ⟨h1, h2, h3, h4, h5, h6⟩ := count_all (order h.nodes) ⟨0, 0, 0, fun _ => 0⟩
  have hact : (stats order h).active = size h := by
    show ((order h.nodes).foldl count _).active = _
    rw [h1, hlp.length_eq]; simp [live, size]
  have hmem : ∀ n, n ∈ live (order h.nodes) ↔ n ∈ h.nodes ∧ n.deleted = false := by
    intro n; rw [hlp.mem_iff]; simp [live]
  have hle : size h ≤ h.nodes.length := List.length_filter_le _ _
  have hex : 0 < size h → ∃ n, n ∈ live (order h.nodes) := by
    intro hpos
    rw [show size h = (live h.nodes).length from rfl, ← hlp.length_eq] at hpos
    exact List.exists_mem_of_length_pos hpos
  refine ⟨h, hr, ⟨live', hl1, hl2, hact.trans hl3⟩, hact, ?_, ?_, ?_, ?_, ?_, ?_, ?_⟩
  · show ((stats order h).active : Int) + ((h.nodes.length : Int) - (stats order h).active) = h.nodes.length
    omega
  · show 0 ≤ (h.nodes.length : Int) - (stats order h).active
    rw [hact]; omega
  · intro k
    show ((order h.nodes).foldl count _).levels k = _
    rw [h3 k, (hlp.filter _).length_eq]
    simp [live, List.filter_filter, Bool.and_comm]
  · intro n hn hd
    exact h4 n ((hmem n).2 ⟨hn, hd⟩)
  · intro hpos
    rcases h6 with h6 | ⟨n, hn, e⟩
    · obtain ⟨n, hn⟩ := hex hpos
      refine ⟨n, ((hmem n).1 hn).1, ((hmem n).1 hn).2, ?_⟩
      have := h4 n hn
      show n.level = ((order h.nodes).foldl count _).maxLevel
      rw [h6] at this ⊢
      simp only at this ⊢
      omega
    · exact ⟨n, ((hmem n).1 hn).1, ((hmem n).1 hn).2, e⟩
  · intro h0
    constructor
    · rcases h6 with h6 | ⟨n, hn, e⟩
      · exact h6
      · rw [show size h = (live h.nodes).length from rfl, ← hlp.length_eq] at h0
        rw [List.length_eq_zero_iff.1 h0] at hn
        simp at hn
    · show (if (stats order h).active > 0 then _ else (0 : ℚ)) = 0
      rw [hact, h0]; simp
  · intro hpos
    show (if (stats order h).active > 0 then _ / ((stats order h).active : ℚ) else (0 : ℚ)) * _ = _
    rw [hact, if_pos hpos, div_mul_cancel₀ _ (by exact_mod_cast hpos.ne')]
    rw [h2, (hlp.map _).sum_eq]
    simp [live]

example : (run lineEnv (new Nat 2 10) [.insert "a" 0 1, .insert "b" 5 0, .insert "c" 7 0, .delete "b" id]).map
    (fun h => let s := stats List.reverse h; (s.total, s.active, s.deleted, s.maxLevel, s.levels 0, s.levels 1)) =
    some (3, 2, 1, 1, 1, 1) := by decide +kernel

end Verif.Hnsw

namespace Verif.Ivf
open Verif.Base Verif.Spec
variable {V : Type}

theorem spread_all (l : List Nat) : ∀ a b t : Nat, a ≤ b →
    let r := l.foldl spread (a, b, t)
    r.1 ≤ a ∧ b ≤ r.2.1 ∧ (∀ x ∈ l, r.1 ≤ x ∧ x ≤ r.2.1) ∧ r.2.2 = t + l.sum ∧
    (r.1 = a ∨ r.1 ∈ l) ∧ (r.2.1 = b ∨ r.2.1 ∈ l) := by
  induction l with
  | nil => intro a b t h; simp
  | cons x l ih =>
    intro a b t h
    simp only [List.foldl_cons]
    have := ih (if x < a then x else a) (if x > b then x else b) (t + x) (by split <;> split <;> omega)
    rw [show spread (a, b, t) x = (if x < a then x else a, if x > b then x else b, t + x) from rfl]
    simp only at this
    generalize l.foldl spread (if x < a then x else a, if x > b then x else b, t + x) = r at this ⊢
    obtain ⟨h1, h2, h3, h4, h5, h6⟩ := this
    refine ⟨?_, ?_, ?_, ?_, ?_, ?_⟩
    · split at h1 <;> omega
    · split at h2 <;> omega
    · intro y hy
      rcases List.mem_cons.1 hy with rfl | hy
      · split at h1 <;> split at h2 <;> omega
      · exact h3 y hy
    · simp; omega
    · rcases h5 with h5 | h5
      · split at h5
        · right; simp [h5]
        · left; exact h5
      · right; simp [h5]
    · rcases h6 with h6 | h6
      · split at h6
        · right; simp [h6]
        · left; exact h6
      · right; simp [h6]

/-- **C201 (IVF), partial.** After a history that neither deletes an entry before later ones of its cluster nor trains
again over entries, the statistics exist, count the entries the history left, the smallest and the greatest cluster size
are sizes of clusters and bound all of them, and the average times the number of clusters is the number of entries. -/
theorem C201_ivf_partial (E : Env V) (hE : E.Sound) (d n : Nat) (hn : 0 < n) (ops : List (Op V)) (ht : AllTidy E (new V d n) ops) :
    ∃ ix s lo hi avg, run E (new V d n) ops = some ix ∧ stats ix = some s ∧ s.sizes = some (lo, hi, avg) ∧
      s.nvectors = (after E.dim d n ops).entries.length ∧ s.trained = (after E.dim d n ops).trained ∧
      avg * n = s.nvectors ∧ (∀ l ∈ ix.inv, lo ≤ l.length ∧ l.length ≤ hi) ∧
      (∃ l ∈ ix.inv, l.length = lo) ∧ (∃ l ∈ ix.inv, l.length = hi) := by
  obtain ⟨ix, a1, a2, ⟨a3, a4⟩, a5, a6⟩ := run_new E hE d n hn ops ht
  have hlen := a2.lists
  have hsum : (ix.inv.map List.length).sum = ix.vecs.length := by
    rw [← List.length_flatten, a2.perm.length_eq, List.length_range]
  have hcs : ix.inv.map List.length ++ List.replicate (ix.ncent - ix.inv.length) 0 = ix.inv.map List.length := by simp [hlen]
  have hst : ∃ s r, stats ix = some s ∧ r = (ix.inv.map List.length).foldl spread (((ix.inv.map List.length)[0]?).getD 0, ((ix.inv.map List.length)[0]?).getD 0, 0) ∧
      s.nvectors = ix.vecs.length ∧ s.trained = ix.trained ∧ s.sizes = some (r.1, r.2.1, (r.2.2 : ℚ) / ix.ncent) := by
    unfold stats
    rw [if_neg (by omega)]
    simp only [hcs]
    cases hi : ix.inv.map List.length with
    | nil =>
      have h0 := congrArg List.length hi
      have := a2.pos
      simp only [List.length_map, List.length_nil] at h0
      omega
    | cons x l =>
      refine ⟨_, _, rfl, rfl, rfl, rfl, ?_⟩
      have hl2 := congrArg List.length hi
      simp only [List.length_map, hlen] at hl2
      simp only [List.getElem?_cons_zero, Option.getD_some, hl2]
  obtain ⟨s, r, e1, e2, e3, e4, e5⟩ := hst
  have hs0 : ((ix.inv.map List.length)[0]?).getD 0 ∈ ix.inv.map List.length := by
    have : 0 < (ix.inv.map List.length).length := by rw [List.length_map, hlen]; exact a2.pos
    rw [List.getElem?_eq_getElem this]
    exact List.getElem_mem this
  have key := spread_all (ix.inv.map List.length) _ _ 0 (le_refl (((ix.inv.map List.length)[0]?).getD 0))
  simp only [← e2] at key
  obtain ⟨k1, k2, k3, k4, k5, k6⟩ := key
  have hin : ∀ x, x ∈ ix.inv.map List.length → ∃ l ∈ ix.inv, l.length = x := by
    intro x hx; simpa using hx
  refine ⟨ix, s, r.1, r.2.1, (r.2.2 : ℚ) / ix.ncent, a1, e1, e5, ?_, e4.trans a3, ?_, ?_, ?_, ?_⟩
  · rw [e3, ← a4]; simp [entries, a2.len]
  · rw [e3, k4, hsum, a5, div_mul_cancel₀ _ (by exact_mod_cast hn.ne')]; simp
  · intro l hl
    exact k3 _ (List.mem_map_of_mem hl)
  · refine hin _ ?_
    rcases k5 with k5 | k5
    · rw [k5]; exact hs0
    · exact k5
  · refine hin _ ?_
    rcases k6 with k6 | k6
    · rw [k6]; exact hs0
    · exact k6

/-- **C201 (IVF), violated.** After training again over entries the statistics count the entries and say that every
cluster is empty. -/
theorem C201_ivf_retrain_violated (E : Env V) (ix : Index V) (hp : 0 < ix.ncent) (hl : ix.inv.length = ix.ncent) (vs : List V)
    (hv : ix.ncent ≤ vs.length) :
    ∃ ix' s, train E ix vs = .ok ix' ∧ stats ix' = some s ∧ s.nvectors = ix.vecs.length ∧ s.sizes = some (0, 0, 0) := by
  refine ⟨{ ix with centroids := E.kmeans vs ix.ncent, trained := true, inv := ix.inv.map (fun _ => []) }, ?_⟩
  have hz : (ix.inv.map (fun _ => ([] : List Nat))).map List.length = List.replicate ix.ncent 0 := by
    rw [List.map_map, ← hl]
    exact List.map_const'
  have hsp : ∀ m, (List.replicate m 0).foldl spread (0, 0, 0) = (0, 0, 0) := by
    intro m
    induction m with
    | zero => rfl
    | succ m ih => rw [List.replicate_succ, List.foldl_cons]; exact ih
  obtain ⟨m, hm⟩ : ∃ m, ix.ncent = m + 1 := ⟨ix.ncent - 1, by omega⟩
  refine ⟨⟨ix.vecs.length, true, some (0, 0, 0)⟩, by unfold train; rw [if_neg (by omega)], ?_, rfl, rfl⟩
  unfold stats
  simp only [List.length_map, hl, hz]
  rw [if_neg (by omega)]
  simp only [Nat.sub_self, List.replicate_zero, List.append_nil]
  rw [hm, List.replicate_succ]
  simp only
  rw [← List.replicate_succ, hsp]
  simp

example : AllTidy lineEnv (new Nat 1 2) [.train [0, 10], .add "a" 1, .add "b" 2, .add "c" 9, .delete "b", .add "d" 3] :=
  allTidyB_ok _ _ _ (by decide +kernel)

example : ((run lineEnv (new Nat 1 2) [.train [0, 10], .add "a" 1, .add "b" 2, .add "c" 9, .delete "b", .add "d" 3]).bind stats).map
    (fun s => (s.nvectors, s.sizes)) = some (3, some (1, 2, 3 / 2)) := by decide +kernel

example : ((run lineEnv (new Nat 1 2) [.train [0, 10], .add "a" 1, .train [0, 10]]).bind stats).map
    (fun s => (s.nvectors, s.sizes)) = some (1, some (0, 0, 0)) := by decide +kernel

end Verif.Ivf

namespace Verif.Lsh
open Verif.Base Verif.Spec

/-- The keys of a table: the buckets that are not empty, each once. -/
def KeysOf (t : Nat → List String) (ks : List Nat) : Prop := ks.Nodup ∧ ∀ h, h ∈ ks ↔ t h ≠ []

/-- No id is inserted (with a vector that is accepted) while it is present. -/
def Fresh (d : Nat) : Contents → List Op → Prop
  | _, [] => True
  | c, op :: ops => (∀ id v, op = .insert id v → v.length = d → c id = none) ∧ Fresh d (effect d c op) ops

/-- Every bucket holds the ids of the vectors with its hash, each once. -/
def Exact (ix : Index) : Prop :=
  ∀ (i : Nat) (ps : List Vec) (t : Nat → List String), ix.projs[i]? = some ps → ix.tables[i]? = some t →
    ∀ h, (t h).Perm ((ix.vecs.filter (fun e => decide (computeHash e.2 ps = h))).map Prod.fst)

theorem delA_absent {β : Type} {l : List (String × β)} {x : String} (h : getA l x = none) : delA l x = l := by
  unfold delA
  rw [List.filter_eq_self]
  intro e he
  simp only [getA, Option.map_eq_none_iff, List.find?_eq_none] at h
  simpa using h e he

theorem exact_step (d : Nat) (projs : List (List Vec)) (ix : Index) (c : Contents) (hi : Inv d projs ix c) (hx : Exact ix) (op : Op)
    (hf : ∀ id v, op = .insert id v → v.length = d → c id = none) : Exact (step ix op) := by
  cases op with
  | insert id v =>
    by_cases hd : v.length = d
    · have hn := hf id v rfl hd
      have hs : step ix (.insert id v) = { ix with vecs := (id, v) :: ix.vecs, tables := List.zipWith (fun ps t => addTo t (computeHash v ps) id) ix.projs ix.tables } := by
        simp only [step, insert]
        rw [if_neg (by rw [hi.dim]; simp [hd])]
        simp only [putA]
        rw [delA_absent (by rw [hi.holds, hn])]
      rw [hs]
      intro i ps t' hp ht h
      obtain ⟨t, ht0, rfl⟩ := zip_get hp ht
      have := hx i ps t hp ht0 h
      unfold addTo
      by_cases hh : h = computeHash v ps
      · subst hh
        rw [if_pos rfl, List.filter_cons, if_pos (by simp)]
        exact (List.perm_append_singleton _ _).trans (this.cons id)
      · rw [if_neg hh, List.filter_cons, if_neg (by simpa using Ne.symm hh)]
        exact this
    · have : step ix (.insert id v) = ix := by
        simp only [step, insert]; rw [if_pos (by rw [hi.dim]; exact hd)]
      rw [this]; exact hx
  | delete id =>
    cases hg : getA ix.vecs id with
    | none =>
      have : step ix (.delete id) = ix := by simp [step, delete, hg]
      rw [this]; exact hx
    | some v =>
      have hs : step ix (.delete id) = { ix with vecs := delA ix.vecs id, tables := List.zipWith (fun ps t => takeFrom t (computeHash v ps) id) ix.projs ix.tables } := by
        simp [step, delete, hg]
      rw [hs]
      intro i ps t' hp ht h
      obtain ⟨t, ht0, rfl⟩ := zip_get hp ht
      have hperm := hx i ps t hp ht0 h
      have huniq : ∀ e ∈ ix.vecs, e.1 = id → e.2 = v := by
        intro e he h1
        have := (mem_get hi.keys e.1 e.2).1 he
        rw [h1, hg] at this
        exact (Option.some.inj this).symm
      have hcomm : ((delA ix.vecs id).filter (fun e => decide (computeHash e.2 ps = h))).map Prod.fst =
          ((ix.vecs.filter (fun e => decide (computeHash e.2 ps = h))).map Prod.fst).filter (fun y => decide (y ≠ id)) := by
        unfold delA
        rw [List.filter_map, List.filter_filter, List.filter_filter]
        congr 1
        refine List.filter_congr fun e _ => ?_
        simp [Bool.and_comm]
      simp only
      rw [hcomm]
      unfold takeFrom
      by_cases hh : h = computeHash v ps
      · rw [if_pos hh]
        exact hperm.filter _
      · rw [if_neg hh]
        rw [List.filter_eq_self.2]
        · exact hperm
        · intro y hy
          obtain ⟨e, he, rfl⟩ := List.mem_map.1 hy
          obtain ⟨he1, he2⟩ := List.mem_filter.1 he
          simp only [decide_eq_true_eq] at he2 ⊢
          intro h1
          rw [huniq e he1 h1] at he2
          exact hh he2.symm
  | clear =>
    intro i ps t hp ht h
    simp only [step, clear, List.getElem?_map] at ht hp ⊢
    rw [hp] at ht
    simp only [Option.map_some, Option.some.injEq] at ht
    subst ht
    simp

theorem exact_run (d : Nat) (projs : List (List Vec)) (ops : List Op) : ∀ (ix : Index) (c : Contents), Inv d projs ix c → Exact ix → Fresh d c ops →
    Exact (run ix ops) := by
  induction ops with
  | nil => intro ix c _ h _; exact h
  | cons op ops ih =>
    intro ix c hi hx hf
    exact ih _ _ (inv_step d projs ix c hi op) (exact_step d projs ix c hi hx op hf.1) hf.2

theorem indicator_sum (a : Nat) (ks : List Nat) (hn : ks.Nodup) : (ks.map (fun h => if a = h then 1 else 0)).sum = if a ∈ ks then 1 else 0 := by
  induction ks with
  | nil => simp
  | cons k ks ih =>
    have hk := List.nodup_cons.1 hn
    rw [List.map_cons, List.sum_cons, ih hk.2]
    by_cases h : a = k
    · subst h; simp [hk.1]
    · simp [h]

/-- Sorting things into buckets counts each once. -/
theorem partition_sum {α : Type} (f : α → Nat) (ks : List Nat) (hn : ks.Nodup) (l : List α) (h : ∀ x ∈ l, f x ∈ ks) :
    (ks.map (fun k => (l.filter (fun x => decide (f x = k))).length)).sum = l.length := by
  induction l with
  | nil => simp
  | cons a l ih =>
    have e : ∀ k, ((a :: l).filter (fun x => decide (f x = k))).length = (l.filter (fun x => decide (f x = k))).length + (if f a = k then 1 else 0) := by
      intro k
      rw [List.filter_cons]
      by_cases hk : f a = k <;> simp [hk]
    simp only [e, List.sum_map_add]
    rw [ih (fun x hx => h x (List.mem_cons_of_mem _ hx)), indicator_sum _ _ hn, if_pos (h a (by simp))]
    rfl

theorem countBucket_all (t : Nat → List String) (ks : List Nat) : ∀ i m : Nat,
    (ks.foldl (countBucket t) (i, m)).1 = i + (ks.map (fun h => (t h).length)).sum ∧
    m ≤ (ks.foldl (countBucket t) (i, m)).2 ∧ (∀ h ∈ ks, (t h).length ≤ (ks.foldl (countBucket t) (i, m)).2) ∧
    ((ks.foldl (countBucket t) (i, m)).2 = m ∨ ∃ h ∈ ks, (t h).length = (ks.foldl (countBucket t) (i, m)).2) := by
  induction ks with
  | nil => intro i m; simp
  | cons k ks ih =>
    intro i m
    rw [List.foldl_cons]
    obtain ⟨h1, h2, h3, h4⟩ := ih (i + (t k).length) (if (t k).length > m then (t k).length else m)
    rw [show countBucket t (i, m) k = (i + (t k).length, if (t k).length > m then (t k).length else m) from rfl, h1]
    generalize (ks.foldl (countBucket t) (i + (t k).length, if (t k).length > m then (t k).length else m)).2 = r at h2 h3 h4 ⊢
    refine ⟨by simp; omega, ?_, ?_, ?_⟩
    · split at h2 <;> omega
    · intro h hh
      rcases List.mem_cons.1 hh with rfl | hh
      · split at h2 <;> omega
      · exact h3 h hh
    · rcases h4 with h4 | ⟨h, hh, e⟩
      · split at h4
        · right; exact ⟨k, by simp, h4.symm⟩
        · left; exact h4
      · right; exact ⟨h, by simp [hh], e⟩

theorem countTables_all (n : Nat) (ts : List (Nat → List String)) : ∀ (kss : List (List Nat)) (b i m : Nat), ts.length = kss.length →
    (∀ p ∈ ts.zip kss, (p.2.map (fun h => (p.1 h).length)).sum = n) →
    (countTables ts kss (b, i, m)).1 = b + (kss.map List.length).sum ∧
    (countTables ts kss (b, i, m)).2.1 = i + ts.length * n ∧ m ≤ (countTables ts kss (b, i, m)).2.2 ∧
    (∀ p ∈ ts.zip kss, ∀ h ∈ p.2, (p.1 h).length ≤ (countTables ts kss (b, i, m)).2.2) ∧
    ((countTables ts kss (b, i, m)).2.2 = m ∨ ∃ p ∈ ts.zip kss, ∃ h ∈ p.2, (p.1 h).length = (countTables ts kss (b, i, m)).2.2) := by
  induction ts with
  | nil =>
    intro kss b i m hl _
    have : kss = [] := List.length_eq_zero_iff.1 hl.symm
    subst this
    simp [countTables]
  | cons t ts ih =>
    intro kss b i m hl hs
    cases kss with
    | nil => simp at hl
    | cons ks kss =>
      rw [countTables]
      obtain ⟨c1, c2, c3, c4⟩ := countBucket_all t ks i m
      have hsum := hs (t, ks) (by simp)
      simp only at hsum
      obtain ⟨h1, h2, h3, h4, h5⟩ := ih kss (b + ks.length) (ks.foldl (countBucket t) (i, m)).1 (ks.foldl (countBucket t) (i, m)).2
        (by simpa using hl) (fun p hp => hs p (by simp [hp]))
      generalize hr : countTables ts kss (b + ks.length, (ks.foldl (countBucket t) (i, m)).1, (ks.foldl (countBucket t) (i, m)).2) = r at h1 h2 h3 h4 h5 ⊢
      refine ⟨by rw [h1]; simp; omega, ?_, by omega, ?_, ?_⟩
      · rw [h2, c1, hsum, List.length_cons, Nat.add_mul]; omega
      · intro p hp h hh
        rw [List.zip_cons_cons] at hp
        rcases List.mem_cons.1 hp with rfl | hp
        · exact le_trans (c3 h hh) h3
        · exact h4 p hp h hh
      · rcases h5 with h5 | ⟨p, hp, h, hh, e⟩
        · rcases c4 with c4 | ⟨h, hh, e⟩
          · left; omega
          · right; exact ⟨(t, ks), by simp, h, hh, by rw [h5]; exact e⟩
        · right; exact ⟨p, by simp [hp], h, hh, e⟩

/-- **C201 (LSH), partial.** After a history that never inserts an id that is present: the statistics count the ids the
history left, the items in the tables are one for each table and id (so the overhead is that of the other tables), the
average bucket size times the number of buckets is the number of items, and the greatest bucket is one and bounds all. -/
theorem C201_lsh_partial (d : Nat) (projs : List (List Vec)) (ops : List Op) (hf : Fresh d (fun _ => none) ops) (keys : List (List Nat))
    (hk : List.Forall₂ KeysOf (run (new d projs) ops).tables keys) :
    let s := stats keys (run (new d projs) ops)
    (∃ ids : List String, ids.Nodup ∧ (∀ y, y ∈ ids ↔ (after d ops y).isSome = true) ∧ s.vectors = ids.length) ∧
    s.tables = projs.length ∧ s.overhead = (projs.length : Int) * s.vectors - s.vectors ∧
    s.buckets = (keys.map List.length).sum ∧ s.avgBucket * s.buckets = (projs.length : ℚ) * s.vectors ∧
    (∀ t ∈ (run (new d projs) ops).tables, ∀ h, (t h).length ≤ s.maxBucket) ∧
    (0 < s.vectors → projs ≠ [] → ∃ t ∈ (run (new d projs) ops).tables, ∃ h, (t h).length = s.maxBucket) := by
  have hi := inv_new d projs ops
  have hx : Exact (run (new d projs) ops) := by
    refine exact_run d projs ops (new d projs) (fun _ => none) (inv_new d projs []) ?_ hf
    intro i ps t hp ht h
    simp only [new, List.getElem?_map] at ht hp ⊢
    rw [hp] at ht
    simp only [Option.map_some, Option.some.injEq] at ht
    subst ht
    simp
  obtain ⟨-, ids, g1, g2, g3⟩ := C36_delete_and_size d projs ops ""
  generalize run (new d projs) ops = ix at hi hx hk g3
  have hlen : ix.tables.length = keys.length := hk.length_eq
  have htl : ix.tables.length = projs.length := by rw [hi.len, hi.projs_eq]
  have hone : ∀ p ∈ ix.tables.zip keys, (p.2.map (fun h => (p.1 h).length)).sum = ix.vecs.length := by
    intro p hp
    obtain ⟨i, hi1, hi2⟩ := List.mem_iff_getElem.1 hp
    rw [List.length_zip] at hi1
    have ht : ix.tables[i]? = some p.1 := by
      rw [List.getElem?_eq_getElem (by omega), ← hi2]; simp
    have hps : ∃ ps, ix.projs[i]? = some ps := by
      have := hi.len
      exact ⟨_, List.getElem?_eq_getElem (by omega)⟩
    obtain ⟨ps, hps⟩ := hps
    have hkk : KeysOf p.1 p.2 := List.forall₂_zip hk hp
    have hE := hx i ps p.1 hps ht
    have : (p.2.map (fun h => (p.1 h).length)) = p.2.map (fun h => (ix.vecs.filter (fun e => decide (computeHash e.2 ps = h))).length) := by
      refine List.map_congr_left fun h _ => ?_
      rw [(hE h).length_eq, List.length_map]
    rw [this]
    refine partition_sum (fun e : String × Vec => computeHash e.2 ps) p.2 hkk.1 ix.vecs ?_
    intro e he
    rw [hkk.2]
    intro h0
    have := hE (computeHash e.2 ps)
    rw [h0] at this
    have hmem : e.1 ∈ (ix.vecs.filter (fun e' => decide (computeHash e'.2 ps = computeHash e.2 ps))).map Prod.fst :=
      List.mem_map_of_mem (List.mem_filter.2 ⟨he, by simp⟩)
    rw [List.nil_perm.1 this] at hmem
    simp at hmem
  obtain ⟨c1, c2, c3, c4, c5⟩ := countTables_all ix.vecs.length ix.tables keys 0 0 0 hlen hone
  have hfind : ∀ t ∈ ix.tables, ∀ h, t h ≠ [] → ∃ p ∈ ix.tables.zip keys, p.1 = t ∧ h ∈ p.2 := by
    intro t ht h hne
    obtain ⟨i, hi1, hi2⟩ := List.mem_iff_getElem.1 ht
    have hz : i < (ix.tables.zip keys).length := by rw [List.length_zip]; omega
    refine ⟨(ix.tables.zip keys)[i], List.getElem_mem hz, by simp [hi2], ?_⟩
    have hkk : KeysOf (ix.tables.zip keys)[i].1 (ix.tables.zip keys)[i].2 := List.forall₂_zip hk (List.getElem_mem hz)
    rw [hkk.2]
    simpa [hi2] using hne
  simp only
  refine ⟨⟨ids, g1, g2, g3⟩, htl, ?_, ?_, ?_, ?_, ?_⟩
  · show ((countTables ix.tables keys (0, 0, 0)).2.1 : Int) - _ = _
    rw [c2, htl]
    simp [stats]
  · show (countTables ix.tables keys (0, 0, 0)).1 = _
    rw [c1]; simp
  · show (if (countTables ix.tables keys (0, 0, 0)).1 > 0 then ((countTables ix.tables keys (0, 0, 0)).2.1 : ℚ) / (countTables ix.tables keys (0, 0, 0)).1 else 0) * (countTables ix.tables keys (0, 0, 0)).1 = (projs.length : ℚ) * (ix.vecs.length : ℚ)
    by_cases hb : (countTables ix.tables keys (0, 0, 0)).1 > 0
    · rw [if_pos hb, div_mul_cancel₀ _ (by exact_mod_cast hb.ne'), c2, htl]; push_cast; ring
    · rw [if_neg hb, zero_mul]
      have hb0 : (keys.map List.length).sum = 0 := by rw [c1] at hb; omega
      have hz : ix.tables.length * ix.vecs.length = 0 := by
        rcases Nat.eq_zero_or_pos ix.tables.length with h | h
        · simp [h]
        · have hz : 0 < (ix.tables.zip keys).length := by rw [List.length_zip]; omega
          have hp := List.getElem_mem hz
          have h1 := hone _ hp
          have h2 : (ix.tables.zip keys)[0].2.length = 0 := by
            have : (ix.tables.zip keys)[0].2 ∈ keys := (List.of_mem_zip hp).2
            exact List.sum_eq_zero_iff.1 hb0 _ (List.mem_map_of_mem this)
          rw [List.length_eq_zero_iff.1 h2] at h1
          simp at h1
          rw [← h1]; simp
      rw [← htl]
      exact_mod_cast hz.symm
  · intro t ht h
    show (t h).length ≤ (countTables ix.tables keys (0, 0, 0)).2.2
    by_cases h0 : t h = []
    · simp [h0]
    · obtain ⟨p, hp, rfl, hh⟩ := hfind t ht h h0
      exact c4 p hp h hh
  · intro hv hne
    show ∃ t ∈ ix.tables, ∃ h, (t h).length = (countTables ix.tables keys (0, 0, 0)).2.2
    rcases c5 with c5 | ⟨p, hp, h, -, e⟩
    · have hpos : 0 < ix.tables.length := by rw [htl]; exact List.length_pos_iff.2 hne
      have hz : 0 < (ix.tables.zip keys).length := by rw [List.length_zip]; omega
      have hp := List.getElem_mem hz
      have h1 := hone _ hp
      refine absurd h1 ?_
      have : ((ix.tables.zip keys)[0].2.map (fun h => ((ix.tables.zip keys)[0].1 h).length)).sum = 0 := by
        refine List.sum_eq_zero_iff.2 ?_
        intro x hx
        obtain ⟨h, hh, rfl⟩ := List.mem_map.1 hx
        have := c4 _ hp h hh
        omega
      rw [this]
      have hv' : 0 < ix.vecs.length := hv
      omega
    · exact ⟨p.1, (List.of_mem_zip hp).1, h, e⟩

/-- **C201 (LSH), violated.** Inserting an id again with the same vector leaves one vector and two items in every table: the
overhead grows though nothing was added. -/
theorem C201_lsh_violated :
    (stats [[1]] (run (new 1 [[[1]]]) [.insert "a" [2]])).overhead = 0 ∧
    (stats [[1]] (run (new 1 [[[1]]]) [.insert "a" [2], .insert "a" [2]])).overhead = 1 ∧
    (stats [[1]] (run (new 1 [[[1]]]) [.insert "a" [2], .insert "a" [2]])).vectors = 1 := by
  decide +kernel

example : Fresh 1 (fun _ => none) [.insert "a" [2], .insert "b" [-1], .delete "a", .insert "a" [3]] := by
  refine ⟨fun id v h _ => rfl, ?_, ?_, ?_, trivial⟩
  · intro id v h _; cases h; simp [effect]
  · intro id v h; cases h
  · intro id v h _; cases h; simp [effect]

example : (let s := stats [[0, 1], [0]] (run (new 1 [[[1]], [[0]]]) [.insert "a" [2], .insert "b" [-1]]);
    (s.vectors, s.buckets, s.avgBucket, s.maxBucket, s.overhead)) = (2, 3, 4 / 3, 2, 2) := by decide +kernel

end Verif.Lsh
