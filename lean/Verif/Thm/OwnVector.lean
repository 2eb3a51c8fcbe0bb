import Verif.Thm.Ivf

/-!
C254: searching an IVF index (pkg/index/ivf.go) for a vector it holds finds this vector.
-/
namespace Verif.Ivf
open Verif.Base Verif.Spec

variable {V : Type}

/-- `search_spec`, with the vectors of every searched cluster named. -/
theorem search_pool (E : Env V) (hE : E.Sound) (ix : Index V) (q : V) (k : Nat) (hi : Inv ix) (ht : ix.trained = true) (hd : E.dim q = ix.dimension) :
    ∃ out pool, search E ix q k = .ok out ∧ pool.Subperm ((entries ix).map (scored E q)) ∧ IsTopK (fun r => -r.2) pool k out ∧
      (∀ c ∈ probed E ix q, ∀ p ∈ (ix.inv[c]?).getD [], (nameOf ix p, scoreOf E ix q p) ∈ pool) := by
  obtain ⟨s, hs, hp⟩ := probed_spec E hE ix q hi ht
  have hlt : ∀ c ∈ probed E ix q, c < ix.inv.length := by
    intro c hc
    rw [hp] at hc
    rw [hi.lists]
    exact List.mem_range.1 (hs.mem_iff.1 (List.mem_of_mem_take hc))
  have h1 : allSome (fun c => ix.inv[c]?) (probed E ix q) = some ((probed E ix q).map (fun c => (ix.inv[c]?).getD [])) := by
    apply allSome_map
    intro c hc
    rw [List.getElem?_eq_getElem (hlt c hc)]
    rfl
  have hwhole : (s.flatMap (fun c => (ix.inv[c]?).getD [])).Perm (List.range ix.vecs.length) := by
    refine (hs.flatMap_right _).trans ?_
    rw [← hi.lists, range_flatMap]
    exact hi.perm
  have hpos : ((probed E ix q).map (fun c => (ix.inv[c]?).getD [])).flatten.Subperm (List.range ix.vecs.length) := by
    rw [hp, ← List.flatMap_def]
    refine List.Subperm.trans ?_ hwhole.subperm
    conv_rhs => rw [← List.take_append_drop (min ix.nprobe ix.ncent) s, List.flatMap_append]
    exact (List.sublist_append_left _ _).subperm
  have hin : ∀ c ∈ probed E ix q, ∀ p ∈ (ix.inv[c]?).getD [], p ∈ ((probed E ix q).map (fun c => (ix.inv[c]?).getD [])).flatten :=
    fun c hc p hp => List.mem_flatten.2 ⟨_, List.mem_map_of_mem hc, hp⟩
  generalize hposd : ((probed E ix q).map (fun c => (ix.inv[c]?).getD [])).flatten = pos at hpos hin
  have hposlt : ∀ p ∈ pos, p < ix.vecs.length := fun p hp => List.mem_range.1 (hpos.subset hp)
  have h2 : allSome (scoreAt E ix q) pos = some (pos.map (fun p => (p, scoreOf E ix q p))) := by
    apply allSome_map
    intro p hp
    simp [scoreAt, scoreOf, List.getElem?_eq_getElem (hposlt p hp)]
  obtain ⟨hsp, hso⟩ := hE.sorts (pos.map (fun p => (p, scoreOf E ix q p)))
  have h3 : ∀ m : List (Nat × ℚ), (∀ c ∈ m, c.1 < ix.vecs.length) → allSome (nameAt ix) m = some (m.map (fun c => (nameOf ix c.1, c.2))) := by
    intro m hm
    apply allSome_map
    intro c hc
    have := hm c hc
    rw [← hi.len] at this
    simp [nameAt, nameOf, List.getElem?_eq_getElem this]
  have hlt2 : ∀ c ∈ (E.sort (pos.map (fun p => (p, scoreOf E ix q p)))).take k, c.1 < ix.vecs.length := by
    intro c hc
    obtain ⟨p, hp, rfl⟩ := List.mem_map.1 (hsp.mem_iff.1 (List.mem_of_mem_take hc))
    exact hposlt p hp
  refine ⟨((E.sort (pos.map (fun p => (p, scoreOf E ix q p)))).take k).map (fun c => (nameOf ix c.1, c.2)),
    pos.map (fun p => (nameOf ix p, scoreOf E ix q p)), ?_, ?_, ?_, ?_⟩
  · unfold search
    rw [if_neg (by rw [ht]; decide), if_neg (by rw [hd]; simp), h1]
    simp only
    rw [hposd, h2]
    simp only
    rw [h3 _ hlt2]
  · rw [← entries_map E ix q hi.len]
    obtain ⟨t, ht1, ht2⟩ := hpos
    exact ⟨t.map _, ht1.map _, ht2.map _⟩
  · rw [List.map_take]
    apply isTopK_take
    refine ⟨?_, ?_⟩
    · have := hsp.map (fun c => (nameOf ix c.1, c.2))
      rw [List.map_map] at this
      exact this
    · rw [List.pairwise_map]
      exact hso.imp (fun hab => neg_le_neg hab)
  · exact fun c hc p hp => List.mem_map_of_mem (hin c hc p hp)

/-- Every vector stands in the list of the centroid that is nearest to it. -/
def Placed (E : Env V) (ix : Index V) : Prop :=
  ∀ c p, p ∈ (ix.inv[c]?).getD [] → ∃ v, ix.vecs[p]? = some v ∧ nearest E ix v = c

theorem placed_empty (E : Env V) (ix : Index V) (h : ∀ l ∈ ix.inv, l = []) : Placed E ix := by
  intro c p hp
  cases hc : ix.inv[c]? with
  | none => rw [hc] at hp; simp at hp
  | some l => rw [hc, h l (List.mem_of_getElem? hc)] at hp; simp at hp

theorem placed_step (E : Env V) (ix ix' : Index V) (op : Op V) (hi : Inv ix) (hp : Placed E ix) (ht : Tidy ix op) (hs : step E ix op = some ix') :
    Placed E ix' := by
  have hnil : ∀ l ∈ ix.inv.map (fun _ => ([] : List Nat)), l = [] := by
    intro l hl
    obtain ⟨_, _, rfl⟩ := List.mem_map.1 hl
    rfl
  cases op with
  | train vs =>
    simp only [step, train] at hs
    split at hs
    · simp only [settle, Option.some.injEq] at hs; subst hs; exact hp
    · simp only [settle, Option.some.injEq] at hs; subst hs
      exact placed_empty E _ hnil
  | clear =>
    simp only [step, clear, Option.some.injEq] at hs; subst hs
    exact placed_empty E _ hnil
  | setNProbe n =>
    simp only [step, setNProbe, Option.some.injEq] at hs; subst hs
    exact hp
  | add id v =>
    simp only [step, add] at hs
    split at hs
    · simp only [settle, Option.some.injEq] at hs; subst hs; exact hp
    split at hs
    · simp only [settle, Option.some.injEq] at hs; subst hs; exact hp
    split at hs
    · simp [settle] at hs
    next l hl =>
    simp only [settle, Option.some.injEq] at hs; subst hs
    intro c p hcp
    have keep : ∀ c, p ∈ (ix.inv[c]?).getD [] → ∃ w, (ix.vecs ++ [v])[p]? = some w ∧ nearest E ix w = c := by
      intro c h
      obtain ⟨w, h1, h2⟩ := hp c p h
      have : p < ix.vecs.length := by
        by_contra hge
        rw [List.getElem?_eq_none (by omega)] at h1
        simp at h1
      exact ⟨w, by rw [List.getElem?_append_left this]; exact h1, h2⟩
    simp only at hcp
    by_cases hc : nearest E ix v = c
    · subst hc
      rw [List.getElem?_set_self (by
        by_contra hge
        rw [List.getElem?_eq_none (by omega)] at hl
        simp at hl)] at hcp
      simp only [Option.getD_some, List.mem_append, List.mem_singleton] at hcp
      rcases hcp with h | h
      · exact keep _ (by rw [hl]; exact h)
      · subst h
        exact ⟨v, by simp, rfl⟩
    · rw [List.getElem?_set_ne hc] at hcp
      exact keep c hcp
  | delete id =>
    simp only [step, delete] at hs
    split at hs
    · simp only [settle, Option.some.injEq] at hs; subst hs; exact hp
    split at hs
    · simp only [settle, Option.some.injEq] at hs; subst hs; exact hp
    next vi hf =>
    simp only [settle, Option.some.injEq] at hs; subst hs
    intro c p hcp
    simp only [List.getElem?_map] at hcp
    cases hc : ix.inv[c]? with
    | none => rw [hc] at hcp; simp at hcp
    | some l =>
      rw [hc] at hcp
      have hl := List.mem_of_getElem? hc
      simp only [Option.map_some, Option.getD_some] at hcp
      rw [dropFrom_tidy vi l (hi.asc l hl) (fun hm => ht vi hf l hl hm)] at hcp
      obtain ⟨x, hx, rfl⟩ := List.mem_map.1 hcp
      rw [List.mem_filter] at hx
      have hne := of_decide_eq_true hx.2
      obtain ⟨w, h1, h2⟩ := hp c x (by rw [hc]; exact hx.1)
      refine ⟨w, ?_, h2⟩
      simp only
      unfold shift
      split
      · rw [List.getElem?_eraseIdx_of_ge (by omega), show x - 1 + 1 = x by omega]
        exact h1
      · rw [List.getElem?_eraseIdx_of_lt (by omega)]
        exact h1

theorem placed_run (E : Env V) (hE : E.Sound) (ops : List (Op V)) : ∀ (ix ix' : Index V) (c : Contents V), Inv ix → Holds ix c → Placed E ix →
    AllTidy E ix ops → run E ix ops = some ix' → Placed E ix' := by
  induction ops with
  | nil =>
    intro ix ix' c hi hc hp ht hr
    simp only [run, Option.some.injEq] at hr
    exact hr ▸ hp
  | cons op ops ih =>
    intro ix ix' c hi hc hp ht hr
    obtain ⟨ix1, a1, a2, a3, a4, a5⟩ := step_spec E hE ix op c hi hc ht.1
    rw [run, a1] at hr
    exact ih ix1 ix' _ a2 a3 (placed_step E ix ix1 op hi hp ht.1 a1) (ht.2 ix1 a1) hr

/-- The loop ends at a centroid no farther than any other one. -/
theorem nearestFrom_best (E : Env V) (v : V) (cs : List V) : ∀ (i : Nat) (d : ℚ) (best : Nat),
    (nearestFrom E v cs i d best = best ∧ ∀ c ∈ cs, d ≤ E.dist v c) ∨
    ∃ j c, cs[j]? = some c ∧ nearestFrom E v cs i d best = i + j ∧ E.dist v c < d ∧ ∀ c' ∈ cs, E.dist v c ≤ E.dist v c' := by
  induction cs with
  | nil => intro i d best; exact .inl ⟨rfl, by simp⟩
  | cons a cs ih =>
    intro i d best
    unfold nearestFrom
    by_cases h : E.dist v a < d
    · rw [if_pos h]
      right
      rcases ih (i + 1) (E.dist v a) i with ⟨h1, h2⟩ | ⟨j, c, h1, h2, h3, h4⟩
      · refine ⟨0, a, rfl, h1, h, ?_⟩
        intro c' hc'
        rcases List.mem_cons.1 hc' with rfl | hc'
        · exact le_refl _
        · exact h2 c' hc'
      · refine ⟨j + 1, c, h1, by omega, h3.trans h, ?_⟩
        intro c' hc'
        rcases List.mem_cons.1 hc' with rfl | hc'
        · exact h3.le
        · exact h4 c' hc'
    · rw [if_neg h]
      rcases ih (i + 1) d best with ⟨h1, h2⟩ | ⟨j, c, h1, h2, h3, h4⟩
      · left
        refine ⟨h1, ?_⟩
        intro c' hc'
        rcases List.mem_cons.1 hc' with rfl | hc'
        · exact not_lt.1 h
        · exact h2 c' hc'
      · right
        refine ⟨j + 1, c, h1, by omega, h3, ?_⟩
        intro c' hc'
        rcases List.mem_cons.1 hc' with rfl | hc'
        · exact (h3.trans_le (not_lt.1 h)).le
        · exact h4 c' hc'

/-- The cluster a vector is put into is searched for it, when no other centroid is as near. -/
theorem probed_own (E : Env V) (hE : E.Sound) (ix : Index V) (v : V) (hi : Inv ix) (htr : ix.trained = true) (hn : 0 < ix.nprobe)
    (hfar : ∃ c ∈ ix.centroids, E.dist v c < E.maxFloat)
    (htie : (ix.centroids.map (E.dist v)).Nodup) : nearest E ix v ∈ probed E ix v := by
  obtain ⟨c0, hc0, hlt⟩ := hfar
  rcases nearestFrom_best E v ix.centroids 0 E.maxFloat 0 with ⟨-, h2⟩ | ⟨j, c, h1, h2, h3, h4⟩
  · exact absurd (h2 c0 hc0) (not_le.2 hlt)
  have hnear : nearest E ix v = j := by unfold nearest; rw [h2]; omega
  rw [hnear]
  unfold probed
  obtain ⟨hperm, hord⟩ := hE.sorts (ix.centroids.mapIdx (fun i c => (i, E.dist v c)))
  have hmem : (j, E.dist v c) ∈ E.sort (ix.centroids.mapIdx (fun i c => (i, E.dist v c))) := by
    refine hperm.mem_iff.2 ?_
    rw [List.mem_mapIdx]
    obtain ⟨hj, hg⟩ := List.getElem?_eq_some_iff.1 h1
    exact ⟨j, hj, by rw [hg]⟩
  cases hs : E.sort (ix.centroids.mapIdx (fun i c => (i, E.dist v c))) with
  | nil => rw [hs] at hmem; simp at hmem
  | cons r rs =>
    rw [hs] at hmem hord
    have hr : r ∈ ix.centroids.mapIdx (fun i c => (i, E.dist v c)) := hperm.mem_iff.1 (by rw [hs]; exact List.mem_cons_self)
    rw [List.mem_mapIdx] at hr
    obtain ⟨i, hil, rfl⟩ := hr
    have hle : E.dist v ix.centroids[i] ≤ E.dist v c := by
      rcases List.mem_cons.1 hmem with h | h
      · rw [Prod.mk.injEq] at h; rw [h.2]
      · exact (List.pairwise_cons.1 hord).1 _ h
    have hge := h4 _ (List.getElem_mem hil)
    obtain ⟨hj, hg⟩ := List.getElem?_eq_some_iff.1 h1
    have hij : i = j := by
      have := (List.Nodup.getElem_inj_iff htie (i := i) (j := j) (hi := by simpa using hil) (hj := by simpa using hj)).1 (by
        simp only [List.getElem_map]
        rw [hg]
        exact le_antisymm hle hge)
      exact this
    have hm : min ix.nprobe ix.ncent = (min ix.nprobe ix.ncent - 1) + 1 := by have := hi.pos; omega
    rw [hm, List.take_succ_cons, List.map_cons]
    exact hij ▸ List.mem_cons_self

/-- C254 for the IVF index, as far as it holds: after any calls that delete only last members of clusters and train only an empty index,
every entry held is among the entries a search for its own vector chooses from, with its distance, when at least one cluster is probed,
the centroids differ in their distance from the vector and one of them is at a representable distance. So it is returned when `k` is the size
of the index, and also for every positive `k` when all other entries are farther. Missing: centroids at the same distance (violated
below). -/
theorem C254_ivf_partial (E : Env V) (hE : E.Sound) (d n : Nat) (hn : 0 < n) (ops : List (Op V)) (ht : AllTidy E (new V d n) ops)
    (ix : Index V) (hr : run E (new V d n) ops = some ix) (htr : ix.trained = true) (hnp : 0 < ix.nprobe) (id : String) (v : V)
    (hmem : (id, v) ∈ (after E.dim d n ops).entries) (hdim : E.dim v = d)
    (hfar : ∃ c ∈ ix.centroids, E.dist v c < E.maxFloat) (htie : (ix.centroids.map (E.dist v)).Nodup) (k : Nat) :
    ∃ out, search E ix v k = .ok out ∧
      ((after E.dim d n ops).entries.length ≤ k → (id, E.dist v v) ∈ out) ∧
      (0 < k → (∀ e ∈ (after E.dim d n ops).entries, e ≠ (id, v) → E.dist v v < E.dist v e.2) → out.head? = some (id, E.dist v v)) := by
  obtain ⟨ix0, a1, a2, ⟨a3, a4⟩, a5, a6⟩ := run_new E hE d n hn ops ht
  obtain rfl : ix0 = ix := by rw [hr] at a1; exact (Option.some.inj a1).symm
  have hpl := placed_run E hE ops (new V d n) ix0 ⟨false, []⟩ (inv_new d n hn) ⟨rfl, rfl⟩
    (placed_empty E _ (fun l hl => (List.mem_replicate.1 hl).2)) ht hr
  obtain ⟨out, pool, b1, b2, b3, b4⟩ := search_pool E hE ix0 v k a2 htr (hdim.trans a6.symm)
  rw [← a4] at hmem ⊢
  have hin : (id, E.dist v v) ∈ pool := by
    obtain ⟨p, hp, hg⟩ := List.getElem_of_mem hmem
    have hp1 : p < ix0.ids.length := by simp only [entries, List.length_zip] at hp; omega
    have hp2 : p < ix0.vecs.length := by simp only [entries, List.length_zip] at hp; omega
    simp only [entries, List.getElem_zip, Prod.mk.injEq] at hg
    obtain ⟨l, hl, hpl'⟩ := List.mem_flatten.1 (a2.perm.mem_iff.2 (List.mem_range.2 hp2))
    obtain ⟨c, hc, rfl⟩ := List.getElem_of_mem hl
    have hcp : p ∈ (ix0.inv[c]?).getD [] := by rw [List.getElem?_eq_getElem hc]; exact hpl'
    obtain ⟨w, h1, h2⟩ := hpl c p hcp
    rw [List.getElem?_eq_getElem hp2, hg.2, Option.some.injEq] at h1
    subst h1
    have := b4 c (h2 ▸ probed_own E hE ix0 v a2 htr hnp hfar htie) p hcp
    simpa [nameOf, scoreOf, List.getElem?_eq_getElem hp1, List.getElem?_eq_getElem hp2, hg.1, hg.2] using this
  refine ⟨out, b1, ?_, ?_⟩
  · intro hk
    obtain ⟨rest, c1, c2⟩ := b3.best
    have hlen : pool.length ≤ k := by
      have := b2.length_le
      rw [List.length_map] at this
      omega
    have hsz := b3.size
    have hl := c1.length_eq
    rw [List.length_append] at hl
    have : rest = [] := List.length_eq_zero_iff.1 (by omega)
    subst this
    rw [List.append_nil] at c1
    exact c1.mem_iff.2 hin
  · intro hk hnear
    obtain ⟨rest, c1, c2⟩ := b3.best
    have hlp := List.length_pos_of_mem hin
    cases ho : out with
    | nil =>
      have := b3.size
      rw [ho] at this
      simp at this
      omega
    | cons r rs =>
      rw [ho] at c1 c2
      have hord := b3.ordered
      rw [ho] at hord
      have hrp : r ∈ pool := c1.mem_iff.1 (by simp)
      have hbest : r.2 ≤ E.dist v v := by
        have := c1.mem_iff.2 hin
        rw [List.cons_append, List.mem_cons, List.mem_append] at this
        rcases this with h | h | h
        · rw [← h]
        · exact neg_le_neg_iff.1 ((List.pairwise_cons.1 hord).1 _ h)
        · exact neg_le_neg_iff.1 (c2 _ h r List.mem_cons_self)
      obtain ⟨e, he, rfl⟩ := List.mem_map.1 (b2.subset hrp)
      by_cases hee : e = (id, v)
      · subst hee; rfl
      · exact absurd (hnear e he hee) (not_lt.2 hbest)

/-- The hypotheses hold after a deletion too; one of two clusters is probed and the vector is found first. -/
example : AllTidy lineEnv (new Nat 1 2) [.train [0, 10], .add "a" 1, .add "c" 9, .add "b" 2, .delete "b", .setNProbe 1] ∧
    (run lineEnv (new Nat 1 2) [.train [0, 10], .add "a" 1, .add "c" 9, .add "b" 2, .delete "b", .setNProbe 1]).map
      (fun ix => (ix.trained, ix.nprobe, (search lineEnv ix 9 1).toOption)) = some (true, 1, some [("c", 0)]) ∧
    (run lineEnv (new Nat 1 2) [.train [0, 10], .add "a" 1, .add "c" 9, .add "b" 2, .delete "b", .setNProbe 1]).map
      (fun ix => ix.centroids.map (lineEnv.dist 9)) = some [9, 1] ∧
    ("c", 9) ∈ (after lineEnv.dim 1 2 [.train [0, 10], .add "a" 1, .add "c" 9, .add "b" 2, .delete "b", .setNProbe 1]).entries := by
  refine ⟨allTidyB_ok _ _ _ (by decide +kernel), by decide +kernel, by decide +kernel, by decide +kernel⟩

/-- `lineEnv` with a sort that puts the later of two equally distant ones first; `sort.Slice` promises no order for them. -/
def lineBack : Env Nat := { lineEnv with sort := fun l => insertSort (fun r => -r.2) l.reverse }

theorem lineBack_sound : lineBack.Sound := by
  refine ⟨?_, lineEnv_sound.clusters⟩
  intro l
  obtain ⟨h1, h2⟩ := insertSort_sorts (fun r : Nat × ℚ => -r.2) l.reverse
  exact ⟨h1.trans l.reverse_perm, h2.imp (fun h => by linarith)⟩

/-- C254 is violated by the IVF index for a vector half way between two centroids: it is put into the list of the first, and a search for
it may look only at the second. Another vector is returned instead, whatever `k`. -/
theorem C254_tie_violated : ∃ (E : Env Nat) (ix : Index Nat), E.Sound ∧
    run E (new Nat 1 2) [.train [0, 10], .add "mid" 5, .add "far" 9, .setNProbe 1] = some ix ∧
    ("mid", 5) ∈ entries ix ∧ ∀ k, search E ix 5 k = .ok ([("far", 4)].take k) := by
  refine ⟨lineBack, ⟨2, 1, [0, 10], [[0], [1]], [5, 9], ["mid", "far"], true, 1⟩, lineBack_sound, ?_, by decide +kernel, ?_⟩
  · rfl
  · intro k
    have h1 : probed lineBack ⟨2, 1, [0, 10], [[0], [1]], [5, 9], ["mid", "far"], true, 1⟩ 5 = [1] := by decide +kernel
    unfold search
    rw [h1]
    cases k with
    | zero => rfl
    | succ k => cases k <;> rfl

end Verif.Ivf
