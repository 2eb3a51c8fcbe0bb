import Verif.Thm.KMeans
import Verif.Thm.Ivf

/-!
C169: training the index of the store.
-/
namespace Verif.Train
open Verif.Base Verif.Ivf Verif.Spec

/-! ### Specification -/

/-- The index lists exactly `rows`, in order, and answers. -/
def Lists (s : St) (rows : List (String × Vec)) : Prop := ∃ ix, s.ivf = some ix ∧ ix.trained = true ∧ entries ix = rows

/-- What holds of an index that the store has built, loaded or trained for its dimension. -/
def Fits (s : St) : Prop := ∀ ix, s.ivf = some ix → Inv ix ∧ ix.dimension = s.dim

/-! ### Lemmas -/

theorem addAll_spec (E : Env Vec) : ∀ (rows : List (String × Vec)) (ix : Index Vec), Inv ix → ix.trained = true →
    ∃ ix', addAll E ix rows = some ix' ∧ Inv ix' ∧ ix'.trained = true ∧ entries ix' = entries ix ++ rows.filter (fun r => decide (E.dim r.2 = ix.dimension)) ∧
      ix'.ncent = ix.ncent ∧ ix'.dimension = ix.dimension ∧ ix'.nprobe = ix.nprobe
  | [], ix, hi, ht => ⟨ix, rfl, hi, ht, by simp, rfl, rfl, rfl⟩
  | r :: rs, ix, hi, ht => by
    by_cases hd : E.dim r.2 = ix.dimension
    · obtain ⟨ix1, a1, a2, a3, a4, a5, a6, a7⟩ := add_spec E ix r.1 r.2 hi ht hd
      obtain ⟨ix2, b1, b2, b3, b4, b5, b6, b7⟩ := addAll_spec E rs ix1 a2 a4
      refine ⟨ix2, by rw [addAll, a1]; exact b1, b2, b3, ?_, b5.trans a5, b6.trans a6, b7.trans a7⟩
      rw [b4, a3, a6]
      simp [hd]
    · have h1 : add E ix r.1 r.2 = .error .err := by
        unfold add
        rw [if_neg (by rw [ht]; decide), if_pos hd]
      obtain ⟨ix2, b1, b2, b3, b4, b5⟩ := addAll_spec E rs ix hi ht
      refine ⟨ix2, by rw [addAll, h1]; exact b1, b2, b3, ?_, b5⟩
      rw [b4]
      simp [hd]

theorem inv_clear (ix : Index Vec) (h : Inv ix) : Inv (clear ix) := by
  refine ⟨h.pos, by simp [clear, h.lists], h.cents, rfl, ?_, ?_⟩
  · have : (clear ix).inv.flatten = [] := by
      simp only [clear]
      rw [List.flatten_eq_nil_iff]
      intro l hl
      obtain ⟨x, -, rfl⟩ := List.mem_map.1 hl
      rfl
    rw [this]
    simp [clear]
  · intro l hl
    obtain ⟨x, -, rfl⟩ := List.mem_map.1 hl
    exact List.Pairwise.nil

/-- From an empty index on. -/
theorem fill_spec (E : Env Vec) (hE : E.dim = List.length) (R : Rand) (s : St) (ix : Index Vec) (hi : Inv ix) (he : entries ix = []) (hd : ix.dimension = s.dim)
    (hle : ix.ncent ≤ s.rows.length) (hv : ∀ r ∈ s.rows, r.2.length = s.dim) (hR : R.Fair (s.rows.map Prod.snd)) :
    ∃ ix', fill E R true s ix = (.ok, { s with ivf := some ix' }) ∧ Inv ix' ∧ ix'.trained = true ∧ entries ix' = s.rows ∧ ix'.ncent = ix.ncent ∧
      ix'.dimension = s.dim ∧ ix'.nprobe = ix.nprobe := by
  have hvd : ∀ v ∈ s.rows.map Prod.snd, v.length = s.dim := by
    intro v hm
    obtain ⟨r, hr, rfl⟩ := List.mem_map.1 hm
    exact hv r hr
  obtain ⟨cs, h1, h2, -⟩ := C168_shape R (s.rows.map Prod.snd) s.dim ix.ncent 20 hi.pos (by simpa using hle) hvd hR
  have hlen : ix.vecs = [] := by
    have h0 := hi.len
    have h1 : (entries ix).length = 0 := by rw [he]; rfl
    unfold entries at h1
    rw [List.length_zip] at h1
    exact List.length_eq_zero_iff.1 (by omega)
  have hids : ix.ids = [] := by
    have h0 := hi.len
    rw [hlen] at h0
    exact List.length_eq_zero_iff.1 h0
  have hinv : Inv { ix with centroids := cs, trained := true, inv := ix.inv.map (fun _ => []) } := by
    refine ⟨hi.pos, by simpa using hi.lists, fun _ => h2, hi.len, ?_, ?_⟩
    · have : (ix.inv.map (fun _ => ([] : List Nat))).flatten = [] := by
        rw [List.flatten_eq_nil_iff]
        intro l hl
        obtain ⟨x, -, rfl⟩ := List.mem_map.1 hl
        rfl
      simp only [this, hlen]
      simp
    · intro l hl
      obtain ⟨x, -, rfl⟩ := List.mem_map.1 hl
      exact List.Pairwise.nil
  obtain ⟨ix', a1, a2, a3, a4, a5, a6, a7⟩ := addAll_spec E s.rows _ hinv rfl
  refine ⟨ix', ?_, a2, a3, ?_, a5, a6.trans hd, a7⟩
  · unfold fill trainWith
    have hp := hi.pos
    rw [if_neg (by decide), if_neg (by omega), if_neg (by simpa using hle), h1]
    simp only
    rw [a1]
  · rw [a4]
    have e : entries { ix with centroids := cs, trained := true, inv := ix.inv.map (fun _ => []) } = [] := he
    rw [e, List.nil_append, List.filter_eq_self]
    intro r hr
    rw [hE, decide_eq_true_eq]
    exact (hv r hr).trans hd.symm

theorem centroidsOr_pos (num : Int) (cfg : Nat) : 0 < centroidsOr num cfg := by
  unfold centroidsOr
  split
  · omega
  · split <;> omega

/-! ### C169 -/

/-- C169, success: on an open store in inverted-file mode whose records all have its dimension and are at least as many as the cells, training
succeeds whatever the index was before, whatever the random numbers, and afterwards the index lists every stored record exactly once. -/
theorem C169_trained (E : Env Vec) (hE : E.dim = List.length) (R : Rand) (s : St) (num : Int) (hcl : s.closed = false) (hm : s.ivfMode = true)
    (hd : 0 < s.dim) (hf : Fits s) (hle : centroidsOr num s.cfgCent ≤ s.rows.length) (hv : ∀ r ∈ s.rows, r.2.length = s.dim)
    (hR : R.Fair (s.rows.map Prod.snd)) :
    (trainIndex E R true s num).1 = .ok ∧ Lists (trainIndex E R true s num).2 s.rows ∧ (trainIndex E R true s num).2.rows = s.rows ∧
      Fits (trainIndex E R true s num).2 := by
  have key : ∀ ix : Index Vec, Ivf.Inv ix → entries ix = [] → ix.dimension = s.dim → ix.ncent = centroidsOr num s.cfgCent →
      (fill E R true s ix).1 = .ok ∧ Lists (fill E R true s ix).2 s.rows ∧ (fill E R true s ix).2.rows = s.rows ∧ Fits (fill E R true s ix).2 := by
    intro ix h1 h2 h3 h4
    obtain ⟨ix', a1, a2, a3, a4, a5, a6, a7⟩ := fill_spec E hE R s ix h1 h2 h3 (by rw [h4]; exact hle) hv hR
    rw [a1]
    refine ⟨rfl, ⟨ix', rfl, a3, a4⟩, rfl, ?_⟩
    intro ix'' h
    cases h
    exact ⟨a2, a6⟩
  have hpos := centroidsOr_pos num s.cfgCent
  have hnew := key (new Vec s.dim (centroidsOr num s.cfgCent)) (inv_new _ _ hpos) rfl rfl rfl
  unfold trainIndex
  rw [if_neg (by simp [hcl]), if_neg (by simp [hm])]
  cases hs : s.ivf with
  | none =>
    simp only
    rw [if_neg (by omega)]
    exact hnew
  | some ix =>
    simp only
    obtain ⟨hi, hdim⟩ := hf ix hs
    by_cases hn : ix.ncent = centroidsOr num s.cfgCent
    · rw [if_neg (by simpa using hn)]
      exact key (clear ix) (inv_clear ix hi) rfl hdim hn
    · rw [if_pos hn]
      exact hnew

/-- C169, search: after such a training a search over all cells reports the `k` closest of all stored records. -/
theorem C169_search (E : Env Vec) (hE : E.dim = List.length) (hS : E.Sound) (R : Rand) (s : St) (num : Int) (hcl : s.closed = false) (hm : s.ivfMode = true)
    (hd : 0 < s.dim) (hf : Fits s) (hle : centroidsOr num s.cfgCent ≤ s.rows.length) (hv : ∀ r ∈ s.rows, r.2.length = s.dim)
    (hR : R.Fair (s.rows.map Prod.snd)) (q : Vec) (hq : q.length = s.dim) (k : Nat) (ix : Index Vec) (hix : (trainIndex E R true s num).2.ivf = some ix)
    (hp : ix.ncent ≤ ix.nprobe) :
    ∃ out pool, search E ix q k = .ok out ∧ pool.Perm (s.rows.map (fun r => (r.1, E.dist q r.2))) ∧ IsTopK (fun r => -r.2) pool k out := by
  obtain ⟨-, ⟨ix', h1, h2, h3⟩, -, h4⟩ := C169_trained E hE R s num hcl hm hd hf hle hv hR
  rw [hix] at h1
  cases h1
  obtain ⟨hi, hdim⟩ := h4 ix hix
  have hd' : (trainIndex E R true s num).2.dim = s.dim := by
    have hfill : ∀ i, (fill E R true s i).2.dim = s.dim := by
      intro i
      unfold fill
      repeat' split
      all_goals rfl
    unfold trainIndex
    repeat' split
    all_goals first | rfl | exact hfill _
  obtain ⟨out, pool, a1, -, a3, a4⟩ := search_spec E hS ix q k hi h2 (by rw [hE, hdim, hd', hq])
  have := a4 hp
  rw [h3] at this
  exact ⟨out, pool, a1, this, a3⟩

/-- C169, refusal: on a closed store, a store in another mode, or one that has no index and no dimension yet, the call fails and changes nothing. -/
theorem C169_refused (E : Env Vec) (R : Rand) (fetch : Bool) (s : St) (num : Int)
    (h : s.closed = true ∨ s.ivfMode = false ∨ (s.ivf = none ∧ s.dim = 0)) : trainIndex E R fetch s num = (.err, s) := by
  unfold trainIndex
  rcases h with h | h | ⟨h1, h2⟩
  · rw [if_pos h]
  · by_cases hc : s.closed = true
    · rw [if_pos hc]
    · rw [if_neg hc, if_pos h]
  · repeat' split
    all_goals first | rfl | (simp_all; done)

/-- C169, failure, as far as it holds: whatever happens, the records themselves are never touched. Missing: a failed training leaves the index as it
was (violated below). -/
theorem C169_rows_partial (E : Env Vec) (R : Rand) (fetch : Bool) (s : St) (num : Int) : (trainIndex E R fetch s num).2.rows = s.rows := by
  have hfill : ∀ i, (fill E R fetch s i).2.rows = s.rows := by
    intro i
    unfold fill
    repeat' split
    all_goals rfl
  unfold trainIndex
  repeat' split
  all_goals first | rfl | exact hfill _

/-- C169 is violated: training again with the same number of cells when fewer records than cells are left (or when the query fails) reports an error
and leaves a trained index that lists nothing, so every search over it succeeds with no result although the records are there. -/
theorem C169_failed_violated (E : Env Vec) (hE : E.dim = List.length) (hS : E.Sound) (R : Rand) (fetch : Bool) (s : St) (num : Int) (ix : Index Vec) (hcl : s.closed = false)
    (hm : s.ivfMode = true) (hs : s.ivf = some ix) (hf : Fits s) (ht : ix.trained = true) (hn : ix.ncent = centroidsOr num s.cfgCent)
    (hfew : fetch = false ∨ s.rows.length < ix.ncent) :
    (trainIndex E R fetch s num).1 = .err ∧ Lists (trainIndex E R fetch s num).2 [] ∧
      ∀ ix', (trainIndex E R fetch s num).2.ivf = some ix' → ∀ q, q.length = s.dim → ∀ k, search E ix' q k = .ok [] := by
  have h : trainIndex E R fetch s num = (.err, { s with ivf := some (clear ix) }) := by
    unfold trainIndex
    rw [if_neg (by simp [hcl]), if_neg (by simp [hm]), hs]
    simp only
    rw [if_neg (by simpa using hn)]
    unfold fill trainWith
    rcases hfew with hfew | hfew
    · rw [if_pos hfew]
    · by_cases h1 : fetch = false
      · rw [if_pos h1]
      · rw [if_neg h1]
        by_cases h2 : s.rows.length = 0
        · rw [if_pos h2]
        · rw [if_neg h2, if_pos (by simpa [clear] using hfew)]
  rw [h]
  refine ⟨rfl, ⟨clear ix, rfl, ht, rfl⟩, ?_⟩
  intro ix' hix q hq k
  cases hix
  obtain ⟨hi, hdim⟩ := hf ix hs
  obtain ⟨out, pool, a1, a2, a3, -⟩ := search_spec E hS (clear ix) q k (inv_clear ix hi) ht (by rw [hE, hq, ← hdim]; rfl)
  have hp : pool = [] := by
    have := a2.length_le
    simp [entries, clear] at this
    exact this
  have : out = [] := by
    have := a3.size
    rw [hp] at this
    exact List.length_eq_zero_iff.1 (by simpa using this)
  rw [a1, this]

/-- C169 is violated: asking for another number of cells throws away the number of cells to search that was set before; it is ten, or the number of
cells if that is smaller. -/
theorem C169_probe_violated (E : Env Vec) (hE : E.dim = List.length) (R : Rand) (s : St) (num : Int) (ix : Index Vec) (hcl : s.closed = false) (hm : s.ivfMode = true)
    (hs : s.ivf = some ix) (hn : ix.ncent ≠ centroidsOr num s.cfgCent) (hle : centroidsOr num s.cfgCent ≤ s.rows.length)
    (hv : ∀ r ∈ s.rows, r.2.length = s.dim) (hR : R.Fair (s.rows.map Prod.snd)) :
    ∃ ix', (trainIndex E R true s num).2.ivf = some ix' ∧ ix'.nprobe = min (centroidsOr num s.cfgCent) 10 := by
  obtain ⟨ix', a1, -, -, -, -, -, a7⟩ := fill_spec E hE R s (new Vec s.dim (centroidsOr num s.cfgCent)) (inv_new _ _ (centroidsOr_pos _ _)) rfl rfl hle hv hR
  refine ⟨ix', ?_, a7⟩
  unfold trainIndex
  rw [if_neg (by simp [hcl]), if_neg (by simp [hm]), hs]
  simp only
  rw [if_pos hn, a1]

/-! ### Examples -/

def vecEnv : Env Vec := ⟨List.length, gap, 1000, fun l => insertSort (fun r => -r.2) l, fun vs k => vs.take k⟩

theorem vecEnv_sound : vecEnv.Sound := by
  refine ⟨?_, ?_⟩
  · intro l
    obtain ⟨h1, h2⟩ := insertSort_sorts (fun r : Nat × ℚ => -r.2) l
    exact ⟨h1, h2.imp (fun h => by linarith)⟩
  · intro vs k h
    simp [vecEnv, h]

def sampleStore : St := ⟨false, true, 2, 2, none, [("a", [5, 1]), ("b", [5, 3]), ("c", [9, 1])]⟩

/-- The hypotheses of `C169_trained` hold; the index then lists the three records in two cells. -/
example : vecEnv.dim = List.length ∧ Fits sampleStore ∧ centroidsOr 0 sampleStore.cfgCent ≤ sampleStore.rows.length ∧
    (∀ r ∈ sampleStore.rows, r.2.length = sampleStore.dim) ∧ sampleRand.Fair (sampleStore.rows.map Prod.snd) ∧
    (trainIndex vecEnv sampleRand true sampleStore 0).2.ivf.map (fun ix => (ix.inv, ix.ids, ix.centroids)) =
      some ([[2], [0, 1]], ["a", "b", "c"], [[9, 1], [5, 2]]) :=
  ⟨rfl, fun ix h => by simp [sampleStore] at h, by decide +kernel, by decide +kernel, ⟨by decide +kernel, fun _ => by simp [sampleRand]⟩, by decide +kernel⟩

/-- The hypotheses of `C169_search` hold for the same store, whose default number of cells to search is all. -/
example : (trainIndex vecEnv sampleRand true sampleStore 0).2.ivf.map (fun ix => (decide (ix.ncent ≤ ix.nprobe), (search vecEnv ix [5, 2] 2).toOption)) =
    some (true, some [("a", 1), ("b", 1)]) := by decide +kernel

/-- The trained store with two of its records deleted from the table. -/
def fewStore : St := { (trainIndex vecEnv sampleRand true sampleStore 0).2 with rows := [("a", [5, 1])] }

/-- The hypotheses of `C169_failed_violated` hold. -/
example : fewStore.closed = false ∧ fewStore.ivfMode = true ∧ Fits fewStore ∧
    fewStore.ivf.map (fun ix => (ix.trained, decide (ix.ncent = centroidsOr 0 fewStore.cfgCent), decide (fewStore.rows.length < ix.ncent), ix.ids.length)) =
      some (true, true, true, 3) := by
  refine ⟨by decide +kernel, by decide +kernel, ?_, by decide +kernel⟩
  exact (C169_trained vecEnv rfl sampleRand sampleStore 0 rfl rfl (by decide) (fun ix h => by simp [sampleStore] at h) (by decide +kernel) (by decide +kernel)
    ⟨by decide +kernel, fun _ => by simp [sampleRand]⟩).2.2.2

/-- The hypotheses of `C169_probe_violated` hold: two cells before, three asked for. -/
example : (trainIndex vecEnv sampleRand true sampleStore 0).2.ivf.map (fun ix => decide (ix.ncent ≠ centroidsOr 3 2)) = some true := by decide +kernel

/-- The three refusals. -/
example : ({ sampleStore with closed := true } : St).closed = true ∧ ({ sampleStore with ivfMode := false } : St).ivfMode = false ∧
    ({ sampleStore with dim := 0 } : St).ivf = none := ⟨rfl, rfl, rfl⟩

end Verif.Train
