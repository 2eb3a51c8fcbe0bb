import Verif.Thm.Geo

/-! The radius search after a point was moved (C53), for every index and every place. -/

namespace Verif.Geo

variable {K : Type} [Field K] [LinearOrder K]

theorem hit_of_grid (c : Cfg K) (g : Index) (p : Pt) (hv : valid p.at_ = true) (radius : K) (hr : 0 < radius) (u : Unit_)
    (hn : 0 ≤ c.span (toKM radius u)) (hd : c.dist p.at_ p.at_ ≤ toKM radius u) (h : p ∈ g.grid (gridKey c p.at_)) :
    ∃ l, radiusHits c g p.at_ radius u = some l ∧ (p, fromKM (c.dist p.at_ p.at_) u) ∈ l := by
  refine ⟨_, by unfold radiusHits; rw [if_neg (by simp [hv]), if_neg (not_le.2 hr)], ?_⟩
  rw [List.mem_map]
  refine ⟨p, List.mem_filter.2 ⟨?_, by simpa using hd⟩, rfl⟩
  unfold candidates cells
  rw [List.mem_flatMap]
  refine ⟨c.cell p.at_.lng, (mem_upTo _ _ _).2 ⟨by omega, by omega⟩, ?_⟩
  rw [List.mem_flatMap]
  exact ⟨c.cell p.at_.lat, (mem_upTo _ _ _).2 ⟨by omega, by omega⟩, h⟩

/-- **C53, violated.** In every index: a point that is inserted and then inserted again at another place is still found at the place it
left, by every search around that place. Deleting it does not help when the new place is in another cell. -/
theorem C53_moved_violated (c : Cfg K) (sort : List (Pt × K) → List (Pt × K)) (hs : ∀ l, (sort l).Perm l) (g : Index) (p q : Pt)
    (hid : q.id = p.id) (hp : p.id ≠ "") (hv : valid p.at_ = true) (hq : valid q.at_ = true) (radius : K) (hr : 0 < radius) (u : Unit_)
    (hn : 0 ≤ c.span (toKM radius u)) (hd : c.dist p.at_ p.at_ ≤ toKM radius u) :
    let g2 := (insert c (insert c g p).1 q).1
    (∃ out, searchRadius c sort g2 p.at_ radius u = some out ∧ (p, fromKM (c.dist p.at_ p.at_) u) ∈ out) ∧
    getPoint g2 p.id = some q ∧
    (gridKey c q.at_ ≠ gridKey c p.at_ →
      ∃ out, searchRadius c sort (delete c g2 p.id).1 p.at_ radius u = some out ∧ (p, fromKM (c.dist p.at_ p.at_) u) ∈ out ∧
        getPoint (delete c g2 p.id).1 p.id = none) := by
  intro g2
  have hg : p ∈ g2.grid (gridKey c p.at_) := by
    have : g2.grid (gridKey c p.at_) = if gridKey c p.at_ = gridKey c q.at_ then (g.grid (gridKey c p.at_) ++ [p]) ++ [q]
        else g.grid (gridKey c p.at_) ++ [p] := by
      simp only [g2, insert, hid, if_neg hp, hv, hq]
      simp
    rw [this]
    split <;> simp
  have hf : g2.points.find? (fun x => decide (x.id = p.id)) = some q := by
    have : g2.points = setPoint (setPoint g.points p) q := by simp [g2, insert, hid, hp, hv, hq]
    rw [this]
    unfold setPoint
    rw [List.find?_append, List.find?_eq_none.2]
    · simp [hid]
    · intro x hx
      have := (List.mem_filter.1 hx).2
      rw [hid] at this
      simpa using this
  refine ⟨?_, hf, ?_⟩
  · obtain ⟨l, h1, h2⟩ := hit_of_grid c g2 p hv radius hr u hn hd hg
    exact ⟨sort l, by unfold searchRadius; rw [h1]; rfl, (hs l).mem_iff.2 h2⟩
  · intro hk
    have hg3 : p ∈ (delete c g2 p.id).1.grid (gridKey c p.at_) := by
      unfold delete
      rw [hf]
      simp only
      rw [if_neg hk.symm]
      exact hg
    obtain ⟨l, h1, h2⟩ := hit_of_grid c _ p hv radius hr u hn hd hg3
    refine ⟨sort l, by unfold searchRadius; rw [h1]; rfl, (hs l).mem_iff.2 h2, ?_⟩
    unfold getPoint delete
    rw [hf]
    simp

example : gridKey cfgQ ⟨50, 50⟩ ≠ gridKey cfgQ ⟨1, 1⟩ ∧ valid ⟨1, 1⟩ = true ∧ valid ⟨50, 50⟩ = true ∧ 0 ≤ cfgQ.span (toKM 5 .km) ∧
    cfgQ.dist ⟨1, 1⟩ ⟨1, 1⟩ ≤ toKM 5 .km := by
  decide +kernel

end Verif.Geo
