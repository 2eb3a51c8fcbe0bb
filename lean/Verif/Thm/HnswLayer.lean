import Verif.Model.Hnsw
import Verif.Spec.Walk
import Mathlib.Data.List.Perm.Subperm

/-!
What one layer search of the HNSW index delivers: it never fails on a graph whose links resolve, returns reachable nodes
without repetition, nearest first, keeps the best of everything it saw and is closed under links unless it is full.
-/
namespace Verif.Hnsw
open Verif.Base Verif.Spec

variable {V : Type}

/-- The id has a node. -/
def Stored (h : Index V) (x : String) : Prop := (getNode h x).isSome = true

/-- The distance of a stored node. -/
def D (E : Env V) (h : Index V) (q : V) (x : String) : ℚ := ((getNode h x).map (fun n => E.dist q n.vec)).getD 0

/-- A link on a layer. -/
def Link (h : Index V) (layer : Nat) (a b : String) : Prop := ∃ l, nbrsAt h a layer = some l ∧ b ∈ l

theorem before_iff (a b : Item) : Item.before a b = true ↔ a.dist < b.dist := by simp [Item.before]

theorem stored_mem (h : Index V) (x : String) : Stored h x ↔ x ∈ h.nodes.map Node.id := by
  unfold Stored getNode
  rw [List.find?_isSome, List.mem_map]
  simp

theorem d_eq (E : Env V) (h : Index V) (q : V) {x : String} {n : Node V} (hn : getNode h x = some n) : D E h q x = E.dist q n.vec := by
  simp [D, hn]

theorem stored_of_get {h : Index V} {x : String} {n : Node V} (hn : getNode h x = some n) : Stored h x := by simp [Stored, hn]

/-- The facts kept by the search. -/
structure BInv (E : Env V) (h : Index V) (q : V) (ef layer : Nat) (eps : List String) (s : Beam) : Prop where
  hc : Heap Item.dist s.cands
  hd : Heap Item.dist s.dyn
  cd : ∀ c ∈ s.cands, c.id ∈ s.visited ∧ c.dist = D E h q c.id
  dd : ∀ d ∈ s.dyn, d.id ∈ s.visited ∧ d.dist = -D E h q d.id
  nd : (s.dyn.map Item.id).Nodup
  vn : s.visited.Nodup
  vr : ∀ x ∈ s.visited, Stored h x ∧ ∃ e ∈ eps, Reach (Link h layer) e x
  len : s.dyn.length ≤ max ef eps.length
  best : ∀ x ∈ s.visited, x ∉ s.dyn.map Item.id → ef ≤ s.dyn.length ∧ ∀ d ∈ s.dyn, D E h q d.id ≤ D E h q x
  ne : s.visited ≠ [] → s.dyn ≠ []

theorem visited_le {E : Env V} {h : Index V} {q : V} {ef layer : Nat} {eps : List String} {s : Beam}
    (hb : BInv E h q ef layer eps s) : s.visited.length ≤ h.nodes.length := by
  have h1 : s.visited ⊆ h.nodes.map Node.id := fun x hx => (stored_mem h x).1 (hb.vr x hx).1
  have := (List.subperm_of_subset hb.vn h1).length_le
  simpa using this

/-- After the entry points. -/
theorem enter_spec (E : Env V) (h : Index V) (q : V) (ef layer : Nat) (eps : List String) (ps : List String) :
    ∀ s : Beam, BInv E h q ef layer eps s → (∀ x ∈ s.visited, x ∈ s.dyn.map Item.id ∧ x ∈ s.cands.map Item.id) →
      ps.Nodup → (∀ p ∈ ps, p ∈ eps ∧ Stored h p ∧ p ∉ s.visited) → s.dyn.length + ps.length ≤ eps.length →
      s.cands.length = s.visited.length →
      ∃ s', enter E h q ps s = some s' ∧ BInv E h q ef layer eps s' ∧
        (∀ x ∈ s'.visited, x ∈ s'.dyn.map Item.id ∧ x ∈ s'.cands.map Item.id) ∧ (∀ x, x ∈ s'.visited ↔ x ∈ s.visited ∨ x ∈ ps) ∧
        s'.cands.length = s'.visited.length := by
  induction ps with
  | nil =>
    intro s hb hall _ _ _ hcl
    exact ⟨s, rfl, hb, hall, fun x => by simp, hcl⟩
  | cons p ps ih =>
    intro s hb hall hnd hps hlen hcl
    obtain ⟨hpn, hnd⟩ := List.nodup_cons.1 hnd
    obtain ⟨hpe, hst, hpv⟩ := hps p List.mem_cons_self
    obtain ⟨n, hn⟩ := Option.isSome_iff_exists.1 hst
    rw [enter, hn]
    simp only
    have hD := d_eq E h q hn
    obtain ⟨c1, c2⟩ := heapPush_spec Item.dist Item.before before_iff s.cands ⟨p, E.dist q n.vec⟩ hb.hc
    obtain ⟨d1, d2⟩ := heapPush_spec Item.dist Item.before before_iff s.dyn ⟨p, -(E.dist q n.vec)⟩ hb.hd
    generalize heapPush Item.before s.cands ⟨p, E.dist q n.vec⟩ = cs at *
    generalize heapPush Item.before s.dyn ⟨p, -(E.dist q n.vec)⟩ = ds at *
    have hdl : ds.length = s.dyn.length + 1 := by rw [d2.length_eq]; simp
    have hdid : ∀ x, x ∈ ds.map Item.id ↔ x = p ∨ x ∈ s.dyn.map Item.id := by
      intro x; rw [(d2.map Item.id).mem_iff]; simp
    have hcid : ∀ x, x ∈ cs.map Item.id ↔ x = p ∨ x ∈ s.cands.map Item.id := by
      intro x; rw [(c2.map Item.id).mem_iff]; simp
    have hall' : ∀ x ∈ p :: s.visited, x ∈ ds.map Item.id ∧ x ∈ cs.map Item.id := by
      intro x hx
      rw [hdid, hcid]
      rcases List.mem_cons.1 hx with rfl | hx
      · exact ⟨Or.inl rfl, Or.inl rfl⟩
      · exact ⟨Or.inr (hall x hx).1, Or.inr (hall x hx).2⟩
    have hnpd : p ∉ s.dyn.map Item.id := by
      intro hm
      obtain ⟨d, hd, rfl⟩ := List.mem_map.1 hm
      exact hpv (hb.dd d hd).1
    obtain ⟨s', e1, e2, e3, e4, e5⟩ := ih ⟨cs, ds, p :: s.visited⟩
      { hc := c1, hd := d1
        cd := by
          intro c hc
          rcases List.mem_cons.1 (c2.mem_iff.1 hc) with rfl | hc
          · exact ⟨List.mem_cons_self, hD.symm⟩
          · exact ⟨List.mem_cons_of_mem _ (hb.cd c hc).1, (hb.cd c hc).2⟩
        dd := by
          intro c hc
          rcases List.mem_cons.1 (d2.mem_iff.1 hc) with rfl | hc
          · exact ⟨List.mem_cons_self, by simp only [hD]⟩
          · exact ⟨List.mem_cons_of_mem _ (hb.dd c hc).1, (hb.dd c hc).2⟩
        nd := by
          rw [(d2.map Item.id).nodup_iff]
          exact List.nodup_cons.2 ⟨hnpd, hb.nd⟩
        vn := List.nodup_cons.2 ⟨hpv, hb.vn⟩
        vr := by
          intro x hx
          rcases List.mem_cons.1 hx with rfl | hx
          · exact ⟨hst, _, hpe, Reach.refl _⟩
          · exact hb.vr x hx
        len := by
          rw [hdl]
          rw [List.length_cons] at hlen
          have := le_max_right ef eps.length
          omega
        best := fun x hx hn => absurd (hall' x hx).1 hn
        ne := by intro _ hh; simp only at hh; rw [hh] at hdl; simp at hdl }
      hall' hnd
      (by
        intro x hx
        obtain ⟨a, b, c⟩ := hps x (List.mem_cons_of_mem _ hx)
        refine ⟨a, b, ?_⟩
        intro hh
        rcases List.mem_cons.1 hh with rfl | hh
        · exact hpn hx
        · exact c hh)
      (by simp only [List.length_cons] at *; omega) (by simp only [c2.length_eq, List.length_cons]; omega)
    refine ⟨s', e1, e2, e3, ?_, e5⟩
    intro x
    rw [e4 x]
    simp only [List.mem_cons]
    tauto

/-- Inside the scan of the neighbours of `cur`: everything kept is still a candidate, has been expanded or is being expanded. -/
def Exp (h : Index V) (layer : Nat) (cur : String) (xs : List String) (s : Beam) : Prop :=
  ∀ d ∈ s.dyn.map Item.id, d ∈ s.cands.map Item.id ∨ (∀ y, Link h layer d y → y ∈ s.visited) ∨
    (d = cur ∧ ∀ y, Link h layer cur y → y ∈ s.visited ∨ y ∈ xs)

theorem scan_spec (E : Env V) (h : Index V) (q : V) (ef layer : Nat) (eps : List String) (cur : String) (xs : List String) :
    ∀ s : Beam, BInv E h q ef layer eps s → s.dyn ≠ [] →
      (∀ x ∈ xs, Stored h x ∧ ∃ e ∈ eps, Reach (Link h layer) e x) → Exp h layer cur xs s →
      ∃ s', scan E h q ef xs s = some s' ∧ BInv E h q ef layer eps s' ∧ s'.dyn ≠ [] ∧ Exp h layer cur [] s' ∧
        s.visited ⊆ s'.visited ∧ s'.cands.length + s.visited.length ≤ s.cands.length + s'.visited.length := by
  induction xs with
  | nil =>
    intro s hb hne _ hx
    exact ⟨s, rfl, hb, hne, hx, fun _ h => h, le_refl _⟩
  | cons x xs ih =>
    intro s hb hne hxs hx
    rw [scan]
    by_cases hv : x ∈ s.visited
    · rw [if_pos hv]
      refine ih s hb hne (fun y hy => hxs y (List.mem_cons_of_mem _ hy)) ?_
      intro d hd
      rcases hx d hd with h1 | h1 | ⟨h1, h2⟩
      · exact Or.inl h1
      · exact Or.inr (Or.inl h1)
      · refine Or.inr (Or.inr ⟨h1, fun y hy => ?_⟩)
        rcases h2 y hy with h3 | h3
        · exact Or.inl h3
        · rcases List.mem_cons.1 h3 with rfl | h3
          · exact Or.inl hv
          · exact Or.inr h3
    · rw [if_neg hv]
      obtain ⟨hst, hre⟩ := hxs x List.mem_cons_self
      obtain ⟨n, hn⟩ := Option.isSome_iff_exists.1 hst
      have hD := d_eq E h q hn
      obtain ⟨top, tl, htop⟩ := List.exists_cons_of_ne_nil hne
      have htm : ∀ d ∈ s.dyn, D E h q d.id ≤ -top.dist := by
        intro d hd
        have hh := hb.hd
        rw [htop] at hh
        have h1 := heap_head Item.dist hh d (htop ▸ hd)
        have h2 := (hb.dd d hd).2
        linarith
      have htd : D E h q top.id = -top.dist := by
        have h2 := (hb.dd top (by rw [htop]; exact List.mem_cons_self)).2
        linarith
      have hxd : x ∉ s.dyn.map Item.id := by
        intro hm
        obtain ⟨d, hd, rfl⟩ := List.mem_map.1 hm
        exact hv (hb.dd d hd).1
      rw [hn, htop]
      simp only
      rw [← htop]
      by_cases hpush : E.dist q n.vec < -top.dist ∨ s.dyn.length < ef
      · rw [if_pos hpush]
        obtain ⟨c1, c2⟩ := heapPush_spec Item.dist Item.before before_iff s.cands ⟨x, E.dist q n.vec⟩ hb.hc
        obtain ⟨d1, d2⟩ := heapPush_spec Item.dist Item.before before_iff s.dyn ⟨x, -(E.dist q n.vec)⟩ hb.hd
        generalize heapPush Item.before s.cands ⟨x, E.dist q n.vec⟩ = cs at *
        generalize heapPush Item.before s.dyn ⟨x, -(E.dist q n.vec)⟩ = ds at *
        have hdl : ds.length = s.dyn.length + 1 := by rw [d2.length_eq]; simp
        have hdne : ds ≠ [] := by intro hh; rw [hh] at hdl; simp at hdl
        have hcl : cs.length = s.cands.length + 1 := by rw [c2.length_eq]; simp
        have hcid : ∀ y, y ∈ cs.map Item.id ↔ y = x ∨ y ∈ s.cands.map Item.id := by
          intro y; rw [(c2.map Item.id).mem_iff]; simp
        have hdid : ∀ y, y ∈ ds.map Item.id ↔ y = x ∨ y ∈ s.dyn.map Item.id := by
          intro y; rw [(d2.map Item.id).mem_iff]; simp
        have hdsnd : (ds.map Item.id).Nodup := by
          rw [(d2.map Item.id).nodup_iff]
          exact List.nodup_cons.2 ⟨hxd, hb.nd⟩
        have hdsd : ∀ d ∈ ds, d.id ∈ x :: s.visited ∧ d.dist = -D E h q d.id := by
          intro d hd
          rcases List.mem_cons.1 (d2.mem_iff.1 hd) with rfl | hd
          · exact ⟨List.mem_cons_self, by simp only [hD]⟩
          · exact ⟨List.mem_cons_of_mem _ (hb.dd d hd).1, (hb.dd d hd).2⟩
        -- the list after trimming
        have htrim : ∃ dyn, trim ef ds = some dyn ∧ Heap Item.dist dyn ∧ dyn ≠ [] ∧ dyn.Sublist dyn ∧
            (∀ d ∈ dyn, d ∈ ds) ∧ (dyn.map Item.id).Nodup ∧ dyn.length ≤ max ef eps.length ∧
            (∀ z ∈ x :: s.visited, z ∉ dyn.map Item.id → ef ≤ dyn.length ∧ ∀ d ∈ dyn, D E h q d.id ≤ D E h q z) := by
          unfold trim
          by_cases hgt : ds.length > ef
          · rw [if_pos hgt]
            obtain ⟨y, rest, p1, p2, p3, p4, -⟩ := heapPop_spec Item.dist Item.before before_iff ds hdne d1
            rw [p1]
            have hrl : rest.length = s.dyn.length := by
              have := p2.length_eq
              rw [List.length_cons, hdl] at this
              omega
            have hrm : ∀ d ∈ rest, d ∈ ds := fun d hd => p2.mem_iff.1 (List.mem_cons_of_mem _ hd)
            have hyd := hdsd y (p2.mem_iff.1 List.mem_cons_self)
            refine ⟨rest, rfl, p3, ?_, List.Sublist.refl _, hrm, ?_, by rw [hrl]; exact hb.len, ?_⟩
            · intro hh
              rw [hh] at hrl
              exact hne (List.length_eq_zero_iff.1 hrl.symm)
            · have hp := (p2.map Item.id).nodup_iff.2 hdsnd
              exact (List.nodup_cons.1 hp).2
            · intro z hz hzn
              rw [hrl]
              refine ⟨by omega, ?_⟩
              intro d hd
              have hdle : D E h q d.id ≤ D E h q y.id := by
                have h1 := p4 d (hrm d hd)
                have h2 := (hdsd d (hrm d hd)).2
                have h3 := hyd.2
                linarith
              by_cases hzd : z ∈ ds.map Item.id
              · have : z = y.id := by
                  have := (p2.map Item.id).mem_iff.2 hzd
                  rcases List.mem_cons.1 this with h1 | h1
                  · exact h1
                  · exact absurd h1 hzn
                rw [this]; exact hdle
              · have hz1 : z ≠ x := fun hh => hzd ((hdid z).2 (Or.inl hh))
                have hz2 : z ∉ s.dyn.map Item.id := fun hh => hzd ((hdid z).2 (Or.inr hh))
                have hz3 : z ∈ s.visited := by
                  rcases List.mem_cons.1 hz with h1 | h1
                  · exact absurd h1 hz1
                  · exact h1
                obtain ⟨b1, b2⟩ := hb.best z hz3 hz2
                rcases List.mem_cons.1 (d2.mem_iff.1 (hrm d hd)) with rfl | hd'
                · have htz := b2 top (by rw [htop]; exact List.mem_cons_self)
                  simp only
                  rw [hD]
                  rcases hpush with h1 | h1
                  · linarith
                  · omega
                · exact b2 d hd'
          · rw [if_neg hgt]
            refine ⟨ds, rfl, d1, hdne, List.Sublist.refl _, fun d hd => hd, hdsnd, ?_, ?_⟩
            · have := le_max_left ef eps.length
              omega
            · intro z hz hzn
              have hz1 : z ≠ x := fun hh => hzn ((hdid z).2 (Or.inl hh))
              have hz2 : z ∉ s.dyn.map Item.id := fun hh => hzn ((hdid z).2 (Or.inr hh))
              have hz3 : z ∈ s.visited := by
                rcases List.mem_cons.1 hz with h1 | h1
                · exact absurd h1 hz1
                · exact h1
              have := (hb.best z hz3 hz2).1
              omega
        obtain ⟨dyn, t1, t2, t3, -, t5, t6, t7, t8⟩ := htrim
        rw [t1]
        simp only
        obtain ⟨s', e1, e2, e3, e4, e5, e6⟩ := ih ⟨cs, dyn, x :: s.visited⟩
          { hc := c1, hd := t2
            cd := by
              intro c hc
              rcases List.mem_cons.1 (c2.mem_iff.1 hc) with rfl | hc
              · exact ⟨List.mem_cons_self, hD.symm⟩
              · exact ⟨List.mem_cons_of_mem _ (hb.cd c hc).1, (hb.cd c hc).2⟩
            dd := fun d hd => hdsd d (t5 d hd)
            nd := t6
            vn := List.nodup_cons.2 ⟨hv, hb.vn⟩
            vr := by
              intro y hy
              rcases List.mem_cons.1 hy with rfl | hy
              · exact ⟨hst, hre⟩
              · exact hb.vr y hy
            len := t7
            best := t8
            ne := fun _ => t3 } t3 (fun y hy => hxs y (List.mem_cons_of_mem _ hy)) (by
            intro d hd
            obtain ⟨i, hi, rfl⟩ := List.mem_map.1 hd
            have hid : i.id ∈ ds.map Item.id := List.mem_map.2 ⟨i, t5 i hi, rfl⟩
            rcases (hdid i.id).1 hid with h1 | h1
            · exact Or.inl ((hcid i.id).2 (Or.inl h1))
            · rcases hx i.id h1 with h2 | h2 | ⟨h2, h3⟩
              · exact Or.inl ((hcid i.id).2 (Or.inr h2))
              · exact Or.inr (Or.inl (fun y hy => List.mem_cons_of_mem _ (h2 y hy)))
              · refine Or.inr (Or.inr ⟨h2, fun y hy => ?_⟩)
                rcases h3 y hy with h4 | h4
                · exact Or.inl (List.mem_cons_of_mem _ h4)
                · rcases List.mem_cons.1 h4 with rfl | h4
                  · exact Or.inl List.mem_cons_self
                  · exact Or.inr h4)
        refine ⟨s', e1, e2, e3, e4, fun y hy => e5 (List.mem_cons_of_mem _ hy), ?_⟩
        simp only [List.length_cons] at e6
        omega
      · rw [if_neg hpush]
        rw [not_or, not_lt, not_lt] at hpush
        obtain ⟨s', e1, e2, e3, e4, e5, e6⟩ := ih ⟨s.cands, s.dyn, x :: s.visited⟩
          { hc := hb.hc, hd := hb.hd
            cd := fun c hc => ⟨List.mem_cons_of_mem _ (hb.cd c hc).1, (hb.cd c hc).2⟩
            dd := fun c hc => ⟨List.mem_cons_of_mem _ (hb.dd c hc).1, (hb.dd c hc).2⟩
            nd := hb.nd
            vn := List.nodup_cons.2 ⟨hv, hb.vn⟩
            vr := by
              intro y hy
              rcases List.mem_cons.1 hy with rfl | hy
              · exact ⟨hst, hre⟩
              · exact hb.vr y hy
            len := hb.len
            best := by
              intro y hy hyn
              rcases List.mem_cons.1 hy with rfl | hy
              · refine ⟨hpush.2, fun d hd => ?_⟩
                have := htm d hd
                rw [hD]
                linarith [hpush.1]
              · exact hb.best y hy hyn
            ne := fun _ => hne } hne (fun y hy => hxs y (List.mem_cons_of_mem _ hy)) (by
            intro d hd
            rcases hx d hd with h2 | h2 | ⟨h2, h3⟩
            · exact Or.inl h2
            · exact Or.inr (Or.inl (fun y hy => List.mem_cons_of_mem _ (h2 y hy)))
            · refine Or.inr (Or.inr ⟨h2, fun y hy => ?_⟩)
              rcases h3 y hy with h4 | h4
              · exact Or.inl (List.mem_cons_of_mem _ h4)
              · rcases List.mem_cons.1 h4 with rfl | h4
                · exact Or.inl List.mem_cons_self
                · exact Or.inr h4)
        refine ⟨s', e1, e2, e3, e4, fun y hy => e5 (List.mem_cons_of_mem _ hy), ?_⟩
        simp only [List.length_cons] at e6
        omega

theorem expand_spec (E : Env V) (h : Index V) (q : V) (ef layer : Nat) (eps : List String)
    (hres : ∀ a b, Link h layer a b → Stored h b) (fuel : Nat) :
    ∀ s : Beam, BInv E h q ef layer eps s → (∀ d ∈ s.dyn.map Item.id, d ∈ s.cands.map Item.id ∨ ∀ y, Link h layer d y → y ∈ s.visited) →
      s.cands.length + h.nodes.length ≤ fuel + s.visited.length →
      ∃ s', expand E h q ef layer fuel s = some s'.dyn ∧ BInv E h q ef layer eps s' ∧
        (∀ d ∈ s'.dyn.map Item.id, ∀ y, Link h layer d y → y ∈ s'.visited) ∧ s.visited ⊆ s'.visited := by
  induction fuel with
  | zero =>
    intro s hb hx hf
    have hc0 : s.cands = [] := by
      have := visited_le hb
      exact List.length_eq_zero_iff.1 (by omega)
    unfold expand
    rw [if_pos (Or.inl hc0)]
    refine ⟨s, rfl, hb, ?_, fun _ h => h⟩
    intro d hd y hy
    rcases hx d hd with h1 | h1
    · rw [hc0] at h1; simp at h1
    · exact h1 y hy
  | succ fuel ih =>
    intro s hb hx hf
    unfold expand
    by_cases hend : s.cands = [] ∨ stop s = true
    · rw [if_pos hend]
      refine ⟨s, rfl, hb, ?_, fun _ h => h⟩
      intro d hd y hy
      rcases hx d hd with h1 | h1
      · exfalso
        rcases hend with hend | hend
        · rw [hend] at h1; simp at h1
        · unfold stop at hend
          cases hcs : s.cands with
          | nil => rw [hcs] at hend; simp at hend
          | cons c cs =>
            cases hds : s.dyn with
            | nil => rw [hcs, hds] at hend; simp at hend
            | cons t ts =>
              rw [hcs, hds] at hend
              simp only [decide_eq_true_eq] at hend
              obtain ⟨i, hi, rfl⟩ := List.mem_map.1 h1
              obtain ⟨j, hj, hij⟩ := List.mem_map.1 hd
              have a1 := heap_head Item.dist (hcs ▸ hb.hc) i (hcs ▸ hi)
              have a2 := heap_head Item.dist (hds ▸ hb.hd) j (hds ▸ hj)
              have a3 := (hb.cd i hi).2
              have a4 := (hb.dd j hj).2
              rw [hij] at a4
              linarith
      · exact h1 y hy
    · rw [if_neg hend]
      rw [not_or] at hend
      obtain ⟨cur, rest, p1, p2, p3, p4, -⟩ := heapPop_spec Item.dist Item.before before_iff s.cands hend.1 hb.hc
      simp only [p1]
      have hcm : cur ∈ s.cands := p2.mem_iff.1 List.mem_cons_self
      have hcv := (hb.cd cur hcm).1
      obtain ⟨hst, e, he, hre⟩ := hb.vr cur.id hcv
      obtain ⟨n, hn⟩ := Option.isSome_iff_exists.1 hst
      rw [hn]
      simp only
      have hlen := p2.length_eq
      rw [List.length_cons] at hlen
      have hlink : ∀ y, y ∈ (n.nbrs[layer]?).getD [] ↔ Link h layer cur.id y := by
        intro y
        unfold Link nbrsAt
        rw [hn]
        cases hl : n.nbrs[layer]? with
        | none => simp [hl]
        | some l => simp [hl]
      obtain ⟨s', e1, e2, e3, e4, e5, e6⟩ := scan_spec E h q ef layer eps cur.id ((n.nbrs[layer]?).getD []) ⟨rest, s.dyn, s.visited⟩
        { hc := p3, hd := hb.hd
          cd := fun c hc => hb.cd c (p2.mem_iff.1 (List.mem_cons_of_mem _ hc))
          dd := hb.dd, nd := hb.nd, vn := hb.vn, vr := hb.vr, len := hb.len, best := hb.best, ne := hb.ne }
        (hb.ne (List.ne_nil_of_mem hcv))
        (by
          intro y hy
          have := (hlink y).1 hy
          exact ⟨hres _ _ this, e, he, hre.trans (Reach.single this)⟩)
        (by
          intro d hd
          rcases hx d hd with h1 | h1
          · have := (p2.map Item.id).mem_iff.2 h1
            rcases List.mem_cons.1 this with h2 | h2
            · exact Or.inr (Or.inr ⟨h2, fun y hy => Or.inr ((hlink y).2 hy)⟩)
            · exact Or.inl h2
          · exact Or.inr (Or.inl h1))
      rw [e1]
      simp only
      simp only at e6
      obtain ⟨s'', f1, f2, f3, f4⟩ := ih s' e2 (by
        intro d hd
        rcases e4 d hd with h1 | h1 | ⟨h1, h2⟩
        · exact Or.inl h1
        · exact Or.inr h1
        · refine Or.inr (fun y hy => ?_)
          rw [h1] at hy
          rcases h2 y hy with h3 | h3
          · exact h3
          · simp at h3) (by omega)
      exact ⟨s'', f1, f2, f3, fun y hy => f4 (e5 hy)⟩

/-- One layer search. -/
theorem searchLayer_spec (E : Env V) (h : Index V) (q : V) (eps : List String) (ef layer : Nat)
    (hres : ∀ a b, Link h layer a b → Stored h b) (hnd : eps.Nodup) (hst : ∀ e ∈ eps, Stored h e) :
    ∃ r, searchLayer E h q eps ef layer = some r ∧ r.Nodup ∧ (∀ x ∈ r, Stored h x ∧ ∃ e ∈ eps, Reach (Link h layer) e x) ∧
      r.length ≤ max ef eps.length ∧ r.Pairwise (fun a b => D E h q a ≤ D E h q b) ∧
      (∀ e ∈ eps, e ∈ r ∨ (ef ≤ r.length ∧ ∀ z ∈ r, D E h q z ≤ D E h q e)) ∧
      (∀ x ∈ r, ∀ y, Link h layer x y → y ∈ r ∨ (ef ≤ r.length ∧ ∀ z ∈ r, D E h q z ≤ D E h q y)) ∧
      (eps ≠ [] → r ≠ []) := by
  unfold searchLayer
  obtain ⟨s, a1, a2, a3, a4, a5⟩ := enter_spec E h q ef layer eps eps ⟨[], [], []⟩
    { hc := heap_nil _, hd := heap_nil _, cd := by simp, dd := by simp, nd := by simp, vn := by simp, vr := by simp
      len := by simp, best := by simp, ne := by simp } (by simp) hnd (fun p hp => ⟨hp, hst p hp, by simp⟩) (by simp) rfl
  rw [a1]
  simp only
  obtain ⟨s', b1, b2, b3, b4⟩ := expand_spec E h q ef layer eps hres (eps.length + h.nodes.length) s a2 (by
    intro d hd
    obtain ⟨i, hi, rfl⟩ := List.mem_map.1 hd
    exact Or.inl (a3 i.id (a2.dd i hi).1).2) (by omega)
  rw [b1]
  simp only
  obtain ⟨c1, c2⟩ := heapDrain_spec Item.dist Item.before before_iff s'.dyn.length s'.dyn (le_refl _) b2.hd
  generalize heapDrain Item.before s'.dyn.length s'.dyn = dr at *
  have hp : ((dr.map Item.id).reverse).Perm (s'.dyn.map Item.id) := (List.reverse_perm _).trans (c1.map Item.id)
  have hlen : ((dr.map Item.id).reverse).length = s'.dyn.length := by rw [hp.length_eq, List.length_map]
  have hvis : ∀ y ∈ s'.visited, y ∈ (dr.map Item.id).reverse ∨ (ef ≤ ((dr.map Item.id).reverse).length ∧
      ∀ z ∈ (dr.map Item.id).reverse, D E h q z ≤ D E h q y) := by
    intro y hy
    by_cases hm : y ∈ s'.dyn.map Item.id
    · exact Or.inl (hp.mem_iff.2 hm)
    · obtain ⟨g1, g2⟩ := b2.best y hy hm
      refine Or.inr ⟨by rw [hlen]; exact g1, fun z hz => ?_⟩
      obtain ⟨i, hi, rfl⟩ := List.mem_map.1 (hp.mem_iff.1 hz)
      exact g2 i hi
  refine ⟨_, rfl, hp.nodup_iff.2 b2.nd, ?_, by rw [hlen]; exact b2.len, ?_, ?_, ?_, ?_⟩
  · intro x hx
    obtain ⟨i, hi, rfl⟩ := List.mem_map.1 (hp.mem_iff.1 hx)
    exact b2.vr i.id (b2.dd i hi).1
  · rw [List.pairwise_reverse, List.pairwise_map]
    refine List.Pairwise.imp_of_mem ?_ c2
    intro a b ha hb hab
    have e1 := (b2.dd a (c1.mem_iff.1 ha)).2
    have e2 := (b2.dd b (c1.mem_iff.1 hb)).2
    linarith
  · intro e he
    exact hvis e (b4 ((a4 e).2 (Or.inr he)))
  · intro x hx y hy
    exact hvis y (b3 x (hp.mem_iff.1 hx) y hy)
  · intro hne hr
    obtain ⟨e, es, rfl⟩ := List.exists_cons_of_ne_nil hne
    have hev : e ∈ s'.visited := b4 ((a4 e).2 (Or.inr List.mem_cons_self))
    have := b2.ne (List.ne_nil_of_mem hev)
    rw [hr] at hlen
    exact this (List.length_eq_zero_iff.1 (by simpa using hlen.symm))

/-- With room for every node the search returns everything that can be reached. -/
theorem searchLayer_complete (E : Env V) (h : Index V) (q : V) (eps : List String) (ef layer : Nat)
    (hres : ∀ a b, Link h layer a b → Stored h b) (hnd : eps.Nodup) (hst : ∀ e ∈ eps, Stored h e)
    (hef : h.nodes.length ≤ ef) (r : List String) (hr : searchLayer E h q eps ef layer = some r) :
    ∀ e ∈ eps, ∀ x, Reach (Link h layer) e x → x ∈ r := by
  obtain ⟨r', g1, g2, g3, g4, g5, g6, g7, g8⟩ := searchLayer_spec E h q eps ef layer hres hnd hst
  obtain rfl : r' = r := by rw [g1] at hr; exact Option.some.inj hr
  have hsub : r' ⊆ h.nodes.map Node.id := fun x hx => (stored_mem h x).1 (g3 x hx).1
  by_cases hfull : ef ≤ r'.length
  · have hall : ∀ x, Stored h x → x ∈ r' := by
      intro x hx
      have hsp := List.subperm_of_subset g2 hsub
      have hperm := hsp.perm_of_length_le (by rw [List.length_map]; omega)
      exact hperm.mem_iff.2 ((stored_mem h x).1 hx)
    intro e he x hx
    refine hall x (reach_closed (Stored h) (hst e he) (fun a b _ hab => hres a b hab) hx)
  · intro e he x hx
    refine reach_closed (fun y => y ∈ r') ?_ ?_ hx
    · rcases g6 e he with h1 | h1
      · exact h1
      · exact absurd h1.1 hfull
    · intro a b ha hab
      rcases g7 a ha b hab with h1 | h1
      · exact h1
      · exact absurd h1.1 hfull

end Verif.Hnsw
