import Verif.Thm.GeoDist
import Mathlib.Data.List.Nodup
import Mathlib.Data.List.ProdSigma
import Mathlib.Data.List.Induction
import Mathlib.Algebra.Order.Floor.Ring

/-!
C53: radius search. C54: nearest neighbours. C55: bounding boxes and polygons. C99: polygons that are rectangles.
-/
namespace Verif.Geo

open Verif.Base Verif.Spec

inductive Op where
  | insert (p : Pt)
  | delete (id : String)
  | clear

def step {K : Type} (c : Cfg K) (g : Index) : Op → Index
  | .insert p => (insert c g p).1
  | .delete id => (delete c g id).1
  | .clear => .empty

def run {K : Type} (c : Cfg K) (ops : List Op) : Index := ops.foldl (step c) .empty

/-- Specification: what an operation does to the map from ids to coordinates. -/
def knownStep (k : String → Option Coord) : Op → String → Option Coord
  | .insert p, id => if p.id = id ∧ p.id ≠ "" ∧ valid p.at_ = true then some p.at_ else k id
  | .delete i, id => if i = id then none else k id
  | .clear, _ => none

def known (ops : List Op) : String → Option Coord := ops.foldl knownStep (fun _ => none)

/-- The table of points holds the map. -/
def Holds (g : Index) (k : String → Option Coord) : Prop :=
  (g.points.map (·.id)).Nodup ∧ (∀ p, p ∈ g.points ↔ k p.id = some p.at_) ∧ (∀ p ∈ g.points, valid p.at_ = true)

theorem holds_step {K : Type} (c : Cfg K) (g : Index) (k : String → Option Coord) (op : Op) (h : Holds g k) :
    Holds (step c g op) (knownStep k op) := by
  obtain ⟨h1, h2, h3⟩ := h
  cases op with
  | insert p =>
    simp only [step, insert, knownStep]
    by_cases he : p.id = ""
    · rw [if_pos he]
      refine ⟨h1, ?_, h3⟩
      intro q
      simp only [knownStep]
      rw [h2, if_neg (by tauto)]
    · rw [if_neg he]
      by_cases hv : valid p.at_ = true
      · rw [if_neg (by simp [hv])]
        refine ⟨?_, ?_, ?_⟩
        · simp only [setPoint, List.map_append, List.map_cons, List.map_nil]
          rw [List.nodup_append]
          refine ⟨h1.sublist (List.Sublist.map _ List.filter_sublist), by simp, ?_⟩
          intro a ha b hb
          obtain ⟨q, hq, rfl⟩ := List.mem_map.1 ha
          rw [List.mem_singleton.1 hb]
          simpa using (List.mem_filter.1 hq).2
        · intro q
          simp only [setPoint, List.mem_append, List.mem_filter, List.mem_singleton, decide_eq_true_eq, knownStep]
          by_cases hq : p.id = q.id
          · rw [if_pos ⟨hq, he, hv⟩]
            constructor
            · rintro (⟨_, hn⟩ | rfl)
              · exact absurd hq.symm hn
              · rfl
            · intro h
              right
              obtain ⟨i, a⟩ := q
              obtain ⟨j, b⟩ := p
              simp only [Option.some.injEq] at h hq
              rw [h, hq]
          · rw [if_neg (by tauto), ← h2]
            constructor
            · rintro (⟨hm, _⟩ | rfl)
              · exact hm
              · exact absurd rfl hq
            · intro h; exact Or.inl ⟨h, fun h' => hq h'.symm⟩
        · intro q hq
          simp only [setPoint, List.mem_append, List.mem_filter, List.mem_singleton] at hq
          rcases hq with hq | rfl
          · exact h3 q hq.1
          · exact hv
      · rw [if_pos (by simpa using hv)]
        refine ⟨h1, ?_, h3⟩
        intro q
        simp only [knownStep]
        rw [h2, if_neg (by tauto)]
  | delete id =>
    simp only [step, delete, knownStep]
    cases hf : g.points.find? (fun p => decide (p.id = id)) with
    | none =>
      refine ⟨h1, ?_, h3⟩
      intro q
      simp only [knownStep]
      by_cases hq : id = q.id
      · rw [if_pos hq]
        simp only [reduceCtorEq, iff_false]
        intro hm
        have := List.find?_eq_none.1 hf q hm
        simp [hq] at this
      · rw [if_neg hq]; exact h2 q
    | some p =>
      refine ⟨h1.sublist (List.Sublist.map _ List.filter_sublist), ?_, fun q hq => h3 q (List.mem_filter.1 hq).1⟩
      intro q
      simp only [knownStep]
      simp only [List.mem_filter, decide_eq_true_eq]
      by_cases hq : id = q.id
      · rw [if_pos hq]; simp [hq]
      · rw [if_neg hq, ← h2]
        exact ⟨fun h => h.1, fun h => ⟨h, fun h' => hq h'.symm⟩⟩
  | clear =>
    simp [step, Index.empty, Holds, knownStep]

theorem holds_run {K : Type} (c : Cfg K) (ops : List Op) : Holds (run c ops) (known ops) := by
  induction ops using List.reverseRecOn with
  | nil => simp [run, Index.empty, Holds, known]
  | append_singleton ops op ih =>
    have h1 : run c (ops ++ [op]) = step c (run c ops) op := by simp [run]
    have h2 : known (ops ++ [op]) = knownStep (known ops) op := by simp [known]
    rw [h1, h2]
    exact holds_step c _ _ op ih

/-- C54: `GetPoint` answers with the coordinates of the last insertion that was not deleted, and `Size` counts the ids;
for every history, re-insertions included. -/
theorem C54_points {K : Type} (c : Cfg K) (ops : List Op) (id : String) :
    (getPoint (run c ops) id).map (·.at_) = known ops id ∧
    ((run c ops).points.map (·.id)).Nodup ∧ (∀ i, i ∈ (run c ops).points.map (·.id) ↔ (known ops i).isSome = true) := by
  obtain ⟨h1, h2, h3⟩ := holds_run c ops
  refine ⟨?_, h1, ?_⟩
  · unfold getPoint
    cases hf : (run c ops).points.find? (fun p => decide (p.id = id)) with
    | some p =>
      have hid : p.id = id := by simpa using List.find?_some hf
      rw [← hid, (h2 p).1 (List.mem_of_find?_eq_some hf)]
      rfl
    | none =>
      cases hk : known ops id with
      | none => rfl
      | some a =>
        have := (h2 ⟨id, a⟩).2 hk
        have := List.find?_eq_none.1 hf _ this
        simp at this
  · intro i
    constructor
    · intro h
      obtain ⟨p, hp, rfl⟩ := List.mem_map.1 h
      rw [(h2 p).1 hp]
      rfl
    · intro h
      obtain ⟨a, ha⟩ := Option.isSome_iff_exists.1 h
      exact List.mem_map.2 ⟨⟨i, a⟩, (h2 ⟨i, a⟩).2 ha, rfl⟩

/-- C54: for every history, the nearest neighbour search answers with the `k` nearest known points, nearest first, with
their distances; it is an error only for an invalid centre or `k ≤ 0`. -/
theorem C54_knn {K : Type} [Field K] [LinearOrder K] [IsStrictOrderedRing K] (c : Cfg K)
    (sort : List (Pt × K) → List (Pt × K)) (hs : ∀ l, SortedFrom (fun a b => a.2 ≤ b.2) l (sort l))
    (ord : List Pt → List Pt) (ho : ∀ l, (ord l).Perm l) (ops : List Op) (center : Coord) (k : Int) :
    (searchKNN c sort ord (run c ops) center k = none ↔ (valid center = false ∨ k ≤ 0)) ∧
    ∀ out, searchKNN c sort ord (run c ops) center k = some out →
      ∃ pts : List Pt, pts.Nodup ∧ (∀ p, p ∈ pts ↔ known ops p.id = some p.at_) ∧
        IsTopK (fun x : Pt × K => -x.2) (pts.map (fun p => (p, c.dist center p.at_))) k.toNat out := by
  obtain ⟨h1, h2, _⟩ := holds_run c ops
  constructor
  · unfold searchKNN
    simp only
    split
    · simp [*]
    · split
      · simp [*]
      · split <;> simp_all
  · intro out hout
    unfold searchKNN at hout
    simp only at hout
    split at hout
    · simp at hout
    · split at hout
      · simp at hout
      · rename_i hk
        refine ⟨(run c ops).points, List.Nodup.of_map _ h1, h2, ?_⟩
        have hsort := hs ((ord (run c ops).points).map (fun p => (p, c.dist center p.at_)))
        have hp : SortedFrom (fun a b : Pt × K => -b.2 ≤ -a.2) ((run c ops).points.map (fun p => (p, c.dist center p.at_)))
            (sort ((ord (run c ops).points).map (fun p => (p, c.dist center p.at_)))) :=
          ⟨hsort.1.trans ((ho _).map _), hsort.2.imp (fun h => neg_le_neg h)⟩
        have htop := isTopK_take (fun x : Pt × K => -x.2) _ _ k.toNat hp
        split at hout
        · rename_i hlen
          rw [← Option.some.inj hout]
          rw [List.take_of_length_le (by omega)] at htop
          exact htop
        · rw [← Option.some.inj hout]
          exact htop

/-- Distance by difference of latitude, and insertion sort, for examples. -/
def cfgQ : Cfg ℚ := ⟨cell0, span0, fun p q => |q.lat - p.lat| * 111⟩

def sortQ (l : List (Pt × ℚ)) : List (Pt × ℚ) := exchangeSort (fun a b => decide (a.2 < b.2)) l

theorem sortQ_sorts (l : List (Pt × ℚ)) : SortedFrom (fun a b => a.2 ≤ b.2) l (sortQ l) :=
  ⟨exchangeSort_perm _ _, exchangeSort_sorted (fun x : Pt × ℚ => x.2) _ (by simp) l⟩

def hist0 : List Op := [.insert ⟨"a", ⟨1, 0⟩⟩, .insert ⟨"b", ⟨2, 0⟩⟩, .insert ⟨"c", ⟨4, 0⟩⟩, .insert ⟨"a", ⟨9, 0⟩⟩, .delete "c",
  .insert ⟨"d", ⟨3, 0⟩⟩]

example : searchKNN cfgQ sortQ id (run cfgQ hist0) ⟨0, 0⟩ 2 = some [(⟨"b", ⟨2, 0⟩⟩, 222), (⟨"d", ⟨3, 0⟩⟩, 333)] := by
  decide +kernel

/-! ### The grid -/

/-- No id is inserted while a point with that id is known. -/
def Fresh (ops : List Op) : Prop := ∀ pre p post, ops = pre ++ Op.insert p :: post → known pre p.id = none

/-- A point may be moved by deleting it first. -/
example : Fresh [.insert ⟨"a", ⟨1, 1⟩⟩, .delete "a", .insert ⟨"a", ⟨50, 50⟩⟩] := by
  intro pre p post h
  rcases pre with _ | ⟨x, _ | ⟨y, _ | ⟨z, pre⟩⟩⟩
  · rfl
  · simp at h
  · simp only [List.cons_append, List.nil_append, List.cons.injEq, Op.insert.injEq] at h
    obtain ⟨rfl, rfl, rfl, _⟩ := h
    decide +kernel
  · simp at h

/-- Every cell holds the known points that belong there, each once. -/
def GridOK {K : Type} (c : Cfg K) (g : Index) : Prop :=
  ∀ k, (g.grid k).Perm (g.points.filter (fun p => decide (gridKey c p.at_ = k)))

theorem removeSwap_perm (id : String) (l : List Pt) (hn : (l.map (·.id)).Nodup) :
    (removeSwap id l).Perm (l.filter (fun p => decide (p.id ≠ id))) := by
  unfold removeSwap
  cases hf : l.findIdx? (fun p => decide (p.id = id)) with
  | none =>
    simp only
    rw [List.filter_eq_self.2]
    intro p hp
    have := List.findIdx?_eq_none_iff.1 hf p hp
    simpa using this
  | some i =>
    obtain ⟨hi, hpi, _⟩ := List.findIdx?_eq_some_iff_getElem.1 hf
    simp only
    have hl : l = l.take i ++ l[i] :: l.drop (i + 1) := by
      rw [List.getElem_cons_drop, List.take_append_drop]
    have hid : l[i].id = id := by simpa using hpi
    have hfil : l.filter (fun p => decide (p.id ≠ id)) = l.take i ++ l.drop (i + 1) := by
      rw [hl, List.map_append, List.map_cons, List.nodup_append] at hn
      obtain ⟨_, hn2, hn3⟩ := hn
      conv_lhs => rw [hl]
      rw [List.filter_append, List.filter_cons_of_neg (by simp [hid])]
      congr 1
      · apply List.filter_eq_self.2
        intro p hp
        have := hn3 p.id (List.mem_map_of_mem hp) l[i].id List.mem_cons_self
        rw [hid] at this
        simpa using this
      · apply List.filter_eq_self.2
        intro p hp
        have hne : p.id ≠ id := by
          intro h
          apply (List.nodup_cons.1 hn2).1
          rw [hid, ← h]
          exact List.mem_map_of_mem hp
        simpa using hne
    cases hz : l.getLast? with
    | none =>
      rw [List.getLast?_eq_none_iff] at hz
      subst hz
      simp at hi
    | some z =>
      simp only
      rw [hfil, List.set_eq_take_append_cons_drop, if_pos hi]
      by_cases hd : l.drop (i + 1) = []
      · rw [hd]
        simp
      · obtain ⟨ds, d, hds⟩ : ∃ ds d, l.drop (i + 1) = ds ++ [d] :=
          ⟨_, _, (List.dropLast_append_getLast hd).symm⟩
        have hzd : d = z := by
          rw [hl, hds] at hz
          rw [show l.take i ++ l[i] :: (ds ++ [d]) = (l.take i ++ l[i] :: ds) ++ [d] by simp, List.getLast?_concat] at hz
          exact Option.some.inj hz
        rw [hds, hzd]
        have : (l.take i ++ z :: (ds ++ [z])).dropLast = l.take i ++ z :: ds := by
          rw [show l.take i ++ z :: (ds ++ [z]) = (l.take i ++ z :: ds) ++ [z] by simp, List.dropLast_concat]
        rw [this]
        apply List.Perm.append_left
        exact (List.perm_append_singleton z ds).symm

theorem gridOK_run {K : Type} (c : Cfg K) (ops : List Op) (hf : Fresh ops) : GridOK c (run c ops) := by
  induction ops using List.reverseRecOn with
  | nil => intro k; simp [run, Index.empty]
  | append_singleton ops op ih =>
    have h1 : run c (ops ++ [op]) = step c (run c ops) op := by simp [run]
    have hf' : Fresh ops := by
      intro pre p post h
      exact hf pre p (post ++ [op]) (by rw [h]; simp)
    have ih' := ih hf'
    obtain ⟨g1, g2, g3⟩ := holds_run c ops
    rw [h1]
    cases op with
    | insert p =>
      have hnew : known ops p.id = none := hf ops p [] rfl
      simp only [step, insert]
      split
      · exact ih'
      · split
        · exact ih'
        · have hpts : setPoint (run c ops).points p = (run c ops).points ++ [p] := by
            unfold setPoint
            rw [List.filter_eq_self.2]
            intro q hq
            have : q.id ≠ p.id := by
              intro h
              have := (g2 q).1 hq
              rw [h, hnew] at this
              simp at this
            simpa using this
          intro k
          simp only [hpts, List.filter_append]
          by_cases hk : k = gridKey c p.at_
          · rw [if_pos hk, List.filter_cons_of_pos (by simp [hk])]
            exact (ih' k).append_right _
          · rw [if_neg hk, List.filter_cons_of_neg (by simp [Ne.symm hk])]
            simpa using ih' k
    | delete id =>
      simp only [step, delete]
      cases hfd : (run c ops).points.find? (fun p => decide (p.id = id)) with
      | none => exact ih'
      | some p =>
        have hpm := List.mem_of_find?_eq_some hfd
        have hid : p.id = id := by simpa using List.find?_some hfd
        intro k
        simp only
        have hcomm : ((run c ops).points.filter (fun q => decide (q.id ≠ id))).filter (fun q => decide (gridKey c q.at_ = k)) =
            ((run c ops).points.filter (fun q => decide (gridKey c q.at_ = k))).filter (fun q => decide (q.id ≠ id)) := by
          rw [List.filter_filter, List.filter_filter]
          congr 1
          funext q
          rw [Bool.and_comm]
        rw [hcomm]
        split
        · have hn : ((run c ops).grid k |>.map (·.id)).Nodup := by
            rw [((ih' k).map _).nodup_iff]
            exact g1.sublist (List.Sublist.map _ List.filter_sublist)
          exact (removeSwap_perm id _ hn).trans ((ih' k).filter _)
        · rename_i hk
          rw [List.filter_eq_self.2]
          · exact ih' k
          · intro q hq
            obtain ⟨hq1, hq2⟩ := List.mem_filter.1 hq
            have : q.id ≠ id := by
              intro h
              have e1 := (g2 q).1 hq1
              have e2 := (g2 p).1 hpm
              rw [h, ← hid, e2] at e1
              apply hk
              rw [Option.some.inj e1]
              exact (of_decide_eq_true hq2).symm
            simpa using this
    | clear => intro k; simp [step, Index.empty]

/-! ### Keys -/

/-- Cells whose key loses no bit. -/
def Small (x : Int) : Prop := -2147483648 ≤ x ∧ x < 2147483648

theorem key_inj {x y x' y' : Int} (hx : Small x) (hy : Small y) (hx' : Small x') (hy' : Small y') (h : key x y = key x' y') :
    x = x' ∧ y = y' := by
  unfold key at h
  unfold Small at *
  norm_num at h
  omega

theorem mem_upTo (a b x : Int) : x ∈ upTo a b ↔ a ≤ x ∧ x ≤ b := by
  unfold upTo
  simp only [List.mem_map, List.mem_range]
  constructor
  · rintro ⟨i, hi, rfl⟩; omega
  · rintro ⟨h1, h2⟩
    exact ⟨(x - a).toNat, by omega, by omega⟩

theorem nodup_upTo (a b : Int) : (upTo a b).Nodup := by
  unfold upTo
  apply List.Nodup.map _ List.nodup_range
  intro i j h
  simp only at h
  omega

theorem filter_or_perm {α : Type*} (p q : α → Bool) (hd : ∀ a, ¬(p a = true ∧ q a = true)) (l : List α) :
    (l.filter (fun a => p a || q a)).Perm (l.filter p ++ l.filter q) := by
  induction l with
  | nil => simp
  | cons a l ih =>
    by_cases hp : p a = true
    · have hq : q a = false := by
        have := hd a; simp_all
      simp only [List.filter_cons, hp, hq, Bool.or_false, if_true, Bool.false_eq_true, if_false, List.cons_append]
      exact ih.cons a
    · by_cases hq : q a = true
      · simp only [Bool.not_eq_true] at hp
        simp only [List.filter_cons, hp, hq, Bool.or_true, if_true, Bool.false_eq_true, if_false]
        exact (ih.cons a).trans List.perm_middle.symm
      · simp only [Bool.not_eq_true] at hp hq
        simp only [List.filter_cons, hp, hq, Bool.or_false, Bool.false_eq_true, if_false]
        exact ih

theorem partition_perm {α : Type*} (f : α → Int) (l : List α) (ks : List Int) (hn : ks.Nodup) :
    (ks.flatMap (fun k => l.filter (fun a => decide (f a = k)))).Perm (l.filter (fun a => decide (f a ∈ ks))) := by
  induction ks with
  | nil => simp
  | cons k ks ih =>
    rw [List.nodup_cons] at hn
    rw [List.flatMap_cons]
    refine (List.Perm.append_left _ (ih hn.2)).trans ?_
    refine (filter_or_perm _ _ ?_ l).symm.trans ?_
    · intro a
      simp only [decide_eq_true_eq]
      rintro ⟨rfl, h⟩
      exact hn.1 h
    · apply List.Perm.of_eq
      congr 1
      funext a
      by_cases h1 : f a = k <;> by_cases h2 : f a ∈ ks <;> simp [h1, h2]

theorem flatMap_perm {α β : Type*} (ks : List α) (f g : α → List β) (h : ∀ k, (f k).Perm (g k)) :
    (ks.flatMap f).Perm (ks.flatMap g) := by
  induction ks with
  | nil => simp
  | cons k ks ih => rw [List.flatMap_cons, List.flatMap_cons]; exact (h k).append ih

/-- The points of a rectangle of cells are the known points whose cell lies in it. -/
theorem cells_perm {K : Type} (c : Cfg K) (g : Index) (hg : GridOK c g) (x0 x1 y0 y1 : Int)
    (hb : Small x0 ∧ Small x1 ∧ Small y0 ∧ Small y1)
    (hc : ∀ p ∈ g.points, Small (c.cell p.at_.lng) ∧ Small (c.cell p.at_.lat)) :
    (cells g x0 x1 y0 y1).Perm (g.points.filter (fun p => decide (x0 ≤ c.cell p.at_.lng ∧ c.cell p.at_.lng ≤ x1 ∧
      y0 ≤ c.cell p.at_.lat ∧ c.cell p.at_.lat ≤ y1))) := by
  obtain ⟨b1, b2, b3, b4⟩ := hb
  unfold Small at b1 b2 b3 b4
  have hx : ∀ x ∈ upTo x0 x1, Small x := by
    intro x h; rw [mem_upTo] at h; unfold Small; omega
  have hy : ∀ x ∈ upTo y0 y1, Small x := by
    intro x h; rw [mem_upTo] at h; unfold Small; omega
  set ks := (upTo x0 x1).flatMap (fun x => (upTo y0 y1).map (fun y => key x y)) with hks
  have hflat : cells g x0 x1 y0 y1 = ks.flatMap g.grid := by
    unfold cells
    rw [hks, List.flatMap_assoc]
    congr 1
    funext x
    rw [List.flatMap_map]
  have hnd : ks.Nodup := by
    rw [hks, List.nodup_flatMap]
    constructor
    · intro x hxm
      apply List.Nodup.map_on _ (nodup_upTo y0 y1)
      intro y h1 y' h2 he
      exact (key_inj (hx x hxm) (hy y h1) (hx x hxm) (hy y' h2) he).2
    · apply List.Pairwise.imp_of_mem _ (nodup_upTo x0 x1)
      intro x x' h1 h2 hne
      intro k hk1 hk2
      obtain ⟨y, hym, rfl⟩ := List.mem_map.1 hk1
      obtain ⟨y', hym', he⟩ := List.mem_map.1 hk2
      exact hne ((key_inj (hx x' h2) (hy y' hym') (hx x h1) (hy y hym) he).1).symm
  rw [hflat]
  refine (flatMap_perm ks _ _ hg).trans ((partition_perm (fun p : Pt => gridKey c p.at_) g.points ks hnd).trans ?_)
  apply List.Perm.of_eq
  apply List.filter_congr
  intro p hp
  apply decide_eq_decide.2
  obtain ⟨c1, c2⟩ := hc p hp
  rw [hks]
  simp only [List.mem_flatMap, List.mem_map, gridKey]
  constructor
  · rintro ⟨x, hxm, y, hym, he⟩
    obtain ⟨e1, e2⟩ := key_inj (hx x hxm) (hy y hym) c1 c2 he
    rw [mem_upTo] at hxm hym
    omega
  · rintro ⟨h1, h2, h3, h4⟩
    exact ⟨c.cell p.at_.lng, (mem_upTo _ _ _).2 ⟨h1, h2⟩, c.cell p.at_.lat, (mem_upTo _ _ _).2 ⟨h3, h4⟩, rfl⟩

/-- Valid coordinates have small cells. -/
def CellOK {K : Type} (c : Cfg K) : Prop :=
  (∀ x y, x ≤ y → c.cell x ≤ c.cell y) ∧ ∀ x, -180 ≤ x → x ≤ 180 → -1000000 ≤ c.cell x ∧ c.cell x ≤ 1000000

theorem cell0_mono : ∀ x y : ℚ, x ≤ y → cell0 x ≤ cell0 y := by
  intro x y h
  unfold cell0
  split
  · rw [if_pos (by linarith)]
    exact Int.floor_le_floor (by linarith)
  · rename_i hx
    push Not at hx
    split
    · have h1 : ⌈x * 10⌉ ≤ 0 := Int.ceil_le.2 (by push_cast; linarith)
      have h2 : 0 ≤ ⌊y * 10⌋ := Int.floor_nonneg.2 (by linarith)
      omega
    · exact Int.ceil_le_ceil (by linarith)

theorem cellOK_of_cell0 {K : Type} (c : Cfg K) (h : c.cell = cell0) : CellOK c := by
  constructor
  · rw [h]; exact cell0_mono
  · intro x h1 h2
    rw [h]
    have a := cell0_mono _ _ h1
    have b := cell0_mono _ _ h2
    have e1 : cell0 (-180) = -1800 := by decide +kernel
    have e2 : cell0 180 = 1800 := by decide +kernel
    omega

theorem valid_lat {p : Coord} (h : valid p = true) : (-180 ≤ p.lng ∧ p.lng ≤ 180) ∧ (-90 ≤ p.lat ∧ p.lat ≤ 90) := by
  simp only [valid, ge_iff_le, decide_eq_true_eq] at h
  exact ⟨⟨h.2.2.1, h.2.2.2⟩, ⟨h.1, h.2.1⟩⟩

theorem small_of {K : Type} (c : Cfg K) (hc : CellOK c) {p : Coord} (h : valid p = true) :
    (-1000000 ≤ c.cell p.lng ∧ c.cell p.lng ≤ 1000000) ∧ (-1000000 ≤ c.cell p.lat ∧ c.cell p.lat ≤ 1000000) := by
  obtain ⟨⟨h1, h2⟩, h3, h4⟩ := valid_lat h
  exact ⟨hc.2 _ h1 h2, hc.2 _ (by linarith) (by linarith)⟩

/-! ### C55, boxes -/

/-- C55, boxes, proved part: after every history without re-insertion of a known id, the bounding-box search returns
exactly the known points inside the box, each once. -/
theorem C55_box_partial {K : Type} (c : Cfg K) (hc : CellOK c) (ops : List Op) (hf : Fresh ops) (b : Box) :
    (searchBox c (run c ops) b = none ↔ validBox b = false) ∧
    ∀ out, searchBox c (run c ops) b = some out →
      out.Nodup ∧ ∀ p : Pt, p ∈ out ↔ known ops p.id = some p.at_ ∧
        b.minLat ≤ p.at_.lat ∧ p.at_.lat ≤ b.maxLat ∧ b.minLng ≤ p.at_.lng ∧ p.at_.lng ≤ b.maxLng := by
  obtain ⟨h1, h2, h3⟩ := holds_run c ops
  constructor
  · unfold searchBox
    split <;> simp_all
  · intro out hout
    unfold searchBox at hout
    split at hout
    · simp at hout
    · rename_i hv
      rw [← Option.some.inj hout]
      have hv' : validBox b = true := by simpa using hv
      simp only [validBox, ge_iff_le, decide_eq_true_eq] at hv'
      obtain ⟨v1, v2, v3, v4, v5, v6⟩ := hv'
      have q1 := hc.2 b.minLng v3 (by linarith)
      have q2 := hc.2 b.maxLng (by linarith) v4
      have q3 := hc.2 b.minLat (by linarith) (by linarith)
      have q4 := hc.2 b.maxLat (by linarith) (by linarith)
      have hp := cells_perm c (run c ops) (gridOK_run c ops hf) (c.cell b.minLng) (c.cell b.maxLng) (c.cell b.minLat)
        (c.cell b.maxLat) (by unfold Small; omega)
        (fun p hp => by have := small_of c hc (h3 p hp); unfold Small; omega)
      have hp2 := hp.filter (fun p => inBox b p.at_)
      constructor
      · rw [hp2.nodup_iff]
        exact ((List.Nodup.of_map _ h1).filter _).filter _
      · intro p
        rw [hp2.mem_iff, List.mem_filter, List.mem_filter, h2]
        simp only [inBox, ge_iff_le, decide_eq_true_eq]
        constructor
        · rintro ⟨⟨e1, _⟩, e2⟩; exact ⟨e1, e2⟩
        · rintro ⟨e1, e2, e3, e4, e5⟩
          exact ⟨⟨e1, hc.1 _ _ e4, hc.1 _ _ e5, hc.1 _ _ e2, hc.1 _ _ e3⟩, e2, e3, e4, e5⟩

/-- C55 is violated when a known id is inserted again: the box around the old place still finds it. -/
theorem C55_reinsert_violated :
    searchBox cfgQ (run cfgQ [.insert ⟨"a", ⟨1, 1⟩⟩, .insert ⟨"a", ⟨50, 50⟩⟩]) ⟨0, 2, 0, 2⟩ = some [⟨"a", ⟨1, 1⟩⟩] ∧
    searchBox cfgQ (run cfgQ [.insert ⟨"a", ⟨1, 1⟩⟩, .insert ⟨"a", ⟨50, 50⟩⟩, .delete "a"]) ⟨0, 2, 0, 2⟩ =
      some [⟨"a", ⟨1, 1⟩⟩] ∧
    (getPoint (run cfgQ [.insert ⟨"a", ⟨1, 1⟩⟩, .insert ⟨"a", ⟨50, 50⟩⟩, .delete "a"]) "a") = none := by decide +kernel

theorem cfgQ_ok : CellOK cfgQ := cellOK_of_cell0 cfgQ rfl

example : searchBox cfgQ (run cfgQ [.insert ⟨"a", ⟨1, 1⟩⟩, .insert ⟨"b", ⟨1, -1⟩⟩, .delete "a", .insert ⟨"a", ⟨0, 1/2⟩⟩,
    .insert ⟨"c", ⟨3, 3⟩⟩]) ⟨0, 1, -1, 1⟩ = some [⟨"b", ⟨1, -1⟩⟩, ⟨"a", ⟨0, 1/2⟩⟩] := by decide +kernel

/-! ### C53 -/

/-- The points the grid offers for a radius: known, within the number of cells for the radius. -/
def Near {K : Type} (c : Cfg K) (center : Coord) (r : K) (p : Coord) : Prop :=
  (c.cell center.lng - c.span r ≤ c.cell p.lng ∧ c.cell p.lng ≤ c.cell center.lng + c.span r) ∧
  (c.cell center.lat - c.span r ≤ c.cell p.lat ∧ c.cell p.lat ≤ c.cell center.lat + c.span r)

/-- C53, proved part: after every history without re-insertion of a known id, the radius search returns, nearest first and
each once, exactly the known points that are within the radius and whose grid cell is among the cells looked at. Missing:
that the cells looked at contain the whole circle, see `C53_pole_violated`. -/
theorem C53_exact_partial {K : Type} [Field K] [LinearOrder K] (c : Cfg K) (hc : CellOK c)
    (sort : List (Pt × K) → List (Pt × K)) (hs : ∀ l, SortedFrom (fun a b => a.2 ≤ b.2) l (sort l)) (ops : List Op)
    (hf : Fresh ops) (center : Coord) (radius : K) (u : Unit_) (hr : c.span (toKM radius u) ≤ 1000000000)
    (hr0 : 0 ≤ c.span (toKM radius u)) :
    (searchRadius c sort (run c ops) center radius u = none ↔ valid center = false ∨ radius ≤ 0) ∧
    ∀ out, searchRadius c sort (run c ops) center radius u = some out →
      out.Pairwise (fun a b => a.2 ≤ b.2) ∧ (out.map (·.1)).Nodup ∧
      ∀ p d, (p, d) ∈ out ↔ known ops p.id = some p.at_ ∧ c.dist center p.at_ ≤ toKM radius u ∧
        Near c center (toKM radius u) p.at_ ∧ d = fromKM (c.dist center p.at_) u := by
  obtain ⟨h1, h2, h3⟩ := holds_run c ops
  constructor
  · unfold searchRadius radiusHits
    split
    · simp [*]
    · split
      · simp [*]
      · simp_all
  · intro out hout
    unfold searchRadius radiusHits at hout
    split at hout
    · simp at hout
    · split at hout
      · simp at hout
      · rename_i hv _
        simp only [Option.map_some, Option.some.injEq] at hout
        have hv' : valid center = true := by simpa using hv
        have hcen := small_of c hc hv'
        have hp := cells_perm c (run c ops) (gridOK_run c ops hf)
          (c.cell center.lng + -c.span (toKM radius u)) (c.cell center.lng + c.span (toKM radius u))
          (c.cell center.lat + -c.span (toKM radius u)) (c.cell center.lat + c.span (toKM radius u))
          (by unfold Small; omega)
          (fun p hp => by have := small_of c hc (h3 p hp); unfold Small; omega)
        have hp2 := hp.filter (fun p => decide (c.dist center p.at_ ≤ toKM radius u))
        have hsort := hs (((candidates c (run c ops) center (toKM radius u)).filter
          (fun p => decide (c.dist center p.at_ ≤ toKM radius u))).map (fun p => (p, fromKM (c.dist center p.at_) u)))
        rw [hout] at hsort
        have hperm : out.Perm _ := hsort.1.trans (hp2.map (fun p => (p, fromKM (c.dist center p.at_) u)))
        refine ⟨hsort.2, ?_, ?_⟩
        · rw [(hperm.map _).nodup_iff, List.map_map]
          have : ((fun x : Pt × K => x.1) ∘ fun p => (p, fromKM (c.dist center p.at_) u)) = id := rfl
          rw [this, List.map_id]
          exact ((List.Nodup.of_map _ h1).filter _).filter _
        · intro p d
          rw [hperm.mem_iff, List.mem_map]
          constructor
          · rintro ⟨q, hq, he⟩
            simp only [Prod.mk.injEq] at he
            obtain ⟨rfl, rfl⟩ := he
            obtain ⟨hq1, hq2⟩ := List.mem_filter.1 hq
            obtain ⟨hq3, hq4⟩ := List.mem_filter.1 hq1
            simp only [decide_eq_true_eq] at hq2 hq4
            refine ⟨(h2 q).1 hq3, hq2, ?_, rfl⟩
            unfold Near
            omega
          · rintro ⟨e1, e2, e3, rfl⟩
            refine ⟨p, List.mem_filter.2 ⟨List.mem_filter.2 ⟨(h2 p).2 e1, ?_⟩, by simpa using e2⟩, rfl⟩
            unfold Near at e3
            simp only [decide_eq_true_eq]
            omega

/-- Cells of coordinates at most `t` degrees apart. -/
theorem cell0_near (a b : ℚ) (t : ℝ) (h : |(b : ℝ) - a| ≤ t) : cell0 a - ⌈t * 10⌉ ≤ cell0 b ∧ cell0 b ≤ cell0 a + ⌈t * 10⌉ := by
  have key : ∀ a b : ℚ, a ≤ b → (b : ℝ) - a ≤ t → cell0 b ≤ cell0 a + ⌈t * 10⌉ ∧ cell0 a ≤ cell0 b := by
    intro a b hab ht
    refine ⟨?_, cell0_mono a b hab⟩
    have hn : (b * 10 : ℚ) ≤ a * 10 + ⌈t * 10⌉ := by
      have h1 : ((b : ℝ) * 10) ≤ a * 10 + (⌈t * 10⌉ : ℝ) := by
        have := Int.le_ceil (t * 10)
        linarith
      exact_mod_cast h1
    unfold cell0
    by_cases ha : 0 ≤ a
    · rw [if_pos ha, if_pos (le_trans ha hab)]
      have := Int.floor_le_floor hn
      rw [Int.floor_add_intCast] at this
      exact this
    · rw [if_neg ha]
      by_cases hb : 0 ≤ b
      · rw [if_pos hb]
        have h1 : (⌊b * 10⌋ : ℚ) ≤ b * 10 := Int.floor_le _
        have h2 : (a * 10 : ℚ) ≤ ⌈a * 10⌉ := Int.le_ceil _
        have : (⌊b * 10⌋ : ℚ) ≤ ((⌈a * 10⌉ + ⌈t * 10⌉ : ℤ) : ℚ) := by push_cast; linarith
        exact_mod_cast this
      · rw [if_neg hb]
        have := Int.ceil_le_ceil hn
        rw [Int.ceil_add_intCast] at this
        exact this
  rcases le_total a b with hab | hab
  · have := key a b hab (le_trans (le_abs_self _) h)
    have h0 : 0 ≤ ⌈t * 10⌉ := Int.ceil_nonneg (by have := abs_nonneg ((b : ℝ) - a); linarith)
    omega
  · have := key b a hab (by rw [abs_sub_comm] at h; exact le_trans (le_abs_self _) h)
    have h0 : 0 ≤ ⌈t * 10⌉ := Int.ceil_nonneg (by have := abs_nonneg ((b : ℝ) - a); linarith)
    omega

theorem cfgR_ok : CellOK cfgR := cellOK_of_cell0 cfgR rfl

theorem lat_near (center p : Coord) (hv : valid center = true) (hp : valid p = true) (r : ℝ) (h : haversine center p ≤ r) :
    cfgR.cell center.lat - cfgR.span r ≤ cfgR.cell p.lat ∧ cfgR.cell p.lat ≤ cfgR.cell center.lat + cfgR.span r := by
  have h1 := lat_le_dist center p (valid_lat hv).2 (valid_lat hp).2
  exact cell0_near center.lat p.lat (r / 111) (by rw [le_div_iff₀ (by norm_num)]; linarith)

/-- C53, proved part: with the real distance no point within the radius is lost because of its latitude; so on the meridian
of the centre, and on the equator, the radius search is exact: every known point within the radius is returned. -/
theorem C53_complete_partial (sort : List (Pt × ℝ) → List (Pt × ℝ))
    (hs : ∀ l, SortedFrom (fun a b => a.2 ≤ b.2) l (sort l)) (ops : List Op)
    (hf : Fresh ops) (center : Coord) (radius : ℝ) (u : Unit_) (hr : toKM radius u ≤ 100000000)
    (hr0 : 0 ≤ toKM radius u) (out : List (Pt × ℝ)) (hout : searchRadius cfgR sort (run cfgR ops) center radius u = some out)
    (p : Pt) (hk : known ops p.id = some p.at_) (hd : haversine center p.at_ ≤ toKM radius u)
    (hm : p.at_.lng = center.lng ∨ (center.lat = 0 ∧ p.at_.lat = 0 ∧ |(p.at_.lng : ℝ) - center.lng| ≤ 180)) :
    (p, fromKM (haversine center p.at_) u) ∈ out := by
  have hspan : cfgR.span (toKM radius u) ≤ 1000000000 ∧ 0 ≤ cfgR.span (toKM radius u) := by
    constructor
    · show ⌈toKM radius u / 111 * 10⌉ ≤ _
      apply Int.ceil_le.2
      push_cast
      linarith
    · show 0 ≤ ⌈toKM radius u / 111 * 10⌉
      apply Int.ceil_nonneg
      positivity
  obtain ⟨hnone, hsome⟩ := C53_exact_partial cfgR cfgR_ok sort hs ops hf center radius u hspan.1 hspan.2
  have hvc : valid center = true := by
    by_contra h
    have := hnone.2 (Or.inl (by simpa using h))
    rw [this] at hout
    simp at hout
  obtain ⟨g1, g2, g3⟩ := holds_run cfgR ops
  have hvp : valid p.at_ = true := g3 p ((g2 p).2 hk)
  refine ((hsome out hout).2.2 p _).2 ⟨hk, hd, ⟨?_, lat_near center p.at_ hvc hvp _ hd⟩, rfl⟩
  rcases hm with hm | ⟨m1, m2, m3⟩
  · rw [hm]
    omega
  · have h1 := lng_le_dist center p.at_ m1 m2 m3
    exact cell0_near center.lng p.at_.lng (toKM radius u / 111) (by rw [le_div_iff₀ (by norm_num)]; linarith)

/-- C53 is violated near the poles: the point at the pole, stored under longitude 10, is at distance 0 from the centre
and is not found by a search of radius 1 km. -/
theorem C53_pole_violated (sort : List (Pt × ℝ) → List (Pt × ℝ)) (hs : ∀ l, SortedFrom (fun a b => a.2 ≤ b.2) l (sort l)) :
    haversine ⟨90, 0⟩ ⟨90, 10⟩ = 0 ∧
    searchRadius cfgR sort (run cfgR [.insert ⟨"a", ⟨90, 10⟩⟩]) ⟨90, 0⟩ 1 .km = some [] := by
  refine ⟨pole_dist 0 10, ?_⟩
  have hc : candidates cfgR (run cfgR [.insert ⟨"a", ⟨90, 10⟩⟩]) ⟨90, 0⟩ (1 : ℝ) = [] := by
    unfold candidates
    have hsp : cfgR.span (1 : ℝ) = 1 := by
      show ⌈(1 : ℝ) / 111 * 10⌉ = 1
      rw [Int.ceil_eq_iff]
      norm_num
    simp only [hsp]
    show cells (run cfgQ [.insert ⟨"a", ⟨90, 10⟩⟩]) (cell0 0 + -1) (cell0 0 + 1) (cell0 90 + -1) (cell0 90 + 1) = []
    decide +kernel
  have hv : valid ⟨90, 0⟩ = true := by decide +kernel
  unfold searchRadius radiusHits
  rw [if_neg (by rw [hv]; simp), if_neg (by norm_num)]
  simp only [toKM, hc, List.filter_nil, List.map_nil, Option.map_some]
  rw [List.perm_nil.1 (hs []).1]

/-- C53 is violated at longitude 180: the same place stored under longitude -180 is not found. -/
theorem C53_antimeridian_violated (sort : List (Pt × ℝ) → List (Pt × ℝ))
    (hs : ∀ l, SortedFrom (fun a b => a.2 ≤ b.2) l (sort l)) :
    haversine ⟨0, 180⟩ ⟨0, -180⟩ = 0 ∧
    searchRadius cfgR sort (run cfgR [.insert ⟨"a", ⟨0, -180⟩⟩]) ⟨0, 180⟩ 1 .km = some [] := by
  refine ⟨antimeridian_dist 0, ?_⟩
  have hc : candidates cfgR (run cfgR [.insert ⟨"a", ⟨0, -180⟩⟩]) ⟨0, 180⟩ (1 : ℝ) = [] := by
    unfold candidates
    have hsp : cfgR.span (1 : ℝ) = 1 := by
      show ⌈(1 : ℝ) / 111 * 10⌉ = 1
      rw [Int.ceil_eq_iff]
      norm_num
    simp only [hsp]
    show cells (run cfgQ [.insert ⟨"a", ⟨0, -180⟩⟩]) (cell0 180 + -1) (cell0 180 + 1) (cell0 0 + -1) (cell0 0 + 1) = []
    decide +kernel
  have hv : valid ⟨0, 180⟩ = true := by decide +kernel
  unfold searchRadius radiusHits
  rw [if_neg (by rw [hv]; simp), if_neg (by norm_num)]
  simp only [toKM, hc, List.filter_nil, List.map_nil, Option.map_some]
  rw [List.perm_nil.1 (hs []).1]

/-- C53 is violated when a known id is inserted again: the point is found at its old place. -/
theorem C53_reinsert_violated :
    searchRadius cfgQ sortQ (run cfgQ [.insert ⟨"a", ⟨1, 1⟩⟩, .insert ⟨"a", ⟨50, 50⟩⟩]) ⟨1, 1⟩ 5 .km =
      some [(⟨"a", ⟨1, 1⟩⟩, 0)] := by decide +kernel

example : searchRadius cfgQ sortQ (run cfgQ [.insert ⟨"a", ⟨1, 1⟩⟩, .insert ⟨"b", ⟨101/100, 1⟩⟩, .insert ⟨"c", ⟨2, 1⟩⟩])
    ⟨101/100, 1⟩ 5000 .meters = some [(⟨"b", ⟨101/100, 1⟩⟩, 0), (⟨"a", ⟨1, 1⟩⟩, 1110)] := by decide +kernel

/-! ### C55, polygons -/

/-- Specification: the edges of a closed polygon. -/
def edges (p0 : Coord) (ps : List Coord) : List (Coord × Coord) := (p0 :: ps).zip (ps ++ [p0])

/-- Specification of the ray-casting rule: the edge has one end to the west of the point and one not, and the point is not
north of where the edge meets its meridian. -/
def hits (p : Coord) (e : Coord × Coord) : Prop :=
  ¬(e.1.lng < p.lng ↔ e.2.lng < p.lng) ∧
  p.lat ≤ e.1.lat + (p.lng - e.1.lng) / (e.2.lng - e.1.lng) * (e.2.lat - e.1.lat)

instance (p : Coord) (e : Coord × Coord) : Decidable (hits p e) := by unfold hits; infer_instance

/-- The height of an edge over a meridian that it crosses lies between its ends. -/
theorem height_between (p a b : Coord) (h : ¬(a.lng < p.lng ↔ b.lng < p.lng)) :
    min a.lat b.lat ≤ a.lat + (p.lng - a.lng) / (b.lng - a.lng) * (b.lat - a.lat) ∧
    a.lat + (p.lng - a.lng) / (b.lng - a.lng) * (b.lat - a.lat) ≤ max a.lat b.lat := by
  obtain ⟨h0, h1⟩ : 0 ≤ (p.lng - a.lng) / (b.lng - a.lng) ∧ (p.lng - a.lng) / (b.lng - a.lng) ≤ 1 := by
    by_cases ha : a.lng < p.lng
    · have hb : p.lng ≤ b.lng := by
        by_contra hb; exact h ⟨fun _ => not_le.1 hb, fun _ => ha⟩
      have hpos : 0 < b.lng - a.lng := by linarith
      exact ⟨div_nonneg (by linarith) hpos.le, (div_le_one hpos).2 (by linarith)⟩
    · have hb : b.lng < p.lng := by
        by_contra hb; exact h ⟨fun h => absurd h ha, fun h => absurd h hb⟩
      push Not at ha
      have hneg : b.lng - a.lng < 0 := by linarith
      exact ⟨div_nonneg_of_nonpos (by linarith) hneg.le, (div_le_one_of_neg hneg).2 (by linarith)⟩
  generalize (p.lng - a.lng) / (b.lng - a.lng) = t at h0 h1
  rcases le_total a.lat b.lat with hab | hab
  · rw [min_eq_left hab, max_eq_right hab]
    constructor <;> nlinarith
  · rw [min_eq_right hab, max_eq_left hab]
    constructor <;> nlinarith

theorem flips_iff (p a b : Coord) : flips p a b = true ↔ hits p (a, b) := by
  unfold flips hits
  by_cases hcross : ¬(a.lng < p.lng ↔ b.lng < p.lng)
  · have hne : a.lng ≠ b.lng := by
      intro h; rw [h] at hcross; exact hcross Iff.rfl
    have h1 : p.lng > min a.lng b.lng ∧ p.lng ≤ max a.lng b.lng := by
      rw [gt_iff_lt, min_lt_iff, le_max_iff]
      by_cases ha : a.lng < p.lng
      · exact ⟨Or.inl ha, Or.inr (by by_contra hb; exact hcross ⟨fun _ => not_le.1 hb, fun _ => ha⟩)⟩
      · exact ⟨Or.inr (by by_contra hb; exact hcross ⟨fun h => absurd h ha, fun h => absurd h hb⟩), Or.inl (not_lt.1 ha)⟩
    rw [if_pos h1.1, if_pos h1.2]
    have hx : (p.lng - a.lng) * (b.lat - a.lat) / (b.lng - a.lng) + a.lat =
        a.lat + (p.lng - a.lng) / (b.lng - a.lng) * (b.lat - a.lat) := by ring
    obtain ⟨hb1, hb2⟩ := height_between p a b hcross
    simp only [hx]
    constructor
    · intro h
      refine ⟨hcross, ?_⟩
      split at h
      · rename_i hm
        have h := of_decide_eq_true h
        rcases h with h | h
        · rw [h] at hm ⊢
          simpa using hm
        · exact h
      · simp at h
    · rintro ⟨_, h⟩
      rw [if_pos (le_trans h hb2), if_pos hne, decide_eq_true_eq]
      exact Or.inr h
  · constructor
    · intro h
      exfalso
      split at h
      · rename_i h1
        split at h
        · rename_i h2
          apply hcross
          intro hiff
          rw [gt_iff_lt, min_lt_iff] at h1
          rw [le_max_iff] at h2
          rcases h1 with h1 | h1 <;> rcases h2 with h2 | h2
          · exact absurd h1 (not_lt.2 h2)
          · exact absurd (hiff.1 h1) (not_lt.2 h2)
          · exact absurd (hiff.2 h1) (not_lt.2 h2)
          · exact absurd h1 (not_lt.2 h2)
        · simp at h
      · simp at h
    · rintro ⟨h, _⟩; exact absurd h hcross

theorem castLoop_eq (p : Coord) : ∀ (ps : List Coord) (b : Bool) (p1 : Coord),
    castLoop p b p1 ps = (b ^^ decide ((((p1 :: ps).zip ps).countP (fun e => decide (hits p e))) % 2 = 1)) := by
  intro ps
  induction ps with
  | nil => intro b p1; simp [castLoop]
  | cons p2 ps ih =>
    intro b p1
    simp only [castLoop, ih, List.zip_cons_cons, List.countP_cons]
    by_cases h : flips p p1 p2 = true
    · have h' := (flips_iff p p1 p2).1 h
      simp only [h, if_true, h', decide_true]
      generalize ((p2 :: ps).zip ps).countP (fun e => decide (hits p e)) = n
      rcases Nat.mod_two_eq_zero_or_one n with hn | hn
      · have : (n + 1) % 2 = 1 := by omega
        rw [hn, this]; cases b <;> rfl
      · have : (n + 1) % 2 = 0 := by omega
        rw [hn, this]; cases b <;> rfl
    · have h' : ¬ hits p (p1, p2) := fun hh => h ((flips_iff p p1 p2).2 hh)
      simp [h, h']

theorem zip_trunc {α : Type*} (q : α) : ∀ (ps : List α) (a : α), (a :: (ps ++ [q])).zip (ps ++ [q]) = (a :: ps).zip (ps ++ [q]) := by
  intro ps
  induction ps with
  | nil => intro a; simp
  | cons b ps ih => intro a; simp only [List.cons_append, List.zip_cons_cons]; rw [ih b]

theorem inPolygon_iff (p p0 : Coord) (ps : List Coord) :
    inPolygon p p0 ps = true ↔ ((edges p0 ps).countP (fun e => decide (hits p e))) % 2 = 1 := by
  unfold inPolygon
  rw [castLoop_eq, zip_trunc]
  unfold edges
  simp

/-- Along a chain of points the number of changes of side is even exactly when both ends are on the same side. -/
theorem cross_parity (f : Coord → Bool) : ∀ (ps : List Coord) (p1 q : Coord),
    ((p1 :: ps).zip (ps ++ [q])).countP (fun e => f e.1 != f e.2) % 2 = if f p1 = f q then 0 else 1 := by
  intro ps
  induction ps with
  | nil =>
    intro p1 q
    cases h1 : f p1 <;> cases h2 : f q <;> simp [h1, h2]
  | cons p2 ps ih =>
    intro p1 q
    simp only [List.cons_append, List.zip_cons_cons, List.countP_cons]
    have := ih p2 q
    rw [Nat.add_mod, this]
    cases h1 : f p1 <;> cases h2 : f p2 <;> cases h3 : f q <;> simp

theorem polyBox_bounds (p0 : Coord) (ps : List Coord) : ∀ v ∈ p0 :: ps,
    ((polyBox p0 ps).minLat ≤ v.lat ∧ v.lat ≤ (polyBox p0 ps).maxLat) ∧
    ((polyBox p0 ps).minLng ≤ v.lng ∧ v.lng ≤ (polyBox p0 ps).maxLng) := by
  unfold polyBox
  induction ps using List.reverseRecOn with
  | nil => intro v hv; simp only [List.mem_singleton] at hv; rw [hv]; simp
  | append_singleton ps q ih =>
    intro v hv
    rw [List.foldl_append]
    simp only [List.foldl_cons, List.foldl_nil]
    generalize ps.foldl _ _ = b at ih
    have hv' : v ∈ p0 :: ps ∨ v = q := by
      simp only [List.mem_cons, List.mem_append, List.mem_nil_iff, or_false] at hv ⊢
      tauto
    rcases hv' with hv' | rfl
    · obtain ⟨⟨a1, a2⟩, a3, a4⟩ := ih v hv'
      refine ⟨⟨?_, ?_⟩, ?_, ?_⟩ <;> split <;> linarith
    · refine ⟨⟨?_, ?_⟩, ?_, ?_⟩ <;> split <;> linarith

theorem mem_edges {p0 : Coord} {ps : List Coord} {e : Coord × Coord} (h : e ∈ edges p0 ps) : e.1 ∈ p0 :: ps ∧ e.2 ∈ p0 :: ps := by
  have := List.of_mem_zip (show (e.1, e.2) ∈ (p0 :: ps).zip (ps ++ [p0]) from h)
  refine ⟨this.1, ?_⟩
  have h2 := this.2
  simp only [List.mem_append, List.mem_cons, List.mem_nil_iff, or_false] at h2 ⊢
  tauto

/-- A point accepted by the ray-casting rule lies in the bounding box of the polygon. -/
theorem inPolygon_inBox (p p0 : Coord) (ps : List Coord) (h : inPolygon p p0 ps = true) : inBox (polyBox p0 ps) p = true := by
  rw [inPolygon_iff] at h
  have hb := polyBox_bounds p0 ps
  have hpos : 0 < (edges p0 ps).countP (fun e => decide (hits p e)) := by omega
  obtain ⟨e, he, hhit⟩ := List.countP_pos_iff.1 hpos
  have hhit := of_decide_eq_true hhit
  obtain ⟨m1, m2⟩ := mem_edges he
  obtain ⟨⟨a1, a2⟩, a3, a4⟩ := hb _ m1
  obtain ⟨⟨b1, b2⟩, b3, b4⟩ := hb _ m2
  obtain ⟨_, htop⟩ := height_between p e.1 e.2 hhit.1
  have hlat : p.lat ≤ (polyBox p0 ps).maxLat := le_trans hhit.2 (le_trans htop (max_le a2 b2))
  have hlng : (polyBox p0 ps).minLng ≤ p.lng ∧ p.lng ≤ (polyBox p0 ps).maxLng := by
    by_cases hc : e.1.lng < p.lng
    · have : p.lng ≤ e.2.lng := by
        by_contra hb; exact hhit.1 ⟨fun _ => not_le.1 hb, fun _ => hc⟩
      exact ⟨by linarith, by linarith⟩
    · have : e.2.lng < p.lng := by
        by_contra hb; exact hhit.1 ⟨fun h => absurd h hc, fun h => absurd h hb⟩
      push Not at hc
      exact ⟨by linarith, by linarith⟩
  have hmin : (polyBox p0 ps).minLat ≤ p.lat := by
    by_contra hlow
    push Not at hlow
    have heq : (edges p0 ps).countP (fun e => decide (hits p e)) =
        (edges p0 ps).countP (fun e => decide (e.1.lng < p.lng) != decide (e.2.lng < p.lng)) := by
      apply List.countP_congr
      intro x hx
      obtain ⟨n1, n2⟩ := mem_edges hx
      have c1 := (hb _ n1).1.1
      have c2 := (hb _ n2).1.1
      rw [decide_eq_true_eq, bne_iff_ne, ne_eq, decide_eq_decide]
      constructor
      · exact fun h => h.1
      · intro hc
        refine ⟨hc, ?_⟩
        have := (height_between p x.1 x.2 hc).1
        have : min x.1.lat x.2.lat ≥ (polyBox p0 ps).minLat := le_min c1 c2
        linarith
    have hpar := cross_parity (fun c => decide (c.lng < p.lng)) ps p0 p0
    rw [if_pos rfl] at hpar
    rw [heq] at h
    unfold edges at h
    omega
  simp only [inBox, ge_iff_le, decide_eq_true_eq]
  exact ⟨hmin, hlat, hlng.1, hlng.2⟩

/-- C55, polygons: for every history, the polygon search returns each once exactly the known points for which an odd
number of edges is hit by the ray going north; fewer than three vertices are an error. The bounding box that is
tried first loses nothing. -/
theorem C55_polygon {K : Type} (c : Cfg K) (ord : List Pt → List Pt) (ho : ∀ l, (ord l).Perm l) (ops : List Op)
    (poly : List Coord) :
    (searchPolygon ord (run c ops) poly = none ↔ poly.length < 3) ∧
    ∀ out p0 ps, poly = p0 :: ps → searchPolygon ord (run c ops) poly = some out →
      out.Nodup ∧ ∀ p : Pt, p ∈ out ↔ known ops p.id = some p.at_ ∧
        ((edges p0 ps).countP (fun e => decide (hits p.at_ e))) % 2 = 1 := by
  obtain ⟨h1, h2, h3⟩ := holds_run c ops
  constructor
  · match poly with
    | [] => simp [searchPolygon]
    | [_] => simp [searchPolygon]
    | [_, _] => simp [searchPolygon]
    | _ :: _ :: _ :: _ => simp [searchPolygon]
  · intro out p0 ps hpoly hout
    match poly, ps, hpoly, hout with
    | a :: p1 :: p2 :: qs, _, rfl, hout =>
      simp only [searchPolygon, Option.some.injEq] at hout
      rw [← hout]
      constructor
      · exact List.Nodup.filter _ ((ho _).nodup_iff.2 (List.Nodup.of_map _ h1))
      · intro p
        rw [List.mem_filter, (ho _).mem_iff, h2, Bool.and_eq_true, ← inPolygon_iff]
        constructor
        · rintro ⟨a, _, b⟩; exact ⟨a, b⟩
        · rintro ⟨a, b⟩; exact ⟨a, inPolygon_inBox _ _ _ b, b⟩

def tri : List Coord := [⟨0, 0⟩, ⟨0, 4⟩, ⟨4, 0⟩]

example : searchPolygon id (run cfgQ [.insert ⟨"in", ⟨1, 1⟩⟩, .insert ⟨"out", ⟨3, 3⟩⟩, .insert ⟨"in2", ⟨3, 1/2⟩⟩]) tri =
    some [⟨"in", ⟨1, 1⟩⟩, ⟨"in2", ⟨3, 1/2⟩⟩] := by decide +kernel

/-- C99: for a rectangle the ray-casting rule accepts exactly the points inside it, its northern and eastern sides
included and its southern and western sides not. -/
theorem C99_rectangle (b : Box) (h1 : b.minLat < b.maxLat) (h2 : b.minLng < b.maxLng) (p : Coord) :
    inPolygon p ⟨b.minLat, b.minLng⟩ [⟨b.minLat, b.maxLng⟩, ⟨b.maxLat, b.maxLng⟩, ⟨b.maxLat, b.minLng⟩] = true ↔
      b.minLat < p.lat ∧ p.lat ≤ b.maxLat ∧ b.minLng < p.lng ∧ p.lng ≤ b.maxLng := by
  rw [inPolygon_iff]
  simp only [edges, List.cons_append, List.nil_append, List.zip_cons_cons, List.zip_nil_right, List.countP_cons,
    List.countP_nil, hits, sub_self, mul_zero, add_zero, iff_self, not_true_eq_false, false_and, decide_false]
  by_cases a1 : b.minLng < p.lng <;> by_cases a2 : b.maxLng < p.lng <;> by_cases a3 : p.lat ≤ b.minLat <;>
    by_cases a4 : p.lat ≤ b.maxLat <;> simp [a1, a2, a3, a4] <;> first | (intros; linarith) | linarith | exact ⟨by linarith, by linarith⟩

end Verif.Geo
