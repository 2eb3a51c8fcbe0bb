import Verif.Model.RouteBatch
import Verif.Base.Sort

/-! C199: routing a batch of queries; C200: the top terms of a sparse vector. -/
namespace Verif.Router
open Verif.Spec Verif.Base

variable {T V W : Type} [DecidableEq T]

/-- What a route adds to the scan. -/
def weigh (sim : V → V → ℚ) (q : V) (name : T) (g : Option (List V)) (b : Option T × ℚ) : Option T × ℚ :=
  match g with
  | none => b
  | some vs => scanVectors sim q name vs b

theorem getVectors_name (c : Cfg T V) (e : T → Option V) (st : List (SRow T V)) (r : Route T V) :
    (getVectors c e st r).2.name = r.name ∧ (getVectors c e st r).2.utterances = r.utterances := by
  unfold getVectors
  repeat' split
  all_goals exact ⟨rfl, rfl⟩

/-- Looking a second time gives the same contribution: the cached vectors, or nothing both times when embedding failed. -/
theorem getVectors_again (c : Cfg T V) (e : T → Option V) (st : List (SRow T V)) (r : Route T V) (q : V)
    (b : Option T × ℚ) :
    weigh c.sim q r.name (getVectors c e st (getVectors c e st r).2).1 b = weigh c.sim q r.name (getVectors c e st r).1 b := by
  have hn := (getVectors_name c e st r).1
  unfold getVectors at hn ⊢
  cases hf : fromStore c st r.name with
  | some vs => simp [hf]
  | none =>
    cases hc : c.cacheOn with
    | false => simp [hf]
    | true =>
      cases hr : r.cache with
      | some vs => simp [hf, hr]
      | none =>
        cases he : embedVectors e r.utterances with
        | some vs => simp [hf]
        | none => simp [hf, weigh, scanVectors]

theorem scanRoutes_cons (c : Cfg T V) (e : T → Option V) (st : List (SRow T V)) (q : V) (r : Route T V)
    (rs : List (Route T V)) (b : Option T × ℚ) :
    scanRoutes c e st q (r :: rs) b =
      ((scanRoutes c e st q rs (weigh c.sim q r.name (getVectors c e st r).1 b)).1,
        (getVectors c e st r).2 :: (scanRoutes c e st q rs (weigh c.sim q r.name (getVectors c e st r).1 b)).2) := by
  rw [scanRoutes]; rfl

/-- The caches after a scan do not depend on what was scanned for. -/
theorem scanRoutes_snd (c : Cfg T V) (e : T → Option V) (st : List (SRow T V)) (q : V) (rs : List (Route T V)) :
    ∀ b, (scanRoutes c e st q rs b).2 = rs.map (fun r => (getVectors c e st r).2) := by
  induction rs with
  | nil => intro b; rfl
  | cons r rs ih => intro b; rw [scanRoutes_cons]; simp [ih]

theorem scanRoutes_again (c : Cfg T V) (e : T → Option V) (st : List (SRow T V)) (q : V) (rs : List (Route T V)) :
    ∀ b, (scanRoutes c e st q (rs.map (fun r => (getVectors c e st r).2)) b).1 = (scanRoutes c e st q rs b).1 := by
  induction rs with
  | nil => intro b; rfl
  | cons r rs ih =>
    intro b
    rw [List.map_cons, scanRoutes_cons, scanRoutes_cons]
    simp only
    rw [(getVectors_name c e st r).1, getVectors_again, ih]

/-- A call leaves a state in which every query has the answer it had. -/
theorem route_again (c : Cfg T V) (e : T → Option V) (s : State T V) (p q : T) :
    (route c e (route c e s p).1 q).2 = (route c e s q).2 := by
  unfold route
  by_cases hp : p = c.empty
  · simp [hp]
  · rw [if_neg hp]
    cases he : e p with
    | none => simp
    | some v =>
      simp only
      by_cases hq : q = c.empty
      · simp [hq]
      · rw [if_neg hq, if_neg hq]
        cases e q with
        | none => rfl
        | some w => simp only [scanRoutes_snd, scanRoutes_again]

theorem route_keeps (c : Cfg T V) (e : T → Option V) (s : State T V) (p : T) :
    (route c e s p).1.stored = s.stored ∧
    (route c e s p).1.routes.map (fun r => (r.name, r.utterances)) = s.routes.map (fun r => (r.name, r.utterances)) := by
  unfold route
  split
  · exact ⟨rfl, rfl⟩
  · split
    · exact ⟨rfl, rfl⟩
    · refine ⟨rfl, ?_⟩
      simp only [scanRoutes_snd, List.map_map]
      refine List.map_congr_left fun r _ => ?_
      have := getVectors_name c e s.stored r
      simp [this.1, this.2]

theorem route_error (c : Cfg T V) (e : T → Option V) (s : State T V) (p : T) :
    (∃ x, (route c e s p).2 = .error x) ↔ p ≠ c.empty ∧ e p = none := by
  unfold route
  by_cases hp : p = c.empty
  · simp [hp]
  · rw [if_neg hp]
    cases e p <;> simp [hp]

/-- **C199.** The results of a batch are, query by query and in their order, the results of routing each query alone in
the state before the batch. All embedders that answer alike during the call, all states and histories (whatever is cached). -/
theorem C199_each (c : Cfg T V) (e : T → Option V) (qs : List T) : ∀ (s : State T V) (rs : List (Result T)),
    (routeBatch c e s qs).2 = .ok rs ↔ List.Forall₂ (fun q r => (route c e s q).2 = .ok r) qs rs := by
  induction qs with
  | nil => intro s rs; cases rs <;> simp [routeBatch]; nofun
  | cons q qs ih =>
    intro s rs
    rw [routeBatch]
    have hag : ∀ rs : List (Result T), List.Forall₂ (fun q' r => (route c e (route c e s q).1 q').2 = .ok r) qs rs ↔
        List.Forall₂ (fun q' r => (route c e s q').2 = .ok r) qs rs := by
      intro rs; simp only [route_again]
    cases hr : route c e s q with
    | mk s' x =>
      rw [hr] at hag
      cases x with
      | error x =>
        simp only [reduceCtorEq, false_iff]
        intro h
        cases h with
        | cons h _ => rw [hr] at h; simp at h
      | ok r =>
        simp only
        cases hb : routeBatch c e s' qs with
        | mk s'' y =>
          cases y with
          | error y =>
            simp only [reduceCtorEq, false_iff]
            intro h
            cases h with
            | cons _ h =>
              have := (ih s' _).2 ((hag _).2 h)
              rw [hb] at this; simp at this
          | ok l =>
            have := (ih s' l).1 (by rw [hb])
            constructor
            · intro h
              simp only [Except.ok.injEq] at h
              subst h
              exact .cons (by rw [hr]) ((hag _).1 this)
            · intro h
              cases h with
              | cons h1 h2 =>
                rw [hr] at h1
                have e2 := (ih s' _).2 ((hag _).2 h2)
                rw [hb] at e2
                simp only [Except.ok.injEq] at h1 e2 ⊢
                rw [h1, e2]

/-- **C199.** A batch fails exactly when a query that is not empty cannot be embedded; then there are no results. -/
theorem C199_fails (c : Cfg T V) (e : T → Option V) (s : State T V) (qs : List T) :
    (∃ x, (routeBatch c e s qs).2 = .error x) ↔ ∃ q ∈ qs, q ≠ c.empty ∧ e q = none := by
  induction qs generalizing s with
  | nil => simp [routeBatch]
  | cons q qs ih =>
    rw [routeBatch]
    have h1 := route_error c e s q
    cases hr : route c e s q with
    | mk s' x =>
      rw [hr] at h1
      cases x with
      | error x =>
        have := h1.1 ⟨x, rfl⟩
        exact ⟨fun _ => ⟨q, by simp, this⟩, fun _ => ⟨x, rfl⟩⟩
      | ok r =>
        have hno : ¬ (q ≠ c.empty ∧ e q = none) := fun h => by obtain ⟨x, hx⟩ := h1.2 h; simp at hx
        have ih' := ih s'
        simp only [List.mem_cons, exists_eq_or_imp, hno, false_or]
        rw [← ih']
        cases hb : routeBatch c e s' qs with
        | mk s'' y => cases y <;> simp

/-- **C199.** Routing changes no route: names, utterances and what is stored stay, whether the batch fails or not. -/
theorem C199_keeps (c : Cfg T V) (e : T → Option V) (qs : List T) (s : State T V) :
    (routeBatch c e s qs).1.stored = s.stored ∧
    (routeBatch c e s qs).1.routes.map (fun r => (r.name, r.utterances)) = s.routes.map (fun r => (r.name, r.utterances)) := by
  induction qs generalizing s with
  | nil => exact ⟨rfl, rfl⟩
  | cons q qs ih =>
    rw [routeBatch]
    have hk := route_keeps c e s q
    cases hr : route c e s q with
    | mk s' x =>
      rw [hr] at hk
      cases x with
      | error x => exact hk
      | ok r =>
        have ih' := ih s'
        simp only at hk ⊢
        cases hb : routeBatch c e s' qs with
        | mk s'' y =>
          rw [hb] at ih'
          cases y <;> exact ⟨ih'.1.trans hk.1, ih'.2.trans hk.2⟩

theorem hybridRoute_fst (h : Hybrid T W) (c : Cfg T V) (e : T → Option V) (s : State T V) (p : T) :
    (hybridRoute h c e s p).1 = (route c e s p).1 := by
  unfold hybridRoute
  split
  · rename_i hp; simp [route, hp]
  · cases hr : route c e s p with
    | mk s' x => cases x <;> rfl

theorem hybridRoute_again (h : Hybrid T W) (c : Cfg T V) (e : T → Option V) (s : State T V) (p q : T) :
    (hybridRoute h c e (hybridRoute h c e s p).1 q).2 = (hybridRoute h c e s q).2 := by
  rw [hybridRoute_fst]
  have := route_again c e s p q
  unfold hybridRoute
  split
  · rfl
  · cases h1 : route c e (route c e s p).1 q with
    | mk s1 x1 =>
      cases h2 : route c e s q with
      | mk s2 x2 =>
        rw [h1, h2] at this
        simp only at this
        subst this
        cases x1 <;> rfl

/-- **C199.** The same for the router that combines the dense and the sparse one. -/
theorem C199_hybrid (h : Hybrid T W) (c : Cfg T V) (e : T → Option V) (qs : List T) :
    ∀ (s : State T V) (rs : List (Result T)),
    (hybridBatch h c e s qs).2 = .ok rs ↔ List.Forall₂ (fun q r => (hybridRoute h c e s q).2 = .ok r) qs rs := by
  induction qs with
  | nil => intro s rs; cases rs <;> simp [hybridBatch]; nofun
  | cons q qs ih =>
    intro s rs
    rw [hybridBatch]
    have hag : ∀ rs : List (Result T), List.Forall₂ (fun q' r => (hybridRoute h c e (hybridRoute h c e s q).1 q').2 = .ok r) qs rs ↔
        List.Forall₂ (fun q' r => (hybridRoute h c e s q').2 = .ok r) qs rs := by
      intro rs; simp only [hybridRoute_again]
    cases hr : hybridRoute h c e s q with
    | mk s' x =>
      rw [hr] at hag
      cases x with
      | error x =>
        simp only [reduceCtorEq, false_iff]
        intro h
        cases h with
        | cons h _ => rw [hr] at h; simp at h
      | ok r =>
        simp only
        cases hb : hybridBatch h c e s' qs with
        | mk s'' y =>
          cases y with
          | error y =>
            simp only [reduceCtorEq, false_iff]
            intro h
            cases h with
            | cons _ h =>
              have := (ih s' _).2 ((hag _).2 h)
              rw [hb] at this; simp at this
          | ok l =>
            have := (ih s' l).1 (by rw [hb])
            constructor
            · intro h
              simp only [Except.ok.injEq] at h
              subst h
              exact .cons (by rw [hr]) ((hag _).1 this)
            · intro h
              cases h with
              | cons h1 h2 =>
                rw [hr] at h1
                have e2 := (ih s' _).2 ((hag _).2 h2)
                rw [hb] at e2
                simp only [Except.ok.injEq] at h1 e2 ⊢
                rw [h1, e2]

theorem hybrid_error (h : Hybrid T W) (c : Cfg T V) (e : T → Option V) (s : State T V) (p : T) :
    (∃ x, (hybridRoute h c e s p).2 = .error x) ↔ p ≠ c.empty ∧ e p = none := by
  have h1 := route_error c e s p
  unfold hybridRoute
  by_cases hp : p = c.empty
  · simp [hp]
  · rw [if_neg hp, ← h1]
    cases hr : route c e s p with
    | mk s' x => cases x <;> simp

/-- **C199.** A batch of the combined router fails exactly when a query that is not empty cannot be embedded. -/
theorem C199_hybrid_fails (h : Hybrid T W) (c : Cfg T V) (e : T → Option V) (s : State T V) (qs : List T) :
    (∃ x, (hybridBatch h c e s qs).2 = .error x) ↔ ∃ q ∈ qs, q ≠ c.empty ∧ e q = none := by
  induction qs generalizing s with
  | nil => simp [hybridBatch]
  | cons q qs ih =>
    rw [hybridBatch]
    have h1 := hybrid_error h c e s q
    cases hr : hybridRoute h c e s q with
    | mk s' x =>
      rw [hr] at h1
      cases x with
      | error x =>
        have := h1.1 ⟨x, rfl⟩
        exact ⟨fun _ => ⟨q, by simp, this⟩, fun _ => ⟨x, rfl⟩⟩
      | ok r =>
        have hno : ¬ (q ≠ c.empty ∧ e q = none) := fun h => by obtain ⟨x, hx⟩ := h1.2 h; simp at hx
        have ih' := ih s'
        simp only [List.mem_cons, exists_eq_or_imp, hno, false_or]
        rw [← ih']
        cases hb : hybridBatch h c e s' qs with
        | mk s'' y => cases y <;> simp

section Examples

/-- Texts are numbers, 0 the empty one; 9 cannot be embedded. -/
def exCfg : Cfg Nat Int := ⟨0, fun a b => if a = b then 1 else 0, 1, true, false⟩
def exEmb (t : Nat) : Option Int := if t = 9 then none else some ((t : Int) % 3)
def exState : State Nat Int := ⟨[⟨10, [1], none⟩, ⟨11, [9], none⟩, ⟨12, [2, 5], none⟩], []⟩

example : (routeBatch exCfg exEmb exState [1, 0, 5, 4]).2 =
    .ok [⟨some 10, 1, true⟩, ⟨none, 0, false⟩, ⟨some 12, 1, true⟩, ⟨some 10, 1, true⟩] := by rfl
example : (routeBatch exCfg exEmb exState [1, 9, 5]).2 = .error .embed := by rfl
/-- The caches are filled by the batch, also that of the route whose utterance cannot be embedded. -/
example : (routeBatch exCfg exEmb exState [1]).1.routes.map (·.cache) = [some [1], some [], some [2, 2]] := by rfl

def exHybrid : Hybrid Nat Nat := ⟨1/2, 1/2, 1, fun a b => if a = b then 1 else 0, id, [(20, [7])]⟩
example : ((hybridBatch exHybrid exCfg exEmb exState [7, 1]).2.toOption.map (List.map Result.name)) =
    some [some 10, some 10] := by decide +kernel

end Examples

/-! ### Top terms -/

/-- **C200.** `TopTerms` with a positive `k` gives the `k` terms of the greatest weights, best first, with their weights;
all of them when there are not more than `k`. -/
theorem C200_top (sort : List (T × ℚ) → List (T × ℚ)) (hs : ∀ l, SortedFrom (fun a b => b.2 ≤ a.2) l (sort l))
    (vec : List (T × ℚ)) (k : Int) (hk : 0 < k) : IsTopK (fun p : T × ℚ => p.2) vec k.toNat (topTerms sort vec k) := by
  have key : ∀ n : Nat, IsTopK (fun p : T × ℚ => p.2) vec n ((sort vec).take n) := fun n =>
    isTopK_take (fun p : T × ℚ => p.2) vec (sort vec) n (hs vec)
  unfold topTerms
  split
  · rename_i h
    have : vec = [] := List.length_eq_zero_iff.mp h
    subst this
    exact ⟨.nil, ⟨[], by simp, by simp⟩, by simp⟩
  · simp only
    split
    · exact key _
    · rename_i h
      have hl : (sort vec).length ≤ k.toNat := by
        have : ¬ k < (sort vec).length := fun h' => h ⟨hk, h'⟩
        omega
      have := key k.toNat
      rwa [List.take_of_length_le hl] at this

/-- **C200.** With `k` not positive it gives all terms with their weights, best first. -/
theorem C200_all (sort : List (T × ℚ) → List (T × ℚ)) (hs : ∀ l, SortedFrom (fun a b => b.2 ≤ a.2) l (sort l))
    (vec : List (T × ℚ)) (k : Int) (hk : k ≤ 0) :
    (topTerms sort vec k).Perm vec ∧ (topTerms sort vec k).Pairwise (fun a b => b.2 ≤ a.2) := by
  unfold topTerms
  split
  · rename_i h
    have : vec = [] := List.length_eq_zero_iff.mp h
    subst this
    exact ⟨.nil, .nil⟩
  · simp only
    rw [if_neg (by omega)]
    exact hs vec

/-- **C200.** No term comes twice when none is twice in the vector, and every weight is the term's own. -/
theorem C200_own (sort : List (T × ℚ) → List (T × ℚ)) (hs : ∀ l, SortedFrom (fun a b => b.2 ≤ a.2) l (sort l))
    (vec : List (T × ℚ)) (hv : (vec.map Prod.fst).Nodup) (k : Int) :
    ((topTerms sort vec k).map Prod.fst).Nodup ∧ ∀ p ∈ topTerms sort vec k, p ∈ vec := by
  have hsub : (topTerms sort vec k).Sublist (sort vec) := by
    unfold topTerms
    split
    · exact List.nil_sublist _
    · simp only
      split
      · exact List.take_sublist _ _
      · exact List.Sublist.refl _
  have hp := (hs vec).1
  exact ⟨((hp.map Prod.fst).nodup_iff.2 hv).sublist (hsub.map _), fun p h => hp.mem_iff.1 (hsub.subset h)⟩

example : topTerms (insertSort (fun p : String × ℚ => p.2)) [("a", 1), ("b", 3), ("c", 2)] 2 = [("b", 3), ("c", 2)] := by
  decide +kernel
example : topTerms (insertSort (fun p : String × ℚ => p.2)) [("a", 1), ("b", 3)] (-1) = [("b", 3), ("a", 1)] := by
  decide +kernel

end Verif.Router
