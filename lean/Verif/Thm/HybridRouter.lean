import Verif.Model.HybridRouter
import Verif.Thm.Router
import Mathlib.Tactic.Ring

/-!
C223: sparse routers, and hybrid routers as objects with a history.
-/
namespace Verif.Router

section
variable {T V W : Type*} [DecidableEq T]

/-- The sparse routes of a router are usable: every route has a name and an utterance, and no two share a name. -/
structure Usable (empty : T) (routes : List (T × List T)) : Prop where
  distinct : (routes.map (·.1)).Nodup
  named : ∀ r ∈ routes, r.1 ≠ empty
  filled : ∀ r ∈ routes, r.2 ≠ []

/-- C223: adding to a sparse router succeeds exactly when the route has a name that no other route has and at least one utterance; then the route is listed last, and
otherwise nothing changes. -/
theorem C223_sparse_add (empty : T) (routes : List (T × List T)) (r : Option (T × List T)) :
    ((sparseAdd empty routes r).2 = none ↔ ∃ n us, r = some (n, us) ∧ n ≠ empty ∧ us ≠ [] ∧ n ∉ sparseList routes) ∧
      (∀ n us, (sparseAdd empty routes (some (n, us))).2 = none → (sparseAdd empty routes (some (n, us))).1 = routes ++ [(n, us)]) ∧
      ((sparseAdd empty routes r).2 ≠ none → (sparseAdd empty routes r).1 = routes) := by
  have hany : ∀ n, routes.any (fun x => decide (x.1 = n)) = true ↔ n ∈ sparseList routes := by
    intro n
    simp [sparseList, List.any_eq_true]
  refine ⟨?_, ?_, ?_⟩
  · cases r with
    | none => simp [sparseAdd]
    | some r =>
      obtain ⟨n, us⟩ := r
      simp only [sparseAdd]
      by_cases h1 : n = empty
      · simp [h1]
      · by_cases h2 : us = []
        · simp [h1, h2]
        · by_cases h3 : n ∈ sparseList routes
          · simp [h1, h2, (hany n).2 h3, h3]
          · have h3' : routes.any (fun x => decide (x.1 = n)) = false := by rw [Bool.eq_false_iff]; exact fun h => h3 ((hany n).1 h)
            simp [h1, h2, h3', h3]
  · intro n us
    simp only [sparseAdd]
    split_ifs <;> simp
  · cases r with
    | none => simp [sparseAdd]
    | some r =>
      simp only [sparseAdd]
      split_ifs <;> simp

theorem usable_add (empty : T) (routes : List (T × List T)) (r : Option (T × List T)) (h : Usable empty routes) : Usable empty (sparseAdd empty routes r).1 := by
  obtain ⟨h1, h2, h3⟩ := C223_sparse_add empty routes r
  by_cases hn : (sparseAdd empty routes r).2 = none
  · obtain ⟨n, us, rfl, h4, h5, h6⟩ := h1.1 hn
    rw [h2 n us hn]
    refine ⟨?_, ?_, ?_⟩
    · rw [List.map_append, List.nodup_append]
      refine ⟨h.distinct, by simp, ?_⟩
      intro a ha b hb
      simp only [List.map_cons, List.map_nil, List.mem_singleton] at hb
      subst hb
      rintro rfl
      exact h6 ha
    · intro x hx
      rcases List.mem_append.1 hx with hx | hx
      · exact h.named x hx
      · rw [List.mem_singleton.1 hx]; exact h4
    · intro x hx
      rcases List.mem_append.1 hx with hx | hx
      · exact h.filled x hx
      · rw [List.mem_singleton.1 hx]; exact h5
  · rw [h3 hn]
    exact h

theorem usable_addAll (empty : T) (rs : List (Option (T × List T))) : ∀ routes, Usable empty routes → Usable empty (sparseAddAll empty routes rs).1 := by
  induction rs with
  | nil => intro routes h; exact h
  | cons r rs ih =>
    intro routes h
    have ha := usable_add empty routes r h
    simp only [sparseAddAll]
    rcases hs : sparseAdd empty routes r with ⟨routes', _ | err⟩
    · rw [hs] at ha
      exact ih routes' ha
    · rw [hs] at ha
      exact ha

/-- C223: after any history of calls on a hybrid router, its sparse routes all have a name and an utterance, and no two share a name. -/
theorem C223_unique (g : HCfg T W) (c : Cfg T V) (alpha : ℚ) (ops : List (HOp T V)) : Usable c.empty (hrun g c (hinit alpha) ops).sparse := by
  suffices h : ∀ h : HState T V, Usable c.empty h.sparse → Usable c.empty (hrun g c h ops).sparse from
    h _ ⟨by simp [hinit], by simp [hinit], by simp [hinit]⟩
  induction ops with
  | nil => intro h hu; exact hu
  | cons op ops ih =>
    intro h hu
    refine ih _ ?_
    cases op with
    | add r s e up =>
      simp only [hstep, hybridAdd]
      split
      · exact hu
      · split
        · exact hu
        · exact usable_add _ _ _ hu
    | addBatch rs ss e up =>
      simp only [hstep, hybridAddBatch]
      split
      · exact hu
      · exact usable_addAll _ _ _ hu
    | route q e =>
      simp only [hstep, hybridAnswer]
      split_ifs
      · exact hu
      · split <;> exact hu
    | setAlpha a => exact hu

/-- The similarities of the utterances of all routes to the query. -/
def closeness (sim : W → W → ℚ) (enc : T → W) (routes : List (T × List T)) (query : T) : List (T × ℚ) :=
  routes.flatMap fun r => r.2.map fun u => (r.1, sim (enc query) (enc u))

theorem sparse_best (sim : W → W → ℚ) (enc : T → W) (routes : List (T × List T)) (query : T) :
    BestOf (closeness sim enc routes query) (sparseScan sim enc (enc query) routes (none, 0)) := by
  have key : ∀ (rs : List (T × List T)) (l : List (T × ℚ)) (b : Option T × ℚ), BestOf l b →
      BestOf (l ++ closeness sim enc rs query) (sparseScan sim enc (enc query) rs b) := by
    intro rs
    induction rs with
    | nil => intro l b h; simpa [closeness, sparseScan] using h
    | cons r rs ih =>
      intro l b h
      have h1 := best_scan sim (enc query) r.1 (r.2.map enc) l b h
      have h2 := ih _ _ h1
      rw [List.append_assoc, List.map_map] at h2
      exact h2
  have := key routes [] (none, 0) ⟨by simp, le_refl _, by simp, fun _ => rfl⟩
  simpa using this

/-- C223: the answer of a sparse router to a query: its score is the highest similarity of an utterance, or 0 when none is similar; the route it names has an utterance of
that similarity; it names one exactly when the score is positive, and reports a match exactly when moreover the score reaches the threshold. The empty query matches
nothing. -/
theorem C223_sparse_route (empty : T) (sim : W → W → ℚ) (enc : T → W) (thr : ℚ) (routes : List (T × List T)) (query : T) :
    let r := sparseAnswer empty sim enc thr routes query
    (query ≠ empty → (∀ p ∈ closeness sim enc routes query, p.2 ≤ r.score)) ∧ 0 ≤ r.score ∧
      (∀ n, r.name = some n → (n, r.score) ∈ closeness sim enc routes query) ∧
      (r.name.isSome ↔ 0 < r.score) ∧ (r.matched = true ↔ 0 < r.score ∧ thr ≤ r.score) ∧ (query = empty → r = ⟨none, 0, false⟩) := by
  intro r
  by_cases hq : query = empty
  · have hr : r = ⟨none, 0, false⟩ := by simp only [r, sparseAnswer, if_pos hq]
    rw [hr]
    exact ⟨fun h => absurd hq h, le_refl _, by simp, by simp, by simp, fun _ => rfl⟩
  · have hr : r = sparseRoute sim enc thr routes query := by simp only [r, sparseAnswer, if_neg hq]
    have hb := sparse_best sim enc routes query
    rw [hr]
    unfold sparseRoute
    generalize sparseScan sim enc (enc query) routes (none, 0) = b at hb
    have hsome : b.1.isSome = true ↔ 0 < b.2 := by
      cases hn : b.1 with
      | none => simp [hb.miss hn]
      | some n => simp [(hb.hit n hn).2]
    refine ⟨fun _ => hb.upper, hb.nonneg, fun n hn => (hb.hit n hn).1, hsome, ?_, fun h => absurd h hq⟩
    simp only [Bool.and_eq_true, decide_eq_true_eq, ge_iff_le, hsome]

/-- C223: the answer of a hybrid router: the scores of its two routers for the query, and their mean weighted by `alpha`, which decides about the match; with a weight between
0 and 1 it lies between the two. Asking changes neither the routes listed nor the sparse routes nor the weight. -/
theorem C223_route (g : HCfg T W) (c : Cfg T V) (e : T → Option V) (h : HState T V) (query : T) (hq : query ≠ c.empty) (res : HResult T)
    (ho : (hybridAnswer g c e h query).2 = .ok res) :
    ∃ d, (route c e h.dense query).2 = .ok d ∧ res.denseScore = d.score ∧
      res.sparseScore = (sparseAnswer c.empty g.sim g.enc g.sparseThreshold h.sparse query).score ∧
      res.result.score = h.alpha * res.denseScore + (1 - h.alpha) * res.sparseScore ∧
      (res.result.matched = true ↔ g.threshold ≤ res.result.score) ∧
      (0 ≤ h.alpha → h.alpha ≤ 1 → min res.denseScore res.sparseScore ≤ res.result.score ∧ res.result.score ≤ max res.denseScore res.sparseScore) := by
  simp only [hybridAnswer, if_neg hq] at ho
  rcases hr : route c e h.dense query with ⟨d', x | d⟩
  · rw [hr] at ho
    simp at ho
  · rw [hr] at ho
    simp only [Except.ok.injEq] at ho
    subst ho
    refine ⟨d, rfl, rfl, rfl, rfl, by simp [hybrid], ?_⟩
    intro h0 h1
    simp only [hybrid]
    generalize (sparseAnswer c.empty g.sim g.enc g.sparseThreshold h.sparse query).score = s
    generalize d.score = x
    constructor
    · rcases le_total x s with hxs | hxs
      · rw [min_eq_left hxs]
        nlinarith [mul_nonneg (sub_nonneg.2 h1) (sub_nonneg.2 hxs)]
      · rw [min_eq_right hxs]
        nlinarith [mul_nonneg h0 (sub_nonneg.2 hxs)]
    · rcases le_total x s with hxs | hxs
      · rw [max_eq_right hxs]
        nlinarith [mul_nonneg h0 (sub_nonneg.2 hxs)]
      · rw [max_eq_left hxs]
        nlinarith [mul_nonneg (sub_nonneg.2 h1) (sub_nonneg.2 hxs)]

/-- C223 (partial): adding to a hybrid router (which has no store) a dense route that is refused changes nothing; when both routes are accepted, both are added. Missing: a
sparse route that is refused, see below. -/
theorem C223_add_partial (c : Cfg T V) (hs : c.hasStore = false) (e : T → Option V) (up : Bool) (h : HState T V) (r : Route T V) (s : T × List T) :
    (∀ err, (add c e up h.dense r).2 = some err → hybridAdd c e up h (some r) (some s) = (h, some err)) ∧
      ((add c e up h.dense r).2 = none → (sparseAdd c.empty h.sparse (some s)).2 = none →
        (hybridAdd c e up h (some r) (some s)).2 = none ∧ (hybridAdd c e up h (some r) (some s)).1.dense.routes = h.dense.routes ++ [r] ∧
          (hybridAdd c e up h (some r) (some s)).1.sparse = h.sparse ++ [s]) := by
  obtain ⟨h1, h2, -⟩ := C57_rejected_partial c hs e up h.dense
  constructor
  · intro err herr
    have := h1 r err herr
    simp only [hybridAdd, herr, this]
  · intro hd hsp
    have h3 := (C223_sparse_add c.empty h.sparse (some s)).2.1 s.1 s.2 hsp
    simp only [hybridAdd, hd]
    exact ⟨hsp, h2 r hd, h3⟩

/-- C223 is violated: when the sparse route is refused, the call fails but the dense route has been added; adding the same dense route again, with any sparse route, then fails
too, so the pair can never be completed by this call. -/
theorem C223_add_violated (c : Cfg T V) (hs : c.hasStore = false) (e : T → Option V) (up : Bool) (h : HState T V) (r : Route T V) (s : T × List T)
    (hd : (add c e up h.dense r).2 = none) (hsp : (sparseAdd c.empty h.sparse (some s)).2 ≠ none) :
    (hybridAdd c e up h (some r) (some s)).2 ≠ none ∧ r.name ∈ hybridList (hybridAdd c e up h (some r) (some s)).1 ∧
      ∀ e' up' s', (hybridAdd c e' up' (hybridAdd c e up h (some r) (some s)).1 (some r) s').2 = some .duplicate := by
  have hdr := (C57_rejected_partial c hs e up h.dense).2.1 r hd
  have hne : r.name ≠ c.empty := by
    intro hn
    simp [add, hn] at hd
  have hus : r.utterances ≠ [] := by
    intro hu
    simp [add, hne, hu] at hd
  have e1 : (hybridAdd c e up h (some r) (some s)).1.dense = (add c e up h.dense r).1 := by
    simp only [hybridAdd, hd]
  refine ⟨?_, ?_, ?_⟩
  · simp only [hybridAdd, hd]
    exact hsp
  · rw [hybridList, e1, hdr]
    simp
  · intro e' up' s'
    generalize hh : (hybridAdd c e up h (some r) (some s)).1 = h' at e1
    have : h'.dense.routes.any (fun x => decide (x.name = r.name)) = true := by
      rw [e1, hdr]
      simp
    simp only [hybridAdd, add, if_neg hne, if_neg hus, this, if_true]

/-- C223 is violated: `List` of a hybrid router, which is to give the names of both routers, leaves out a route that only the sparse router has, even right after it was
added. -/
theorem C223_list_violated (c : Cfg T V) (e : T → Option V) (up : Bool) (h : HState T V) (s : T × List T) (hn : s.1 ∉ hybridList h)
    (hsp : (sparseAdd c.empty h.sparse (some s)).2 = none) :
    (hybridAdd c e up h none (some s)).2 = none ∧ s.1 ∈ sparseList (hybridAdd c e up h none (some s)).1.sparse ∧ s.1 ∉ hybridList (hybridAdd c e up h none (some s)).1 := by
  have h3 := (C223_sparse_add c.empty h.sparse (some s)).2.1 s.1 s.2 hsp
  refine ⟨hsp, ?_, hn⟩
  simp only [hybridAdd]
  rw [h3]
  simp [sparseList]

/-- C223 is violated: a batch with a sparse route that is refused fails after the dense routes and the sparse routes before it have been added. -/
theorem C223_batch_violated (c : Cfg T V) (hs : c.hasStore = false) (e : T → Option V) (up : Bool) (h : HState T V) (rs : List (Route T V)) (hrs : rs ≠ [])
    (s : T × List T) (bad : Option (T × List T)) (rest : List (Option (T × List T))) (hd : (addBatch c e up h.dense rs).2 = none)
    (hsp : (sparseAdd c.empty h.sparse (some s)).2 = none) (hbad : (sparseAdd c.empty (h.sparse ++ [s]) bad).2 ≠ none) :
    (hybridAddBatch c e up h rs (some s :: bad :: rest)).2 ≠ none ∧
      (hybridAddBatch c e up h rs (some s :: bad :: rest)).1.dense.routes = h.dense.routes ++ rs ∧
      (hybridAddBatch c e up h rs (some s :: bad :: rest)).1.sparse = h.sparse ++ [s] := by
  have hdr := (C57_rejected_partial c hs e up h.dense).2.2.2.1 rs hd
  have hlen : rs.length > 0 := List.length_pos_iff.2 hrs
  have h3 := (C223_sparse_add c.empty h.sparse (some s)).2.1 s.1 s.2 hsp
  have h4 := (C223_sparse_add c.empty (h.sparse ++ [s]) bad).2.2 hbad
  have e1 : sparseAdd c.empty h.sparse (some s) = (h.sparse ++ [s], none) := Prod.ext h3 hsp
  rcases hb : sparseAdd c.empty (h.sparse ++ [s]) bad with ⟨l, _ | err⟩
  · rw [hb] at hbad
    exact absurd rfl hbad
  · rw [hb] at h4
    have h4 : l = h.sparse ++ [s] := h4
    have e2 : sparseAddAll c.empty h.sparse (some s :: bad :: rest) = (h.sparse ++ [s], some err) := by
      simp only [sparseAddAll, e1, hb, h4]
    simp only [hybridAddBatch, hlen, if_true, hd, e2]
    exact ⟨by simp, hdr, trivial⟩

/-- C223 is violated: a query that the dense router matches on its own is no match for the hybrid router when the weighted mean falls short of the threshold; the result
names the route all the same. -/
theorem C223_alone_violated (g : HCfg T W) (c : Cfg T V) (e : T → Option V) (h : HState T V) (query : T) (hq : query ≠ c.empty) (d : Result T)
    (hd : (route c e h.dense query).2 = .ok d) (hm : d.matched = true) (hsp : h.sparse = []) (hlow : h.alpha * d.score < g.threshold) :
    ∃ res, (hybridAnswer g c e h query).2 = .ok res ∧ res.result.matched = false ∧ res.result.name = d.name ∧ ∃ n, d.name = some n := by
  have hname : ∃ n, d.name = some n := by
    cases hn : d.name with
    | some n => exact ⟨n, rfl⟩
    | none =>
      have := ((dense_sound c e h.dense query d hd).zero hn).2
      rw [this] at hm
      cases hm
  have hs : sparseAnswer c.empty g.sim g.enc g.sparseThreshold h.sparse query = ⟨none, 0, false⟩ := by
    simp [sparseAnswer, hq, hsp, sparseRoute, sparseScan]
  rcases hr : route c e h.dense query with ⟨d', x | d''⟩
  · rw [hr] at hd
    simp at hd
  · rw [hr] at hd
    simp only [Except.ok.injEq] at hd
    subst hd
    refine ⟨⟨hybrid h.alpha g.threshold d'' (sparseAnswer c.empty g.sim g.enc g.sparseThreshold h.sparse query), d''.score,
      (sparseAnswer c.empty g.sim g.enc g.sparseThreshold h.sparse query).score⟩, by simp only [hybridAnswer, if_neg hq, hr], ?_, ?_, hname⟩
    · simp only [hs, hybrid, mul_zero, add_zero]
      simpa using hlow
    · simp only [hybrid, hm, if_true]

/-- C57 is violated: a batch may hold two routes of one name; both are registered, in every router where the name is free. -/
theorem C57_twice_violated (c : Cfg T V) (hs : c.hasStore = false) (e : T → Option V) (up : Bool) (s : State T V) (r r' : Route T V) (hn : r.name = r'.name)
    (h1 : (add c e up s r).2 = none) (hu : r'.utterances ≠ []) :
    (addBatch c e up s [r, r']).2 = none ∧ names (addBatch c e up s [r, r']).1 = names s ++ [r.name, r.name] := by
  have hne : ¬ r.name = c.empty := by
    intro hn
    simp [add, hn] at h1
  have hus : ¬ r.utterances = [] := by
    intro hu
    simp [add, hne, hu] at h1
  have hfree : s.routes.any (fun x => decide (x.name = r.name)) = false := by
    rw [Bool.eq_false_iff]
    intro h
    simp [add, hne, hus, h] at h1
  have hc : checkBatch c s.routes [r, r'] = none := by
    simp only [checkBatch, if_neg hne, if_neg hus, hfree, ← hn, if_neg hu]
    rfl
  simp only [addBatch, hc, hs]
  exact ⟨rfl, by simp [names, ← hn]⟩

end

/-! ### Non-vacuity -/

/-- Utterances count as similar when they are the same number, half similar when their difference is one. -/
def hcfg : HCfg Nat Int := ⟨3/5, 3/10, fun a b => if a = b then 1 else if a = b + 1 ∨ b = a + 1 then 1/2 else 0, fun n => n⟩

def two : HState Nat Int := hrun hcfg (exact false) (hinit (7/10)) [.add (some (fresh (1, [7]))) (some (1, [7, 20])) emb0 true, .add none (some (2, [9])) emb0 true]

example : (sparseAdd 0 two.sparse (some (3, [5]))).2 = none ∧ (sparseAdd 0 two.sparse (some (1, [5]))).2 ≠ none ∧ two.sparse.length = 2 := by decide +kernel

example : sparseAnswer 0 hcfg.sim hcfg.enc (3/10) two.sparse 8 = ⟨some 1, 1/2, true⟩ := by decide +kernel
example : sparseAnswer 0 hcfg.sim hcfg.enc (3/4) two.sparse 8 = ⟨some 1, 1/2, false⟩ := by decide +kernel

example : (hybridAnswer hcfg (exact false) emb0 two 7).2.toOption = some ⟨⟨some 1, 1, true⟩, 1, 1⟩ := by decide +kernel
example : (hybridAnswer hcfg (exact false) emb0 two 9).2.toOption = some ⟨⟨some 2, 3/10, false⟩, 0, 1⟩ := by decide +kernel

/-- A pair whose sparse part is refused. -/
example : (add (exact false) emb0 true two.dense (fresh (3, [4]))).2 = none ∧ (sparseAdd 0 two.sparse (some (1, [4]))).2 ≠ none := by decide +kernel

example : (2 ∉ hybridList (hinit (7/10) : HState Nat Int)) ∧ (sparseAdd 0 (hinit (7/10) : HState Nat Int).sparse (some (2, [9]))).2 = none := by decide +kernel

example : (addBatch (exact false) emb0 true two.dense [fresh (3, [4])]).2 = none ∧ (sparseAdd 0 two.sparse (some (3, [4]))).2 = none ∧
    (sparseAdd 0 (two.sparse ++ [(3, [4])]) (some (3, [5]))).2 ≠ none := by decide +kernel

/-- A dense match with a weight of a half and no sparse routes. -/
example : (route (exact false) emb0 (hrun hcfg (exact false) (hinit (1/2)) [.add (some (fresh (1, [7]))) none emb0 true]).dense 7).2.toOption = some ⟨some 1, 1, true⟩ ∧
    (1/2 : ℚ) * 1 < hcfg.threshold := by decide +kernel

example : (add (exact false) emb0 true init (fresh (1, [7]))).2 = none := by decide +kernel

end Verif.Router
