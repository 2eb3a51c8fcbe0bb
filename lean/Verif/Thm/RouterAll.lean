import Verif.Thm.Router
import Mathlib.Data.List.Nodup

/-!
C56, C57, C58, C89: how routers fail, for all routers and all histories.
-/
namespace Verif.Router

section
variable {T V : Type*} [DecidableEq T]

theorem scanVectors_low (sim : V → V → ℚ) (hsim : ∀ a b, sim a b ≤ 0) (q : V) (name : T) (vs : List V) :
    scanVectors sim q name vs (none, 0) = (none, 0) := by
  induction vs with
  | nil => rfl
  | cons v vs ih =>
    simp only [scanVectors]
    rw [if_neg (by simpa using not_lt.2 (hsim q v))]
    exact ih

/-- C56 is violated with every similarity that is never positive, as the Euclidean one that the package offers: no query finds a route, not even one equal to an utterance
and whatever the threshold. -/
theorem C56_negative_violated (c : Cfg T V) (hsim : ∀ a b, c.sim a b ≤ 0) (e : T → Option V) (s : State T V) (query : T) (res : Result T)
    (h : (route c e s query).2 = .ok res) : res = ⟨none, 0, false⟩ := by
  have key : ∀ (q : V) (rs : List (Route T V)), (scanRoutes c e s.stored q rs (none, 0)).1 = (none, 0) := by
    intro q rs
    induction rs with
    | nil => rfl
    | cons r rs ih =>
      simp only [scanRoutes]
      cases (getVectors c e s.stored r).1 with
      | none => exact ih
      | some vs =>
        simp only [scanVectors_low c.sim hsim]
        exact ih
  unfold route at h
  split at h
  · simpa using h.symm
  · split at h
    · simp at h
    · simp only [key, Except.ok.injEq] at h
      rw [← h]
      rfl

theorem scanRoutes_pos (c : Cfg T V) (e : T → Option V) (stored : List (SRow T V)) (q : V) (rs : List (Route T V)) :
    ∀ b, (scanRoutes c e stored q rs b).2 = rs.map (fun r => (getVectors c e stored r).2) := by
  induction rs with
  | nil => intro b; rfl
  | cons r rs ih => intro b; simp only [scanRoutes, List.map_cons, ih]

/-- The route `n` is registered, and its remembered vectors are none at all. -/
def Dead (n : T) (s : State T V) : Prop := n ∈ names s ∧ ∀ x ∈ s.routes, x.name = n → x.cache = some []

theorem getVectors_names (c : Cfg T V) (e : T → Option V) (stored : List (SRow T V)) (r : Route T V) : (getVectors c e stored r).2.name = r.name := by
  unfold getVectors
  split
  · rfl
  · split_ifs
    · split
      · rfl
      · split <;> rfl
    · rfl

theorem getVectors_dead (c : Cfg T V) (hs : c.hasStore = false) (hc : c.cacheOn = true) (e : T → Option V) (stored : List (SRow T V)) (r : Route T V)
    (h : r.cache = some []) : getVectors c e stored r = (some [], r) := by
  have hf : fromStore c stored r.name = none := by simp [fromStore, hs]
  simp [getVectors, hf, hc, h]

theorem checkBatch_new (c : Cfg T V) (existing rs : List (Route T V)) (h : checkBatch c existing rs = none) :
    ∀ r ∈ rs, r.name ∉ existing.map (·.name) := by
  induction rs with
  | nil => simp
  | cons r rs ih =>
    simp only [checkBatch] at h
    split_ifs at h with h1 h2 h3
    intro x hx
    rcases List.mem_cons.1 hx with rfl | hx
    · intro hm
      obtain ⟨y, hy, hn⟩ := List.mem_map.1 hm
      exact h3 (List.any_eq_true.2 ⟨y, hy, by simpa using hn⟩)
    · exact ih h x hx

theorem dead_step (c : Cfg T V) (hs : c.hasStore = false) (hc : c.cacheOn = true) (n : T) (s : State T V) (h : Dead n s) (op : Op T V)
    (hop : ∀ m, op = .remove m → m ≠ n) : Dead n (step c s op) := by
  obtain ⟨h1, h2⟩ := h
  cases op with
  | add m us e up =>
    simp only [step, add, hs, Bool.false_eq_true, if_false]
    split_ifs with g1 g2 g3
    · exact ⟨h1, h2⟩
    · exact ⟨h1, h2⟩
    · exact ⟨h1, h2⟩
    all_goals
      refine ⟨by simp only [names, List.map_append]; exact List.mem_append_left _ h1, ?_⟩
      intro x hx hxn
      rcases List.mem_append.1 hx with hx | hx
      · exact h2 x hx hxn
      · exfalso
        rw [List.mem_singleton.1 hx] at hxn
        obtain ⟨y, hy, hyn⟩ := List.mem_map.1 h1
        exact g3 (List.any_eq_true.2 ⟨y, hy, by simpa using hyn.trans hxn.symm⟩)
  | addBatch rs e up =>
    simp only [step, addBatch, hs, Bool.false_eq_true, if_false]
    split
    · exact ⟨h1, h2⟩
    · rename_i hb
      refine ⟨by simp only [names, List.map_append]; exact List.mem_append_left _ h1, ?_⟩
      intro x hx hxn
      rcases List.mem_append.1 hx with hx | hx
      · exact h2 x hx hxn
      · exact absurd (hxn ▸ h1) (checkBatch_new c _ _ hb x hx)
  | remove m =>
    have hm := hop m rfl
    simp only [step, remove]
    split_ifs
    all_goals
      first
      | exact ⟨h1, h2⟩
      | (refine ⟨?_, fun x hx hxn => h2 x (List.mem_of_mem_eraseP hx) hxn⟩
         obtain ⟨y, hy, hyn⟩ := List.mem_map.1 h1
         exact List.mem_map.2 ⟨y, (List.mem_eraseP_of_neg (by simpa [hyn] using Ne.symm hm)).2 hy, hyn⟩)
  | route q e =>
    simp only [step, route]
    split
    · exact ⟨h1, h2⟩
    · split
      · exact ⟨h1, h2⟩
      · refine ⟨?_, ?_⟩
        · simp only [names, scanRoutes_pos, List.map_map]
          obtain ⟨y, hy, hyn⟩ := List.mem_map.1 h1
          exact List.mem_map.2 ⟨y, hy, by simp [getVectors_names, hyn]⟩
        · intro x hx hxn
          rw [scanRoutes_pos] at hx
          obtain ⟨y, hy, rfl⟩ := List.mem_map.1 hx
          rw [getVectors_names] at hxn
          rw [getVectors_dead c hs hc e _ y (h2 y hy hxn)]
          exact h2 y hy hxn

theorem dead_silent (c : Cfg T V) (hs : c.hasStore = false) (hc : c.cacheOn = true) (n : T) (s : State T V) (h : Dead n s) (e : T → Option V) (query : T)
    (res : Result T) (hr : (route c e s query).2 = .ok res) : res.name ≠ some n := by
  have hv : ∀ (q : V) (m : T) (vs : List V), m ≠ n → ∀ b : Option T × ℚ, b.1 ≠ some n → (scanVectors c.sim q m vs b).1 ≠ some n := by
    intro q m vs hm
    induction vs with
    | nil => intro b hb; exact hb
    | cons v vs ih =>
      intro b hb
      simp only [scanVectors]
      apply ih
      split_ifs
      · simpa using hm
      · exact hb
  have key : ∀ (q : V) (rs : List (Route T V)), (∀ x ∈ rs, x.name = n → x.cache = some []) → ∀ b : Option T × ℚ, b.1 ≠ some n →
      (scanRoutes c e s.stored q rs b).1.1 ≠ some n := by
    intro q rs
    induction rs with
    | nil => intro _ b hb; exact hb
    | cons r rs ih =>
      intro hd b hb
      simp only [scanRoutes]
      apply ih (fun x hx => hd x (List.mem_cons_of_mem _ hx))
      by_cases hn : r.name = n
      · rw [getVectors_dead c hs hc e _ r (hd r List.mem_cons_self hn)]
        exact hb
      · cases (getVectors c e s.stored r).1 with
        | none => exact hb
        | some vs => exact hv q r.name vs hn b hb
  unfold route at hr
  split at hr
  · simp only [Except.ok.injEq] at hr
    rw [← hr]
    simp
  · split at hr
    · simp at hr
    · simp only [Except.ok.injEq] at hr
      rw [← hr]
      exact key _ _ h.2 (none, 0) (by simp)

/-- C56 is violated by a single failure of the embedder: when the vectors of a route are wanted for the first time and embedding an utterance fails, the route is never named
again, whatever is asked and however well the embedder works, after every further history that does not remove it. (No store, caching on, as configured by default.) -/
theorem C56_forever_violated (c : Cfg T V) (hs : c.hasStore = false) (hc : c.cacheOn = true) (s : State T V) (r : Route T V) (hr : r ∈ s.routes) (hu : (names s).Nodup)
    (hfirst : r.cache = none) (e : T → Option V) (hfail : embedVectors e r.utterances = none) (query : T) (hq : query ≠ c.empty) (hqe : e query ≠ none)
    (later : List (Op T V)) (hl : ∀ op ∈ later, ∀ m, op = .remove m → m ≠ r.name) (e' : T → Option V) (query' : T) (res : Result T)
    (h : (route c e' (run c (route c e s query).1 later) query').2 = .ok res) : res.name ≠ some r.name := by
  have h0 : Dead r.name (route c e s query).1 := by
    unfold route
    rw [if_neg hq]
    cases he : e query with
    | none => exact absurd he hqe
    | some q =>
      have hf : ∀ x, fromStore c s.stored x = none := by intro x; simp [fromStore, hs]
      have hg : (getVectors c e s.stored r).2 = { r with cache := some [] } := by simp [getVectors, hf, hc, hfirst, hfail]
      refine ⟨?_, ?_⟩
      · simp only [names, scanRoutes_pos, List.map_map]
        exact List.mem_map.2 ⟨r, hr, by simp [getVectors_names]⟩
      · intro x hx hxn
        simp only [scanRoutes_pos] at hx
        obtain ⟨y, hy, rfl⟩ := List.mem_map.1 hx
        rw [getVectors_names] at hxn
        have : y = r := by
          exact List.inj_on_of_nodup_map hu hy hr hxn
        subst this
        rw [hg]
  have h1 : ∀ later : List (Op T V), (∀ op ∈ later, ∀ m, op = .remove m → m ≠ r.name) → ∀ s, Dead r.name s → Dead r.name (run c s later) := by
    intro later
    induction later with
    | nil => intro _ s h; exact h
    | cons op ops ih =>
      intro hl s h
      exact ih (fun o ho => hl o (List.mem_cons_of_mem _ ho)) _ (dead_step c hs hc _ s h op (hl op List.mem_cons_self))
  exact dead_silent c hs hc _ _ (h1 later hl _ h0) e' query' res h

/-- C57 is violated whenever persisting fails: `Add` of a route that is otherwise acceptable returns an error and the route is registered; every further attempt says that it
exists already. -/
theorem C57_unsaved_violated (c : Cfg T V) (hs : c.hasStore = true) (e : T → Option V) (up : Bool) (s : State T V) (r : Route T V) (hne : r.name ≠ c.empty)
    (hus : r.utterances ≠ []) (hnew : r.name ∉ names s) (hp : persist c e up s.stored r = none) :
    (add c e up s r).2 = some .persist ∧ names (add c e up s r).1 = names s ++ [r.name] ∧
      ∀ e' up', (add c e' up' (add c e up s r).1 r).2 = some .duplicate := by
  have hany : s.routes.any (fun x => decide (x.name = r.name)) = false := by
    rw [Bool.eq_false_iff]
    intro h
    obtain ⟨y, hy, hn⟩ := List.any_eq_true.1 h
    exact hnew (List.mem_map.2 ⟨y, hy, by simpa using hn⟩)
  have e1 : add c e up s r = ({ s with routes := s.routes ++ [r] }, some .persist) := by
    simp [add, hne, hus, hany, hs, hp]
  rw [e1]
  refine ⟨rfl, by simp [names], ?_⟩
  intro e' up'
  simp [add, hne, hus]

/-- C58 is violated by every threshold that is not positive: when neither router finds anything, a match is reported that names no route. -/
theorem C58_nothing_violated (alpha thr : ℚ) (h : thr ≤ 0) : (hybrid alpha thr (⟨none, 0, false⟩ : Result T) ⟨none, 0, false⟩) = ⟨none, 0, true⟩ := by
  simp [hybrid, h]

end

section
variable {T W : Type*}

/-- C89 is violated by every registered pattern that does not compile: the parameter gets no value, although one was found for it, and is not reported missing, although it
may be required; the rest of the call is what it would be without the parameter. -/
theorem C89_invalid_violated (p : Param T W) (hp : p.pattern = some .invalid) (ps qs : List (Param T W)) : extract (ps ++ p :: qs) = extract (ps ++ qs) := by
  induction ps with
  | nil => simp [extract, hp]
  | cons x ps ih => simp only [List.cons_append, extract, ih]

end

/-! ### Non-vacuity -/

example : ∀ a b, euclid.sim a b ≤ 0 := by
  intro a b
  simp only [euclid]
  first
  | exact neg_nonpos.2 (abs_nonneg _)
  | (simp; try positivity)

/-- A route whose embedding fails at the first query, in a router with two routes. -/
example : let s := run (exact false) init [.add 1 [7] emb0 true, .add 2 [8] emb0 true]
    (fresh (1, [7]) ∈ s.routes) ∧ (names s).Nodup ∧ embedVectors (fun t => if t = 7 then none else some (t : Int)) [7] = none ∧
      (fun t => if t = 7 then none else some (t : Int)) 8 ≠ none := by decide +kernel

example : persist (exact true) emb0 false [] (fresh (1, [7])) = none := by decide +kernel

end Verif.Router
