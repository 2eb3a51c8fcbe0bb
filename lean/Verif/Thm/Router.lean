import Verif.Model.Router
import Mathlib.Data.List.Induction
import Mathlib.Data.List.Basic

/-!
C56: routing picks the best route. C57: route names. C58: hybrid matches. C59: embedding batches and caches.
C88: routes kept in the store. C89: completeness of a function call.
-/
namespace Verif.Router

/-! ### C56 -/

section Route
variable {T V : Type*} [DecidableEq T]

/-- Every utterance of the registered routes with its similarity to the query vector. -/
def scores (sim : V → V → ℚ) (emb : T → V) (q : V) (routes : List (Route T V)) : List (T × ℚ) :=
  routes.flatMap (fun r => r.utterances.map (fun u => (r.name, sim q (emb u))))

/-- The caches hold nothing or the right vectors. -/
def CacheOK (emb : T → V) (routes : List (Route T V)) : Prop :=
  ∀ r ∈ routes, r.cache = none ∨ r.cache = some (r.utterances.map emb)

/-- `b` is the best of `l` above the starting point `(none, 0)`. -/
structure BestOf (l : List (T × ℚ)) (b : Option T × ℚ) : Prop where
  upper : ∀ p ∈ l, p.2 ≤ b.2
  nonneg : 0 ≤ b.2
  hit : ∀ n, b.1 = some n → (n, b.2) ∈ l ∧ 0 < b.2
  miss : b.1 = none → b.2 = 0

omit [DecidableEq T] in
theorem best_scan (sim : V → V → ℚ) (q : V) (name : T) (vs : List V) : ∀ (l : List (T × ℚ)) (b : Option T × ℚ),
    BestOf l b → BestOf (l ++ vs.map (fun v => (name, sim q v))) (scanVectors sim q name vs b) := by
  induction vs with
  | nil => intro l b h; simpa [scanVectors] using h
  | cons v vs ih =>
    intro l b h
    have h' : BestOf (l ++ [(name, sim q v)]) (if sim q v > b.2 then (some name, sim q v) else b) := by
      split
      · rename_i hgt
        refine ⟨?_, le_trans h.nonneg (le_of_lt hgt), ?_, by simp⟩
        · intro p hp
          rcases List.mem_append.1 hp with hp | hp
          · exact le_trans (h.upper p hp) (le_of_lt hgt)
          · simp only [List.mem_singleton] at hp; rw [hp]
        · intro n hn
          simp only [Option.some.injEq] at hn
          subst hn
          exact ⟨by simp, lt_of_le_of_lt h.nonneg hgt⟩
      · rename_i hgt
        refine ⟨?_, h.nonneg, ?_, h.miss⟩
        · intro p hp
          rcases List.mem_append.1 hp with hp | hp
          · exact h.upper p hp
          · simp only [List.mem_singleton] at hp; rw [hp]; exact not_lt.1 hgt
        · intro n hn
          exact ⟨List.mem_append_left _ (h.hit n hn).1, (h.hit n hn).2⟩
    have := ih _ _ h'
    simpa [scanVectors, List.append_assoc] using this

theorem embedVectors_total {emb : T → V} {e : T → Option V} (he : ∀ t, e t = some (emb t)) (us : List T) :
    embedVectors e us = some (us.map emb) := by
  unfold embedVectors
  induction us with
  | nil => rfl
  | cons u us ih => simp [List.mapM_cons, ih, he]

theorem getVectors_ok (c : Cfg T V) (hs : c.hasStore = false) {emb : T → V} {e : T → Option V}
    (he : ∀ t, e t = some (emb t)) (stored : List (SRow T V)) (r : Route T V)
    (hc : r.cache = none ∨ r.cache = some (r.utterances.map emb)) :
    (getVectors c e stored r).1 = some (r.utterances.map emb) ∧
    ((getVectors c e stored r).2.cache = none ∨ (getVectors c e stored r).2.cache = some (r.utterances.map emb)) ∧
    (getVectors c e stored r).2.name = r.name ∧ (getVectors c e stored r).2.utterances = r.utterances := by
  have hf : fromStore c stored r.name = none := by simp [fromStore, hs]
  simp only [getVectors, hf, embedVectors_total he]
  by_cases hco : c.cacheOn = true
  · simp only [hco, if_true]
    rcases hc with h | h <;> simp [h]
  · simp only [hco]
    simp [hc]

theorem scanRoutes_ok (c : Cfg T V) (hs : c.hasStore = false) {emb : T → V} {e : T → Option V}
    (he : ∀ t, e t = some (emb t)) (stored : List (SRow T V)) (q : V) (rs : List (Route T V)) :
    ∀ (l : List (T × ℚ)) (b : Option T × ℚ), CacheOK emb rs → BestOf l b →
    BestOf (l ++ scores c.sim emb q rs) (scanRoutes c e stored q rs b).1 ∧
    CacheOK emb (scanRoutes c e stored q rs b).2 ∧
    (scanRoutes c e stored q rs b).2.map (fun r => (r.name, r.utterances)) = rs.map (fun r => (r.name, r.utterances)) := by
  induction rs with
  | nil => intro l b _ h; exact ⟨by simpa [scores, scanRoutes] using h, by simp [CacheOK, scanRoutes], rfl⟩
  | cons r rs ih =>
    intro l b hc h
    obtain ⟨h1, h2, h3, h4⟩ := getVectors_ok c hs he stored r (hc r List.mem_cons_self)
    have hc' : CacheOK emb rs := fun x hx => hc x (List.mem_cons_of_mem _ hx)
    have hb := best_scan c.sim q r.name (r.utterances.map emb) l b h
    obtain ⟨i1, i2, i3⟩ := ih _ _ hc' hb
    simp only [scanRoutes, h1]
    refine ⟨?_, ?_, ?_⟩
    · simpa [scores, List.append_assoc, Function.comp_def] using i1
    · intro x hx
      rcases List.mem_cons.1 hx with rfl | hx
      · rw [h4]; exact h2
      · exact i2 x hx
    · simp [i3, h3, h4]

/-- The embedder of every call of the history is `emb` and never fails. -/
def EmbOK (emb : T → V) : Op T V → Prop
  | .add _ _ e _ => ∀ t, e t = some (emb t)
  | .addBatch _ e _ => ∀ t, e t = some (emb t)
  | .remove _ => True
  | .route _ e => ∀ t, e t = some (emb t)

theorem cacheOK_step (c : Cfg T V) (hs : c.hasStore = false) (emb : T → V) (s : State T V) (op : Op T V)
    (ho : EmbOK emb op) (h : CacheOK emb s.routes) : CacheOK emb (step c s op).routes := by
  cases op with
  | add n us e up =>
    simp only [step, add]
    split
    · exact h
    split
    · exact h
    split
    · exact h
    simp only [hs]
    intro r hr
    rcases List.mem_append.1 hr with hr | hr
    · exact h r hr
    · simp only [List.mem_singleton] at hr; rw [hr]; exact Or.inl rfl
  | addBatch rs e up =>
    simp only [step, addBatch]
    split
    · exact h
    simp only [hs]
    intro r hr
    rcases List.mem_append.1 hr with hr | hr
    · exact h r hr
    · obtain ⟨p, _, rfl⟩ := List.mem_map.1 hr; exact Or.inl rfl
  | remove n =>
    simp only [step, remove]
    split
    · intro r hr; exact h r (List.mem_of_mem_eraseP hr)
    · exact h
  | route q e =>
    simp only [step, route]
    split
    · exact h
    rw [ho q]
    exact (scanRoutes_ok c hs ho s.stored (emb q) s.routes [] (none, 0) h
      ⟨by simp, le_rfl, by simp, fun _ => rfl⟩).2.1

theorem cacheOK_run (c : Cfg T V) (hs : c.hasStore = false) (emb : T → V) (ops : List (Op T V)) :
    ∀ s : State T V, (∀ op ∈ ops, EmbOK emb op) → CacheOK emb s.routes → CacheOK emb (run c s ops).routes := by
  induction ops with
  | nil => intro s _ h; exact h
  | cons op ops ih =>
    intro s ho h
    exact ih _ (fun o hm => ho o (List.mem_cons_of_mem _ hm))
      (cacheOK_step c hs emb s op (ho op List.mem_cons_self) h)

/-- C56, proved part: for every history of a router without a store whose embedder does not fail, `Route` on a non-empty
query returns the best similarity over all utterances (0 if none is positive) and a route that has it, and for a
positive threshold it reports a match exactly when some utterance reaches the threshold. Missing: thresholds that are
not positive, failing embedders, routers with a store; for each of them see the `_violated` theorems. -/
theorem C56_best_route_partial (c : Cfg T V) (hs : c.hasStore = false) (emb : T → V) (hist : List (Op T V))
    (ho : ∀ op ∈ hist, EmbOK emb op) (e : T → Option V) (he : ∀ t, e t = some (emb t)) (query : T)
    (hq : query ≠ c.empty) :
    ∃ res, (route c e (run c init hist) query).2 = .ok res ∧
      (∀ p ∈ scores c.sim emb (emb query) (run c init hist).routes, p.2 ≤ res.score) ∧
      (∀ n, res.name = some n → (n, res.score) ∈ scores c.sim emb (emb query) (run c init hist).routes) ∧
      (res.name = none ↔ ∀ p ∈ scores c.sim emb (emb query) (run c init hist).routes, p.2 ≤ 0) ∧
      (0 < c.threshold → (res.matched = true ↔
        ∃ p ∈ scores c.sim emb (emb query) (run c init hist).routes, c.threshold ≤ p.2)) := by
  have hc : CacheOK emb (run c init hist).routes := cacheOK_run c hs emb hist init ho (by simp [CacheOK, init])
  obtain ⟨hb, -, -⟩ := scanRoutes_ok c hs he (run c init hist).stored (emb query) (run c init hist).routes [] (none, 0) hc
    ⟨by simp, le_rfl, by simp, fun _ => rfl⟩
  rw [List.nil_append] at hb
  unfold route
  rw [if_neg hq, he query]
  simp only
  generalize (scanRoutes c e (run c init hist).stored (emb query) (run c init hist).routes (none, 0)).1 = b at hb ⊢
  refine ⟨_, rfl, hb.upper, fun n hn => (hb.hit n hn).1, ?_, ?_⟩
  · constructor
    · intro hn p hp
      have := hb.upper p hp
      rw [hb.miss hn] at this
      exact this
    · intro hall
      cases hn : b.1 with
      | none => rfl
      | some n =>
        obtain ⟨h1, h2⟩ := hb.hit n hn
        exact absurd (hall _ h1) (not_le.2 h2)
  · intro hpos
    simp only [Bool.and_eq_true, decide_eq_true_eq]
    constructor
    · rintro ⟨h1, h2⟩
      obtain ⟨n, hn⟩ := Option.isSome_iff_exists.1 h1
      exact ⟨_, (hb.hit n hn).1, h2⟩
    · rintro ⟨p, hp, hle⟩
      have h2 := hb.upper p hp
      refine ⟨?_, le_trans hle h2⟩
      cases hn : b.1 with
      | some n => rfl
      | none => have := hb.miss hn; linarith

end Route

/-- The sample router: texts and vectors are numbers, similarity is minus the distance (Euclidean). -/
def euclid : Cfg Nat Int := ⟨0, fun a b => -(((a - b).natAbs : ℕ) : ℚ), -1, true, false⟩

/-- A similarity that is 1 for equal vectors and 0 otherwise. -/
def exact (store : Bool) : Cfg Nat Int := ⟨0, fun a b => if a = b then 1 else 0, 1/2, true, store⟩

def emb0 : Nat → Option Int := fun t => some t

/-- C56 is violated with the Euclidean similarity (one of the three offered): all similarities are at most 0, so even a
query equal to an utterance, well above the threshold, finds no route. -/
theorem C56_euclidean_violated :
    (route euclid emb0 (run euclid init [.add 1 [7] emb0 true]) 7).2 = .ok ⟨none, 0, false⟩ := by decide +kernel

/-- C56 is violated after one failure: the embedder fails on the utterance once; later it works, and the route is still
never found. -/
theorem C56_failed_once_violated :
    (route (exact false) emb0 (run (exact false) init
      [.add 1 [7] emb0 true, .route 7 (fun t => if t = 7 then none else some t),
       .route 8 (fun t => if t = 7 then none else some t)]) 7).2 = .ok ⟨none, 0, false⟩ := by decide +kernel

/-- C56 is violated with a store: only the last utterance of a route is kept and used. -/
theorem C56_store_violated :
    (route (exact true) emb0 (run (exact true) init [.add 1 [7, 8] emb0 true]) 7).2 = .ok ⟨none, 0, false⟩ ∧
    (route (exact true) emb0 (run (exact true) init [.add 1 [7, 8] emb0 true]) 8).2 = .ok ⟨some 1, 1, true⟩ := by
  decide +kernel

/-- Non-vacuity of `C56_best_route_partial`: two routes, the second one matches. -/
example : (route (exact false) emb0 (run (exact false) init [.add 1 [7] emb0 true, .addBatch [(2, [8, 9])] emb0 true,
    .route 7 emb0]) 9).2 = .ok ⟨some 2, 1, true⟩ := by decide +kernel

/-! ### C57 -/

section Names
variable {T V : Type*} [DecidableEq T]

/-- The names of the registered routes (what `List` returns). -/
def names (s : State T V) : List T := s.routes.map (·.name)

/-- Batches name each route once. -/
def BatchOK : Op T V → Prop
  | .addBatch rs _ _ => (rs.map (·.1)).Nodup
  | _ => True

theorem scanRoutes_names (c : Cfg T V) (e : T → Option V) (stored : List (SRow T V)) (q : V) (rs : List (Route T V)) :
    ∀ b, (scanRoutes c e stored q rs b).2.map (·.name) = rs.map (·.name) := by
  induction rs with
  | nil => intro b; rfl
  | cons r rs ih =>
    intro b
    have h : (getVectors c e stored r).2.name = r.name := by
      unfold getVectors
      cases fromStore c stored r.name with
      | some vs => rfl
      | none =>
        simp only
        split
        · split
          · rfl
          · split <;> rfl
        · rfl
    simp only [scanRoutes, List.map_cons, h, ih]

theorem checkBatch_none (c : Cfg T V) (ex : List (Route T V)) : ∀ rs : List (Route T V), checkBatch c ex rs = none →
    ∀ r ∈ rs, r.name ≠ c.empty ∧ r.utterances ≠ [] ∧ ∀ x ∈ ex, x.name ≠ r.name := by
  intro rs
  induction rs with
  | nil => simp
  | cons a rs ih =>
    intro h r hr
    simp only [checkBatch] at h
    split at h
    · simp at h
    rename_i h1
    split at h
    · simp at h
    rename_i h2
    split at h
    · simp at h
    rename_i h3
    rcases List.mem_cons.1 hr with rfl | hr
    · refine ⟨h1, h2, ?_⟩
      intro x hx he
      exact h3 (List.any_eq_true.2 ⟨x, hx, decide_eq_true he⟩)
    · exact ih h r hr

theorem names_nodup_append {l : List (Route T V)} {rs : List (Route T V)} (h : (l.map (·.name)).Nodup)
    (h1 : (rs.map (·.name)).Nodup) (h2 : ∀ r ∈ rs, ∀ x ∈ l, x.name ≠ r.name) : ((l ++ rs).map (·.name)).Nodup := by
  rw [List.map_append, List.nodup_append]
  refine ⟨h, h1, ?_⟩
  intro a ha b hb
  obtain ⟨x, hx, rfl⟩ := List.mem_map.1 ha
  obtain ⟨r, hr, rfl⟩ := List.mem_map.1 hb
  exact h2 r hr x hx

theorem add_routes (c : Cfg T V) (e : T → Option V) (up : Bool) (s : State T V) (r : Route T V) :
    (add c e up s r).1.routes = s.routes ∨
    ((add c e up s r).1.routes = s.routes ++ [r] ∧ ∀ x ∈ s.routes, x.name ≠ r.name) := by
  unfold add
  split
  · exact Or.inl rfl
  split
  · exact Or.inl rfl
  split
  · exact Or.inl rfl
  rename_i h3
  right
  have hn : ∀ x ∈ s.routes, x.name ≠ r.name := by
    intro x hx he
    exact h3 (List.any_eq_true.2 ⟨x, hx, decide_eq_true he⟩)
  split
  · split <;> exact ⟨rfl, hn⟩
  · exact ⟨rfl, hn⟩

theorem fresh_names (rs : List (T × List T)) : (rs.map (fresh (V := V))).map (·.name) = rs.map (·.1) := by
  rw [List.map_map]; rfl

/-- C57, proved part (names): after any history, with or without a store and with any failures, no two routes share a
name, provided no batch names a route twice (else `C57_batch_violated`). -/
theorem C57_names_partial (c : Cfg T V) (hist : List (Op T V)) (hb : ∀ op ∈ hist, BatchOK op) :
    (names (run c init hist)).Nodup := by
  suffices h : ∀ s : State T V, (names s).Nodup → (names (run c s hist)).Nodup from h init (by simp [names, init])
  induction hist with
  | nil => intro s h; exact h
  | cons op ops ih =>
    intro s h
    refine ih (fun o hm => hb o (List.mem_cons_of_mem _ hm)) _ ?_
    have hop := hb op List.mem_cons_self
    cases op with
    | add n us e up =>
      rcases add_routes c e up s (fresh (n, us)) with h1 | ⟨h1, h2⟩
      · simp only [step, names, h1]; exact h
      · simp only [step, names, h1]
        exact names_nodup_append h (by simp) (by simpa using h2)
    | addBatch rs e up =>
      simp only [step, addBatch]
      split
      · exact h
      rename_i hck
      have hk := checkBatch_none c s.routes _ hck
      have hfin : ((s.routes ++ rs.map (fresh (V := V))).map (·.name)).Nodup :=
        names_nodup_append h (by rw [fresh_names]; exact hop) (fun r hr => (hk r hr).2.2)
      split <;> exact hfin
    | remove n =>
      simp only [step, remove]
      split
      · exact h.sublist (List.Sublist.map _ List.eraseP_sublist)
      · exact h
    | route q e =>
      simp only [step, route]
      split
      · exact h
      split
      · exact h
      · simp only [names, scanRoutes_names]; exact h

/-- C57, proved part (rejection): without a store, an `Add`, `AddBatch` or `Remove` that returns an error leaves the
router as it was, and one that succeeds adds exactly the given routes, or removes exactly the named one. With a store a
failure while persisting leaves the route registered (`C57_persist_violated`). -/
theorem C57_rejected_partial (c : Cfg T V) (hs : c.hasStore = false) (e : T → Option V) (up : Bool) (s : State T V) :
    (∀ r err, (add c e up s r).2 = some err → (add c e up s r).1 = s) ∧
    (∀ r, (add c e up s r).2 = none → (add c e up s r).1.routes = s.routes ++ [r]) ∧
    (∀ rs err, (addBatch c e up s rs).2 = some err → (addBatch c e up s rs).1 = s) ∧
    (∀ rs, (addBatch c e up s rs).2 = none → (addBatch c e up s rs).1.routes = s.routes ++ rs) ∧
    (∀ n err, (remove c s n).2 = some err → (remove c s n).1 = s) ∧
    (∀ n, (remove c s n).2 = none → (names s).Nodup → names (remove c s n).1 = (names s).filter (fun x => decide (x ≠ n))) := by
  refine ⟨?_, ?_, ?_, ?_, ?_, ?_⟩
  · intro r err h
    unfold add at h ⊢
    split
    · rfl
    split
    · rfl
    split
    · rfl
    simp_all
  · intro r h
    unfold add at h ⊢
    split
    · simp_all
    split
    · simp_all
    split
    · simp_all
    simp [hs]
  · intro rs err h
    unfold addBatch at h ⊢
    split
    · rfl
    · simp_all
  · intro rs h
    unfold addBatch at h ⊢
    split
    · simp_all
    · simp [hs]
  · intro n err h
    unfold remove at h ⊢
    split
    · simp_all
    · rfl
  · intro n h hn
    unfold remove at h ⊢
    split
    · simp only [names] at hn ⊢
      generalize s.routes = l at hn
      induction l with
      | nil => rfl
      | cons a l ih =>
        simp only [List.map_cons, List.nodup_cons] at hn
        by_cases ha : a.name = n
        · rw [List.eraseP_cons_of_pos (by simp [ha])]
          simp only [List.map_cons, List.filter_cons, ha, ne_eq, not_true_eq_false, decide_false]
          symm
          rw [if_neg (by simp)]
          apply List.filter_eq_self.2
          intro x hx
          simp only [decide_eq_true_eq]
          rintro rfl
          exact hn.1 (ha ▸ hx)
        · rw [List.eraseP_cons_of_neg (by simp [ha])]
          simp only [List.map_cons, List.filter_cons, ha, ne_eq, not_false_eq_true, decide_true, if_true]
          rw [ih hn.2]
    · simp_all

end Names

/-- C57 is violated by a batch that names a route twice: both are registered. -/
theorem C57_batch_violated :
    names (run (exact false) init [.addBatch [(1, [7]), (1, [8])] emb0 true]) = [1, 1] := by decide +kernel

/-- C57 is violated when persisting fails: `Add` returns an error and the route is registered; trying again says it
exists already. -/
theorem C57_persist_violated :
    (add (exact true) emb0 false init (fresh (1, [7]))).2 = some .persist ∧
    names (add (exact true) emb0 false init (fresh (1, [7]))).1 = [1] ∧
    (add (exact true) emb0 true (add (exact true) emb0 false init (fresh (1, [7]))).1 (fresh (1, [7]))).2 =
      some .duplicate := by decide +kernel

example : names (run (exact true) init [.add 1 [7] emb0 false, .addBatch [(2, [8]), (3, [9])] emb0 true, .remove 1,
    .add 4 [] emb0 true]) = [2, 3] := by decide +kernel

/-! ### C88 -/

theorem mapM_length {A B : Type*} (f : A → Option B) : ∀ (l : List A) (r : List B), l.mapM f = some r → r.length = l.length := by
  intro l
  induction l with
  | nil => intro r h; simp at h; simp [h]
  | cons a l ih =>
    intro r h
    rw [List.mapM_cons] at h
    cases h1 : f a with
    | none => simp [h1] at h
    | some b =>
      cases h2 : l.mapM f with
      | none => simp [h1, h2] at h
      | some bs =>
        simp [h1, h2] at h
        subst h
        simp [ih bs h2]

/-- The empty id is the only one: at most one row is stored. -/
theorem upsertAll_one {T V : Type*} [DecidableEq T] (c : Cfg T V) (xs : List (SRow T V)) (hx : ∀ x ∈ xs, x.id = c.empty) :
    ∀ st : List (SRow T V), (st = [] ∨ ∃ y, y.id = c.empty ∧ st = [y]) →
      xs.foldl upsertRow st = (match xs.getLast? with | some x => [x] | none => st) := by
  induction xs using List.reverseRecOn with
  | nil => intro st _; rfl
  | append_singleton xs x ih =>
    intro st h
    rw [List.foldl_append, List.foldl_cons, List.foldl_nil, ih (fun y hy => hx y (by simp [hy])) st h]
    have hxe := hx x (by simp)
    have key : ∀ l : List (SRow T V), (l = [] ∨ ∃ y, y.id = c.empty ∧ l = [y]) → upsertRow l x = [x] := by
      rintro l (rfl | ⟨y, hy, rfl⟩)
      · rfl
      · simp [upsertRow, hy, hxe]
    have : upsertRow (match xs.getLast? with | some x => [x] | none => st) x = [x] := by
      apply key
      cases hl : xs.getLast? with
      | none => exact h
      | some y => exact .inr ⟨y, hx y (by simp [List.mem_of_getLast? hl]), rfl⟩
    rw [this]
    simp

/-- Nothing stored, or one row with the empty id. -/
def OneRow {T V : Type*} (c : Cfg T V) (st : List (SRow T V)) : Prop := st = [] ∨ ∃ y, y.id = c.empty ∧ st = [y]

theorem persist_one {T V : Type*} [DecidableEq T] (c : Cfg T V) (e : T → Option V) (up : Bool) (st st' : List (SRow T V))
    (r : Route T V) (h : OneRow c st) (hp : persist c e up st r = some st') : OneRow c st' := by
  unfold persist at hp
  cases hv : embedVectors e r.utterances with
  | none => simp [hv] at hp
  | some vs =>
    simp only [hv] at hp
    split at hp
    · simp only [Option.some.injEq] at hp
      have hid : ∀ x ∈ rowsOf c r vs, x.id = c.empty := by
        intro x hx
        obtain ⟨p, -, rfl⟩ := List.mem_map.1 hx
        rfl
      rw [upsertAll_one c _ hid st h] at hp
      subst hp
      cases hl : (rowsOf c r vs).getLast? with
      | none => exact h
      | some y => exact .inr ⟨y, hid y (List.mem_of_getLast? hl), rfl⟩
    · simp at hp

theorem run_one {T V : Type*} [DecidableEq T] (c : Cfg T V) (hist : List (Op T V)) : OneRow c (run c init hist).stored := by
  suffices h : ∀ s : State T V, OneRow c s.stored → OneRow c (run c s hist).stored from h init (.inl rfl)
  induction hist with
  | nil => intro s h; exact h
  | cons op ops ih =>
    intro s h
    refine ih _ ?_
    cases op with
    | add n us e up =>
      simp only [step, add]
      split
      · exact h
      split
      · exact h
      split
      · exact h
      split
      · split
        · exact h
        · rename_i st hst
          exact persist_one c e up _ _ _ h hst
      · exact h
    | addBatch rs e up =>
      simp only [step, addBatch]
      split
      · exact h
      split
      · simp only
        generalize rs.map (fresh (V := V)) = l
        generalize s.stored = st at h
        induction l generalizing st with
        | nil => exact h
        | cons r l ihl =>
          simp only [persistAll]
          split
          · exact h
          · rename_i st' hst
            exact ihl st' (persist_one c e up _ _ _ h hst)
      · exact h
    | remove n =>
      simp only [step, remove]
      split
      · simp only
        split
        · rcases h with h | ⟨y, hy, h⟩
          · exact .inl (by simp [h, deleteRows])
          · exact .inr ⟨y, hy, by simp [h, deleteRows, hy]⟩
        · exact h
      · exact h
    | route q e =>
      simp only [step, route]
      split
      · exact h
      split
      · exact h
      · exact h

/-- C88 is violated by every history: whatever was added, a router opened on the same store has at most one route, with a single
utterance. -/
theorem C88_violated {T V : Type*} [DecidableEq T] (c : Cfg T V) (hist : List (Op T V)) :
    (reopen c (run c init hist)).routes = [] ∨ ∃ n u, (reopen c (run c init hist)).routes = [⟨n, [u], none⟩] := by
  unfold reopen
  rcases run_one c hist with h | ⟨y, -, h⟩
  · exact .inl (by simp [h])
  · rw [h]
    simp only [List.foldl_cons, List.foldl_nil, gather]
    split
    · exact .inl rfl
    · exact .inr ⟨y.name, y.utterance, rfl⟩

/-- C88 is violated: of two routes with two utterances each, a router opened on the same store has one route with one
utterance. -/
theorem C88_two_routes_violated :
    (reopen (exact true) (run (exact true) init [.add 1 [7, 8] emb0 true, .add 2 [9, 10] emb0 true])).routes =
      [⟨2, [10], none⟩] := by decide +kernel

/-- C88 is violated by removal too, after every history: removing a route, whether it is found or not, makes no difference to a
router opened later, which has the removed route if it was the last one added. -/
theorem C88_removed_violated {T V : Type*} [DecidableEq T] (c : Cfg T V) (hist : List (Op T V)) (n : T) :
    (reopen c (run c init (hist ++ [.remove n]))).routes = (reopen c (run c init hist)).routes := by
  have hrun : run c init (hist ++ [.remove n]) = (remove c (run c init hist) n).1 := by simp [run, step]
  rw [hrun]
  unfold remove
  split
  · simp only [reopen]
    split
    · rcases run_one c hist with h | ⟨y, hy, h⟩
      · simp [h, deleteRows]
      · simp [h, deleteRows, hy]
    · rfl
  · rfl

example : names (run (exact true) init [.add 1 [7] emb0 true, .remove 1]) = [] ∧
    names (reopen (exact true) (run (exact true) init [.add 1 [7] emb0 true, .remove 1])) = [1] := by decide +kernel

/-- C88, proved part: after every history, the route added last (with success) is there after opening again, with the last of its
utterances. So the claim holds for a single route with a single utterance. -/
theorem C88_last_partial {T V : Type*} [DecidableEq T] (c : Cfg T V) (hs : c.hasStore = true) (hist : List (Op T V))
    (e : T → Option V) (n u : T) (us : List T) (up : Bool)
    (hok : (add c e up (run c init hist) (fresh (n, us ++ [u]))).2 = none) :
    (reopen c (run c init (hist ++ [.add n (us ++ [u]) e up]))).routes = [⟨n, [u], none⟩] := by
  have hrun : run c init (hist ++ [.add n (us ++ [u]) e up]) = (add c e up (run c init hist) (fresh (n, us ++ [u]))).1 := by
    simp [run, step]
  rw [hrun]
  have h1 := run_one c hist
  generalize run c init hist = s at hok h1
  unfold add at hok ⊢
  split at hok
  · cases hok
  rename_i hn
  rw [if_neg hn]
  split at hok
  · cases hok
  rename_i hu
  rw [if_neg hu]
  split at hok
  · cases hok
  rename_i hd
  rw [if_neg hd]
  simp only [hs, if_true] at hok ⊢
  cases hp : persist c e up s.stored (fresh (n, us ++ [u])) with
  | none => rw [hp] at hok; cases hok
  | some st =>
    simp only [reopen]
    unfold persist at hp
    cases hv : embedVectors e (fresh (V := V) (n, us ++ [u])).utterances with
    | none => simp [hv] at hp
    | some vs =>
      simp only [hv] at hp
      split at hp
      · simp only [Option.some.injEq] at hp
        have hid : ∀ x ∈ rowsOf c (fresh (n, us ++ [u])) vs, x.id = c.empty := by
          intro x hx
          obtain ⟨p, -, rfl⟩ := List.mem_map.1 hx
          rfl
        rw [upsertAll_one c _ hid s.stored h1] at hp
        have hlen : vs.length = (us ++ [u]).length := by
          unfold embedVectors at hv
          exact (mapM_length e _ _ hv)
        rcases List.eq_nil_or_concat vs with rfl | ⟨ws, w, rfl⟩
        · simp at hlen
        · have hl : us.length = ws.length := by simp at hlen; omega
          have : rowsOf c (fresh (n, us ++ [u])) (ws.concat w) =
              rowsOf c (fresh (n, us)) ws ++ [⟨c.empty, n, u, w⟩] := by
            simp [rowsOf, fresh, List.zip_append hl]
          rw [this] at hp
          simp only [List.getLast?_append, List.getLast?_singleton, Option.some_or] at hp
          subst hp
          simp only [List.foldl_cons, List.foldl_nil, gather]
          rw [if_neg (show ¬ n = c.empty from hn)]
          rfl
      · cases hp

example : (add (exact true) emb0 true (run (exact true) init [.add 1 [7, 8] emb0 true, .remove 1]) (fresh (2, [9] ++ [10]))).2 = none := by
  decide +kernel

/-! ### C58 -/

section Hybrid
variable {T : Type*}

/-- What both routers guarantee of their results. -/
structure Sound (routes : List T) (r : Result T) : Prop where
  nonneg : 0 ≤ r.score
  named : ∀ n, r.name = some n → n ∈ routes
  zero : r.name = none → r.score = 0 ∧ r.matched = false

/-- The sparse router's results are sound. -/
theorem sparse_sound {W : Type*} (sim : W → W → ℚ) (enc : T → W) (thr : ℚ) (routes : List (T × List T)) (query : T) :
    Sound (routes.map (·.1)) (sparseRoute sim enc thr routes query) := by
  have key : ∀ (rs : List (T × List T)) (l : List (T × ℚ)) (b : Option T × ℚ), (∀ p ∈ l, p.1 ∈ routes.map (·.1)) →
      (∀ r ∈ rs, r ∈ routes) → BestOf l b →
      ∃ l', (∀ p ∈ l', p.1 ∈ routes.map (·.1)) ∧ BestOf l' (sparseScan sim enc (enc query) rs b) := by
    intro rs
    induction rs with
    | nil => intro l b h1 _ h; exact ⟨l, h1, h⟩
    | cons r rs ih =>
      intro l b h1 h2 h
      refine ih _ _ ?_ (fun x hx => h2 x (List.mem_cons_of_mem _ hx)) (best_scan sim (enc query) r.1 (r.2.map enc) l b h)
      intro p hp
      rcases List.mem_append.1 hp with hp | hp
      · exact h1 p hp
      · obtain ⟨v, _, rfl⟩ := List.mem_map.1 hp
        exact List.mem_map_of_mem (h2 r List.mem_cons_self)
  obtain ⟨l', h1, hb⟩ := key routes [] (none, 0) (by simp) (fun _ h => h) ⟨by simp, le_rfl, by simp, fun _ => rfl⟩
  unfold sparseRoute
  generalize sparseScan sim enc (enc query) routes (none, 0) = b at hb
  exact ⟨hb.nonneg, fun n hn => h1 _ (hb.hit n hn).1, fun hn => ⟨hb.miss hn, by simp [show b.1 = none from hn]⟩⟩

/-- The dense router's results are sound, in every state, with or without store, cache and embedder failures. -/
theorem dense_sound {V : Type*} [DecidableEq T] (c : Cfg T V) (e : T → Option V) (s : State T V) (query : T)
    (res : Result T) (h : (route c e s query).2 = .ok res) : Sound (names s) res := by
  have key : ∀ (rs : List (Route T V)) (q : V) (l : List (T × ℚ)) (b : Option T × ℚ), (∀ p ∈ l, p.1 ∈ names s) →
      (∀ r ∈ rs, r ∈ s.routes) → BestOf l b →
      ∃ l', (∀ p ∈ l', p.1 ∈ names s) ∧ BestOf l' (scanRoutes c e s.stored q rs b).1 := by
    intro rs q
    induction rs with
    | nil => intro l b h1 _ h; exact ⟨l, h1, h⟩
    | cons r rs ih =>
      intro l b h1 h2 h
      simp only [scanRoutes]
      cases (getVectors c e s.stored r).1 with
      | none => exact ih _ _ h1 (fun x hx => h2 x (List.mem_cons_of_mem _ hx)) h
      | some vs =>
        refine ih _ _ ?_ (fun x hx => h2 x (List.mem_cons_of_mem _ hx)) (best_scan c.sim q r.name vs l b h)
        intro p hp
        rcases List.mem_append.1 hp with hp | hp
        · exact h1 p hp
        · obtain ⟨v, _, rfl⟩ := List.mem_map.1 hp
          exact List.mem_map_of_mem (h2 r List.mem_cons_self)
  unfold route at h
  split at h
  · simp only [Except.ok.injEq] at h
    subst h
    exact ⟨le_rfl, by simp, fun _ => ⟨rfl, rfl⟩⟩
  · split at h
    · simp at h
    · rename_i q _
      obtain ⟨l', h1, hb⟩ := key s.routes q [] (none, 0) (by simp) (fun _ h => h)
        ⟨by simp, le_rfl, by simp, fun _ => rfl⟩
      simp only [Except.ok.injEq] at h
      generalize (scanRoutes c e s.stored q s.routes (none, 0)).1 = b at hb h
      subst h
      exact ⟨hb.nonneg, fun n hn => h1 _ (hb.hit n hn).1, fun hn => ⟨hb.miss hn, by simp [show b.1 = none from hn]⟩⟩

/-- C58, proved part: for a positive threshold (and any weight), a hybrid match has a combined score of at least the
threshold and names a route of the dense or the sparse router. For every state of both routers. Without a positive
threshold see `C58_threshold_violated`. -/
theorem C58_named_partial {V W : Type*} [DecidableEq T] (c : Cfg T V) (e : T → Option V) (s : State T V) (query : T)
    (d : Result T) (hd : (route c e s query).2 = .ok d) (sim : W → W → ℚ) (enc : T → W) (sthr : ℚ)
    (sroutes : List (T × List T)) (alpha thr : ℚ) (hthr : 0 < thr)
    (hm : (hybrid alpha thr d (sparseRoute sim enc sthr sroutes query)).matched = true) :
    thr ≤ (hybrid alpha thr d (sparseRoute sim enc sthr sroutes query)).score ∧
    ∃ n, (hybrid alpha thr d (sparseRoute sim enc sthr sroutes query)).name = some n ∧
      (n ∈ names s ∨ n ∈ sroutes.map (·.1)) := by
  have h1 := dense_sound c e s query d hd
  have h2 := sparse_sound sim enc sthr sroutes query
  generalize sparseRoute sim enc sthr sroutes query = r at hm h2 ⊢
  unfold hybrid at hm ⊢
  simp only [decide_eq_true_eq] at hm ⊢
  refine ⟨hm, ?_⟩
  have hd' : ∀ n, d.name = some n → ∃ m, d.name = some m ∧ (m ∈ names s ∨ m ∈ sroutes.map (·.1)) :=
    fun n hn => ⟨n, hn, Or.inl (h1.named n hn)⟩
  have hr' : ∀ n, r.name = some n → ∃ m, r.name = some m ∧ (m ∈ names s ∨ m ∈ sroutes.map (·.1)) :=
    fun n hn => ⟨n, hn, Or.inr (h2.named n hn)⟩
  by_cases hdm : d.matched = true
  · rw [if_pos hdm]
    cases hn : d.name with
    | none => have := (h1.zero hn).2; simp [this] at hdm
    | some n => exact ⟨n, rfl, Or.inl (h1.named n hn)⟩
  · rw [if_neg hdm]
    by_cases hrm : r.matched = true
    · rw [if_pos hrm]
      cases hn : r.name with
      | none => have := (h2.zero hn).2; simp [this] at hrm
      | some n => exact ⟨n, rfl, Or.inr (h2.named n hn)⟩
    · rw [if_neg hrm, if_pos hm]
      by_cases hb : d.score > r.score ∧ d.name.isSome = true
      · rw [if_pos hb]
        obtain ⟨n, hn⟩ := Option.isSome_iff_exists.1 hb.2
        exact ⟨n, hn, Or.inl (h1.named n hn)⟩
      · rw [if_neg hb]
        cases hn : r.name with
        | some n => exact ⟨n, rfl, Or.inr (h2.named n hn)⟩
        | none =>
          exfalso
          have hr0 := (h2.zero hn).1
          have hds : 0 < d.score := by
            rcases lt_or_eq_of_le h1.nonneg with h | h
            · exact h
            · rw [← h, hr0] at hm
              have : (0 : ℚ) ≥ thr := by simpa using hm
              linarith
          apply hb
          refine ⟨by rw [hr0]; exact hds, ?_⟩
          cases hdn : d.name with
          | some n => rfl
          | none => have := (h1.zero hdn).1; linarith

/-- C58 is violated for a threshold of 0: with no routes at all a match is reported, naming none. -/
theorem C58_threshold_violated : hybrid (T := Nat) (7/10) 0 ⟨none, 0, false⟩ ⟨none, 0, false⟩ = ⟨none, 0, true⟩ := by
  decide +kernel

/-- A match made of both routers, neither of which matches alone. -/
example : hybrid (7/10) (3/5) (⟨some 1, 4/5, false⟩ : Result Nat) ⟨some 2, 1/5, false⟩ = ⟨some 1, 31/50, true⟩ := by
  decide +kernel

end Hybrid

/-! ### C59 -/

section Batch
variable {T V : Type*}

theorem collect_get (embed : T → Option V) (texts : List T) (arr : List Nat) : ∀ (init : List (Option (Option V))) (j : Nat),
    j < init.length →
    (arr.foldl (fun res i => res.set i (texts[i]?.map embed)) init)[j]? =
      if j ∈ arr then some (texts[j]?.map embed) else init[j]? := by
  induction arr with
  | nil => intro init j _; simp
  | cons a arr ih =>
    intro init j hj
    rw [List.foldl_cons, ih _ _ (by simpa using hj)]
    by_cases h1 : j ∈ arr
    · simp [h1]
    · by_cases h2 : j = a
      · subst h2; simp [h1, hj]
      · simp [h1, h2, List.getElem?_set, Ne.symm h2]

theorem collect_length (embed : T → Option V) (texts : List T) (arr : List Nat) : ∀ init : List (Option (Option V)),
    (arr.foldl (fun res i => res.set i (texts[i]?.map embed)) init).length = init.length := by
  induction arr with
  | nil => intro init; rfl
  | cons a arr ih => intro init; rw [List.foldl_cons, ih]; simp

theorem collect_eq (embed : T → Option V) (texts : List T) (arr : List Nat) (h : arr.Perm (List.range texts.length)) :
    collect embed texts arr = texts.map (fun t => some (embed t)) := by
  apply List.ext_getElem?
  intro j
  unfold collect
  by_cases hj : j < texts.length
  · rw [collect_get _ _ _ _ _ (by simpa using hj), if_pos (h.mem_iff.2 (List.mem_range.2 hj))]
    simp [List.getElem?_eq_getElem hj]
  · rw [List.getElem?_eq_none (by rw [collect_length]; simpa using hj), List.getElem?_eq_none (by simpa using hj)]

/-- C59: for every order in which the goroutines deliver, the batch returns the vector of the i-th text at position i,
and fails exactly when some text cannot be embedded. -/
theorem C59_batch (embed : T → Option V) (texts : List T) (arr : List Nat) (h : arr.Perm (List.range texts.length)) :
    ((∀ t ∈ texts, (embed t).isSome) → embedBatch embed texts arr = some (texts.map embed)) ∧
    ((∃ t ∈ texts, embed t = none) → embedBatch embed texts arr = none) := by
  unfold embedBatch
  rw [collect_eq embed texts arr h]
  constructor
  · intro hall
    simp only
    rw [if_neg]
    · simp [Function.comp_def]
    · rw [Bool.not_eq_true, List.any_eq_false]
      intro x hx
      obtain ⟨t, ht, rfl⟩ := List.mem_map.1 hx
      obtain ⟨v, hv⟩ := Option.isSome_iff_exists.1 (hall t ht)
      simp [hv]
  · rintro ⟨t, ht, hn⟩
    simp only
    rw [if_pos]
    rw [List.any_eq_true]
    exact ⟨some (embed t), List.mem_map.2 ⟨t, ht, rfl⟩, by simp [hn]⟩

variable [DecidableEq T]

/-- The cache holds only right vectors. -/
def Cache.OK (emb : T → V) (c : Cache T V) : Prop := ∀ t v, c.get t = some v → v = emb t

theorem ok_cons {emb : T → V} {c : Cache T V} (h : c.OK emb) (t : T) : Cache.OK emb ((t, emb t) :: c) := by
  intro t' v hv
  simp only [Cache.get, List.lookup_cons] at hv
  by_cases ht : t' = t
  · subst ht; simp at hv; exact hv.symm
  · have : (t' == t) = false := by simpa using ht
    rw [this] at hv
    exact h t' v hv

/-- C59: a cached embedder gives what the wrapped one gives (when that does not contradict itself), and keeps its cache
right. -/
theorem C59_cached (emb : T → V) (embed : T → Option V) (he : ∀ t v, embed t = some v → v = emb t) (c : Cache T V)
    (hc : c.OK emb) (t : T) :
    (∀ v, (cachedEmbed embed c t).1 = some v → v = emb t) ∧ (embed t = some (emb t) → (cachedEmbed embed c t).1 = some (emb t)) ∧
      Cache.OK emb (cachedEmbed embed c t).2 := by
  unfold cachedEmbed
  cases hg : c.get t with
  | some v =>
    have := hc t v hg
    subst this
    exact ⟨by simp, by simp, hc⟩
  | none =>
    cases hv : embed t with
    | none => exact ⟨by simp, by simp, hc⟩
    | some v =>
      have := he t v hv
      subst this
      exact ⟨by simp, by simp, ok_cons hc t⟩

/-- The slots hold nothing or the vector of their text. -/
def SlotsOK (emb : T → V) (texts : List T) (res : List (Option V)) : Prop :=
  res.length = texts.length ∧ ∀ i (h : i < texts.length), res[i]? = some none ∨ res[i]? = some (some (emb texts[i]))

omit [DecidableEq T] in
theorem slots_set {emb : T → V} {texts : List T} {res : List (Option V)} (h : SlotsOK emb texts res) {i : Nat} {t : T}
    (ht : texts[i]? = some t) : SlotsOK emb texts (res.set i (some (emb t))) := by
  refine ⟨by simpa using h.1, fun j hj => ?_⟩
  by_cases hij : i = j
  · subst hij
    right
    rw [List.getElem?_set_self (by rw [h.1]; exact hj)]
    rw [List.getElem?_eq_getElem hj] at ht
    simp only [Option.some.injEq] at ht
    rw [ht]
  · rw [List.getElem?_set_ne hij]; exact h.2 j hj

omit [DecidableEq T] in
theorem filled_set {res : List (Option V)} {i j : Nat} {v : V} (h : (res[j]?).join.isSome) :
    ((res.set i (some v))[j]?).join.isSome := by
  by_cases hij : i = j
  · subst hij
    cases hr : res[i]? with
    | none => rw [hr] at h; simp at h
    | some x =>
      have hl : i < res.length := by
        by_contra hl
        rw [List.getElem?_eq_none (by omega)] at hr; simp at hr
      rw [List.getElem?_set_self hl]; rfl
  · rw [List.getElem?_set_ne hij]; exact h

theorem fill_ok (emb : T → V) (texts : List T) (ps : List (Nat × T)) : ∀ (res : List (Option V)) (c : Cache T V),
    (∀ p ∈ ps, texts[p.1]? = some p.2) → SlotsOK emb texts res → c.OK emb →
    SlotsOK emb texts (fill (ps.zip (ps.map (fun p => emb p.2))) (res, c)).1 ∧
    Cache.OK emb (fill (ps.zip (ps.map (fun p => emb p.2))) (res, c)).2 ∧
    ∀ j, ((res[j]?).join.isSome ∨ ∃ p ∈ ps, p.1 = j) →
      ((fill (ps.zip (ps.map (fun p => emb p.2))) (res, c)).1[j]?).join.isSome := by
  induction ps with
  | nil => intro res c _ h1 h2; exact ⟨h1, h2, by simp [fill]⟩
  | cons p ps ih =>
    intro res c hp h1 h2
    have hp0 := hp p List.mem_cons_self
    obtain ⟨i1, i2, i3⟩ := ih (res.set p.1 (some (emb p.2))) ((p.2, emb p.2) :: c)
      (fun x hx => hp x (List.mem_cons_of_mem _ hx)) (slots_set h1 hp0) (ok_cons h2 p.2)
    simp only [List.map_cons, List.zip_cons_cons, fill]
    refine ⟨i1, i2, fun j hj => i3 j ?_⟩
    rcases hj with hj | ⟨x, hx, hxj⟩
    · exact Or.inl (filled_set hj)
    · rcases List.mem_cons.1 hx with rfl | hx
      · left
        have hl : x.1 < res.length := by
          rw [h1.1]
          by_contra hl
          rw [List.getElem?_eq_none (by omega)] at hp0; simp at hp0
        rw [← hxj, List.getElem?_set_self hl]; rfl
      · exact Or.inr ⟨x, hx, hxj⟩

theorem fillEach_ok (emb : T → V) (embed : T → Option V) (he : ∀ t v, embed t = some v → v = emb t) (texts : List T)
    (ps : List (Nat × T)) : ∀ (res : List (Option V)) (c : Cache T V),
    (∀ p ∈ ps, texts[p.1]? = some p.2) → SlotsOK emb texts res → c.OK emb →
    Cache.OK emb (fillEach embed ps (res, c)).2 ∧
    ∀ out, (fillEach embed ps (res, c)).1 = some out → SlotsOK emb texts out ∧
      ∀ j, ((res[j]?).join.isSome ∨ ∃ p ∈ ps, p.1 = j) → (out[j]?).join.isSome := by
  induction ps with
  | nil =>
    intro res c _ h1 h2
    refine ⟨h2, fun out ho => ?_⟩
    simp only [fillEach, Option.some.injEq] at ho
    subst ho
    exact ⟨h1, by simp⟩
  | cons p ps ih =>
    intro res c hp h1 h2
    have hp0 := hp p List.mem_cons_self
    simp only [fillEach]
    cases hv : embed p.2 with
    | none => exact ⟨h2, by simp⟩
    | some v =>
      have := he _ _ hv
      subst this
      obtain ⟨i1, i2⟩ := ih (res.set p.1 (some (emb p.2))) ((p.2, emb p.2) :: c)
        (fun x hx => hp x (List.mem_cons_of_mem _ hx)) (slots_set h1 hp0) (ok_cons h2 p.2)
      refine ⟨i1, fun out ho => ?_⟩
      obtain ⟨j1, j2⟩ := i2 out ho
      refine ⟨j1, fun j hj => j2 j ?_⟩
      rcases hj with hj | ⟨x, hx, hxj⟩
      · exact Or.inl (filled_set hj)
      · rcases List.mem_cons.1 hx with rfl | hx
        · left
          have hl : x.1 < res.length := by
            rw [h1.1]
            by_contra hl
            rw [List.getElem?_eq_none (by omega)] at hp0; simp at hp0
          rw [← hxj, List.getElem?_set_self hl]; rfl
        · exact Or.inr ⟨x, hx, hxj⟩

omit [DecidableEq T] in
theorem slots_full {emb : T → V} {texts : List T} {res : List (Option V)} (h : SlotsOK emb texts res)
    (hf : ∀ j < texts.length, (res[j]?).join.isSome) : res = texts.map (fun t => some (emb t)) := by
  apply List.ext_getElem?
  intro j
  by_cases hj : j < texts.length
  · rcases h.2 j hj with h1 | h1
    · have := hf j hj; rw [h1] at this; simp at this
    · rw [h1]; simp [hj]
  · rw [List.getElem?_eq_none (by rw [h.1]; omega), List.getElem?_eq_none (by simpa using hj)]

/-- C59: a batch of the cached embedder returns the right vector at every position, whatever is cached, for all
iteration orders of the map and whether the wrapped batch call works or not; and the cache stays right. The wrapped
embedder must be one that answers a batch like single calls (`hb`) and a text always the same way (`he`). -/
theorem C59_cached_batch (emb : T → V) (embed : T → Option V) (he : ∀ t v, embed t = some v → v = emb t)
    (batch : List T → Option (List V)) (hb : ∀ ts vs, batch ts = some vs → vs = ts.map emb)
    (ord1 ord2 : List (Nat × T) → List (Nat × T)) (h1 : ∀ l, (ord1 l).Perm l) (h2 : ∀ l, (ord2 l).Perm l)
    (c : Cache T V) (hc : c.OK emb) (texts : List T) :
    (∀ out, (cachedBatch embed batch ord1 ord2 c texts).1 = some out → out = texts.map (fun t => some (emb t))) ∧
    Cache.OK emb (cachedBatch embed batch ord1 ord2 c texts).2 := by
  have hun : ∀ p ∈ uncached c texts, texts[p.1]? = some p.2 := by
    intro p hp
    unfold uncached at hp
    obtain ⟨x, hx, rfl⟩ := List.mem_map.1 hp
    have := (List.mem_filter.1 hx).1
    rw [List.mem_zipIdx_iff_getElem?] at this
    simpa using this
  have hstart : SlotsOK emb texts (texts.map (fun t => c.get t)) := by
    refine ⟨by simp, fun i hi => ?_⟩
    simp only [List.getElem?_map, List.getElem?_eq_getElem hi, Option.map_some]
    cases hg : c.get texts[i] with
    | none => exact Or.inl rfl
    | some v => right; rw [hc _ _ hg]
  have hcov : ∀ j < texts.length, ((texts.map (fun t => c.get t))[j]?).join.isSome ∨ ∃ p ∈ uncached c texts, p.1 = j := by
    intro j hj
    cases hg : c.get texts[j] with
    | some v => left; simp [hj, hg]
    | none =>
      right
      refine ⟨(j, texts[j]), ?_, rfl⟩
      unfold uncached
      refine List.mem_map.2 ⟨(texts[j], j), List.mem_filter.2 ⟨?_, by simp [hg]⟩, rfl⟩
      rw [List.mem_zipIdx_iff_getElem?]
      simp [hj]
  unfold cachedBatch
  simp only
  by_cases hn : uncached c texts = []
  · rw [if_pos hn]
    refine ⟨fun out ho => ?_, hc⟩
    simp only [Option.some.injEq] at ho
    subst ho
    apply slots_full hstart
    intro j hj
    rcases hcov j hj with h | ⟨p, hp, _⟩
    · exact h
    · rw [hn] at hp; simp at hp
  · rw [if_neg hn]
    cases hbv : batch ((ord1 (uncached c texts)).map (·.2)) with
    | none =>
      simp only
      obtain ⟨f1, f2⟩ := fillEach_ok emb embed he texts (ord2 (uncached c texts)) _ c
        (fun p hp => hun p ((h2 _).mem_iff.1 hp)) hstart hc
      refine ⟨fun out ho => ?_, f1⟩
      obtain ⟨g1, g2⟩ := f2 out ho
      apply slots_full g1
      intro j hj
      apply g2
      rcases hcov j hj with h | ⟨p, hp, hpj⟩
      · exact Or.inl h
      · exact Or.inr ⟨p, (h2 _).mem_iff.2 hp, hpj⟩
    | some vs =>
      simp only
      have := hb _ _ hbv
      rw [List.map_map] at this
      subst this
      obtain ⟨f1, f2, f3⟩ := fill_ok emb texts (ord1 (uncached c texts)) _ c
        (fun p hp => hun p ((h1 _).mem_iff.1 hp)) hstart hc
      refine ⟨fun out ho => ?_, f2⟩
      simp only [Option.some.injEq] at ho
      subst ho
      apply slots_full f1
      intro j hj
      apply f3
      rcases hcov j hj with h | ⟨p, hp, hpj⟩
      · exact Or.inl h
      · exact Or.inr ⟨p, (h1 _).mem_iff.2 hp, hpj⟩

end Batch

/-- Three texts, one cached, one given twice, reversed map order: the answer is right. -/
example : cachedBatch (fun t : Nat => some (t + 100)) (fun ts => some (ts.map (· + 100))) List.reverse List.reverse
    [(5, 105)] [7, 5, 7] = (some [some 107, some 105, some 107], [(7, 107), (7, 107), (5, 105)]) := by decide +kernel

example : embedBatch (fun t : Nat => some (t + 100)) [7, 8, 9] [2, 0, 1] = some [some 107, some 108, some 109] := by
  decide +kernel

/-! ### C89 -/

section Extract
variable {T W : Type*}

/-- C89, proved part: if no registered pattern is invalid, a call is complete exactly when every required parameter has
a value among the arguments. With an invalid pattern see `C89_violated`. -/
theorem C89_complete_partial (ps : List (Param T W)) (hn : (ps.map (·.name)).Nodup)
    (hv : ∀ p ∈ ps, p.pattern ≠ some .invalid) :
    complete ps = true ↔ ∀ p ∈ ps, p.required = true → ∃ w, (p.name, w) ∈ (extract ps).1 := by
  have hargs : ∀ l : List (Param T W), ∀ a ∈ (extract l).1, a.1 ∈ l.map (·.name) := by
    intro l
    induction l with
    | nil => simp [extract]
    | cons p l ih =>
      intro a ha
      simp only [extract] at ha
      split at ha
      · exact List.mem_cons_of_mem _ (ih a ha)
      · rcases List.mem_cons.1 ha with rfl | ha
        · exact List.mem_cons_self
        · exact List.mem_cons_of_mem _ (ih a ha)
      · split at ha
        · rcases List.mem_cons.1 ha with rfl | ha
          · exact List.mem_cons_self
          · exact List.mem_cons_of_mem _ (ih a ha)
        · split at ha
          · exact List.mem_cons_of_mem _ (ih a ha)
          · exact List.mem_cons_of_mem _ (ih a ha)
  unfold complete
  induction ps with
  | nil => simp [extract]
  | cons p ps ih =>
    simp only [List.map_cons, List.nodup_cons] at hn
    have ih' := ih hn.2 (fun x hx => hv x (List.mem_cons_of_mem _ hx))
    have hp := hv p List.mem_cons_self
    have hne : ∀ x ∈ ps, x.name ≠ p.name := fun x hx he => hn.1 (he ▸ List.mem_map_of_mem hx)
    have cons_case : ∀ w, ((extract ps).2.isEmpty = true ↔ ∀ x ∈ p :: ps, x.required = true →
        ∃ w', (x.name, w') ∈ (p.name, w) :: (extract ps).1) := by
      intro w
      refine Iff.trans ih' ?_
      constructor
      · intro h x hx hr
        rcases List.mem_cons.1 hx with rfl | hx
        · exact ⟨w, List.mem_cons_self⟩
        · obtain ⟨w', hw'⟩ := h x hx hr
          exact ⟨w', List.mem_cons_of_mem _ hw'⟩
      · intro h x hx hr
        obtain ⟨w', hw'⟩ := h x (List.mem_cons_of_mem _ hx) hr
        rcases List.mem_cons.1 hw' with he | hw'
        · exact absurd (congrArg Prod.fst he) (hne x hx)
        · exact ⟨w', hw'⟩
    simp only [extract]
    split
    · rename_i h; exact absurd h hp
    · rename_i w _; exact cons_case w
    · split
      · rename_i w _; exact cons_case w
      · split
        · rename_i hr
          simp only [List.isEmpty_cons, Bool.false_eq_true, false_iff, not_forall]
          refine ⟨p, List.mem_cons_self, hr, ?_⟩
          rintro ⟨w, hw⟩
          exact hn.1 (hargs ps _ hw)
        · rename_i hr
          refine Iff.trans ih' ?_
          constructor
          · intro h x hx hxr
            rcases List.mem_cons.1 hx with rfl | hx
            · exact absurd hxr hr
            · exact h x hx hxr
          · intro h x hx hxr
            exact h x (List.mem_cons_of_mem _ hx) hxr

/-- C89 is violated: a required parameter whose registered pattern does not compile is skipped; the call is reported
complete with no value for it. -/
theorem C89_violated : complete [(⟨1, true, some .invalid, some 5⟩ : Param Nat Nat)] = true ∧
    (extract [(⟨1, true, some .invalid, some 5⟩ : Param Nat Nat)]).1 = [] := by decide

example : complete [(⟨1, true, none, some 5⟩ : Param Nat Nat), ⟨2, true, some (.ok none), none⟩] = false ∧
    complete [(⟨1, true, none, some 5⟩ : Param Nat Nat), ⟨2, false, some (.ok none), none⟩] = true := by decide

end Extract

end Verif.Router
