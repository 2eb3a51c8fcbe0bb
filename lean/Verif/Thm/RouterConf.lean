import Verif.Model.RouterConf

/-!
C257: routers are configured by the last option for each setting.
-/
namespace Verif.Router

variable {T V W : Type*}

/-- Specification: the last value that `pick` finds in the list, `d` if there is none. -/
def lastOf {α β : Type*} (pick : α → Option β) (d : β) (l : List α) : β := ((l.filterMap pick).getLast?).getD d

theorem lastOf_cons {α β : Type*} (pick : α → Option β) (d : β) (a : α) (l : List α) :
    lastOf pick d (a :: l) = lastOf pick ((pick a).getD d) l := by
  unfold lastOf
  cases h : pick a with
  | none => rw [List.filterMap_cons_none h]; rfl
  | some b =>
    rw [List.filterMap_cons_some h]
    cases hl : l.filterMap pick with
    | nil => rfl
    | cons x xs => rw [List.getLast?_cons_cons]; simp [List.getLast?_cons]

theorem foldl_last {σ α β : Type*} (step : σ → α → σ) (field : σ → β) (pick : α → Option β)
    (h : ∀ s a, field (step s a) = (pick a).getD (field s)) (l : List α) : ∀ s, field (l.foldl step s) = lastOf pick (field s) l := by
  induction l with
  | nil => intro s; rfl
  | cons a l ih => intro s; rw [List.foldl_cons, ih, h, lastOf_cons]

/-- C257: a router is made for every embedder that is not nil; its threshold is that of the last `WithThreshold`, its similarity function
that of the last `WithSimilarityFunc` and so on, in whatever order the options are given, with 0.82, cosine, 1 and caching for what is not set. -/
theorem C257_router (cos : Sim V) (opts : List (COpt V)) : newRouter cos false opts = none ∧ ∃ c, newRouter cos true opts = some c ∧
    c.threshold = lastOf (fun | .threshold t => some t | _ => none) (82 / 100) opts ∧
    c.sim = lastOf (fun | .sim f => some f | _ => none) (some cos) opts ∧
    c.topK = lastOf (fun | .topK k => some k | _ => none) 1 opts ∧
    c.cache = lastOf (fun | .cache b => some b | _ => none) true opts := by
  refine ⟨rfl, _, rfl, ?_, ?_, ?_, ?_⟩
  · exact foldl_last COpt.apply Conf.threshold _ (fun s a => by cases a <;> rfl) opts (defaultConf cos)
  · exact foldl_last COpt.apply Conf.sim _ (fun s a => by cases a <;> rfl) opts (defaultConf cos)
  · exact foldl_last COpt.apply Conf.topK _ (fun s a => by cases a <;> rfl) opts (defaultConf cos)
  · exact foldl_last COpt.apply Conf.cache _ (fun s a => by cases a <;> rfl) opts (defaultConf cos)

/-- C257: the options of a hybrid router reach the router they are meant for: the dense threshold and the similarity function the dense router, the sparse
threshold the sparse router, the weight and the combined threshold the hybrid router itself. -/
theorem C257_hybrid (cos : Sim V) (opts : List (HOpt V)) : (∀ b, newHybrid cos false b opts = none) ∧ newHybrid cos true false opts = none ∧
    ∃ m, newHybrid cos true true opts = some m ∧
    m.dense.threshold = lastOf (fun | .dense t => some t | _ => none) (82 / 100) opts ∧
    m.dense.sim = lastOf (fun | .sim f => some f | _ => none) (some cos) opts ∧
    m.dense.topK = 1 ∧ m.dense.cache = true ∧
    m.sparseThreshold = lastOf (fun | .sparse t => some t | _ => none) (3 / 10) opts ∧
    m.alpha = lastOf (fun | .alpha a => some a | _ => none) (7 / 10) opts ∧
    m.threshold = lastOf (fun | .threshold t => some t | _ => none) (6 / 10) opts := by
  refine ⟨fun b => rfl, rfl, _, rfl, ?_, ?_, rfl, rfl, ?_, ?_, ?_⟩
  · exact foldl_last HOpt.apply HConf.dense _ (fun s a => by cases a <;> rfl) opts (defaultHConf cos)
  · exact foldl_last HOpt.apply HConf.sim _ (fun s a => by cases a <;> rfl) opts (defaultHConf cos)
  · exact foldl_last HOpt.apply HConf.sparse _ (fun s a => by cases a <;> rfl) opts (defaultHConf cos)
  · exact foldl_last HOpt.apply HConf.alpha _ (fun s a => by cases a <;> rfl) opts (defaultHConf cos)
  · exact foldl_last HOpt.apply HConf.threshold _ (fun s a => by cases a <;> rfl) opts (defaultHConf cos)

/-- A later threshold replaces an earlier one, and the others keep their defaults. -/
example (cos : Sim V) : (conf cos [.threshold (1 / 2), .cache false, .threshold (9 / 10)]).threshold = 9 / 10 ∧
    (conf cos [.threshold (1 / 2), .cache false, .threshold (9 / 10)]).topK = 1 ∧
    lastOf (fun | COpt.threshold t => some t | _ => none) (82 / 100) ([.threshold (1 / 2), .cache false, .threshold (9 / 10)] : List (COpt V)) = 9 / 10 :=
  ⟨rfl, rfl, rfl⟩

/-- What an answer depends on: the threshold, the similarity function and, through the vectors, the cache. -/
theorem answer_congr [DecidableEq T] (c d : Conf V) (h1 : c.threshold = d.threshold) (h2 : c.sim = d.sim) (h3 : c.cache = d.cache) (empty : T)
    (hasStore : Bool) (e : T → Option V) (s : State T V) (query : T) : answer c empty hasStore e s query = answer d empty hasStore e s query := by
  obtain ⟨ct, cs, ck, cc⟩ := c
  obtain ⟨dt, ds, dk, dc⟩ := d
  simp only at h1 h2 h3
  subst h1 h2 h3
  rfl

theorem lastOf_skip {α β : Type*} (pick : α → Option β) (d : β) (l1 l2 : List α) (a : α) (h : pick a = none) :
    lastOf pick d (l1 ++ a :: l2) = lastOf pick d (l1 ++ l2) := by
  unfold lastOf
  rw [List.filterMap_append, List.filterMap_cons_none h, List.filterMap_append]

/-- C257 is violated by the number of results to consider: a router made with `WithTopK`, whatever the number, answers every query as one made
without it. -/
theorem C257_topk_violated [DecidableEq T] (cos : Sim V) (before behind : List (COpt V)) (k : Int) (empty : T) (hasStore : Bool) (e : T → Option V)
    (s : State T V) (query : T) :
    answer (conf cos (before ++ .topK k :: behind)) empty hasStore e s query = answer (conf cos (before ++ behind)) empty hasStore e s query := by
  obtain ⟨-, c, h0, h1, h2, -, h4⟩ := C257_router cos (before ++ .topK k :: behind)
  obtain ⟨-, d, g0, g1, g2, -, g4⟩ := C257_router cos (before ++ behind)
  have hc : conf cos (before ++ .topK k :: behind) = c := Option.some.inj h0
  have hd : conf cos (before ++ behind) = d := Option.some.inj g0
  rw [hc, hd]
  refine answer_congr c d ?_ ?_ ?_ empty hasStore e s query
  · rw [h1, g1, lastOf_skip _ _ _ _ _ rfl]
  · rw [h2, g2, lastOf_skip _ _ _ _ _ rfl]
  · rw [h4, g4, lastOf_skip _ _ _ _ _ rfl]

/-- C257: a route is matched from the threshold of the last `WithThreshold` on. -/
theorem C257_threshold [DecidableEq T] (cos : Sim V) (opts : List (COpt V)) (empty : T) (hasStore : Bool) (e : T → Option V) (s : State T V)
    (query : T) (res : Result T) (hsim : (conf cos opts).sim ≠ none)
    (h : answer (conf cos opts) empty hasStore e s query = some (.ok res)) (hq : query ≠ empty) :
    res.matched = true ↔ res.name.isSome ∧ lastOf (fun | .threshold t => some t | _ => none) (82 / 100) opts ≤ res.score := by
  obtain ⟨-, c, h0, h1, -⟩ := C257_router cos opts
  have hc : conf cos opts = c := Option.some.inj h0
  rw [← h1]
  rw [hc] at h hsim
  unfold answer at h
  cases hs : c.sim with
  | none => exact absurd hs hsim
  | some f =>
    rw [hs] at h
    simp only [Option.some.injEq] at h
    unfold route at h
    rw [if_neg (by simpa [Conf.cfg] using hq)] at h
    cases he : e query with
    | none => rw [he] at h; simp at h
    | some q =>
      rw [he] at h
      simp only [Except.ok.injEq] at h
      rw [← h]
      simp [Conf.cfg]

/-- C257 is violated by `WithSimilarityFunc(nil)`: the router is made, and any query with an embedding panics once there is a route whose
utterances have embeddings. -/
theorem C257_nil_violated [DecidableEq T] (cos : Sim V) (before : List (COpt V)) (empty : T) (e : T → Option V) (query : T) (v : V) (r : Route T V)
    (rs : List (Route T V)) (hq : query ≠ empty) (he : e query = some v) (hr : r.cache = none) (u : T) (us : List T) (hu : r.utterances = u :: us) (hv : ∀ x ∈ r.utterances, (e x).isSome) :
    (newRouter cos true (before ++ [.sim none])).isSome ∧
    answer (conf cos (before ++ [.sim none])) empty false e ⟨r :: rs, []⟩ query = none := by
  refine ⟨rfl, ?_⟩
  have hs : (conf cos (before ++ [.sim none])).sim = none := by
    unfold conf
    rw [List.foldl_append]
    rfl
  unfold answer
  rw [hs]
  simp only
  rw [if_pos]
  refine ⟨hq, by rw [he]; rfl, ?_⟩
  have hemb : ∃ ws : List V, embedVectors e r.utterances = some ws ∧ 0 < ws.length := by
    have hall : ∀ l : List T, (∀ x ∈ l, (e x).isSome) → ∃ ws : List V, embedVectors e l = some ws ∧ ws.length = l.length := by
      intro l
      induction l with
      | nil => intro _; exact ⟨[], rfl, rfl⟩
      | cons a l ih =>
        intro h
        obtain ⟨ws, w1, w2⟩ := ih (fun x hx => h x (List.mem_cons_of_mem _ hx))
        obtain ⟨w, hw⟩ := Option.isSome_iff_exists.1 (h a List.mem_cons_self)
        unfold embedVectors at w1 ⊢
        exact ⟨w :: ws, by rw [List.mapM_cons, hw, w1]; rfl, by rw [List.length_cons, List.length_cons, w2]⟩
    obtain ⟨ws, w1, w2⟩ := hall r.utterances hv
    exact ⟨ws, w1, by rw [w2, hu]; simp⟩
  obtain ⟨ws, h1, h2⟩ := hemb
  rw [List.any_cons, Bool.or_eq_true]
  left
  simp only [decide_eq_true_eq]
  unfold getVectors fromStore
  simp only [Conf.cfg, List.filter_nil, List.map_nil, List.length_nil]
  rw [if_neg (by simp)]
  simp only
  rw [hr, h1]
  by_cases hcache : (conf cos (before ++ [COpt.sim none])).cache = true
  · simp [hcache, h2]
  · simp [hcache, h2]

/-- A route, a query and an embedder the hypotheses are about; with a similarity function the same query is answered. -/
example : answer (conf (fun a b : Int => if a = b then 1 else 0) [.topK 3, .sim none]) (0 : Nat) false (fun t => some (t : Int)) ⟨[⟨1, [7, 8], none⟩], []⟩ 8 = none ∧
    (answer (conf (fun a b : Int => if a = b then 1 else 0) [.topK 3]) (0 : Nat) false (fun t => some (t : Int)) ⟨[⟨1, [7, 8], none⟩], []⟩ 8).map Except.toOption =
      some (some ⟨some 1, 1, true⟩) := by
  decide +kernel

end Verif.Router
