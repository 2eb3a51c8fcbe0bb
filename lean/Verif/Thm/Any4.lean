import Verif.Thm.TextSearch
import Verif.Thm.ProductQuant
import Verif.Thm.GraphHybrid
import Verif.Thm.Logger
import Verif.Thm.RagSearch
import Verif.Thm.KMeans
import Verif.Thm.MultiIndex
import Mathlib.Data.List.Nodup

/-!
Violations that single witnesses show elsewhere, for all states: C102, C114, C115, C136, C168, C185, C198.
-/

namespace Verif.PQuant
variable {F : Type}

theorem trueSq_two : ∀ (l : List ℚ) (i j : Nat) (a b : ℚ), (∀ x ∈ l, 0 ≤ x) → i < j → l[i]? = some a → l[j]? = some b →
    trueSq l + 2 * a * b ≤ l.sum ^ 2 := by
  intro l
  induction l with
  | nil => intro i j a b _ _ h; simp at h
  | cons x l ih =>
    intro i j a b hl hij ha hb
    have hx := hl x List.mem_cons_self
    have hl' : ∀ y ∈ l, 0 ≤ y := fun y hy => hl y (List.mem_cons_of_mem _ hy)
    have hs : 0 ≤ l.sum := List.sum_nonneg hl'
    obtain ⟨j, rfl⟩ : ∃ k, j = k + 1 := ⟨j - 1, by omega⟩
    rw [List.getElem?_cons_succ] at hb
    have hbm := List.mem_of_getElem? hb
    cases i with
    | zero =>
      simp only [List.getElem?_cons_zero, Option.some.injEq] at ha
      subst ha
      have h1 := (C114_bounds_partial l hl').1
      have h2 : b ≤ l.sum := List.single_le_sum hl' b hbm
      unfold trueSq at *
      simp only [List.map_cons, List.sum_cons]
      nlinarith
    | succ i =>
      rw [List.getElem?_cons_succ] at ha
      have h1 := ih i j a b hl' (by omega) ha hb
      unfold trueSq at *
      simp only [List.map_cons, List.sum_cons]
      nlinarith

/-- C114 is violated for every quantizer, query and code: as soon as the query is off the codeword in two subspaces, the distance that is
reported is larger than the Euclidean distance to the reconstruction. -/
theorem C114_any_violated (E : Env F ℚ) (hE : ∀ a b, 0 ≤ E.dist a b) (p : PQ F) (hp : p.Ready) (q : List F) (hq : q.length = p.d)
    (code : List Nat) (hc : Valid p code) (i j : Nat) (a b : ℚ) (hij : i < j) (hi : (pieces E p q code)[i]? = some a)
    (hj : (pieces E p q code)[j]? = some b) (ha : a ≠ 0) (hb : b ≠ 0) :
    ∃ x, p.distance E code q = .ok x ∧ trueSq (pieces E p q code) < x ^ 2 := by
  refine ⟨_, C114_distance E p hp q hq code hc, ?_⟩
  have hn : ∀ x ∈ pieces E p q code, 0 ≤ x := by
    intro x hx
    obtain ⟨k, -, rfl⟩ := List.mem_map.1 hx
    exact hE _ _
  have h := trueSq_two _ i j a b hn hij hi hj
  have ha' : 0 < a := lt_of_le_of_ne (hn a (List.mem_of_getElem? hi)) (Ne.symm ha)
  have hb' : 0 < b := lt_of_le_of_ne (hn b (List.mem_of_getElem? hj)) (Ne.symm hb)
  nlinarith [mul_pos ha' hb']

/-- A query off the codeword in both subspaces. -/
example : (pieces ratEnv ⟨2, 2, 2, 1, [[[3], [0]], [[4], [6]]], true⟩ [0, 0] [0, 0])[0]? = some 3 ∧
    (pieces ratEnv ⟨2, 2, 2, 1, [[[3], [0]], [[4], [6]]], true⟩ [0, 0] [0, 0])[1]? = some 4 := by decide +kernel

end Verif.PQuant

namespace Verif.Logger

theorem drain (i : Nat) : ∀ (ws : List String) (out : List String) (ps : List Proc) (p : Proc), ps[i]? = some p → p.cur = ws →
    (List.replicate ws.length i).foldl step ⟨out, ps⟩ = ⟨out ++ ws, ps.set i ⟨p.log, [], p.todo⟩⟩ := by
  intro ws
  induction ws with
  | nil =>
    intro out ps p hp hc
    simp only [List.length_nil, List.replicate_zero, List.foldl_nil, List.append_nil]
    congr 1
    obtain ⟨l, c, t⟩ := p
    simp only at hc
    subst hc
    obtain ⟨hlt, he⟩ := List.getElem?_eq_some_iff.1 hp
    rw [← he, List.set_getElem_self]
  | cons w ws ih =>
    intro out ps p hp hc
    rw [List.length_cons, List.replicate_succ, List.foldl_cons]
    have h1 : step ⟨out, ps⟩ i = ⟨out ++ [w], ps.set i { p with cur := ws }⟩ := by
      unfold step
      simp only [hp, hc]
    rw [h1, ih (out ++ [w]) _ { p with cur := ws } (set_get hp) rfl]
    simp [List.set_set]

/-- C198 is violated for every logger and every logger made from it with `With`: for any two calls that are loud enough, in two
goroutines, some schedule puts the whole line of the one inside the line of the other, after its first piece. -/
theorem C198_any_violated (l : Log) (fresh : Nat) (hf : fresh ≠ l.mutex) (kvs : List String) (c d : Call) (hc : loud l c = true)
    (hd : loud l d = true) :
    ∃ sched first rest, (∀ p ∈ (run [(l, [c]), (l.with fresh kvs, [d])] sched).procs, p.cur = [] ∧ p.todo = []) ∧
      writes l c = first :: rest ∧ rest ≠ [] ∧
      (run [(l, [c]), (l.with fresh kvs, [d])] sched).out = first :: (writes (l.with fresh kvs) d ++ rest) := by
  have hc' : ¬ c.level.num < l.min.num := by simpa [loud] using hc
  have hd' : ¬ d.level.num < l.min.num := by simpa [loud] using hd
  obtain ⟨first, rest, hw, hr⟩ : ∃ first rest, writes l c = first :: rest ∧ rest ≠ [] := by
    unfold writes
    rw [if_neg hc']
    exact ⟨_, _, rfl, by simp⟩
  refine ⟨[0, 0, 1] ++ List.replicate (writes (l.with fresh kvs) d).length 1 ++ List.replicate rest.length 0, first, rest, ?_⟩
  have hm : (l.with fresh kvs).mutex = fresh := rfl
  have hmin : (l.with fresh kvs).min = l.min := rfl
  have h1 : step (start [(l, [c]), (l.with fresh kvs, [d])]) 0 = ⟨[], [⟨l, first :: rest, []⟩, ⟨l.with fresh kvs, [], [d]⟩]⟩ := by
    simp [step, start, hc', held, hw]
  have h2 : step ⟨[], [⟨l, first :: rest, []⟩, ⟨l.with fresh kvs, [], [d]⟩]⟩ 0 =
      ⟨[first], [⟨l, rest, []⟩, ⟨l.with fresh kvs, [], [d]⟩]⟩ := by
    simp [step]
  have h3 : step ⟨[first], [⟨l, rest, []⟩, ⟨l.with fresh kvs, [], [d]⟩]⟩ 1 =
      ⟨[first], [⟨l, rest, []⟩, ⟨l.with fresh kvs, writes (l.with fresh kvs) d, []⟩]⟩ := by
    have : ¬ l.mutex = fresh := fun h => hf h.symm
    simp [step, hm, hmin, hd', held, this]
  have hrun : run [(l, [c]), (l.with fresh kvs, [d])]
      ([0, 0, 1] ++ List.replicate (writes (l.with fresh kvs) d).length 1 ++ List.replicate rest.length 0) =
      ⟨[first] ++ writes (l.with fresh kvs) d ++ rest, [⟨l, [], []⟩, ⟨l.with fresh kvs, [], []⟩]⟩ := by
    unfold run
    rw [List.foldl_append, List.foldl_append]
    simp only [List.foldl_cons, List.foldl_nil, h1, h2, h3]
    rw [drain 1 (writes (l.with fresh kvs) d) _ _ ⟨l.with fresh kvs, writes (l.with fresh kvs) d, []⟩ (by simp) rfl]
    simp only [List.set_cons_succ, List.set_cons_zero]
    rw [drain 0 rest _ _ ⟨l, rest, []⟩ (by simp) rfl]
    simp
  rw [hrun]
  refine ⟨?_, hw, hr, ?_⟩
  · intro p hp
    simp only [List.mem_cons, List.not_mem_nil, or_false] at hp
    rcases hp with rfl | rfl <;> exact ⟨rfl, rfl⟩
  · simp

example : loud (new 0 .info) ⟨.warn, "t", "a", []⟩ = true ∧ (1 : Nat) ≠ (new 0 .info).mutex := by decide

end Verif.Logger

namespace Verif.Graph
open Verif.Base Verif.Spec

/-- C102 is violated for every graph and query: when the threshold lets a node through in one search and not in another, all else being
equal, its score differs by the weighted strength of a shortest walk to it, so the node that passes scores less. -/
theorem C102_any_violated (sim : List ℚ → List ℚ → ℚ) (sort : List HResult → List HResult)
    (hs : ∀ l, SortedFrom (fun a b => b.combined ≤ a.combined) l (sort l)) (s : State) (hu : Unique s)
    (index : Option (List String)) (q : HQuery) (t : ℚ) (out out' : List HResult) (ho : hybridSearch sim sort s index q = some out)
    (ho' : hybridSearch sim sort s index { q with threshold := t } = some out') (x y : HResult) (hx : x ∈ out) (hy : y ∈ out')
    (hn : x.node = y.node) (hh : Hit sim s index q x.node) (hh' : ¬ Hit sim s index { q with threshold := t } y.node)
    (hd : x.distance ≠ none) :
    ∃ d w, Shortest s q.filter.edgeTypes q.start x.node.id d ∧ WWalk s q.filter.edgeTypes q.start d x.node.id w ∧
      y.combined = x.combined + w * (normWeights q.weights).edge := by
  obtain ⟨a1, a2, -, a4, -⟩ := C102_combined_score_partial sim sort hs s hu index q out ho x hx
  obtain ⟨b1, b2, -, -, b5⟩ := C102_combined_score_partial sim sort hs s hu index _ out' ho' y hy
  obtain ⟨d, w, h1, h2, h3⟩ := b5 hh'
  obtain ⟨d', hd'⟩ := Option.ne_none_iff_exists'.1 hd
  obtain ⟨s1, g1⟩ := a2 d' hd'
  obtain ⟨s2, g2⟩ := b2 d h1
  simp only at b1 s2 h2 h3
  rw [← hn] at s2 h2 b1
  have : d = d' := le_antisymm (s1.1.elim fun w hw => s2.2 d' w hw) (s2.1.elim fun w hw => s1.2 d w hw)
  subst this
  refine ⟨d, w, s2, h2, ?_⟩
  rw [h3, a4 hh, b1, g2, a1, g1]

/-- The pair of the witness: the node passes without a threshold and fails at 9/10. -/
example : Unique pair ∧ Hit (fun _ _ => 1 / 2) pair none (query 0) (typed "b" "") ∧
    ¬ Hit (fun _ _ => 1 / 2) pair none { query 0 with threshold := 9 / 10 } (typed "b" "") := by
  refine ⟨?_, ?_, ?_⟩
  · unfold Unique; decide +kernel
  · simp [Hit, query, TypeOk]
  · simp only [Hit, query]
    rintro ⟨-, -, -, h | h⟩ <;> norm_num at h

end Verif.Graph

namespace Verif.Facade
open Verif.Model.Store Verif.Model.Search Verif.Spec Verif.Base Verif.Thm.Search
open Verif.Thm.Store (WF payload)

variable {W HI VI : Type}

/-- C185 is violated for every store and every similarity: when as many records as are asked for are more similar to the query than the
record whose vector is the query itself, as longer vectors are by the dot product, the search for its text does not return it. -/
theorem C185_any_violated (c : Cfg W) (hsort : SortsDesc c.sort) (hts : c.textSim = none) (s : St W HI VI) (wf : WF s.db)
    (E : Embedder W) (given : Option (List W)) (text : String) (k : Int)
    (hE : E.embed text = some given) (q : List W) (hq : prepareQuery c s (given.getD []) = .ok q) (ht : text ≠ "")
    (r : Row W) (hr : r ∈ s.db.embeddings) (hv : r.vector = q) (better : List (Row W)) (hb : ∀ b ∈ better, b ∈ s.db.embeddings)
    (hnd : (better.map Row.id).Nodup) (hlen : better.length = (if k ≤ 0 then 10 else k.toNat))
    (hmore : ∀ b ∈ better, c.sim q q < c.sim q b.vector) :
    ∃ out, searchText c .linear (some E) s "" text k = .ok out ∧ ∀ h ∈ out, h.id ≠ r.id := by
  have hs : search c .linear s (given.getD []) { collection := "", topK := k, queryText := text } =
      .ok (serve c .linear s q { collection := "", topK := k, queryText := text }) := by
    unfold search; rw [hq]
  obtain ⟨q', hq', tk⟩ := C09_linear_topK c hsort s wf _ _ _ hs
  rw [hq] at hq'
  injection hq' with hq'
  subst hq'
  refine ⟨serve c .linear s q { collection := "", topK := k, queryText := text }, ?_, ?_⟩
  · unfold searchText
    simp only [ht, if_false, hE, hs]
  · generalize serve c .linear s q { collection := "", topK := k, queryText := text } = out at tk
    intro h hh hid
    obtain ⟨rest, hperm, hbest⟩ := tk.best
    have hpool := hperm.mem_iff.1 (List.mem_append_left rest hh)
    obtain ⟨r', hr', he⟩ := List.mem_map.1 hpool
    have hr'' := (List.mem_filter.1 hr').1
    have hrr : r' = r := by
      subst he
      exact List.inj_on_of_nodup_map wf.embIds hr'' hr hid
    subst hrr
    have hsc : h.score = c.sim q q := by
      rw [← he]
      simp [hitOf, combine, hts, scan, hv]
    have hin : ∀ b ∈ better, hitOf c s.db { collection := "", topK := k, queryText := text } q b ∈ out := by
      intro b hbm
      have : hitOf c s.db { collection := "", topK := k, queryText := text } q b ∈ out ++ rest := by
        refine hperm.mem_iff.2 (List.mem_map_of_mem (List.mem_filter.2 ⟨hb b hbm, ?_⟩))
        classical
        rw [decide_eq_true_eq]
        exact ⟨⟨fun h => absurd rfl h, by simp [FilterOK]⟩, fun h => absurd h (lt_irrefl _)⟩
      rcases List.mem_append.1 this with h' | h'
      · exact h'
      · exfalso
        have h1 := hbest _ h' h hh
        have h2 : (hitOf c s.db { collection := "", topK := k, queryText := text } q b).score = c.sim q b.vector := by
          simp [hitOf, combine, hts, scan]
        have h3 := hmore b hbm
        rw [h2, hsc] at h1
        exact absurd h3 (not_lt.2 h1)
    have hsub : (r'.id :: better.map Row.id) ⊆ out.map Hit.id := by
      intro i hi
      rcases List.mem_cons.1 hi with rfl | hi
      · exact List.mem_map.2 ⟨h, hh, hid⟩
      · obtain ⟨b, hbm, rfl⟩ := List.mem_map.1 hi
        exact List.mem_map.2 ⟨_, hin b hbm, rfl⟩
    have hnd' : (r'.id :: better.map Row.id).Nodup := by
      refine List.nodup_cons.2 ⟨?_, hnd⟩
      intro hm
      obtain ⟨b, hbm, hbi⟩ := List.mem_map.1 hm
      have := List.inj_on_of_nodup_map wf.embIds (hb b hbm) hr hbi
      subst this
      have := hmore b hbm
      rw [hv] at this
      exact lt_irrefl _ this
    have h1 := (List.subperm_of_subset hnd' hsub).length_le
    have h2 : out.length ≤ asked { collection := "", topK := k, queryText := text } := by
      rw [tk.size]; exact min_le_left _ _
    simp only [List.length_cons, List.length_map, asked] at h1 h2
    omega

/-- The store of the witness with the dot product: the longer vector of the other record is more similar to the query than the query itself. -/
example : ∃ r ∈ (insertText demoEnv (some demoEmbedder) exStore2 true false "short" "ab" none).1.db.embeddings,
    ∃ b ∈ (insertText demoEnv (some demoEmbedder) exStore2 true false "short" "ab" none).1.db.embeddings,
      r.id = "short" ∧ b.id = "long" ∧ (demoEmbedder.embed "ab").map (fun g => g.getD []) = some r.vector ∧
      dot r.vector r.vector < dot r.vector b.vector := by decide +kernel

end Verif.Facade

namespace Verif.Any4

/-- Fewer different things than cells leave a cell empty, wherever they are put. -/
theorem empty_cell {α : Type} (vs : List α) (distinct : List α) (hd : ∀ v ∈ vs, v ∈ distinct) (f : α → Nat) (k : Nat)
    (hk : distinct.length < k) : ∃ c < k, ∀ v ∈ vs, f v ≠ c := by
  by_contra hcon
  push Not at hcon
  have hsub : List.range k ⊆ distinct.map f := by
    intro c hc
    obtain ⟨v, hv, he⟩ := hcon c (List.mem_range.1 hc)
    exact List.mem_map.2 ⟨v, hd v hv, he⟩
  have := (List.subperm_of_subset List.nodup_range hsub).length_le
  simp only [List.length_range, List.length_map] at this
  omega

theorem none_in {α : Type} (f : α → Nat) (i : Nat) (vs : List α) (h : ∀ v ∈ vs, f v ≠ i) :
    (vs.zip (vs.map f)).filter (fun p => decide (p.2 = i)) = [] := by
  rw [List.filter_eq_nil_iff]
  induction vs with
  | nil => intro p hp; simp at hp
  | cons v vs ih =>
    intro p hp
    simp only [List.map_cons, List.zip_cons_cons, List.mem_cons] at hp
    rw [decide_eq_true_eq]
    rcases hp with rfl | hp
    · exact h v List.mem_cons_self
    · have := ih (fun w hw => h w (List.mem_cons_of_mem _ hw)) p hp
      simpa using this

end Verif.Any4

namespace Verif.PQuant
open Verif.Base
variable {F S : Type}

/-- C115 is violated whenever the training vectors take fewer different values in a subspace than there are codewords, however the first
codewords are drawn: unless training stops before the first mean is taken, one codeword ends as the zero vector. -/
theorem C115_any_zero_violated [LT S] [DecidableLT S] (E : Env F S) (hE : E.Shuffles) (v : List F) (vs : List (List F)) (k iters : Nat)
    (distinct : List (List F)) (hd : ∀ w ∈ v :: vs, w ∈ distinct) (hk : distinct.length < k) (out : List (List F))
    (h : kMeans E (v :: vs) k iters = .ok out) :
    List.replicate v.length E.zero ∈ out ∨ ∀ c ∈ out, c ∈ v :: vs := by
  have key : ∀ (t : Nat) (asg : List Nat) (cs : List (List F)), cs.length = k →
      (List.replicate v.length E.zero ∈ cs ∨ ∀ c ∈ cs, c ∈ v :: vs) →
      List.replicate v.length E.zero ∈ kLoop E v.length (v :: vs) t asg cs ∨
        ∀ c ∈ kLoop E v.length (v :: vs) t asg cs, c ∈ v :: vs := by
    intro t
    induction t with
    | zero => intro asg cs _ hp; exact hp
    | succ t ih =>
      intro asg cs hl hp
      rw [kLoop]
      split
      · exact hp
      · refine ih _ _ (by simp [hl]) (.inl ?_)
        obtain ⟨c, hc, hnone⟩ := Verif.Any4.empty_cell (v :: vs) distinct hd (fun v => nearest E v cs 0 E.far 0) k hk
        refine List.mem_map.2 ⟨c, by simp [hl, hc], ?_⟩
        unfold centroid
        simp only [Verif.Any4.none_in _ c _ hnone]
        rfl
  unfold kMeans at h
  split at h
  · cases h
  · rename_i hlen
    cases ha : allSome (fun i => (v :: vs)[i]?) ((E.perm (v :: vs).length).take k) with
    | none => simp only [ha] at h; cases h
    | some init =>
      simp only [ha] at h
      injection h with h
      rw [← h]
      refine key _ _ _ ?_ (.inr ?_)
      · rw [Verif.MultiIndex.allSome_length _ _ _ ha, List.length_take, (hE _).length_eq, List.length_range]
        omega
      · intro c hc
        obtain ⟨i, -, hi⟩ := allSome_inv _ _ _ ha c hc
        exact List.mem_of_getElem? hi

example : lineEnv.Shuffles ∧ (∀ w ∈ [[101], [100], [100], [100]], w ∈ [[101], [100]]) ∧ ([[101], [100]] : List (List Nat)).length < 3 :=
  ⟨fun n => List.Perm.refl _, by simp, by simp⟩

end Verif.PQuant

namespace Verif.Train
open Verif.Base

/-- C168 is violated whenever there are fewer different vectors than cells, however the first centres are drawn: unless training stops
before the first mean is taken, one centre ends as the zero vector. -/
theorem C168_any_zero_violated (R : Rand) (vs : List Vec) (d k n : Nat) (hk : 0 < k) (hle : k ≤ vs.length) (hv : ∀ v ∈ vs, v.length = d)
    (hR : R.Fair vs) (distinct : List Vec) (hd : ∀ w ∈ vs, w ∈ distinct) (hlt : distinct.length < k) (out : List Vec)
    (h : kMeans R vs k n = some out) : List.replicate d 0 ∈ out ∨ ∀ c ∈ out, c ∈ vs := by
  obtain ⟨cs, h1, h2, h3⟩ := kMeans_seeds R vs d k hk hle hv hR
  have key : ∀ (n : Nat) (cs : List Vec) (as : List Nat), cs.length = k → Dim d cs →
      (List.replicate d 0 ∈ cs ∨ ∀ c ∈ cs, c ∈ vs) → ∀ out, rounds d k vs n cs as = some out →
      List.replicate d 0 ∈ out ∨ ∀ c ∈ out, c ∈ vs := by
    intro n
    induction n with
    | zero =>
      intro cs as _ _ hp out ho
      cases ho
      exact hp
    | succ n ih =>
      intro cs as hl hc hp out ho
      obtain ⟨as', cs', g1, g2, g3, g4, -, -⟩ := round_spec cs vs d k hk hl hc hv
      have hcs : ∀ v ∈ vs, cell cs v = some ((cell cs v).getD 0) := by
        intro v hvm
        obtain ⟨i, c, e1, -, -⟩ := cell_spec cs v (by rintro rfl; simp at hl; omega) (by rw [hv v hvm]; exact hc)
        rw [e1]; rfl
      have hmap : as' = vs.map (fun v => (cell cs v).getD 0) := by
        rw [allSome_map (cell cs) (fun v => (cell cs v).getD 0) vs hcs] at g1
        injection g1 with g1
        exact g1.symm
      rw [rounds, g1] at ho
      simp only at ho
      split at ho
      · cases ho; exact hp
      · rw [g2] at ho
        refine ih cs' as' g3 g4 (.inl ?_) out ho
        rw [update_some d k vs as' hv] at g2
        injection g2 with g2
        rw [← g2]
        obtain ⟨c, hck, hnone⟩ := Verif.Any4.empty_cell vs distinct hd (fun v => (cell cs v).getD 0) k hlt
        refine List.mem_map.2 ⟨c, List.mem_range.2 hck, ?_⟩
        have : members vs as' c = [] := by
          unfold members
          rw [hmap, Verif.Any4.none_in _ c _ hnone]
          rfl
        rw [this, center_empty]
  exact key n cs _ h1 (fun c hc => hv c (h2 c hc)) (.inr h2) out (by rw [← h3 n]; exact h)

example : (⟨2, fun _ => 0⟩ : Rand).Fair [[5], [5], [9]] ∧ (∀ w ∈ ([[5], [5], [9]] : List Vec), w ∈ ([[5], [9]] : List Vec)) ∧
    kMeans ⟨2, fun _ => 0⟩ [[5], [5], [9]] 3 20 = some [[9], [5], [0]] :=
  ⟨⟨by decide, fun _ => by simp⟩, by simp, by decide +kernel⟩

end Verif.Train

namespace Verif.RagSearch
open Verif.Base Verif.Rag Verif.Spec

/-- C136 is violated for every collection and every graph: a chunk outside the collection (`In`) that the graph links to a hit is in the
answer whenever the linked chunks are fewer than `MaxRelatedChunks` and no budget is used up. -/
theorem C136_any_violated (L : Lib) (hL : Sorts L) (w : World) (m : Mode) (dis : Bool) (o : QueryOpts) (q : Text) (ss : List Chunk)
    (hss : ss ≠ []) (hn : (ss.map Chunk.id).Nodup) (hug : useGraph m dis (L.names q) [] = true) (r : Result)
    (hb : (ss.length : Int) + (queryDefaults o).maxRelated ≤ (queryDefaults o).maxChunks)
    (h : search L w m dis o q (some ss) = some r) (In : Text → Prop) (hin : ∀ s ∈ ss, In s.id) (s : Chunk) (n : Near) (hl : Links w ss s n)
    (hout : ¬ In n.id)
    (hfew : ∀ ids : List Text, ids.Nodup → (∀ i ∈ ids, ∃ s' n', Links w ss s' n' ∧ n'.id = i) → (ids.length : Int) < (queryDefaults o).maxRelated)
    (hroom : ∀ s' n', Links w ss s' n' → ¬ Excused (queryDefaults o) r.chunks ⟨n'.id, n'.doc, n'.content, 0, [], 0⟩) : ∃ c ∈ r.chunks, c.id = n.id ∧ ¬ In c.id := by
  have hns : n.id ∉ ss.map Chunk.id := by
    intro hm
    obtain ⟨s', h1, h2⟩ := List.mem_map.1 hm
    exact hout (h2 ▸ hin s' h1)
  rcases (C135_complete L hL w m dis o q ss hss hn hug r hb h).2 s n hl hns with h1 | ⟨n', -, ⟨s', h0⟩, h1⟩ | ⟨better, h1, h2, h3⟩
  · obtain ⟨c, h2, h3⟩ := List.mem_map.1 h1
    exact ⟨c, h2, h3, h3 ▸ hout⟩
  · exact absurd h1 (hroom s' n' h0)
  · have := hfew better h1 (fun i hi => by
      obtain ⟨-, s', n', g1, g2, -⟩ := h3 i hi
      exact ⟨s', n', g1, g2⟩)
    omega

theorem links_S (s : Chunk) (n : Near) (h : Links worldS [seedA] s n) : n = ⟨"chunk:b:000".toList, "Acme salaries".toList, "chunk".toList, []⟩ := by
  obtain ⟨h1, h2, l, h3, h4⟩ := h
  rw [List.mem_singleton] at h1
  subst h1
  have : worldS.expand seedA.id = some [⟨"entity:acme".toList, "Acme".toList, "entity".toList, []⟩,
    ⟨"chunk:b:000".toList, "Acme salaries".toList, "chunk".toList, []⟩] := by decide +kernel
  rw [this, Option.some.injEq] at h3
  subst h3
  simp only [List.mem_cons, List.not_mem_nil, or_false] at h4
  rcases h4 with rfl | rfl
  · exact absurd h2 (by decide)
  · rfl

/-- The stored graph of the witness meets the premises: one linked chunk, of another document, and room for it. -/
example : (∀ ids : List Text, ids.Nodup → (∀ i ∈ ids, ∃ s' n', Links worldS [seedA] s' n' ∧ n'.id = i) →
      (ids.length : Int) < (queryDefaults opts0).maxRelated) ∧
    ∀ r, search lib0 worldS .auto false opts0 "Acme".toList (some [seedA]) = some r → ∀ s' n', Links worldS [seedA] s' n' →
      ¬ Excused (queryDefaults opts0) r.chunks ⟨n'.id, n'.doc, n'.content, 0, [], 0⟩ := by
  constructor
  · intro ids hnd h
    have hsub : ids ⊆ ["chunk:b:000".toList] := by
      intro i hi
      obtain ⟨s', n', h1, rfl⟩ := h i hi
      rw [links_S s' n' h1]
      exact List.mem_singleton_self _
    have h1 := (List.subperm_of_subset hnd hsub).length_le
    have h2 : (1 : Int) < (queryDefaults opts0).maxRelated := by decide +kernel
    simp only [List.length_singleton] at h1
    omega
  · intro r hr s' n' h
    rw [links_S s' n' h]
    have : ∀ r ∈ search lib0 worldS .auto false opts0 "Acme".toList (some [seedA]),
        ¬ ((r.chunks.length : Int) = (queryDefaults opts0).maxChunks) ∧
        ¬ (((room r.chunks + lineLen ⟨"chunk:b:000".toList, [], "Acme salaries".toList, 0, [], 0⟩ : Nat) : Int) > (queryDefaults opts0).maxChars) := by
      decide +kernel
    rintro (h1 | h1 | h1)
    · exact (this r hr).1 h1
    · exact h1.1 rfl
    · exact (this r hr).2 h1

end Verif.RagSearch
