import Verif.Thm.Retry
import Verif.Thm.GraphMaps

/-!
# C245: writes under different ids can be made in any order
-/

namespace Verif.Thm.Retry
open Verif.Model.Store Verif.Thm.Store
open Verif.Facade (upsert_dim)

variable {W HI VI : Type}

/-- The calls that write or delete one record, with the record's id. -/
def key : Op W HI VI → Option String
  | .upsert _ _ e => some e.id
  | .delete _ id => some id
  | _ => none

/-- Two stores that no lookup, collection or document listing tells apart. -/
structure Alike (s t : St W HI VI) : Prop where
  closed : s.closed = t.closed
  dim : s.dim = t.dim
  collections : s.db.collections = t.db.collections
  documents : s.db.documents = t.db.documents
  shown : ∀ id, payload s id = payload t id

theorem Alike.trans {s t u : St W HI VI} (h : Alike s t) (g : Alike t u) : Alike s u :=
  ⟨h.closed.trans g.closed, h.dim.trans g.dim, h.collections.trans g.collections, h.documents.trans g.documents,
    fun id => (h.shown id).trans (g.shown id)⟩

theorem upsert_dim_any (env : Env W HI VI) (s : St W HI VI) (fk f : Bool) (e : Emb W) (h0 : s.dim ≠ 0) :
    (upsert env s fk f e).1.dim = s.dim := by
  unfold upsert
  simp only [if_neg h0]
  split
  · rfl
  split
  · rfl
  split
  · rfl
  split
  · rfl
  split <;> rfl

/-- What a single call keeps. -/
theorem single_keeps (env : Env W HI VI) (s : St W HI VI) (op : Op W HI VI) (k : String) (hk : key op = some k) (h0 : s.dim ≠ 0) :
    (step env s op).1.closed = s.closed ∧ (step env s op).1.dim = s.dim ∧
    (step env s op).1.db.collections = s.db.collections ∧ (step env s op).1.db.documents = s.db.documents := by
  cases op with
  | upsert fk f e =>
    have h := upsert_keeps env s fk f e
    exact ⟨h.1, upsert_dim_any env s fk f e h0, h.2.1, h.2.2⟩
  | delete f id =>
    simp only [step, delete]
    split
    · simp
    split
    · simp
    split
    · simp
    split <;> simp
  | _ => cases hk

theorem any_payload (s : St W HI VI) (id : String) : s.db.embeddings.any (fun r => decide (r.id = id)) = (payload s id).isSome := by
  rw [payload_eq, Option.isSome_map, find, List.isSome_find?]

theorem single_other (env : Env W HI VI) (s : St W HI VI) (wf : WF s.db) (op : Op W HI VI) (k : String) (hk : key op = some k) (id : String)
    (hid : id ≠ k) : payload (step env s op).1 id = payload s id := by
  rcases (step_cases env s wf op id).2 with ⟨p, hw, _⟩ | ⟨_, h⟩ | ⟨_, _, r, _, ha⟩
  · cases op with
    | upsert fk f e => exact absurd (hw.2.1.symm.trans (Option.some.inj hk)) hid
    | delete f i => exact hw.2.elim
    | _ => cases hk
  · exact h
  · cases op with
    | upsert fk f e => exact ha.elim
    | delete f i => exact absurd (ha.symm.trans (Option.some.inj hk)) hid
    | _ => cases hk

/-- The effect of a single call on its own id, and its answer, depend only on that id's record and on what single calls keep. -/
theorem single_same (env : Env W HI VI) (s t : St W HI VI) (ws : WF s.db) (wt : WF t.db) (op : Op W HI VI) (k : String)
    (hk : key op = some k) (h0 : s.dim ≠ 0) (hc : s.closed = t.closed) (hd : s.dim = t.dim)
    (hl : s.db.collections = t.db.collections) (hdoc : s.db.documents = t.db.documents) (hp : payload s k = payload t k) :
    (step env s op).2 = (step env t op).2 ∧ payload (step env s op).1 k = payload (step env t op).1 k := by
  cases op with
  | upsert fk f e =>
    have hek : e.id = k := Option.some.inj hk
    have hans : (step env s (.upsert fk f e)).2 = (step env t (.upsert fk f e)).2 := by
      refine upsert_answer env t s fk f e hc ?_ hl hdoc
      unfold needDim; rw [hd]
    refine ⟨hans, ?_⟩
    have hwr : ∀ p, Writes env s (.upsert fk f e) k p ↔ Writes env t (.upsert fk f e) k p := by
      intro p
      unfold Writes
      rw [hans, hd]
    rcases (step_cases env s ws (.upsert fk f e) k).2 with ⟨p, hw, hpp⟩ | ⟨hn, hpp⟩ | ⟨_, _, r, _, ha⟩
    · rcases (step_cases env t wt (.upsert fk f e) k).2 with ⟨p', hw', hpp'⟩ | ⟨hn', _⟩ | ⟨_, _, r, _, ha⟩
      · rw [hpp, hpp']
        have hw2 := (hwr p).1 hw
        obtain ⟨_, _, v, hv, hcv⟩ := hw2
        obtain ⟨_, _, v', hv', hcv'⟩ := hw'
        have : v = v' := by
          split at hcv
          · rename_i h; rw [if_pos h] at hcv'; rw [hcv] at hcv'; exact Option.some.inj hcv'
          · rename_i h; rw [if_neg h] at hcv'; rw [hcv] at hcv'; exact Option.some.inj hcv'
        rw [hv, hv', this]
      · exact absurd ⟨p, (hwr p).1 hw⟩ hn'
      · exact ha.elim
    · rcases (step_cases env t wt (.upsert fk f e) k).2 with ⟨p', hw', hpp'⟩ | ⟨hn', hpp'⟩ | ⟨_, _, r, _, ha⟩
      · exact absurd ⟨p', (hwr p').2 hw'⟩ hn
      · rw [hpp, hpp', hp]
      · exact ha.elim
    · exact ha.elim
  | delete f i =>
    have hik : i = k := Option.some.inj hk
    subst hik
    have hany : s.db.embeddings.any (fun r => decide (r.id = i)) = t.db.embeddings.any (fun r => decide (r.id = i)) := by
      rw [any_payload, any_payload, hp]
    have hgone : ∀ u : St W HI VI, payload { u with db := { u.db with embeddings := u.db.embeddings.filter (fun r => r.id ≠ i) } } i = none := by
      intro u
      rw [payload_eq, Option.map_eq_none_iff, find, List.find?_eq_none]
      intro x hx
      simp only [List.mem_filter] at hx
      simpa using hx.2
    simp only [step, delete, hany, hc]
    split
    · exact ⟨rfl, hp⟩
    split
    · exact ⟨rfl, hp⟩
    split
    · exact ⟨rfl, hp⟩
    split
    · refine ⟨rfl, ?_⟩
      refine Eq.trans ?_ (Eq.trans (hgone s) (Eq.trans (hgone t).symm ?_))
      · simp only [payload_eq]
      · simp only [payload_eq]
    · exact ⟨rfl, hp⟩
  | _ => cases hk

theorem alike_step (env : Env W HI VI) (s t : St W HI VI) (ws : WF s.db) (wt : WF t.db) (op : Op W HI VI) (k : String)
    (hk : key op = some k) (h0 : s.dim ≠ 0) (h : Alike s t) : Alike (step env s op).1 (step env t op).1 := by
  have hs := single_keeps env s op k hk h0
  have ht := single_keeps env t op k hk (h.dim ▸ h0)
  refine ⟨by rw [hs.1, ht.1, h.closed], by rw [hs.2.1, ht.2.1, h.dim], by rw [hs.2.2.1, ht.2.2.1, h.collections],
    by rw [hs.2.2.2, ht.2.2.2, h.documents], fun id => ?_⟩
  by_cases hid : id = k
  · subst hid
    exact (single_same env s t ws wt op _ hk h0 h.closed h.dim h.collections h.documents (h.shown _)).2
  · rw [single_other env s ws op k hk id hid, single_other env t wt op k hk id hid, h.shown]

theorem alike_swap (env : Env W HI VI) (s : St W HI VI) (ws : WF s.db) (a b : Op W HI VI) (i j : String)
    (ha : key a = some i) (hb : key b = some j) (hij : i ≠ j) (h0 : s.dim ≠ 0) :
    Alike (step env (step env s a).1 b).1 (step env (step env s b).1 a).1 := by
  have wa := (step_cases env s ws a "").1
  have wb := (step_cases env s ws b "").1
  have ka := single_keeps env s a i ha h0
  have kb := single_keeps env s b j hb h0
  have kab := single_keeps env _ b j hb (by rw [ka.2.1]; exact h0)
  have kba := single_keeps env _ a i ha (by rw [kb.2.1]; exact h0)
  refine ⟨by rw [kab.1, ka.1, kba.1, kb.1], by rw [kab.2.1, ka.2.1, kba.2.1, kb.2.1],
    by rw [kab.2.2.1, ka.2.2.1, kba.2.2.1, kb.2.2.1], by rw [kab.2.2.2, ka.2.2.2, kba.2.2.2, kb.2.2.2], fun id => ?_⟩
  by_cases hi : id = i
  · subst hi
    rw [single_other env _ wa b j hb id hij]
    refine (single_same env s _ ws wb a id ha h0 kb.1.symm kb.2.1.symm kb.2.2.1.symm kb.2.2.2.symm ?_).2
    rw [single_other env s ws b j hb id hij]
  · rw [single_other env _ wb a i ha id hi]
    by_cases hj : id = j
    · subst hj
      refine ((single_same env s _ ws wa b id hb h0 ka.1.symm ka.2.1.symm ka.2.2.1.symm ka.2.2.2.symm ?_).2).symm
      rw [single_other env s ws a i ha id hi]
    · rw [single_other env _ wa b j hb id hj, single_other env s ws a i ha id hi, single_other env s ws b j hb id hj]

theorem run_cons (env : Env W HI VI) (s : St W HI VI) (op : Op W HI VI) (l : List (Op W HI VI)) :
    run env s (op :: l) = run env (step env s op).1 l := rfl

/-- **C245**: in a store with a dimension, writes and deletions of records with pairwise different ids leave the same records
in whatever order they are made. -/
theorem C245_store_partial (env : Env W HI VI) {l l' : List (Op W HI VI)} (hp : l.Perm l') :
    ∀ (s : St W HI VI), WF s.db → s.dim ≠ 0 → (∀ op ∈ l, (key op).isSome) → (l.map key).Nodup →
      ∀ id, payload (run env s l) id = payload (run env s l') id := by
  have dims : ∀ (l : List (Op W HI VI)) (s : St W HI VI), s.dim ≠ 0 → (∀ op ∈ l, (key op).isSome) → (run env s l).dim ≠ 0 := by
    intro l
    induction l with
    | nil => exact fun s h _ => h
    | cons op l ih =>
      intro s h hk
      obtain ⟨k, hkk⟩ := Option.isSome_iff_exists.1 (hk op (by simp))
      rw [run_cons]
      exact ih _ (by rw [(single_keeps env s op k hkk h).2.1]; exact h) fun o ho => hk o (List.mem_cons_of_mem _ ho)
  have pres : ∀ (l : List (Op W HI VI)) (s t : St W HI VI), WF s.db → WF t.db → s.dim ≠ 0 → (∀ op ∈ l, (key op).isSome) →
      Alike s t → Alike (run env s l) (run env t l) := by
    intro l
    induction l with
    | nil => exact fun s t _ _ _ _ h => h
    | cons op l ih =>
      intro s t ws wt h hk ha
      obtain ⟨k, hkk⟩ := Option.isSome_iff_exists.1 (hk op (by simp))
      rw [run_cons, run_cons]
      exact ih _ _ (step_cases env s ws op "").1 (step_cases env t wt op "").1
        (by rw [(single_keeps env s op k hkk h).2.1]; exact h) (fun o ho => hk o (List.mem_cons_of_mem _ ho))
        (alike_step env s t ws wt op k hkk h ha)
  suffices H : ∀ (s : St W HI VI), WF s.db → s.dim ≠ 0 → (∀ op ∈ l, (key op).isSome) → (l.map key).Nodup →
      Alike (run env s l) (run env s l') from fun s ws h hk hn id => (H s ws h hk hn).shown id
  induction hp with
  | nil => exact fun s _ _ _ _ => ⟨rfl, rfl, rfl, rfl, fun _ => rfl⟩
  | cons x _ ih =>
    intro s ws h hk hn
    obtain ⟨k, hkk⟩ := Option.isSome_iff_exists.1 (hk x (by simp))
    rw [run_cons, run_cons]
    rw [List.map_cons, List.nodup_cons] at hn
    exact ih _ (step_cases env s ws x "").1 (by rw [(single_keeps env s x k hkk h).2.1]; exact h)
      (fun o ho => hk o (List.mem_cons_of_mem _ ho)) hn.2
  | swap x y l =>
    intro s ws h hk hn
    obtain ⟨i, hi⟩ := Option.isSome_iff_exists.1 (hk y (by simp))
    obtain ⟨j, hj⟩ := Option.isSome_iff_exists.1 (hk x (by simp))
    have hij : i ≠ j := by
      rintro rfl
      simp [hi, hj] at hn
    simp only [run_cons]
    have w1 := (step_cases env _ (step_cases env s ws y "").1 x "").1
    have w2 := (step_cases env _ (step_cases env s ws x "").1 y "").1
    refine pres l _ _ w1 w2 ?_ (fun o ho => hk o (by simp [ho])) (alike_swap env s ws y x i j hi hj hij h)
    have hy := single_keeps env s y i hi h
    rw [(single_keeps env _ x j hj (by rw [hy.2.1]; exact h)).2.1, hy.2.1]
    exact h
  | trans h1 h2 ih1 ih2 =>
    intro s ws h hk hn
    exact (ih1 s ws h hk hn).trans (ih2 s ws h (fun o ho => hk o (h1.mem_iff.2 ho)) ((h1.map key).nodup_iff.1 hn))

/-- **C245** needs the dimension: in a store that has none yet, of two records with vectors of different lengths the one
written first decides the length both are stored with. -/
theorem C245_first_violated (env : Env W HI VI) (s : St W HI VI) (wf : WF s.db) (h0 : s.dim = 0)
    (hlen : ∀ v a b w, env.adapt v a b = some w → w.length = b) (fk f : Bool) (a b : Emb W) (va vb : List W)
    (hab : a.id ≠ b.id) (hva : a.vector = some va) (hvb : b.vector = some vb) (hne : va.length ≠ vb.length) (hbl : vb ≠ [])
    (h1 : (step env s (.upsert fk f a)).2 = .ok) (h2 : (step env s (.upsert fk f b)).2 = .ok)
    (h3 : (step env (step env s (.upsert fk f b)).1 (.upsert fk f a)).2 = .ok) :
    (payload (run env s [.upsert fk f a, .upsert fk f b]) a.id).map (fun p => p.vector.length) = some va.length ∧
    (payload (run env s [.upsert fk f b, .upsert fk f a]) a.id).map (fun p => p.vector.length) = some vb.length := by
  have wa := (step_cases env s wf (.upsert fk f a) "").1
  have wb := (step_cases env s wf (.upsert fk f b) "").1
  show (payload (step env (step env s (.upsert fk f a)).1 (.upsert fk f b)).1 a.id).map _ = _ ∧
    (payload (step env (step env s (.upsert fk f b)).1 (.upsert fk f a)).1 a.id).map _ = _
  refine ⟨?_, ?_⟩
  · rw [single_other env _ wa (.upsert fk f b) b.id rfl a.id hab]
    rcases (step_cases env s wf (.upsert fk f a) a.id).2 with ⟨p, ⟨_, _, v, hv, hc⟩, hp⟩ | ⟨hn, _⟩ | ⟨_, _, r, _, ha⟩
    · rw [if_pos (.inl h0), hva] at hc
      cases hc
      rw [hp, hv]; rfl
    · exact absurd ⟨written a va, h1, rfl, va, rfl, by rw [if_pos (.inl h0)]; exact hva⟩ hn
    · exact ha.elim
  · have hd : (step env s (.upsert fk f b)).1.dim = vb.length := by
      have := (upsert_dim env s fk f b h2).1
      rw [if_pos h0, hvb] at this
      exact this
    have hb0 : vb.length ≠ 0 := fun h => hbl (List.length_eq_zero_iff.1 h)
    have hcond : ¬ ((step env s (.upsert fk f b)).1.dim = 0 ∨ (step env s (.upsert fk f b)).1.dim = (a.vector.getD []).length) := by
      rw [hd, hva]
      rintro (h | h)
      · exact hb0 h
      · exact hne h.symm
    rcases (step_cases env _ wb (.upsert fk f a) a.id).2 with ⟨p, ⟨_, _, v, hv, hc⟩, hp⟩ | ⟨hn, _⟩ | ⟨_, _, r, _, ha⟩
    · rw [if_neg hcond] at hc
      rw [hp, hv]
      simp only [Option.map_some, written, Option.some.injEq]
      rw [hlen _ _ _ _ hc, hd]
    · exfalso
      have h3' := h3
      change (upsert env _ fk f a).2 = .ok at h3'
      unfold upsert at h3'
      split at h3'
      · cases h3'
      simp only [show (step env s (.upsert fk f b)).1.dim ≠ 0 from fun h => hcond (.inl h), if_false] at h3'
      rw [if_pos (fun h => hcond (.inr h.symm))] at h3'
      split at h3'
      · cases h3'
      · rename_i v hv
        rw [Option.map_eq_some_iff] at hv
        obtain ⟨w, hw, _⟩ := hv
        exact hn ⟨written a w, h3, rfl, w, rfl, by rw [if_neg hcond]; exact hw⟩
    · exact ha.elim

open Verif.Thm.StoreProps in
example : ([Op.upsert true false embA, .upsert true false embB, .delete false "c"] : List (Op Nat Unit Unit)).Perm
      [.delete false "c", .upsert true false embB, .upsert true false embA] ∧ WF store0.db ∧ store0.dim ≠ 0 ∧
    (([Op.upsert true false embA, .upsert true false embB, .delete false "c"] : List (Op Nat Unit Unit)).map key).Nodup :=
  ⟨(List.reverse_perm [Op.delete false "c", .upsert true false embB, .upsert true false embA]), init_wf _ _ _, by decide, by decide⟩

/-- A store that pads or cuts vectors. -/
def envFit : Env Nat Unit Unit :=
  { adapt := fun v _ b => some (v.take b ++ List.replicate (b - v.length) 0), hInsert := fun h _ _ => h, hDelete := fun h _ => h,
    vAdd := fun v _ _ => v, vDelete := fun v _ => v, vTrained := fun _ => false }

example : (∀ v a b w, envFit.adapt v a b = some w → w.length = b) ∧
    (step envFit (init 0 none none) (.upsert true false { id := "a", vector := some [1, 2], content := "" })).2 = .ok ∧
    (step envFit (init 0 none none) (.upsert true false { id := "b", vector := some [3], content := "" })).2 = .ok ∧
    (step envFit (step envFit (init 0 none none) (.upsert true false { id := "b", vector := some [3], content := "" })).1
      (.upsert true false { id := "a", vector := some [1, 2], content := "" })).2 = .ok := by
  refine ⟨fun v a b w h => ?_, by decide, by decide, by decide⟩
  simp only [envFit, Option.some.injEq] at h
  subst h
  simp only [List.length_append, List.length_take, List.length_replicate]
  omega

end Verif.Thm.Retry

namespace Verif.Graph

theorem run_writes (ops l : List Op) : Maps.after (ops ++ l) = (l.flatMap Op.writes).foldl Maps.apply (Maps.after ops) := by
  unfold Maps.after
  rw [List.flatMap_append, List.foldl_append]

/-- An edge write is accepted. -/
def Takes (nd : String → Option Node) (fk : Bool) (e : Edge) : Prop :=
  ¬ (e.id = "" ∨ e.src = "" ∨ e.dst = "") ∧ ¬ (fk = true ∧ (nd e.src = none ∨ nd e.dst = none))

open Classical in
theorem apply_edge (m : Maps) (fk : Bool) (e : Edge) : m.apply (.edge fk e) =
    ⟨m.node, fun i => if i = e.id ∧ Takes m.node fk e then some { e with weight := if e.weight = 0 then 1 else e.weight } else m.edge i⟩ := by
  unfold Takes
  simp only [Maps.apply]
  by_cases h1 : e.id = "" ∨ e.src = "" ∨ e.dst = ""
  · simp [h1]
  · by_cases h2 : fk = true ∧ (m.node e.src = none ∨ m.node e.dst = none)
    · simp [h1, h2]
    · simp only [h1, h2, if_false, not_false_eq_true, and_true]

/-- **C245**: nodes with pairwise different ids, or edges with pairwise different ids, can be written in any order. -/
theorem C245_graph (ops : List Op) :
    (∀ {ns ns' : List Node}, ns.Perm ns' → (ns.map Node.id).Nodup →
      (∀ i, getNode (run (ops ++ ns.map fun n => .upsertNode (some n))) i = getNode (run (ops ++ ns'.map fun n => .upsertNode (some n))) i) ∧
      ∀ i, edgeById (run (ops ++ ns.map fun n => .upsertNode (some n))) i = edgeById (run (ops ++ ns'.map fun n => .upsertNode (some n))) i) ∧
    ∀ (fk : Bool) {es es' : List Edge}, es.Perm es' → (es.map Edge.id).Nodup →
      (∀ i, getNode (run (ops ++ es.map fun e => .upsertEdge fk (some e))) i = getNode (run (ops ++ es'.map fun e => .upsertEdge fk (some e))) i) ∧
      ∀ i, edgeById (run (ops ++ es.map fun e => .upsertEdge fk (some e))) i = edgeById (run (ops ++ es'.map fun e => .upsertEdge fk (some e))) i := by
  have hinj : ∀ {α : Type} (f : α → String) {l : List α}, (l.map f).Nodup → ∀ x ∈ l, ∀ y ∈ l, f x = f y → x = y := by
    intro α f l h x hx y hy hxy
    exact List.inj_on_of_nodup_map h hx hy hxy
  refine ⟨fun {ns ns'} hp hn => ?_, fun fk {es es'} hp hn => ?_⟩
  · have h : Maps.after (ops ++ ns.map fun n => .upsertNode (some n)) = Maps.after (ops ++ ns'.map fun n => .upsertNode (some n)) := by
      rw [run_writes, run_writes]
      have hw : ∀ l : List Node, (l.map fun n => Op.upsertNode (some n)).flatMap Op.writes = l.map Write.node := by
        intro l; rw [List.flatMap_map]; induction l with
        | nil => rfl
        | cons x l ih => rw [List.flatMap_cons, ih]; rfl
      rw [hw, hw, List.foldl_map, List.foldl_map]
      refine hp.foldl_eq' (fun x hx y hy m => ?_) _
      by_cases hxy : x.id = y.id
      · rw [hinj Node.id hn x hx y hy hxy]
      · simp only [Maps.apply]
        split <;> split <;> try rfl
        simp only [Maps.mk.injEq, and_true]
        funext i
        by_cases h1 : i = x.id
        · have : i ≠ y.id := fun h => hxy (h1 ▸ h)
          simp [h1, hxy]
        · by_cases h2 : i = y.id
          · simp [h2, Ne.symm hxy]
          · simp [h1, h2]
    exact ⟨fun i => by rw [(C228_maps _).1, (C228_maps _).1, h], fun i => by rw [(C228_maps _).2.1, (C228_maps _).2.1, h]⟩
  · have h : Maps.after (ops ++ es.map fun e => .upsertEdge fk (some e)) = Maps.after (ops ++ es'.map fun e => .upsertEdge fk (some e)) := by
      rw [run_writes, run_writes]
      have hw : ∀ l : List Edge, (l.map fun e => Op.upsertEdge fk (some e)).flatMap Op.writes = l.map (Write.edge fk) := by
        intro l; rw [List.flatMap_map]; induction l with
        | nil => rfl
        | cons x l ih => rw [List.flatMap_cons, ih]; rfl
      rw [hw, hw, List.foldl_map, List.foldl_map]
      refine hp.foldl_eq' (fun x hx y hy m => ?_) _
      by_cases hxy : x.id = y.id
      · rw [hinj Edge.id hn x hx y hy hxy]
      · rw [apply_edge, apply_edge, apply_edge, apply_edge]
        simp only [Maps.mk.injEq, true_and]
        funext i
        by_cases h1 : i = x.id
        · simp [h1, hxy]
        · simp [h1]
    exact ⟨fun i => by rw [(C228_maps _).1, (C228_maps _).1, h], fun i => by rw [(C228_maps _).2.1, (C228_maps _).2.1, h]⟩

/-- **C245** does not reach across nodes and edges: on an enforcing connection an edge written before one of its nodes is
refused and is missing for good, written after it is there. -/
theorem C245_edge_first_violated (ops : List Op) (n : Node) (e : Edge) (hn : n.id ≠ "") (hv : n.vec ≠ []) (he : e.id ≠ "")
    (hsrc : e.src = n.id) (hdst : e.dst = n.id) (hmiss : getNode (run ops) n.id = none) :
    edgeById (run (ops ++ [.upsertEdge true (some e), .upsertNode (some n)])) e.id = edgeById (run ops) e.id ∧
    edgeById (run (ops ++ [.upsertNode (some n), .upsertEdge true (some e)])) e.id ≠ none := by
  rw [(C228_maps _).2.1, (C228_maps _).2.1, (C228_maps _).2.1, run_writes, run_writes]
  rw [(C228_maps _).1] at hmiss
  simp [Op.writes, Maps.apply, hn, hv, he, hsrc, hdst, hmiss]

example : ([⟨"a", [1], "x", "t", ""⟩, ⟨"b", [1], "y", "t", ""⟩] : List Node).Perm [⟨"b", [1], "y", "t", ""⟩, ⟨"a", [1], "x", "t", ""⟩] ∧
    (([⟨"a", [1], "x", "t", ""⟩, ⟨"b", [1], "y", "t", ""⟩] : List Node).map Node.id).Nodup :=
  ⟨List.Perm.swap _ _ _, by decide⟩

end Verif.Graph
