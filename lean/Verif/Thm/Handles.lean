import Verif.Model.Handles
import Verif.Thm.StoreProps
import Verif.Thm.StoreProps2
import Verif.Thm.Recover

/-!
# Several stores opened on one file (C236, C237)
-/

namespace Verif.Handles

open Verif.Model.Store Verif.Thm.Store Verif.Thm.StoreProps

variable {W HI VI : Type}

theorem run_snoc (env : Env W HI VI) (s : Sys W HI VI) (evs : List (Nat × Op W HI VI)) (e : Nat × Op W HI VI) :
    run env s (evs ++ [e]) = (step env (run env s evs) e.1 e.2).1 := by
  simp [run, List.foldl_append]

theorem view_self (env : Env W HI VI) (s : Sys W HI VI) (i : Nat) (op : Op W HI VI) :
    view (step env s i op).1 i = (Verif.Model.Store.step env (view s i) op).1 := by
  simp [view, step]

theorem payload_view (s : Sys W HI VI) (i j : Nat) (id : String) : payload (view s i) id = payload (view s j) id := by
  rw [payload_eq, payload_eq]; rfl

theorem lookup_payload {s : St W HI VI} {id : String} {r : Rec W} (h : lookup s id = some r) : payload s id = some (recPayload r) := by
  simp [payload, h]

theorem run_wf (env : Env W HI VI) (evs : List (Nat × Op W HI VI)) : WF (run env (init (W := W)) evs).db := by
  induction evs using List.reverseRecOn with
  | nil => exact ⟨by simp [run, init], by simp [run, init], by simp [run, init], by simp [run, init], by simp [run, init], by simp [run, init], by simp [run, init]⟩
  | append_singleton evs e ih =>
    rw [run_snoc]
    exact (step_cases env (view (run env init evs) e.1) ih e.2 "").1

theorem Writes_unique {env : Env W HI VI} {s : St W HI VI} {op : Op W HI VI} {id : String} {p' p : Payload W}
    (hw' : Writes env s op id p') (hw : Writes env s op id p) : p' = p := by
  obtain ⟨_, hm'⟩ := hw'
  obtain ⟨_, hm⟩ := hw
  cases op <;> simp only at hm hm'
  · obtain ⟨_, v', rfl, hv'⟩ := hm'
    obtain ⟨_, v, rfl, hv⟩ := hm
    split at hv <;> rename_i hc
    · rw [if_pos hc] at hv'
      rw [hv] at hv'; injection hv' with hv'; rw [hv']
    · rw [if_neg hc] at hv'
      rw [hv] at hv'; injection hv' with hv'; rw [hv']
  · rename_i fk f es
    obtain ⟨p1, e1, q1, v1, a1, b1, c1, d1, rfl⟩ := hm'
    obtain ⟨p2, e2, q2, v2, a2, b2, c2, d2, rfl⟩ := hm
    have : e1 = e2 := by
      have e := a1.symm.trans a2
      rcases List.append_eq_append_iff.1 e with ⟨as, h1, h2⟩ | ⟨as, h1, h2⟩
      · cases as with
        | nil => simp at h2; exact h2.1
        | cons x xs =>
          simp only [List.cons_append, List.cons.injEq] at h2
          exact absurd b2 (c1 e2 (by rw [h2.2]; simp))
      · cases as with
        | nil => simp at h2; exact h2.1.symm
        | cons x xs =>
          simp only [List.cons_append, List.cons.injEq] at h2
          exact absurd b1 (c2 e1 (by rw [h2.2]; simp))
    subst this
    rw [d1] at d2; injection d2 with d2; rw [d2]

/-- **C236, reading.** A record that one handle wrote is read, as it was written, by every open handle, as long as no handle writes that
id again or asks for the removal of the record. -/
theorem C236_read (env : Env W HI VI) (pre post : List (Nat × Op W HI VI)) (i : Nat) (op : Op W HI VI) (id : String) (p : Payload W)
    (hw : Writes env (view (run env init pre) i) op id p)
    (hlater : ∀ mid k op' rest, post = mid ++ (k, op') :: rest →
      (¬ ∃ p', Writes env (view (run env init (pre ++ (i, op) :: mid)) k) op' id p') ∧
      ∀ r, lookup (view (run env init (pre ++ (i, op) :: mid)) k) id = some r → ¬ AsksRemoval op' id r)
    (j : Nat) (hopen : ((run env init (pre ++ (i, op) :: post)).loc j).closed = false) :
    ∃ r, getByID (view (run env init (pre ++ (i, op) :: post)) j) id = .ok r ∧ recPayload r = p := by
  have key : ∀ j, payload (view (run env init (pre ++ (i, op) :: post)) j) id = some p := by
    clear hopen j
    induction post using List.reverseRecOn with
    | nil =>
      intro j
      rw [run_snoc, payload_view _ j i, view_self]
      -- a store of one handle in the same state
      rcases (step_cases env (view (run env init pre) i) (run_wf env pre) op id).2 with ⟨p', hw', hp'⟩ | ⟨hnw, _⟩ | ⟨hnw, _⟩
      · rw [hp']
        exact congrArg some (Writes_unique hw' hw)
      · exact absurd ⟨p, hw⟩ hnw
      · exact absurd ⟨p, hw⟩ hnw
    | append_singleton post e ih =>
      intro j
      obtain ⟨k, op1⟩ := e
      have ih' := ih (fun mid k' op' rest hp => hlater mid k' op' (rest ++ [(k, op1)]) (by rw [hp]; simp)) k
      have hl := hlater post k op1 [] rfl
      have e : pre ++ (i, op) :: (post ++ [(k, op1)]) = (pre ++ (i, op) :: post) ++ [(k, op1)] := by simp
      rw [e, run_snoc, payload_view _ j k, view_self]
      rcases (step_cases env (view (run env init (pre ++ (i, op) :: post)) k) (run_wf env (pre ++ (i, op) :: post)) op1 id).2 with
        ⟨p', hw', _⟩ | ⟨_, heq⟩ | ⟨_, _, r, hr, hask⟩
      · exact absurd ⟨p', hw'⟩ hl.1
      · rw [heq]; exact ih'
      · exact absurd hask (hl.2 r hr)
  have key := key j
  unfold payload at key
  rw [Option.map_eq_some_iff] at key
  obtain ⟨r, hr, hp⟩ := key
  exact ⟨r, (getByID_payload _ hopen id r).2 hr, hp⟩

/-- **C236, soundness.** What any handle reads under an id is what some handle wrote there last. -/
theorem C236_last_write (env : Env W HI VI) (evs : List (Nat × Op W HI VI)) (j : Nat) (id : String) (r : Rec W)
    (hget : getByID (view (run env init evs) j) id = .ok r) :
    ∃ pre i op post, evs = pre ++ (i, op) :: post ∧ Writes env (view (run env init pre) i) op id (recPayload r) ∧
      ∀ mid k op' rest, post = mid ++ (k, op') :: rest →
        ¬ ∃ p, Writes env (view (run env init (pre ++ (i, op) :: mid)) k) op' id p := by
  have hopen : (view (run env init evs) j).closed = false := by
    unfold getByID at hget
    split at hget
    · cases hget
    · rename_i hc; simpa using hc
  have hp := lookup_payload ((getByID_payload _ hopen id r).1 hget)
  clear hget hopen
  generalize recPayload r = p at hp
  induction evs using List.reverseRecOn generalizing j with
  | nil =>
    rw [payload_eq] at hp
    simp [run, init, view, find] at hp
  | append_singleton evs e ih =>
    obtain ⟨i, op⟩ := e
    rw [run_snoc, payload_view _ j i, view_self] at hp
    rcases (step_cases env (view (run env init evs) i) (run_wf env evs) op id).2 with ⟨p', hw, hp'⟩ | ⟨hnw, heq⟩ | ⟨_, hnone, _⟩
    · rw [hp'] at hp
      injection hp with hp
      subst hp
      refine ⟨evs, i, op, [], by simp, hw, ?_⟩
      intro mid k op' rest hpost; simp at hpost
    · rw [heq] at hp
      obtain ⟨pre, i0, op0, post, he, hw, hlast⟩ := ih i hp
      refine ⟨pre, i0, op0, post ++ [(i, op)], by simp [he], hw, ?_⟩
      intro mid k op' rest hpost
      rcases List.eq_nil_or_concat rest with rfl | ⟨q, x, rfl⟩
      · have := List.append_inj' (s₁ := post) (t₁ := [(i, op)]) (s₂ := mid) (t₂ := [(k, op')]) hpost rfl
        simp only [List.cons.injEq, Prod.mk.injEq, and_true] at this
        obtain ⟨rfl, rfl, rfl⟩ := this
        rw [he] at hnw
        exact hnw
      · have : post = mid ++ (k, op') :: q := by
          have := List.append_inj' (s₁ := post) (t₁ := [(i, op)]) (s₂ := mid ++ (k, op') :: q) (t₂ := [x]) (by rw [hpost]; simp) rfl
          exact this.1
        exact hlast mid k op' q this
    · rw [hnone] at hp; cases hp

/-- **C236, violated for the dimension.** Two handles that are to find the dimension out by themselves are opened on a new file. Whatever
non-empty vectors are then written first through each, and whatever the policy, the file holds both as they are. -/
theorem C236_dimension_violated (env : Env W HI VI) (fk : Bool) (a b : String) (hab : a ≠ b) (v w : List W) (hv : v.length ≤ 2147483647)
    (hw : w.length ≤ 2147483647) (hv0 : v ≠ []) (hw0 : w ≠ []) :
    let s := run env init [(0, .reopen 0 none none), (1, .reopen 0 none none), (0, .upsert fk false { id := a, vector := some v }),
      (1, .upsert fk false { id := b, vector := some w })]
    s.db.embeddings.map (fun r => (r.id, r.vector)) = [(a, v), (b, w)] ∧ (s.loc 0).dim = v.length ∧ (s.loc 1).dim = w.length := by
  have h1 : ¬ v.length > 2147483647 := by omega
  have h2 : ¬ w.length > 2147483647 := by omega
  cases fk <;>
    simp [run, step, view, init, Verif.Model.Store.step, reopen, ensureDefault, upsert, prepareRow, resolveCollection, encodable, insertRow,
      fkHolds, h1, h2, hab]

/-- Handles opened with dimension `n`, and batches of vectors of this length only. -/
def Sized (n : Nat) (op : Op W HI VI) : Prop :=
  match op with
  | .upsertBatch _ _ es => ∀ e ∈ es, ∀ v, e.vector = some v → v.length = n
  | .reopen d _ _ => d = n
  | _ => True

/-- **C236, the dimension (partial).** When all handles are opened with one dimension and the policy is strict, all vectors in the file
have this dimension. Missing: handles that detect the dimension, and batches. -/
theorem C236_dimension_partial (env : Env W HI VI) (hstrict : ∀ v a b, a ≠ b → env.adapt v a b = none) (n : Nat) (hn : n ≠ 0)
    (evs : List (Nat × Op W HI VI)) (hs : ∀ e ∈ evs, Sized n e.2) :
    ∀ r ∈ (run env init evs).db.embeddings, r.vector.length = n := by
  suffices h : (∀ r ∈ (run env init evs).db.embeddings, r.vector.length = n) ∧
      ∀ i, ((run env init evs).loc i).closed = true ∨ ((run env init evs).loc i).dim = n from h.1
  induction evs using List.reverseRecOn with
  | nil => exact ⟨by simp [run, init], fun i => Or.inl rfl⟩
  | append_singleton evs e ih =>
    obtain ⟨i, op⟩ := e
    obtain ⟨h1, h2⟩ := ih (fun e he => hs e (by simp [he]))
    have ho := hs (i, op) (by simp)
    rw [run_snoc]
    generalize run env init evs = s at h1 h2
    simp only at ho ⊢
    rcases Classical.em (∃ d h v, op = .reopen d h v) with ⟨d, h, v, rfl⟩ | hnr
    · have ho : d = n := ho
      subst ho
      refine ⟨fun r hr => h1 r ?_, fun j => ?_⟩
      · have e : (step env s i (.reopen d h v)).1.db = ensureDefault s.db d := rfl
        rw [e] at hr
        unfold ensureDefault at hr
        split at hr <;> exact hr
      · by_cases hj : j = i
        · subst hj; right; simp [step, Verif.Model.Store.step, reopen]
        · simpa [step, hj] using h2 j
    rcases h2 i with hc | hd
    · have hkeep : (Verif.Model.Store.step env (view s i) op).1 = view s i := by
        by_cases hl : op = .close
        · subst hl
          show ({ view s i with closed := true } : St W HI VI) = view s i
          have : (view s i).closed = true := hc
          rw [← this]
        · rcases C15_closed_refuses env (view s i) hc op (by rintro (h | h); exact hl h; exact hnr h) with h | ⟨_, _, h⟩ <;> rw [h]
      refine ⟨fun r hr => h1 r ?_, fun j => ?_⟩
      · have e : (step env s i op).1.db = s.db := by simp only [step, hkeep]; rfl
        rwa [e] at hr
      · by_cases hj : j = i
        · subst hj; left; simp only [step, hkeep, if_true]; exact hc
        · simpa [step, hj] using h2 j
    · have hadm : Admissible (view s i) op := by
        cases op with
        | upsert fk f e => intro h0; exact absurd (hd.symm.trans h0) hn
        | upsertBatch fk f es => exact ⟨fun h0 => hn (hd.symm.trans h0), fun e he v hv => (ho e he v hv).trans hd.symm⟩
        | reopen d h v => exact absurd ⟨d, h, v, rfl⟩ hnr
        | _ => trivial
      have hdim : (Verif.Model.Store.step env (view s i) op).1.dim = n := by
        rcases step_dim env (view s i) op hadm with h | ⟨h0, _⟩
        · exact h.trans hd
        · exact absurd (hd.symm.trans h0) hn
      refine ⟨fun r hr => ?_, fun j => ?_⟩
      · rcases step_rows env (view s i) op r hr with hold | hnew
        · exact h1 r hold
        · have hvd : (view s i).dim = n := hd
          cases op with
          | upsert fk f e =>
            obtain ⟨w, hp, _, hw⟩ := hnew
            have hv := (prepareRow_ok hp).2.1
            simp only at hv
            rw [hvd] at hw
            by_cases h1 : n = (e.vector.getD []).length
            · rw [if_pos (Or.inr h1)] at hw
              rw [hw] at hv
              rw [hv] at h1
              simpa using h1.symm
            · rw [if_neg (by simp [hn, h1])] at hw
              rw [hstrict _ _ _ (fun hh => h1 hh.symm)] at hw
              rw [← hw] at hv; cases hv
          | upsertBatch fk f es =>
            obtain ⟨e, he, hp, _⟩ := hnew
            exact ho e he r.vector (prepareRow_ok hp).2.1
          | _ => exact absurd hnew (by simp [NewRow])
      · by_cases hj : j = i
        · subst hj; right; simpa [step] using hdim
        · simpa [step, hj] using h2 j

example : (run (W := Nat) (HI := Unit) (VI := Unit) ⟨fun _ _ _ => none, fun h _ _ => h, fun h _ => h, fun v _ _ => v, fun v _ => v, fun _ => false⟩ init
    [(0, .reopen 2 none none), (1, .reopen 2 none none), (0, .upsert true false ⟨"a", 0, "", some [1, 2], "x", "", none, []⟩),
      (1, .upsert true false ⟨"b", 0, "", some [1, 2, 3], "y", "", none, []⟩), (1, .upsert true false ⟨"c", 0, "", some [4, 5], "z", "", none, []⟩)]).db.embeddings.map
    (fun r => (r.id, r.vector)) = [("a", [1, 2]), ("c", [4, 5])] := by decide +kernel

namespace Ix

open Verif.Recover

variable {V : Type}

theorem other_run (k : Kind) (s : Sys V) (j : Nat) (evs : List (Nat × Event V)) (h : ∀ e ∈ evs, e.1 ≠ j) : (run k s evs).loc j = s.loc j := by
  induction evs using List.reverseRecOn with
  | nil => rfl
  | append_singleton evs e ih =>
    have hne := h e (by simp)
    rw [run, List.foldl_append]
    show (step k (run k s evs) e.1 e.2).loc j = _
    rw [← ih fun e he => h e (by simp [he])]
    simp [step, hne.symm]

/-- **C237, violated.** A record with a new id that handle `i` writes is in the file and is never found through the index of another open
handle `j`, whatever the other handles do afterwards. -/
theorem C237_unseen_violated (k : Kind) (s : Sys V) (i j : Nat) (hij : i ≠ j) (x : String) (v : V) (hi : (s.loc i).up = true)
    (hc : (s.loc i).closing = false) (ht : (s.loc j).mem.trained = true) (hx : ∀ e ∈ (s.loc j).mem.entries, e.id ≠ x) :
    (x, v) ∈ (step k s i (.write [(x, v)])).rows ∧
    ∀ evs : List (Nat × Event V), (∀ e ∈ evs, e.1 ≠ j) → ¬ Findable ((run k (step k s i (.write [(x, v)])) evs).loc j).mem x := by
  constructor
  · simp [step, Verif.Recover.step, view, hi, hc, mem_putRow]
  · intro evs he hf
    rw [other_run k _ j evs he] at hf
    have : (step k s i (.write [(x, v)])).loc j = s.loc j := by simp [step, hij.symm]
    rw [this] at hf
    obtain ⟨e, hm, hid, _⟩ := hf ht
    exact hx e hm hid

/-- **C237, violated after closing.** Handle `i` writes a record and is closed; handle `j`, which was open before and never saw the record,
is closed after it. Its index becomes the saved one, and the next opening, by whichever handle, cannot find the record that is in the
file. -/
theorem C237_lost_violated (s : Sys V) (i j m : Nat) (hij : i ≠ j) (x : String) (v : V) (hi : (s.loc i).up = true)
    (hci : (s.loc i).closing = false) (hj : (s.loc j).up = true) (hcj : (s.loc j).closing = false)
    (hm : m = i ∨ m = j ∨ (s.loc m).up = false) (hx : ∀ e ∈ (s.loc j).mem.entries, e.id ≠ x) :
    let t := run .hnsw s [(i, .write [(x, v)]), (i, .closeSave), (i, .closeDone), (j, .closeSave), (j, .closeDone), (m, .reopen)]
    (t.loc m).up = true ∧ (x, v) ∈ t.rows ∧ ¬ Findable (t.loc m).mem x := by
  have hji := hij.symm
  have key : ∀ t : Sys V, t = run .hnsw s [(i, .write [(x, v)]), (i, .closeSave), (i, .closeDone), (j, .closeSave), (j, .closeDone)] →
      t.snap = some (s.loc j).mem.entries ∧ (t.loc m).up = false ∧ t.rows = putRow s.rows (x, v) := by
    rintro t rfl
    refine ⟨?_, ?_, ?_⟩
    · simp [run, step, view, Verif.Recover.step, hi, hci, hj, hcj, hij, hji, savable]
    · rcases hm with rfl | rfl | hm
      · simp [run, step, view, Verif.Recover.step, hi, hci, hj, hcj, hij, hji, savable]
      · simp [run, step, view, Verif.Recover.step, hi, hci, hj, hcj, hij, hji, savable]
      · have h1 : m ≠ i := by rintro rfl; rw [hi] at hm; cases hm
        have h2 : m ≠ j := by rintro rfl; rw [hj] at hm; cases hm
        simp [run, step, h1, h2, hm]
    · simp [run, step, view, Verif.Recover.step, hi, hci, hj, hcj, hij, hji]
  obtain ⟨h1, h2, h3⟩ := key _ rfl
  have e0 : run .hnsw s [(i, .write [(x, v)]), (i, .closeSave), (i, .closeDone), (j, .closeSave), (j, .closeDone), (m, .reopen)] =
      step .hnsw (run .hnsw s [(i, .write [(x, v)]), (i, .closeSave), (i, .closeDone), (j, .closeSave), (j, .closeDone)]) m .reopen := rfl
  simp only [e0]
  generalize run .hnsw s [(i, .write [(x, v)]), (i, .closeSave), (i, .closeDone), (j, .closeSave), (j, .closeDone)] = t at h1 h2 h3
  refine ⟨by simp [step, view, Verif.Recover.step, h2], by simp [step, view, Verif.Recover.step, h2, h3, mem_putRow], ?_⟩
  intro hf
  have e : ((step .hnsw t m .reopen).loc m).mem = ⟨(s.loc j).mem.entries, true⟩ := by
    simp [step, view, Verif.Recover.step, h2, load, h1]
  rw [e] at hf
  obtain ⟨e, hm, hid, _⟩ := hf rfl
  exact hx e hm hid

/-- Events of a handle that only reads: it is opened, trains or serialises its index, and dies. -/
def reads : Event V → Bool
  | .train | .saveStart | .crash | .reopen => true
  | _ => false

/-- **C237, one writer (partial).** While all other handles only read, the handle that writes is as if it were alone. -/
theorem C237_writer_partial (k : Kind) (s : Sys V) (i : Nat) (evs : List (Nat × Event V)) (h : ∀ e ∈ evs, e.1 ≠ i → reads e.2 = true) :
    view (run k s evs) i = Verif.Recover.run k (view s i) ((evs.filter fun e => e.1 = i).map Prod.snd) := by
  induction evs using List.reverseRecOn with
  | nil => rfl
  | append_singleton evs e ih =>
    have ih := ih fun e he => h e (by simp [he])
    have e1 : run k s (evs ++ [e]) = step k (run k s evs) e.1 e.2 := by simp [run, List.foldl_append]
    rw [e1, List.filter_append, List.map_append, Verif.Recover.run, List.foldl_append]
    show _ = List.foldl (Verif.Recover.step k) (Verif.Recover.run k (view s i) _) _
    rw [← ih]
    by_cases hi : e.1 = i
    · simp [hi, view, step]
    · have hr := h e (by simp) hi
      obtain ⟨j, ev⟩ := e
      simp only at hi hr
      have hij : i ≠ j := fun h => hi h.symm
      cases ev <;> simp [reads] at hr <;> cases hup : ((run k s evs).loc j).up <;>
        simp [hi, hij, view, step, Verif.Recover.step, hup] <;> split <;> simp

/-- **C237, a later reader (partial).** While handle `i` alone writes and saves no index, a handle opened afterwards finds every record,
and a graph index holds exactly the records. -/
theorem C237_reader_partial (k : Kind) (i j : Nat) (evs : List (Nat × Event V)) (h : ∀ e ∈ evs, e.1 ≠ i → reads e.2 = true)
    (hp : ∀ e ∈ evs, e.2.plain = true) (hj : ((run k init evs).loc j).up = false) :
    let t := step k (run k init evs) j .reopen
    (t.loc j).up = true ∧ t.rows = (run k init evs).rows ∧ Complete (view t j) ∧ (k = .hnsw → Exact (view t j)) := by
  have hw := C237_writer_partial k init i evs h
  have hpl : ∀ e ∈ (evs.filter fun e => e.1 = i).map Prod.snd, e.plain = true := by
    intro e he
    obtain ⟨x, hx, rfl⟩ := List.mem_map.1 he
    exact hp x (List.mem_filter.1 hx).1
  have hc := plain_run k _ (view init i) hpl rfl (by simp [Verif.Recover.Unique, view, init])
  rw [← hw] at hc
  have hb := C29_rebuild_partial k ((evs.filter fun e => e.1 = i).map Prod.snd) hpl
  have ev : (view init i : State V) = Verif.Recover.init := rfl
  rw [ev] at hw
  have ea : Verif.Recover.run k Verif.Recover.init ((evs.filter fun e => e.1 = i).map Prod.snd ++ [.crash, .reopen]) =
      List.foldl (Verif.Recover.step k) (view (run k init evs) i) [.crash, .reopen] := by
    rw [hw, Verif.Recover.run, List.foldl_append]; rfl
  simp only [ea] at hb
  have hs : (run k init evs).snap = none := hc.1
  have hm : (view (step k (run k init evs) j .reopen) j).mem = fresh k (run k init evs).rows := by
    simp [view, step, Verif.Recover.step, hj, load, hs]
  have hr : (view (step k (run k init evs) j .reopen) j).rows = (run k init evs).rows := by
    simp [view, step, Verif.Recover.step, hj]
  have hm' : (List.foldl (Verif.Recover.step k) (view (run k init evs) i) [.crash, .reopen]).mem = fresh k (run k init evs).rows := by
    simp [view, Verif.Recover.step, load, hs]
  have hr' : (List.foldl (Verif.Recover.step k) (view (run k init evs) i) [.crash, .reopen]).rows = (run k init evs).rows := by
    simp [view, Verif.Recover.step]
  refine ⟨by simp [view, step, Verif.Recover.step, hj], hr, ?_, fun hk => ?_⟩
  · have := hb.2.2.1
    unfold Complete at this ⊢
    rw [hm', hr'] at this
    rw [hm, hr]
    exact this
  · have := hb.2.2.2 hk
    unfold Exact at this ⊢
    rw [hm', hr'] at this
    rw [hm, hr]
    exact this

example : let s := run .hnsw (init (V := Nat)) [(0, .reopen), (1, .reopen), (0, .write [("a", 1)])]
    s.rows = [("a", 1)] ∧ (s.loc 0).mem.entries = [⟨"a", 1, false⟩] ∧ (s.loc 1).up = true ∧ (s.loc 1).mem.entries = [] ∧
    (s.loc 1).mem.trained = true := by decide +kernel

example : let s := run .hnsw (init (V := Nat)) [(0, .reopen), (1, .reopen), (0, .write [("a", 1)]), (1, .crash), (1, .reopen)]
    (s.loc 1).mem.entries = [⟨"a", 1, false⟩] := by decide +kernel

end Ix

end Verif.Handles
