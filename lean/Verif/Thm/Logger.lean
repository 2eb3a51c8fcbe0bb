import Verif.Model.Logger

/-! C198: log lines are written whole, in order, and only at or above the minimum level. -/
namespace Verif.Logger

/-- The calls that are to be seen. -/
def loud (l : Log) (c : Call) : Bool := decide (l.min.num ≤ c.level.num)

/-- The line of a call made by goroutine `d.1`, as the writes it consists of. -/
def lineOf (jobs : List (Log × List Call)) (d : Nat × Call) : List String :=
  match jobs[d.1]? with
  | some j => writes j.1 d.2
  | none => []

/-- What goroutine `i` has in a list of lines. -/
def of (i : Nat) (l : List (Nat × Call)) : List Call := (l.filter (fun d => d.1 == i)).map Prod.snd

theorem of_append (i : Nat) (a b : List (Nat × Call)) : of i (a ++ b) = of i a ++ of i b := by simp [of]

/-- The invariant: whole lines, then a beginning of the line being written. -/
structure Inv (jobs : List (Log × List Call)) (s : State) (done : List (Nat × Call)) (busy : Option (Nat × Call))
    (part : List String) : Prop where
  len : s.procs.length = jobs.length
  progress : ∀ i p, s.procs[i]? = some p → ∃ cs, jobs[i]? = some (p.log, cs) ∧
    of i (done ++ busy.toList) ++ p.todo.filter (loud p.log) = cs.filter (loud p.log)
  cur : ∀ i p, s.procs[i]? = some p → p.cur ≠ [] → ∃ c, busy = some (i, c)
  inside : ∀ i c, busy = some (i, c) → ∃ p, s.procs[i]? = some p ∧ part ++ p.cur = writes p.log c ∧ p.cur ≠ []
  idle : busy = none → part = []
  out : s.out = done.flatMap (lineOf jobs) ++ part
  known : ∀ d ∈ done, d.1 < jobs.length

theorem writes_ne (l : Log) (c : Call) (h : ¬ c.level.num < l.min.num) : writes l c ≠ [] := by
  simp [writes, h]

theorem inv_start (jobs : List (Log × List Call)) : Inv jobs (start jobs) [] none [] := by
  refine ⟨by simp [start], ?_, ?_, by simp, by simp, by simp [start], by simp⟩
  · intro i p hp
    simp only [start, List.getElem?_map, Option.map_eq_some_iff] at hp
    obtain ⟨j, hj, rfl⟩ := hp
    exact ⟨j.2, hj, by simp [of]⟩
  · intro i p hp hc
    simp only [start, List.getElem?_map, Option.map_eq_some_iff] at hp
    obtain ⟨j, hj, rfl⟩ := hp
    exact absurd rfl hc

theorem get_set {α : Type} {l : List α} {i k : Nat} {a x : α} (h : (l.set i a)[k]? = some x) :
    (k = i ∧ x = a) ∨ (k ≠ i ∧ l[k]? = some x) := by
  by_cases hk : k = i
  · subst hk
    rw [List.getElem?_set] at h
    split_ifs at h with h1 h2
    · left; exact ⟨rfl, by simpa using h.symm⟩
    · exact absurd rfl h1
  · right
    refine ⟨hk, ?_⟩
    rwa [List.getElem?_set_ne (fun e => hk e.symm)] at h

theorem set_get {α : Type} {l : List α} {i : Nat} {a x : α} (h : l[i]? = some x) : (l.set i a)[i]? = some a := by
  rw [List.getElem?_set]
  have : i < l.length := (List.getElem?_eq_some_iff.1 h).1
  simp [this]

theorem inv_step (jobs : List (Log × List Call)) (m : Nat) (hm : ∀ j ∈ jobs, j.1.mutex = m) (s : State)
    (done : List (Nat × Call)) (busy : Option (Nat × Call)) (part : List String) (h : Inv jobs s done busy part) (i : Nat) :
    ∃ done' busy' part', Inv jobs (step s i) done' busy' part' := by
  unfold step
  split
  · exact ⟨_, _, _, h⟩
  · rename_i p hp
    obtain ⟨cs0, hj, hprog⟩ := h.progress i p hp
    split
    · -- the next write of the call
      rename_i w ws hcur
      obtain ⟨c, hb⟩ := h.cur i p hp (by rw [hcur]; simp)
      obtain ⟨p', hp', hpart, _⟩ := h.inside i c hb
      rw [hp] at hp'
      simp only [Option.some.injEq] at hp'
      subst hp'
      cases hws : ws with
      | nil =>
        refine ⟨done ++ [(i, c)], none, [], ⟨by simpa using h.len, ?_, ?_, by simp, by simp, ?_, ?_⟩⟩
        · intro k q hq
          rcases get_set hq with ⟨rfl, rfl⟩ | ⟨hk, hq⟩
          · exact ⟨cs0, hj, by rw [hb] at hprog; simpa using hprog⟩
          · obtain ⟨cs, h1, h2⟩ := h.progress k q hq
            exact ⟨cs, h1, by rw [hb] at h2; simpa using h2⟩
        · intro k q hq hc
          rcases get_set hq with ⟨rfl, rfl⟩ | ⟨hk, hq⟩
          · exact absurd rfl hc
          · obtain ⟨c', hc'⟩ := h.cur k q hq hc
            rw [hb] at hc'
            simp only [Option.some.injEq, Prod.mk.injEq] at hc'
            exact absurd hc'.1.symm hk
        · simp only [h.out, List.flatMap_append, List.flatMap_cons, List.flatMap_nil, List.append_nil, List.append_assoc]
          congr 1
          rw [hcur, hws] at hpart
          rw [hpart]
          simp [lineOf, hj]
        · intro d hd
          rcases List.mem_append.1 hd with hd | hd
          · exact h.known d hd
          · rw [List.mem_singleton] at hd
            subst hd
            exact (List.getElem?_eq_some_iff.1 hj).1
      | cons w' ws' =>
        refine ⟨done, busy, part ++ [w], ⟨by simpa using h.len, ?_, ?_, ?_, ?_, ?_, h.known⟩⟩
        · intro k q hq
          rcases get_set hq with ⟨rfl, rfl⟩ | ⟨hk, hq⟩
          · exact ⟨cs0, hj, hprog⟩
          · exact h.progress k q hq
        · intro k q hq hc
          rcases get_set hq with ⟨rfl, rfl⟩ | ⟨hk, hq⟩
          · exact ⟨c, hb⟩
          · exact h.cur k q hq hc
        · intro k c' hk
          rw [hb] at hk
          simp only [Option.some.injEq, Prod.mk.injEq] at hk
          obtain ⟨rfl, rfl⟩ := hk
          exact ⟨_, set_get hp, by rw [← hpart, hcur, hws]; simp, by simp⟩
        · intro hn; rw [hb] at hn; exact absurd hn (by simp)
        · simp [h.out]
    · rename_i hcur
      split
      · exact ⟨_, _, _, h⟩
      · rename_i c cs htodo
        split_ifs with hlow hheld
        · -- below the level: nothing is written
          refine ⟨done, busy, part, ⟨by simpa using h.len, ?_, ?_, ?_, h.idle, h.out, h.known⟩⟩
          · intro k q hq
            rcases get_set hq with ⟨rfl, rfl⟩ | ⟨hk, hq⟩
            · refine ⟨cs0, hj, ?_⟩
              rw [htodo, List.filter_cons_of_neg (by simp [loud]; omega)] at hprog
              exact hprog
            · exact h.progress k q hq
          · intro k q hq hc
            rcases get_set hq with ⟨rfl, rfl⟩ | ⟨hk, hq⟩
            · exact absurd hcur hc
            · exact h.cur k q hq hc
          · intro k c' hk
            obtain ⟨q, h1, h2, h3⟩ := h.inside k c' hk
            have hki : k ≠ i := by
              rintro rfl
              rw [hp] at h1
              simp only [Option.some.injEq] at h1
              subst h1
              exact h3 hcur
            refine ⟨q, ?_, h2, h3⟩
            rw [List.getElem?_set_ne (fun e => hki e.symm)]
            exact h1
        · exact ⟨_, _, _, h⟩
        · -- the mutex is free: nobody is inside, for all loggers have this mutex
          have hbusy : busy = none := by
            cases hb : busy with
            | none => rfl
            | some d =>
              exfalso
              obtain ⟨k, c'⟩ := d
              obtain ⟨q, h1, h2, h3⟩ := h.inside k c' hb
              obtain ⟨csq, hjq, _⟩ := h.progress k q h1
              apply hheld
              unfold held
              rw [List.any_eq_true]
              refine ⟨q, List.mem_of_getElem? h1, ?_⟩
              have e1 := hm _ (List.mem_of_getElem? hjq)
              have e2 := hm _ (List.mem_of_getElem? hj)
              simp only at e1 e2
              rw [e1, e2]
              simpa using h3
          have hpart := h.idle hbusy
          subst hbusy
          subst hpart
          refine ⟨done, some (i, c), [], ⟨by simpa using h.len, ?_, ?_, ?_, by simp, h.out, h.known⟩⟩
          · intro k q hq
            rcases get_set hq with ⟨rfl, rfl⟩ | ⟨hk, hq⟩
            · refine ⟨cs0, hj, ?_⟩
              rw [htodo, List.filter_cons_of_pos (by simp [loud]; omega)] at hprog
              simp only [Option.toList_none, List.append_nil] at hprog
              rw [of_append]
              simp only [Option.toList_some]
              rw [← hprog]
              simp [of]
            · obtain ⟨csq, h1, h2⟩ := h.progress k q hq
              refine ⟨csq, h1, ?_⟩
              rw [of_append]
              simp only [Option.toList_none, List.append_nil] at h2
              have : of k (some (i, c)).toList = [] := by simp [of, Ne.symm hk]
              rw [this, List.append_nil]
              exact h2
          · intro k q hq hc
            rcases get_set hq with ⟨rfl, rfl⟩ | ⟨hk, hq⟩
            · exact ⟨c, rfl⟩
            · obtain ⟨c', hc'⟩ := h.cur k q hq hc
              exact absurd hc' (by simp)
          · intro k c' hk
            simp only [Option.some.injEq, Prod.mk.injEq] at hk
            obtain ⟨rfl, rfl⟩ := hk
            exact ⟨_, set_get hp, rfl, writes_ne _ _ hlow⟩

/-- C198 for goroutines that share one logger: at every moment of every schedule the output is a sequence of whole lines and
perhaps a beginning of one more; the lines of each goroutine are a beginning of its calls at or above the minimum level, in
their order; when all are done nothing is missing. -/
theorem C198_lines_partial (jobs : List (Log × List Call)) (m : Nat) (hm : ∀ j ∈ jobs, j.1.mutex = m) (sched : List Nat) :
    ∃ (done : List (Nat × Call)) (part : List String),
      (run jobs sched).out = done.flatMap (lineOf jobs) ++ part ∧
      (part = [] ∨ ∃ (i : Nat) (l : Log) (cs : List Call), jobs[i]? = some (l, cs) ∧ ∃ c ∈ cs, part <+: writes l c) ∧
      (∀ (i : Nat) (l : Log) (cs : List Call), jobs[i]? = some (l, cs) → of i done <+: cs.filter (loud l)) ∧
      ((∀ p ∈ (run jobs sched).procs, p.cur = [] ∧ p.todo = []) →
        part = [] ∧ ∀ (i : Nat) (l : Log) (cs : List Call), jobs[i]? = some (l, cs) → of i done = cs.filter (loud l)) := by
  have hinv : ∃ done busy part, Inv jobs (run jobs sched) done busy part := by
    unfold run
    suffices ∀ s done busy part, Inv jobs s done busy part → ∃ done busy part, Inv jobs (sched.foldl step s) done busy part from
      this _ _ _ _ (inv_start jobs)
    induction sched with
    | nil => intro s d b p h; exact ⟨d, b, p, h⟩
    | cons i sched ih =>
      intro s d b p h
      obtain ⟨d', b', p', h'⟩ := inv_step jobs m hm s d b p h i
      exact ih _ _ _ _ h'
  obtain ⟨done, busy, part, h⟩ := hinv
  have hproc : ∀ (i : Nat) (l : Log) (cs : List Call), jobs[i]? = some (l, cs) → ∃ p, (run jobs sched).procs[i]? = some p ∧ p.log = l ∧
      of i (done ++ busy.toList) ++ p.todo.filter (loud l) = cs.filter (loud l) := by
    intro i l cs hj
    have hlt : i < (run jobs sched).procs.length := by
      rw [h.len]; exact (List.getElem?_eq_some_iff.1 hj).1
    obtain ⟨cs', h1, h2⟩ := h.progress i _ (List.getElem?_eq_getElem hlt)
    rw [hj] at h1
    simp only [Option.some.injEq, Prod.mk.injEq] at h1
    obtain ⟨e1, rfl⟩ := h1
    exact ⟨_, List.getElem?_eq_getElem hlt, e1.symm, by rw [← e1] at h2; exact h2⟩
  refine ⟨done, part, h.out, ?_, ?_, ?_⟩
  · cases hb : busy with
    | none => exact Or.inl (h.idle hb)
    | some d =>
      obtain ⟨i, c⟩ := d
      obtain ⟨p, h1, h2, h3⟩ := h.inside i c hb
      obtain ⟨cs, h4, h5⟩ := h.progress i p h1
      refine Or.inr ⟨i, p.log, cs, h4, c, ?_, ⟨p.cur, h2⟩⟩
      have hc : c ∈ cs.filter (loud p.log) := by
        rw [← h5, hb, of_append]
        apply List.mem_append_left
        apply List.mem_append_right
        simp [of]
      exact (List.mem_filter.1 hc).1
  · intro i l cs hj
    obtain ⟨p, _, _, h2⟩ := hproc i l cs hj
    rw [of_append, List.append_assoc] at h2
    exact ⟨_, h2⟩
  · intro hdone
    have hb : busy = none := by
      cases hb : busy with
      | none => rfl
      | some d =>
        obtain ⟨i, c⟩ := d
        obtain ⟨p, h1, _, h3⟩ := h.inside i c hb
        exact absurd (hdone p (List.mem_of_getElem? h1)).1 h3
    refine ⟨h.idle hb, ?_⟩
    intro i l cs hj
    obtain ⟨p, h1, _, h2⟩ := hproc i l cs hj
    rw [(hdone p (List.mem_of_getElem? h1)).2, hb] at h2
    simpa using h2

/-- C198: what a line says: the time, the level, the pairs of the logger, the pairs of the call and the message; a call below
the minimum level writes nothing. For an even number of keys and values no pair is lost. -/
theorem C198_line (l : Log) (c : Call) :
    (writes l c = [] ↔ loud l c = false) ∧
    (loud l c = true → ∃ ps qs, writes l c = (c.stamp ++ " [" ++ c.level.name ++ "] ") :: (ps ++ qs ++ [": " ++ c.msg ++ "\n"]) ∧
      ps.length = l.kvs.length / 2 ∧ qs.length = c.kvs.length / 2 ∧
      (∀ i k v, l.kvs[2 * i]? = some k → l.kvs[2 * i + 1]? = some v → ps[i]? = some (" " ++ k ++ "=" ++ v)) ∧
      ∀ i k v, c.kvs[2 * i]? = some k → c.kvs[2 * i + 1]? = some v → qs[i]? = some (" " ++ k ++ "=" ++ v)) := by
  have hlen : ∀ n (kv : List String), kv.length ≤ n → (pairs kv).length = kv.length / 2 := by
    intro n
    induction n with
    | zero => intro kv h; rw [List.length_eq_zero_iff.1 (Nat.le_zero.1 h)]; rfl
    | succ n ih =>
      intro kv h
      match kv, h with
      | [], _ => rfl
      | [_], _ => simp [pairs]
      | _ :: _ :: rest, h =>
        have h' : rest.length + 2 ≤ n + 1 := by simpa using h
        have := ih rest (by omega)
        simp only [pairs, List.length_cons, this]
        omega
  have hget : ∀ n (kv : List String), kv.length ≤ n → ∀ i k v, kv[2 * i]? = some k → kv[2 * i + 1]? = some v →
      (pairs kv)[i]? = some (" " ++ k ++ "=" ++ v) := by
    intro n
    induction n with
    | zero => intro kv h i k v hk; rw [List.length_eq_zero_iff.1 (Nat.le_zero.1 h)] at hk; simp at hk
    | succ n ih =>
      intro kv h i k v hk hv
      match kv, h with
      | [], _ => simp at hk
      | [_], _ => simp at hv
      | a :: b :: rest, h =>
        have h' : rest.length + 2 ≤ n + 1 := by simpa using h
        cases i with
        | zero =>
          simp at hk hv
          subst hk
          subst hv
          simp [pairs]
        | succ i =>
          rw [show 2 * (i + 1) = 2 * i + 1 + 1 from by omega, List.getElem?_cons_succ, List.getElem?_cons_succ] at hk
          rw [show 2 * (i + 1) + 1 = 2 * i + 1 + 1 + 1 from by omega, List.getElem?_cons_succ, List.getElem?_cons_succ] at hv
          simp only [pairs, List.getElem?_cons_succ]
          exact ih rest (by omega) i k v hk hv
  constructor
  · unfold writes loud
    by_cases h : c.level.num < l.min.num
    · simp [h]
    · simp [h]
  · intro hl
    have h : ¬ c.level.num < l.min.num := by simpa [loud] using hl
    refine ⟨pairs l.kvs, pairs c.kvs, ?_, hlen _ _ (Nat.le_refl _), hlen _ _ (Nat.le_refl _), hget _ _ (Nat.le_refl _), hget _ _ (Nat.le_refl _)⟩
    unfold writes
    rw [if_neg h]
    simp

/-- A logger and one made from it with `With`, each used by one goroutine. -/
def twoLoggers : List (Log × List Call) :=
  [(new 0 .info, [⟨.info, "t", "a", []⟩]), ((new 0 .info).with 1 ["k", "v"], [⟨.info, "t", "b", []⟩])]

/-- C198, broken for loggers made with `With`: they write to the same place without excluding each other, and lines get mixed. -/
theorem C198_mixed_violated : ∃ sched, (∀ p ∈ (run twoLoggers sched).procs, p.cur = [] ∧ p.todo = []) ∧
    (run twoLoggers sched).out = ["t [INFO] ", "t [INFO] ", ": a\n", " k=v", ": b\n"] ∧
    ∀ perm, perm = [(0, (⟨.info, "t", "a", []⟩ : Call)), (1, ⟨.info, "t", "b", []⟩)] ∨
      perm = [(1, ⟨.info, "t", "b", []⟩), (0, ⟨.info, "t", "a", []⟩)] →
      (run twoLoggers sched).out ≠ perm.flatMap (lineOf twoLoggers) := by
  refine ⟨[0, 0, 1, 1, 0, 1, 1], by decide +kernel, by decide +kernel, ?_⟩
  rintro perm (rfl | rfl) <;> decide +kernel

/-- Two goroutines with one logger: whole lines, the call below the level left out. -/
example : (run [(new 0 .info, [⟨.info, "t", "a", []⟩, ⟨.debug, "t", "x", []⟩]), (new 0 .info, [⟨.warn, "t", "b", ["k", "v", "odd"]⟩])]
    [0, 0, 1, 1, 0, 1, 0, 1, 1, 1]).out = ["t [INFO] ", ": a\n", "t [WARN] ", " k=v", ": b\n"] := by decide +kernel

end Verif.Logger
