import Verif.Model.GraphRace

/-!
C211: the graph store's vector index under concurrent writes.
-/
namespace Verif.GraphRace
open Verif.Base

variable {V : Type}

/-- Every call has returned. -/
def Returned (ps : List (Phase V)) : Prop := ∀ p ∈ ps, ∃ r, p = .done r

/-- The index holds exactly the stored vectors. -/
def Agree (w : World V) : Prop := ∀ id, getA w.idx id = getA w.db id

/-- The node a call writes. -/
def Call.target : Call V → Option String
  | .upsert id _ => some id
  | .delete id => some id
  | .enable => none

/-! ### Nodes are not forgotten -/

/-- The goroutine will still put the node into the index. -/
def Pending (id : String) : Phase V → Prop
  | .unindex i _ => i = id
  | .index i _ => i = id
  | .scan => True
  | .fill l => id ∈ l.map Prod.fst
  | _ => False

/-- The goroutine is neither deleting nor will be. -/
def Keeps : Phase V → Prop
  | .delete _ => False
  | .forget _ => False
  | _ => True

theorem keeps_advance (w : World V) (p : Phase V) (h : Keeps p) : Keeps (advance w p).2 := by
  cases p with
  | unindex id v => simp only [advance]; split <;> trivial
  | delete id => exact h.elim
  | forget id => exact h.elim
  | fill l => cases l <;> trivial
  | _ => trivial

theorem mem_keys_of_get {l : List (String × V)} {id : String} {v : V} (h : getA l id = some v) : id ∈ l.map Prod.fst := by
  unfold getA at h
  obtain ⟨p, hp, _⟩ := Option.map_eq_some_iff.1 h
  have h1 := List.find?_some hp
  exact List.mem_map.2 ⟨p, List.mem_of_find?_eq_some hp, of_decide_eq_true h1⟩

/-- What is missing in the index is still to come from the goroutine that moved or from another one. -/
theorem present_advance (w : World V) (p : Phase V) (hk : Keeps p) (id : String)
    (h : w.on = true → (getA w.db id).isSome → (getA w.idx id).isSome ∨ Pending id p) :
    (advance w p).1.on = true → (getA (advance w p).1.db id).isSome →
      (getA (advance w p).1.idx id).isSome ∨ Pending id (advance w p).2 := by
  cases p with
  | upsert i v =>
    simp only [advance, get_put]
    intro h1 h2
    by_cases he : id = i
    · exact Or.inr he.symm
    · rw [if_neg he] at h2
      rcases h h1 h2 with h | h
      · exact Or.inl h
      · exact h.elim
  | unindex i v =>
    simp only [advance]
    by_cases hon : w.on = true
    · rw [if_pos hon]
      simp only [get_del]
      intro h1 h2
      by_cases he : id = i
      · exact Or.inr he.symm
      · rw [if_neg he]
        rcases h h1 h2 with h | h
        · exact Or.inl h
        · exact absurd h.symm he
    · rw [if_neg hon]
      intro h1
      exact absurd h1 hon
  | index i v =>
    simp only [advance, get_put]
    intro h1 h2
    by_cases he : id = i
    · rw [if_pos he]; exact Or.inl rfl
    · rw [if_neg he]
      rcases h h1 h2 with h | h
      · exact Or.inl h
      · exact absurd h.symm he
  | delete i => exact hk.elim
  | forget i => exact hk.elim
  | enable => exact fun _ _ => Or.inr trivial
  | scan =>
    simp only [advance]
    intro _ h2
    obtain ⟨v, hv⟩ := Option.isSome_iff_exists.1 h2
    exact Or.inr (mem_keys_of_get hv)
  | fill l =>
    cases l with
    | nil =>
      simp only [advance]
      intro h1 h2
      rcases h h1 h2 with h | h
      · exact Or.inl h
      · simp [Pending] at h
    | cons e l =>
      obtain ⟨i, v⟩ := e
      simp only [advance, get_put]
      intro h1 h2
      by_cases he : id = i
      · rw [if_pos he]; exact Or.inl rfl
      · rw [if_neg he]
        rcases h h1 h2 with h | h
        · exact Or.inl h
        · simp only [Pending, List.map_cons, List.mem_cons] at h
          exact Or.inr (h.resolve_left he)
  | done r => exact h

/-- The moves of a goroutine do not unsettle what others have in hand, except through the index, where it then has the node in hand
itself. -/
theorem other_pending (w : World V) (p : Phase V) (hk : Keeps p) (id : String) (h : (getA w.idx id).isSome) :
    (advance w p).1.on = true → (getA (advance w p).1.idx id).isSome ∨ Pending id (advance w p).2 := by
  cases p with
  | unindex i v =>
    simp only [advance]
    split
    · simp only [get_del]
      intro _
      by_cases he : id = i
      · exact Or.inr he.symm
      · rw [if_neg he]; exact Or.inl h
    · exact fun _ => Or.inl h
  | index i v =>
    simp only [advance, get_put]
    intro _
    left
    split
    · rfl
    · exact h
  | delete i => exact hk.elim
  | forget i => exact hk.elim
  | enable => exact fun _ => Or.inr trivial
  | fill l =>
    cases l with
    | nil => exact fun _ => Or.inl h
    | cons e l =>
      simp only [advance, get_put]
      intro _
      left
      split
      · rfl
      · exact h
  | _ => exact fun _ => Or.inl h

/-- C211, proved part: any number of goroutines write nodes, the same or different ones, and enable the index, once or several times, in
any schedule. When all have returned, every stored node is in the index (with some vector): none is missing from every search. With
deletes it is false, see `C211_missing_violated`. -/
theorem C211_present_partial (w : World V) (calls : List (Call V)) (sched : List Nat)
    (h0 : w.on = true → ∀ id, (getA w.db id).isSome → (getA w.idx id).isSome) (hnd : ∀ id, Call.delete id ∉ calls)
    (hret : Returned (race w calls sched).2) (hon : (race w calls sched).1.on = true) (id : String)
    (hid : (getA (race w calls sched).1.db id).isSome) : (getA (race w calls sched).1.idx id).isSome := by
  have key := runAll_induct advance (fun w ts => (∀ p ∈ ts, Keeps p) ∧
    (w.on = true → (getA w.db id).isSome → (getA w.idx id).isSome ∨ ∃ p ∈ ts, Pending id p)) ?_ w (calls.map begin) ?_ sched
  · rcases key.2 hon hid with h | ⟨p, hp, hpe⟩
    · exact h
    · obtain ⟨r, rfl⟩ := hret p hp
      exact hpe.elim
  · rintro w ts i p ⟨h1, h2⟩ hp
    have hpm := List.mem_of_getElem? hp
    have hk := h1 p hpm
    have hset : ∀ p', p' ∈ ts.set i p' := fun p' => by
      apply List.mem_of_getElem? (i := i)
      rw [List.getElem?_set_self (List.getElem?_eq_some_iff.1 hp).1]
    refine ⟨fun q hq => ?_, fun hon' hdb => ?_⟩
    · rcases List.mem_or_eq_of_mem_set hq with hq | rfl
      · exact h1 q hq
      · exact keeps_advance w p hk
    · by_cases hother : ∃ j q, j ≠ i ∧ ts[j]? = some q ∧ Pending id q
      · obtain ⟨j, q, hj, hq, hpe⟩ := hother
        exact Or.inr ⟨q, List.mem_of_getElem? (i := j) (by rw [List.getElem?_set_ne (Ne.symm hj)]; exact hq), hpe⟩
      · refine (present_advance w p hk id ?_ hon' hdb).imp_right (fun h => ⟨_, hset _, h⟩)
        intro hon hdb
        refine (h2 hon hdb).imp_right ?_
        rintro ⟨q, hq, hpe⟩
        obtain ⟨j, hj⟩ := List.mem_iff_getElem?.1 hq
        by_cases hji : j = i
        · subst hji
          rw [hp, Option.some.injEq] at hj
          rw [hj]; exact hpe
        · exact absurd ⟨j, q, hji, hj, hpe⟩ hother
  · refine ⟨fun p hp => ?_, fun hon hdb => Or.inl (h0 hon id hdb)⟩
    obtain ⟨c, hc, rfl⟩ := List.mem_map.1 hp
    cases c with
    | delete i => exact absurd hc (hnd i)
    | _ => trivial

/-! ### Different nodes -/

/-- What a call by itself makes of its node in the table. -/
def outcome (w : World V) : Call V → Option V
  | .upsert _ v => some v
  | .delete _ => none
  | .enable => none

/-- Where a call on node `id` stands. -/
def Own (c : Call V) (w0 w : World V) : Phase V → Prop
  | .upsert i v => c = .upsert i v ∧ getA w.db i = getA w0.db i ∧ getA w.idx i = getA w0.idx i
  | .unindex i v => c = .upsert i v ∧ getA w.db i = some v ∧ getA w.idx i = getA w0.idx i
  | .index i v => c = .upsert i v ∧ getA w.db i = some v ∧ w.on = true
  | .delete i => c = .delete i ∧ getA w.db i = getA w0.db i ∧ getA w.idx i = getA w0.idx i
  | .forget i => c = .delete i ∧ getA w.db i = none ∧ getA w.idx i = getA w0.idx i
  | .done _ => ∀ i, c.target = some i → getA w.db i = outcome w0 c ∧ getA w.idx i = if w.on then outcome w0 c else getA w0.idx i
  | _ => False

theorem own_advance (c : Call V) (w0 w : World V) (p : Phase V) (h0 : w0.on = true → Agree w0) (hon : w.on = w0.on) (h : Own c w0 w p) :
    Own c w0 (advance w p).1 (advance w p).2 ∧ (advance w p).1.on = w0.on ∧
      ∀ j, c.target ≠ some j → getA (advance w p).1.db j = getA w.db j ∧ getA (advance w p).1.idx j = getA w.idx j := by
  cases p with
  | upsert i v =>
    obtain ⟨rfl, h1, h2⟩ := h
    refine ⟨⟨rfl, by simp [advance, get_put], h2⟩, hon, fun j hj => ?_⟩
    have : j ≠ i := fun e => hj (by simp [Call.target, e])
    simp [advance, get_put, this]
  | unindex i v =>
    obtain ⟨rfl, h1, h2⟩ := h
    simp only [advance]
    split
    · rename_i hw
      refine ⟨⟨rfl, h1, hw⟩, hon, fun j hj => ?_⟩
      have : j ≠ i := fun e => hj (by simp [Call.target, e])
      simp [get_del, this]
    · rename_i hw
      refine ⟨fun j hj => ?_, hon, fun j hj => ⟨rfl, rfl⟩⟩
      simp only [Call.target, Option.some.injEq] at hj
      subst hj
      rw [if_neg hw]
      exact ⟨h1, h2⟩
  | index i v =>
    obtain ⟨rfl, h1, h2⟩ := h
    simp only [advance]
    refine ⟨fun j hj => ?_, hon, fun j hj => ?_⟩
    · simp only [Call.target, Option.some.injEq] at hj
      subst hj
      refine ⟨h1, ?_⟩
      rw [if_pos h2, get_put, if_pos rfl]; rfl
    · have : j ≠ i := fun e => hj (by simp [Call.target, e])
      simp [get_put, this]
  | delete i =>
    obtain ⟨rfl, h1, h2⟩ := h
    simp only [advance]
    split
    · refine ⟨⟨rfl, by simp [get_del], h2⟩, hon, fun j hj => ?_⟩
      have : j ≠ i := fun e => hj (by simp [Call.target, e])
      simp [get_del, this]
    · rename_i hn
      refine ⟨fun j hj => ?_, hon, fun j hj => ⟨rfl, rfl⟩⟩
      simp only [Call.target, Option.some.injEq] at hj
      subst hj
      have hnone : getA w.db i = none := by simpa using hn
      refine ⟨hnone, ?_⟩
      split
      · rename_i hw
        rw [h2, h0 (hon ▸ hw) i, ← h1, hnone]; rfl
      · exact h2
  | forget i =>
    obtain ⟨rfl, h1, h2⟩ := h
    simp only [advance]
    split
    · rename_i hw
      refine ⟨fun j hj => ?_, hon, fun j hj => ?_⟩
      · simp only [Call.target, Option.some.injEq] at hj
        subst hj
        refine ⟨h1, ?_⟩
        rw [if_pos hw, get_del, if_pos rfl]; rfl
      · have : j ≠ i := fun e => hj (by simp [Call.target, e])
        simp [get_del, this]
    · rename_i hw
      refine ⟨fun j hj => ?_, hon, fun j hj => ⟨rfl, rfl⟩⟩
      simp only [Call.target, Option.some.injEq] at hj
      subst hj
      rw [if_neg hw]
      exact ⟨h1, h2⟩
  | enable => exact h.elim
  | scan => exact h.elim
  | fill l => exact h.elim
  | done r => exact ⟨h, hon, fun _ _ => ⟨rfl, rfl⟩⟩

theorem own_congr (c : Call V) (w0 w w' : World V) (p : Phase V) (hon : w'.on = w.on)
    (h : ∀ i, c.target = some i → getA w'.db i = getA w.db i ∧ getA w'.idx i = getA w.idx i) (ho : Own c w0 w p) : Own c w0 w' p := by
  cases p with
  | upsert i v => obtain ⟨rfl, h1, h2⟩ := ho; have := h i rfl; exact ⟨rfl, this.1.trans h1, this.2.trans h2⟩
  | unindex i v => obtain ⟨rfl, h1, h2⟩ := ho; have := h i rfl; exact ⟨rfl, this.1.trans h1, this.2.trans h2⟩
  | index i v => obtain ⟨rfl, h1, h2⟩ := ho; have := h i rfl; exact ⟨rfl, this.1.trans h1, hon.trans h2⟩
  | delete i => obtain ⟨rfl, h1, h2⟩ := ho; have := h i rfl; exact ⟨rfl, this.1.trans h1, this.2.trans h2⟩
  | forget i => obtain ⟨rfl, h1, h2⟩ := ho; have := h i rfl; exact ⟨rfl, this.1.trans h1, this.2.trans h2⟩
  | enable => exact ho.elim
  | scan => exact ho.elim
  | fill l => exact ho.elim
  | done r =>
    intro i hi
    rw [(h i hi).1, (h i hi).2, hon]
    exact ho i hi

/-- C211, proved part: writes and deletes of different nodes, index enabled before (or not at all). When all have returned, in every
schedule, each written node is stored with its vector, each deleted one is gone, every other node is as it was, and the index, if there is
one, holds exactly the stored vectors. Without "different nodes" it is false: `C211_stale_violated`, `C211_ghost_violated`,
`C211_missing_violated`; so it is when the index is enabled meanwhile: `C211_enable_violated`. -/
theorem C211_agree_partial (w : World V) (calls : List (Call V)) (sched : List Nat) (h0 : w.on = true → Agree w)
    (hen : Call.enable ∉ calls) (hne : (calls.map Call.target).Nodup) (hret : Returned (race w calls sched).2) :
    (∀ id v, Call.upsert id v ∈ calls → getA (race w calls sched).1.db id = some v) ∧
    (∀ id, Call.delete id ∈ calls → getA (race w calls sched).1.db id = none) ∧
    (∀ id, some id ∉ calls.map Call.target → getA (race w calls sched).1.db id = getA w.db id) ∧
    (race w calls sched).1.on = w.on ∧ (w.on = true → Agree (race w calls sched).1) := by
  have key := runAll_induct advance (fun w' ts => w'.on = w.on ∧ ts.length = calls.length ∧
    (∀ (i : Nat) (c : Call V) (p : Phase V), calls[i]? = some c → ts[i]? = some p → Own c w w' p) ∧
    ∀ id, some id ∉ calls.map Call.target → getA w'.db id = getA w.db id ∧ getA w'.idx id = getA w.idx id) ?_ w (calls.map begin) ?_ sched
  · obtain ⟨k1, k2, k3, k4⟩ := key
    have hdone : ∀ c ∈ calls, ∀ id, c.target = some id → getA (race w calls sched).1.db id = outcome w c ∧
        getA (race w calls sched).1.idx id = if (race w calls sched).1.on then outcome w c else getA w.idx id := by
      intro c hc id hid
      obtain ⟨i, hi⟩ := List.mem_iff_getElem?.1 hc
      have hlt : i < (race w calls sched).2.length := by
        show i < (runAll advance (w, calls.map begin) sched).2.length
        rw [k2]; exact (List.getElem?_eq_some_iff.1 hi).1
      have hp := List.getElem?_eq_getElem hlt
      obtain ⟨r, hr⟩ := hret _ (List.getElem_mem hlt)
      have := k3 i c _ hi hp
      rw [hr] at this
      exact this id hid
    refine ⟨fun id v hc => (hdone _ hc id rfl).1, fun id hc => (hdone _ hc id rfl).1, fun id hid => (k4 id hid).1, k1, fun hw id => ?_⟩
    by_cases hid : some id ∈ calls.map Call.target
    · obtain ⟨c, hc, hct⟩ := List.mem_map.1 hid
      obtain ⟨d1, d2⟩ := hdone c hc id hct
      rw [d1, d2, if_pos]
      exact k1.trans hw
    · show getA (runAll advance (w, calls.map begin) sched).1.idx id = getA (runAll advance (w, calls.map begin) sched).1.db id
      rw [(k4 id hid).1, (k4 id hid).2]
      exact h0 hw id
  · rintro w' ts i p ⟨k1, k2, k3, k4⟩ hp
    have hi : i < calls.length := by rw [← k2]; exact (List.getElem?_eq_some_iff.1 hp).1
    have hci := List.getElem?_eq_getElem hi
    obtain ⟨a1, a2, a3⟩ := own_advance _ w w' p h0 k1 (k3 i _ p hci hp)
    refine ⟨a2, by simp [k2], fun j c p' hc hp' => ?_, fun id hid => ?_⟩
    · by_cases hij : i = j
      · subst hij
        obtain rfl : calls[i] = c := by rw [hci] at hc; exact Option.some.inj hc
        rw [List.getElem?_set_self (by omega), Option.some.injEq] at hp'
        subst hp'
        exact a1
      · rw [List.getElem?_set_ne hij] at hp'
        refine own_congr c w w' _ p' (a2.trans k1.symm) (fun id hid => a3 id ?_) (k3 j c p' hc hp')
        intro he
        obtain ⟨hj, hcj⟩ := List.getElem?_eq_some_iff.1 hc
        refine hij ((List.Nodup.getElem_inj_iff hne (hi := by simpa using hi) (hj := by simpa using hj)).1 ?_)
        simp only [List.getElem_map]
        rw [he, hcj, hid]
    · have := a3 id (fun he => hid (he ▸ List.mem_map.2 ⟨calls[i], List.getElem_mem hi, rfl⟩))
      exact ⟨this.1.trans (k4 id hid).1, this.2.trans (k4 id hid).2⟩
  · refine ⟨rfl, by simp, fun i c p hc hp => ?_, fun _ _ => ⟨rfl, rfl⟩⟩
    simp only [List.getElem?_map, hc, Option.map_some, Option.some.injEq] at hp
    subst hp
    cases c with
    | upsert id v => exact ⟨rfl, rfl, rfl⟩
    | delete id => exact ⟨rfl, rfl, rfl⟩
    | enable => exact absurd (List.mem_of_getElem? hc) hen

/-! ### What is false -/

/-- C211 is violated by two writes of one node, for all starting states, nodes and vectors: the second write reaches the table last but
the index first. Both succeed, the node has the second vector, every search scores it by the first. -/
theorem C211_stale_violated (w : World V) (hon : w.on = true) (id : String) (v v' : V) :
    let r := race w [.upsert id v, .upsert id v'] [0, 1, 1, 1, 0, 0]
    r.2 = [.done true, .done true] ∧ getA r.1.db id = some v' ∧ getA r.1.idx id = some v := by
  simp [race, runAll, stepAt, begin, advance, hon, get_put]

/-- C211 is violated by a write and a delete of one node: both succeed, the node is gone, the index still offers it. -/
theorem C211_ghost_violated (w : World V) (hon : w.on = true) (id : String) (v : V) :
    let r := race w [.upsert id v, .delete id] [0, 1, 1, 0, 0]
    r.2 = [.done true, .done true] ∧ getA r.1.db id = none ∧ getA r.1.idx id = some v := by
  simp [race, runAll, stepAt, begin, advance, hon, get_put, get_del]

/-- C211 is violated the other way round: a stored node is deleted and written again; both succeed, the node is stored, and the index does
not know it: no search through the index ever finds it. -/
theorem C211_missing_violated (w : World V) (hon : w.on = true) (id : String) (v : V) (hid : (getA w.db id).isSome) :
    let r := race w [.upsert id v, .delete id] [1, 0, 0, 0, 1]
    r.2 = [.done true, .done true] ∧ getA r.1.db id = some v ∧ getA r.1.idx id = none := by
  simp [race, runAll, stepAt, begin, advance, hon, get_put, get_del, hid]

/-- C211 is violated by a write while the index is being enabled: the node was read with its old vector, is written, and is then put into
the index with the old vector. -/
theorem C211_enable_violated (id : String) (v v' : V) :
    let r := race (⟨[(id, v)], false, []⟩ : World V) [.enable, .upsert id v'] [0, 0, 1, 1, 1, 0, 0]
    r.2 = [.done true, .done true] ∧ getA r.1.db id = some v' ∧ getA r.1.idx id = some v := by
  simp [race, runAll, stepAt, begin, advance, get_put]

/-! ### The hypotheses can be met -/

/-- Three different nodes of an indexed graph, statements in turn. -/
example :
    let w : World Nat := ⟨[("a", 1), ("b", 2)], true, [("a", 1), ("b", 2)]⟩
    let r := race w [.upsert "a" 7, .delete "b", .upsert "c" 9] (List.flatten (List.replicate 3 [0, 1, 2]))
    r.2 = [.done true, .done true, .done true] ∧ r.1.db = [("c", 9), ("a", 7)] ∧ r.1.idx = [("c", 9), ("a", 7)] ∧
      ([Call.upsert "a" 7, .delete "b", .upsert "c" 9].map Call.target).Nodup := by
  decide +kernel

/-- Two writes of one node while the index is enabled: in the index, with one of the vectors. -/
example :
    let w : World Nat := ⟨[("a", 1), ("b", 2)], false, []⟩
    let r := race w [.upsert "a" 7, .enable, .upsert "a" 9] [1, 1, 0, 2, 1, 0, 2, 1, 2, 0, 1]
    r.2 = [.done true, .done true, .done true] ∧ r.1.on = true ∧ r.1.db = [("a", 9), ("b", 2)] ∧ r.1.idx = [("a", 7), ("b", 2)] := by
  decide +kernel

end Verif.GraphRace
