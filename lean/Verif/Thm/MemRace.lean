import Verif.Model.MemRace
import Verif.Thm.MemoryWrites

/-!
C210: calls of the memory API from several goroutines.
-/
namespace Verif.Memory
open Verif.Base

variable {V S : Type*} [LinearOrder S]

/-- The stored row of an id. -/
abbrev rowOf (s : State V) (id : Text) : Option (Row V) := s.rows.find? (fun x => x.id == id)

/-- Every stored memory has the vector of its own text. -/
def Paired (e : Env V S) (s : State V) : Prop := ∀ r ∈ s.rows, VectorOf e r.content r.vector

/-- Every stored memory lies in a bucket that exists. -/
def Held (s : State V) : Prop := ∀ r ∈ s.rows, r.bucket ∈ s.buckets

/-- A row about to be written has the vector of its own text. -/
def PairedPhase (e : Env V S) : Phase V → Prop
  | .put r => VectorOf e r.content r.vector
  | .write _ r => VectorOf e r.content r.vector
  | _ => True

theorem paired_advance (e : Env V S) (fk : Bool) (s : State V) (p : Phase V) (hs : Paired e s) (hp : PairedPhase e p) :
    Paired e (advance e fk s p).1 ∧ PairedPhase e (advance e fk s p).2 := by
  cases p with
  | save now q =>
    simp only [advance]
    split
    · exact ⟨hs, trivial⟩
    split
    · exact ⟨hs, trivial⟩
    split
    · exact ⟨hs, trivial⟩
    split <;> exact ⟨hs, trivial⟩
  | create now q sc b =>
    simp only [advance]
    split <;> exact ⟨hs, trivial⟩
  | embed now q sc b =>
    simp only [advance]
    split
    · exact ⟨hs, trivial⟩
    · rename_i v hv; exact ⟨hs, (embedContent_ok e _ _).1 hv⟩
  | put r =>
    simp only [advance]
    split
    · exact ⟨hs, trivial⟩
    · refine ⟨fun x hx => ?_, trivial⟩
      rcases upsertRow_mem _ _ _ hx with ⟨h1, _⟩ | rfl
      · exact hs x h1
      · exact hp
  | check id =>
    simp only [advance]
    split <;> exact ⟨hs, trivial⟩
  | update now q =>
    simp only [advance]
    split
    · exact ⟨hs, trivial⟩
    rename_i row hl
    have hrow := hs row (List.mem_of_find?_eq_some ((load_ok s q.id row).1 hl).2.1)
    split
    · exact ⟨hs, trivial⟩
    · rename_i c v hcv
      refine ⟨hs, ?_⟩
      show VectorOf e c v
      cases hc : q.content with
      | none =>
        rw [hc] at hcv
        simp only [Except.ok.injEq, Prod.mk.injEq] at hcv
        rw [← hcv.1, ← hcv.2]; exact hrow
      | some c' =>
        rw [hc] at hcv
        simp only at hcv
        split at hcv
        · cases hcv
        split at hcv
        · cases hcv
        · rename_i v' hv
          simp only [Except.ok.injEq, Prod.mk.injEq] at hcv
          rw [← hcv.1, ← hcv.2]; exact (embedContent_ok e _ _).1 hv
  | write id r =>
    simp only [advance]
    refine ⟨fun x hx => ?_, trivial⟩
    obtain ⟨y, hy, rfl⟩ := List.mem_map.1 hx
    split
    · exact hp
    · exact hs y hy
  | delete id =>
    simp only [advance]
    split <;> exact ⟨hs, trivial⟩
  | drop id b =>
    exact ⟨fun x hx => hs x (List.mem_filter.1 hx).1, trivial⟩
  | sweep b => exact ⟨hs, trivial⟩
  | done r => exact ⟨hs, trivial⟩

/-- C210: at every moment of every schedule of saves, updates and deletes, on the same or on different memories, with or without foreign
keys, each stored memory has the vector of its own text (none without an embedder): semantic search never ranks a memory by a text it
does not hold. -/
theorem C210_vector (e : Env V S) (fk : Bool) (s : State V) (calls : List (Int × Op)) (sched : List Nat) (hs : Paired e s) :
    Paired e (race e fk s calls sched).1 := by
  refine (runAll_induct (advance e fk) (fun w ts => Paired e w ∧ ∀ p ∈ ts, PairedPhase e p) ?_ s _ ⟨hs, ?_⟩ sched).1
  · rintro w ts i p ⟨h1, h2⟩ hp
    have := paired_advance e fk w p h1 (h2 p (List.mem_of_getElem? hp))
    refine ⟨this.1, fun x hx => ?_⟩
    rcases List.mem_or_eq_of_mem_set hx with hx | rfl
    · exact h2 x hx
    · exact this.2
  · intro p hp
    obtain ⟨⟨now, op⟩, _, rfl⟩ := List.mem_map.1 hp
    cases op <;> trivial

theorem held_advance (e : Env V S) (s : State V) (p : Phase V) (hs : Held s) : Held (advance e true s p).1 := by
  cases p with
  | save now q =>
    simp only [advance]
    split
    · exact hs
    split
    · exact hs
    split
    · exact hs
    split <;> exact hs
  | create now q sc b =>
    simp only [advance]
    split
    · exact hs
    · exact fun r hr => List.mem_append_left _ (hs r hr)
  | embed now q sc b =>
    simp only [advance]
    split <;> exact hs
  | put r =>
    simp only [advance]
    split
    · exact hs
    · rename_i hb
      simp only [true_and, not_not] at hb
      intro x hx
      rcases upsertRow_mem _ _ _ hx with ⟨h1, _⟩ | rfl
      · exact hs x h1
      · exact hb
  | check id =>
    simp only [advance]
    split <;> exact hs
  | update now q =>
    simp only [advance]
    split
    · exact hs
    split <;> exact hs
  | write id r =>
    simp only [advance]
    intro x hx
    obtain ⟨y, hy, rfl⟩ := List.mem_map.1 hx
    have := hs y hy
    split <;> exact this
  | delete id =>
    simp only [advance]
    split <;> exact hs
  | drop id b => exact fun x hx => hs x (List.mem_filter.1 hx).1
  | sweep b =>
    simp only [advance]
    intro r hr
    split
    · exact hs r hr
    · rename_i hn
      refine List.mem_filter.2 ⟨hs r hr, ?_⟩
      simp only [bne_iff_ne, ne_eq]
      intro he
      exact hn (List.any_eq_true.2 ⟨r, hr, by simpa using he⟩)
  | done r => exact hs

/-- C210: with foreign keys enforced no schedule leaves a memory outside the existing buckets. -/
theorem C210_held_partial (e : Env V S) (s : State V) (calls : List (Int × Op)) (sched : List Nat) (hs : Held s) :
    Held (race e true s calls sched).1 := by
  refine runAll_induct (advance e true) (fun w _ => Held w) ?_ s _ hs sched
  intro w ts i p h _
  exact held_advance e w p h

/-! ### Different memories -/

/-- What a call by itself makes of its memory. -/
def outcome (e : Env V S) (s : State V) (c : Int × Op) : Option (Row V) := rowOf (step e s c) c.2.target

/-- Where a call on `c` stands and what is stored under its id, given the state `s0` all began with. -/
def Agrees (e : Env V S) (s0 s : State V) (c : Int × Op) : Phase V → Prop
  | .save now q => c = (now, .save q) ∧ rowOf s c.2.target = rowOf s0 c.2.target
  | .create now q sc b => c = (now, .save q) ∧ q.id ≠ [] ∧ trim e.sp q.content ≠ [] ∧
      resolve e.sp e.lower q.scope q.user q.session q.ns = .ok (sc, b) ∧ rowOf s c.2.target = rowOf s0 c.2.target
  | .embed now q sc b => c = (now, .save q) ∧ q.id ≠ [] ∧ trim e.sp q.content ≠ [] ∧
      resolve e.sp e.lower q.scope q.user q.session q.ns = .ok (sc, b) ∧ rowOf s c.2.target = rowOf s0 c.2.target
  | .put r => r.id = c.2.target ∧ r.id ≠ [] ∧ outcome e s0 c = some r ∧ rowOf s c.2.target = rowOf s0 c.2.target
  | .check id => id = c.2.target ∧ id ≠ [] ∧ (outcome e s0 c).isSome ∧ rowOf s c.2.target = outcome e s0 c
  | .update now q => c = (now, .update q) ∧ rowOf s c.2.target = rowOf s0 c.2.target
  | .write id r => id = c.2.target ∧ id ≠ [] ∧ (rowOf s0 id).isSome ∧ rowOf s c.2.target = rowOf s0 c.2.target ∧
      outcome e s0 c = (rowOf s0 id).map (fun x => { r with id := x.id, bucket := x.bucket })
  | .delete id => c.2 = .delete id ∧ rowOf s c.2.target = rowOf s0 c.2.target
  | .drop id _ => id = c.2.target ∧ rowOf s c.2.target = rowOf s0 c.2.target ∧ outcome e s0 c = none
  | .sweep _ => rowOf s c.2.target = outcome e s0 c
  | .done (.ok _) => rowOf s c.2.target = outcome e s0 c
  | .done (.error _) => rowOf s c.2.target = rowOf s0 c.2.target

theorem agrees_congr (e : Env V S) (s0 s s' : State V) (c : Int × Op) (p : Phase V) (h : rowOf s' c.2.target = rowOf s c.2.target)
    (ha : Agrees e s0 s c p) : Agrees e s0 s' c p := by
  cases p with
  | done r => cases r <;> (simp only [Agrees, h] at ha ⊢; exact ha)
  | _ => simp only [Agrees, h] at ha ⊢; exact ha

/-- The id a call writes. -/
def Phase.target : Phase V → Option Text
  | .put r => some r.id
  | .write id _ => some id
  | .drop id _ => some id
  | _ => none

theorem advance_others (e : Env V S) (fk : Bool) (s : State V) (p : Phase V) (id : Text) (h : p.target ≠ some id) :
    rowOf (advance e fk s p).1 id = rowOf s id := by
  cases p with
  | save now q =>
    simp only [advance]
    split
    · rfl
    split
    · rfl
    split
    · rfl
    split <;> rfl
  | create now q sc b => simp only [advance]; split <;> rfl
  | embed now q sc b => simp only [advance]; split <;> rfl
  | put r =>
    simp only [advance]
    split
    · rfl
    · exact find_upsert_other _ _ _ (fun he => h (by simp [Phase.target, he]))
  | check i => simp only [advance]; split <;> rfl
  | update now q =>
    simp only [advance]
    split
    · rfl
    split <;> rfl
  | write i r =>
    simp only [advance]
    exact find_map_other _ _ _ (fun x => { r with id := x.id, bucket := x.bucket }) (fun _ => rfl)
      (fun he => h (by simp [Phase.target, he]))
  | delete i => simp only [advance]; split <;> rfl
  | drop i b =>
    simp only [advance, rowOf, List.find?_filter]
    congr 1; funext x
    have : i ≠ id := fun he => h (by simp [Phase.target, he])
    by_cases hx : x.id = id <;> simp [hx, Ne.symm this]
  | sweep b => rfl
  | done r => rfl

theorem agrees_target (e : Env V S) (s0 s : State V) (c : Int × Op) (p : Phase V) (ha : Agrees e s0 s c p) :
    p.target = none ∨ p.target = some c.2.target := by
  cases p with
  | put r => right; simp [Phase.target, ha.1]
  | write id r => right; simp [Phase.target, ha.1]
  | drop id b => right; simp [Phase.target, ha.1]
  | _ => left; rfl

theorem agrees_advance (e : Env V S) (s0 s : State V) (c : Int × Op) (p : Phase V) (h0 : Held s0) (hs : Held s)
    (ha : Agrees e s0 s c p) : Agrees e s0 (advance e true s p).1 c (advance e true s p).2 := by
  have hload : ∀ (w : State V) id r, Held w → id ≠ [] → rowOf w id = some r → load w id = .ok r := fun w id r hw h1 h2 =>
    (load_ok w id r).2 ⟨h1, h2, hw r (List.mem_of_find?_eq_some h2)⟩
  cases p with
  | save now q =>
    obtain ⟨hc, hr⟩ := ha
    simp only [advance]
    split
    · exact hr
    rename_i h1
    split
    · exact hr
    rename_i h2
    split
    · exact hr
    rename_i sc b hres
    split
    · exact ⟨hc, h1, h2, hres, hr⟩
    · exact ⟨hc, h1, h2, hres, hr⟩
  | create now q sc b =>
    simp only [advance]
    split
    · exact ha.2.2.2.2
    · exact ha
  | embed now q sc b =>
    obtain ⟨hc, h1, h2, hres, hr⟩ := ha
    simp only [advance]
    split
    · exact hr
    · rename_i v hv
      subst hc
      refine ⟨rfl, h1, ?_, hr⟩
      simp only [outcome, step, save, h1, h2, if_false, hres, hv]
      exact find_upsert _ { id := q.id, bucket := b, content := q.content, vector := v, scope := sc, ns := normNs e.sp q.ns, ttl := q.ttl, expires := expiresAt now q.ttl }
  | put r =>
    obtain ⟨hid, h1, ho, hr⟩ := ha
    simp only [advance]
    split
    · exact hr
    · refine ⟨hid, h1, by rw [ho]; rfl, ?_⟩
      rw [ho, ← hid]
      exact find_upsert _ r
  | check id =>
    obtain ⟨hid, h1, ho, hr⟩ := ha
    obtain ⟨r, hor⟩ := Option.isSome_iff_exists.1 ho
    have hl := hload s id r hs h1 (by rw [hid, hr, hor])
    simp only [advance, hl]
    exact hr
  | update now q =>
    obtain ⟨hc, hr⟩ := ha
    subst hc
    simp only [advance]
    split
    · exact hr
    rename_i row hl
    obtain ⟨h1, h2, h3⟩ := (load_ok s q.id row).1 hl
    have hl0 : load s0 q.id = .ok row := hload s0 q.id row h0 h1 (by rw [← h2]; exact hr.symm)
    have hrow0 : rowOf s0 q.id = some row := ((load_ok s0 q.id row).1 hl0).2.1
    split
    · exact hr
    · rename_i c v hcv
      refine ⟨rfl, h1, by rw [hrow0]; rfl, hr, ?_⟩
      rw [hrow0]
      have hu : (update e now s0 q).1.rows = s0.rows.map (fun x => if x.id == q.id then
          { x with content := c, vector := v, scope := row.scope, ns := row.ns, ttl := q.ttl.getD row.ttl
                   expires := expiresAt now (q.ttl.getD row.ttl) } else x) := by
        unfold update
        rw [hl0]
        simp only
        split
        · rename_i heq; cases hcv.symm.trans heq
        · rename_i heq; cases hcv.symm.trans heq; rfl
      simp only [outcome, step, rowOf, Op.target, hu]
      have := find_map_same s0.rows q.id (fun x => { x with
        content := c, vector := v, scope := row.scope, ns := row.ns, ttl := q.ttl.getD row.ttl, expires := expiresAt now (q.ttl.getD row.ttl) }) (fun _ => rfl)
      refine this.trans ?_
      rw [show s0.rows.find? (fun x => x.id == q.id) = some row from hrow0]
  | write id r =>
    obtain ⟨hid, h1, h2, hr, ho⟩ := ha
    simp only [advance]
    obtain ⟨x, hx⟩ := Option.isSome_iff_exists.1 h2
    refine ⟨hid, h1, by rw [ho, hx]; rfl, ?_⟩
    rw [ho, ← hid]
    refine (find_map_same s.rows id (fun x => { r with id := x.id, bucket := x.bucket }) (fun _ => rfl)).trans ?_
    rw [show s.rows.find? (fun x => x.id == id) = rowOf s0 id by rw [hid]; exact hr]
  | delete id =>
    obtain ⟨hc, hr⟩ := ha
    simp only [advance]
    split
    · exact hr
    rename_i row hl
    obtain ⟨now, op⟩ := c
    simp only at hc
    subst hc
    obtain ⟨h1, h2, h3⟩ := (load_ok s id row).1 hl
    have hl0 : load s0 id = .ok row := hload s0 id row h0 h1 (by rw [← h2]; exact hr.symm)
    refine ⟨rfl, hr, ?_⟩
    simp only [outcome, step, delete, hl0, Op.target]
    simp [List.find?_eq_none]
  | drop id b =>
    obtain ⟨hid, hr, ho⟩ := ha
    simp only [advance, Agrees]
    rw [ho, ← hid]
    simp [List.find?_eq_none]
  | sweep b => exact ha
  | done r => exact ha

/-- C210, proved part: calls on different memories, foreign keys enforced. At every moment of every schedule: a call that has returned
success has done to its memory exactly what it does by itself, a call that has returned an error has done nothing to it, and memories
no call names are as they were. Which calls succeed is another matter (`C210_first_violated`, `C210_emptied_violated`); for calls on the
same memory it is false (`C210_lost_violated`). -/
theorem C210_atomic_partial (e : Env V S) (s : State V) (calls : List (Int × Op)) (sched : List Nat) (hs : Held s)
    (hne : (calls.map (fun c => c.2.target)).Nodup) :
    (∀ (i : Nat) (c : Int × Op), calls[i]? = some c →
      ((race e true s calls sched).2[i]? = some (.done (.ok ())) →
        rowOf (race e true s calls sched).1 c.2.target = rowOf (step e s c) c.2.target) ∧
      ∀ er, (race e true s calls sched).2[i]? = some (.done (.error er)) →
        rowOf (race e true s calls sched).1 c.2.target = rowOf s c.2.target) ∧
    ∀ id, id ∉ calls.map (fun c => c.2.target) → rowOf (race e true s calls sched).1 id = rowOf s id := by
  have key := runAll_induct (advance e true) (fun w ts => Held w ∧ ts.length = calls.length ∧
    (∀ (i : Nat) (c : Int × Op) (p : Phase V), calls[i]? = some c → ts[i]? = some p → Agrees e s w c p) ∧
    ∀ id, id ∉ calls.map (fun c => c.2.target) → rowOf w id = rowOf s id) ?_ s (calls.map begin) ?_ sched
  · obtain ⟨k1, k2, k3, k4⟩ := key
    refine ⟨fun i c hc => ⟨fun h => k3 i c _ hc h, fun er h => k3 i c _ hc h⟩, k4⟩
  · rintro w ts i p ⟨k1, k2, k3, k4⟩ hp
    have hi : i < calls.length := by rw [← k2]; exact (List.getElem?_eq_some_iff.1 hp).1
    have hci := List.getElem?_eq_getElem hi
    have hag := k3 i _ p hci hp
    have htgt := agrees_target e s w _ p hag
    refine ⟨held_advance e w p k1, by simp [k2], fun j c p' hc hp' => ?_, fun id hid => ?_⟩
    · by_cases hij : i = j
      · subst hij
        obtain rfl : calls[i] = c := by rw [hci] at hc; exact Option.some.inj hc
        rw [List.getElem?_set_self (by omega), Option.some.injEq] at hp'
        subst hp'
        exact agrees_advance e s w _ p hs k1 hag
      · rw [List.getElem?_set_ne hij] at hp'
        refine agrees_congr e s w _ c p' (advance_others e true w p _ ?_) (k3 j c p' hc hp')
        intro he
        rcases htgt with h | h
        · rw [h] at he; cases he
        · rw [h, Option.some.injEq] at he
          obtain ⟨hj, hcj⟩ := List.getElem?_eq_some_iff.1 hc
          refine hij ((List.Nodup.getElem_inj_iff hne (hi := by simpa using hi) (hj := by simpa using hj)).1 ?_)
          simp only [List.getElem_map]
          rw [he, hcj]
    · refine (advance_others e true w p id ?_).trans (k4 id hid)
      intro he
      rcases htgt with h | h
      · rw [h] at he; cases he
      · rw [h, Option.some.injEq] at he
        exact hid (he ▸ List.mem_map.2 ⟨calls[i], List.getElem_mem hi, rfl⟩)
  · refine ⟨hs, by simp, fun i c p hc hp => ?_, fun _ _ => rfl⟩
    simp only [List.getElem?_map, hc, Option.map_some, Option.some.injEq] at hp
    subst hp
    obtain ⟨now, op⟩ := c
    cases op <;> exact ⟨rfl, rfl⟩

/-! ### What is false -/

theorem two_first {W T : Type*} (a : W → T → W × T) (w : W) (p q : T) (l : List Nat) :
    runAll a (w, [p, q]) (0 :: l) = runAll a ((a w p).1, [(a w p).2, q]) l := rfl

theorem two_second {W T : Type*} (a : W → T → W × T) (w : W) (p q : T) (l : List Nat) :
    runAll a (w, [p, q]) (1 :: l) = runAll a ((a w q).1, [p, (a w q).2]) l := rfl

theorem two_end {W T : Type*} (a : W → T → W × T) (s : W × List T) : runAll a s [] = s := rfl

/-- C210 is violated by two updates of one memory, in every state that holds it: one changes the text, the other only the time to live.
Both read the memory, both write, both report success; the memory has the old text. -/
theorem C210_lost_violated (e : Env V S) (fk : Bool) (s : State V) (id c : Text) (row : Row V) (v : Option V) (now ttl : Int)
    (hl : load s id = .ok row) (hc : trim e.sp c ≠ []) (hv : embedContent e c = .ok v) :
    ∃ sched, (race e fk s [(now, .update ⟨id, some c, none⟩), (now, .update ⟨id, none, some ttl⟩)] sched).2 =
        [.done (.ok ()), .done (.ok ())] ∧
      (load (race e fk s [(now, .update ⟨id, some c, none⟩), (now, .update ⟨id, none, some ttl⟩)] sched).1 id).map
        (fun r => (r.content, r.vector, r.ttl)) = .ok (row.content, row.vector, ttl) := by
  refine ⟨[0, 1, 0, 1, 0, 1], ?_⟩
  obtain ⟨h1, h2, h3⟩ := (load_ok s id row).1 hl
  have hw : ∀ (w : State V) (x r : Row V), load w id = .ok x →
      load { w with rows := w.rows.map (fun x => if x.id == id then { r with id := x.id, bucket := x.bucket } else x) } id =
        .ok { r with id := x.id, bucket := x.bucket } := by
    intro w x r hx
    obtain ⟨k1, k2, k3⟩ := (load_ok w id x).1 hx
    refine (load_ok _ _ _).2 ⟨k1, ?_, k3⟩
    refine (find_map_same w.rows id (fun x => { r with id := x.id, bucket := x.bucket }) (fun _ => rfl)).trans ?_
    rw [k2]; rfl
  have e1 := hw s row { row with content := c, vector := v, ttl := row.ttl, expires := expiresAt now row.ttl } hl
  have e2 := hw _ _ { row with ttl := ttl, expires := expiresAt now ttl } e1
  have a0 : advance e fk s (.update now ⟨id, some c, none⟩) =
      (s, .write id { row with content := c, vector := v, ttl := row.ttl, expires := expiresAt now row.ttl }) := by
    simp [advance, hl, hc, hv]
  have a1 : advance e fk s (.update now ⟨id, none, some ttl⟩) = (s, .write id { row with ttl := ttl, expires := expiresAt now ttl }) := by
    simp [advance, hl]
  simp only [race, List.map_cons, List.map_nil, begin, two_first, two_second, two_end, a0, a1]
  simp only [advance, e2]
  exact ⟨trivial, rfl⟩

/-- C210 is violated by the first two saves of a bucket, for all valid requests on it: both find no bucket, both create it, the second
creation is refused. The save fails although nothing is wrong with it, and nothing is stored. -/
theorem C210_first_violated (e : Env V S) (fk : Bool) (s : State V) (now : Int) (q q' : SaveReq) (sc sc' b : Text)
    (h1 : q.id ≠ []) (h1' : q'.id ≠ []) (h2 : trim e.sp q.content ≠ []) (h2' : trim e.sp q'.content ≠ [])
    (hr : resolve e.sp e.lower q.scope q.user q.session q.ns = .ok (sc, b))
    (hr' : resolve e.sp e.lower q'.scope q'.user q'.session q'.ns = .ok (sc', b)) (hb : b ∉ s.buckets) :
    ∃ sched, (race e fk s [(now, .save q), (now, .save q')] sched).2[1]? = some (.done (.error .sessionExists)) ∧
      (race e fk s [(now, .save q), (now, .save q')] sched).1.rows = s.rows := by
  refine ⟨[0, 1, 0, 1], ?_⟩
  simp [race, runAll, stepAt, begin, advance, h1, h1', h2, h2', hr, hr', hb]

/-- C210 is violated by a save into a bucket whose last other memory is deleted at the same time, foreign keys enforced: the save finds
the bucket, the delete removes it, the save is refused. -/
theorem C210_emptied_violated (e : Env V S) (s : State V) (now : Int) (q : SaveReq) (sc id : Text) (row : Row V) (v : Option V)
    (h1 : q.id ≠ []) (h2 : trim e.sp q.content ≠ []) (hl : load s id = .ok row)
    (hr : resolve e.sp e.lower q.scope q.user q.session q.ns = .ok (sc, row.bucket)) (hv : embedContent e q.content = .ok v)
    (honly : ∀ r ∈ s.rows, r.bucket = row.bucket → r.id = id) :
    ∃ sched, (race e true s [(now, .delete id), (now, .save q)] sched).2 = [.done (.ok ()), .done (.error .noSession)] := by
  refine ⟨[1, 0, 0, 0, 1, 1], ?_⟩
  have hb := ((load_ok s id row).1 hl).2.2
  have hany : (s.rows.filter (fun r => r.id != id)).any (fun r => r.bucket == row.bucket) = false := by
    rw [List.any_eq_false]
    intro r hr
    obtain ⟨k1, k2⟩ := List.mem_filter.1 hr
    intro k
    simp only [beq_iff_eq] at k
    simp [honly r k1 k] at k2
  have a1 : ∀ fk, advance e fk s (.save now q) = (s, .embed now q sc row.bucket) := by
    intro fk; simp [advance, h1, h2, hr, hb]
  simp only [race, List.map_cons, List.map_nil, begin, two_first, two_second, two_end, a1]
  simp [advance, hl, hv, hany]

/-- Without foreign keys (see C17) the same schedule stores a memory outside every bucket: the save reports that it was not found, and
the memory cannot be read. -/
theorem C210_orphan_violated (e : Env V S) (s : State V) (now : Int) (q : SaveReq) (sc id : Text) (row : Row V) (v : Option V)
    (h1 : q.id ≠ []) (h2 : trim e.sp q.content ≠ []) (hl : load s id = .ok row)
    (hr : resolve e.sp e.lower q.scope q.user q.session q.ns = .ok (sc, row.bucket)) (hv : embedContent e q.content = .ok v)
    (honly : ∀ r ∈ s.rows, r.bucket = row.bucket → r.id = id) :
    ∃ sched, (race e false s [(now, .delete id), (now, .save q)] sched).2 =
        [.done (.ok ()), .done (.error (.err .notFound))] ∧
      (rowOf (race e false s [(now, .delete id), (now, .save q)] sched).1 q.id).isSome ∧
      load (race e false s [(now, .delete id), (now, .save q)] sched).1 q.id = .error .notFound := by
  refine ⟨[1, 0, 0, 0, 1, 1, 1], ?_⟩
  have hb := ((load_ok s id row).1 hl).2.2
  have hany : (s.rows.filter (fun r => r.id != id)).any (fun r => r.bucket == row.bucket) = false := by
    rw [List.any_eq_false]
    intro r hr
    obtain ⟨k1, k2⟩ := List.mem_filter.1 hr
    intro k
    simp only [beq_iff_eq] at k
    simp [honly r k1 k] at k2
  have a1 : advance e false s (.save now q) = (s, .embed now q sc row.bucket) := by
    simp [advance, h1, h2, hr, hb]
  have a2 : advance e false s (.delete id) = (s, .drop id row.bucket) := by simp [advance, hl]
  have a4 : ∀ w, advance e false w (.embed now q sc row.bucket) =
      (w, .put ⟨q.id, row.bucket, q.content, v, sc, normNs e.sp q.ns, q.ttl, expiresAt now q.ttl⟩) := by
    intro w; simp [advance, hv]
  have hf : ∀ rows : List (Row V), (upsertRow rows ⟨q.id, row.bucket, q.content, v, sc, normNs e.sp q.ns, q.ttl, expiresAt now q.ttl⟩).find?
      (fun x => x.id == q.id) = some ⟨q.id, row.bucket, q.content, v, sc, normNs e.sp q.ns, q.ttl, expiresAt now q.ttl⟩ :=
    fun rows => find_upsert rows ⟨q.id, row.bucket, q.content, v, sc, normNs e.sp q.ns, q.ttl, expiresAt now q.ttl⟩
  have hload : ∀ (bs : List Text) (rows : List (Row V)), row.bucket ∉ bs →
      load (⟨bs, upsertRow rows ⟨q.id, row.bucket, q.content, v, sc, normNs e.sp q.ns, q.ttl, expiresAt now q.ttl⟩⟩ : State V) q.id =
        .error .notFound := by
    intro bs rows hn
    simp only [load, if_neg h1, hf, if_neg hn]
  have hnb : row.bucket ∉ s.buckets.filter (fun b => b != row.bucket) := by simp
  simp only [race, List.map_cons, List.map_nil, begin, two_first, two_second, two_end, a1, a2, a4]
  simp only [advance, hany, Bool.false_eq_true, false_and, if_false, hload _ _ hnb, rowOf, hf]
  exact ⟨trivial, rfl, trivial⟩

/-! ### The hypotheses can be met -/

/-- Blank is space, no embedder. -/
def plain : Env Nat Int where
  sp := (· == ' ')
  lower := fun c => c
  embedder := none
  sim := fun _ _ => 0
  fts := fun _ _ => none
  sortHits := fun l => l
  moreQueries := fun _ => []

def note (id content : Text) : SaveReq := ⟨id, content, sUser, ['u'], [], ['n'], 0⟩

def oneNote : State Nat := step plain init (0, .save (note ['a'] ['x']))

/-- Three calls on different memories of one bucket, statements in turn: all succeed. -/
example :
    let calls := [((5 : Int), Op.save (note ['b'] ['y'])), (6, .update ⟨['a'], some ['z'], none⟩), (7, .save (note ['c'] ['w']))]
    let r := race plain true oneNote calls (List.flatten (List.replicate 5 [0, 1, 2]))
    Held oneNote ∧ (calls.map (fun c => c.2.target)).Nodup ∧ r.2 = [.done (.ok ()), .done (.ok ()), .done (.ok ())] ∧
      (rowOf r.1 ['a']).map (·.content) = some ['z'] ∧ (rowOf r.1 ['b']).map (·.content) = some ['y'] := by
  refine ⟨?_, ?_⟩
  · show ∀ r ∈ _, _
    decide +kernel
  · decide +kernel

/-- The hypotheses of the four violations. -/
example : (load oneNote ['a']).map (·.bucket) = .ok "memory:user:u:n".toList ∧
    resolve plain.sp plain.lower sUser ['u'] [] ['n'] = .ok (sUser, "memory:user:u:n".toList) ∧
    embedContent plain ['y'] = .ok none ∧ trim plain.sp ['y'] ≠ [] ∧ (∀ r ∈ oneNote.rows, r.id = ['a']) ∧
    "memory:user:u:n".toList ∉ (init : State Nat).buckets := by
  decide +kernel

example : Paired plain oneNote := by
  intro r hr
  have : ∀ r ∈ oneNote.rows, r.vector = none := by decide +kernel
  exact this r hr

end Verif.Memory
