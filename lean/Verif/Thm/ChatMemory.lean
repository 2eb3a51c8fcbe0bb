import Verif.Model.ChatMemory
import Verif.Thm.MemoryRecord

/-!
C232: conversations and memories in one database.
-/
namespace Verif.MemRec
open Verif.Base Verif.Memory

/-- The beginning of the session ids the memory interface makes. -/
def memPre : Text := "memory:".toList

/-- The session belongs to the memory interface. -/
def Bucket (b : Text) : Bool := memPre.isPrefixOf b

/-! ### Two interfaces, one pair of tables -/

def chatPart (s : State) : State := ⟨s.buckets.filter (fun b => !Bucket b.1), s.msgs.filter (fun m => !Bucket m.bucket)⟩
def memPart (s : State) : State := ⟨s.buckets.filter (fun b => Bucket b.1), s.msgs.filter (fun m => Bucket m.bucket)⟩

theorem resolve_bucket {sp : Char → Bool} {lower : Char → Char} {scope user session ns sc b : Text}
    (h : resolve sp lower scope user session ns = .ok (sc, b)) : Bucket b = true := by
  unfold resolve at h
  simp only at h
  split at h
  · cases h
  rename_i sc' _
  have key : ∀ t : Text, Bucket (sMemory ++ ':' :: t) = true := fun t => by
    simp [Bucket, memPre, sMemory, List.isPrefixOf]
  split at h
  · obtain ⟨-, rfl⟩ := Prod.mk.inj (Except.ok.inj h); simpa using key _
  split at h
  · split at h
    · cases h
    · obtain ⟨-, rfl⟩ := Prod.mk.inj (Except.ok.inj h); simpa using key _
  · split at h
    · cases h
    · obtain ⟨-, rfl⟩ := Prod.mk.inj (Except.ok.inj h); simpa using key _

theorem lookup_filter_keep (l : List (Text × Text)) (p : Text → Bool) (a : Text) (h : p a = true) :
    (l.filter (fun x => p x.1)).lookup a = l.lookup a := by
  induction l with
  | nil => rfl
  | cons x l ih =>
    obtain ⟨k, v⟩ := x
    rw [List.filter_cons]
    by_cases hk : a = k
    · subst hk; simp [h, List.lookup]
    · have hk' : (a == k) = false := by simpa using hk
      split
      · simp [List.lookup, hk', ih]
      · simp [List.lookup, hk', ih]

theorem any_filter_of (l : List Msg) (p : Msg → Bool) (i : Text) (h : ∀ m ∈ l, m.id = i → p m = true) :
    (l.filter p).any (fun x => x.id == i) = l.any (fun x => x.id == i) := by
  rw [Bool.eq_iff_iff]
  simp only [List.any_eq_true, List.mem_filter, beq_iff_eq]
  exact ⟨fun ⟨x, hx, he⟩ => ⟨x, hx.1, he⟩, fun ⟨x, hx, he⟩ => ⟨x, ⟨hx, h x hx he⟩, he⟩⟩

theorem find_filter_of (l : List Msg) (p : Msg → Bool) (i : Text) (h : ∀ m ∈ l, m.id = i → p m = true) :
    (l.filter p).find? (fun x => x.id == i) = l.find? (fun x => x.id == i) := by
  induction l with
  | nil => rfl
  | cons m l ih =>
    have ih := ih (fun x hx => h x (List.mem_cons_of_mem _ hx))
    rw [List.filter_cons]
    by_cases hm : m.id = i
    · rw [if_pos (h m List.mem_cons_self hm)]; simp [hm]
    · have : (m.id == i) = false := by simpa using hm
      split <;> simp [this, ih]

/-- The ids of messages and memories are kept apart: `A` holds the ids of memories, and what is stored respects it. -/
def Apart (A : Text → Bool) (s : State) : Prop := ∀ m ∈ s.msgs, Bucket m.bucket = A m.id

/-- A call that respects it. -/
def Fair (A : Text → Bool) : Call → Prop
  | .memory _ (.save q) => A q.id = true
  | .memory _ (.update q) => A q.id = true
  | .memory _ (.delete id) => A id = true
  | .session id _ => Bucket id = false
  | .message _ _ m => Bucket m.bucket = false ∧ A m.id = false

theorem load_memPart {A : Text → Bool} {s : State} (h : Apart A s) (i : Text) (hi : A i = true) : load (memPart s) i = load s i := by
  unfold load memPart
  split
  · rfl
  simp only
  rw [find_filter_of _ _ _ (fun m hm he => by rw [h m hm, he, hi])]
  cases hf : s.msgs.find? (fun m => m.id == i) with
  | none => rfl
  | some m =>
    have hm := List.mem_of_find?_eq_some hf
    have he : m.id = i := by simpa using List.find?_some hf
    simp only [Option.bind_some]
    rw [lookup_filter_keep _ Bucket _ (by rw [h m hm, he, hi])]

theorem parts_map {A : Text → Bool} {s : State} (h : Apart A s) {i : Text} (hi : A i = true) {f : Msg → Msg}
    (f1 : ∀ m, (f m).id = m.id) (f2 : ∀ m, (f m).bucket = m.bucket) :
    Apart A { s with msgs := s.msgs.map (fun m => if m.id == i then f m else m) } ∧
    (s.msgs.map (fun m => if m.id == i then f m else m)).filter (fun m => !Bucket m.bucket) = s.msgs.filter (fun m => !Bucket m.bucket) ∧
    (s.msgs.map (fun m => if m.id == i then f m else m)).filter (fun m => Bucket m.bucket) =
      (s.msgs.filter (fun m => Bucket m.bucket)).map (fun m => if m.id == i then f m else m) := by
  have hb : ∀ m, (if (m.id == i) = true then f m else m).bucket = m.bucket := fun m => by split <;> simp [f2]
  refine ⟨?_, ?_, ?_⟩
  · intro m hm
    obtain ⟨x, hx, rfl⟩ := List.mem_map.1 hm
    rw [hb, h x hx]
    split <;> simp [f1]
  · rw [List.filter_map]
    have : (s.msgs.filter ((fun m => !Bucket m.bucket) ∘ fun m => if (m.id == i) = true then f m else m)) =
        s.msgs.filter (fun m => !Bucket m.bucket) := List.filter_congr fun m _ => by simp only [Function.comp, hb]
    rw [this]
    refine (List.map_congr_left fun m hm => ?_).trans (List.map_id _)
    obtain ⟨hm, hn⟩ := List.mem_filter.1 hm
    by_cases he : m.id = i
    · have := h m hm
      rw [he, hi] at this
      simp [this] at hn
    · simp [he]
  · rw [List.filter_map]
    congr 1
    exact List.filter_congr fun m _ => by simp only [Function.comp, hb]

theorem parts_upsert {A : Text → Bool} {s : State} (h : Apart A s) {m : Msg} (hb : Bucket m.bucket = true) (hi : A m.id = true) :
    Apart A { s with msgs := upsert s.msgs m } ∧
    (upsert s.msgs m).filter (fun m => !Bucket m.bucket) = s.msgs.filter (fun m => !Bucket m.bucket) ∧
    (upsert s.msgs m).filter (fun m => Bucket m.bucket) = upsert (s.msgs.filter (fun m => Bucket m.bucket)) m := by
  have ha : (s.msgs.filter (fun m => Bucket m.bucket)).any (fun x => x.id == m.id) = s.msgs.any (fun x => x.id == m.id) :=
    any_filter_of _ _ _ (fun x hx he => by rw [h x hx, he, hi])
  unfold upsert
  rw [ha]
  split
  · have hbk : ∀ x ∈ s.msgs, Bucket (if (x.id == m.id) = true then { m with created := x.created } else x).bucket = Bucket x.bucket := by
      intro x hx
      by_cases he : x.id = m.id
      · have := h x hx
        rw [he, hi] at this
        simp [he, hb, this]
      · simp [he]
    refine ⟨?_, ?_, ?_⟩
    · intro y hy
      obtain ⟨x, hx, rfl⟩ := List.mem_map.1 hy
      rw [hbk x hx, h x hx]
      by_cases he : x.id = m.id <;> simp [he]
    · rw [List.filter_map]
      have : (s.msgs.filter ((fun m => !Bucket m.bucket) ∘ fun x => if (x.id == m.id) = true then { m with created := x.created } else x)) =
          s.msgs.filter (fun m => !Bucket m.bucket) := List.filter_congr fun x hx => by simp only [Function.comp, hbk x hx]
      rw [this]
      refine (List.map_congr_left fun x hx => ?_).trans (List.map_id _)
      obtain ⟨hx, hn⟩ := List.mem_filter.1 hx
      by_cases he : x.id = m.id
      · have := h x hx
        rw [he, hi] at this
        simp [this] at hn
      · simp [he]
    · rw [List.filter_map]
      congr 1
      exact List.filter_congr fun x hx => by simp only [Function.comp, hbk x hx]
  · refine ⟨?_, by simp [hb], by simp [hb]⟩
    intro x hx
    rcases List.mem_append.1 hx with hx | hx
    · exact h x hx
    · obtain rfl := List.mem_singleton.1 hx
      rw [hb, hi]

theorem step_memory (sp : Char → Bool) (lower : Char → Char) {A : Text → Bool} {s : State} (h : Apart A s) (now : Int) (op : Op)
    (hf : Fair A (.memory now op)) :
    Apart A (step sp lower s (now, op)) ∧ chatPart (step sp lower s (now, op)) = chatPart s ∧
      memPart (step sp lower s (now, op)) = step sp lower (memPart s) (now, op) := by
  cases op with
  | save q =>
    have hq : A q.id = true := hf
    simp only [step, save]
    split
    · exact ⟨h, rfl, rfl⟩
    split
    · exact ⟨h, rfl, rfl⟩
    split
    · exact ⟨h, rfl, rfl⟩
    rename_i sc b hr
    have hb : Bucket b = true := resolve_bucket hr
    have hl : (memPart s).buckets.lookup b = s.buckets.lookup b := lookup_filter_keep _ Bucket _ hb
    have hbc : (if (s.buckets.lookup b).isSome then s.buckets else s.buckets ++ [(b, q.user)]).filter (fun b => !Bucket b.1) =
        s.buckets.filter (fun b => !Bucket b.1) := by split <;> simp [hb]
    have hbm : (if (s.buckets.lookup b).isSome then s.buckets else s.buckets ++ [(b, q.user)]).filter (fun b => Bucket b.1) =
        if (s.buckets.lookup b).isSome then (memPart s).buckets else (memPart s).buckets ++ [(b, q.user)] := by
      split <;> simp [hb, memPart]
    obtain ⟨u1, u2, u3⟩ := parts_upsert h (m := ⟨q.id, b, if trim sp q.role = [] then "memory".toList else q.role, q.content,
      build now sc (normNs sp q.ns) q.info q.importance q.ttl, now⟩) hb hq
    refine ⟨u1, ?_, ?_⟩
    · simp only [chatPart, hbc, u2]
    · rw [hl, ← hbm]
      exact congrArg (State.mk _) u3
  | update q =>
    have hq : A q.id = true := hf
    simp only [step, update, load_memPart h q.id hq]
    split
    · exact ⟨h, rfl, rfl⟩
    split
    · exact ⟨h, rfl, rfl⟩
    rename_i r _ _
    obtain ⟨u1, u2, u3⟩ := parts_map h hq (f := fun m => ⟨m.id, m.bucket, m.role, q.content.getD r.content, build now r.scope r.ns
      (putAll r.info q.info) (q.importance.getD r.importance) (q.ttl.getD r.ttl), m.created⟩) (fun _ => rfl) (fun _ => rfl)
    refine ⟨u1, ?_, ?_⟩
    · simp only [chatPart, u2]
    · simp only [memPart, u3]
  | delete id =>
    have hq : A id = true := hf
    simp only [step, delete, load_memPart h id hq]
    cases hl : load s id with
    | none => exact ⟨h, rfl, rfl⟩
    | some r =>
      have hb : Bucket r.session = true := by
        unfold load at hl
        split at hl
        · cases hl
        obtain ⟨m, hm, hr⟩ := Option.bind_eq_some_iff.1 hl
        obtain ⟨u, -, rfl⟩ := Option.map_eq_some_iff.1 hr
        have he : m.id = id := by simpa using List.find?_some hm
        show Bucket m.bucket = true
        rw [h m (List.mem_of_find?_eq_some hm), he, hq]
      simp only
      refine ⟨fun m hm => h m (List.mem_filter.1 hm).1, ?_, ?_⟩
      · simp only [chatPart, State.mk.injEq]
        constructor
        · split
          · rfl
          · rw [List.filter_filter]
            refine List.filter_congr fun x _ => ?_
            by_cases hx : x.1 = r.session
            · simp [hx, hb]
            · simp [hx]
        · rw [List.filter_filter]
          refine List.filter_congr fun x hx => ?_
          by_cases he : x.id = id
          · have := h x hx
            rw [he, hq] at this
            simp [this]
          · simp [he]
      · simp only [memPart, State.mk.injEq]
        have hms : (s.msgs.filter (fun m => m.id != id)).filter (fun m => Bucket m.bucket) =
            (s.msgs.filter (fun m => Bucket m.bucket)).filter (fun m => m.id != id) := by
          rw [List.filter_filter, List.filter_filter]
          exact List.filter_congr fun x _ => Bool.and_comm _ _
        refine ⟨?_, hms⟩
        have hany : (((s.msgs.filter (fun m => Bucket m.bucket)).filter (fun m => m.id != id)).any fun m => m.bucket == r.session) =
            ((s.msgs.filter (fun m => m.id != id)).any fun m => m.bucket == r.session) := by
          rw [← hms, Bool.eq_iff_iff]
          simp only [List.any_eq_true, List.mem_filter, beq_iff_eq]
          exact ⟨fun ⟨x, hx, he⟩ => ⟨x, hx.1, he⟩, fun ⟨x, hx, he⟩ => ⟨x, ⟨hx, by rw [he]; exact hb⟩, he⟩⟩
        simp only [hany]
        split
        · rfl
        · rw [List.filter_filter, List.filter_filter]
          exact List.filter_congr fun x _ => Bool.and_comm _ _

theorem step_chat (sp : Char → Bool) (lower : Char → Char) {A : Text → Bool} {s : State} (h : Apart A s) (c : Call)
    (hc : c.isMemory = false) (hf : Fair A c) :
    Apart A (callStep sp lower s c) ∧ memPart (callStep sp lower s c) = memPart s ∧
      chatPart (callStep sp lower s c) = callStep sp lower (chatPart s) c := by
  cases c with
  | memory now op => cases hc
  | session id user =>
    simp only [Fair] at hf
    have hl : (chatPart s).buckets.lookup id = s.buckets.lookup id :=
      lookup_filter_keep _ (fun b => !Bucket b) _ (by simp [hf])
    simp only [callStep, createSession, hl]
    split
    · exact ⟨h, rfl, rfl⟩
    · exact ⟨h, by simp [memPart, hf], by simp [chatPart, hf]⟩
  | message fk now m =>
    obtain ⟨h1, h2⟩ := hf
    have ha : (chatPart s).msgs.any (fun x => x.id == m.id) = s.msgs.any (fun x => x.id == m.id) :=
      any_filter_of _ _ _ (fun x hx he => by rw [h x hx, he, h2]; rfl)
    have hl : (chatPart s).buckets.lookup m.bucket = s.buckets.lookup m.bucket :=
      lookup_filter_keep _ (fun b => !Bucket b) _ (by simp [h1])
    simp only [callStep, addMessage, ha, hl]
    split
    · exact ⟨h, rfl, rfl⟩
    split
    · exact ⟨h, rfl, rfl⟩
    · refine ⟨?_, by simp [memPart, h1], by simp [chatPart, h1]⟩
      intro x hx
      rcases List.mem_append.1 hx with hx | hx
      · exact h x hx
      · obtain rfl := List.mem_singleton.1 hx
        simp only [h1, h2]

theorem run_parts (sp : Char → Bool) (lower : Char → Char) {A : Text → Bool} (cs : List Call) : ∀ s : State, Apart A s →
    (∀ c ∈ cs, Fair A c) → Apart A (callRun sp lower s cs) ∧
      chatPart (callRun sp lower s cs) = callRun sp lower (chatPart s) (cs.filter (fun c => !c.isMemory)) ∧
      memPart (callRun sp lower s cs) = callRun sp lower (memPart s) (cs.filter Call.isMemory) := by
  induction cs with
  | nil => intro s h _; exact ⟨h, rfl, rfl⟩
  | cons c cs ih =>
    intro s h hf
    have hc := hf c List.mem_cons_self
    have hcs := fun x hx => hf x (List.mem_cons_of_mem _ hx)
    cases hm : c.isMemory with
    | true =>
      cases c with
      | memory now op =>
        obtain ⟨a1, a2, a3⟩ := step_memory sp lower h now op hc
        obtain ⟨b1, b2, b3⟩ := ih _ a1 hcs
        refine ⟨b1, ?_, ?_⟩
        · rw [List.filter_cons_of_neg (by simp [hm]), ← a2]; exact b2
        · rw [List.filter_cons_of_pos hm]
          show memPart (callRun sp lower (step sp lower s (now, op)) cs) =
            callRun sp lower (step sp lower (memPart s) (now, op)) (cs.filter Call.isMemory)
          rw [b3, a3]
      | session => cases hm
      | message => cases hm
    | false =>
      obtain ⟨a1, a2, a3⟩ := step_chat sp lower h c hm hc
      obtain ⟨b1, b2, b3⟩ := ih _ a1 hcs
      refine ⟨b1, ?_, ?_⟩
      · rw [List.filter_cons_of_pos (by simp [hm])]
        show chatPart (callRun sp lower (callStep sp lower s c) cs) =
          callRun sp lower (callStep sp lower (chatPart s) c) (cs.filter (fun c => !c.isMemory))
        rw [b2, a3]
      · rw [List.filter_cons_of_neg (by simp [hm]), ← a2]; exact b3

/-- C232, proved part: any history of both interfaces in which no conversation has an id that begins with `memory:` and no message shares
an id with a memory (`A` says which ids are memories). Each conversation is then what it would be without the memory calls, message by
message, and each memory what it would be without the conversations. Without the provisos it is false, see `C232_save_violated`,
`C232_delete_violated`. -/
theorem C232_apart_partial (sp : Char → Bool) (lower : Char → Char) (A : Text → Bool) (cs : List Call) (hf : ∀ c ∈ cs, Fair A c) :
    (∀ sid, ¬ memPre <+: sid →
      history (callRun sp lower init cs) sid = history (callRun sp lower init (cs.filter (fun c => !c.isMemory))) sid ∧
      (callRun sp lower init cs).buckets.lookup sid = (callRun sp lower init (cs.filter (fun c => !c.isMemory))).buckets.lookup sid) ∧
    ∀ i, A i = true → load (callRun sp lower init cs) i = load (callRun sp lower init (cs.filter Call.isMemory)) i := by
  have h0 : Apart A init := fun m hm => absurd hm (by simp [init])
  obtain ⟨h1, h2, h3⟩ := run_parts sp lower cs init h0 hf
  have hi : chatPart init = init := rfl
  have hi' : memPart init = init := rfl
  rw [hi] at h2
  rw [hi'] at h3
  refine ⟨fun sid hs => ?_, fun i hi => ?_⟩
  · have hb : Bucket sid = false := by
      cases e : Bucket sid with
      | false => rfl
      | true => exact absurd (List.isPrefixOf_iff_prefix.1 e) hs
    rw [← h2]
    constructor
    · unfold history chatPart
      rw [List.filter_filter]
      refine List.filter_congr fun m _ => ?_
      by_cases he : m.bucket = sid
      · simp [he, hb]
      · simp [he]
    · exact (lookup_filter_keep _ (fun b => !Bucket b) _ (by simp [hb])).symm
  · rw [← h3, load_memPart h1 i hi]

/-- C232: no call of the conversation interface changes a memory, in any state and whatever ids it uses, and no message is added to a
session it does not name. -/
theorem C232_chat_keeps (s : State) (i : Text) (r : Record) (h : load s i = some r) :
    (∀ id user, load (createSession s id user).1 i = some r ∧ ∀ sid, history (createSession s id user).1 sid = history s sid) ∧
    ∀ fk now m, load (addMessage fk now s m).1 i = some r ∧
      ∀ sid, sid ≠ m.bucket → history (addMessage fk now s m).1 sid = history s sid := by
  unfold load at h
  split at h
  · cases h
  rename_i hi
  obtain ⟨m0, h1, h2⟩ := Option.bind_eq_some_iff.1 h
  obtain ⟨u, h3, rfl⟩ := Option.map_eq_some_iff.1 h2
  constructor
  · intro id user
    unfold createSession
    split
    · exact ⟨by simp [load, hi, h1, h3], fun _ => rfl⟩
    · refine ⟨?_, fun _ => rfl⟩
      have : (s.buckets ++ [(id, user)]).lookup m0.bucket = some u := by
        rw [List.lookup_append, h3]; rfl
      simp [load, hi, h1, this]
  · intro fk now m
    unfold addMessage
    split
    · exact ⟨by simp [load, hi, h1, h3], fun _ _ => rfl⟩
    split
    · exact ⟨by simp [load, hi, h1, h3], fun _ _ => rfl⟩
    · refine ⟨by simp [load, hi, List.find?_append, h1, h3], fun sid hs => ?_⟩
      unfold history
      simp [List.filter_append, hs.symm]

/-- C232 is violated by a save under the id of a message of a conversation, in every state: the save succeeds, the message is no longer in
its conversation, and its text is the one of the memory. -/
theorem C232_save_violated (sp : Char → Bool) (lower : Char → Char) (now : Int) (s : State) (m : Msg) (hm : m ∈ s.msgs) (q : SaveReq)
    (hq : q.id = m.id) (h0 : q.id ≠ []) (h1 : trim sp q.content ≠ []) (sc b : Text)
    (hr : resolve sp lower q.scope q.user q.session q.ns = .ok (sc, b)) (hsid : ¬ memPre <+: m.bucket) :
    (save sp lower now s q).2 = true ∧ (∀ x ∈ history (save sp lower now s q).1 m.bucket, x.id ≠ m.id) ∧
      (load (save sp lower now s q).1 m.id).map Record.content = some q.content := by
  have hok : (save sp lower now s q).2 = true := by simp [save, h0, h1, hr]
  refine ⟨hok, ?_, ?_⟩
  · intro x hx he
    unfold history at hx
    obtain ⟨hx, hxb⟩ := List.mem_filter.1 hx
    have hb := resolve_bucket hr
    simp only [save, h0, h1, hr, if_false] at hx
    have hany : s.msgs.any (fun x => x.id == q.id) = true := List.any_eq_true.2 ⟨m, hm, by simp [hq]⟩
    simp only [upsert, hany, if_true] at hx
    obtain ⟨y, hy, rfl⟩ := List.mem_map.1 hx
    by_cases hyq : y.id = q.id
    · simp only [hyq, beq_self_eq_true, if_true, beq_iff_eq] at hxb
      rw [hxb] at hb
      exact hsid (List.isPrefixOf_iff_prefix.1 hb)
    · have : (y.id == q.id) = false := by simpa using hyq
      simp only [this, Bool.false_eq_true, if_false] at he
      exact hyq (he.trans hq.symm)
  · obtain ⟨r, hl, -, hc, -⟩ := C190_save sp lower now s q hok
    rw [hq] at hl
    rw [hl]
    simp [hc]

/-- C232 is violated by deleting a memory under the id of a message: the message is gone from its conversation, and when it was the only
one the conversation is gone as well. For every state. -/
theorem C232_delete_violated (s : State) (m : Msg) (r : Record) (h : load s m.id = some r) :
    (∀ sid, ∀ x ∈ history (delete s m.id) sid, x.id ≠ m.id) ∧
      ((∀ x ∈ s.msgs, x.bucket = r.session → x.id = m.id) → (delete s m.id).buckets.lookup r.session = none) := by
  have hd : delete s m.id = ⟨if (s.msgs.filter (fun x => x.id != m.id)).any (fun x => x.bucket == r.session) then s.buckets
      else s.buckets.filter (fun b => b.1 != r.session), s.msgs.filter (fun x => x.id != m.id)⟩ := by simp [delete, h]
  constructor
  · intro sid x hx
    rw [hd] at hx
    have := (List.mem_filter.1 (List.mem_filter.1 hx).1).2
    simpa using this
  · intro honly
    have hn : (s.msgs.filter (fun x => x.id != m.id)).any (fun x => x.bucket == r.session) = false := by
      rw [List.any_eq_false]
      intro x hx
      obtain ⟨hx, hne⟩ := List.mem_filter.1 hx
      simp only [beq_iff_eq]
      intro he
      simp [honly x hx he] at hne
    rw [hd, hn]
    simp only [Bool.false_eq_true, if_false]
    generalize s.buckets = l
    induction l with
    | nil => rfl
    | cons p l ih =>
      obtain ⟨k, v⟩ := p
      rw [List.filter_cons]
      by_cases hk : k = r.session
      · simp [hk, ih]
      · have : (r.session == k) = false := by simpa using fun h => hk h.symm
        simp [hk, List.lookup, this, ih]

/-- C232 is violated by a message with the id of a memory: it is refused, in every state that holds such a row. -/
theorem C232_refused_violated (fk : Bool) (now : Int) (s : State) (x m : Msg) (hx : x ∈ s.msgs) (hid : m.id = x.id) :
    addMessage fk now s m = (s, false) := by
  have : s.msgs.any (fun y => y.id == m.id) = true := List.any_eq_true.2 ⟨x, hx, by simp [hid]⟩
  simp [addMessage, this]

/-- C232 is violated by the searches over the messages of a user: after any successful save into a bucket that did not exist, they choose
from the memory as well, also when it has expired. -/
theorem C232_listed_violated (sp : Char → Bool) (lower : Char → Char) (now : Int) (s : State) (q : SaveReq) (h0 : q.id ≠ [])
    (h1 : trim sp q.content ≠ []) (sc b : Text) (hr : resolve sp lower q.scope q.user q.session q.ns = .ok (sc, b))
    (hb : s.buckets.lookup b = none) :
    ∃ x ∈ byUser (save sp lower now s q).1 q.user [], x.id = q.id ∧ x.content = q.content := by
  have hs : (save sp lower now s q).1 = ⟨s.buckets ++ [(b, q.user)], upsert s.msgs ⟨q.id, b,
      if trim sp q.role = [] then "memory".toList else q.role, q.content, build now sc (normNs sp q.ns) q.info q.importance q.ttl, now⟩⟩ := by
    simp [save, h0, h1, hr, hb]
  rw [hs]
  have hf := find_upsert s.msgs ⟨q.id, b, if trim sp q.role = [] then "memory".toList else q.role, q.content,
    build now sc (normNs sp q.ns) q.info q.importance q.ttl, now⟩
  refine ⟨_, List.mem_filter.2 ⟨List.mem_of_find?_eq_some hf, ?_⟩, rfl, rfl⟩
  have : (s.buckets ++ [(b, q.user)]).lookup b = some q.user := by rw [List.lookup_append, hb]; simp [List.lookup]
  simp [this]

/-! ### The hypotheses can be met -/

/-- A conversation of two messages and a memory of the same user. -/
def demoCalls : List Call :=
  [.session "c1".toList "ann".toList, .message true 1 ⟨"m1".toList, "c1".toList, "user".toList, "hello".toList, [], 0⟩,
   .memory 2 (.save ⟨"k1".toList, "ann".toList, [], [], [], [], "likes tea".toList, [], 0, 0⟩),
   .message true 3 ⟨"m2".toList, "c1".toList, "user".toList, "bye".toList, [], 0⟩, .memory 4 (.delete "k1".toList)]

example : ∀ c ∈ demoCalls, Fair (fun i => i.isPrefixOf "k1".toList) c := by
  simp only [demoCalls, List.forall_mem_cons, Fair, List.not_mem_nil, false_implies, implies_true, and_true]
  decide +kernel

example : (history (callRun (· == ' ') id init demoCalls) "c1".toList).map Msg.id = ["m1".toList, "m2".toList] ∧
    load (callRun (· == ' ') id init (demoCalls.take 3)) "k1".toList ≠ none ∧
    (resolve (· == ' ') id [] "ann".toList [] []).toOption.isSome ∧ ¬ memPre <+: "c1".toList ∧
    (load (callRun (· == ' ') id init demoCalls) "m1".toList).map Record.session = some "c1".toList := by decide +kernel

end Verif.MemRec
