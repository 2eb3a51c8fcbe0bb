import Verif.Model.Chat

/-! C186: sessions and messages are accepted exactly when they should be, and are kept. -/
namespace Verif.Chat

/-- **C186**: a session is accepted exactly when the store is open and no session has its id; it can then be read back, no
other session changes, and a refused one changes nothing. -/
theorem C186_session (s : State) (x : Session) :
    ((createSession s x).2 = .ok () ↔ s.closed = false ∧ ∀ y ∈ s.sessions, y.id ≠ x.id) ∧
      ((createSession s x).2 = .ok () → getSession (createSession s x).1 x.id = .ok x ∧
        (∀ id, id ≠ x.id → getSession (createSession s x).1 id = getSession s id) ∧
        (createSession s x).1.messages = s.messages) ∧
      ((createSession s x).2 ≠ .ok () → (createSession s x).1 = s) := by
  unfold createSession
  cases hc : s.closed with
  | true => simp
  | false =>
    by_cases hd : s.sessions.any (fun y => y.id == x.id) = true
    · rw [if_neg (by simp), if_pos hd]
      refine ⟨?_, by simp, by simp⟩
      simp only [List.any_eq_true, beq_iff_eq] at hd
      obtain ⟨y, hy, he⟩ := hd
      simp only [reduceCtorEq, true_and, false_iff, not_forall]
      exact ⟨y, hy, fun h => h he⟩
    · rw [if_neg (by simp), if_neg hd]
      simp only [List.any_eq_true, beq_iff_eq, not_exists, not_and] at hd
      refine ⟨⟨fun _ => ⟨rfl, hd⟩, fun _ => rfl⟩, fun _ => ⟨?_, ?_, rfl⟩, fun h => absurd rfl h⟩
      · have hn : s.sessions.find? (fun y => y.id == x.id) = none := by
          rw [List.find?_eq_none]; intro y hy; simpa using hd y hy
        simp [getSession, hc, List.find?_append, hn]
      · intro id hid
        have : [x].find? (fun y => y.id == id) = none := by simp [Ne.symm hid]
        simp [getSession, hc, List.find?_append, this]

/-- **C186**: a session never changes or vanishes, over every history in which the store stays open. -/
theorem C186_session_kept (s : State) (ops : List Op) (id : String) (x : Session) (h : getSession s id = .ok x)
    (ho : (run s ops).closed = false) : getSession (run s ops) id = .ok x := by
  induction ops generalizing s with
  | nil => exact h
  | cons op ops ih =>
    have hclosed : ∀ (t : State) (l : List Op), t.closed = true → (run t l).closed = true := by
      intro t l
      induction l generalizing t with
      | nil => exact fun h => h
      | cons o l il =>
        intro ht
        refine il (step t o) ?_
        cases o with
        | createSession y => simp [step, createSession, ht]
        | addMessage fk now m => simp [step, addMessage, ht]
        | close => rfl
    have hs : (step s op).closed = false := by
      by_contra hx
      have : (run s (op :: ops)).closed = true := hclosed (step s op) ops (by simpa using hx)
      rw [this] at ho
      cases ho
    refine ih (step s op) ?_ ho
    cases op with
    | close => simp [step, close] at hs
    | createSession y =>
      by_cases hy : (createSession s y).2 = .ok ()
      · by_cases he : id = y.id
        · exfalso
          have hf := (C186_session s y).1.1 hy
          unfold getSession at h
          rw [hf.1] at h
          simp only [Bool.false_eq_true, if_false] at h
          split at h
          · rename_i z hz
            have h1 := List.mem_of_find?_eq_some hz
            have h2 : z.id = id := by simpa using List.find?_some hz
            exact hf.2 z h1 (h2.trans he)
          · cases h
        · change getSession (createSession s y).1 id = _
          rw [((C186_session s y).2.1 hy).2.1 id he]
          exact h
      · change getSession (createSession s y).1 id = _
        rw [(C186_session s y).2.2 hy]
        exact h
    | addMessage fk now m =>
      change getSession (addMessage fk now s m).1 id = _
      unfold addMessage
      split
      · exact h
      · split
        · exact h
        · split
          · exact h
          · exact h

/-- What is kept of a message: its time is the clock's, an empty vector is no vector. -/
def KeptAs (now : Nat) (m k : Message) : Prop :=
  k.id = m.id ∧ k.session = m.session ∧ k.role = m.role ∧ k.content = m.content ∧ k.createdAt = now ∧
    (m.vector.getD [] ≠ [] → k.vector = m.vector) ∧ (m.vector.getD [] = [] → k.vector = none)

/-- **C186**: a message is accepted exactly when the store is open, no message has its id and, on a connection that
enforces foreign keys, its session exists; then exactly this message is added, and a refused one changes nothing. -/
theorem C186_message (fk : Bool) (now : Nat) (s : State) (m : Message) :
    ((addMessage fk now s m).2 = .ok () ↔ s.closed = false ∧ (∀ y ∈ s.messages, y.id ≠ m.id) ∧
        (fk = true → ∃ x ∈ s.sessions, x.id = m.session)) ∧
      ((addMessage fk now s m).2 = .ok () → ∃ k, KeptAs now m k ∧
        (addMessage fk now s m).1 = { s with messages := s.messages ++ [k] }) ∧
      ((addMessage fk now s m).2 ≠ .ok () → (addMessage fk now s m).1 = s) := by
  unfold addMessage
  cases hc : s.closed with
  | true => simp
  | false =>
    rw [if_neg (by simp)]
    by_cases hd : s.messages.any (fun y => y.id == m.id) = true
    · rw [if_pos hd]
      refine ⟨?_, by simp, by simp⟩
      simp only [List.any_eq_true, beq_iff_eq] at hd
      obtain ⟨y, hy, he⟩ := hd
      simp only [reduceCtorEq, true_and, false_iff, not_and]
      exact fun h => absurd he (h y hy)
    · rw [if_neg hd]
      have hd' : ∀ y ∈ s.messages, y.id ≠ m.id := by
        simp only [List.any_eq_true, beq_iff_eq, not_exists, not_and] at hd
        exact hd
      by_cases hf : (fk && !(s.sessions.any (fun y => y.id == m.session))) = true
      · rw [if_pos hf]
        refine ⟨?_, by simp, by simp⟩
        simp only [Bool.and_eq_true, Bool.not_eq_true', List.any_eq_false, beq_iff_eq] at hf
        simp only [reduceCtorEq, true_and, false_iff, not_and]
        rintro - h
        obtain ⟨x, hx, he⟩ := h hf.1
        exact hf.2 x hx he
      · rw [if_neg hf]
        refine ⟨⟨fun _ => ⟨rfl, hd', fun hfk => ?_⟩, fun _ => rfl⟩, fun _ => ⟨stored now m, ?_, rfl⟩, fun h => absurd rfl h⟩
        · subst hfk
          simp only [Bool.true_and, Bool.not_eq_true', Bool.not_eq_false, List.any_eq_true, beq_iff_eq] at hf
          exact hf
        · refine ⟨rfl, rfl, rfl, rfl, rfl, fun h => ?_, fun h => ?_⟩
          · simp [stored, h]
          · simp [stored, h]

/-- The history only uses connections that enforce foreign keys. -/
def Enforced : Op → Prop
  | .addMessage fk _ _ => fk = true
  | _ => True

/-- **C186**: over every history on connections that enforce foreign keys, every message belongs to a session. -/
theorem C186_owned_partial (ops : List Op) (h : ∀ op ∈ ops, Enforced op) :
    ∀ m ∈ (run init ops).messages, ∃ x ∈ (run init ops).sessions, x.id = m.session := by
  suffices H : ∀ (s : State), (∀ m ∈ s.messages, ∃ x ∈ s.sessions, x.id = m.session) →
      ∀ m ∈ (run s ops).messages, ∃ x ∈ (run s ops).sessions, x.id = m.session from H init (by simp [init])
  induction ops with
  | nil => exact fun s hs => hs
  | cons op ops ih =>
    intro s hs
    refine ih (fun o ho => h o (List.mem_cons_of_mem _ ho)) (step s op) ?_
    cases op with
    | close => exact hs
    | createSession y =>
      change ∀ m ∈ (createSession s y).1.messages, ∃ x ∈ (createSession s y).1.sessions, _
      unfold createSession
      split
      · exact hs
      · split
        · exact hs
        · intro m hm
          obtain ⟨x, hx, he⟩ := hs m hm
          exact ⟨x, List.mem_append_left _ hx, he⟩
    | addMessage fk now m =>
      have hfk : fk = true := h _ List.mem_cons_self
      change ∀ k ∈ (addMessage fk now s m).1.messages, ∃ x ∈ (addMessage fk now s m).1.sessions, _
      by_cases hok : (addMessage fk now s m).2 = .ok ()
      · obtain ⟨k, hk, he⟩ := (C186_message fk now s m).2.1 hok
        rw [he]
        intro k' hk'
        rcases List.mem_append.1 hk' with hk' | hk'
        · exact hs k' hk'
        · rw [List.mem_singleton] at hk'
          subst hk'
          rw [hk.2.1]
          exact ((C186_message fk now s m).1.1 hok).2.2 hfk
      · rw [(C186_message fk now s m).2.2 hok]
        exact hs

/-- **C186**: on a connection that does not enforce foreign keys every fresh message is accepted in every open store, also
when its session does not exist. -/
theorem C186_orphan_violated (now : Nat) (s : State) (m : Message) (ho : s.closed = false)
    (hid : ∀ y ∈ s.messages, y.id ≠ m.id) (_hs : ∀ x ∈ s.sessions, x.id ≠ m.session) :
    (addMessage false now s m).2 = .ok () :=
  (C186_message false now s m).1.2 ⟨ho, hid, by simp⟩

/-- **C186**: no stored message has an empty vector, so vector searches return only messages with a vector to compare. -/
theorem C186_vectors {S : Type*} [LinearOrder S] (c : Cfg S) (ops : List Op) (q : List Int) (session user ex : String)
    (limit : Int) (out : List Message)
    (h : searchChatHistory c (run init ops) q session limit = .ok out ∨
      searchMessagesByUser c (run init ops) user q ex limit = .ok out) :
    ∀ m ∈ out, ∃ v, m.vector = some v ∧ v ≠ [] := by
  have inv : ∀ (l : List Op) (s : State), (∀ m ∈ s.messages, m.vector ≠ some []) →
      ∀ m ∈ (run s l).messages, m.vector ≠ some [] := by
    intro l
    induction l with
    | nil => exact fun s hs => hs
    | cons op l ih =>
      intro s hs
      refine ih (step s op) ?_
      cases op with
      | close => exact hs
      | createSession y =>
        change ∀ m ∈ (createSession s y).1.messages, _
        unfold createSession
        split
        · exact hs
        · split
          · exact hs
          · exact hs
      | addMessage fk now m =>
        change ∀ k ∈ (addMessage fk now s m).1.messages, _
        by_cases hok : (addMessage fk now s m).2 = .ok ()
        · obtain ⟨k, hk, he⟩ := (C186_message fk now s m).2.1 hok
          rw [he]
          intro k' hk'
          rcases List.mem_append.1 hk' with hk' | hk'
          · exact hs k' hk'
          · rw [List.mem_singleton] at hk'
            subst hk'
            by_cases hv : m.vector.getD [] = []
            · rw [hk.2.2.2.2.2.2 hv]; simp
            · rw [hk.2.2.2.2.2.1 hv]
              intro e
              rw [e] at hv
              exact hv rfl
        · rw [(C186_message fk now s m).2.2 hok]
          exact hs
  have hinv := inv ops init (by simp [init])
  have hrank : ∀ (rows : List Message) (n : Nat), ∀ m ∈ ((rank c q rows).take n).map (·.1), m ∈ rows := by
    intro rows n m hm
    obtain ⟨p, hp, rfl⟩ := List.mem_map.1 hm
    have hp := List.mem_of_mem_take hp
    unfold rank at hp
    have := (Base.exchangeSort_perm (fun a b : Message × S => decide (b.2 < a.2))
      (rows.map (fun m => (m, c.sim q (m.vector.getD []))))).mem_iff.1 hp
    obtain ⟨m', hm', rfl⟩ := List.mem_map.1 this
    exact hm'
  have key : ∀ m ∈ (run init ops).messages, m.vector.isSome = true → ∃ v, m.vector = some v ∧ v ≠ [] := by
    intro m hm hv
    obtain ⟨v, hv⟩ := Option.isSome_iff_exists.1 hv
    exact ⟨v, hv, fun e => hinv m hm (by rw [hv, e])⟩
  intro m hm
  rcases h with h | h
  · unfold searchChatHistory at h
    split at h
    · cases h
    · simp only [] at h
      split at h
      · cases h
      · injection h with h
        subst h
        have := List.mem_filter.1 (hrank _ _ m hm)
        simp only [Bool.and_eq_true] at this
        exact key m this.1 this.2.2
  · unfold searchMessagesByUser at h
    split at h
    · injection h with h; subst h; simp at hm
    · split at h
      · cases h
      · injection h with h
        subst h
        have := List.mem_filter.1 (hrank _ _ m hm)
        simp only [Bool.and_eq_true] at this
        exact key m this.1 this.2.1

/-- **C186**: a search over the messages of no user, or for no text or vector, is empty, in every state. -/
theorem C186_nobody {S : Type*} [LinearOrder S] (c : Cfg S) (s : State) (q : List Int) (query ex user : String)
    (limit : Int) :
    searchMessagesByUser c s "" q ex limit = .ok [] ∧ keywordSearchMessages c s "" query ex limit = .ok [] ∧
      searchMessagesByUser c s user [] ex limit = .ok [] ∧ keywordSearchMessages c s user "" ex limit = .ok [] := by
  simp [searchMessagesByUser, keywordSearchMessages]

/-! ### Examples -/

def exM : Message := { id := "m", session := "s", role := "user", content := "hi", vector := some [], createdAt := 0 }

example : (createSession init { id := "s", user := "u" }).2 = .ok () := by decide
example : (addMessage true 3 init exM).2 = .err .constraint := by decide
example : (addMessage false 3 init exM).2 = .ok () ∧ (∀ x ∈ init.sessions, x.id ≠ exM.session) := by decide
example : ∀ op ∈ [Op.createSession { id := "s", user := "u" }, .addMessage true 3 exM], Enforced op := by simp [Enforced]
example : (run init [Op.createSession { id := "s", user := "u" }, .addMessage true 3 exM]).messages =
    [{ exM with vector := none, createdAt := 3 }] := by decide

end Verif.Chat
