import Verif.Model.Chat

/-!
C18: session history. C19: similarity search over messages.
-/
namespace Verif.Chat
open Verif.Spec Verif.Base

/-! ### Specification -/

/-- `out` is a correct answer to "the most recent `n` messages of the session, oldest first": only messages of
that session, in chronological order, nothing newer is left out, and fewer than `n` only if there are fewer. -/
structure IsHistory (all : List Message) (session : String) (n : Nat) (out : List Message) : Prop where
  chronological : out.Pairwise (fun a b => a.createdAt ≤ b.createdAt)
  recent : ∃ older, (older ++ out).Perm (all.filter (fun m => m.session = session)) ∧
    ∀ r ∈ older, ∀ o ∈ out, r.createdAt ≤ o.createdAt
  size : out.length = min n (all.filter (fun m => m.session = session)).length

/-- The messages that were accepted over a history, with the time they were accepted at, in order. -/
def accepted : State → List Op → List Message
  | _, [] => []
  | s, .addMessage fk now m :: ops =>
    (if (addMessage fk now s m).2 = .ok () then [stored now m] else []) ++
      accepted (step s (.addMessage fk now m)) ops
  | s, op :: ops => accepted (step s op) ops

/-- The clock readings of a history. -/
def clock : List Op → List Nat
  | [] => []
  | .addMessage _ now _ :: ops => now :: clock ops
  | _ :: ops => clock ops

/-! ### Sample configuration for the non-vacuity examples -/

def cfg1 : Cfg Int where
  orderDesc := insertSort (fun m => m.createdAt)
  sim := fun a b => -((a.zip b).map (fun p => ((p.1 - p.2).natAbs : Int))).sum
  ftsMatch := fun q m => m.content == q
  ftsOrder := fun _ l => l

theorem cfg1_orders : cfg1.Orders := fun l => insertSort_sorts (fun m : Message => m.createdAt) l

def msg (id session : String) (v : List Int) : Message :=
  { id := id, session := session, role := "user", content := id, vector := some v, createdAt := 0 }

def ops1 : List Op :=
  [.createSession ⟨"s", "u"⟩, .createSession ⟨"t", "w"⟩, .addMessage true 1 (msg "a" "s" [1]),
   .addMessage true 2 (msg "b" "t" [2]), .addMessage true 3 (msg "c" "s" [3]),
   .addMessage true 4 (msg "a" "s" [9]), .addMessage true 5 (msg "d" "s" [5])]

/-! ### Lemmas -/

theorem sorted_unique {l : List Message} (h : l.Pairwise (fun a b => a.createdAt < b.createdAt))
    {out : List Message} (hp : out.Perm l) (ho : out.Pairwise (fun a b => a.createdAt ≤ b.createdAt)) : out = l := by
  induction l generalizing out with
  | nil => simpa using hp
  | cons x xs ih =>
    rw [List.pairwise_cons] at h
    cases out with
    | nil => simp at hp
    | cons y ys =>
      rw [List.pairwise_cons] at ho
      have hxy : y = x := by
        have hy : y ∈ x :: xs := hp.mem_iff.1 (by simp)
        have hx : x ∈ y :: ys := hp.mem_iff.2 (by simp)
        rcases List.mem_cons.1 hy with e | hy
        · exact e
        · rcases List.mem_cons.1 hx with e | hx
          · exact e.symm
          · have := h.1 y hy; have := ho.1 x hx; omega
      subst hxy
      rw [ih h.2 (List.Perm.cons_inv hp) ho.2]

theorem run_messages (s : State) (ops : List Op) : (run s ops).messages = s.messages ++ accepted s ops := by
  induction ops generalizing s with
  | nil => simp [run, accepted]
  | cons op ops ih =>
    show (run (step s op) ops).messages = _
    rw [ih]
    cases op with
    | createSession x =>
      simp only [accepted]; congr 1
      simp only [step, createSession]; split
      · rfl
      · split <;> rfl
    | close => simp [accepted, step, close]
    | addMessage fk now m =>
      simp only [accepted, ← List.append_assoc]; congr 1
      simp only [step, addMessage]
      split
      · simp
      · split
        · simp
        · split <;> simp

theorem accepted_times (s : State) (ops : List Op) :
    List.Sublist ((accepted s ops).map (·.createdAt)) (clock ops) := by
  induction ops generalizing s with
  | nil => simp [accepted, clock]
  | cons op ops ih =>
    cases op with
    | createSession x => simpa [accepted, clock] using ih _
    | close => simpa [accepted, clock] using ih _
    | addMessage fk now m =>
      simp only [accepted, clock]
      split
      · simpa [stored] using ih _
      · simpa using (ih _).trans (List.sublist_cons_self now _)

/-! ### C18 -/

/-- C18: for every message table and every non-negative limit, the history is exactly a correct answer to "the
most recent `limit` messages of that session, oldest first", however the database orders messages with equal
times. -/
theorem C18_history {S : Type*} [LinearOrder S] (c : Cfg S) (hc : c.Orders) (s : State) (ho : s.closed = false)
    (session : String) (n : Nat) :
    ∃ out, getSessionHistory c s session n = .ok out ∧ IsHistory s.messages session n out := by
  refine ⟨_, by rw [getSessionHistory, if_neg (by simp [ho])], ?_⟩
  have hf : s.messages.filter (fun m => m.session == session) =
      s.messages.filter (fun m => decide (m.session = session)) := by
    apply List.filter_congr; intro x _; simp [beq_eq_decide]
  rw [hf]
  have hs := hc (s.messages.filter (fun m => decide (m.session = session)))
  have hk := isTopK_take (fun m : Message => m.createdAt) _ _ n hs
  have hl : sqlLimit (n : Int) (c.orderDesc (s.messages.filter (fun m => decide (m.session = session)))) =
      (c.orderDesc (s.messages.filter (fun m => decide (m.session = session)))).take n := by
    unfold sqlLimit; rw [if_neg (by omega)]; simp
  rw [hl]
  refine ⟨List.pairwise_reverse.2 hk.ordered, ?_, by simpa using hk.size⟩
  obtain ⟨rest, hp, hr⟩ := hk.best
  refine ⟨rest, ?_, fun r hr' o ho' => hr r hr' o (List.mem_reverse.1 ho')⟩
  exact (List.perm_append_comm.trans ((List.reverse_perm _).append_right _)).trans hp

/-- C18: only messages of the requested session are ever returned, whatever the limit. -/
theorem C18_own_session {S : Type*} [LinearOrder S] (c : Cfg S) (hc : c.Orders) (s : State) (session : String)
    (limit : Int) (out : List Message) (h : getSessionHistory c s session limit = .ok out) :
    ∀ m ∈ out, m ∈ s.messages ∧ m.session = session := by
  intro m hm
  unfold getSessionHistory at h
  split at h
  · cases h
  · simp only [Out.ok.injEq] at h
    subst h
    have h1 : m ∈ c.orderDesc (s.messages.filter (fun m => m.session == session)) := by
      have := List.mem_reverse.1 hm
      unfold sqlLimit at this
      split at this
      · exact this
      · exact List.mem_of_mem_take this
    have h2 := (hc _).1.mem_iff.1 h1
    simpa using h2

/-- C18: a negative limit returns the whole session, oldest first. -/
theorem C18_negative_limit {S : Type*} [LinearOrder S] (c : Cfg S) (hc : c.Orders) (s : State)
    (ho : s.closed = false) (session : String) (limit : Int) (hl : limit < 0) :
    ∃ out, getSessionHistory c s session limit = .ok out ∧
      out.Perm (s.messages.filter (fun m => m.session = session)) ∧
      out.Pairwise (fun a b => a.createdAt ≤ b.createdAt) := by
  refine ⟨_, by rw [getSessionHistory, if_neg (by simp [ho])], ?_⟩
  have hs := hc (s.messages.filter (fun m => m.session == session))
  unfold sqlLimit
  rw [if_pos hl]
  refine ⟨(List.reverse_perm _).trans (hs.1.trans (by simp [beq_eq_decide])), ?_⟩
  exact List.pairwise_reverse.2 hs.2

/-- C18: over every history of session and message writes under a strictly advancing clock, the history of a
session is exactly the last `n` messages that were accepted for it, in the order they were added. -/
theorem C18_in_order_added {S : Type*} [LinearOrder S] (c : Cfg S) (hc : c.Orders) (ops : List Op)
    (ht : (clock ops).Pairwise (· < ·)) (ho : (run init ops).closed = false) (session : String) (n : Nat) :
    getSessionHistory c (run init ops) session n =
      .ok (let mine := (accepted init ops).filter (fun m => m.session = session)
           mine.drop (mine.length - n)) := by
  obtain ⟨out, h, hh⟩ := C18_history c hc _ ho session n
  rw [h]
  have hm : (run init ops).messages = accepted init ops := by simp [run_messages, init]
  rw [hm] at hh
  simp only [Out.ok.injEq]
  set mine := (accepted init ops).filter (fun m => decide (m.session = session)) with hmine
  have hinc : mine.Pairwise (fun a b => a.createdAt < b.createdAt) := by
    have h1 : ((accepted init ops).map (·.createdAt)).Pairwise (· < ·) :=
      ht.sublist (accepted_times init ops)
    exact (List.pairwise_map.1 h1).sublist (List.filter_sublist)
  obtain ⟨older, hp, hr⟩ := hh.recent
  -- sort the older part, then the whole arrangement is the session's list
  let older' := (insertSort (fun m : Message => m.createdAt) older).reverse
  have ho' := insertSort_sorts (fun m : Message => m.createdAt) older
  have hperm : older'.Perm older := (List.reverse_perm _).trans ho'.1
  have e : older' ++ out = mine := by
    apply sorted_unique hinc ((hperm.append_right out).trans hp)
    rw [List.pairwise_append]
    exact ⟨List.pairwise_reverse.2 ho'.2, hh.chronological,
      fun a ha b hb => hr a (hperm.mem_iff.1 ha) b hb⟩
  have hlen : older'.length = mine.length - n := by
    have h1 := congrArg List.length e
    have h2 := hh.size
    rw [← hmine] at h2
    rw [List.length_append] at h1
    omega
  rw [← hlen, ← e]
  simp

/-- C18: what is stored carries the time of the call, never the caller's; an accepted message is the newest in
the table; a refused one changes nothing. -/
theorem C18_add (fk : Bool) (now : Nat) (s : State) (m : Message) :
    ((addMessage fk now s m).2 = .ok () ∧
      ∃ r, (addMessage fk now s m).1.messages = s.messages ++ [r] ∧ r.createdAt = now ∧ r.id = m.id ∧
        r.session = m.session ∧ r.content = m.content ∧ r.role = m.role) ∨
    (∃ e, (addMessage fk now s m).2 = .err e ∧ (addMessage fk now s m).1 = s) := by
  unfold addMessage
  split
  · exact .inr ⟨_, rfl, rfl⟩
  · split
    · exact .inr ⟨_, rfl, rfl⟩
    · split
      · exact .inr ⟨_, rfl, rfl⟩
      · exact .inl ⟨rfl, stored now m, rfl, rfl, rfl, rfl, rfl, rfl⟩

/-- C18: message ids stay unique over every history. -/
theorem C18_ids_unique (ops : List Op) : ((run init ops).messages.map (·.id)).Nodup := by
  suffices H : ∀ s : State, (s.messages.map (·.id)).Nodup → ((run s ops).messages.map (·.id)).Nodup from
    H init (by simp [init])
  induction ops with
  | nil => intro s h; exact h
  | cons op ops ih =>
    intro s h
    refine ih _ ?_
    cases op with
    | createSession x =>
      simp only [step, createSession]; split
      · exact h
      · split <;> exact h
    | close => exact h
    | addMessage fk now m =>
      simp only [step, addMessage]
      split
      · exact h
      · split
        · exact h
        · split
          · exact h
          · rename_i h1 _
            simp only [List.map_append, List.map_cons, List.map_nil]
            rw [List.nodup_append]
            refine ⟨h, by simp, ?_⟩
            intro a ha b hb hab
            simp only [List.mem_singleton] at hb
            subst hb; subst hab
            obtain ⟨y, hy, hye⟩ := List.mem_map.1 ha
            apply h1
            rw [List.any_eq_true]
            exact ⟨y, hy, by simpa [stored] using hye⟩

example : (clock ops1).Pairwise (· < ·) ∧ (run init ops1).closed = false ∧
    ((accepted init ops1).map (·.id)) = ["a", "b", "c", "d"] := by decide
example : (match getSessionHistory cfg1 (run init ops1) "s" 2 with | .ok l => l.map (·.id) | _ => []) = ["c", "d"] := by
  decide
example : cfg1.Orders := cfg1_orders
example : ∃ out, getSessionHistory cfg1 (run init ops1) "s" 2 = .ok out ∧
    IsHistory (run init ops1).messages "s" 2 out :=
  C18_history cfg1 cfg1_orders _ (by decide) "s" 2

/-! ### C19 -/

theorem rank_topK {S : Type*} [LinearOrder S] (c : Cfg S) (q : List Int) (rows : List Message) (k : Nat) :
    IsTopK (fun m => c.sim q (m.vector.getD [])) rows k (((rank c q rows).take k).map (·.1)) := by
  let f : Message → S := fun m => c.sim q (m.vector.getD [])
  have hs := sortedFrom_exchange (fun p : Message × S => p.2) (rows.map (fun m => (m, f m)))
  have hk := isTopK_take (fun p : Message × S => p.2) _ _ k hs
  have hmem : ∀ p ∈ rank c q rows, p.2 = f p.1 := by
    intro p hp
    have := hs.1.mem_iff.1 hp
    obtain ⟨m, _, rfl⟩ := List.mem_map.1 this
    rfl
  refine ⟨?_, ?_, ?_⟩
  · rw [List.pairwise_map]
    refine List.Pairwise.imp_of_mem ?_ hk.ordered
    intro a b ha hb hab
    have ha' := hmem a (List.mem_of_mem_take ha)
    have hb' := hmem b (List.mem_of_mem_take hb)
    show f b.1 ≤ f a.1
    rw [← ha', ← hb']; exact hab
  · refine ⟨((rank c q rows).drop k).map (·.1), ?_, ?_⟩
    · rw [← List.map_append, List.take_append_drop]
      have := hs.1.map (·.1)
      simpa [rank, f, Function.comp_def] using this
    · intro r hr o ho
      obtain ⟨r', hr', rfl⟩ := List.mem_map.1 hr
      obtain ⟨o', ho', rfl⟩ := List.mem_map.1 ho
      show f r'.1 ≤ f o'.1
      rw [← hmem _ (List.mem_of_mem_drop hr'), ← hmem _ (List.mem_of_mem_take ho')]
      have := hs.2
      change (rank c q rows).Pairwise _ at this
      rw [← List.take_append_drop k (rank c q rows), List.pairwise_append] at this
      exact this.2.2 o' ho' r' hr'
  · simpa [rank] using hk.size

/-- C19: for every message table, query and non-negative limit, the result is the `limit` most similar messages
of that session (among those stored with a vector), most similar first. -/
theorem C19_session_partial {S : Type*} [LinearOrder S] (c : Cfg S) (s : State) (ho : s.closed = false)
    (q : List Int) (session : String) (limit : Int) (hl : 0 ≤ limit) :
    ∃ out, searchChatHistory c s q session limit = .ok out ∧
      IsTopK (fun m => c.sim q (m.vector.getD []))
        (s.messages.filter (fun m => m.session = session ∧ m.vector ≠ none)) limit.toNat out := by
  refine ⟨_, by
    unfold searchChatHistory
    rw [if_neg (by simp [ho])]
    simp only
    rw [if_neg (by omega)], ?_⟩
  have hf : s.messages.filter (fun m => m.session == session && m.vector.isSome) =
      s.messages.filter (fun m => decide (m.session = session ∧ m.vector ≠ none)) := by
    apply List.filter_congr
    intro x _
    cases x.vector <;> simp [beq_eq_decide]
  rw [hf]
  exact rank_topK c q _ _

/-- C19: a negative limit panics instead of returning (an error) -/
theorem C19_negative_violated : ∃ (s : State) (q : List Int) (session : String) (limit : Int),
    s.closed = false ∧ searchChatHistory cfg1 s q session limit = .panic :=
  ⟨init, [1], "s", -1, rfl, rfl⟩

/-- C19: the user-wide search returns the most similar messages of that user's sessions (without the excluded
one), at most `limit` (10 when none is given). -/
theorem C19_user {S : Type*} [LinearOrder S] (c : Cfg S) (s : State) (ho : s.closed = false)
    (user : String) (hu : user ≠ "") (q : List Int) (hq : q ≠ []) (exclude : String) (limit : Int) :
    ∃ out, searchMessagesByUser c s user q exclude limit = .ok out ∧
      IsTopK (fun m => c.sim q (m.vector.getD []))
        (s.messages.filter (fun m => m.vector ≠ none ∧ (exclude = "" ∨ m.session ≠ exclude) ∧
          ∃ x ∈ s.sessions, x.id = m.session ∧ x.user = user))
        (if 0 < limit then limit.toNat else 10) out := by
  refine ⟨_, by
    unfold searchMessagesByUser
    rw [if_neg (by cases q <;> simp_all), if_neg (by simp [ho])], ?_⟩
  have hf : s.messages.filter (fun m => m.vector.isSome && ofUser s user exclude m) =
      s.messages.filter (fun m => decide (m.vector ≠ none ∧ (exclude = "" ∨ m.session ≠ exclude) ∧
          ∃ x ∈ s.sessions, x.id = m.session ∧ x.user = user)) := by
    apply List.filter_congr
    intro x _
    rw [Bool.eq_iff_iff]
    cases x.vector <;> simp [ofUser, List.any_eq_true, and_comm]
  have hd : defLimit limit = (if 0 < limit then limit.toNat else 10) := by
    unfold defLimit; split <;> split <;> first | rfl | omega
  rw [hf, hd]
  exact rank_topK c q _ _

/-- C19: neither of the user-wide searches ever returns a message from another user's session or from the
excluded session, for every matching and ranking the full text index may use. -/
theorem C19_user_scope {S : Type*} [LinearOrder S] (c : Cfg S)
    (hfts : ∀ q l, ∀ m ∈ c.ftsOrder q l, m ∈ l) (s : State)
    (user query exclude : String) (q : List Int) (limit : Int) (out : List Message)
    (h : keywordSearchMessages c s user query exclude limit = .ok out ∨
      searchMessagesByUser c s user q exclude limit = .ok out) :
    ∀ m ∈ out, m ∈ s.messages ∧ (exclude = "" ∨ m.session ≠ exclude) ∧
      ∃ x ∈ s.sessions, x.id = m.session ∧ x.user = user := by
  have hu : ∀ m, ofUser s user exclude m = true → (exclude = "" ∨ m.session ≠ exclude) ∧
      ∃ x ∈ s.sessions, x.id = m.session ∧ x.user = user := by
    intro m hm
    simp only [ofUser, Bool.and_eq_true, List.any_eq_true, Bool.or_eq_true, beq_iff_eq, bne_iff_ne] at hm
    exact ⟨hm.2, hm.1⟩
  rcases h with h | h
  · unfold keywordSearchMessages at h
    split at h
    · simp only [Out.ok.injEq] at h; subst h; simp
    · split at h
      · cases h
      · simp only [Out.ok.injEq] at h
        subst h
        intro m hm
        have := hfts _ _ m (List.mem_of_mem_take hm)
        rw [List.mem_filter, Bool.and_eq_true] at this
        exact ⟨this.1, hu m this.2.2⟩
  · unfold searchMessagesByUser at h
    split at h
    · simp only [Out.ok.injEq] at h; subst h; simp
    · split at h
      · cases h
      · simp only [Out.ok.injEq] at h
        subst h
        intro m hm
        have := Base.IsTopK.mem (rank_topK c q _ _) hm
        rw [List.mem_filter, Bool.and_eq_true] at this
        exact ⟨this.1, hu m this.2.2⟩

example : ∃ out, searchChatHistory cfg1 (run init ops1) [4] "s" 2 = .ok out ∧ out.length = 2 := by
  obtain ⟨out, h, hk⟩ := C19_session_partial cfg1 (run init ops1) (by decide) [4] "s" 2 (by decide)
  exact ⟨out, h, by rw [hk.size]; decide⟩
example : ∃ out, searchMessagesByUser cfg1 (run init ops1) "u" [4] "t" 0 = .ok out ∧ out.length = 3 := by
  obtain ⟨out, h, hk⟩ := C19_user cfg1 (run init ops1) (by decide) "u" (by decide) [4] (by decide) "t" 0
  exact ⟨out, h, by rw [hk.size]; decide⟩
example : ∃ out, keywordSearchMessages cfg1 (run init ops1) "u" "a" "" 3 = .ok out ∧ out.length = 1 :=
  ⟨_, rfl, by decide⟩

end Verif.Chat
