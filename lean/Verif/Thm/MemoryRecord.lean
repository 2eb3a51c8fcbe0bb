import Verif.Model.MemoryRecord
import Verif.Thm.MemoryWrites

/-!
C190: the record of a memory says what was saved: role, content, metadata, importance, times. C191: whose it is.
-/
namespace Verif.MemRec
open Verif.Base Verif.Memory

/-- The metadata keys the system writes itself. -/
def reserved : List String := ["kind", "scope", "namespace", "importance", "ttl_seconds", "expires_at"]

theorem get_put (m : Info) (k : String) (v : Val) (k' : String) : get? (put m k v) k' = if k' = k then some v else get? m k' := by
  unfold get? put
  induction m with
  | nil =>
    by_cases h : k' = k
    · simp [h, List.lookup]
    · have : (k' == k) = false := by simpa using h
      simp [List.lookup, this, h]
  | cons p ps ih =>
    obtain ⟨a, w⟩ := p
    rw [List.filter_cons]
    by_cases ha : a = k
    · rw [if_neg (by simp [ha]), ih]
      by_cases h : k' = k
      · simp [h]
      · have : (k' == a) = false := by rw [ha]; simpa using h
        simp [h, List.lookup_cons, this]
    · rw [if_pos (by simp [ha])]
      simp only [List.cons_append, List.lookup_cons]
      by_cases hk : k' = a
      · simp [hk, ha]
      · have : (k' == a) = false := by simpa using hk
        rw [this]
        exact ih

theorem get_filter (m : Info) (k k' : String) : get? (m.filter (fun p => p.1 ≠ k)) k' = if k' = k then none else get? m k' := by
  unfold get?
  induction m with
  | nil => simp
  | cons p ps ih =>
    obtain ⟨a, w⟩ := p
    rw [List.filter_cons]
    by_cases ha : a = k
    · rw [if_neg (by simp [ha]), ih]
      by_cases h : k' = k
      · simp [h]
      · have : (k' == a) = false := by rw [ha]; simpa using h
        simp [h, List.lookup_cons, this]
    · rw [if_pos (by simp [ha])]
      simp only [List.lookup_cons]
      by_cases hk : k' = a
      · simp [hk, ha]
      · have : (k' == a) = false := by simpa using hk
        rw [this]
        exact ih

theorem get_putAll (m new : Info) (hn : (new.map Prod.fst).Nodup) (k : String) :
    get? (putAll m new) k = match get? new k with | some v => some v | none => get? m k := by
  unfold putAll
  induction new generalizing m with
  | nil => rfl
  | cons p ps ih =>
    obtain ⟨a, w⟩ := p
    simp only [List.map_cons, List.nodup_cons] at hn
    rw [List.foldl_cons, ih _ hn.2, get_put]
    by_cases h : k = a
    · subst h
      have h0 : get? ps k = none := by
        unfold get?
        rw [List.lookup_eq_none_iff]
        intro p hp
        have : p.1 ≠ k := fun e => hn.1 (List.mem_map.2 ⟨p, hp, e⟩)
        simpa using fun e => this e.symm
      rw [h0]
      simp [get?, List.lookup_cons]
    · have : (k == a) = false := by simpa using h
      simp only [if_neg h]
      have : get? ((a, w) :: ps) k = get? ps k := by simp [get?, List.lookup_cons, this]
      rw [this]

/-- What the metadata holds after `build`. -/
theorem get_build (now : Int) (scope ns : Text) (m : Info) (i : ℚ) (ttl : Int) (k : String) :
    get? (build now scope ns m i ttl) k =
      if k = "expires_at" then (expiresAt now ttl).map .time
      else if k = "ttl_seconds" then some (.num ttl)
      else if k = "importance" then some (.num i)
      else if k = "namespace" then some (.text ns)
      else if k = "scope" then some (.text scope)
      else if k = "kind" then some (.text "memory".toList)
      else get? m k := by
  unfold build
  simp only
  cases h : expiresAt now ttl with
  | none => simp only [get_filter, get_put, Option.map_none]
  | some t => simp only [get_put, Option.map_some]

theorem intOf_num (n : Int) : intOf (some (.num (n : ℚ))) = n := by
  unfold intOf numOf
  simp

/-- What a record made from built metadata says. -/
theorem record_build (user : Text) (id bucket role content : Text) (created now : Int) (scope ns : Text) (m : Info) (i : ℚ) (ttl : Int) :
    let r := record user ⟨id, bucket, role, content, build now scope ns m i ttl, created⟩
    r.scope = scope ∧ r.ns = ns ∧ r.importance = i ∧ r.ttl = ttl ∧ r.expires = expiresAt now ttl ∧
      ∀ k, k ∉ reserved → get? r.info k = get? m k := by
  simp only [record, get_build]
  refine ⟨by simp [textOf], by simp [textOf], by simp [numOf], ?_, ?_, ?_⟩
  · simp only [if_neg (show ("ttl_seconds" : String) ≠ "expires_at" by decide), if_true]
    exact intOf_num ttl
  · simp only [if_true]
    cases expiresAt now ttl <;> rfl
  · intro k hk
    simp only [reserved, List.mem_cons, List.not_mem_nil, or_false, not_or] at hk
    obtain ⟨h1, h2, h3, h4, h5, h6⟩ := hk
    simp [h1, h2, h3, h4, h5, h6]

theorem find_upsert (ms : List Msg) (m : Msg) :
    (upsert ms m).find? (fun x => x.id == m.id) =
      some { m with created := ((ms.find? (fun x => x.id == m.id)).map Msg.created).getD m.created } := by
  unfold upsert
  split
  · rename_i h
    induction ms with
    | nil => simp at h
    | cons x xs ih =>
      rw [List.map_cons, List.find?_cons, List.find?_cons]
      by_cases e : x.id = m.id
      · simp [e]
      · have h1 : (x.id == m.id) = false := by simpa using e
        rw [if_neg (by simpa using e), h1]
        apply ih
        rw [List.any_cons, h1] at h
        simpa using h
  · rename_i h
    have : ms.find? (fun x => x.id == m.id) = none := by
      rw [List.find?_eq_none]
      intro x hx e
      exact h (List.any_eq_true.2 ⟨x, hx, e⟩)
    rw [List.find?_append, this]
    simp

theorem lookup_isSome_of_add (bs : List (Text × Text)) (b u : Text) :
    ∃ u', (if (bs.lookup b).isSome then bs else bs ++ [(b, u)]).lookup b = some u' ∧ (bs.lookup b = none → u' = u) ∧
      (∀ w, bs.lookup b = some w → u' = w) := by
  cases h : bs.lookup b with
  | some w => exact ⟨w, by simp [h], by simp, by simp⟩
  | none =>
    refine ⟨u, ?_, by simp, by simp⟩
    simp [List.lookup_append, h, List.lookup]

/-- C190, saving: the record read afterwards says what was saved: the content, the role (or "memory"), scope and namespace in
force, the importance, the time to live with the expiry counted from now, and every metadata entry of the caller except the six
keys of the system. The creation time is that of the first save. -/
theorem C190_save (sp : Char → Bool) (lower : Char → Char) (now : Int) (s : State) (q : SaveReq)
    (h : (save sp lower now s q).2 = true) :
    ∃ r, load (save sp lower now s q).1 q.id = some r ∧ r.id = q.id ∧ r.content = q.content ∧
      r.role = (if trim sp q.role = [] then "memory".toList else q.role) ∧
      resolve sp lower q.scope q.user q.session q.ns = .ok (r.scope, r.session) ∧ r.ns = normNs sp q.ns ∧
      r.importance = q.importance ∧ r.ttl = q.ttl ∧ r.expires = expiresAt now q.ttl ∧
      (∀ k, k ∉ reserved → get? r.info k = get? q.info k) ∧
      (∀ r0, load s q.id = some r0 → r.created = r0.created) ∧
      ((∀ m ∈ s.msgs, m.id ≠ q.id) → r.created = now) := by
  unfold save at h ⊢
  by_cases h0 : q.id = []
  · rw [if_pos h0] at h; cases h
  rw [if_neg h0] at h ⊢
  by_cases h1 : trim sp q.content = []
  · rw [if_pos h1] at h; cases h
  rw [if_neg h1] at h ⊢
  cases hr : resolve sp lower q.scope q.user q.session q.ns with
  | error er => rw [hr] at h; cases h
  | ok p =>
    obtain ⟨scope, b⟩ := p
    simp only
    obtain ⟨u, hu, _, _⟩ := lookup_isSome_of_add s.buckets b q.user
    obtain ⟨e1, e2, e3, e4, e5, e6⟩ := record_build u q.id b (if trim sp q.role = [] then "memory".toList else q.role) q.content
      (((s.msgs.find? (fun x => x.id == q.id)).map Msg.created).getD now) now scope (normNs sp q.ns) q.info q.importance q.ttl
    refine ⟨_, ?_, rfl, rfl, rfl, ?_, e2, e3, e4, e5, e6, ?_, ?_⟩
    · unfold load
      rw [if_neg h0, find_upsert _ ⟨q.id, b, _, _, _, _⟩]
      simp only [Option.bind_some, hu, Option.map_some]
    · rw [e1]; rfl
    · intro r0 hr0
      unfold load at hr0
      rw [if_neg h0] at hr0
      simp only [record]
      cases hf : s.msgs.find? (fun x => x.id == q.id) with
      | none => rw [hf] at hr0; cases hr0
      | some m =>
        rw [hf] at hr0
        simp only [Option.bind_some, Option.map_eq_some_iff] at hr0
        obtain ⟨u0, _, rfl⟩ := hr0
        simp [record]
    · intro hn
      have : s.msgs.find? (fun x => x.id == q.id) = none := by
        rw [List.find?_eq_none]
        intro x hx
        simpa using hn x hx
      simp [record, this]

/-- C190, updating: what is not mentioned stays, what is mentioned is replaced, metadata entries are merged; the keys of the
system and the creation time cannot be changed this way. -/
theorem C190_update (sp : Char → Bool) (now : Int) (s : State) (q : UpdateReq) (hn : (q.info.map Prod.fst).Nodup) (r0 : Record)
    (h0 : load s q.id = some r0) (h : (update sp now s q).2 = true) :
    ∃ r, load (update sp now s q).1 q.id = some r ∧ r.id = r0.id ∧ r.user = r0.user ∧ r.session = r0.session ∧
      r.scope = r0.scope ∧ r.ns = r0.ns ∧ r.role = r0.role ∧ r.created = r0.created ∧
      r.content = q.content.getD r0.content ∧ r.importance = q.importance.getD r0.importance ∧
      r.ttl = q.ttl.getD r0.ttl ∧ r.expires = expiresAt now (q.ttl.getD r0.ttl) ∧
      (∀ k, k ∉ reserved → get? r.info k = match get? q.info k with | some v => some v | none => get? r0.info k) := by
  have h0' := h0
  unfold load at h0'
  by_cases hid : q.id = []
  · rw [if_pos hid] at h0'; cases h0'
  rw [if_neg hid] at h0'
  unfold update at h ⊢
  rw [h0] at h ⊢
  simp only at h ⊢
  split at h
  · cases h
  rename_i hb
  rw [if_neg hb]
  cases hf : s.msgs.find? (fun x => x.id == q.id) with
  | none => rw [hf] at h0'; cases h0'
  | some m =>
    rw [hf] at h0'
    simp only [Option.bind_some, Option.map_eq_some_iff] at h0'
    obtain ⟨u, hu, rfl⟩ := h0'
    have hfind : ∀ (f : Msg → Msg), (∀ x, (f x).id = x.id) → (s.msgs.map (fun x => if x.id == q.id then f x else x)).find? (fun x => x.id == q.id) = some (f m) := by
      intro f hfid
      generalize s.msgs = ms at hf
      clear * - hf hfid
      induction ms with
      | nil => simp at hf
      | cons x xs ih =>
        rw [List.find?_cons] at hf
        rw [List.map_cons, List.find?_cons]
        by_cases e : x.id = q.id
        · simp only [e, beq_self_eq_true] at hf
          cases hf
          simp [e, hfid]
        · have h1 : (x.id == q.id) = false := by simpa using e
          rw [h1] at hf
          rw [if_neg (by simpa using e), h1]
          exact ih hf
    obtain ⟨e1, e2, e3, e4, e5, e6⟩ := record_build u m.id m.bucket m.role (q.content.getD (record u m).content) m.created now
      (record u m).scope (record u m).ns (putAll (record u m).info q.info) (q.importance.getD (record u m).importance)
      (q.ttl.getD (record u m).ttl)
    refine ⟨record u ⟨m.id, m.bucket, m.role, q.content.getD (record u m).content, build now (record u m).scope (record u m).ns
      (putAll (record u m).info q.info) (q.importance.getD (record u m).importance) (q.ttl.getD (record u m).ttl), m.created⟩,
      ?_, rfl, rfl, rfl, e1, e2, rfl, rfl, rfl, e3, e4, e5, ?_⟩
    · unfold load
      rw [if_neg hid]
      simp only
      rw [hfind (fun x => { x with content := q.content.getD (record u m).content, info := _ }) (fun _ => rfl)]
      simp only [Option.bind_some, hu, Option.map_some]
    · intro k hk
      rw [e6 k hk, get_putAll _ _ hn]

theorem find_filter_ne (ms : List Msg) (id i : Text) (h : i ≠ id) :
    (ms.filter (fun m => m.id != id)).find? (fun m => m.id == i) = ms.find? (fun m => m.id == i) := by
  induction ms with
  | nil => rfl
  | cons m ms ih =>
    rw [List.filter_cons, List.find?_cons]
    by_cases e : m.id = id
    · rw [if_neg (by simp [e]), ih]
      have : (m.id == i) = false := by rw [e]; simpa using fun k : id = i => h k.symm
      rw [this]
    · rw [if_pos (by simpa using e), List.find?_cons, ih]

theorem lookup_filter_ne (l : List (Text × Text)) (a b : Text) (h : a ≠ b) :
    (l.filter (fun p => p.1 != b)).lookup a = l.lookup a := by
  induction l with
  | nil => rfl
  | cons p l ih =>
    obtain ⟨x, y⟩ := p
    rw [List.filter_cons]
    by_cases e : x = b
    · rw [if_neg (by simp [e]), ih, List.lookup_cons]
      have : (a == x) = false := by rw [e]; simpa using h
      rw [this]
    · rw [if_pos (by simpa using e), List.lookup_cons, List.lookup_cons, ih]

/-- C190, deleting: the memory is gone and every other one is read as before, whatever the state. -/
theorem C190_delete (s : State) (id : Text) : load (delete s id) id = none ∧ ∀ i, i ≠ id → load (delete s id) i = load s i := by
  unfold delete
  cases hl : load s id with
  | none => exact ⟨hl, fun _ _ => rfl⟩
  | some r =>
    simp only
    constructor
    · unfold load
      split
      · rfl
      · have : (s.msgs.filter (fun m => m.id != id)).find? (fun m => m.id == id) = none := by
          rw [List.find?_eq_none]
          intro x hx
          simpa using (List.mem_filter.1 hx).2
        rw [this]
        rfl
    · intro i hi
      unfold load
      split
      · rfl
      · rw [find_filter_ne _ _ _ hi]
        cases hf : s.msgs.find? (fun m => m.id == i) with
        | none => rfl
        | some m =>
          simp only [Option.bind_some]
          congr 1
          split
          · rfl
          · rename_i hany
            apply lookup_filter_ne
            intro e
            apply hany
            rw [List.any_eq_true]
            refine ⟨m, List.mem_filter.2 ⟨List.mem_of_find?_eq_some hf, ?_⟩, by simpa using e⟩
            have := List.find?_some hf
            simp only [beq_iff_eq] at this
            simpa [this] using hi

theorem find_map_other (ms : List Msg) (j i : Text) (f : Msg → Msg) (hf : ∀ x, (f x).id = x.id ∨ (f x).id = j) (h : i ≠ j) :
    (ms.map (fun x => if x.id == j then f x else x)).find? (fun m => m.id == i) = ms.find? (fun m => m.id == i) := by
  induction ms with
  | nil => rfl
  | cons m ms ih =>
    rw [List.map_cons, List.find?_cons, List.find?_cons, ih]
    by_cases e : m.id = j
    · have h1 : (m.id == i) = false := by rw [e]; simpa using fun k : j = i => h k.symm
      have h2 : ((f m).id == i) = false := by
        rcases hf m with k | k
        · rw [k, h1]
        · rw [k]; simpa using fun k : j = i => h k.symm
      rw [if_pos (by simpa using e), h1, h2]
    · rw [if_neg (by simpa using e)]

/-- C190, the other memories: a save or an update of one memory, successful or not, leaves every other one as it was read before. -/
theorem C190_others (sp : Char → Bool) (lower : Char → Char) (now : Int) (s : State) (i : Text) (r : Record) (h : load s i = some r) :
    (∀ q : SaveReq, i ≠ q.id → load (save sp lower now s q).1 i = some r) ∧
    (∀ q : UpdateReq, i ≠ q.id → load (update sp now s q).1 i = some r) := by
  have h' := h
  unfold load at h'
  by_cases h0 : i = []
  · rw [if_pos h0] at h'; cases h'
  rw [if_neg h0] at h'
  cases hf : s.msgs.find? (fun m => m.id == i) with
  | none => rw [hf] at h'; cases h'
  | some m =>
    rw [hf, Option.bind_some, Option.map_eq_some_iff] at h'
    obtain ⟨u, hu, hr⟩ := h'
    constructor
    · intro q hq
      unfold save
      split
      · exact h
      split
      · exact h
      split
      · exact h
      · rename_i scope b _
        simp only
        unfold load
        rw [if_neg h0]
        have h1 : ∀ x : Msg, x.id = q.id → (upsert s.msgs x).find? (fun m => m.id == i) = some m := by
          intro x hx
          unfold upsert
          split
          · have := find_map_other s.msgs x.id i (fun y => { x with created := y.created }) (fun _ => .inr rfl) (by rw [hx]; exact hq)
            rw [← hf]
            exact this
          · rw [List.find?_append, hf]
            rfl
        rw [h1 _ rfl]
        simp only [Option.bind_some]
        have h2 : (if (s.buckets.lookup b).isSome then s.buckets else s.buckets ++ [(b, q.user)]).lookup m.bucket = some u := by
          split
          · exact hu
          · rw [List.lookup_append, hu]; rfl
        rw [h2, Option.map_some, hr]
    · intro q hq
      unfold update
      split
      · exact h
      · simp only
        split
        · exact h
        · unfold load
          rw [if_neg h0]
          rename_i r' _ _
          have := find_map_other s.msgs q.id i (fun x => { x with
            content := q.content.getD r'.content
            info := build now r'.scope r'.ns (putAll r'.info q.info) (q.importance.getD r'.importance) (q.ttl.getD r'.ttl) })
            (fun _ => .inl rfl) hq
          simp only [this, hf, Option.bind_some, hu, Option.map_some, hr]

/-- C190: a save that is refused, an update of a memory that is not there and one with a blank text change nothing. -/
theorem C190_refused (sp : Char → Bool) (lower : Char → Char) (now : Int) (s : State) :
    (∀ q : SaveReq, (save sp lower now s q).2 = false → (save sp lower now s q).1 = s) ∧
    (∀ q : UpdateReq, (update sp now s q).2 = false → (update sp now s q).1 = s) ∧
    (∀ q : UpdateReq, load s q.id = none → (update sp now s q).2 = false) ∧
    (∀ q : UpdateReq, q.content.map (trim sp) = some [] → (update sp now s q).2 = false) := by
  refine ⟨?_, ?_, ?_, ?_⟩
  · intro q
    unfold save
    split
    · simp
    split
    · simp
    split <;> simp
  · intro q
    unfold update
    split
    · simp
    · simp only
      split <;> simp
  · intro q hq
    unfold update
    rw [hq]
  · intro q hq
    unfold update
    split
    · rfl
    · simp only
      rw [if_pos]
      cases hc : q.content with
      | none => rw [hc] at hq; cases hq
      | some c =>
        rw [hc] at hq
        simp only [Option.map_some, Option.some.injEq] at hq
        simp [hq]

/-! ### C191 -/

theorem mem_lookup (l : List (Text × Text)) (a b : Text) (h : l.lookup a = some b) : (a, b) ∈ l := by
  induction l with
  | nil => cases h
  | cons p ps ih =>
    obtain ⟨x, y⟩ := p
    rw [List.lookup_cons] at h
    by_cases e : a = x
    · subst e
      simp only [beq_self_eq_true, Option.some.injEq] at h
      simp [h]
    · have : (a == x) = false := by simpa using e
      rw [this] at h
      exact List.mem_cons_of_mem _ (ih h)

/-- Every bucket was made by a save with this user, and every memory lies in one. -/
structure Good (sp : Char → Bool) (lower : Char → Char) (s : State) (ops : List (Int × Op)) : Prop where
  made : ∀ b u, (b, u) ∈ s.buckets → ∃ t q sc, (t, Op.save q) ∈ ops ∧ q.user = u ∧
    resolve sp lower q.scope q.user q.session q.ns = .ok (sc, b)

theorem good_step (sp : Char → Bool) (lower : Char → Char) (s : State) (ops : List (Int × Op)) (p : Int × Op)
    (h : Good sp lower s ops) : Good sp lower (step sp lower s p) (ops ++ [p]) := by
  have mono : ∀ b u, (b, u) ∈ s.buckets → ∃ t q sc, (t, Op.save q) ∈ ops ++ [p] ∧ q.user = u ∧
      resolve sp lower q.scope q.user q.session q.ns = .ok (sc, b) := by
    intro b u hb
    obtain ⟨t, q, sc, h1, h2, h3⟩ := h.made b u hb
    exact ⟨t, q, sc, List.mem_append_left _ h1, h2, h3⟩
  obtain ⟨now, op⟩ := p
  cases op with
  | save q =>
    constructor
    intro b u hb
    simp only [step] at hb
    unfold save at hb
    split at hb
    · exact mono b u hb
    · split at hb
      · exact mono b u hb
      · split at hb
        · exact mono b u hb
        · rename_i scope bucket hr
          simp only at hb
          split at hb
          · exact mono b u hb
          · rcases List.mem_append.1 hb with h1 | h1
            · exact mono b u h1
            · simp only [List.mem_singleton, Prod.mk.injEq] at h1
              obtain ⟨rfl, rfl⟩ := h1
              exact ⟨now, q, scope, by simp, rfl, hr⟩
  | update q =>
    constructor
    intro b u hb
    apply mono
    simp only [step] at hb
    unfold update at hb
    split at hb
    · exact hb
    · simp only at hb
      split at hb <;> exact hb
  | delete id =>
    constructor
    intro b u hb
    apply mono
    simp only [step] at hb
    unfold delete at hb
    split at hb
    · exact hb
    · simp only at hb
      split at hb
      · exact hb
      · exact (List.mem_filter.1 hb).1

theorem good_run (sp : Char → Bool) (lower : Char → Char) (ops : List (Int × Op)) : Good sp lower (run sp lower init ops) ops := by
  suffices H : ∀ (post pre : List (Int × Op)) (s : State), Good sp lower s pre → Good sp lower (run sp lower s post) (pre ++ post) from by
    simpa using H ops [] init ⟨by simp [init]⟩
  intro post
  induction post with
  | nil => intro pre s hs; simpa [run] using hs
  | cons p ps ih =>
    intro pre s hs
    have := ih (pre ++ [p]) _ (good_step sp lower s pre p hs)
    simpa [run] using this

/-- C191 for memories in the scope of a user, when user and session ids have no colon: after any history a saved memory is
reported with the id of the user who saved it. Missing: the other scopes (see `C191_global_violated`) and ids with a colon. -/
theorem C191_user_partial (sp : Char → Bool) (lower : Char → Char) (ops : List (Int × Op))
    (hops : ∀ t q, (t, Op.save q) ∈ ops → ':' ∉ q.user ∧ ':' ∉ q.session) (now : Int) (q : SaveReq)
    (hq : ':' ∉ q.user ∧ ':' ∉ q.session) (b : Text)
    (hr : resolve sp lower q.scope q.user q.session q.ns = .ok (sUser, b))
    (h : (save sp lower now (run sp lower init ops) q).2 = true) (r : Record)
    (hl : load (save sp lower now (run sp lower init ops) q).1 q.id = some r) : r.user = q.user := by
  have hg := (good_run sp lower ops).made
  generalize run sp lower init ops = s at *
  unfold save at h hl
  by_cases h0 : q.id = []
  · rw [if_pos h0] at h; cases h
  rw [if_neg h0] at h hl
  by_cases h1 : trim sp q.content = []
  · rw [if_pos h1] at h; cases h
  rw [if_neg h1, hr] at hl
  simp only at hl
  obtain ⟨u, hu, n1, n2⟩ := lookup_isSome_of_add s.buckets b q.user
  unfold load at hl
  rw [if_neg h0, find_upsert _ ⟨q.id, b, _, _, _, _⟩] at hl
  simp only [Option.bind_some, hu, Option.map_some, Option.some.injEq] at hl
  subst hl
  simp only [record]
  cases hb : s.buckets.lookup b with
  | none => exact n1 hb
  | some w =>
    have hw := n2 w hb
    have hmem : (b, w) ∈ s.buckets := mem_lookup _ _ _ hb
    obtain ⟨t, q', sc, k1, k2, k3⟩ := hg b w hmem
    have kk := hops t q' k1
    have ow : ∀ (sc u s : Text), ':' ∉ u → ':' ∉ s → ':' ∉ owner sc u s := by
      intro sc u s a b
      unfold owner
      split
      · exact a
      · split
        · exact b
        · simp
    have := C67_resolve_partial sp lower _ _ _ _ _ _ _ _ _ _ _ k3 hr (ow _ _ _ kk.1 kk.2) (ow _ _ _ hq.1 hq.2)
    obtain ⟨e1, e2, _⟩ := this
    subst e1
    simp only [owner, if_true] at e2
    rw [hw, ← k2, e2]

/-- Identity of letters and the one blank, for examples. -/
def alice : SaveReq := ⟨"m1".toList, "alice".toList, [], sGlobal, [], [], "hers".toList, [], 0, 0⟩
def bob : SaveReq := ⟨"m2".toList, "bob".toList, [], sGlobal, [], [], "his".toList, [], 0, 0⟩

/-- C191 fails in the global scope (and for sessions shared by users): the user reported is the one whose save made the bucket. -/
theorem C191_global_violated :
    (load (run sp0 id init [(0, .save alice), (0, .save bob)]) bob.id).map Record.user = some alice.user := by decide +kernel

/-- C191 fails for the session: the record never names the session the memory was saved for, but an internal name that contains
it. -/
theorem C191_session_violated (sp : Char → Bool) (lower : Char → Char) (now : Int) (s : State) (q : SaveReq)
    (h : (save sp lower now s q).2 = true) (r : Record) (hl : load (save sp lower now s q).1 q.id = some r)
    (hs : r.scope = sSession) : r.session ≠ q.session := by
  obtain ⟨r', h1, _, _, _, h2, _⟩ := C190_save sp lower now s q h
  rw [hl] at h1
  cases h1
  intro e
  rcases resolve_shape sp lower _ _ _ _ _ _ h2 with ⟨k, _⟩ | ⟨k, _⟩ | ⟨_, k⟩
  · rw [hs] at k; exact absurd k (by decide)
  · rw [hs] at k; exact absurd k (by decide)
  · rw [e] at k
    have := congrArg List.length k
    simp at this
    omega

/-- C191 fails in a semantic search: no user is reported, whoever saved the memory. -/
theorem C191_semantic_violated (m : Msg) : (semanticRecord m).user = [] := rfl

/-! ### Examples -/

example : (load (run sp0 id init [(7, .save { alice with info := [("mood", .text "glad".toList), ("scope", .text "x".toList)], ttl := 5 }),
      (9, .update ⟨"m1".toList, none, [("colour", .num 3)], some 2, none⟩)]) "m1".toList).map
    (fun r => (get? r.info "mood", get? r.info "colour", r.scope, r.importance, r.ttl)) =
    some (some (.text "glad".toList), some (.num 3), sGlobal, 2, 5) := by decide +kernel

example : (save sp0 id 0 (run sp0 id init [(0, .save { alice with scope := [] })]) { bob with scope := sUser }).2 = true ∧
    resolve sp0 id sUser bob.user bob.session bob.ns = .ok (sUser, "memory:user:bob:default".toList) := by decide +kernel

example : ∃ r, (save sp0 id 0 init { alice with scope := sSession, session := "s".toList }).2 = true ∧
    load (save sp0 id 0 init { alice with scope := sSession, session := "s".toList }).1 alice.id = some r ∧ r.scope = sSession :=
  ⟨_, by decide +kernel, rfl, by decide +kernel⟩

/-- Deleting one of two memories of a bucket: the other is read as before. -/
example : load (delete (run sp0 id init [(0, .save alice), (0, .save bob)]) alice.id) bob.id =
    load (run sp0 id init [(0, .save alice), (0, .save bob)]) bob.id ∧
    (load (run sp0 id init [(0, .save alice), (0, .save bob)]) bob.id).isSome ∧ bob.id ≠ alice.id := by decide +kernel

end Verif.MemRec
