import Verif.Thm.Memory
import Mathlib.Data.List.Nodup
import Mathlib.Tactic.Ring

/-!
C187: a memory is what was last saved or updated. C188: which saves and searches are refused, and the default namespace.
C189: keyword search of memories ranks by the best query.
-/
namespace Verif.Memory
open Verif.Base Verif.Spec

variable {V S : Type*} [LinearOrder S]

/-- `GetMemory` (memory_api.go:131-137) is `load`. -/
abbrev get (s : State V) (id : Text) : Except Err (Row V) := load s id

/-! ### Histories -/

/-- Every memory lies in a bucket that exists, ids are distinct and not empty. -/
structure Good (s : State V) : Prop where
  held : ∀ r ∈ s.rows, r.bucket ∈ s.buckets
  once : (s.rows.map Row.id).Nodup

theorem upsertRow_ids (rows : List (Row V)) (r : Row V) :
    (upsertRow rows r).map Row.id = if r.id ∈ rows.map Row.id then rows.map Row.id else rows.map Row.id ++ [r.id] := by
  unfold upsertRow
  by_cases h : rows.any (fun x => x.id == r.id)
  · have hm : r.id ∈ rows.map Row.id := by
      obtain ⟨x, hx, e⟩ := List.any_eq_true.1 h
      exact List.mem_map.2 ⟨x, hx, by simpa using e⟩
    rw [if_pos h, if_pos hm, List.map_map]
    apply List.map_congr_left
    intro x _
    by_cases e : x.id = r.id <;> simp [e]
  · have hm : r.id ∉ rows.map Row.id := by
      intro hm
      obtain ⟨x, hx, e⟩ := List.mem_map.1 hm
      exact h (List.any_eq_true.2 ⟨x, hx, by simpa using e⟩)
    rw [if_neg h, if_neg hm]
    simp

theorem ensureBucket_rows (s : State V) (b : Text) : (ensureBucket s b).rows = s.rows := by
  unfold ensureBucket; split <;> rfl

theorem ensureBucket_mem (s : State V) (b x : Text) : x ∈ (ensureBucket s b).buckets ↔ x ∈ s.buckets ∨ x = b := by
  unfold ensureBucket
  split
  · rename_i h
    constructor
    · exact .inl
    · rintro (h1 | rfl) <;> assumption
  · simp

theorem good_bucket (s : State V) (b : Text) (h : Good s) : Good (ensureBucket s b) := by
  refine ⟨?_, ?_⟩
  · intro r hr
    rw [ensureBucket_rows] at hr
    exact (ensureBucket_mem s b _).2 (.inl (h.held r hr))
  · rw [ensureBucket_rows]; exact h.once

theorem good_step (e : Env V S) (s : State V) (p : Int × Op) (h : Good s) : Good (step e s p) := by
  obtain ⟨now, op⟩ := p
  cases op with
  | save q =>
    simp only [step]
    unfold save
    split
    · exact h
    · split
      · exact h
      · split
        · exact h
        · rename_i sc b _
          simp only
          split
          · exact good_bucket s b h
          · refine ⟨?_, ?_⟩
            · intro r hr
              rcases upsertRow_mem _ _ _ hr with ⟨h1, _⟩ | h1
              · exact (good_bucket s b h).held r h1
              · subst h1
                exact (ensureBucket_mem s b b).2 (.inr rfl)
            · simp only
              rw [upsertRow_ids]
              split
              · exact (good_bucket s b h).once
              · rename_i hn
                refine List.nodup_append.2 ⟨(good_bucket s b h).once, by simp, ?_⟩
                intro a ha c hc
                simp only [List.mem_singleton] at hc
                subst hc
                exact fun e => hn (e ▸ ha)
  | update q =>
    simp only [step]
    unfold update
    split
    · exact h
    · rename_i row _
      simp only
      split
      · exact h
      · refine ⟨?_, ?_⟩
        · intro r hr
          obtain ⟨x, hx, rfl⟩ := List.mem_map.1 hr
          have := h.held x hx
          split <;> exact this
        · simp only
          rw [List.map_map]
          refine (congrArg List.Nodup (List.map_congr_left ?_)).mpr h.once
          intro x _
          simp only [Function.comp]
          split <;> rfl
  | delete id =>
    simp only [step]
    unfold delete
    split
    · exact h
    · rename_i row _
      refine ⟨?_, ?_⟩
      · intro r hr
        simp only at hr ⊢
        have hb := h.held r (List.mem_filter.1 hr).1
        split
        · exact hb
        · rename_i hn
          refine List.mem_filter.2 ⟨hb, ?_⟩
          simp only [bne_iff_ne, ne_eq]
          intro e
          exact hn (List.any_eq_true.2 ⟨r, hr, by simpa using e⟩)
      · exact List.Nodup.sublist (List.filter_sublist.map _) h.once

theorem good_run (e : Env V S) (ops : List (Int × Op)) : Good (run e (init : State V) ops) := by
  suffices H : ∀ s : State V, Good s → Good (run e s ops) from H _ ⟨by simp [init], by simp [init]⟩
  intro s hs
  unfold run
  induction ops generalizing s with
  | nil => exact hs
  | cons p ps ih => exact ih _ (good_step e s p hs)

/-! ### Reading -/

theorem find_upsert (rows : List (Row V)) (r : Row V) : (upsertRow rows r).find? (fun x => x.id == r.id) = some r := by
  unfold upsertRow
  split
  · rename_i h
    induction rows with
    | nil => simp at h
    | cons x xs ih =>
      rw [List.map_cons, List.find?_cons]
      by_cases e : x.id = r.id
      · simp [e]
      · rw [if_neg (by simpa using e)]
        have : (x.id == r.id) = false := by simpa using e
        rw [this]
        simp only
        apply ih
        rw [List.any_cons, this] at h
        simpa using h
  · rename_i h
    rw [List.find?_append]
    have : rows.find? (fun x => x.id == r.id) = none := by
      rw [List.find?_eq_none]
      intro x hx e
      exact h (List.any_eq_true.2 ⟨x, hx, e⟩)
    rw [this]
    simp

theorem find_upsert_other (rows : List (Row V)) (r : Row V) (id : Text) (hid : id ≠ r.id) :
    (upsertRow rows r).find? (fun x => x.id == id) = rows.find? (fun x => x.id == id) := by
  unfold upsertRow
  split
  · clear * - hid
    induction rows with
    | nil => rfl
    | cons x xs ih =>
      rw [List.map_cons, List.find?_cons, List.find?_cons, ih]
      by_cases e : x.id = r.id
      · have h1 : (x.id == id) = false := by rw [e]; simpa using fun h => hid h.symm
        have h2 : (r.id == id) = false := by simpa using fun h => hid h.symm
        simp [e, h2]
      · simp [e]
  · rw [List.find?_append]
    have h2 : (r.id == id) = false := by simpa using fun h => hid h.symm
    simp [List.find?_cons, h2]

theorem find_map_same (rows : List (Row V)) (id : Text) (f : Row V → Row V) (hf : ∀ x, (f x).id = x.id) :
    (rows.map (fun x => if x.id == id then f x else x)).find? (fun x => x.id == id) =
      (rows.find? (fun x => x.id == id)).map f := by
  induction rows with
  | nil => rfl
  | cons x xs ih =>
    rw [List.map_cons, List.find?_cons, List.find?_cons, ih]
    by_cases e : x.id = id
    · simp [e, hf]
    · have h1 : (x.id == id) = false := by simpa using e
      simp [h1]

theorem find_map_other (rows : List (Row V)) (id id' : Text) (f : Row V → Row V) (hf : ∀ x, (f x).id = x.id) (h : id' ≠ id) :
    (rows.map (fun x => if x.id == id then f x else x)).find? (fun x => x.id == id') = rows.find? (fun x => x.id == id') := by
  induction rows with
  | nil => rfl
  | cons x xs ih =>
    rw [List.map_cons, List.find?_cons, List.find?_cons, ih]
    by_cases e : x.id = id
    · have h1 : (id == id') = false := by simpa using fun k => h k.symm
      simp [e, hf, h1]
    · simp [e]

theorem load_ok (s : State V) (id : Text) (r : Row V) :
    load s id = .ok r ↔ id ≠ [] ∧ s.rows.find? (fun x => x.id == id) = some r ∧ r.bucket ∈ s.buckets := by
  unfold load
  by_cases h : id = []
  · simp [h]
  · rw [if_neg h]
    cases hf : s.rows.find? (fun x => x.id == id) with
    | none => simp
    | some x =>
      by_cases hb : x.bucket ∈ s.buckets
      · simp only [hb, if_true, Except.ok.injEq, Option.some.injEq]
        constructor
        · rintro rfl; exact ⟨h, rfl, hb⟩
        · exact fun k => k.2.1
      · simp only [hb, if_false]
        constructor
        · intro k; cases k
        · rintro ⟨_, k, k2⟩; cases k; exact absurd k2 hb

/-- On the states that occur a memory that is stored is found. -/
theorem load_good (s : State V) (h : Good s) (id : Text) (hid : id ≠ []) :
    load s id = match s.rows.find? (fun x => x.id == id) with | some r => .ok r | none => .error .notFound := by
  unfold load
  rw [if_neg hid]
  cases hf : s.rows.find? (fun x => x.id == id) with
  | none => rfl
  | some x => simp only; rw [if_pos (h.held x (List.mem_of_find?_eq_some hf))]

/-! ### C187 -/

/-- The vector the embedder gives for a text: none without an embedder. -/
def VectorOf (e : Env V S) (content : Text) (v : Option V) : Prop :=
  match e.embedder with
  | none => v = none
  | some f => ∃ x, f content = some x ∧ v = some x

theorem embedContent_ok (e : Env V S) (c : Text) (v : Option V) : embedContent e c = .ok v ↔ VectorOf e c v := by
  unfold embedContent VectorOf
  cases e.embedder with
  | none => simp [eq_comm]
  | some f =>
    simp only
    cases f c with
    | none => simp
    | some x => simp [eq_comm]

/-- C187, saving: whatever was stored before, a save that succeeds makes a read of the id return the content, owner's bucket,
namespace and time to live of this request, the vector of the content, and an expiry counted from now. -/
theorem C187_save (e : Env V S) (now : Int) (s : State V) (q : SaveReq) (h : (save e now s q).2 = .ok ()) :
    ∃ r sc, get (save e now s q).1 q.id = .ok r ∧ r.id = q.id ∧ r.content = q.content ∧
      resolve e.sp e.lower q.scope q.user q.session q.ns = .ok (sc, r.bucket) ∧ r.scope = sc ∧ r.ns = normNs e.sp q.ns ∧
      r.ttl = q.ttl ∧ r.expires = expiresAt now q.ttl ∧ VectorOf e q.content r.vector := by
  unfold save at h ⊢
  by_cases h0 : q.id = []
  · rw [if_pos h0] at h; cases h
  rw [if_neg h0] at h ⊢
  by_cases h1 : trim e.sp q.content = []
  · rw [if_pos h1] at h; cases h
  rw [if_neg h1] at h ⊢
  cases hr : resolve e.sp e.lower q.scope q.user q.session q.ns with
  | error er => rw [hr] at h; cases h
  | ok p =>
    obtain ⟨sc, b⟩ := p
    rw [hr] at h
    simp only at h ⊢
    cases hv : embedContent e q.content with
    | error er => rw [hv] at h; cases h
    | ok v =>
      rw [hv] at h
      simp only
      let r : Row V := { id := q.id, bucket := b, content := q.content, vector := v, scope := sc, ns := normNs e.sp q.ns, ttl := q.ttl, expires := expiresAt now q.ttl }
      exact ⟨r, sc, (load_ok _ _ _).2 ⟨h0, find_upsert _ r, (ensureBucket_mem s b b).2 (.inr rfl)⟩, rfl, rfl, rfl, rfl, rfl,
        rfl, rfl, (embedContent_ok e _ _).1 hv⟩

/-- C187, updating: what the request does not mention stays (content, vector, owner, namespace, time to live), what it mentions
is replaced; the expiry is counted again from now. -/
theorem C187_update (e : Env V S) (now : Int) (s : State V) (q : UpdateReq) (row : Row V) (hl : get s q.id = .ok row)
    (h : (update e now s q).2 = .ok ()) :
    ∃ r, get (update e now s q).1 q.id = .ok r ∧ r.id = row.id ∧ r.bucket = row.bucket ∧ r.scope = row.scope ∧
      r.ns = row.ns ∧ r.content = q.content.getD row.content ∧ r.ttl = q.ttl.getD row.ttl ∧
      r.expires = expiresAt now (q.ttl.getD row.ttl) ∧
      (q.content = none → r.vector = row.vector) ∧ (∀ c, q.content = some c → VectorOf e c r.vector) := by
  have hl' := (load_ok s q.id row).1 hl
  have hl2 : load s q.id = .ok row := hl
  unfold update at h ⊢
  rw [hl2] at h ⊢
  simp only at h ⊢
  split at h
  · cases h
  rename_i c v hcv
  refine ⟨{ row with content := c, vector := v, scope := row.scope, ns := row.ns, ttl := q.ttl.getD row.ttl, expires := expiresAt now (q.ttl.getD row.ttl) },
    (load_ok _ _ _).2 ⟨hl'.1, ?_, hl'.2.2⟩, rfl, rfl, rfl, rfl, ?_, rfl, rfl, ?_, ?_⟩
  · simp only
    rw [find_map_same s.rows q.id (fun x => { x with content := c, vector := v, scope := row.scope, ns := row.ns, ttl := q.ttl.getD row.ttl, expires := expiresAt now (q.ttl.getD row.ttl) }) (fun _ => rfl)]
    rw [hl'.2.1]
    rfl
  · cases hq : q.content with
    | none => rw [hq] at hcv; simp only [Except.ok.injEq, Prod.mk.injEq] at hcv; simp [hcv.1]
    | some c' =>
      rw [hq] at hcv
      simp only at hcv
      split at hcv
      · cases hcv
      · split at hcv
        · cases hcv
        · simp only [Except.ok.injEq, Prod.mk.injEq] at hcv; simp [hcv.1]
  · intro hq
    rw [hq] at hcv
    simp only [Except.ok.injEq, Prod.mk.injEq] at hcv
    exact hcv.2.symm
  · intro c' hq
    rw [hq] at hcv
    simp only at hcv
    split at hcv
    · cases hcv
    · split at hcv
      · cases hcv
      · rename_i v' hv'
        simp only [Except.ok.injEq, Prod.mk.injEq] at hcv
        rw [← hcv.2]
        exact (embedContent_ok e _ _).1 hv'

/-- C187, deleting: the memory is gone, also when the state is any other state the calls lead to; afterwards its bucket exists
exactly if another memory lies in it. -/
theorem C187_delete (e : Env V S) (ops : List (Int × Op)) (id : Text)
    (h : (delete (run e (init : State V) ops) id).2 = .ok ()) :
    get (delete (run e (init : State V) ops) id).1 id = .error .notFound ∧
    ∀ row, get (run e (init : State V) ops) id = .ok row →
      (row.bucket ∈ (delete (run e (init : State V) ops) id).1.buckets ↔
        ∃ r ∈ (run e (init : State V) ops).rows, r.id ≠ id ∧ r.bucket = row.bucket) := by
  generalize run e (init : State V) ops = s at h
  have h2 := h
  unfold delete at h2
  cases hl : load s id with
  | error er => rw [hl] at h2; cases h2
  | ok row =>
    have hl' := (load_ok s id row).1 hl
    have hd : (delete s id).1 = { buckets := if (s.rows.filter (fun r => r.id != id)).any (fun r => r.bucket == row.bucket) then s.buckets else s.buckets.filter (fun b => b != row.bucket), rows := s.rows.filter (fun r => r.id != id) } := by
      unfold delete; rw [hl]
    rw [hd]
    constructor
    · unfold get load
      rw [if_neg hl'.1]
      have : (s.rows.filter (fun r => r.id != id)).find? (fun x => x.id == id) = none := by
        rw [List.find?_eq_none]
        intro x hx k
        have := (List.mem_filter.1 hx).2
        simp_all
      simp only [this]
    · intro row' hrow'
      have : row' = row := by
        have := hl.symm.trans hrow'
        simpa using this.symm
      subst this
      simp only
      split
      · rename_i ha
        obtain ⟨x, hx, ex⟩ := List.any_eq_true.1 ha
        have hx' := List.mem_filter.1 hx
        exact ⟨fun _ => ⟨x, hx'.1, by simpa using hx'.2, by simpa using ex⟩, fun _ => hl'.2.2⟩
      · rename_i ha
        constructor
        · intro hm
          have := (List.mem_filter.1 hm).2
          simp at this
        · rintro ⟨x, hx, e1, e2⟩
          exact absurd (List.any_eq_true.2 ⟨x, List.mem_filter.2 ⟨hx, by simpa using e1⟩, by simpa using e2⟩) ha

/-- The id a call is about. -/
def Op.target : Op → Text
  | .save q => q.id
  | .update q => q.id
  | .delete id => id

/-- C187, the others: a call changes no read of any other id, whether it succeeds or not, in every state the calls lead to. -/
theorem C187_others (e : Env V S) (ops : List (Int × Op)) (now : Int) (op : Op) (id : Text) (hid : id ≠ op.target) :
    get (step e (run e (init : State V) ops) (now, op)) id = get (run e (init : State V) ops) id := by
  have hg := good_run e ops
  generalize run e (init : State V) ops = s at *
  by_cases h0 : id = []
  · subst h0; rfl
  have hg2 := good_step e s (now, op) hg
  unfold get
  rw [load_good _ hg2 id h0, load_good _ hg id h0]
  have hrows : (step e s (now, op)).rows.find? (fun x => x.id == id) = s.rows.find? (fun x => x.id == id) := by
    cases op with
    | save q =>
      simp only [step]
      unfold save
      split
      · rfl
      · split
        · rfl
        · split
          · rfl
          · simp only
            split
            · rw [ensureBucket_rows]
            · simp only [ensureBucket_rows]
              exact find_upsert_other _ _ _ hid
    | update q =>
      simp only [step]
      unfold update
      split
      · rfl
      · simp only
        split
        · rfl
        · exact find_map_other s.rows q.id id _ (fun _ => rfl) hid
    | delete d =>
      simp only [step]
      unfold delete
      split
      · rfl
      · simp only
        rw [List.find?_filter]
        congr 1
        funext x
        by_cases hx : x.id = id
        · have : x.id ≠ d := by rw [hx]; exact hid
          simp [hx]
          simpa [Op.target] using hid
        · simp [hx]
  rw [hrows]

/-! ### C188 -/

/-- C188: a save is refused exactly when the id is empty, the content is blank, the scope is not known or lacks its owner, or
the embedder fails; then no memory changes. -/
theorem C188_save_refused (e : Env V S) (now : Int) (s : State V) (q : SaveReq) :
    ((save e now s q).2 ≠ .ok () ↔ q.id = [] ∨ trim e.sp q.content = [] ∨
      (∃ er, resolve e.sp e.lower q.scope q.user q.session q.ns = .error er) ∨
      (∃ f, e.embedder = some f ∧ f q.content = none)) ∧
    ((save e now s q).2 ≠ .ok () → (save e now s q).1.rows = s.rows) := by
  unfold save
  by_cases h0 : q.id = []
  · simp [h0]
  rw [if_neg h0]
  by_cases h1 : trim e.sp q.content = []
  · simp [h1]
  rw [if_neg h1]
  cases hr : resolve e.sp e.lower q.scope q.user q.session q.ns with
  | error er => simp
  | ok p =>
    obtain ⟨sc, b⟩ := p
    simp only
    cases hv : embedContent e q.content with
    | error er =>
      simp only [ensureBucket_rows]
      unfold embedContent at hv
      cases he : e.embedder with
      | none => rw [he] at hv; cases hv
      | some f =>
        rw [he] at hv
        simp only at hv
        cases hf : f q.content with
        | none => simp [hf]
        | some x => rw [hf] at hv; cases hv
    | ok v =>
      simp only
      have := (embedContent_ok e _ _).1 hv
      unfold VectorOf at this
      constructor
      · simp only [ne_eq, not_true_eq_false, false_iff]
        rintro (k | k | ⟨er, k⟩ | ⟨f, hf, k⟩)
        · exact h0 k
        · exact h1 k
        · cases k
        · rw [hf] at this
          obtain ⟨x, hx, _⟩ := this
          rw [k] at hx; cases hx
      · simp

/-- C188: no memory ever has a blank content. -/
theorem C188_never_blank (e : Env V S) (ops : List (Int × Op)) :
    ∀ r ∈ (run e (init : State V) ops).rows, trim e.sp r.content ≠ [] := by
  suffices H : ∀ s : State V, (∀ r ∈ s.rows, trim e.sp r.content ≠ []) → ∀ r ∈ (run e s ops).rows, trim e.sp r.content ≠ [] from
    H _ (by simp [init])
  induction ops with
  | nil => intro s hs; exact hs
  | cons p ps ih =>
    intro s hs
    apply ih
    obtain ⟨now, op⟩ := p
    intro r hr
    cases op with
    | save q =>
      simp only [step] at hr
      unfold save at hr
      split at hr
      · exact hs r hr
      · split at hr
        · exact hs r hr
        · rename_i hb
          split at hr
          · exact hs r hr
          · simp only at hr
            split at hr
            · rw [ensureBucket_rows] at hr; exact hs r hr
            · simp only at hr
              rcases upsertRow_mem _ _ _ hr with ⟨h1, _⟩ | h1
              · rw [ensureBucket_rows] at h1; exact hs r h1
              · subst h1; exact hb
    | update q =>
      simp only [step] at hr
      unfold update at hr
      split at hr
      · exact hs r hr
      · rename_i row hrow
        have hrow' := List.mem_of_find?_eq_some ((load_ok s q.id row).1 hrow).2.1
        simp only at hr
        split at hr
        · exact hs r hr
        · rename_i c v hcv
          have hc : trim e.sp c ≠ [] := by
            cases hq : q.content with
            | none => rw [hq] at hcv; simp only [Except.ok.injEq, Prod.mk.injEq] at hcv; rw [← hcv.1]; exact hs row hrow'
            | some c' =>
              rw [hq] at hcv
              simp only at hcv
              split at hcv
              · cases hcv
              · rename_i hb
                split at hcv
                · cases hcv
                · simp only [Except.ok.injEq, Prod.mk.injEq] at hcv; rw [← hcv.1]; exact hb
          simp only at hr
          obtain ⟨x, hx, rfl⟩ := List.mem_map.1 hr
          split
          · exact hc
          · exact hs x hx
    | delete id =>
      simp only [step] at hr
      unfold delete at hr
      split at hr
      · exact hs r hr
      · exact hs r (List.mem_filter.1 hr).1

/-- C188: what a request addresses. The scope is the one named (in any case), or, when none is named, the session if one is
given, else the user if one is given, else global; a user or session scope without its owner is refused, as is any other
scope. -/
theorem C188_scope (sp : Char → Bool) (lower : Char → Char) (scope user session ns : Text) :
    (∀ sc b, resolve sp lower scope user session ns = .ok (sc, b) →
      (((trim sp scope).map lower ≠ [] ∧ sc = (trim sp scope).map lower) ∨
       ((trim sp scope).map lower = [] ∧
         sc = if trim sp session ≠ [] then sSession else if trim sp user ≠ [] then sUser else sGlobal)) ∧
      (sc = sGlobal ∨ (sc = sUser ∧ trim sp user ≠ []) ∨ (sc = sSession ∧ trim sp session ≠ []))) ∧
    (∀ er, resolve sp lower scope user session ns = .error er →
      (trim sp scope).map lower ≠ [] ∧
      (((trim sp scope).map lower = sUser ∧ trim sp user = []) ∨ ((trim sp scope).map lower = sSession ∧ trim sp session = []) ∨
        (trim sp scope).map lower ∉ [sGlobal, sUser, sSession])) := by
  have e1 : sUser ≠ sGlobal := by decide
  have e2 : sSession ≠ sGlobal := by decide
  have e3 : sSession ≠ sUser := by decide
  unfold resolve resolveScope
  generalize (trim sp scope).map lower = t
  simp only
  by_cases ht : t = []
  · subst ht
    by_cases hs : trim sp session = []
    · by_cases hu : trim sp user = []
      · simp only [hs, hu, ne_eq, not_true_eq_false, if_false, if_true]
        simp
      · simp only [hs, hu, ne_eq, not_true_eq_false, not_false_eq_true, if_false, if_true, if_neg e1]
        simp
    · simp only [hs, ne_eq, not_false_eq_true, if_true, if_false, if_neg e2, if_neg e3]
      simp
  · simp only [ht, if_false, ne_eq, not_false_eq_true, true_and, false_and, or_false]
    by_cases hg : t = sGlobal
    · subst hg
      simp
    · by_cases hu : t = sUser
      · subst hu
        by_cases hb : trim sp user = []
        · simp [hb, e1]
        · simp [hb, e1]
      · by_cases hs : t = sSession
        · subst hs
          by_cases hb : trim sp session = []
          · simp [hb, e2, e3]
          · simp [hb, e2, e3]
        · simp [hg, hu, hs]

/-- C188: leaving the namespace out (or blank) is the same as naming "default". -/
theorem C188_default (sp : Char → Bool) (lower : Char → Char) (scope user session ns : Text)
    (hd : ∀ c ∈ "default".toList, sp c = false) (hn : trim sp ns = []) :
    resolve sp lower scope user session ns = resolve sp lower scope user session "default".toList := by
  have h1 : trim sp "default".toList = "default".toList := by
    have hl : "default".toList = ['d', 'e', 'f', 'a', 'u', 'l', 't'] := by decide
    rw [hl] at hd ⊢
    simp only [trim]
    rw [List.dropWhile_cons_of_neg (by simp [hd 'd' (by simp)])]
    simp only [List.reverse_cons, List.reverse_nil, List.nil_append, List.cons_append]
    rw [List.dropWhile_cons_of_neg (by simp [hd 't' (by simp)])]
    rfl
  have h2 : normNs sp ns = normNs sp "default".toList := by
    unfold normNs
    simp only [hn, h1, if_true]
    rw [if_neg (by decide)]
  unfold resolve
  rw [h2]

/-! ### C189 -/

/-- A memory is a candidate with a score: some query of the list finds it among its first `4k` matches, it is live, and the
score is that of its rank in this query, weighted by the place of the query: 1, 0.95, 0.9, 0.85, and 0.8 from there on. -/
def Cand (e : Env V S) (now : Int) (rows : List (Row V)) (k : Nat) (qs : List Text) (h : Row V × ℚ) : Prop :=
  ∃ (i : Nat) (q : Text) (hits : List (Row V × ℚ)) (rank : ℚ), qs[i]? = some q ∧ e.fts q rows = some hits ∧
    (h.1, rank) ∈ hits.take (4 * k) ∧ expired now h.1 = false ∧ h.2 = 1 / (1 + |rank|) * max (4 / 5) (1 - (i : ℚ) / 20)

/-- What the map holds after some candidates were merged into it. -/
structure Merged (m : List (Row V × ℚ)) (P : Row V × ℚ → Prop) : Prop where
  once : (m.map (fun h => h.1.id)).Nodup
  from' : ∀ h ∈ m, P h
  best : ∀ h, P h → ∃ y ∈ m, y.1.id = h.1.id ∧ h.2 ≤ y.2

theorem mergeHit_ids (m : List (Row V × ℚ)) (h : Row V × ℚ) :
    (mergeHit m h).map (fun x => x.1.id) =
      if h.1.id ∈ m.map (fun x => x.1.id) then m.map (fun x => x.1.id) else m.map (fun x => x.1.id) ++ [h.1.id] := by
  unfold mergeHit
  by_cases k : m.any (fun x => x.1.id == h.1.id)
  · have hm : h.1.id ∈ m.map (fun x => x.1.id) := by
      obtain ⟨x, hx, e⟩ := List.any_eq_true.1 k
      exact List.mem_map.2 ⟨x, hx, by simpa using e⟩
    rw [if_pos k, if_pos hm, List.map_map]
    apply List.map_congr_left
    intro x _
    simp only [Function.comp]
    split
    · rename_i hc
      simp only [Bool.and_eq_true, beq_iff_eq] at hc
      exact hc.1.symm
    · rfl
  · have hm : h.1.id ∉ m.map (fun x => x.1.id) := by
      intro hm
      obtain ⟨x, hx, e⟩ := List.mem_map.1 hm
      exact k (List.any_eq_true.2 ⟨x, hx, by simpa using e⟩)
    rw [if_neg k, if_neg hm]
    simp

theorem merged_one (m : List (Row V × ℚ)) (P : Row V × ℚ → Prop) (hm : Merged m P) (h : Row V × ℚ) :
    Merged (mergeHit m h) (fun x => P x ∨ x = h) := by
  refine ⟨?_, ?_, ?_⟩
  · rw [mergeHit_ids]
    split
    · exact hm.once
    · rename_i hn
      refine List.nodup_append.2 ⟨hm.once, by simp, ?_⟩
      intro a ha c hc
      simp only [List.mem_singleton] at hc
      subst hc
      exact fun e => hn (e ▸ ha)
  · intro x hx
    rcases mergeHit_mem m h x hx with k | k
    · exact .inl (hm.from' x k)
    · exact .inr k
  · intro x hx
    have key : ∀ y ∈ m, ∃ z ∈ mergeHit m h, z.1.id = y.1.id ∧ y.2 ≤ z.2 := by
      intro y hy
      unfold mergeHit
      split
      · by_cases c : (y.1.id == h.1.id && decide (h.2 > y.2)) = true
        · refine ⟨h, List.mem_map.2 ⟨y, hy, by rw [if_pos c]⟩, ?_, ?_⟩
          · simp only [Bool.and_eq_true, beq_iff_eq] at c; exact c.1.symm
          · simp only [Bool.and_eq_true, decide_eq_true_eq] at c; exact le_of_lt c.2
        · exact ⟨y, List.mem_map.2 ⟨y, hy, by rw [if_neg c]⟩, rfl, le_refl _⟩
      · exact ⟨y, List.mem_append_left _ hy, rfl, le_refl _⟩
    rcases hx with hx | rfl
    · obtain ⟨y, hy, e1, e2⟩ := hm.best x hx
      obtain ⟨z, hz, f1, f2⟩ := key y hy
      exact ⟨z, hz, f1.trans e1, le_trans e2 f2⟩
    · unfold mergeHit
      by_cases k : m.any (fun y => y.1.id == x.1.id)
      · rw [if_pos k]
        obtain ⟨y, hy, e⟩ := List.any_eq_true.1 k
        by_cases c : x.2 > y.2
        · exact ⟨x, List.mem_map.2 ⟨y, hy, by rw [if_pos (by simp [e, c])]⟩, rfl, le_refl _⟩
        · exact ⟨y, List.mem_map.2 ⟨y, hy, by rw [if_neg (by simp [c])]⟩, by simpa using e, not_lt.1 c⟩
      · rw [if_neg k]
        exact ⟨x, by simp, rfl, le_refl _⟩

theorem merged_all (l m : List (Row V × ℚ)) (P : Row V × ℚ → Prop) (hm : Merged m P) :
    Merged (l.foldl mergeHit m) (fun x => P x ∨ x ∈ l) := by
  induction l generalizing m P with
  | nil => simpa using hm
  | cons a as ih =>
    have := ih _ _ (merged_one m P hm a)
    simp only [List.foldl_cons]
    have e : (fun x => P x ∨ x ∈ a :: as) = (fun x => (P x ∨ x = a) ∨ x ∈ as) := by
      funext x; simp [or_assoc]
    rw [e]; exact this

theorem weight_max (i : Nat) : weight i = max (4 / 5) (1 - (i : ℚ) / 20) := by
  unfold weight
  have e : (i : ℚ) * (1 / 20) = i / 20 := by ring
  rw [e]
  split
  · rename_i h; exact (max_eq_left (le_of_lt h)).symm
  · rename_i h; exact (max_eq_right (not_lt.1 h)).symm

/-- The candidates of the queries from number `idx` on. -/
def CandFrom (e : Env V S) (now : Int) (rows : List (Row V)) (k idx : Nat) (qs : List Text) (h : Row V × ℚ) : Prop :=
  ∃ i q hits rank, qs[i]? = some q ∧ e.fts q rows = some hits ∧ (h.1, rank) ∈ hits.take (4 * k) ∧ expired now h.1 = false ∧
    h.2 = 1 / (1 + |rank|) * max (4 / 5) (1 - ((i + idx : Nat) : ℚ) / 20)

theorem candFrom_cons (e : Env V S) (now : Int) (rows : List (Row V)) (k idx : Nat) (q : Text) (qs : List Text) (h : Row V × ℚ) :
    CandFrom e now rows k idx (q :: qs) h ↔
      (∃ hits, e.fts q rows = some hits ∧ h ∈ ((hits.take (k * 4)).filter (fun h => !expired now h.1)).map (fun h => (h.1, lexScore h.2 idx))) ∨
      CandFrom e now rows k (idx + 1) qs h := by
  constructor
  · rintro ⟨i, q', hits, rank, h1, h2, h3, h4, h5⟩
    cases i with
    | zero =>
      simp only [List.getElem?_cons_zero, Option.some.injEq] at h1
      subst h1
      refine .inl ⟨hits, h2, List.mem_map.2 ⟨(h.1, rank), List.mem_filter.2 ⟨by rw [Nat.mul_comm]; exact h3, by simp [h4]⟩, ?_⟩⟩
      ext1
      · rfl
      · simp only [lexScore, weight_max]; rw [h5]; simp
    | succ i =>
      refine .inr ⟨i, q', hits, rank, by simpa using h1, h2, h3, h4, ?_⟩
      rw [h5]
      have : i + 1 + idx = i + (idx + 1) := by omega
      rw [this]
  · rintro (⟨hits, h2, h3⟩ | ⟨i, q', hits, rank, h1, h2, h3, h4, h5⟩)
    · obtain ⟨⟨r, rank⟩, hr, rfl⟩ := List.mem_map.1 h3
      have hr' := List.mem_filter.1 hr
      refine ⟨0, q, hits, rank, rfl, h2, by rw [Nat.mul_comm]; exact hr'.1, by simpa using hr'.2, ?_⟩
      simp only [lexScore, weight_max]; simp
    · refine ⟨i + 1, q', hits, rank, by simpa using h1, h2, h3, h4, ?_⟩
      rw [h5]
      have : i + 1 + idx = i + (idx + 1) := by omega
      rw [this]

theorem lexLoop_merged (e : Env V S) (now : Int) (rows : List (Row V)) (k idx : Nat) (qs : List Text) (m : List (Row V × ℚ))
    (f : Bool) (P : Row V × ℚ → Prop) (hm : Merged m P) :
    Merged (lexLoop e now rows k idx qs (m, f)).1 (fun x => P x ∨ CandFrom e now rows k idx qs x) := by
  induction qs generalizing idx m f P with
  | nil =>
    have : (fun x => P x ∨ CandFrom e now rows k idx [] x) = P := by
      funext x
      simp [CandFrom]
    rw [this]; exact hm
  | cons q qs ih =>
    simp only [lexLoop]
    split
    · rename_i hq
      have := ih (idx + 1) m true P hm
      have e1 : (fun x => P x ∨ CandFrom e now rows k idx (q :: qs) x) = (fun x => P x ∨ CandFrom e now rows k (idx + 1) qs x) := by
        funext x
        rw [candFrom_cons, hq]
        simp
      rw [e1]; exact this
    · rename_i hits hq
      have := ih (idx + 1) _ f _ (merged_all (((hits.take (k * 4)).filter (fun h => !expired now h.1)).map (fun h => (h.1, lexScore h.2 idx))) m P hm)
      have e1 : (fun x => P x ∨ CandFrom e now rows k idx (q :: qs) x) =
          (fun x => (P x ∨ x ∈ ((hits.take (k * 4)).filter (fun h => !expired now h.1)).map (fun h => (h.1, lexScore h.2 idx))) ∨
            CandFrom e now rows k (idx + 1) qs x) := by
        funext x
        rw [candFrom_cons, hq]
        simp [or_assoc]
      rw [e1]; exact this

/-- C189: a keyword search of memories lists each memory at most once, only live memories of the bucket that a query finds, each
with the best score any of the queries gives it, best first; a memory that is left out is not better than any listed, and is
left out only when the list is full. -/
theorem C189_best (e : Env V S) (he : Sound e) (now : Int) (s : State V) (b query : Text) (topK : Int)
    (hits : List (Row V × ℚ)) (h : searchLexical e now s b query topK = .ok hits) :
    let rows := s.rows.filter (fun r => r.bucket == b && decide (r.bucket ∈ s.buckets))
    let k := if topK ≤ 0 then 5 else topK.toNat
    let C := Cand e now rows k (trim e.sp query :: e.moreQueries query)
    (hits.map (fun x => x.1.id)).Nodup ∧ hits.Pairwise (fun x y => y.2 ≤ x.2) ∧ hits.length ≤ k ∧
    (∀ x ∈ hits, C x ∧ ∀ y, C y → y.1.id = x.1.id → y.2 ≤ x.2) ∧
    (∀ y, C y → y.1.id ∉ hits.map (fun x => x.1.id) → hits.length = k ∧ ∀ x ∈ hits, y.2 ≤ x.2) := by
  intro rows k C
  unfold searchLexical at h
  simp only at h
  split at h
  · cases h
  have hM := lexLoop_merged e now rows k 0 (trim e.sp query :: e.moreQueries query) [] false (fun _ => False)
    ⟨by simp, by simp, by simp⟩
  have hC : (fun x => False ∨ CandFrom e now rows k 0 (trim e.sp query :: e.moreQueries query) x) = C := by
    funext x
    simp only [false_or]
    rfl
  rw [hC] at hM
  generalize hl : lexLoop e now rows k 0 (trim e.sp query :: e.moreQueries query) ([], false) = l at hM
  obtain ⟨m, failed⟩ := l
  rw [hl] at h
  simp only at h hM
  split at h
  · cases h
  simp only [Except.ok.injEq] at h
  subst h
  have hp := he.sort m
  have hs := he.sorted m
  have hnd : ((e.sortHits m).map (fun x => x.1.id)).Nodup := (hp.map _).nodup_iff.2 hM.once
  refine ⟨?_, hs.sublist (List.take_sublist _ _), List.length_take_le _ _, ?_, ?_⟩
  · exact hnd.sublist ((List.take_sublist _ _).map _)
  · intro x hx
    have hxm := hp.mem_iff.1 (List.mem_of_mem_take hx)
    refine ⟨hM.from' x hxm, ?_⟩
    intro y hy e1
    obtain ⟨z, hz, f1, f2⟩ := hM.best y hy
    have : z = x := List.inj_on_of_nodup_map hM.once hz hxm (f1.trans e1)
    rw [← this]; exact f2
  · intro y hy hn
    obtain ⟨z, hz, f1, f2⟩ := hM.best y hy
    have hz' := hp.mem_iff.2 hz
    have hsplit := List.take_append_drop k (e.sortHits m)
    have hzd : z ∈ (e.sortHits m).drop k := by
      rw [← hsplit, List.mem_append] at hz'
      rcases hz' with k1 | k1
      · exact absurd (List.mem_map.2 ⟨z, k1, f1⟩) hn
      · exact k1
    constructor
    · have := List.length_pos_of_mem hzd
      rw [List.length_drop] at this
      rw [List.length_take]
      omega
    · intro x hx
      rw [← hsplit, List.pairwise_append] at hs
      exact le_trans f2 (hs.2.2 x hx z hzd)

/-! ### Examples -/

/-- C187: a save, an update of the content alone and a delete. -/
example : (get (run env1 init [(0, .save (saveBy "m" "a" "" "hello" 9)), (5, .update ⟨"m".toList, some "bye".toList, none⟩)]) "m".toList).toOption.map
    (fun r => (r.content, r.ttl, r.vector, r.expires)) = some ("bye".toList, 9, some 3, some (sec 9)) := by decide +kernel

example : (get (run env1 init [(0, .save (saveBy "m" "a" "" "hello" 9)), (0, .save (saveBy "n" "a" "" "x" 9)), (5, .delete "m".toList)]) "n".toList).toOption.map
    (fun r => r.content) = some "x".toList ∧
    (save env1 0 init (saveBy "m" "a" "" "hello" 9)).2 = .ok () ∧
    (delete (run env1 init [(0, .save (saveBy "m" "a" "" "hello" 9))]) "m".toList).2 = .ok () ∧
    (update env1 0 (run env1 init [(0, .save (saveBy "m" "a" "" "hello" 9))]) ⟨"m".toList, none, some 3⟩).2 = .ok () := by decide +kernel

/-- C188: a blank content and a user scope without a user are refused. -/
example : (save env0 0 init (saveBy "m" "a" "" "  " 0)).2 = .error .emptyText ∧
    (save env0 0 init { saveBy "m" " " "" "x" 0 with scope := sUser }).2 = .error .ownerRequired ∧
    resolve sp0 id [] [] [] [' '] = .ok (sGlobal, "memory:global:default".toList) := by decide +kernel

/-- C189: two queries find the same memory. -/
example : (match searchLexical { env0 with moreQueries := fun _ => ["x".toList] } 0
      (run env0 init [(0, .save (saveBy "m" "a" "n" "x" 0))]) "memory:user:a:n".toList "x".toList 5 with
    | .ok l => l.map (fun h => (String.ofList h.1.id, h.2)) | .error _ => []) = [("m", 1 / 2)] := by decide +kernel

end Verif.Memory
