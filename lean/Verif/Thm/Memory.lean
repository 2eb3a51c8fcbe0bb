import Verif.Model.Memory
import Mathlib.Tactic.Linarith
import Mathlib.Tactic.NormNum
import Mathlib.Tactic.FieldSimp
import Mathlib.Algebra.Order.Field.Basic
import Mathlib.Data.List.Induction

/-!
C67: memory buckets separate owners. C68: expired memories are not found. C83: saving does not touch other
memories. C84: live memories are found. Part of C70 (lexical scores of memories).
-/
namespace Verif.Memory
open Verif.Base Verif.Spec

/-! ### Specification -/

/-- What the parameters must satisfy: full text hits are rows of the table searched, sorting rearranges. -/
structure Sound {V S : Type*} [LinearOrder S] (e : Env V S) : Prop where
  fts : ∀ q rows l, e.fts q rows = some l → ∀ h ∈ l, h.1 ∈ rows
  sort : ∀ l, (e.sortHits l).Perm l
  sorted : ∀ l, (e.sortHits l).Pairwise (fun a b => b.2 ≤ a.2)

/-- Who a memory belongs to: nobody in particular, a user, or a session. -/
def owner (scope user session : Text) : Text :=
  if scope = sUser then user else if scope = sSession then session else []

/-- Two requests address the same memories: same scope in force, same owner, same namespace in force. -/
def SameAddress (sp : Char → Bool) (sc1 sc2 u1 s1 n1 u2 s2 n2 : Text) : Prop :=
  sc1 = sc2 ∧ owner sc1 u1 s1 = owner sc2 u2 s2 ∧ normNs sp n1 = normNs sp n2

/-! ### Sample environment -/

def sp0 (c : Char) : Bool := c == ' '

def insHit (h : Row Int × ℚ) : List (Row Int × ℚ) → List (Row Int × ℚ)
  | [] => [h]
  | x :: xs => if x.2 ≤ h.2 then h :: x :: xs else x :: insHit h xs

/-- No embedder; a row matches when its content is the query; rank −1. -/
def env0 : Env Int Int where
  sp := sp0
  lower := id
  embedder := none
  sim := fun a b => -((a - b).natAbs : Int)
  fts := fun q rows => some ((rows.filter (fun r => r.content == q)).map (fun r => (r, -1)))
  sortHits := insertSort (fun h => h.2)
  moreQueries := fun _ => []

/-- As `env0` with an embedder: the length of the text. -/
def env1 : Env Int Int := { env0 with embedder := some (fun t => some (t.length : Int)) }

theorem env0_sound : Sound env0 where
  fts := by
    intro q rows l h x hx
    simp only [env0, Option.some.injEq] at h
    subst h
    obtain ⟨r, hr, rfl⟩ := List.mem_map.1 hx
    exact (List.mem_filter.1 hr).1
  sort := fun l => (insertSort_sorts (fun h : Row Int × ℚ => h.2) l).1
  sorted := fun l => (insertSort_sorts (fun h : Row Int × ℚ => h.2) l).2

theorem env1_sound : Sound env1 where
  fts := env0_sound.fts
  sort := env0_sound.sort
  sorted := env0_sound.sorted

def sec (n : Int) : Int := n * 1000000000

def saveBy (id user ns content : String) (ttl : Int) : SaveReq :=
  { id := id.toList, content := content.toList, scope := [], user := user.toList, session := [], ns := ns.toList
    ttl := ttl }

def searchBy (user ns query : String) (k : Int) : SearchReq :=
  { query := query.toList, scope := [], user := user.toList, session := [], ns := ns.toList, topK := k
    lexicalOnly := false }

def ids {V : Type*} (r : Except Err (List (Row V × ℚ))) : List String :=
  match r with | .ok l => l.map (fun h => String.ofList h.1.id) | .error _ => []

/-! ### Lemmas on identifiers -/

theorem split_first (a b x y : Text) (ha : ':' ∉ a) (hb : ':' ∉ b) (h : a ++ ':' :: x = b ++ ':' :: y) :
    a = b ∧ x = y := by
  induction a generalizing b with
  | nil =>
    cases b with
    | nil => simpa using h
    | cons c cs =>
      simp only [List.nil_append, List.cons_append, List.cons.injEq] at h
      exact absurd (by rw [h.1]; simp) hb
  | cons c cs ih =>
    cases b with
    | nil =>
      simp only [List.nil_append, List.cons_append, List.cons.injEq] at h
      exact absurd (by rw [h.1]; simp) ha
    | cons d ds =>
      simp only [List.cons_append, List.cons.injEq] at h
      obtain ⟨h1, h2⟩ := ih ds (fun m => ha (by simp [m])) (fun m => hb (by simp [m])) h.2
      exact ⟨by rw [h.1, h1], h2⟩

/-- The shape of a bucket id. -/
theorem resolve_shape (sp : Char → Bool) (lower : Char → Char) (scope user session ns sc b : Text)
    (h : resolve sp lower scope user session ns = .ok (sc, b)) :
    (sc = sGlobal ∧ b = sMemory ++ ':' :: (sGlobal ++ ':' :: normNs sp ns)) ∨
    (sc = sUser ∧ b = sMemory ++ ':' :: (sUser ++ ':' :: (user ++ ':' :: normNs sp ns))) ∨
    (sc = sSession ∧ b = sMemory ++ ':' :: (sSession ++ ':' :: (session ++ ':' :: normNs sp ns))) := by
  unfold resolve at h
  cases hr : resolveScope sp lower scope user session with
  | error er => rw [hr] at h; cases h
  | ok sc' =>
    have hsc : sc' = sGlobal ∨ sc' = sUser ∨ sc' = sSession := by
      unfold resolveScope at hr
      simp only at hr
      split at hr
      · simp only [Except.ok.injEq] at hr
        subst hr
        split
        · exact .inr (.inr rfl)
        · split
          · exact .inr (.inl rfl)
          · exact .inl rfl
      · split at hr
        · rename_i h'
          simp only [Except.ok.injEq] at hr
          subst hr; exact h'
        · cases hr
    rw [hr] at h
    simp only at h
    rcases hsc with e | e | e
    · subst e
      rw [if_pos rfl] at h
      simp only [Except.ok.injEq, Prod.mk.injEq] at h
      exact .inl ⟨h.1.symm, by rw [← h.2]; simp⟩
    · subst e
      rw [if_neg (by decide), if_pos rfl] at h
      split at h
      · cases h
      · simp only [Except.ok.injEq, Prod.mk.injEq] at h
        exact .inr (.inl ⟨h.1.symm, by rw [← h.2]; simp⟩)
    · subst e
      rw [if_neg (by decide), if_neg (by decide)] at h
      split at h
      · cases h
      · simp only [Except.ok.injEq, Prod.mk.injEq] at h
        exact .inr (.inr ⟨h.1.symm, by rw [← h.2]; simp⟩)

/-! ### C67 -/

/-- C67 for owners whose name contains no colon: two requests resolve to the same bucket only if they address the
same memories. Missing: owners with a colon in their name (see `C67_colon_violated`). -/
theorem C67_resolve_partial (sp : Char → Bool) (lower : Char → Char)
    (c1 u1 s1 n1 c2 u2 s2 n2 sc1 sc2 b : Text)
    (h1 : resolve sp lower c1 u1 s1 n1 = .ok (sc1, b)) (h2 : resolve sp lower c2 u2 s2 n2 = .ok (sc2, b))
    (k1 : ':' ∉ owner sc1 u1 s1) (k2 : ':' ∉ owner sc2 u2 s2) :
    SameAddress sp sc1 sc2 u1 s1 n1 u2 s2 n2 := by
  have g : ':' ∉ sGlobal := by decide
  have us : ':' ∉ sUser := by decide
  have se : ':' ∉ sSession := by decide
  have cancel : ∀ x y : Text, sMemory ++ ':' :: x = sMemory ++ ':' :: y → x = y := by
    intro x y h
    have := List.append_cancel_left h
    simpa using this
  rcases resolve_shape _ _ _ _ _ _ _ _ h1 with ⟨e1, b1⟩ | ⟨e1, b1⟩ | ⟨e1, b1⟩ <;>
  rcases resolve_shape _ _ _ _ _ _ _ _ h2 with ⟨e2, b2⟩ | ⟨e2, b2⟩ | ⟨e2, b2⟩ <;>
  subst e1 <;> subst e2 <;> have hb := cancel _ _ (b1.symm.trans b2)
  · exact ⟨rfl, rfl, (split_first _ _ _ _ g g hb).2⟩
  · exact absurd (split_first _ _ _ _ g us hb).1 (by decide)
  · exact absurd (split_first _ _ _ _ g se hb).1 (by decide)
  · exact absurd (split_first _ _ _ _ us g hb).1 (by decide)
  · have h3 := (split_first _ _ _ _ us us hb).2
    have o1 : owner sUser u1 s1 = u1 := by unfold owner; rw [if_pos rfl]
    have o2 : owner sUser u2 s2 = u2 := by unfold owner; rw [if_pos rfl]
    rw [o1] at k1; rw [o2] at k2
    have h4 := split_first _ _ _ _ k1 k2 h3
    exact ⟨rfl, by rw [o1, o2, h4.1], h4.2⟩
  · exact absurd (split_first _ _ _ _ us se hb).1 (by decide)
  · exact absurd (split_first _ _ _ _ se g hb).1 (by decide)
  · exact absurd (split_first _ _ _ _ se us hb).1 (by decide)
  · have h3 := (split_first _ _ _ _ se se hb).2
    have o1 : owner sSession u1 s1 = s1 := by unfold owner; rw [if_neg (by decide), if_pos rfl]
    have o2 : owner sSession u2 s2 = s2 := by unfold owner; rw [if_neg (by decide), if_pos rfl]
    rw [o1] at k1; rw [o2] at k2
    have h4 := split_first _ _ _ _ k1 k2 h3
    exact ⟨rfl, by rw [o1, o2, h4.1], h4.2⟩

theorem mergeHit_mem {V : Type*} (m : List (Row V × ℚ)) (h x : Row V × ℚ) (hx : x ∈ mergeHit m h) :
    x ∈ m ∨ x = h := by
  unfold mergeHit at hx
  split at hx
  · obtain ⟨y, hy, rfl⟩ := List.mem_map.1 hx
    split
    · exact .inr rfl
    · exact .inl hy
  · rcases List.mem_append.1 hx with hx | hx
    · exact .inl hx
    · exact .inr (by simpa using hx)

theorem foldMerge_mem {V : Type*} (l m : List (Row V × ℚ)) (x : Row V × ℚ) (hx : x ∈ l.foldl mergeHit m) :
    x ∈ m ∨ x ∈ l := by
  induction l generalizing m with
  | nil => exact .inl hx
  | cons a as ih =>
    rcases ih _ hx with h | h
    · rcases mergeHit_mem m a x h with h | h
      · exact .inl h
      · exact .inr (by simp [h])
    · exact .inr (by simp [h])

theorem lexLoop_mem {V S : Type*} [LinearOrder S] (e : Env V S) (he : Sound e) (now : Int) (rows : List (Row V))
    (k idx : Nat) (qs : List Text) (m : List (Row V × ℚ)) (f : Bool) (x : Row V × ℚ)
    (hx : x ∈ (lexLoop e now rows k idx qs (m, f)).1) : x ∈ m ∨ (x.1 ∈ rows ∧ expired now x.1 = false) := by
  induction qs generalizing idx m f with
  | nil => exact .inl hx
  | cons q qs ih =>
    simp only [lexLoop] at hx
    cases hq : e.fts q rows with
    | none => rw [hq] at hx; exact ih _ _ _ hx
    | some hits =>
      rw [hq] at hx
      rcases ih _ _ _ hx with h | h
      · rcases foldMerge_mem _ _ _ h with h | h
        · exact .inl h
        · obtain ⟨y, hy, rfl⟩ := List.mem_map.1 h
          rw [List.mem_filter] at hy
          exact .inr ⟨he.fts _ _ _ hq y (List.mem_of_mem_take hy.1), by simpa using hy.2⟩
      · exact .inr h

theorem semantic_mem {V S : Type*} [LinearOrder S] (e : Env V S) (s : State V) (qv : V) (b : Text) (k : Nat)
    (r : Row V) (h : r ∈ semantic e s qv b k) : r ∈ s.rows ∧ r.bucket = b := by
  unfold semantic at h
  obtain ⟨p, hp, rfl⟩ := List.mem_map.1 h
  have := (exchangeSort_perm _ _).mem_iff.1 (List.mem_of_mem_take hp)
  obtain ⟨r', hr', rfl⟩ := List.mem_map.1 this
  rw [List.mem_filter, Bool.and_eq_true] at hr'
  exact ⟨hr'.1, by simpa using hr'.2.1⟩

/-- Everything a search returns is a live row of the addressed bucket. -/
theorem search_mem {V S : Type*} [LinearOrder S] (e : Env V S) (he : Sound e) (now : Int) (s : State V)
    (q : SearchReq) (hits : List (Row V × ℚ)) (h : search e now s q = .ok hits) :
    ∃ sc b, resolve e.sp e.lower q.scope q.user q.session q.ns = .ok (sc, b) ∧
      ∀ x ∈ hits, x.1 ∈ s.rows ∧ x.1.bucket = b ∧ expired now x.1 = false := by
  unfold search at h
  split at h
  · cases h
  · cases hr : resolve e.sp e.lower q.scope q.user q.session q.ns with
    | error er => rw [hr] at h; cases h
    | ok p =>
      obtain ⟨sc, b⟩ := p
      refine ⟨sc, b, rfl, ?_⟩
      rw [hr] at h
      simp only at h
      generalize hsem : (if q.lexicalOnly = true then ([] : List (Row V × ℚ)) else
        match e.embedder with
        | none => []
        | some f => match f q.query with
          | none => []
          | some v => semHits now (semantic e s v b (if q.topK ≤ 0 then 5 else q.topK : Int).toNat)) = sem at h
      generalize (if q.topK ≤ 0 then 5 else q.topK : Int) = kk at h
      have hs : ∀ x ∈ sem, x.1 ∈ s.rows ∧ x.1.bucket = b ∧ expired now x.1 = false := by
        intro x hx
        rw [← hsem] at hx
        split at hx
        · simp at hx
        · split at hx
          · simp at hx
          · split at hx
            · simp at hx
            · unfold semHits at hx
              obtain ⟨p, hp, rfl⟩ := List.mem_map.1 hx
              rw [List.mem_filter] at hp
              have h1 := semantic_mem e s _ b _ p.1 (List.fst_mem_of_mem_zipIdx hp.1)
              exact ⟨h1.1, h1.2, by simpa using hp.2⟩
      split at h
      · simp only [Except.ok.injEq] at h
        subst h; exact hs
      · unfold searchLexical at h
        simp only at h
        generalize (if kk ≤ 0 then 5 else kk.toNat) = k at h
        split at h
        · cases h
        · split at h
          · cases h
          · simp only [Except.ok.injEq] at h
            subst h
            intro x hx
            have h1 := (he.sort _).mem_iff.1 (List.mem_of_mem_take hx)
            rcases lexLoop_mem e he now _ _ _ _ _ _ x h1 with h2 | h2
            · simp at h2
            · rw [List.mem_filter, Bool.and_eq_true] at h2
              exact ⟨h2.1.1, by simpa using h2.1.2.1, h2.2⟩

/-- The last save of memory `id` that succeeded, in the history `ops`. -/
def LastSave {V S : Type*} [LinearOrder S] (e : Env V S) (ops : List (Int × Op)) (id : Text) (q : SaveReq) : Prop :=
  ∃ pre t post, ops = pre ++ (t, Op.save q) :: post ∧ q.id = id ∧
    (save e t (run e (init : State V) pre) q).2 = .ok () ∧
    ∀ p1 t' q' p2, post = p1 ++ (t', Op.save q') :: p2 → q'.id = id →
      (save e t' (run e (init : State V) (pre ++ (t, Op.save q) :: p1)) q').2 ≠ .ok ()

/-- The row was put in its bucket by the last successful save of its id. -/
def Origin {V S : Type*} [LinearOrder S] (e : Env V S) (ops : List (Int × Op)) (r : Row V) : Prop :=
  ∃ q sc, LastSave (V := V) e ops r.id q ∧ resolve e.sp e.lower q.scope q.user q.session q.ns = .ok (sc, r.bucket)

theorem lastSave_snoc {V S : Type*} [LinearOrder S] (e : Env V S) (ops : List (Int × Op)) (o : Int × Op) (id : Text)
    (q : SaveReq) (h : LastSave (V := V) e ops id q)
    (ho : ∀ q', o.2 = Op.save q' → q'.id = id → (save e o.1 (run e (init : State V) ops) q').2 ≠ .ok ()) :
    LastSave (V := V) e (ops ++ [o]) id q := by
  obtain ⟨pre, t, post, h1, h2, h3, h4⟩ := h
  refine ⟨pre, t, post ++ [o], by rw [h1]; simp, h2, h3, ?_⟩
  intro p1 t' q' p2 he hid
  rcases List.eq_nil_or_concat p2 with rfl | ⟨p3, x, rfl⟩
  · obtain ⟨e1, e2⟩ := List.append_inj' he rfl
    simp only [List.cons.injEq, and_true] at e2
    subst e1
    have := ho q' (by rw [e2]) hid
    rw [h1, e2] at this
    exact this
  · rw [List.concat_eq_append, ← List.cons_append, ← List.append_assoc] at he
    obtain ⟨e1, -⟩ := List.append_inj' he rfl
    exact h4 p1 t' q' p3 e1 hid

theorem upsertRow_mem {V : Type*} (rows : List (Row V)) (r x : Row V) (h : x ∈ upsertRow rows r) :
    (x ∈ rows ∧ x.id ≠ r.id) ∨ x = r := by
  unfold upsertRow at h
  split at h
  · obtain ⟨y, hy, rfl⟩ := List.mem_map.1 h
    split
    · exact .inr rfl
    · rename_i hne; exact .inl ⟨hy, by simpa using hne⟩
  · rename_i hnone
    rcases List.mem_append.1 h with h | h
    · left
      refine ⟨h, fun e => hnone ?_⟩
      rw [List.any_eq_true]
      exact ⟨x, h, by simpa using e⟩
    · exact .inr (by simpa using h)

theorem run_origin {V S : Type*} [LinearOrder S] (e : Env V S) (ops : List (Int × Op)) :
    ∀ r ∈ (run e (init : State V) ops).rows, Origin e ops r := by
  induction ops using List.reverseRecOn with
  | nil => simp [run, init]
  | append_singleton ops o h =>
    have hrun : run e (init : State V) (ops ++ [o]) = step e (run e init ops) o := by simp [run]
    rw [hrun]
    obtain ⟨t, op⟩ := o
    intro r hr
    cases op with
    | save q =>
      have keep : ∀ x : Row V, x ∈ (run e (init : State V) ops).rows →
          (q.id = x.id → (save e t (run e (init : State V) ops) q).2 ≠ .ok ()) → Origin e (ops ++ [(t, .save q)]) x := by
        intro x hx hq
        obtain ⟨q0, sc, h1, h2⟩ := h x hx
        refine ⟨q0, sc, lastSave_snoc e ops _ _ q0 h1 ?_, h2⟩
        intro q' e1 e2
        cases e1
        exact hq e2
      simp only [step] at hr
      unfold save at hr
      split at hr
      · exact keep r hr (fun h9 => by clear h9; unfold save; simp [*])
      · split at hr
        · exact keep r hr (fun h9 => by clear h9; unfold save; simp [*])
        · split at hr
          · exact keep r hr (fun h9 => by clear h9; unfold save; simp [*])
          · rename_i hne hne2 sc b hres
            have hrows : (ensureBucket (run e (init : State V) ops) b).rows = (run e (init : State V) ops).rows := by
              unfold ensureBucket; split <;> rfl
            split at hr
            · rename_i er hemb
              rw [hrows] at hr
              exact keep r hr (fun h9 => by clear h9; unfold save; simp [*])
            · rename_i v hemb
              simp only [hrows] at hr
              rcases upsertRow_mem _ _ _ hr with hr | rfl
              · exact keep r hr.1 (fun h5 => absurd h5.symm hr.2)
              · refine ⟨q, sc, ⟨ops, t, [], rfl, rfl, by unfold save; simp [*], ?_⟩, hres⟩
                intro p1 t' q' p2 he
                simp at he
    | update q =>
      have keep : ∀ x : Row V, x ∈ (run e (init : State V) ops).rows → Origin e (ops ++ [(t, .update q)]) x := by
        intro x hx
        obtain ⟨q0, sc, h1, h2⟩ := h x hx
        exact ⟨q0, sc, lastSave_snoc e ops _ _ q0 h1 (fun q' e1 => by cases e1), h2⟩
      simp only [step, update] at hr
      split at hr
      · exact keep r hr
      · split at hr
        · exact keep r hr
        · obtain ⟨y, hy, rfl⟩ := List.mem_map.1 hr
          have := keep y hy
          split
          · exact this
          · exact this
    | delete id =>
      have keep : ∀ x : Row V, x ∈ (run e (init : State V) ops).rows → Origin e (ops ++ [(t, .delete id)]) x := by
        intro x hx
        obtain ⟨q0, sc, h1, h2⟩ := h x hx
        exact ⟨q0, sc, lastSave_snoc e ops _ _ q0 h1 (fun q' e1 => by cases e1), h2⟩
      simp only [step, delete] at hr
      split at hr
      · exact keep r hr
      · exact keep r (List.mem_filter.1 hr).1

/-- C67: over every history of saves, updates and deletions by owners without a colon in their name, every memory
a search returns was last saved under the same scope, owner and namespace that the search asks for. -/
theorem C67_isolation_partial {V S : Type*} [LinearOrder S] (e : Env V S) (he : Sound e)
    (ops : List (Int × Op)) (hops : ∀ t q, (t, Op.save q) ∈ ops → ':' ∉ q.user ∧ ':' ∉ q.session)
    (now : Int) (q : SearchReq) (hq : ':' ∉ q.user ∧ ':' ∉ q.session) (hits : List (Row V × ℚ))
    (h : search e now (run e init ops) q = .ok hits) :
    ∀ x ∈ hits, ∃ w sc1 sc2 b, LastSave (V := V) e ops x.1.id w ∧
      resolve e.sp e.lower w.scope w.user w.session w.ns = .ok (sc1, b) ∧
      resolve e.sp e.lower q.scope q.user q.session q.ns = .ok (sc2, b) ∧
      SameAddress e.sp sc1 sc2 w.user w.session w.ns q.user q.session q.ns := by
  obtain ⟨sc, b, hb, hall⟩ := search_mem e he now _ q hits h
  have own : ∀ sc u s : Text, ':' ∉ u → ':' ∉ s → ':' ∉ owner sc u s := by
    intro sc u s h1 h2
    unfold owner
    split
    · exact h1
    · split
      · exact h2
      · simp
  intro x hx
  obtain ⟨h1, h2, _⟩ := hall x hx
  obtain ⟨w, sc1, hw, hres⟩ := run_origin e ops x.1 h1
  rw [h2] at hres
  obtain ⟨pre, t, post, ho, -⟩ := id hw
  have hwk := hops t w (by rw [ho]; simp)
  exact ⟨w, sc1, sc, b, hw, hres, hb,
    C67_resolve_partial e.sp e.lower _ _ _ _ _ _ _ _ _ _ _ hres hb (own _ _ _ hwk.1 hwk.2) (own _ _ _ hq.1 hq.2)⟩

/-- C67 fails for names with a colon: user `a` searching namespace `b:c` finds what user `a:b` saved in
namespace `c`. -/
theorem C67_colon_violated :
    ids (search env0 0 (run env0 init [(0, .save (saveBy "m" "a:b" "c" "secret" 0))]) (searchBy "a" "b:c" "secret" 1))
      = ["m"] := by decide +kernel

example : ids (search env0 0 (run env0 init
    [(0, .save (saveBy "m" "a" "c" "secret" 0)), (1, .save (saveBy "n" "b" "c" "secret" 0))])
    (searchBy "a" "c" "secret" 5)) = ["m"] := by decide +kernel
example : ∀ t q, (t, Op.save q) ∈ [((0 : Int), Op.save (saveBy "m" "a" "c" "secret" 0))] →
    ':' ∉ q.user ∧ ':' ∉ q.session := by
  intro t q h
  simp only [List.mem_singleton, Prod.mk.injEq, Op.save.injEq] at h
  obtain ⟨_, rfl⟩ := h
  decide

/-! ### C83 -/

/-- C83 for different memory ids: a save changes no memory stored under another id. Missing: the same id used by
two owners (see `C83_violated`). -/
theorem C83_other_ids_partial {V S : Type*} [LinearOrder S] (e : Env V S) (now : Int) (s : State V) (q : SaveReq) :
    (save e now s q).1.rows.filter (fun r => r.id ≠ q.id) = s.rows.filter (fun r => r.id ≠ q.id) := by
  have hup : ∀ (rows : List (Row V)) (r : Row V), r.id = q.id →
      (upsertRow rows r).filter (fun r => decide (r.id ≠ q.id)) = rows.filter (fun r => decide (r.id ≠ q.id)) := by
    intro rows r hr
    unfold upsertRow
    split
    · clear * - hr
      induction rows with
      | nil => rfl
      | cons x xs ih =>
        rw [List.map_cons, List.filter_cons, List.filter_cons, ih]
        by_cases hx : x.id = q.id
        · simp [hx, hr]
        · simp [hx, hr]
    · rw [List.filter_append]; simp [hr]
  unfold save
  split
  · rfl
  · split
    · rfl
    · split
      · rfl
      · rename_i sc b _
        have hrows : (ensureBucket s b).rows = s.rows := by unfold ensureBucket; split <;> rfl
        simp only
        split
        · rw [hrows]
        · simp only [hrows]
          exact hup _ _ rfl

/-- C83 as seen by the other owner: a save under an id that no memory of the owner has, into another bucket, changes no answer of
the owner's searches, whether it succeeds or not. -/
theorem C83_search_partial {V S : Type*} [LinearOrder S] (e : Env V S) (now t : Int) (s : State V) (q : SaveReq) (w : SearchReq)
    (sc sc' b b' : Text) (hq : resolve e.sp e.lower q.scope q.user q.session q.ns = .ok (sc, b))
    (hw : resolve e.sp e.lower w.scope w.user w.session w.ns = .ok (sc', b')) (hne : b ≠ b')
    (hid : ∀ r ∈ s.rows, r.bucket = b' → r.id ≠ q.id) :
    search e now (save e t s q).1 w = search e now s w := by
  have hb : ∀ s : State V, (b' ∈ (ensureBucket s b).buckets ↔ b' ∈ s.buckets) := by
    intro s
    unfold ensureBucket
    split
    · rfl
    · simp [hne.symm]
  have hrows : (ensureBucket s b).rows = s.rows := by unfold ensureBucket; split <;> rfl
  have hup : ∀ (p : Row V → Bool) (r : Row V), r.id = q.id → (∀ x, p x = true → x.bucket = b') → r.bucket = b →
      (upsertRow s.rows r).filter p = s.rows.filter p := by
    intro p r hr hp hrb
    have hpr : p r = false := by
      cases h : p r with
      | false => rfl
      | true => exact absurd ((hrb.symm.trans (hp r h))) hne
    unfold upsertRow
    split
    · rw [List.filter_map]
      have h1 : ∀ x ∈ s.rows, (p ∘ fun x => if x.id == r.id then r else x) x = p x := by
        intro x hx
        simp only [Function.comp]
        by_cases hxr : (x.id == r.id) = true
        · rw [if_pos hxr, hpr]
          symm
          cases h : p x with
          | false => rfl
          | true => exact absurd ((by simpa using hxr : x.id = r.id).trans hr) (hid x hx (hp x h))
        · rw [if_neg hxr]
      rw [List.filter_congr h1]
      conv_rhs => rw [← List.map_id (s.rows.filter p)]
      apply List.map_congr_left
      intro x hx
      have hx' := List.mem_filter.1 hx
      rw [if_neg]
      · rfl
      · intro hxr
        exact hid x hx'.1 (hp x hx'.2) ((by simpa using hxr : x.id = r.id).trans hr)
    · rw [List.filter_append]
      simp [hpr]
  have key : ∀ s' : State V, (∀ p : Row V → Bool, (∀ x, p x = true → x.bucket = b') → s'.rows.filter p = s.rows.filter p) →
      (b' ∈ s'.buckets ↔ b' ∈ s.buckets) → search e now s' w = search e now s w := by
    intro s' h1 h2
    have hsem : ∀ v k, semantic e s' v b' k = semantic e s v b' k := by
      intro v k
      unfold semantic
      rw [h1 _ (fun x hx => by simp at hx; exact hx.1)]
    have hlex : ∀ k, searchLexical e now s' b' w.query k = searchLexical e now s b' w.query k := by
      intro k
      have hp : (s'.rows.filter fun r => r.bucket == b' && decide (r.bucket ∈ s'.buckets)) =
          s.rows.filter (fun r => r.bucket == b' && decide (r.bucket ∈ s.buckets)) := by
        rw [h1 _ (fun x hx => by simp at hx; exact hx.1)]
        apply List.filter_congr
        intro x _
        by_cases hx : x.bucket = b'
        · simp [hx, h2]
        · rw [show (x.bucket == b') = false from beq_false_of_ne hx]
          rfl
      unfold searchLexical
      simp only [hp]
    unfold search
    simp only [hw, hsem, hlex]
  unfold save
  split
  · rfl
  · split
    · rfl
    · simp only [hq]
      split
      · exact key _ (fun p _ => by rw [hrows]) (hb s)
      · refine key _ (fun p hp => ?_) (hb s)
        simp only [hrows]
        exact hup p _ rfl hp rfl

example : ids (search env0 0 (save env0 0 (run env0 init [(0, .save (saveBy "m" "alice" "n" "x" 0))]) (saveBy "k" "bob" "n" "x" 0)).1
    (searchBy "alice" "n" "x" 5)) = ["m"] := by decide +kernel

/-- C83 fails: memory ids are global, so a save by one user under an id another user has taken removes the other
user's memory. -/
theorem C83_violated :
    ids (search env0 0 (run env0 init [(0, .save (saveBy "m" "alice" "n" "x" 0))]) (searchBy "alice" "n" "x" 5)) = ["m"] ∧
    ids (search env0 0 (run env0 init [(0, .save (saveBy "m" "alice" "n" "x" 0)), (1, .save (saveBy "m" "bob" "n" "x" 0))])
      (searchBy "alice" "n" "x" 5)) = [] := by
  constructor <;> decide +kernel

/-! ### C68 -/

theorem wrap64_le (x : Int) (h : 0 ≤ x) : wrap64 x ≤ x := by
  unfold wrap64
  omega

theorem wrap64_id (x : Int) (h : 0 ≤ x) (h2 : x < 2 ^ 63) : wrap64 x = x := by
  unfold wrap64
  rw [Int.emod_eq_of_lt (by omega) (by omega)]
  omega

theorem expiresAt_le (now ttl e : Int) (h : expiresAt now ttl = some e) : e ≤ now + ttl * 1000000000 := by
  unfold expiresAt at h
  split at h
  · simp only [Option.some.injEq] at h
    have h1 := wrap64_le (ttl * 1000000000) (by omega)
    have h2 : floorSec (now + wrap64 (ttl * 1000000000)) ≤ now + wrap64 (ttl * 1000000000) := by
      unfold floorSec; omega
    omega
  · cases h

/-- The operation does not write the memory. -/
def Spares (id : Text) (o : Int × Op) : Prop :=
  match o.2 with
  | .save q => q.id ≠ id
  | .update q => q.id ≠ id
  | .delete _ => True

theorem step_keeps {V S : Type*} [LinearOrder S] (e : Env V S) (id : Text) (E : Option Int) (s : State V)
    (o : Int × Op) (ho : Spares id o) (h : ∀ r ∈ s.rows, r.id = id → r.expires = E) :
    ∀ r ∈ (step e s o).rows, r.id = id → r.expires = E := by
  intro r hr hid
  obtain ⟨t, op⟩ := o
  cases op with
  | save q =>
    simp only [step, save] at hr
    split at hr
    · exact h r hr hid
    · split at hr
      · exact h r hr hid
      · split at hr
        · exact h r hr hid
        · rename_i sc b hres
          have hrows : (ensureBucket s b).rows = s.rows := by unfold ensureBucket; split <;> rfl
          split at hr
          · rw [hrows] at hr; exact h r hr hid
          · simp only [hrows] at hr
            rcases upsertRow_mem _ _ _ hr with hr | rfl
            · exact h r hr.1 hid
            · exact absurd hid ho
  | update q =>
    simp only [step, update] at hr
    split at hr
    · exact h r hr hid
    · split at hr
      · exact h r hr hid
      · obtain ⟨y, hy, rfl⟩ := List.mem_map.1 hr
        split at hid
        · rename_i hy'
          have : y.id = q.id := by simpa using hy'
          exact absurd (this.symm.trans hid) ho
        · rename_i hy'
          rw [if_neg hy']; exact h y hy hid
  | delete d =>
    simp only [step, delete] at hr
    split at hr
    · exact h r hr hid
    · exact h r (List.mem_filter.1 hr).1 hid

/-- C68: after a memory is saved with a time to live, whatever else happens to other memories, no search later than
that time returns it. Missing: histories with an update of the memory that does not mention the time to live, which
extends it (see `C68_update_violated`). -/
theorem C68_expired_partial {V S : Type*} [LinearOrder S] (e : Env V S) (he : Sound e) (pre post : List (Int × Op))
    (t0 : Int) (q : SaveReq) (httl : 0 < q.ttl)
    (hok : (save e t0 (run e (init : State V) pre) q).2 = .ok ()) (hpost : ∀ o ∈ post, Spares q.id o)
    (now : Int) (hnow : t0 + q.ttl * 1000000000 < now) (sq : SearchReq) (hits : List (Row V × ℚ))
    (h : search e now (run e init (pre ++ [(t0, .save q)] ++ post)) sq = .ok hits) :
    ∀ x ∈ hits, x.1.id ≠ q.id := by
  have hrun : ∀ (post : List (Int × Op)) (s : State V), (∀ o ∈ post, Spares q.id o) →
      (∀ r ∈ s.rows, r.id = q.id → r.expires = expiresAt t0 q.ttl) →
      ∀ r ∈ (run e s post).rows, r.id = q.id → r.expires = expiresAt t0 q.ttl := by
    intro post
    induction post with
    | nil => intro s _ h; exact h
    | cons o os ih =>
      intro s ho h
      exact ih (step e s o) (fun o' ho' => ho o' (by simp [ho'])) (step_keeps e q.id _ s o (ho o (by simp)) h)
  have hsave : ∀ r ∈ (save e t0 (run e (init : State V) pre) q).1.rows, r.id = q.id →
      r.expires = expiresAt t0 q.ttl := by
    intro r hr hid
    unfold save at hr hok
    split at hok
    · cases hok
    · split at hok
      · cases hok
      · split at hok
        · cases hok
        · simp only at hok
          rw [if_neg (by assumption), if_neg (by assumption)] at hr
          split at hok
          · cases hok
          · rename_i v hv
            rename_i hres _
            rw [hres] at hr
            simp only [hv] at hr
            rcases upsertRow_mem _ _ _ hr with hr | rfl
            · exact absurd hid hr.2
            · rfl
  have hfin : run e (init : State V) (pre ++ [(t0, .save q)] ++ post) =
      run e (save e t0 (run e (init : State V) pre) q).1 post := by
    simp [run, step]
  rw [hfin] at h
  obtain ⟨_, _, _, hall⟩ := search_mem e he now _ sq hits h
  intro x hx hid
  obtain ⟨h1, _, h3⟩ := hall x hx
  have hE := hrun post _ hpost hsave x.1 h1 hid
  have hsome : expiresAt t0 q.ttl ≠ none := by unfold expiresAt; rw [if_pos httl]; simp
  cases hx' : expiresAt t0 q.ttl with
  | none => exact hsome hx'
  | some E =>
    have := expiresAt_le t0 q.ttl E hx'
    rw [hx'] at hE
    unfold expired at h3
    rw [hE] at h3
    simp only [decide_eq_false_iff_not] at h3
    omega

/-- The operation is no save of the memory, and an update of it was long enough ago and gives it at most `L` seconds. -/
def Brief (id : Text) (L now : Int) (o : Int × Op) : Prop :=
  match o.2 with
  | .save q => q.id ≠ id
  | .update u => u.id = id → o.1 + L * 1000000000 < now ∧ ∀ n, u.ttl = some n → 0 < n ∧ n ≤ L
  | .delete _ => True

/-- C68 with updates: a memory saved with a time to live of at most `L` seconds, and updated without mentioning it or with one
of at most `L` seconds, is not found later than `L` seconds after the save and the last update. So an update does extend the
time to live, but by no more than the time to live in force. -/
theorem C68_updates_partial {V S : Type*} [LinearOrder S] (e : Env V S) (he : Sound e) (pre post : List (Int × Op))
    (t0 L : Int) (q : SaveReq) (httl : 0 < q.ttl) (hL : q.ttl ≤ L)
    (hok : (save e t0 (run e (init : State V) pre) q).2 = .ok ()) (now : Int) (hpost : ∀ o ∈ post, Brief q.id L now o)
    (hnow : t0 + L * 1000000000 < now) (sq : SearchReq) (hits : List (Row V × ℚ))
    (h : search e now (run e init (pre ++ [(t0, .save q)] ++ post)) sq = .ok hits) :
    ∀ x ∈ hits, x.1.id ≠ q.id := by
  have hexp : ∀ t ttl : Int, 0 < ttl → ttl ≤ L → t + L * 1000000000 < now → ∃ E, expiresAt t ttl = some E ∧ E < now := by
    intro t ttl h1 h2 h3
    cases hx : expiresAt t ttl with
    | none => unfold expiresAt at hx; rw [if_pos h1] at hx; simp at hx
    | some E =>
      have := expiresAt_le t ttl E hx
      exact ⟨E, rfl, by omega⟩
  let Q : Row V → Prop := fun r => r.id = q.id → 0 < r.ttl ∧ r.ttl ≤ L ∧ ∃ E, r.expires = some E ∧ E < now
  have hstep : ∀ (s : State V) (o : Int × Op), Brief q.id L now o → (∀ r ∈ s.rows, Q r) → ∀ r ∈ (step e s o).rows, Q r := by
    intro s o ho h r hr
    obtain ⟨t, op⟩ := o
    cases op with
    | save w =>
      simp only [step, save] at hr
      split at hr
      · exact h r hr
      · split at hr
        · exact h r hr
        · split at hr
          · exact h r hr
          · rename_i sc b hres
            have hrows : (ensureBucket s b).rows = s.rows := by unfold ensureBucket; split <;> rfl
            split at hr
            · rw [hrows] at hr; exact h r hr
            · simp only [hrows] at hr
              rcases upsertRow_mem _ _ _ hr with hr | rfl
              · exact h r hr.1
              · exact fun hid => absurd hid ho
    | update w =>
      simp only [step, update] at hr
      split at hr
      · exact h r hr
      · rename_i row hload
        split at hr
        · exact h r hr
        · obtain ⟨y, hy, rfl⟩ := List.mem_map.1 hr
          by_cases hy' : (y.id == w.id) = true
          · rw [if_pos hy']
            intro hid
            have hyid : y.id = w.id := by simpa using hy'
            have hwid : w.id = q.id := hyid.symm.trans hid
            obtain ⟨g1, g2⟩ := ho hwid
            have hrow : row ∈ s.rows ∧ row.id = w.id := by
              unfold load at hload
              split at hload
              · cases hload
              · split at hload
                · rename_i r' hf
                  split at hload
                  · simp only [Except.ok.injEq] at hload
                    subst hload
                    exact ⟨List.mem_of_find?_eq_some hf, by simpa using List.find?_some hf⟩
                  · cases hload
                · cases hload
            obtain ⟨k1, k2, -⟩ := h row hrow.1 (hrow.2.trans hwid)
            have k3 : 0 < w.ttl.getD row.ttl ∧ w.ttl.getD row.ttl ≤ L := by
              cases hw : w.ttl with
              | none => exact ⟨k1, k2⟩
              | some n => exact g2 n hw
            exact ⟨k3.1, k3.2, hexp t _ k3.1 k3.2 g1⟩
          · rw [if_neg hy']; exact h y hy
    | delete d =>
      simp only [step, delete] at hr
      split at hr
      · exact h r hr
      · exact h r (List.mem_filter.1 hr).1
  have hrun : ∀ (post : List (Int × Op)) (s : State V), (∀ o ∈ post, Brief q.id L now o) → (∀ r ∈ s.rows, Q r) →
      ∀ r ∈ (run e s post).rows, Q r := by
    intro post
    induction post with
    | nil => intro s _ h; exact h
    | cons o os ih =>
      intro s ho h
      exact ih (step e s o) (fun o' ho' => ho o' (by simp [ho'])) (hstep s o (ho o (by simp)) h)
  have hsave : ∀ r ∈ (save e t0 (run e (init : State V) pre) q).1.rows, Q r := by
    intro r hr hid
    unfold save at hr hok
    split at hok
    · cases hok
    · split at hok
      · cases hok
      · split at hok
        · cases hok
        · simp only at hok
          rw [if_neg (by assumption), if_neg (by assumption)] at hr
          split at hok
          · cases hok
          · rename_i v hv
            rename_i hres _
            rw [hres] at hr
            simp only [hv] at hr
            rcases upsertRow_mem _ _ _ hr with hr | rfl
            · exact absurd hid hr.2
            · exact ⟨httl, hL, hexp t0 _ httl hL hnow⟩
  have hfin : run e (init : State V) (pre ++ [(t0, .save q)] ++ post) =
      run e (save e t0 (run e (init : State V) pre) q).1 post := by
    simp [run, step]
  rw [hfin] at h
  obtain ⟨_, _, _, hall⟩ := search_mem e he now _ sq hits h
  intro x hx hid
  obtain ⟨h1, _, h3⟩ := hall x hx
  obtain ⟨-, -, E, hE, hlt⟩ := hrun post _ hpost hsave x.1 h1 hid
  unfold expired at h3
  rw [hE] at h3
  simp only [decide_eq_false_iff_not] at h3
  omega

example : Brief "m".toList 10 (sec 30) (sec 9, .update ⟨"m".toList, some "x".toList, none⟩) := by
  intro _
  exact ⟨by decide, by simp⟩
example : ids (search env0 (sec 30) (run env0 init [(0, .save (saveBy "m" "a" "n" "x" 10)),
      (sec 9, .update ⟨"m".toList, some "x".toList, none⟩)]) (searchBy "a" "n" "x" 5)) = [] := by decide +kernel

/-- C68 fails for updates: an update that does not mention the time to live starts it anew, so the memory is still
found after its time; a memory that has already expired comes back. -/
theorem C68_update_violated :
    ids (search env0 (sec 15) (run env0 init [(0, .save (saveBy "m" "a" "n" "x" 10)),
      (sec 9, .update ⟨"m".toList, some "x".toList, none⟩)]) (searchBy "a" "n" "x" 5)) = ["m"] ∧
    ids (search env0 (sec 15) (run env0 init [(0, .save (saveBy "m" "a" "n" "x" 10))]) (searchBy "a" "n" "x" 5)) = [] ∧
    ids (search env0 (sec 17) (run env0 init [(0, .save (saveBy "m" "a" "n" "x" 10)),
      (sec 16, .update ⟨"m".toList, none, none⟩)]) (searchBy "a" "n" "x" 5)) = ["m"] := by
  refine ⟨?_, ?_, ?_⟩ <;> decide +kernel

example : ((save env0 0 (run env0 init []) (saveBy "m" "a" "n" "x" 10)).2 = .ok ()) ∧
    (0 : Int) + (saveBy "m" "a" "n" "x" 10).ttl * 1000000000 < sec 11 ∧
    ids (search env0 (sec 5) (run env0 init ([] ++ [(0, .save (saveBy "m" "a" "n" "x" 10))] ++ [])) (searchBy "a" "n" "x" 5))
      = ["m"] := by
  refine ⟨rfl, by decide, by decide +kernel⟩

/-! ### C84 -/

/-- C84: a saved memory is not taken for expired before its time to live is over (up to the second that formatting
cuts off), as long as the duration fits 64 bits, and never if it has none. -/
theorem C84_not_early_partial {V : Type*} (r : Row V) (t0 now : Int) (he : r.expires = expiresAt t0 r.ttl) :
    (r.ttl ≤ 0 → expired now r = false) ∧
    (0 < r.ttl → r.ttl * 1000000000 < 2 ^ 63 → now ≤ t0 + r.ttl * 1000000000 - 999999999 → expired now r = false) := by
  constructor
  · intro h
    unfold expired
    rw [he]
    unfold expiresAt
    rw [if_neg (by omega)]
  · intro h1 h2 h3
    unfold expired
    rw [he]
    unfold expiresAt
    rw [if_pos h1, wrap64_id _ (by omega) h2]
    simp only [decide_eq_false_iff_not]
    unfold floorSec
    omega

/-- C84 fails: a time to live of 300 years overflows and the memory is never found. -/
theorem C84_overflow_violated :
    ids (search env0 (sec 1) (run env0 init [(0, .save (saveBy "m" "a" "n" "x" (300 * 366 * 24 * 3600)))])
      (searchBy "a" "n" "x" 5)) = [] := by decide +kernel

/-- The comparison used by the ranking of `semantic`. -/
def key {V S : Type*} [LinearOrder S] (e : Env V S) (qv : V) (r : Row V) : WithBot S :=
  match r.vector with
  | some v => (e.sim qv v : S)
  | none => ⊥

theorem semantic_topK {V S : Type*} [LinearOrder S] (e : Env V S) (s : State V) (qv : V) (b : Text) (k : Nat) :
    IsTopK (key e qv) (s.rows.filter (fun r => r.bucket = b ∧ r.vector ≠ none)) k (semantic e s qv b k) := by
  set rows := s.rows.filter (fun r => decide (r.bucket = b ∧ r.vector ≠ none)) with hrows
  have hf : s.rows.filter (fun r => r.bucket == b && r.vector.isSome) = rows := by
    rw [hrows]
    apply List.filter_congr
    intro x _
    cases x.vector <;> simp [beq_eq_decide]
  have hv : ∀ r ∈ rows, ∃ v, r.vector = some v := by
    intro r hr
    have := (List.mem_filter.1 hr).2
    simp only [decide_eq_true_eq] at this
    exact Option.ne_none_iff_exists'.1 this.2
  -- on scored rows the comparison is that of `key`
  let sc : Row V → Row V × Option S := fun r => (r, r.vector.map (e.sim qv))
  have hexch : ∀ l : List (Row V), (∀ r ∈ l, ∃ v, r.vector = some v) →
      exchangeSort semBefore (l.map sc) = (exchangeSort (fun a b => decide (key e qv b < key e qv a)) l).map sc := by
    have hsweep : ∀ (l : List (Row V)) (x : Row V), (∃ v, x.vector = some v) → (∀ r ∈ l, ∃ v, r.vector = some v) →
        sweep semBefore (sc x) (l.map sc) =
          (sc (sweep (fun a b => decide (key e qv b < key e qv a)) x l).1,
           ((sweep (fun a b => decide (key e qv b < key e qv a)) x l).2).map sc) := by
      intro l
      induction l with
      | nil => intro x _ _; rfl
      | cons y ys ih =>
        intro x hx hl
        obtain ⟨vx, hvx⟩ := hx
        obtain ⟨vy, hvy⟩ := hl y (by simp)
        have hb : semBefore (sc y) (sc x) = decide (key e qv x < key e qv y) := by
          simp only [semBefore, sc, hvx, hvy, Option.map_some, key, WithBot.coe_lt_coe]
        simp only [List.map_cons, sweep, hb]
        split
        · rw [ih y ⟨vy, hvy⟩ (fun r hr => hl r (by simp [hr]))]
          rfl
        · rw [ih x ⟨vx, hvx⟩ (fun r hr => hl r (by simp [hr]))]
          rfl
    intro l
    induction hn : l.length using Nat.strongRecOn generalizing l with
    | ind n ih =>
      intro hl
      cases l with
      | nil => rw [List.map_nil, exchangeSort, exchangeSort]; rfl
      | cons x xs =>
        have hsw := hsweep xs x (hl x (by simp)) (fun r hr => hl r (by simp [hr]))
        rw [List.map_cons, exchangeSort, exchangeSort, hsw, List.map_cons]
        simp only
        rw [ih _ (by rw [← hn]; simp [sweep_length]) _ rfl]
        intro r hr
        apply hl
        exact (sweep_perm _ x xs).mem_iff.1 (List.mem_cons_of_mem _ hr)
  have hsem : semantic e s qv b k = (exchangeSort (fun a b => decide (key e qv b < key e qv a)) rows).take k := by
    unfold semantic
    simp only
    rw [hf]
    have := hexch rows hv
    simp only [sc] at this
    rw [this, ← List.map_take, List.map_map]
    conv_rhs => rw [← List.map_id ((exchangeSort (fun a b => decide (key e qv b < key e qv a)) rows).take k)]
    rfl
  rw [hsem]
  exact isTopK_take (key e qv) rows _ k (sortedFrom_exchange (key e qv) rows)

/-- C84 when nothing in the bucket has expired: a semantic search returns exactly the best `topK` memories of the
bucket (those stored with a vector), best first. Missing: buckets that hold expired memories (see
`C84_crowding_violated`). -/
theorem C84_semantic_partial {V S : Type*} [LinearOrder S] (e : Env V S) (now : Int) (s : State V) (q : SearchReq)
    (f : Text → Option V) (hf : e.embedder = some f) (qv : V) (hqv : f q.query = some qv)
    (hlex : q.lexicalOnly = false) (sc b : Text)
    (hb : resolve e.sp e.lower q.scope q.user q.session q.ns = .ok (sc, b))
    (hq : trim e.sp q.query ≠ []) (hlive : ∀ r ∈ s.rows, r.bucket = b → expired now r = false)
    (hsome : ∃ r ∈ s.rows, r.bucket = b ∧ r.vector ≠ none) :
    ∃ hits, search e now s q = .ok hits ∧
      IsTopK (key e qv) (s.rows.filter (fun r => r.bucket = b ∧ r.vector ≠ none))
        (if q.topK ≤ 0 then 5 else q.topK.toNat) (hits.map (·.1)) := by
  set k : Nat := (if q.topK ≤ 0 then 5 else q.topK.toNat) with hk
  have hkk : ((if q.topK ≤ 0 then 5 else q.topK : Int)).toNat = k := by
    rw [hk]; split <;> rfl
  have htop := semantic_topK e s qv b k
  have hkpos : 0 < k := by rw [hk]; split <;> omega
  set msgs := semantic e s qv b k with hm
  have hne : msgs ≠ [] := by
    intro h0
    have := htop.size
    rw [h0] at this
    obtain ⟨r, hr, hrb⟩ := hsome
    have hmem : r ∈ s.rows.filter (fun r => decide (r.bucket = b ∧ r.vector ≠ none)) :=
      List.mem_filter.2 ⟨hr, by simpa using hrb⟩
    have := List.length_pos_of_mem hmem
    simp only [List.length_nil] at *
    omega
  have hall : ∀ p ∈ msgs.zipIdx, (!expired now p.1) = true := by
    intro p hp
    have h1 := semantic_mem e s qv b k p.1 (List.fst_mem_of_mem_zipIdx hp)
    simp [hlive p.1 h1.1 h1.2]
  have hhits : (semHits now msgs).map (·.1) = msgs := by
    unfold semHits
    rw [List.filter_eq_self.2 hall, List.map_map]
    exact List.zipIdx_map_fst 0 msgs
  refine ⟨semHits now msgs, ?_, by rw [hhits]; exact htop⟩
  unfold search
  rw [if_neg hq, hb]
  simp only [hlex, hf, hqv, hkk, ← hm]
  have hne' : semHits now msgs ≠ [] := by
    intro h0
    rw [h0] at hhits
    exact hne (by simpa using hhits.symm)
  simp [hne']

/-- C84 with expired memories: the best `topK` of the bucket are taken, live or not, and the answer is the live ones among them, in
order, if there is one. -/
theorem C84_live_among_best_partial {V S : Type*} [LinearOrder S] (e : Env V S) (now : Int) (s : State V) (q : SearchReq)
    (f : Text → Option V) (hf : e.embedder = some f) (qv : V) (hqv : f q.query = some qv)
    (hlex : q.lexicalOnly = false) (sc b : Text)
    (hb : resolve e.sp e.lower q.scope q.user q.session q.ns = .ok (sc, b)) (hq : trim e.sp q.query ≠ []) :
    ∃ best, IsTopK (key e qv) (s.rows.filter (fun r => r.bucket = b ∧ r.vector ≠ none))
        (if q.topK ≤ 0 then 5 else q.topK.toNat) best ∧
      ((∃ r ∈ best, expired now r = false) →
        ∃ hits, search e now s q = .ok hits ∧ hits.map (·.1) = best.filter (fun r => !expired now r)) := by
  set k : Nat := (if q.topK ≤ 0 then 5 else q.topK.toNat) with hk
  have hkk : ((if q.topK ≤ 0 then 5 else q.topK : Int)).toNat = k := by
    rw [hk]; split <;> rfl
  refine ⟨semantic e s qv b k, semantic_topK e s qv b k, ?_⟩
  rintro ⟨r, hr, hlive⟩
  set msgs := semantic e s qv b k with hm
  have hhits : (semHits now msgs).map (·.1) = msgs.filter (fun r => !expired now r) := by
    unfold semHits
    rw [List.map_map]
    conv_rhs => rw [← List.zipIdx_map_fst 0 msgs, List.filter_map]
    rfl
  refine ⟨semHits now msgs, ?_, hhits⟩
  unfold search
  rw [if_neg hq, hb]
  simp only [hlex, hf, hqv, hkk, ← hm]
  have hne' : semHits now msgs ≠ [] := by
    intro h0
    rw [h0] at hhits
    have : r ∈ msgs.filter (fun r => !expired now r) := List.mem_filter.2 ⟨hr, by simp [hlive]⟩
    rw [← hhits] at this
    simp at this
  simp [hne']

/-- C84 fails: expired memories are cut to the limit together with live ones and removed afterwards, so a search
for the two best returns one although two live memories match. -/
theorem C84_crowding_violated :
    ∃ (s : State Int) (q : SearchReq) (now : Int), q.topK = 2 ∧
      s = run env1 init [(0, .save (saveBy "old" "a" "n" "x" 1)), (0, .save (saveBy "live1" "a" "n" "xx" 0)),
        (0, .save (saveBy "live2" "a" "n" "xxx" 0))] ∧
      (s.rows.filter (fun r => !expired now r)).length = 2 ∧
      (match search env1 now s q with | .ok l => l.length | .error _ => 0) ≤ 1 := by
  refine ⟨_, searchBy "a" "n" "x" 2, sec 5, rfl, rfl, by decide +kernel, ?_⟩
  set s := run env1 init [(0, .save (saveBy "old" "a" "n" "x" 1)), (0, .save (saveBy "live1" "a" "n" "xx" 0)),
        (0, .save (saveBy "live2" "a" "n" "xxx" 0))] with hs
  decide +kernel

end Verif.Memory
