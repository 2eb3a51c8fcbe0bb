import Verif.Thm.Memory
import Verif.Thm.MemoryWrites
import Verif.Thm.MemoryRecord

/-!
What goes wrong with memories, for every history rather than for one: names with a colon, ids shared by users, times to live
that are updated or too long, and the user a record names.
-/
namespace Verif.Memory
open Verif.Base

variable {V S : Type*} [LinearOrder S]

/-- C67 fails for every state and query: user `a` asking in namespace `b:c` is answered as user `a:b` asking in namespace `c`. -/
theorem C67_alias_violated (e : Env V S) (now : Int) (s : State V) (q : SearchReq) (a b c : Text)
    (hs : (trim e.sp q.scope).map e.lower = sUser) (ha : trim e.sp a ≠ []) (hab : trim e.sp (a ++ ':' :: b) ≠ [])
    (hc : trim e.sp c = c) (hc0 : c ≠ []) (hbc : trim e.sp (b ++ ':' :: c) = b ++ ':' :: c) :
    search e now s { q with user := a, ns := b ++ ':' :: c } = search e now s { q with user := a ++ ':' :: b, ns := c } := by
  have h0 : sUser ≠ [] := by decide
  have h1 : sUser ≠ sGlobal := by decide
  have e1 : resolve e.sp e.lower q.scope a q.session (b ++ ':' :: c) =
      resolve e.sp e.lower q.scope (a ++ ':' :: b) q.session c := by
    have hbc0 : b ++ ':' :: c ≠ [] := by simp
    simp only [resolve, resolveScope, hs, h0, h1, if_false, if_true, true_or, or_true, ha, hab, normNs, hc, hc0, hbc, hbc0,
      List.append_assoc, List.cons_append]
  unfold search
  simp only [e1]

example : (trim env0.sp "user".toList).map env0.lower = sUser ∧ trim env0.sp "a".toList ≠ [] ∧
    trim env0.sp ("a".toList ++ ':' :: "b".toList) ≠ [] ∧ trim env0.sp "c".toList = "c".toList ∧ "c".toList ≠ [] ∧
    trim env0.sp ("b".toList ++ ':' :: "c".toList) = "b".toList ++ ':' :: "c".toList := by decide +kernel

/-- What a successful save leaves under its id. -/
theorem save_rows (e : Env V S) (now : Int) (s : State V) (q : SaveReq) (hok : (save e now s q).2 = .ok ()) :
    ∃ sc b, resolve e.sp e.lower q.scope q.user q.session q.ns = .ok (sc, b) ∧
      ∀ r ∈ (save e now s q).1.rows, r.id = q.id → r.bucket = b ∧ r.expires = expiresAt now q.ttl := by
  unfold save at hok ⊢
  by_cases h0 : q.id = []
  · rw [if_pos h0] at hok; cases hok
  rw [if_neg h0] at hok ⊢
  by_cases h1 : trim e.sp q.content = []
  · rw [if_pos h1] at hok; cases hok
  rw [if_neg h1] at hok ⊢
  cases hr : resolve e.sp e.lower q.scope q.user q.session q.ns with
  | error er => rw [hr] at hok; cases hok
  | ok p =>
    obtain ⟨sc, b⟩ := p
    refine ⟨sc, b, rfl, ?_⟩
    rw [hr] at hok
    simp only at hok ⊢
    cases hv : embedContent e q.content with
    | error er => rw [hv] at hok; cases hok
    | ok v =>
      intro r hm hid
      rcases upsertRow_mem _ _ _ hm with h | rfl
      · exact absurd hid h.2
      · exact ⟨rfl, rfl⟩

/-- C83 fails for every history: once a save of anyone has succeeded under an id, no search of another owner (or namespace) returns a
memory of that id, although it had been saved there. -/
theorem C83_taken_violated (e : Env V S) (he : Sound e) (now t : Int) (s : State V) (q : SaveReq)
    (hok : (save e t s q).2 = .ok ()) (w : SearchReq)
    (hne : ∀ x y, resolve e.sp e.lower q.scope q.user q.session q.ns = .ok x →
      resolve e.sp e.lower w.scope w.user w.session w.ns = .ok y → x.2 ≠ y.2) (hits : List (Row V × ℚ))
    (h : search e now (save e t s q).1 w = .ok hits) : ∀ x ∈ hits, x.1.id ≠ q.id := by
  obtain ⟨sc, b, h1, h2⟩ := save_rows e t s q hok
  obtain ⟨sc', b', h3, h4⟩ := search_mem e he now _ w hits h
  intro x hx hid
  obtain ⟨k1, k2, _⟩ := h4 x hx
  exact hne _ _ h1 h3 ((h2 x.1 k1 hid).1.symm.trans k2)

example : (save env0 1 (run env0 init [(0, .save (saveBy "m" "alice" "n" "x" 0))]) (saveBy "m" "bob" "n" "x" 0)).2 = .ok () ∧
    (match resolve env0.sp env0.lower [] "bob".toList [] "n".toList, resolve env0.sp env0.lower [] "alice".toList [] "n".toList with
      | .ok x, .ok y => decide (x.2 ≠ y.2)
      | _, _ => false) = true := by decide +kernel

/-- C68 fails for every stored memory with a time to live, however long ago it expired: an update that mentions nothing makes it
live again for its whole time to live. -/
theorem C68_revived_violated (e : Env V S) (now t : Int) (s : State V) (id : Text) (row : Row V) (hl : get s id = .ok row)
    (h0 : 0 < row.ttl) (hb : row.ttl * 1000000000 < 2 ^ 63) (hnow : t + row.ttl * 1000000000 - 1000000000 ≥ now) :
    (update e t s ⟨id, none, none⟩).2 = .ok () ∧
      ∃ r, get (update e t s ⟨id, none, none⟩).1 id = .ok r ∧ r.content = row.content ∧ r.ttl = row.ttl ∧ expired now r = false := by
  have hok : (update e t s ⟨id, none, none⟩).2 = .ok () := by
    have hl2 : load s id = .ok row := hl
    unfold update
    simp only [hl2]
  obtain ⟨r, h1, _, _, _, _, h6, h7, h8, _⟩ := C187_update e t s ⟨id, none, none⟩ row hl hok
  refine ⟨hok, r, h1, h6, h7, ?_⟩
  have : r.expires = some (floorSec (t + row.ttl * 1000000000)) := by
    rw [h8]
    simp only [Option.getD_none, expiresAt, if_pos h0]
    rw [wrap64_id _ (by omega) hb]
  unfold expired
  rw [this]
  simp only [decide_eq_false_iff_not]
  unfold floorSec
  omega

example : ∃ row, get (run env0 init [(0, .save (saveBy "m" "a" "n" "x" 10))]) "m".toList = .ok row ∧ row.ttl = 10 ∧
    expired (sec 1000) row = true := by
  refine ⟨⟨"m".toList, "memory:user:a:n".toList, "x".toList, none, sUser, "n".toList, 10, some (sec 10)⟩, ?_⟩
  decide +kernel

/-- C84 fails for every history: a memory saved with a time to live between 9223372037 and 18446744073 seconds (292 to 584 years) is
never found, not even right after the save. -/
theorem C84_too_long_violated (e : Env V S) (he : Sound e) (now t : Int) (ht : t ≤ now) (s : State V) (q : SaveReq)
    (h1 : 9223372037 ≤ q.ttl) (h2 : q.ttl ≤ 18446744072) (hok : (save e t s q).2 = .ok ()) (w : SearchReq)
    (hits : List (Row V × ℚ)) (h : search e now (save e t s q).1 w = .ok hits) : ∀ x ∈ hits, x.1.id ≠ q.id := by
  obtain ⟨sc, b, _, k2⟩ := save_rows e t s q hok
  obtain ⟨sc', b', _, h4⟩ := search_mem e he now _ w hits h
  intro x hx hid
  obtain ⟨m1, _, m3⟩ := h4 x hx
  have hE := (k2 x.1 m1 hid).2
  unfold expired at m3
  rw [hE] at m3
  have hlt : expiresAt t q.ttl = some (floorSec (t + (q.ttl * 1000000000 - 2 ^ 64))) := by
    unfold expiresAt
    rw [if_pos (by omega)]
    congr 3
    unfold wrap64
    omega
  rw [hlt] at m3
  simp only [decide_eq_false_iff_not] at m3
  unfold floorSec at m3
  omega

example : (save env0 0 (init : State Int) (saveBy "m" "a" "n" "x" 10000000000)).2 = .ok () := by decide +kernel

end Verif.Memory

namespace Verif.MemRec
open Verif.Memory Verif.Base

/-- C191 fails for every state: a memory saved into a bucket that exists already is reported with the user whose save made the bucket,
whoever saved it. -/
theorem C191_first_violated (sp : Char → Bool) (lower : Char → Char) (now : Int) (s : State) (q : SaveReq) (sc b w : Text)
    (hr : resolve sp lower q.scope q.user q.session q.ns = .ok (sc, b)) (hb : s.buckets.lookup b = some w)
    (h : (save sp lower now s q).2 = true) :
    ∃ r, load (save sp lower now s q).1 q.id = some r ∧ r.content = q.content ∧ r.user = w := by
  unfold save at h ⊢
  by_cases h0 : q.id = []
  · rw [if_pos h0] at h; cases h
  rw [if_neg h0] at h ⊢
  by_cases h1 : trim sp q.content = []
  · rw [if_pos h1] at h; cases h
  rw [if_neg h1, hr]
  simp only [hb, Option.isSome_some, if_true]
  have hf := find_upsert s.msgs ⟨q.id, b, if trim sp q.role = [] then "memory".toList else q.role, q.content,
    build now sc (normNs sp q.ns) q.info q.importance q.ttl, now⟩
  simp only at hf
  have hl : load ⟨s.buckets, upsert s.msgs ⟨q.id, b, if trim sp q.role = [] then "memory".toList else q.role, q.content,
      build now sc (normNs sp q.ns) q.info q.importance q.ttl, now⟩⟩ q.id = some (record w ⟨q.id, b,
        if trim sp q.role = [] then "memory".toList else q.role, q.content, build now sc (normNs sp q.ns) q.info q.importance q.ttl,
        ((s.msgs.find? (fun x => x.id == q.id)).map Msg.created).getD now⟩) := by
    unfold load
    rw [if_neg h0, hf]
    simp only [Option.bind_some, hb, Option.map_some]
  exact ⟨_, hl, rfl, rfl⟩

example : (run sp0 id init [(0, .save alice)]).buckets.lookup "memory:global:default".toList = some alice.user ∧
    (save sp0 id 0 (run sp0 id init [(0, .save alice)]) bob).2 = true ∧ bob.user ≠ alice.user := by decide +kernel

end Verif.MemRec
