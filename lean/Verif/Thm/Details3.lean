import Verif.Thm.HindClose
import Verif.Thm.ChatMemory
import Verif.Model.HindStore
import Verif.Model.Hindsight
import Verif.Model.Facade
import Verif.Model.Geo
import Mathlib.Tactic.Ring
import Mathlib.Tactic.Linarith
import Mathlib.Tactic.NormNum

/-!
Further details of C231, C232, C224, C53, C60 and C166.
-/
namespace Verif.HindClose

/-! ### C231: how often an extraction starts -/

/-- A message that was written and counted. -/
def past (t : Th) : Bool :=
  match t.p with
  | .begin => false
  | .wrote => false
  | .refused => false
  | _ => true

/-- A message that started an extraction. -/
def starts (t : Th) : Bool :=
  match t.p with
  | .fired => true
  | .counted => true
  | .returned b => b
  | _ => false

/-- The counter and the messages: of every `every` messages counted one started an extraction. -/
def Paced (s : State) : Prop :=
  0 ≤ s.count ∧ s.count < s.every ∧ (s.th.countP past : Int) = s.every * (s.th.countP starts : Int) + s.count

theorem paced_set {s : State} (h : Paced s) {i : Nat} {t u : Th} (ht : s.th[i]? = some t) (hp : past t = past u)
    (hs : starts t = starts u) : Paced { s with th := s.th.set i u } := by
  have h1 := countP_set past s.th i t u ht
  have h2 := countP_set starts s.th i t u ht
  rw [hp] at h1
  rw [hs] at h2
  have e1 : (s.th.set i u).countP past = s.th.countP past := by omega
  have e2 : (s.th.set i u).countP starts = s.th.countP starts := by omega
  obtain ⟨a, b, c⟩ := h
  refine ⟨a, b, ?_⟩
  simp only [e1, e2]
  exact c

theorem every_step (s : State) (m : Move) : (step s m).every = s.every := by
  cases m with
  | call i =>
    simp only [step, callStep]
    split
    · rfl
    · split
      · rfl
      · split_ifs <;> rfl
      · rfl
      · rfl
      · rfl
  | work i =>
    simp only [step, workStep]
    split
    · rfl
    · split <;> rfl
  | close =>
    simp only [step, closeStep]
    split
    · rfl
    · split_ifs <;> rfl
    · rfl
    · rfl

theorem paced_step {s : State} (h : Paced s) (m : Move) : Paced (step s m) := by
  cases m with
  | call i =>
    simp only [step, callStep]
    cases ht : s.th[i]? with
    | none => exact h
    | some t =>
      obtain ⟨p, w⟩ := t
      cases p with
      | begin =>
        simp only
        refine paced_set h ht ?_ ?_
        · cases s.isOpen <;> simp [past]
        · cases s.isOpen <;> simp [starts]
      | wrote =>
        simp only
        obtain ⟨a, b, c⟩ := h
        split_ifs with hf
        · have h1 := countP_set past s.th i _ ⟨.fired, w⟩ ht
          have h2 := countP_set starts s.th i _ ⟨.fired, w⟩ ht
          simp only [past, starts] at h1 h2
          refine ⟨le_refl _, by simp only; omega, ?_⟩
          simp only
          have e1 : ((s.th.set i ⟨.fired, w⟩).countP past : Int) = s.th.countP past + 1 := by
            simp at h1; push_cast [h1]; rfl
          have e2 : ((s.th.set i ⟨.fired, w⟩).countP starts : Int) = s.th.countP starts + 1 := by
            simp at h2; push_cast [h2]; rfl
          rw [e1, e2, c]
          have : s.count + 1 = s.every := by omega
          rw [mul_add]
          omega
        · have h1 := countP_set past s.th i _ ⟨.returned false, w⟩ ht
          have h2 := countP_set starts s.th i _ ⟨.returned false, w⟩ ht
          simp only [past, starts] at h1 h2
          refine ⟨by simp only; omega, by simp only; omega, ?_⟩
          simp only
          have e1 : ((s.th.set i ⟨.returned false, w⟩).countP past : Int) = s.th.countP past + 1 := by
            simp at h1; push_cast [h1]; rfl
          have e2 : ((s.th.set i ⟨.returned false, w⟩).countP starts : Int) = s.th.countP starts := by
            simp at h2; push_cast [h2]; rfl
          rw [e1, e2, c]
          omega
      | fired => exact paced_set (s := { s with wg := s.wg + 1 }) h ht rfl rfl
      | counted => exact paced_set h ht rfl rfl
      | returned b => exact h
      | refused => exact h
  | work i =>
    simp only [step, workStep]
    cases ht : s.th[i]? with
    | none => exact h
    | some t =>
      obtain ⟨p, w⟩ := t
      cases w with
      | none => exact h
      | over b => exact h
      | ready => exact paced_set h ht rfl rfl
      | read => exact paced_set h ht rfl rfl
      | ended b => exact paced_set (s := { s with wg := s.wg - 1 }) h ht rfl rfl
  | close =>
    simp only [step, closeStep]
    split
    · exact h
    · split_ifs <;> exact h
    · exact h
    · exact h

theorem paced_run {s : State} (h : Paced s) (l : List Move) : Paced (run s l) := by
  induction l generalizing s with
  | nil => exact h
  | cons m l ih => exact ih (paced_step h m)

theorem every_run (s : State) (l : List Move) : (run s l).every = s.every := by
  induction l generalizing s with
  | nil => rfl
  | cons m l ih => exact (ih (step s m)).trans (every_step s m)

/-- C231: in every schedule of concurrent messages exactly one in `every` of the messages counted has started an extraction: as many as
whole groups of `every` messages, and none for the rest. -/
theorem C231_paced (every : Int) (n : Nat) (hev : 1 ≤ every) (l : List Move) :
    let s := run (init every n) l
    (s.th.countP starts : Int) = (s.th.countP past : Int) / every ∧ s.count = (s.th.countP past : Int) % every := by
  intro s
  have h0 : Paced (init every n) := by
    refine ⟨le_refl _, by simp only [init]; omega, ?_⟩
    have e1 : (init every n).th.countP past = 0 := by
      rw [List.countP_eq_zero]
      intro t ht
      rw [List.eq_of_mem_replicate ht]
      simp [past]
    have e2 : (init every n).th.countP starts = 0 := by
      rw [List.countP_eq_zero]
      intro t ht
      rw [List.eq_of_mem_replicate ht]
      simp [starts]
    rw [e1, e2]
    simp [init]
  obtain ⟨a, b, c⟩ := paced_run h0 l
  have he : s.every = every := every_run _ l
  change (s.th.countP past : Int) = s.every * (s.th.countP starts : Int) + s.count at c
  change 0 ≤ s.count at a
  change s.count < s.every at b
  rw [he] at b c
  rw [c]
  constructor
  · rw [Int.add_comm, Int.add_mul_ediv_left _ _ (by omega), Int.ediv_eq_zero_of_lt a b]
    simp
  · rw [Int.add_comm, Int.add_mul_emod_self_left, Int.emod_eq_of_lt a b]

example : let s := run (init 2 3) [.call 0, .call 1, .call 2, .call 1, .call 2, .call 2, .call 0]
    s.th.countP past = 3 ∧ s.th.countP starts = 1 ∧ s.count = 1 := by decide

/-- C231: a message whose call begins after the database was closed is not written and starts nothing, whatever happens later. -/
theorem C231_refused (s : State) (hclosed : s.isOpen = false) (i : Nat) (hi : s.th[i]? = some ⟨.begin, .none⟩) (l : List Move) :
    (run s l).isOpen = false ∧
      ((run s l).th[i]? = some ⟨.begin, .none⟩ ∨ (run s l).th[i]? = some ⟨.refused, .none⟩) := by
  have key : ∀ (s : State) (m : Move), s.isOpen = false →
      (s.th[i]? = some ⟨.begin, .none⟩ ∨ s.th[i]? = some ⟨.refused, .none⟩) →
      (step s m).isOpen = false ∧
      ((step s m).th[i]? = some ⟨.begin, .none⟩ ∨ (step s m).th[i]? = some ⟨.refused, .none⟩) := by
    intro s m ho hi
    have hlt : i < s.th.length := by
      rcases hi with hi | hi <;> exact (List.getElem?_eq_some_iff.1 hi).1
    cases m with
    | call j =>
      by_cases hj : j = i
      · subst hj
        rcases hi with hi | hi
        · simp only [step, callStep, hi, ho]
          simp [hlt, ho]
        · simp only [step, callStep, hi]
          simp [hi, ho]
      · simp only [step, callStep]
        split
        · exact ⟨ho, hi⟩
        · split
          · exact ⟨ho, by simpa [List.getElem?_set, hj] using hi⟩
          · split_ifs
            · exact ⟨ho, by simpa [List.getElem?_set, hj] using hi⟩
            · exact ⟨ho, by simpa [List.getElem?_set, hj] using hi⟩
          · exact ⟨ho, by simpa [List.getElem?_set, hj] using hi⟩
          · exact ⟨ho, by simpa [List.getElem?_set, hj] using hi⟩
          · exact ⟨ho, hi⟩
    | work j =>
      by_cases hj : j = i
      · subst hj
        rcases hi with hi | hi
        · simp only [step, workStep, hi]
          simp [hi, ho]
        · simp only [step, workStep, hi]
          simp [hi, ho]
      · simp only [step, workStep]
        split
        · exact ⟨ho, hi⟩
        · split
          · exact ⟨ho, by simpa [List.getElem?_set, hj] using hi⟩
          · exact ⟨ho, by simpa [List.getElem?_set, hj] using hi⟩
          · exact ⟨ho, by simpa [List.getElem?_set, hj] using hi⟩
          · exact ⟨ho, hi⟩
    | close =>
      simp only [step, closeStep]
      split
      · exact ⟨ho, hi⟩
      · split_ifs
        · exact ⟨ho, hi⟩
        · exact ⟨ho, hi⟩
      · exact ⟨rfl, hi⟩
      · exact ⟨ho, hi⟩
  have h : ∀ (l : List Move) (s : State), s.isOpen = false →
      (s.th[i]? = some ⟨.begin, .none⟩ ∨ s.th[i]? = some ⟨.refused, .none⟩) →
      (run s l).isOpen = false ∧
      ((run s l).th[i]? = some ⟨.begin, .none⟩ ∨ (run s l).th[i]? = some ⟨.refused, .none⟩) := by
    intro l
    induction l with
    | nil => intro s ho hi; exact ⟨ho, hi⟩
    | cons m l ih => intro s ho hi; obtain ⟨a, b⟩ := key s m ho hi; exact ih _ a b
  exact h l s hclosed (Or.inl hi)

example : let s := run (init 1 1) [.close, .close, .close]
    s.isOpen = false ∧ s.th[0]? = some ⟨.begin, .none⟩ ∧ (run s [.call 0]).th[0]? = some ⟨.refused, .none⟩ := by decide

end Verif.HindClose

namespace Verif.MemRec
open Verif.Base Verif.Memory

/-- C232: a chat message under a new id: where keys are enforced it is stored exactly when its session exists; where they are not, always.
Stored, it is the last message and everything else stays. -/
theorem C232_message (fk : Bool) (now : Int) (s : State) (m : Msg) (hnew : m.id ∉ s.msgs.map Msg.id) :
    addMessage fk now s m =
      if fk = true ∧ m.bucket ∉ s.buckets.map Prod.fst then (s, false)
      else ({ s with msgs := s.msgs ++ [{ m with created := now }] }, true) := by
  unfold addMessage
  have h0 : s.msgs.any (fun x => x.id == m.id) = false := by
    rw [List.any_eq_false]
    intro x hx he
    exact hnew (List.mem_map.2 ⟨x, hx, by simpa using he⟩)
  have hl : ∀ l : List (Text × Text), (l.lookup m.bucket).isNone = true ↔ m.bucket ∉ l.map Prod.fst := by
    intro l
    induction l with
    | nil => simp
    | cons a l ih =>
      rw [List.lookup_cons]
      by_cases he : m.bucket = a.1
      · simp [he]
      · have : (m.bucket == a.1) = false := by simpa using he
        simp only [this]
        rw [ih]
        simp [he]
  rw [h0]
  simp only [Bool.false_eq_true, if_false]
  by_cases hc : fk = true ∧ m.bucket ∉ s.buckets.map Prod.fst
  · rw [if_pos hc, if_pos]
    rw [hc.1, (hl _).2 hc.2]
    rfl
  · rw [if_neg hc, if_neg]
    intro hb
    rw [Bool.and_eq_true] at hb
    exact hc ⟨hb.1, (hl _).1 hb.2⟩

example : (addMessage true 5 ⟨[("s".toList, "u".toList)], []⟩ ⟨"m".toList, "t".toList, [], [], [], 0⟩).2 = false ∧
    (addMessage true 5 ⟨[("s".toList, "u".toList)], []⟩ ⟨"m".toList, "s".toList, [], [], [], 0⟩).2 = true ∧
    (addMessage false 5 ⟨[("s".toList, "u".toList)], []⟩ ⟨"m".toList, "t".toList, [], [], [], 0⟩).2 = true := by decide +kernel

end Verif.MemRec

namespace Verif.HindStore
open Verif.Model.Store

/-- C224: a hit without a recorded time is judged by the time of the call, one with a time by that time. -/
theorem C224_times (readInt : String → Int) (now : Int) (tr : TimeRange) (md : Option Meta) (t : Int)
    (ht : (md.bind (fun m => m.lookup "created_at") = none ∧ t = now) ∨
      ∃ x, md.bind (fun m => m.lookup "created_at") = some x ∧ t = readInt x * 1000000000) :
    inRange readInt now tr md = true ↔ (∀ a, tr.start = some a → a ≤ t) ∧ (∀ z, tr.stop = some z → t ≤ z) := by
  have hc : createdAt readInt now md = t := by
    unfold createdAt
    rcases ht with ⟨h1, h2⟩ | ⟨x, h1, h2⟩
    · rw [h1, h2]
    · rw [h1, h2]
  unfold inRange
  rw [hc]
  obtain ⟨a, z⟩ := tr
  cases a <;> cases z <;> simp [and_comm]

example : inRange (fun _ => 3) 7 ⟨some 6, some 8⟩ none = true ∧ inRange (fun _ => 3) 7 ⟨some 8, none⟩ none = false ∧
    inRange (fun _ => 3) 7 ⟨some 8, none⟩ (some [("created_at", "3")]) = true := by decide +kernel

end Verif.HindStore

namespace Verif.Geo

/-- C53: a kilometre is a thousand metres and a mile 1.60934 kilometres, both ways. -/
theorem C53_units {K : Type} [Field K] [LinearOrder K] [IsStrictOrderedRing K] (d : K) :
    toKM (1000 * d) .meters = d ∧ fromKM d .meters = 1000 * d ∧ toKM d .miles = 160934 / 100000 * d ∧
      fromKM (160934 / 100000 * d) .miles = d ∧ ∀ u, u ≠ .miles → u ≠ .meters → toKM d u = d ∧ fromKM d u = d := by
  refine ⟨?_, ?_, ?_, ?_, ?_⟩
  · simp only [toKM]; ring
  · simp only [fromKM]; ring
  · simp only [toKM]; ring
  · simp only [fromKM]; ring
  · intro u h1 h2
    cases u <;> simp_all [toKM, fromKM]

/-- C53: the ends count: a hit of a search by radius is a point found in the cells looked at whose distance is at most the radius, and its
distance is given in the unit of the search. -/
theorem C53_inclusive {K : Type} [Field K] [LinearOrder K] (c : Cfg K) (g : Index) (center : Coord) (radius : K) (u : Unit_)
    (hv : valid center = true) (hr : 0 < radius) (p : Pt) (d : K) :
    ∃ hits, radiusHits c g center radius u = some hits ∧
      ((p, d) ∈ hits ↔ p ∈ candidates c g center (toKM radius u) ∧ ¬ toKM radius u < c.dist center p.at_ ∧
        d = fromKM (c.dist center p.at_) u) := by
  refine ⟨_, by rw [radiusHits, hv, if_neg (by simp), if_neg (not_le.2 hr)], ?_⟩
  rw [List.mem_map]
  constructor
  · rintro ⟨q, hq, he⟩
    rw [Prod.mk.injEq] at he
    obtain ⟨rfl, rfl⟩ := he
    rw [List.mem_filter] at hq
    exact ⟨hq.1, not_lt.2 (by simpa using hq.2), rfl⟩
  · rintro ⟨h1, h2, rfl⟩
    exact ⟨p, List.mem_filter.2 ⟨h1, by simpa using not_lt.1 h2⟩, rfl⟩

example : toKM (5000 : ℚ) .meters = 5 ∧ fromKM (5 : ℚ) .meters = 5000 ∧ toKM (100000 : ℚ) .miles = 160934 := by decide +kernel

end Verif.Geo

namespace Verif.Hindsight

/-- C60: how many results a recall asks the store for: the strategy's number, else the request's, else ten; recall by time asks for five
times as many. -/
theorem C60_asked (e : Env) (s : State) (r : Req) (k : Int)
    (hk : (r.stratTopK ≠ 0 ∧ k = r.stratTopK) ∨ (r.stratTopK = 0 ∧ r.topK ≠ 0 ∧ k = r.topK) ∨
      (r.stratTopK = 0 ∧ r.topK = 0 ∧ k = 10)) :
    (∀ hs, e.search s.rows r.bank k = some hs → semantic e s r = tag 0 hs) ∧
    (∀ hs, r.hasVec = true → e.hybrid s.rows r.bank k = some hs → keyword e s r = tag 1 hs) ∧
    (∀ hs, r.hasVec = false → e.dummy s.rows r.bank k = some hs → keyword e s r = tag 1 hs) ∧
    (∀ hs, r.hasVec = true → e.search s.rows r.bank (k * 5) = some hs →
      temporalSearch e s r = tag 2 (hs.filter (fun h => e.inRange h.row))) ∧
    (∀ hs, r.hasVec = true → ∀ ent, r.entities = [ent] → e.search s.rows r.bank k = some hs →
      entitySearch e s r = tag 3 (entityRound e ent [] hs)) ∧
    Verif.HindStore.askK r.stratTopK r.topK = k := by
  have ha : askK r = k := by
    unfold askK
    rcases hk with ⟨h1, h2⟩ | ⟨h1, h2, h3⟩ | ⟨h1, h2, h3⟩
    · simp [h1, h2]
    · simp [h1, h2, h3]
    · simp [h1, h2, h3]
  refine ⟨?_, ?_, ?_, ?_, ?_, ?_⟩
  · intro hs h; simp only [semantic, ha, h]
  · intro hs hv h; simp only [keyword, ha, hv, if_true, h]
  · intro hs hv h; simp only [keyword, ha, hv]; simp [h]
  · intro hs hv h; simp only [temporalSearch, ha, hv]; simp [h]
  · intro hs hv ent he h; simp only [entitySearch, ha, hv, he]; simp [h]
  · rw [← ha]; rfl

example : ∃ r : Req, r.stratTopK = 0 ∧ r.topK = 0 ∧ r.hasVec = true ∧ askK r = 10 :=
  ⟨⟨"b", true, true, false, [], true, false, 0, 0⟩, rfl, rfl, rfl, by decide⟩

end Verif.Hindsight

namespace Verif.Facade
open Verif.Model.Store

variable {W HI VI : Type}

/-- C166: what is returned for a text: the id when the text could be embedded, whether or not it was stored; the empty id when there is no
embedder or the embedder failed, and then nothing is written. -/
theorem C166_returned (env : Env W HI VI) (emb : Option (Embedder W)) (s : St W HI VI) (fk f : Bool) (id coll text : String)
    (md : Option Meta) :
    ((∃ E v, emb = some E ∧ E.embed text = some v) → (quickAddText env emb s fk f id coll text md).2.1 = id) ∧
    (emb = none → quickAddText env emb s fk f id coll text md = (s, "", .noEmbedder)) ∧
    (∀ E, emb = some E → E.embed text = none → quickAddText env emb s fk f id coll text md = (s, "", .embedding)) := by
  refine ⟨?_, ?_, ?_⟩
  · rintro ⟨E, v, rfl, hv⟩
    simp only [quickAddText, hv]
  · rintro rfl; rfl
  · rintro E rfl hv
    simp only [quickAddText, hv]

end Verif.Facade
