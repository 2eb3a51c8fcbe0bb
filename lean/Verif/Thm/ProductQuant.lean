import Verif.Model.ProductQuant
import Verif.Thm.Codec
import Mathlib.Tactic.Ring
import Mathlib.Tactic.Linarith
import Mathlib.Data.List.Forall2
import Mathlib.Algebra.Order.Field.Rat
import Mathlib.Algebra.Order.BigOperators.Group.List

/-!
C40, C114, C115: product quantization.
-/
namespace Verif.PQuant
open Verif.Base Verif.Spec Verif.Quant Verif.Model.Codec Verif.Thm.Codec

variable {F S : Type}

theorem allSome_forall {α β : Type} (f : α → Option β) : ∀ (l : List α) (out : List β),
    allSome f l = some out ↔ List.Forall₂ (fun x y => f x = some y) l out
  | [], out => by
    rw [allSome, List.forall₂_nil_left_iff]
    constructor
    · intro h; simpa using h.symm
    · rintro rfl; rfl
  | x :: xs, out => by
    rw [allSome]
    cases hx : f x with
    | none =>
      simp only [reduceCtorEq, false_iff]
      intro h
      cases h with
      | cons h1 _ => rw [hx] at h1; cases h1
    | some y =>
      simp only [Option.map_eq_some_iff]
      constructor
      · rintro ⟨ys, h1, rfl⟩
        exact .cons hx ((allSome_forall f xs ys).1 h1)
      · intro h
        cases h with
        | cons h1 h2 =>
          rw [hx] at h1
          obtain rfl := Option.some.inj h1
          exact ⟨_, (allSome_forall f xs _).2 h2, rfl⟩

/-- The sizes of a trained quantizer agree. -/
structure PQ.Ready (p : PQ F) : Prop where
  trained : p.trained = true
  dim : p.d = p.m * p.sub
  books : p.books.length = p.m
  words : ∀ b ∈ p.books, b.length = p.k
  comps : ∀ b ∈ p.books, ∀ w ∈ b, w.length = p.sub
  least : 1 ≤ p.k
  bytes : p.k ≤ 256

theorem PQ.Ready.book {p : PQ F} (hp : p.Ready) {i : Nat} (hi : i < p.m) : ∃ b, p.books[i]? = some b ∧ b.length = p.k ∧ ∀ w ∈ b, w.length = p.sub := by
  have hb : p.books[i]? = some (p.books[i]'(by rw [hp.books]; exact hi)) := List.getElem?_eq_getElem _
  exact ⟨_, hb, hp.words _ (List.mem_of_getElem? hb), hp.comps _ (List.mem_of_getElem? hb)⟩

theorem slice_ok (v : List F) (m sub i : Nat) (hv : v.length = m * sub) (hi : i < m) : slice v (i * sub) sub = some ((v.drop (i * sub)).take sub) := by
  unfold slice
  have : (i + 1) * sub ≤ m * sub := Nat.mul_le_mul_right _ hi
  rw [if_pos (by rw [hv]; linarith [Nat.add_mul i 1 sub])]

section
variable [LinearOrder S]

theorem nearest_spec (E : Env F S) (x : List F) (cs : List (List F)) : ∀ (i : Nat) (bd : S) (b : Nat),
    (nearest E x cs i bd b = b ∧ ∀ c ∈ cs, bd ≤ E.dist x c) ∨
      ∃ j c, cs[j]? = some c ∧ nearest E x cs i bd b = i + j ∧ E.dist x c < bd ∧ ∀ c' ∈ cs, E.dist x c ≤ E.dist x c' := by
  induction cs with
  | nil => intro i bd b; exact Or.inl ⟨rfl, by simp⟩
  | cons c cs ih =>
    intro i bd b
    rw [nearest]
    split_ifs with h
    · rcases ih (i + 1) (E.dist x c) i with ⟨h1, h2⟩ | ⟨j, c', h1, h2, h3, h4⟩
      · right
        refine ⟨0, c, rfl, by rw [h1]; rfl, h, ?_⟩
        intro c' hc'
        rcases List.mem_cons.1 hc' with rfl | hc'
        · exact le_refl _
        · exact h2 c' hc'
      · right
        refine ⟨j + 1, c', h1, by rw [h2]; omega, lt_trans h3 h, ?_⟩
        intro c'' hc''
        rcases List.mem_cons.1 hc'' with rfl | hc''
        · exact h3.le
        · exact h4 c'' hc''
    · rcases ih (i + 1) bd b with ⟨h1, h2⟩ | ⟨j, c', h1, h2, h3, h4⟩
      · left
        refine ⟨h1, ?_⟩
        intro c' hc'
        rcases List.mem_cons.1 hc' with rfl | hc'
        · exact not_lt.1 h
        · exact h2 c' hc'
      · right
        refine ⟨j + 1, c', h1, by rw [h2]; omega, h3, ?_⟩
        intro c'' hc''
        rcases List.mem_cons.1 hc'' with rfl | hc''
        · exact le_trans h3.le (not_lt.1 h)
        · exact h4 c'' hc''

/-- No distance exceeds the starting value `math.MaxFloat32`. -/
def Env.Fits (E : Env F S) : Prop := ∀ x y, E.dist x y ≤ E.far

/-- The subvector `i` of a vector, by its definition. -/
def part (sub : Nat) (v : List F) (i : Nat) : List F := (v.drop (i * sub)).take sub

/-- C40: a vector is encoded by one code per subspace, each naming a codeword at least as near to the subvector as every other codeword. -/
theorem C40_encode_nearest (E : Env F S) (hE : E.Fits) (p : PQ F) (hp : p.Ready) (v : List F) (hv : v.length = p.d) :
    ∃ cs, p.encode E v = .ok cs ∧ cs.length = p.m ∧
      ∀ (i c : Nat) (b : List (List F)), cs[i]? = some c → p.books[i]? = some b →
        ∃ w, b[c]? = some w ∧ ∀ w' ∈ b, E.dist (part p.sub v i) w ≤ E.dist (part p.sub v i) w' := by
  have key : ∀ i ∈ List.range p.m, ∃ c, codeAt E p v i = some c ∧ ∀ b, p.books[i]? = some b →
      ∃ w, b[c]? = some w ∧ ∀ w' ∈ b, E.dist (part p.sub v i) w ≤ E.dist (part p.sub v i) w' := by
    intro i hi
    have hi : i < p.m := List.mem_range.1 hi
    obtain ⟨bk, hb, hl, -⟩ := hp.book hi
    unfold codeAt
    rw [slice_ok v p.m p.sub i (by rw [hv, hp.dim]) hi, hb]
    simp only
    rw [if_neg (by omega), List.take_of_length_le (show bk.length ≤ p.k by omega)]
    refine ⟨_, rfl, ?_⟩
    rintro b rfl'
    obtain rfl := Option.some.inj rfl'
    rcases nearest_spec E (part p.sub v i) bk 0 E.far 0 with ⟨h1, h2⟩ | ⟨j, c, h1, h2, -, h4⟩
    · have e : nearest E (List.take p.sub (List.drop (i * p.sub) v)) bk 0 E.far 0 = 0 := h1
      rw [e, Nat.zero_mod]
      have h0 : 0 < bk.length := by have := hp.least; omega
      refine ⟨bk[0], List.getElem?_eq_getElem h0, ?_⟩
      intro w' hw'
      exact le_trans (hE _ _) (h2 w' hw')
    · have e : nearest E (List.take p.sub (List.drop (i * p.sub) v)) bk 0 E.far 0 = 0 + j := h2
      have hj : j < bk.length := (List.getElem?_eq_some_iff.1 h1).1
      have := hp.bytes
      rw [e, Nat.zero_add, Nat.mod_eq_of_lt (by omega)]
      exact ⟨c, h1, h4⟩
  unfold PQ.encode
  rw [if_neg (by simp [hp.trained]), if_neg (by simp [hv])]
  cases ha : allSome (codeAt E p v) (List.range p.m) with
  | none =>
    exfalso
    have : ∀ l : List Nat, (∀ i ∈ l, ∃ c, codeAt E p v i = some c) → allSome (codeAt E p v) l ≠ none := by
      intro l hl
      induction l with
      | nil => simp [allSome]
      | cons i l ih =>
        obtain ⟨c, hc⟩ := hl i List.mem_cons_self
        rw [allSome, hc]
        simp only [ne_eq, Option.map_eq_none_iff]
        exact ih (fun j hj => hl j (List.mem_cons_of_mem _ hj))
    exact this _ (fun i hi => (key i hi).imp (fun _ h => h.1)) ha
  | some cs =>
    have hf := (allSome_forall _ _ _).1 ha
    refine ⟨cs, rfl, by rw [← hf.length_eq, List.length_range], ?_⟩
    intro i c b hc hb
    have hi : i < cs.length := (List.getElem?_eq_some_iff.1 hc).1
    have hi' : i < p.m := by rw [← hf.length_eq, List.length_range] at hi; exact hi
    have h1 := List.Forall₂.get hf (by rw [List.length_range]; exact hi') hi
    obtain ⟨c', h2, h3⟩ := key i (List.mem_range.2 hi')
    simp only [List.get_eq_getElem, List.getElem_range] at h1
    rw [h2] at h1
    have : c' = c := by
      rw [List.getElem?_eq_getElem hi] at hc
      exact (Option.some.inj h1).trans (Option.some.inj hc)
    rw [← this]
    exact h3 b hb

end

theorem decodeLoop_spec (p : PQ F) : ∀ (cs : List Nat) (bs : List (List (List F))), cs.length = bs.length → (∀ b ∈ bs, b.length = p.k) →
    (∀ b ∈ bs, ∀ w ∈ b, w.length = p.sub) → (∀ c ∈ cs, c < p.k) →
    ∃ v, decodeLoop p cs bs = .ok v ∧ v.length = cs.length * p.sub ∧
      ∀ (i c : Nat) (b : List (List F)), cs[i]? = some c → bs[i]? = some b → b[c]? = some (part p.sub v i)
  | [], _, _, _, _, _ => ⟨[], rfl, by simp, by simp⟩
  | _ :: _, [], h, _, _, _ => by simp at h
  | c :: cs, b :: bs, h, hk, hs, hc => by
    have hb := hk b List.mem_cons_self
    have hlt := hc c List.mem_cons_self
    have hcb : c < b.length := by omega
    have hw := hs b List.mem_cons_self b[c] (List.getElem_mem _)
    obtain ⟨v, h1, h2, h3⟩ := decodeLoop_spec p cs bs (by simpa using h) (fun x hx => hk x (List.mem_cons_of_mem _ hx))
      (fun x hx => hs x (List.mem_cons_of_mem _ hx)) (fun x hx => hc x (List.mem_cons_of_mem _ hx))
    refine ⟨b[c] ++ v, ?_, by rw [List.length_append, h2, hw, List.length_cons]; ring, ?_⟩
    · rw [decodeLoop, if_neg (by omega)]
      simp only [List.head?_cons, Option.bind_some, List.getElem?_eq_getElem (show c < b.length by omega), List.tail_cons]
      rw [if_neg (by omega), h1]
      simp only
      rw [List.take_of_length_le (by omega)]
    · intro i c' b' hc' hb'
      unfold part
      cases i with
      | zero =>
        simp only [List.getElem?_cons_zero, Option.some.injEq] at hc' hb'
        subst hc' hb'
        rw [Nat.zero_mul, List.drop_zero, List.take_append_of_le_length (by omega), List.take_of_length_le (by omega), List.getElem?_eq_getElem]
      | succ i =>
        rw [List.getElem?_cons_succ] at hc' hb'
        rw [h3 i c' b' hc' hb']
        unfold part
        rw [show (i + 1) * p.sub = b[c].length + i * p.sub by rw [hw]; ring, List.drop_length_add_append]

theorem decodeLoop_bad (p : PQ F) : ∀ (cs : List Nat) (bs : List (List (List F))), cs.length = bs.length → (∀ b ∈ bs, b.length = p.k) →
    (∀ b ∈ bs, ∀ w ∈ b, w.length = p.sub) → (∃ c ∈ cs, p.k ≤ c) → decodeLoop p cs bs = .error .err
  | [], _, _, _, _, h => by simp at h
  | _ :: _, [], h, _, _, _ => by simp at h
  | c :: cs, b :: bs, h, hk, hs, hc => by
    rw [decodeLoop]
    by_cases h0 : c ≥ p.k
    · rw [if_pos h0]
    · rw [if_neg h0]
      have hb := hk b List.mem_cons_self
      have hlt : c < b.length := by omega
      have hw := hs b List.mem_cons_self b[c] (List.getElem_mem _)
      simp only [List.head?_cons, Option.bind_some, List.getElem?_eq_getElem hlt, List.tail_cons]
      rw [if_neg (by omega), decodeLoop_bad p cs bs (by simpa using h) (fun x hx => hk x (List.mem_cons_of_mem _ hx))
        (fun x hx => hs x (List.mem_cons_of_mem _ hx)) (by
          obtain ⟨c', hc', hle⟩ := hc
          rcases List.mem_cons.1 hc' with rfl | hc'
          · exact absurd hle h0
          · exact ⟨c', hc', hle⟩)]

/-- C40: decoding codes that name codewords gives a vector of the original dimension whose subvectors are those codewords. -/
theorem C40_decode (E : Env F S) (p : PQ F) (hp : p.Ready) (cs : List Nat) (hl : cs.length = p.m) (hc : ∀ c ∈ cs, c < p.k) :
    ∃ v, p.decode E cs = .ok v ∧ v.length = p.d ∧
      ∀ (i c : Nat) (b : List (List F)), cs[i]? = some c → p.books[i]? = some b → b[c]? = some (part p.sub v i) := by
  obtain ⟨v, h1, h2, h3⟩ := decodeLoop_spec p cs p.books (by rw [hl, hp.books]) hp.words hp.comps hc
  have hd : v.length = p.d := by rw [h2, hl, hp.dim]
  refine ⟨v, ?_, hd, h3⟩
  unfold PQ.decode
  rw [if_neg (by simp [hp.trained]), if_neg (by simp [hl]), h1]
  simp only
  rw [if_neg (by omega), hd, Nat.sub_self, List.replicate_zero, List.append_nil]

/-- C40: decoding anything else is an error, never a crash. -/
theorem C40_decode_errors (E : Env F S) (p : PQ F) (hp : p.Ready) (cs : List Nat) (h : cs.length ≠ p.m ∨ ∃ c ∈ cs, p.k ≤ c) : p.decode E cs = .error .err := by
  unfold PQ.decode
  rw [if_neg (by simp [hp.trained])]
  by_cases hl : cs.length = p.m
  · rw [if_neg (by simp [hl])]
    rw [decodeLoop_bad p cs p.books (by rw [hl, hp.books]) hp.words hp.comps (by
      rcases h with h | h
      · exact absurd hl h
      · exact h)]
  · rw [if_pos hl]

/-- C40: reconstructing an encoded vector gives a vector of the same dimension made of nearest codewords. -/
theorem C40_roundtrip_nearest [LinearOrder S] (E : Env F S) (hE : E.Fits) (p : PQ F) (hp : p.Ready) (v : List F) (hv : v.length = p.d) :
    ∃ cs v', p.encode E v = .ok cs ∧ p.decode E cs = .ok v' ∧ v'.length = v.length ∧
      ∀ (i : Nat) (b : List (List F)), p.books[i]? = some b →
        part p.sub v' i ∈ b ∧ ∀ w ∈ b, E.dist (part p.sub v i) (part p.sub v' i) ≤ E.dist (part p.sub v i) w := by
  obtain ⟨cs, h1, h2, h3⟩ := C40_encode_nearest E hE p hp v hv
  have hbk : ∀ i, i < cs.length → p.books[i]? = some (p.books[i]?.getD []) := by
    intro i hi
    rw [List.getElem?_eq_getElem (by rw [hp.books]; omega)]
    rfl
  have hc : ∀ c ∈ cs, c < p.k := by
    intro c hc
    obtain ⟨i, hi, rfl⟩ := List.getElem_of_mem hc
    obtain ⟨w, hw, -⟩ := h3 i cs[i] _ (List.getElem?_eq_getElem hi) (hbk i hi)
    have := (List.getElem?_eq_some_iff.1 hw).1
    rw [hp.words _ (List.mem_of_getElem? (hbk i hi))] at this
    exact this
  obtain ⟨v', a1, a2, a3⟩ := C40_decode E p hp cs h2 hc
  refine ⟨cs, v', h1, a1, by rw [a2, hv], ?_⟩
  intro i b hb
  have hi : i < cs.length := by
    have := (List.getElem?_eq_some_iff.1 hb).1
    rw [hp.books] at this
    omega
  obtain ⟨w, b1, b2⟩ := h3 i cs[i] b (List.getElem?_eq_getElem hi) hb
  have b3 := a3 i cs[i] b (List.getElem?_eq_getElem hi) hb
  rw [b1] at b3
  obtain rfl := Option.some.inj b3
  exact ⟨List.mem_of_getElem? b1, b2⟩

/-! ### Serialization -/

theorem readWord_ok (sub : Nat) (w : List UInt32) (hw : w.length = sub) (rest : List UInt8) :
    readWord sub (w.flatMap (fun x => putWord x.toNat) ++ rest) = some (w, rest) := by
  unfold readWord
  rw [← hw, getWords_flatMap]
  simp only
  rw [← flatMap_length, List.drop_left]

theorem readMany_ok {α : Type} (read : List UInt8 → Option (α × List UInt8)) (write : α → List UInt8) (l : List α)
    (h : ∀ x ∈ l, ∀ rest, read (write x ++ rest) = some (x, rest)) : ∀ rest, readMany read l.length (l.flatMap write ++ rest) = some (l, rest) := by
  induction l with
  | nil => intro rest; rfl
  | cons x xs ih =>
    intro rest
    rw [List.length_cons, readMany, List.flatMap_cons, List.append_assoc, h x List.mem_cons_self]
    simp only
    rw [ih (fun y hy => h y (List.mem_cons_of_mem _ hy))]

theorem header_ok (m k d s : Nat) (hm : m < 4294967296) (hk : k < 4294967296) (hd : d < 4294967296) (hs : s < 4294967296) (rest : List UInt8) :
    getWords 4 (putWord m ++ putWord k ++ putWord d ++ putWord s ++ rest) = .ok [UInt32.ofNat m, UInt32.ofNat k, UInt32.ofNat d, UInt32.ofNat s] := by
  simp only [List.append_assoc, getWords]
  rw [getWord_putWord _ hm]
  simp only
  rw [getWord_putWord _ hk]
  simp only
  rw [getWord_putWord _ hd]
  simp only
  rw [getWord_putWord _ hs]

theorem u32 (n : Nat) (h : n < 4294967296) : (UInt32.ofNat n).toNat = n := by
  rw [UInt32.toNat_ofNat']
  exact Nat.mod_eq_of_lt h

theorem book_bytes (bs : List (List (List UInt32))) :
    bs.flatten.flatten.flatMap (fun x => putWord x.toNat) = bs.flatMap (fun b => b.flatMap (fun w => w.flatMap (fun x => putWord x.toNat))) := by
  simp only [List.flatMap_def, List.map_flatten, List.flatten_flatten, List.map_map]
  congr 1
  apply List.map_congr_left
  intro b _
  simp [List.map_flatten, List.flatten_flatten, List.map_map, Function.comp_def]

/-- C40: codebooks written and read back are identical, bit for bit, whatever follows them. -/
theorem C40_serialize_roundtrip (p : PQ UInt32) (hp : p.Ready) (hm : p.m < 4294967296) (hd : p.d < 4294967296) (hs : p.sub < 4294967296)
    (junk : List UInt8) : PQ.deserialize (p.serialize ++ junk) = .ok p := by
  have hk : p.k < 4294967296 := by have := hp.bytes; omega
  have e : p.serialize ++ junk = putWord p.m ++ putWord p.k ++ putWord p.d ++ putWord p.sub ++
      (p.books.flatMap (fun b => b.flatMap (fun w => w.flatMap (fun x => putWord x.toNat))) ++ junk) := by
    unfold PQ.serialize
    rw [if_neg (by simp [hp.trained]), book_bytes, List.append_assoc]
  rw [e]
  unfold PQ.deserialize
  rw [if_neg (by simp only [List.length_append, putWord_length]; omega)]
  rw [header_ok _ _ _ _ hm hk hd hs]
  simp only
  rw [u32 _ hm, u32 _ hk, u32 _ hd, u32 _ hs]
  have hdrop : (putWord p.m ++ putWord p.k ++ putWord p.d ++ putWord p.sub ++
      (p.books.flatMap (fun b => b.flatMap (fun w => w.flatMap (fun x => putWord x.toNat))) ++ junk)).drop 16 =
      p.books.flatMap (fun b => b.flatMap (fun w => w.flatMap (fun x => putWord x.toNat))) ++ junk := by
    apply List.drop_left'
    simp [putWord_length]
  rw [hdrop]
  have hr := readMany_ok (readMany (readWord p.sub) p.k) (fun b => b.flatMap (fun w => w.flatMap (fun x => putWord x.toNat))) p.books (by
    intro b hb rest
    have := readMany_ok (readWord p.sub) (fun w => w.flatMap (fun x => putWord x.toNat)) b (fun w hw rest => readWord_ok p.sub w (hp.comps b hb w hw) rest) rest
    rw [hp.words b hb] at this
    exact this) junk
  rw [hp.books] at hr
  rw [hr]
  simp only
  rw [← hp.trained]

theorem getWords_short (n : Nat) : ∀ data : List UInt8, data.length < n * 4 → ∃ e, getWords n data = .error e := by
  induction n with
  | zero => intro data h; omega
  | succ n ih =>
    intro data h
    rw [getWords]
    match data with
    | a :: b :: c :: d :: rest =>
      simp only [getWord]
      obtain ⟨e, he⟩ := ih rest (by simp only [List.length_cons] at h; omega)
      rw [he]
      exact ⟨e, rfl⟩
    | [] => exact ⟨_, rfl⟩
    | [_] => exact ⟨_, rfl⟩
    | [_, _] => exact ⟨_, rfl⟩
    | [_, _, _] => exact ⟨_, rfl⟩

/-- A reader that consumes `n` bytes or fails when there are fewer. -/
def Consumes {α : Type} (read : List UInt8 → Option (α × List UInt8)) (n : Nat) : Prop :=
  ∀ data, (data.length < n → read data = none) ∧ ∀ x rest, read data = some (x, rest) → rest.length + n = data.length

theorem consumes_word (sub : Nat) : Consumes (readWord sub) (sub * 4) := by
  intro data
  unfold readWord
  constructor
  · intro h
    obtain ⟨e, he⟩ := getWords_short sub data h
    rw [he]
  · intro x rest h
    by_cases hl : data.length < sub * 4
    · obtain ⟨e, he⟩ := getWords_short sub data hl
      rw [he] at h
      cases h
    · obtain ⟨v, hv, -⟩ := getWords_ok sub data (by omega)
      rw [hv] at h
      simp only [Option.some.injEq, Prod.mk.injEq] at h
      rw [← h.2, List.length_drop]
      omega

theorem consumes_many {α : Type} (read : List UInt8 → Option (α × List UInt8)) (s : Nat) (h : Consumes read s) (n : Nat) : Consumes (readMany read n) (n * s) := by
  induction n with
  | zero =>
    intro data
    constructor
    · intro hl; omega
    · intro x rest hr
      simp only [readMany, Option.some.injEq, Prod.mk.injEq] at hr
      rw [← hr.2]; omega
  | succ n ih =>
    intro data
    rw [readMany]
    obtain ⟨h1, h2⟩ := h data
    rw [Nat.add_mul, Nat.one_mul]
    cases hr : read data with
    | none => simp
    | some p =>
      obtain ⟨x, rest⟩ := p
      have hl := h2 x rest hr
      obtain ⟨i1, i2⟩ := ih rest
      simp only
      constructor
      · intro hlt
        rw [i1 (by omega)]
      · intro xs rest' hx
        cases hm : readMany read n rest with
        | none => rw [hm] at hx; cases hx
        | some q =>
          obtain ⟨ys, rest''⟩ := q
          rw [hm] at hx
          simp only [Option.some.injEq, Prod.mk.injEq] at hx
          have := i2 ys rest'' hm
          rw [← hx.2]
          omega

theorem flatten_len {α : Type} (l : List (List α)) (n : Nat) (h : ∀ x ∈ l, x.length = n) : l.flatten.length = l.length * n := by
  induction l with
  | nil => simp
  | cons x xs ih =>
    rw [List.flatten_cons, List.length_append, ih (fun y hy => h y (List.mem_cons_of_mem _ hy)), h x List.mem_cons_self, List.length_cons]
    ring

/-- C40 is violated: every proper prefix of serialized codebooks that still has the sixteen bytes of the header makes reading panic. -/
theorem C40_truncated_panics_violated (p : PQ UInt32) (hp : p.Ready) (hm : p.m < 4294967296) (hd : p.d < 4294967296) (hs : p.sub < 4294967296)
    (n : Nat) (h16 : 16 ≤ n) (hn : n < p.serialize.length) : PQ.deserialize (p.serialize.take n) = .error .panic := by
  have hk : p.k < 4294967296 := by have := hp.bytes; omega
  have e : p.serialize = putWord p.m ++ putWord p.k ++ putWord p.d ++ putWord p.sub ++ p.books.flatten.flatten.flatMap (fun x => putWord x.toNat) := by
    unfold PQ.serialize
    rw [if_neg (by simp [hp.trained])]
  have hlen : p.serialize.length = 16 + p.m * (p.k * (p.sub * 4)) := by
    rw [e, List.length_append, flatMap_length]
    have h1 : (List.flatten p.books).length = p.m * p.k := by rw [flatten_len p.books p.k hp.words, hp.books]
    have h2 : p.books.flatten.flatten.length = p.m * p.k * p.sub := by
      rw [flatten_len p.books.flatten p.sub (fun w hw => by
        obtain ⟨b, hb, hw⟩ := List.mem_flatten.1 hw
        exact hp.comps b hb w hw), h1]
    rw [h2]
    simp only [List.length_append, putWord_length]
    ring
  have h4 : (putWord p.m ++ putWord p.k ++ putWord p.d ++ putWord p.sub).length = 16 := by simp [putWord_length]
  have ht : p.serialize.take n = putWord p.m ++ putWord p.k ++ putWord p.d ++ putWord p.sub ++
      (p.books.flatten.flatten.flatMap (fun x => putWord x.toNat)).take (n - 16) := by
    rw [e, List.take_append, h4, List.take_of_length_le (by rw [h4]; exact h16)]
  have htl : (p.serialize.take n).length = n := by rw [List.length_take]; omega
  unfold PQ.deserialize
  rw [if_neg (by rw [htl]; omega)]
  have hg := header_ok p.m p.k p.d p.sub hm hk hd hs ((p.books.flatten.flatten.flatMap (fun x => putWord x.toNat)).take (n - 16))
  rw [← ht] at hg
  rw [hg]
  simp only
  rw [u32 _ hm, u32 _ hk, u32 _ hs]
  have hc := consumes_many _ _ (consumes_many _ _ (consumes_word p.sub) p.k) p.m ((p.serialize.take n).drop 16)
  rw [hc.1 (by rw [List.length_drop, htl]; omega)]

/-- C40 (partial): data without a whole header is an error. -/
theorem C40_short_header_partial (data : List UInt8) (h : data.length < 16) : PQ.deserialize data = .error .err := by
  unfold PQ.deserialize
  rw [if_pos h]

/-- Distances for examples: numbers, compared by their difference. -/
def lineEnv : Env Nat Nat where
  dist := fun a b => (List.zipWith (fun x y => x - y + (y - x)) a b).sum
  far := 1000000
  zero := 0
  add := (· + ·)
  div := (· / ·)
  perm := List.range
  sort := insertSort (fun r => -(r.2 : Int))

/-- C40 is violated for codebooks read from data: a number of codewords above 256, which `NewProductQuantizer` refuses, is accepted, and then the
nearest codeword 256 is encoded as 0. -/
theorem C40_too_many_codewords_violated :
    (PQ.deserialize (putWord 1 ++ putWord 257 ++ putWord 1 ++ putWord 1 ++ (List.range 257).flatMap putWord)).map
        (fun p => (p.k, p.books.map (fun b => b.map (fun w => w.map UInt32.toNat)) == [(List.range 257).map (fun i => [i])])) = .ok (257, true) ∧
      (⟨1, 257, 1, 1, [(List.range 257).map (fun i => [i])], true⟩ : PQ Nat).encode lineEnv [256] = .ok [0] := by
  constructor <;> decide +kernel

/-! ### Training -/

section
variable [LinearOrder S]

theorem kLoop_sizes (E : Env F S) (dim : Nat) (vs : List (List F)) (hv : ∀ v ∈ vs, v.length = dim) : ∀ (t : Nat) (asg : List Nat) (cs : List (List F)),
    (∀ c ∈ cs, c.length = dim) → (kLoop E dim vs t asg cs).length = cs.length ∧ ∀ c ∈ kLoop E dim vs t asg cs, c.length = dim := by
  intro t
  induction t with
  | zero => intro asg cs h; exact ⟨rfl, h⟩
  | succ t ih =>
    intro asg cs h
    rw [kLoop]
    split_ifs with hh
    · exact ⟨rfl, h⟩
    · have hc : ∀ c ∈ (List.range cs.length).map (centroid E dim vs (vs.map (fun v => nearest E v cs 0 E.far 0))), c.length = dim := by
        intro c hc
        obtain ⟨i, -, rfl⟩ := List.mem_map.1 hc
        unfold centroid
        simp only
        have hf : ∀ (l : List (List F × Nat)) (acc : List F), (∀ p ∈ l, p.1.length = dim) → acc.length = dim →
            (l.foldl (fun acc p => List.zipWith E.add acc p.1) acc).length = dim := by
          intro l
          induction l with
          | nil => intro acc _ ha; exact ha
          | cons p l ihl =>
            intro acc hl ha
            rw [List.foldl_cons]
            exact ihl _ (fun q hq => hl q (List.mem_cons_of_mem _ hq)) (by rw [List.length_zipWith, ha, hl p List.mem_cons_self, Nat.min_self])
        have hlen := hf ((vs.zip (vs.map (fun v => nearest E v cs 0 E.far 0))).filter (fun p => decide (p.2 = i))) (List.replicate dim E.zero) (by
          intro p hp
          obtain ⟨hp, -⟩ := List.mem_filter.1 hp
          exact hv _ (List.of_mem_zip hp).1) (by simp)
        split_ifs
        · rw [List.length_map, hlen]
        · exact hlen
      obtain ⟨a, b⟩ := ih (vs.map (fun v => nearest E v cs 0 E.far 0)) _ hc
      refine ⟨by rw [a, List.length_map, List.length_range], b⟩

/-- The random permutation is one. -/
def Env.Shuffles (E : Env F S) : Prop := ∀ n, (E.perm n).Perm (List.range n)

theorem kMeans_ok (E : Env F S) (hE : E.Shuffles) (vs : List (List F)) (k iters dim : Nat) (hk : k ≤ vs.length) (hne : vs ≠ []) (hv : ∀ v ∈ vs, v.length = dim) :
    ∃ cs, kMeans E vs k iters = .ok cs ∧ cs.length = k ∧ ∀ c ∈ cs, c.length = dim := by
  unfold kMeans
  rw [if_neg (by omega)]
  cases vs with
  | nil => exact absurd rfl hne
  | cons v vs =>
    simp only
    have hin : ∀ i ∈ (E.perm (v :: vs).length).take k, i < (v :: vs).length := fun i hi => List.mem_range.1 ((hE _).mem_iff.1 (List.mem_of_mem_take hi))
    have hin' : ∀ i ∈ (E.perm (v :: vs).length).take k, (v :: vs)[i]? = some ((v :: vs)[i]?.getD []) := by
      intro i hi
      rw [List.getElem?_eq_getElem (hin i hi)]; rfl
    rw [allSome_map (fun i => (v :: vs)[i]?) (fun i => (v :: vs)[i]?.getD []) _ hin']
    simp only
    have hd := hv v List.mem_cons_self
    obtain ⟨a, b⟩ := kLoop_sizes E dim (v :: vs) hv iters (List.replicate (v :: vs).length 0) (((E.perm (v :: vs).length).take k).map (fun i => (v :: vs)[i]?.getD [])) (by
      intro c hc
      obtain ⟨i, hi, rfl⟩ := List.mem_map.1 hc
      exact hv _ (List.mem_of_getElem? (hin' i hi)))
    rw [hd]
    refine ⟨_, rfl, ?_, b⟩
    rw [a, List.length_map, List.length_take, (hE _).length_eq, List.length_range]
    omega

/-- C115: training on enough vectors of the dimension succeeds and gives a quantizer whose codebooks have the right sizes. -/
theorem C115_train_ready (E : Env F S) (hE : E.Shuffles) (dim m k : Nat) (hm : 1 ≤ m) (hd : dim % m = 0) (hk : 1 ≤ k ∧ k ≤ 256) (vs : List (List F))
    (hn : k * m ≤ vs.length) (hv : ∀ v ∈ vs, v.length = dim) :
    ∃ p p', PQ.new (F := F) dim m k = .ok p ∧ p.train E vs = .ok p' ∧ p'.Ready ∧ p'.d = dim ∧ p'.m = m ∧ p'.k = k := by
  have hne : vs ≠ [] := by
    rintro rfl
    have := Nat.mul_le_mul hk.1 hm
    simp at hn
    omega
  have hkv : k ≤ vs.length := le_trans (Nat.le_mul_of_pos_right k hm) hn
  have hdm : dim = m * (dim / m) := (Nat.mul_div_cancel' (Nat.dvd_of_mod_eq_zero hd)).symm
  have loop : ∀ r i, i + r = m → ∃ bs, trainBooks E (dim / m) k vs r i = .ok bs ∧ bs.length = r ∧ (∀ b ∈ bs, b.length = k) ∧ ∀ b ∈ bs, ∀ w ∈ b, w.length = dim / m := by
    intro r
    induction r with
    | zero => intro i _; exact ⟨[], rfl, rfl, by simp, by simp⟩
    | succ r ih =>
      intro i hi
      have hs : ∀ v ∈ vs, slice v (i * (dim / m)) (dim / m) = some (part (dim / m) v i) := fun v hvm => slice_ok v m (dim / m) i (by rw [hv v hvm]; exact hdm) (by omega)
      obtain ⟨cs, c1, c2, c3⟩ := kMeans_ok E hE (vs.map (fun v => part (dim / m) v i)) k 20 (dim / m) (by simpa using hkv) (by simpa using hne) (by
        intro w hw
        obtain ⟨v, hvm, rfl⟩ := List.mem_map.1 hw
        unfold part
        rw [List.length_take, List.length_drop, hv v hvm]
        have : (i + 1) * (dim / m) ≤ m * (dim / m) := Nat.mul_le_mul_right _ (by omega)
        rw [← hdm, Nat.add_mul, Nat.one_mul] at this
        omega)
      obtain ⟨bs, b1, b2, b3, b4⟩ := ih (i + 1) (by omega)
      rw [trainBooks, allSome_map _ _ _ hs]
      simp only
      rw [c1]
      simp only
      rw [b1]
      refine ⟨cs :: bs, rfl, by simp [b2], ?_, ?_⟩
      · intro b hb
        rcases List.mem_cons.1 hb with rfl | hb
        · exact c2
        · exact b3 b hb
      · intro b hb
        rcases List.mem_cons.1 hb with rfl | hb
        · exact c3
        · exact b4 b hb
  obtain ⟨bs, b1, b2, b3, b4⟩ := loop m 0 (by omega)
  refine ⟨⟨m, k, dim, dim / m, List.replicate m [], false⟩, ⟨m, k, dim, dim / m, bs, true⟩, ?_, ?_, ?_, rfl, rfl, rfl⟩
  · unfold PQ.new
    rw [if_neg (by omega), if_neg (by omega), if_neg (by omega)]
  · unfold PQ.train
    simp only
    rw [if_neg (by omega), b1]
  · exact ⟨rfl, hdm, b2, b3, b4, hk.1, hk.2⟩

end

/-- C115: a quantizer is made exactly for a dimension divisible by a positive number of subspaces and at most 256 codewords; no subspaces at all panics. -/
theorem C115_new (dim m k : Nat) : (∃ p : PQ F, PQ.new dim m k = .ok p) ↔ 0 < m ∧ m ∣ dim ∧ k ≤ 256 := by
  unfold PQ.new
  split_ifs with h1 h2 h3
  · simp [h1]
  · rw [Nat.dvd_iff_mod_eq_zero]; simp [h2]
  · simp; omega
  · rw [Nat.dvd_iff_mod_eq_zero]; simp; omega

/-- C115: too few training vectors are refused. -/
theorem C115_too_few [LT S] [DecidableLT S] (E : Env F S) (p : PQ F) (vs : List (List F)) (h : vs.length < p.k * p.m) : p.train E vs = .error .err := by
  unfold PQ.train
  rw [if_pos h]

/-- C115 is violated: with repeated training vectors a codeword can be the zero vector although every training vector is near 100: a cluster that gets
no vector is left at zero. -/
theorem C115_empty_cluster_zero_violated :
    lineEnv.Shuffles ∧ kMeans lineEnv [[101], [100], [100], [100]] 3 20 = .ok [[101], [100], [0]] := by
  refine ⟨fun n => List.Perm.refl _, ?_⟩
  decide +kernel

/-! ### Search -/

section
variable [AddCommMonoid S]

/-- The distances between the subvectors of the query and the codewords named by a code. -/
def pieces (E : Env F S) (p : PQ F) (q : List F) (code : List Nat) : List S :=
  (List.range p.m).map (fun i => E.dist (part p.sub q i) (((p.books[i]?.getD [])[code[i]?.getD 0]?).getD []))

/-- A code names one codeword per subspace. -/
def Valid (p : PQ F) (code : List Nat) : Prop := code.length = p.m ∧ ∀ c ∈ code, c < p.k

theorem table_ok (E : Env F S) (p : PQ F) (hp : p.Ready) (q : List F) (hq : q.length = p.d) :
    table E p q = some ((List.range p.m).map (fun i => ((p.books[i]?.getD []).map (E.dist (part p.sub q i))))) := by
  unfold table
  apply allSome_map
  intro i hi
  have hi : i < p.m := List.mem_range.1 hi
  obtain ⟨bk, hb, hl, -⟩ := hp.book hi
  unfold row
  rw [slice_ok q p.m p.sub i (by rw [hq, hp.dim]) hi, hb]
  simp only [Option.getD_some]
  rw [if_neg (by omega), List.take_of_length_le (show bk.length ≤ p.k by omega)]
  rfl

theorem zipIdx_range_map {α : Type} (f : Nat → α) (m : Nat) : ((List.range m).map f).zipIdx = (List.range m).map (fun i => (f i, i)) := by
  apply List.ext_getElem
  · simp
  · intro i h1 h2
    simp

theorem entries_ok (E : Env F S) (p : PQ F) (hp : p.Ready) (q : List F) (code : List Nat) (hc : Valid p code) :
    entries ((List.range p.m).map (fun i => ((p.books[i]?.getD []).map (E.dist (part p.sub q i))))) code = some (pieces E p q code) := by
  unfold entries pieces
  rw [zipIdx_range_map]
  have : ∀ (l : List Nat), (∀ i ∈ l, i < p.m) → allSome (fun r : List S × Nat => code[r.2]?.bind (fun c => r.1[c]?))
      (l.map (fun i => ((p.books[i]?.getD []).map (E.dist (part p.sub q i)), i))) =
        some (l.map (fun i => E.dist (part p.sub q i) (((p.books[i]?.getD [])[code[i]?.getD 0]?).getD []))) := by
    intro l
    induction l with
    | nil => intro _; rfl
    | cons i l ih =>
      intro hl
      have hi := hl i List.mem_cons_self
      rw [List.map_cons, allSome, ih (fun j hj => hl j (List.mem_cons_of_mem _ hj))]
      have hci : i < code.length := by rw [hc.1]; exact hi
      have e1 : code[i]? = some code[i] := List.getElem?_eq_getElem hci
      obtain ⟨bk, hb, hl', -⟩ := hp.book hi
      have hlt : code[i] < bk.length := by rw [hl']; exact hc.2 _ (List.getElem_mem hci)
      simp only [List.map_cons, e1, hb, Option.bind_some, Option.getD_some, List.getElem?_map, List.getElem?_eq_getElem hlt, Option.map_some]
  exact this (List.range p.m) (fun i hi => List.mem_range.1 hi)

theorem total_sum (l : List S) : total l = l.sum := by
  unfold total
  rw [List.sum_eq_foldl]

/-- C114: the reported distance of a code is the sum over the subspaces of the distances of the query to the codewords. -/
theorem C114_distance (E : Env F S) (p : PQ F) (hp : p.Ready) (q : List F) (hq : q.length = p.d) (code : List Nat) (hc : Valid p code) :
    p.distance E code q = .ok (pieces E p q code).sum := by
  unfold PQ.distance
  rw [if_neg (by simp [hp.trained]), table_ok E p hp q hq]
  simp only [Option.bind_some]
  rw [entries_ok E p hp q code hc]
  simp only [total_sum]

/-- C114: the search returns the `k` codes of smallest reported distance, nearest first, each position once, with that distance. -/
theorem C114_search [LinearOrder S] [IsOrderedAddMonoid S] (E : Env F S) (hE : ∀ l, SortedFrom (fun a b => a.2 ≤ b.2) l (E.sort l)) (p : PQ F) (hp : p.Ready) (q : List F)
    (hq : q.length = p.d) (codes : List (List Nat)) (hc : ∀ c ∈ codes, Valid p c) (k : Nat) :
    ∃ out, p.search E q codes k = some out ∧
      IsTopK (fun r => OrderDual.toDual r.2) (codes.zipIdx.map (fun c => (c.2, (pieces E p q c.1).sum))) k out := by
  unfold PQ.search
  by_cases h0 : codes = []
  · rw [if_pos (Or.inr h0)]
    subst h0
    have := isTopK_take (fun r : Nat × S => OrderDual.toDual r.2) [] [] k ⟨List.Perm.refl _, List.Pairwise.nil⟩
    rw [List.take_nil] at this
    exact ⟨[], rfl, this⟩
  · rw [if_neg (by rintro (h | h); · simp [hp.trained] at h
                   · exact h0 h), table_ok E p hp q hq]
    simp only
    rw [allSome_map _ (fun c : List Nat × Nat => (c.2, (pieces E p q c.1).sum)) _ (by
      intro c hcm
      rw [entries_ok E p hp q c.1 (hc _ (List.mem_zipIdx hcm |>.2.2 ▸ List.getElem_mem _))]
      simp [total_sum])]
    simp only
    rw [if_neg (by omega), Int.toNat_natCast]
    refine ⟨_, rfl, isTopK_take _ _ _ _ ⟨(hE _).1, ?_⟩⟩
    exact (hE _).2.imp (fun h => OrderDual.toDual_le_toDual.2 h)

end

/-- The square of the Euclidean distance between the query and the reconstruction: the squares of the distances in the subspaces add up. -/
def trueSq (l : List ℚ) : ℚ := (l.map (fun x => x ^ 2)).sum

theorem cross (x : ℚ) (l : List ℚ) : 2 * x * l.sum ≤ l.length * x ^ 2 + trueSq l := by
  induction l with
  | nil => simp [trueSq]
  | cons a l ih =>
    unfold trueSq at *
    simp only [List.map_cons, List.sum_cons, List.length_cons, Nat.cast_add, Nat.cast_one]
    nlinarith [sq_nonneg (x - a)]

/-- C114 (partial): the square of the reported distance lies between the square of the Euclidean distance to the reconstruction and that square times the number of
subspaces; with one subspace it is that distance. Missing: the ranking by the Euclidean distance, see below. -/
theorem C114_bounds_partial (l : List ℚ) (hl : ∀ x ∈ l, 0 ≤ x) : trueSq l ≤ l.sum ^ 2 ∧ l.sum ^ 2 ≤ l.length * trueSq l := by
  induction l with
  | nil => simp [trueSq]
  | cons a l ih =>
    have ha := hl a List.mem_cons_self
    have hs : 0 ≤ l.sum := List.sum_nonneg (fun x hx => hl x (List.mem_cons_of_mem _ hx))
    obtain ⟨h1, h2⟩ := ih (fun x hx => hl x (List.mem_cons_of_mem _ hx))
    have hc := cross a l
    unfold trueSq at *
    simp only [List.map_cons, List.sum_cons, List.length_cons, Nat.cast_add, Nat.cast_one]
    constructor
    · nlinarith
    · nlinarith

def ratEnv : Env ℚ ℚ where
  dist := fun a b => (List.zipWith (fun x y => |x - y|) a b).sum
  far := 1000000
  zero := 0
  add := (· + ·)
  div := fun x n => x / n
  perm := List.range
  sort := insertSort (fun r => -r.2)

/-- C114 is violated: the search prefers a code at distance 6 to one at distance 5, because distances of subspaces are added instead of their squares. -/
theorem C114_ranking_violated :
    ∃ (p : PQ ℚ) (q : List ℚ), p.Ready ∧ q.length = p.d ∧ Valid p [0, 0] ∧ Valid p [1, 1] ∧
      p.search ratEnv q [[0, 0], [1, 1]] 1 = some [(1, 6)] ∧
      trueSq (pieces ratEnv p q [0, 0]) = 25 ∧ trueSq (pieces ratEnv p q [1, 1]) = 36 := by
  refine ⟨⟨2, 2, 2, 1, [[[3], [0]], [[4], [6]]], true⟩, [0, 0], ⟨rfl, rfl, rfl, by simp, by simp, by simp, by simp⟩, rfl, ⟨rfl, by simp⟩, ⟨rfl, by simp⟩, ?_, ?_, ?_⟩
  · decide +kernel
  · decide +kernel
  · decide +kernel

/-- A quantizer with two subspaces. -/
example : (⟨2, 2, 4, 2, [[[1, 2], [8, 9]], [[3, 3], [7, 7]]], true⟩ : PQ Nat).Ready := ⟨rfl, rfl, rfl, by simp, by simp, by simp, by simp⟩
example : (⟨2, 2, 4, 2, [[[1, 2], [8, 9]], [[3, 3], [7, 7]]], true⟩ : PQ Nat).encode lineEnv [7, 7, 4, 4] = .ok [1, 0] := by decide +kernel
example : (⟨2, 2, 4, 2, [[[1, 2], [8, 9]], [[3, 3], [7, 7]]], true⟩ : PQ Nat).decode lineEnv [1, 0] = .ok [8, 9, 3, 3] := by decide +kernel
example : ∃ p : PQ UInt32, p.Ready ∧ p.serialize.length = 48 := ⟨⟨2, 2, 4, 2, [[[1, 2], [8, 9]], [[3, 3], [7, 7]]], true⟩,
  ⟨rfl, rfl, rfl, by simp, by simp, by simp, by simp⟩, by decide +kernel⟩

end Verif.PQuant
