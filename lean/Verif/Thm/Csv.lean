import Verif.Model.Csv
import Verif.Spec.Rfc4180
import Mathlib.Data.List.Forall2
import Mathlib.Order.Basic

/-!
C182: what a CSV export holds, and when an export that reports success has been written. C183: what `DumpToFile` leaves
at the path.
-/
namespace Verif.Csv

open Verif.Model.Store Verif.Io Verif.Base Verif.Spec

variable {W HI VI : Type}

/-! ### Reading back -/

theorem read_plain (f : List Char) (cur : List Char) (row : List (List Char)) (rest : List Char)
    (h : ∀ c ∈ f, c ≠ '"' ∧ c ≠ ',' ∧ c ≠ '\n' ∧ c ≠ '\r') :
    readCsv .plain cur row (f ++ rest) = readCsv .plain (cur ++ f) row rest := by
  induction f generalizing cur with
  | nil => simp
  | cons c f ih =>
    obtain ⟨h1, h2, h3, h4⟩ := h c List.mem_cons_self
    rw [List.cons_append, readCsv]
    simp only [h1, h2, h3, h4, if_false]
    rw [ih _ (fun x hx => h x (List.mem_cons_of_mem _ hx))]
    simp

theorem read_quoted (f : List Char) (cur : List Char) (row : List (List Char)) (rest : List Char) :
    readCsv .quoted cur row (escape f ++ '"' :: rest) = readCsv .closing (cur ++ f) row rest := by
  induction f generalizing cur with
  | nil => simp [escape, readCsv]
  | cons c f ih =>
    by_cases hc : c = '"'
    · subst hc
      have : escape ('"' :: f) = '"' :: '"' :: escape f := by simp [escape]
      rw [this, List.cons_append, List.cons_append, readCsv, if_pos rfl, readCsv, if_pos rfl, ih]
      simp
    · have : escape (c :: f) = c :: escape f := by simp [escape, hc]
      rw [this, List.cons_append, readCsv, if_neg hc, ih]
      simp

theorem read_field_comma (sp : Char → Bool) (f : List Char) (row : List (List Char)) (rest : List Char) :
    readCsv .start [] row (field sp f ++ ',' :: rest) = readCsv .start [] (row ++ [f]) rest := by
  unfold field
  split
  · rw [List.cons_append, readCsv, if_pos rfl, List.append_assoc]
    rw [show ['"'] ++ ',' :: rest = '"' :: (',' :: rest) from rfl, read_quoted, readCsv]
    simp
  · rename_i h
    cases f with
    | nil => rw [List.nil_append, readCsv]; simp
    | cons c f =>
      have hs : ∀ x ∈ c :: f, x ≠ '"' ∧ x ≠ ',' ∧ x ≠ '\n' ∧ x ≠ '\r' := by
        intro x hx
        simp only [needsQuotes, Bool.or_eq_true, not_or, List.any_eq_true, not_exists, not_and] at h
        have := h.1.2 x hx
        simp only [beq_iff_eq] at this
        exact ⟨this.1.2, this.2, this.1.1.1, this.1.1.2⟩
      obtain ⟨h1, h2, h3, h4⟩ := hs c List.mem_cons_self
      rw [List.cons_append, readCsv]
      simp only [h1, h2, h3, h4, if_false]
      rw [read_plain _ _ _ _ (fun x hx => hs x (List.mem_cons_of_mem _ hx)), readCsv]
      simp

theorem read_field_line (sp : Char → Bool) (f : List Char) (row : List (List Char)) (rest : List Char) :
    readCsv .start [] row (field sp f ++ '\n' :: rest) =
      (readCsv .start [] [] rest).map (fun t => (row ++ [f]) :: t) := by
  unfold field
  split
  · rw [List.cons_append, readCsv, if_pos rfl, List.append_assoc]
    rw [show ['"'] ++ '\n' :: rest = '"' :: ('\n' :: rest) from rfl, read_quoted, readCsv]
    simp
  · rename_i h
    cases f with
    | nil => rw [List.nil_append, readCsv]; simp
    | cons c f =>
      have hs : ∀ x ∈ c :: f, x ≠ '"' ∧ x ≠ ',' ∧ x ≠ '\n' ∧ x ≠ '\r' := by
        intro x hx
        simp only [needsQuotes, Bool.or_eq_true, not_or, List.any_eq_true, not_exists, not_and] at h
        have := h.1.2 x hx
        simp only [beq_iff_eq] at this
        exact ⟨this.1.2, this.2, this.1.1.1, this.1.1.2⟩
      obtain ⟨h1, h2, h3, h4⟩ := hs c List.mem_cons_self
      rw [List.cons_append, readCsv]
      simp only [h1, h2, h3, h4, if_false]
      rw [read_plain _ _ _ _ (fun x hx => hs x (List.mem_cons_of_mem _ hx)), readCsv]
      simp

theorem read_record (sp : Char → Bool) (r : List (List Char)) (hr : r ≠ []) (row : List (List Char))
    (rest : List Char) :
    readCsv .start [] row (record sp r ++ rest) = (readCsv .start [] [] rest).map (fun t => (row ++ r) :: t) := by
  unfold record
  rw [List.append_assoc, show ['\n'] ++ rest = '\n' :: rest from rfl]
  induction r generalizing row with
  | nil => exact absurd rfl hr
  | cons f fs ih =>
    cases fs with
    | nil => exact read_field_line sp f row rest
    | cons g fs =>
      rw [fields, List.append_assoc, List.cons_append, read_field_comma, ih (by simp)]
      simp

theorem read_records (sp : Char → Bool) (rs : List (List (List Char))) (h : ∀ r ∈ rs, r ≠ []) :
    csvRecords (rs.flatMap (record sp)) = some rs := by
  unfold csvRecords
  induction rs with
  | nil => rfl
  | cons r rs ih =>
    rw [List.flatMap_cons, read_record sp r (h r List.mem_cons_self), ih (fun x hx => h x (List.mem_cons_of_mem _ hx))]
    simp

/-! ### The buffered writer -/

theorem write_ok {f : File} {b : List Nat} (h : f.data.length + b.length ≤ f.cap) :
    f.write b = ({ f with data := f.data ++ b }, true) := by
  unfold File.write
  rw [List.take_of_length_le (by omega)]
  simp [h]

theorem write_take (f : File) (b : List Nat) : ∃ k, (f.write b).1 = { f with data := f.data ++ b.take k } :=
  ⟨_, rfl⟩

/-- Invariant of the buffer: what was given to it is in the file and in the buffer, unless a write failed. -/
structure Good (b : Buf) (f0 : File) (xs : List Nat) : Prop where
  cap : b.file.cap = f0.cap
  alive : b.failed = false → b.file.data ++ b.pending = f0.data ++ xs ∧ f0.data.length ≤ b.file.data.length
  room : b.pending.length ≤ bufSize
  part : ∃ k, b.file.data = f0.data ++ xs.take k
  full : b.failed = true → f0.cap < f0.data.length + xs.length

theorem flush_good {b : Buf} {f0 : File} {xs : List Nat} (h : Good b f0 xs) :
    Good b.flush f0 xs ∧ (b.flush.failed = false → b.flush.pending = []) := by
  unfold Buf.flush
  by_cases hf : b.failed = true
  · rw [if_pos hf]; exact ⟨h, fun e => absurd (e.symm.trans hf) (by decide)⟩
  · rw [if_neg hf]
    have hf' : b.failed = false := by simpa using hf
    by_cases hp : b.pending = []
    · rw [if_pos hp]; exact ⟨h, fun _ => hp⟩
    · rw [if_neg hp]
      obtain ⟨ha, hl⟩ := h.alive hf'
      simp only []
      by_cases hw : b.file.data.length + b.pending.length ≤ b.file.cap
      · rw [write_ok hw, if_pos rfl]
        refine ⟨⟨h.cap, fun _ => ⟨by simpa using ha, by simp; omega⟩, by simp, ⟨xs.length, ?_⟩, by simp⟩, fun _ => rfl⟩
        simpa using ha
      · have hw2 : (b.file.write b.pending).2 = false := by simpa [File.write] using hw
        rw [hw2, if_neg (by simp)]
        have hsum : b.file.data.length + b.pending.length = f0.data.length + xs.length := by
          have := congrArg List.length ha
          simpa using this
        refine ⟨⟨h.cap, by simp, h.room, ?_, fun _ => ?_⟩, by simp⟩
        · obtain ⟨k, hk⟩ := h.part
          have e1 : xs = xs.take k ++ b.pending := by
            rw [hk, List.append_assoc] at ha
            exact (List.append_cancel_left ha).symm
          generalize xs.take k = t at hk e1
          refine ⟨t.length + (b.file.cap - b.file.data.length), ?_⟩
          change b.file.data ++ b.pending.take _ = _
          rw [e1, List.take_length_add_append, ← List.append_assoc, ← hk]
        · rw [← h.cap]; omega

theorem put_good {b : Buf} {f0 : File} {xs : List Nat} (h : Good b f0 xs) (x : Nat) : Good (b.put x) f0 (xs ++ [x]) := by
  have weaken : ∀ c : Buf, Good c f0 xs → c.failed = true → Good c f0 (xs ++ [x]) := by
    intro c hc hf
    refine ⟨hc.cap, fun e => absurd (e.symm.trans hf) (by decide), hc.room, ?_, fun _ => ?_⟩
    · obtain ⟨k, hk⟩ := hc.part
      refine ⟨(xs.take k).length, ?_⟩
      rw [hk, List.take_append_of_le_length (by simp; omega)]
      congr 1
      simp [List.take_eq_take_iff]
    · have := hc.full hf; simp; omega
  unfold Buf.put
  by_cases hf : b.failed = true
  · rw [if_pos hf]; exact weaken b h hf
  · rw [if_neg hf]
    simp only []
    have hc : Good (if bufSize ≤ b.pending.length then b.flush else b) f0 xs ∧
        ((if bufSize ≤ b.pending.length then b.flush else b).failed = false →
          (if bufSize ≤ b.pending.length then b.flush else b).pending.length < bufSize) := by
      split
      · exact ⟨(flush_good h).1, fun e => by rw [(flush_good h).2 e]; decide⟩
      · exact ⟨h, fun _ => by omega⟩
    generalize (if bufSize ≤ b.pending.length then b.flush else b) = c at hc ⊢
    by_cases hcf : c.failed = true
    · rw [if_pos hcf]; exact weaken c hc.1 hcf
    · rw [if_neg hcf]
      have hcf' : c.failed = false := by simpa using hcf
      obtain ⟨ha, hl⟩ := hc.1.alive hcf'
      refine ⟨hc.1.cap, fun _ => ⟨?_, hl⟩, ?_, ?_, fun e => absurd e hcf⟩
      · rw [← List.append_assoc, ha, List.append_assoc]
      · have := hc.2 hcf'; simp; omega
      · obtain ⟨k, hk⟩ := hc.1.part
        refine ⟨(xs.take k).length, ?_⟩
        rw [show ({ c with pending := c.pending ++ [x] } : Buf).file = c.file from rfl, hk,
          List.take_append_of_le_length (by simp; omega)]
        congr 1
        simp [List.take_eq_take_iff]

theorem puts_good {b : Buf} {f0 : File} {xs : List Nat} (h : Good b f0 xs) (ys : List Nat) :
    Good (b.puts ys) f0 (xs ++ ys) := by
  induction ys generalizing b xs with
  | nil => simpa [Buf.puts] using h
  | cons y ys ih =>
    have := ih (put_good h y)
    simpa [Buf.puts, List.append_assoc] using this

theorem put_failed {b : Buf} (h : b.failed = true) (x : Nat) : b.put x = b := by simp [Buf.put, h]

theorem writeRows_good {sp : Char → Bool} (rs : List (List (List Char))) {b : Buf} {f0 : File} {xs : List Nat}
    (h : Good b f0 xs) (hb : b.failed = false) :
    ((writeRows sp b rs).2 = true → (writeRows sp b rs).1.failed = false ∧
        Good (writeRows sp b rs).1 f0 (xs ++ bytes (rs.flatMap (record sp)))) ∧
      ((writeRows sp b rs).2 = false → f0.cap < f0.data.length + xs.length + (bytes (rs.flatMap (record sp))).length) := by
  induction rs generalizing b xs with
  | nil => exact ⟨fun _ => ⟨hb, by simpa [writeRows] using h⟩, by simp [writeRows]⟩
  | cons r rs ih =>
    have hg := puts_good h (bytes (record sp r))
    rw [writeRows]
    by_cases hf : (b.puts (bytes (record sp r))).failed = true
    · rw [if_pos hf]
      refine ⟨by simp, fun _ => ?_⟩
      have := hg.full hf
      simp only [List.flatMap_cons, bytes_append, List.length_append] at this ⊢
      omega
    · rw [if_neg hf]
      obtain ⟨i1, i2⟩ := ih hg (by simpa using hf)
      refine ⟨fun e => ?_, fun e => ?_⟩
      · have := i1 e
        simpa [List.flatMap_cons, List.append_assoc] using this
      · have := i2 e
        simp only [List.flatMap_cons, bytes_append, List.length_append] at this ⊢
        omega

theorem start_good (f : File) : Good { pending := [], failed := false, file := f } f [] :=
  ⟨rfl, fun _ => ⟨by simp, Nat.le_refl _⟩, by simp, ⟨0, by simp⟩, by simp⟩

/-- What stands in the table for one record. -/
def RowOf (metaJSON : Meta → String) (vecJSON : List W → Option String) (o : DumpOpts) (e : Emb W)
    (r : List (List Char)) : Prop :=
  r[0]? = some e.id.toList ∧ r[1]? = some e.content.toList ∧ r[2]? = some e.docID.toList ∧
    r[3]? = some ((e.metadata.map fun m => (metaJSON m).toList).getD []) ∧
    r[4]? = (if o.includeVectors then some ((vecJSON (e.vector.getD [])).getD "").toList else none) ∧ r[5]? = none

theorem table_rows (metaJSON : Meta → String) (vecJSON : List W → Option String) (o : DumpOpts) (es : List (Emb W)) :
    List.Forall₂ (RowOf metaJSON vecJSON o) es (es.map (row metaJSON vecJSON o)) := by
  rw [List.forall₂_map_right_iff, List.forall₂_same]
  intro e _
  unfold RowOf row
  cases h : o.includeVectors <;> cases hm : e.metadata <;> simp

theorem table_ne (metaJSON : Meta → String) (vecJSON : List W → Option String) (o : DumpOpts) (es : List (Emb W)) :
    ∀ r ∈ table metaJSON vecJSON o es, r ≠ [] := by
  intro r hr
  simp only [table, List.mem_cons, List.mem_map] at hr
  rcases hr with rfl | ⟨e, _, rfl⟩
  · simp [header]
  · simp [row]

/-- The column names. -/
def columns (o : DumpOpts) : List String :=
  if o.includeVectors then ["id", "content", "doc_id", "metadata", "vector"] else ["id", "content", "doc_id", "metadata"]

theorem header_columns (o : DumpOpts) : header o = (columns o).map String.toList := by
  unfold header columns; cases o.includeVectors <;> rfl

theorem table_head (metaJSON : Meta → String) (vecJSON : List W → Option String) (o : DumpOpts) (es : List (Emb W)) :
    table metaJSON vecJSON o es = (columns o).map String.toList :: es.map (row metaJSON vecJSON o) := by
  rw [← header_columns]; rfl

/-- **C182**: an export in CSV of an open store has a text that every CSV reader reads back as the column names and one
row for each record, in order, with the fields exactly as they are; when the export succeeds, all but at most the last
4096 bytes of the text are in the file, and nothing else; when the disk has room for the text the export succeeds and all
of it is. -/
theorem C182_reads_back_partial (sp : Char → Bool) (metaJSON : Meta → String) (vecJSON : List W → Option String)
    (s : St W HI VI) (o : DumpOpts) (es : List (Emb W)) (hc : s.closed = false) (hg : getAll s.db o = .ok es)
    (f : File) :
    ∃ text rows, csvRecords text = some ((columns o).map String.toList :: rows) ∧
      List.Forall₂ (RowOf metaJSON vecJSON o) es rows ∧
      (∀ n, (dumpCSV sp metaJSON vecJSON s o f).2 = .ok n → n = es.length ∧
        ∃ k, (bytes text).length ≤ k + 4096 ∧
          (dumpCSV sp metaJSON vecJSON s o f).1.data = f.data ++ (bytes text).take k) ∧
      (f.data.length + (bytes text).length ≤ f.cap →
        dumpCSV sp metaJSON vecJSON s o f = ({ f with data := f.data ++ bytes text }, .ok es.length)) := by
  set text := (table metaJSON vecJSON o es).flatMap (record sp) with htext
  refine ⟨text, es.map (row metaJSON vecJSON o), ?_, table_rows _ _ _ _, ?_, ?_⟩
  · rw [htext, read_records sp _ (table_ne _ _ _ _), table_head]
  · intro n hn
    unfold dumpCSV at hn ⊢
    simp only [hc, Bool.false_eq_true, if_false, hg] at hn ⊢
    obtain ⟨w1, -⟩ := writeRows_good (sp := sp) (table metaJSON vecJSON o es) (start_good f) rfl
    generalize hw : writeRows sp { pending := [], failed := false, file := f } (table metaJSON vecJSON o es) = w
      at hn w1 ⊢
    cases h2 : w.2 with
    | false => rw [h2] at hn; simp at hn
    | true =>
      rw [h2] at hn
      simp only [if_true, Except.ok.injEq] at hn
      refine ⟨hn.symm, ?_⟩
      obtain ⟨hf, hgood⟩ := w1 h2
      rw [List.nil_append, ← htext] at hgood
      obtain ⟨ha, hl⟩ := hgood.alive hf
      have hlen := congrArg List.length ha
      simp only [List.length_append] at hlen
      have hroom := hgood.room
      obtain ⟨k, hk⟩ := (flush_good hgood).1.part
      have hmono : w.1.file.data.length ≤ w.1.flush.file.data.length := by
        unfold Buf.flush
        split
        · exact Nat.le_refl _
        · split
          · exact Nat.le_refl _
          · simp only []
            split <;> simp [File.write]
      have hkl := congrArg List.length hk
      simp only [List.length_append, List.length_take] at hkl
      exact ⟨k, by simp only [bufSize] at hroom; omega, hk⟩
  · intro hcap
    unfold dumpCSV
    simp only [hc, Bool.false_eq_true, if_false, hg]
    obtain ⟨w1, w2⟩ := writeRows_good (sp := sp) (table metaJSON vecJSON o es) (start_good f) rfl
    generalize hw : writeRows sp { pending := [], failed := false, file := f } (table metaJSON vecJSON o es) = w
      at w1 w2 ⊢
    rw [← htext] at w1 w2
    cases h2 : w.2 with
    | false =>
      have := w2 h2
      simp only [List.length_nil] at this
      omega
    | true =>
      obtain ⟨hf, hgood⟩ := w1 h2
      rw [List.nil_append] at hgood
      obtain ⟨fg, fp⟩ := flush_good hgood
      have hff : w.1.flush.failed = false := by
        by_contra hx
        have := fg.full (by simpa using hx)
        omega
      obtain ⟨ha, -⟩ := fg.alive hff
      rw [fp hff, List.append_nil] at ha
      simp only [if_true]
      have e : w.1.flush.file = { f with data := f.data ++ bytes text } := by
        have hcap' := fg.cap
        generalize w.1.flush.file = q at ha hcap' ⊢
        cases q
        simp only at ha hcap'
        simp [ha, hcap']
      rw [e]

/-- A buffer that is not full takes another byte. -/
theorem puts_short (ys : List Nat) (b : Buf) (hf : b.failed = false) (h : b.pending.length + ys.length ≤ bufSize) :
    b.puts ys = { b with pending := b.pending ++ ys } := by
  induction ys generalizing b with
  | nil => simp [Buf.puts]
  | cons y ys ih =>
    simp only [List.length_cons] at h
    have e : b.put y = { b with pending := b.pending ++ [y] } := by
      unfold Buf.put
      have : ¬ bufSize ≤ b.pending.length := by omega
      simp [hf, this]
    have e2 : b.puts (y :: ys) = (b.put y).puts ys := rfl
    rw [e2, e, ih { b with pending := b.pending ++ [y] } hf (by simp only [List.length_append, List.length_cons, List.length_nil]; omega)]
    simp

theorem writeRows_short (sp : Char → Bool) (rs : List (List (List Char))) (b : Buf) (hf : b.failed = false)
    (h : b.pending.length + (bytes (rs.flatMap (record sp))).length ≤ bufSize) : (writeRows sp b rs).2 = true := by
  induction rs generalizing b with
  | nil => rfl
  | cons r rs ih =>
    simp only [List.flatMap_cons, bytes_append, List.length_append] at h
    rw [writeRows]
    rw [puts_short _ b hf (by omega)]
    simp only [hf, Bool.false_eq_true, if_false]
    exact ih _ rfl (by simp only [List.length_append]; omega)

/-- **C182**: an export in CSV of at most 4096 bytes reports success on every disk, also on one that takes nothing. -/
theorem C182_success_violated (sp : Char → Bool) (metaJSON : Meta → String) (vecJSON : List W → Option String)
    (s : St W HI VI) (o : DumpOpts) (es : List (Emb W)) (hc : s.closed = false) (hg : getAll s.db o = .ok es)
    (hs : (bytes ((table metaJSON vecJSON o es).flatMap (record sp))).length ≤ 4096) :
    (∀ f, (dumpCSV sp metaJSON vecJSON s o f).2 = .ok es.length) ∧
      (dumpCSV sp metaJSON vecJSON s o { data := [], cap := 0 }).1.data = [] := by
  have key : ∀ f, (dumpCSV sp metaJSON vecJSON s o f).2 = .ok es.length := by
    intro f
    unfold dumpCSV
    simp only [hc, Bool.false_eq_true, if_false, hg]
    rw [writeRows_short sp _ _ rfl (by simpa [bufSize] using hs)]
    simp
  refine ⟨key, ?_⟩
  have hdata : ∀ (b : Buf), b.file.cap = 0 → b.file.data = [] → b.flush.file.cap = 0 ∧ b.flush.file.data = [] := by
    intro b h1 h2
    unfold Buf.flush
    split
    · exact ⟨h1, h2⟩
    · split
      · exact ⟨h1, h2⟩
      · simp only []
        split <;> simp [File.write, h1, h2]
  have hput : ∀ (b : Buf) (x : Nat), b.file.cap = 0 → b.file.data = [] →
      (b.put x).file.cap = 0 ∧ (b.put x).file.data = [] := by
    intro b x h1 h2
    unfold Buf.put
    split
    · exact ⟨h1, h2⟩
    · have hc : (if bufSize ≤ b.pending.length then b.flush else b).file.cap = 0 ∧
          (if bufSize ≤ b.pending.length then b.flush else b).file.data = [] := by
        split
        · exact hdata b h1 h2
        · exact ⟨h1, h2⟩
      generalize (if bufSize ≤ b.pending.length then b.flush else b) = c at hc
      simp only []
      split
      · exact hc
      · exact hc
  have hputs : ∀ (ys : List Nat) (b : Buf), b.file.cap = 0 → b.file.data = [] →
      (b.puts ys).file.cap = 0 ∧ (b.puts ys).file.data = [] := by
    intro ys
    induction ys with
    | nil => intro b h1 h2; exact ⟨h1, h2⟩
    | cons y ys ih => intro b h1 h2; exact ih _ (hput b y h1 h2).1 (hput b y h1 h2).2
  have hrows : ∀ (rs : List (List (List Char))) (b : Buf), b.file.cap = 0 → b.file.data = [] →
      (writeRows sp b rs).1.file.cap = 0 ∧ (writeRows sp b rs).1.file.data = [] := by
    intro rs
    induction rs with
    | nil => intro b h1 h2; exact ⟨h1, h2⟩
    | cons r rs ih =>
      intro b h1 h2
      rw [writeRows]
      obtain ⟨p1, p2⟩ := hputs (bytes (record sp r)) b h1 h2
      split
      · exact ⟨p1, p2⟩
      · exact ih _ p1 p2
  unfold dumpCSV
  simp only [hc, Bool.false_eq_true, if_false, hg]
  obtain ⟨p1, p2⟩ := hrows (table metaJSON vecJSON o es) { pending := [], failed := false, file := { data := [], cap := 0 } }
    rfl rfl
  exact (hdata _ p1 p2).2

theorem chunks_full (cs : List (Option (List Nat))) (f : File) (h : (writeChunks f cs).2 = true) :
    ∃ bs : List (List Nat), cs = bs.map some ∧ (writeChunks f cs).1 = { f with data := f.data ++ bs.flatten } := by
  induction cs generalizing f with
  | nil => exact ⟨[], rfl, by simp [writeChunks]⟩
  | cons c cs ih =>
    cases c with
    | none => simp [writeChunks] at h
    | some b =>
      by_cases hw : f.data.length + b.length ≤ f.cap
      · rw [writeChunks, write_ok hw] at h ⊢
        simp only [if_true] at h ⊢
        obtain ⟨bs, e1, e2⟩ := ih _ h
        exact ⟨b :: bs, by simp [e1], by rw [e2]; simp⟩
      · have : (f.write b).2 = false := by simpa [File.write] using hw
        rw [writeChunks, this] at h
        simp at h

/-- **C182**: an export as JSON lines that reports success has written the text of every record, in order. -/
theorem C182_lines_full (enc : Emb W → Option (List Nat)) (s : St W HI VI) (o : DumpOpts) (f : File) (n : Nat)
    (h : (dumpLines enc s o f).2 = .ok n) :
    ∃ (es : List (Emb W)) (bs : List (List Nat)), getAll s.db o = .ok es ∧ n = es.length ∧ es.map enc = bs.map some ∧
      (dumpLines enc s o f).1.data = f.data ++ bs.flatten := by
  unfold dumpLines at h ⊢
  split at h
  · simp at h
  · rename_i hc
    simp only [hc, Bool.false_eq_true, if_false]
    split at h
    · simp at h
    · rename_i es hg
      simp only [] at h
      cases hw : (writeChunks f (es.map enc)).2 with
      | false => rw [hw] at h; simp at h
      | true =>
        obtain ⟨bs, e1, e2⟩ := chunks_full _ f hw
        rw [hw] at h
        simp only [if_true, Except.ok.injEq] at h
        exact ⟨es, bs, hg, h.symm, e1, by simp only []; rw [e2]⟩

/-- **C182**: an export as one JSON text that reports success has written all of it. -/
theorem C182_whole_full (enc : List (Emb W) → Option (List Nat)) (s : St W HI VI) (o : DumpOpts) (f : File) (n : Nat)
    (h : (dumpWhole enc s o f).2 = .ok n) :
    ∃ es b, getAll s.db o = .ok es ∧ n = es.length ∧ enc es = some b ∧
      (dumpWhole enc s o f).1.data = f.data ++ b := by
  unfold dumpWhole at h ⊢
  split at h
  · simp at h
  · rename_i hc
    simp only [hc, Bool.false_eq_true, if_false]
    split at h
    · simp at h
    · rename_i es hg
      simp only [] at h
      cases hw : (writeChunks f [enc es]).2 with
      | false => rw [hw] at h; simp at h
      | true =>
        obtain ⟨bs, e1, e2⟩ := chunks_full _ f hw
        rw [hw] at h
        simp only [if_true, Except.ok.injEq] at h
        cases bs with
        | nil => simp at e1
        | cons b bs =>
          cases bs with
          | cons _ _ => simp at e1
          | nil =>
            simp only [List.map_cons, List.map_nil, List.cons.injEq, and_true] at e1
            exact ⟨es, b, hg, h.symm, e1, by simp only []; rw [e2]; simp⟩

/-- **C182**: the CSV of a store does not say in which collection a record is: it is the same for every choice. -/
theorem C182_collection_violated (sp : Char → Bool) (metaJSON : Meta → String) (vecJSON : List W → Option String)
    (o : DumpOpts) (es : List (Emb W)) (coll : Emb W → String) :
    (table metaJSON vecJSON o (es.map fun e => { e with collection := coll e })).flatMap (record sp) =
      (table metaJSON vecJSON o es).flatMap (record sp) := by
  unfold table
  rw [List.map_map]
  rfl

/-- **C182**: a vector JSON cannot express is written as an empty field, and no error is reported: the export of such a
store succeeds whenever there is room. -/
theorem C182_vector_violated (sp : Char → Bool) (metaJSON : Meta → String) (vecJSON : List W → Option String)
    (s : St W HI VI) (o : DumpOpts) (es : List (Emb W)) (hc : s.closed = false) (hg : getAll s.db o = .ok es)
    (hv : o.includeVectors = true) (e : Emb W) (he : e ∈ es) (hbad : vecJSON (e.vector.getD []) = none) (f : File)
    (hroom : f.data.length + (bytes ((table metaJSON vecJSON o es).flatMap (record sp))).length ≤ f.cap) :
    (dumpCSV sp metaJSON vecJSON s o f).2 = .ok es.length ∧
      ∃ text rows, (dumpCSV sp metaJSON vecJSON s o f).1.data = f.data ++ bytes text ∧ csvRecords text = some rows ∧
        ∃ r ∈ rows, r[0]? = some e.id.toList ∧ r[4]? = some [] := by
  obtain ⟨w1, w2⟩ := writeRows_good (sp := sp) (table metaJSON vecJSON o es) (start_good f) rfl
  have ht := read_records sp _ (table_ne metaJSON vecJSON o es)
  have hfull : dumpCSV sp metaJSON vecJSON s o f =
      ({ f with data := f.data ++ bytes ((table metaJSON vecJSON o es).flatMap (record sp)) }, .ok es.length) := by
    unfold dumpCSV
    simp only [hc, Bool.false_eq_true, if_false, hg]
    generalize writeRows sp { pending := [], failed := false, file := f } (table metaJSON vecJSON o es) = w at w1 w2 ⊢
    cases h2 : w.2 with
    | false =>
      have := w2 h2
      simp only [List.length_nil] at this
      omega
    | true =>
      obtain ⟨hf, hgood⟩ := w1 h2
      rw [List.nil_append] at hgood
      obtain ⟨fg, fp⟩ := flush_good hgood
      have hff : w.1.flush.failed = false := by
        by_contra hx
        have := fg.full (by simpa using hx)
        omega
      obtain ⟨ha, -⟩ := fg.alive hff
      rw [fp hff, List.append_nil] at ha
      simp only [if_true]
      have e : w.1.flush.file = { f with data := f.data ++ bytes ((table metaJSON vecJSON o es).flatMap (record sp)) } := by
        have hcap' := fg.cap
        generalize w.1.flush.file = q at ha hcap' ⊢
        cases q
        simp only at ha hcap'
        simp [ha, hcap']
      rw [e]
  rw [hfull]
  refine ⟨rfl, _, _, rfl, ht, row metaJSON vecJSON o e, ?_, rfl, ?_⟩
  · exact List.mem_cons_of_mem _ (List.mem_map_of_mem he)
  · simp [row, hv, hbad]

/-! ### The file at the path -/

/-- **C183**: when `DumpToFile` succeeds, the path holds what the export wrote, from its first byte. -/
theorem C183_success (dump : File → File × Except Err Nat) (canCreate : Bool) (cap : Nat) (p : Path) (n : Nat)
    (h : (dumpToFile dump canCreate cap p).2 = .ok n) :
    canCreate = true ∧ (dump { data := [], cap := cap }).2 = .ok n ∧
      (dumpToFile dump canCreate cap p).1 = some (dump { data := [], cap := cap }).1.data := by
  unfold dumpToFile at h ⊢
  cases canCreate with
  | false => simp at h
  | true =>
    simp only [if_true] at h ⊢
    cases hd : (dump { data := [], cap := cap }).2 with
    | error er => rw [hd] at h; simp at h
    | ok m => rw [hd] at h; simp only [Except.ok.injEq] at h; exact ⟨trivial, by rw [h], rfl⟩

/-- **C183**: a JSON lines file written by `DumpToFile` is never cut off: the path holds the text of every record, or
nothing, or, when the file could not be created, what was there. -/
theorem C183_never_half (enc : Emb W → Option (List Nat)) (s : St W HI VI) (o : DumpOpts) (canCreate : Bool) (cap : Nat)
    (p : Path) :
    (∃ (es : List (Emb W)) (bs : List (List Nat)), getAll s.db o = .ok es ∧ es.map enc = bs.map some ∧
        dumpToFile (dumpLines enc s o) canCreate cap p = (some bs.flatten, .ok es.length)) ∨
      (∃ er, dumpToFile (dumpLines enc s o) canCreate cap p = (none, .error er)) ∨
      (canCreate = false ∧ dumpToFile (dumpLines enc s o) canCreate cap p = (p, .error .io)) := by
  cases canCreate with
  | false => exact .inr (.inr ⟨rfl, rfl⟩)
  | true =>
    unfold dumpToFile
    simp only [if_true]
    cases hd : (dumpLines enc s o { data := [], cap := cap }).2 with
    | error er => exact .inr (.inl ⟨er, rfl⟩)
    | ok n =>
      obtain ⟨es, bs, h1, h2, h3, h4⟩ := C182_lines_full enc s o _ n hd
      exact .inl ⟨es, bs, h1, h3, by rw [h4, h2]; simp⟩

/-- **C183**: `DumpToFile` on a path it cannot create a file at leaves the path as it was. -/
theorem C183_kept_partial (dump : File → File × Except Err Nat) (cap : Nat) (p : Path) :
    dumpToFile dump false cap p = (p, .error .io) := rfl

/-- **C183**: every other failure destroys the file that was at the path, whatever it held, also when the store was
closed and nothing could have been written. -/
theorem C183_failure_violated (dump : File → File × Except Err Nat) (cap : Nat) (p : Path) (er : Err)
    (h : (dump { data := [], cap := cap }).2 = .error er) :
    dumpToFile dump true cap p = (none, .error er) := by
  unfold dumpToFile
  simp only [if_true, h]

/-- **C183**: on a closed store the old file is always lost, in every format. -/
theorem C183_closed_violated (sp : Char → Bool) (metaJSON : Meta → String) (vecJSON : List W → Option String)
    (enc : Emb W → Option (List Nat)) (encAll : List (Emb W) → Option (List Nat)) (s : St W HI VI) (o : DumpOpts)
    (cap : Nat) (old : List Nat) (hc : s.closed = true) :
    dumpToFile (dumpCSV sp metaJSON vecJSON s o) true cap (some old) = (none, .error .closed) ∧
      dumpToFile (dumpLines enc s o) true cap (some old) = (none, .error .closed) ∧
      dumpToFile (dumpWhole encAll s o) true cap (some old) = (none, .error .closed) := by
  refine ⟨?_, ?_, ?_⟩ <;> apply C183_failure_violated
  · simp [dumpCSV, hc]
  · simp [dumpLines, hc]
  · simp [dumpWhole, hc]

/-- **C183**: a CSV file written by `DumpToFile` can be cut off although success is reported. -/
theorem C183_csv_violated (sp : Char → Bool) (metaJSON : Meta → String) (vecJSON : List W → Option String)
    (s : St W HI VI) (o : DumpOpts) (es : List (Emb W)) (hc : s.closed = false) (hg : getAll s.db o = .ok es)
    (hs : (bytes ((table metaJSON vecJSON o es).flatMap (record sp))).length ≤ 4096) (p : Path) :
    dumpToFile (dumpCSV sp metaJSON vecJSON s o) true 0 p = (some [], .ok es.length) := by
  obtain ⟨h1, h2⟩ := C182_success_violated sp metaJSON vecJSON s o es hc hg hs
  unfold dumpToFile
  simp only [if_true, h1 _, h2]

/-! ### Examples -/

def exRow (id c : String) (v : List Int) : Row Int :=
  { id := id, cid := 1, vector := v, content := c, docID := none, metadata := none, acl := none }

def exStore : St Int Unit Unit :=
  { db := { collections := [], nextColl := 2, documents := [],
            embeddings := [exRow "a" "say \"hi\", now\r\nend" [1, 2], exRow "b" " x" [3]] }
    dim := 0, closed := false, hnsw := none, ivf := none }

def exVec (v : List Int) : Option String := if v.contains 3 then none else some (toString v)

def exSp (c : Char) : Bool := c == ' '

example : ∃ es, getAll exStore.db {} = .ok es ∧ es.length = 2 := ⟨_, rfl, rfl⟩

example : (dumpCSV exSp (fun _ => "{}") exVec exStore {} { data := [], cap := 10000 }).2 = .ok 2 := by decide +kernel

example : (dumpCSV exSp (fun _ => "{}") exVec exStore {} { data := [], cap := 10000 }).1.data =
    bytes "id,content,doc_id,metadata,vector\na,\"say \"\"hi\"\", now\r\nend\",,,\"[1, 2]\"\nb,\" x\",,,\n".toList := by
  decide +kernel

example : (dumpCSV exSp (fun _ => "{}") exVec exStore {} { data := [], cap := 0 }) = ({ data := [], cap := 0 }, .ok 2) := by
  decide +kernel

example : exVec [3] = none := by decide

example : dumpToFile (dumpLines (fun e => some (bytes e.id.toList)) exStore {}) true 1 (some [7]) = (none, .error .io) := by
  decide +kernel

example : dumpToFile (dumpLines (fun e => some (bytes e.id.toList)) exStore {}) true 9 (some [7]) = (some [97, 98], .ok 2) := by
  decide +kernel

end Verif.Csv
