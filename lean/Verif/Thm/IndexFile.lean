import Verif.Model.IndexFile
import Mathlib.Data.List.Perm.Basic
import Mathlib.Data.List.Nodup

/-!
C184: an index exported to a file and imported again is the index it was, and a failed import or export changes nothing.
-/
namespace Verif.IndexFile

variable {P W : Type}

/-- The same index: the same parameters and entry point, and the same node under every id. -/
def Same (a b : Graph P) : Prop :=
  a.m = b.m ∧ a.ef = b.ef ∧ a.entry = b.entry ∧ ∀ id x, (id, x) ∈ a.nodes ↔ (id, x) ∈ b.nodes

theorem loadNodes_fresh (l : List (String × P)) (acc : List (String × P)) (rest : List (Val P W))
    (h : ((acc ++ l).map Prod.fst).Nodup) :
    loadNodes l.length (l.map (fun p => .node p.1 p.2) ++ rest) acc = (acc ++ l, true) := by
  induction l generalizing acc with
  | nil => simp [loadNodes]
  | cons p l ih =>
    rw [List.length_cons, List.map_cons, List.cons_append, loadNodes]
    have hk : setNode acc p.1 p.2 = acc ++ [p] := by
      unfold setNode
      rw [List.filter_eq_self.2]
      intro q hq
      rw [List.map_append, List.nodup_append] at h
      have := h.2.2 q.1 (List.mem_map_of_mem hq) p.1 (by simp)
      simpa using this
    rw [hk, ih (acc ++ [p]) (by simpa using h)]
    simp

theorem loadNodes_short (l : List (String × P)) (acc : List (String × P)) (n : Nat) (h : l.length < n) 
    (hn : ((acc ++ l).map Prod.fst).Nodup) :
    loadNodes n (l.map (fun p => (.node p.1 p.2 : Val P W))) acc = (acc ++ l, false) := by
  induction l generalizing acc n with
  | nil =>
    cases n with
    | zero => simp at h
    | succ n => simp [loadNodes]
  | cons p l ih =>
    cases n with
    | zero => simp at h
    | succ n =>
      rw [List.map_cons, loadNodes]
      have hk : setNode acc p.1 p.2 = acc ++ [p] := by
        unfold setNode
        rw [List.filter_eq_self.2]
        intro q hq
        rw [List.map_append, List.nodup_append] at hn
        have := hn.2.2 q.1 (List.mem_map_of_mem hq) p.1 (by simp)
        simpa using this
      rw [hk, ih (acc ++ [p]) n (by simpa using h) (by simpa using hn)]
      simp

theorem load_saved (order : List (String × P) → List (String × P)) (ho : ∀ l, (order l).Perm l) (g g0 : Graph P)
    (hn : (g.nodes.map Prod.fst).Nodup) :
    loadGraph g0 (saveGraph (W := W) order g) =
      ({ m := g.m, ef := g.ef, entry := g.entry, nodes := order g.nodes }, true) := by
  have hl : g.nodes.length = (order g.nodes).length := (ho _).length_eq.symm
  have := loadNodes_fresh (W := W) (order g.nodes) [] []
    (by simpa using (((ho g.nodes).map Prod.fst).nodup_iff).2 hn)
  simp only [List.append_nil, List.nil_append] at this
  simp only [saveGraph, List.cons_append, List.nil_append, loadGraph, Int.toNat_natCast, hl, this]

/-- **C184**: a graph index exported from one store and imported into any open store that uses the graph index is the
same index there, whatever that store held before; its inverted file is untouched. -/
theorem C184_graph_back (order : List (String × P) → List (String × P)) (ho : ∀ l, (order l).Perm l)
    (s t : Store P W) (g : Graph P) (hs : s.closed = false) (hg : s.graph = some g)
    (hn : (g.nodes.map Prod.fst).Nodup) (ht : t.closed = false) (he : t.hnswEnabled = true) (cap : Nat)
    (hcap : g.nodes.length + 4 ≤ cap) (p : Path P W) :
    (exportIndex order true cap s p).2 = true ∧
      ∃ g', (importIndex t (exportIndex order true cap s p).1) = ({ t with graph := some g' }, true) ∧ Same g' g := by
  have hlen : (saveGraph (W := W) order g).length ≤ cap := by
    simp only [saveGraph, List.length_append, List.length_map, (ho g.nodes).length_eq, List.length_cons, List.length_nil]
    omega
  have hex : exportIndex order true cap s p = (some (saveGraph order g), true) := by
    unfold exportIndex
    simp only [hs, Bool.false_eq_true, if_false, not_true_eq_false, hg]
    rw [List.take_of_length_le hlen, decide_eq_true hlen]
  rw [hex]
  refine ⟨rfl, { m := g.m, ef := g.ef, entry := g.entry, nodes := order g.nodes }, ?_, rfl, rfl, rfl, ?_⟩
  · unfold importIndex
    simp only [ht, he, Bool.false_eq_true, if_false, if_true, load_saved order ho g _ hn]
  · intro id x
    exact (ho g.nodes).mem_iff

/-- **C184**: an inverted file saved and loaded is what it was, whatever the index held before. -/
theorem C184_cells_back (c c0 : Cells W) (rest : List (Val P W)) :
    loadCells (P := P) c0 (saveCells c ++ rest) = (c, true) := rfl

/-- **C184**: a graph index file that was cut off anywhere is refused. -/
theorem C184_cut_refused (order : List (String × P) → List (String × P)) (ho : ∀ l, (order l).Perm l) (g : Graph P)
    (hn : (g.nodes.map Prod.fst).Nodup) (t : Store P W) (k : Nat) (hk : k < g.nodes.length + 4) :
    (importIndex t (some ((saveGraph order g).take k))).2 = false := by
  have hl := (ho g.nodes).length_eq
  unfold importIndex
  split
  · rfl
  · simp only []
    split
    · have h1 : (loadGraph (t.graph.getD t.newGraph) ((saveGraph (W := W) order g).take k)).2 = false ∧
          (loadCells (t.cells.getD t.newCells) ((saveGraph (W := W) order g).take k)).2 = false := by
        match k, hk with
        | 0, _ => exact ⟨rfl, rfl⟩
        | 1, _ => exact ⟨rfl, rfl⟩
        | 2, _ => exact ⟨rfl, rfl⟩
        | 3, _ => exact ⟨rfl, rfl⟩
        | j + 4, hk =>
          have e : (saveGraph (W := W) order g).take (j + 4) =
              .int g.m :: .int g.ef :: .str g.entry :: .int g.nodes.length ::
                ((order g.nodes).take j).map (fun p => .node p.1 p.2) := by
            simp [saveGraph, List.map_take]
          rw [e]
          refine ⟨?_, rfl⟩
          have := loadNodes_short (W := W) ((order g.nodes).take j) [] g.nodes.length
            (by rw [List.length_take]; omega)
            (by
              have h3 := (((ho g.nodes).map Prod.fst).nodup_iff).2 hn
              simpa using h3.sublist ((List.take_sublist j _).map Prod.fst))
          simp only [loadGraph, Int.toNat_natCast, this]
      rw [h1.1]
      simp only [Bool.false_eq_true, if_false, h1.2]
    · rfl

/-- **C184**: a refused graph file empties the index: after the import of a file cut off after its head, which reports an
error, an open store that uses the graph index has no node left, whatever it held. -/
theorem C184_failed_violated (order : List (String × P) → List (String × P)) (g : Graph P)
    (h1 : g.nodes ≠ []) (t : Store P W) (ht : t.closed = false) (he : t.hnswEnabled = true) :
    (importIndex t (some ((saveGraph order g).take 4))).2 = false ∧
      ∃ g', (importIndex t (some ((saveGraph order g).take 4))).1.graph = some g' ∧ g'.nodes = [] := by
  have e : (saveGraph (W := W) order g).take 4 =
      [.int g.m, .int g.ef, .str g.entry, .int g.nodes.length] := by simp [saveGraph]
  rw [e]
  obtain ⟨n, hn⟩ : ∃ n, g.nodes.length = n + 1 := by
    cases hx : g.nodes with
    | nil => exact absurd hx h1
    | cons a b => exact ⟨b.length, rfl⟩
  have hl : loadNodes g.nodes.length ([] : List (Val P W)) [] = ([], false) := by rw [hn]; rfl
  unfold importIndex
  simp only [ht, he, Bool.false_eq_true, if_false, if_true, loadGraph, Int.toNat_natCast, hl]
  exact ⟨rfl, _, rfl, rfl⟩

/-- **C184**: what a failed import leaves alone: a closed store, a missing file and a store that does not use the graph
index stay as they were. -/
theorem C184_failed_partial (t : Store P W) (p : Path P W)
    (h : t.closed = true ∨ p = none ∨ t.hnswEnabled = false) : importIndex t p = (t, false) := by
  unfold importIndex
  rcases h with h | h | h
  · simp [h]
  · cases hc : t.closed <;> simp [h]
  · cases hc : t.closed <;> cases p <;> simp [h]

/-- **C184**: a store that uses only the inverted file can export it but never import it. -/
theorem C184_cells_violated (order : List (String × P) → List (String × P)) (s : Store P W) (c : Cells W)
    (hs : s.closed = false) (hg : s.graph = none) (hc : s.cells = some c) (he : s.hnswEnabled = false) (p : Path P W) :
    exportIndex order true 8 s p = (some (saveCells c), true) ∧
      importIndex s (exportIndex order true 8 s p).1 = (s, false) := by
  have h : exportIndex order true 8 s p = (some (saveCells c), true) := by
    unfold exportIndex
    simp [hs, hg, hc, saveCells]
  exact ⟨h, C184_failed_partial _ _ (.inr (.inr he))⟩

/-- **C184**: the file of an inverted file imported into a store that uses the graph index reports success, loads the
inverted file, and overwrites two parameters of the graph index with the numbers of the file. -/
theorem C184_kind_violated (c : Cells W) (t : Store P W) (g : Graph P) (ht : t.closed = false)
    (he : t.hnswEnabled = true) (hg : t.graph = some g) :
    importIndex t (some (saveCells c)) =
      ({ t with graph := some { g with m := c.ncent, ef := c.dim }, cells := some c }, true) := by
  unfold importIndex
  simp only [ht, he, hg, Bool.false_eq_true, if_false, if_true, Option.getD_some]
  rfl

/-- **C184**: an export on a store without an index reports an error and empties the file that was there. -/
theorem C184_export_violated (order : List (String × P) → List (String × P)) (cap : Nat) (s : Store P W)
    (hs : s.closed = false) (hg : s.graph = none) (hc : s.cells = none) (old : List (Val P W)) :
    exportIndex order true cap s (some old) = (some [], false) := by
  unfold exportIndex
  simp [hs, hg, hc]

/-- **C184**: an export that reports success has written the whole index; a closed store and a path where no file can be
made leave the path as it was. -/
theorem C184_export_full (order : List (String × P) → List (String × P)) (canCreate : Bool) (cap : Nat) (s : Store P W)
    (p : Path P W) :
    ((exportIndex order canCreate cap s p).2 = true →
      s.closed = false ∧
        ((∃ g, s.graph = some g ∧ (exportIndex order canCreate cap s p).1 = some (saveGraph order g)) ∨
          ∃ c, s.graph = none ∧ s.cells = some c ∧ (exportIndex order canCreate cap s p).1 = some (saveCells c))) ∧
      (s.closed = true ∨ canCreate = false → exportIndex order canCreate cap s p = (p, false)) := by
  unfold exportIndex
  cases hs : s.closed with
  | true => simp
  | false =>
    cases canCreate with
    | false => simp
    | true =>
      simp only [Bool.false_eq_true, if_false, not_true_eq_false]
      refine ⟨?_, by simp⟩
      cases hg : s.graph with
      | some g =>
        intro h
        simp only [decide_eq_true_eq] at h
        exact ⟨trivial, .inl ⟨g, rfl, by simp only []; rw [List.take_of_length_le h]⟩⟩
      | none =>
        cases hc : s.cells with
        | some c =>
          intro h
          simp only [decide_eq_true_eq] at h
          exact ⟨trivial, .inr ⟨c, rfl, rfl, by simp only []; rw [List.take_of_length_le h]⟩⟩
        | none => simp

/-! ### Examples -/

def exG : Graph Nat := { m := 16, ef := 200, entry := "a", nodes := [("a", 1), ("b", 2)] }
def exC : Cells Nat :=
  { ncent := 100, dim := 3, nprobe := 10, trained := true, centroids := [[1]], invlists := [[0]], ids := ["a"], vectors := [[1]] }
def exS : Store Nat Nat :=
  { closed := false, hnswEnabled := true, newGraph := { exG with nodes := [] }, newCells := exC, graph := some exG, cells := none }

example : exS.closed = false ∧ exS.graph = some exG ∧ (exG.nodes.map Prod.fst).Nodup ∧ exG.nodes ≠ [] := by decide
example : (importIndex { exS with graph := none } (exportIndex List.reverse true 9 exS none).1).1.graph =
    some { exG with nodes := [("b", 2), ("a", 1)] } := by decide
example : (importIndex exS (some ((saveGraph id exG).take 5))).1.graph = some { exG with nodes := [("a", 1)] } := by decide
example : (importIndex exS (some (saveCells exC))).1.graph = some { exG with m := 100, ef := 3 } := by decide

end Verif.IndexFile
