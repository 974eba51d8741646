import Verif.Spec.Grid
import Verif.Spec.Path
import Mathlib.Tactic.Common
import Mathlib.Data.List.Nodup

/-! # Lemmas about grid cells and the grid propagator -/

namespace PathPlanning
open Spec

theorem inside_iff (m : GridMap) (c : Cell) : m.isInsideMap c = true ↔ Inside m c := by
  simp [GridMap.isInsideMap, Inside, and_assoc]

theorem chebyshev_eq_one (a b : Cell) : chebyshev a b = 1 ↔
    (a.row ≠ b.row ∨ a.col ≠ b.col) ∧
    -1 ≤ a.row - b.row ∧ a.row - b.row ≤ 1 ∧ -1 ≤ a.col - b.col ∧ a.col - b.col ≤ 1 := by
  unfold chebyshev
  have h1 := abs_eq_max_neg (a := a.row - b.row)
  have h2 := abs_eq_max_neg (a := a.col - b.col)
  omega

theorem Cell.mem_getNeighbors (c n : Cell) (rows columns : Int) :
    n ∈ c.getNeighbors rows columns ↔ c.isValid = true ∧ chebyshev c n = 1 ∧
      (n.row = c.row - 1 → 0 ≤ n.row) ∧ (n.col = c.col - 1 → 0 ≤ n.col) ∧
      (n.row = c.row + 1 → n.row < rows) ∧ (n.col = c.col + 1 → n.col < columns) := by
  rw [chebyshev_eq_one]
  unfold Cell.getNeighbors
  obtain ⟨r, k⟩ := c
  obtain ⟨nr, nk⟩ := n
  cases hv : Cell.isValid ⟨r, k⟩
  · simp
  · simp only [Bool.not_true, Bool.false_eq_true, if_false, decide_eq_true_eq, true_and]
    constructor
    · intro h
      simp only [List.mem_append] at h
      rcases h with ((h | h) | h) | h
      · split at h
        · simp only [List.mem_append, List.mem_singleton, Cell.mk.injEq] at h
          rcases h with (h | h) | h
          · omega
          · split at h
            · simp only [List.mem_singleton, Cell.mk.injEq] at h; omega
            · simp at h
          · split at h
            · simp only [List.mem_singleton, Cell.mk.injEq] at h; omega
            · simp at h
        · simp at h
      · split at h
        · simp only [List.mem_append, List.mem_singleton, Cell.mk.injEq] at h
          rcases h with (h | h) | h
          · omega
          · split at h
            · simp only [List.mem_singleton, Cell.mk.injEq] at h; omega
            · simp at h
          · split at h
            · simp only [List.mem_singleton, Cell.mk.injEq] at h; omega
            · simp at h
        · simp at h
      · split at h
        · simp only [List.mem_singleton, Cell.mk.injEq] at h; omega
        · simp at h
      · split at h
        · simp only [List.mem_singleton, Cell.mk.injEq] at h; omega
        · simp at h
    · intro hh
      simp only [List.mem_append]
      have hr : nr = r - 1 ∨ nr = r ∨ nr = r + 1 := by omega
      have hk : nk = k - 1 ∨ nk = k ∨ nk = k + 1 := by omega
      rcases hr with rfl | rfl | rfl <;> rcases hk with rfl | rfl | rfl
      · have a1 : k - 1 ≥ 0 := by omega
        have a2 : r - 1 ≥ 0 := by omega
        simp [a1, a2] <;> omega
      · have a2 : r - 1 ≥ 0 := by omega
        simp [a2] <;> omega
      · have a1 : k + 1 < columns := by omega
        have a2 : r - 1 ≥ 0 := by omega
        simp [a1, a2] <;> omega
      · have a1 : k - 1 ≥ 0 := by omega
        simp [a1] <;> omega
      · omega
      · have a1 : k + 1 < columns := by omega
        simp [a1] <;> omega
      · have a1 : k - 1 ≥ 0 := by omega
        have a2 : r + 1 < rows := by omega
        simp [a1, a2] <;> omega
      · have a2 : r + 1 < rows := by omega
        simp [a2] <;> omega
      · have a1 : k + 1 < columns := by omega
        have a2 : r + 1 < rows := by omega
        simp [a1, a2] <;> omega

theorem Cell.nodup_getNeighbors (c : Cell) (rows columns : Int) :
    (c.getNeighbors rows columns).Nodup := by
  unfold Cell.getNeighbors
  obtain ⟨r, k⟩ := c
  dsimp only
  split
  · exact List.nodup_nil
  · cases decide (k - 1 ≥ 0) <;> cases decide (k + 1 < columns) <;>
      cases decide (r - 1 ≥ 0) <;> cases decide (r + 1 < rows) <;>
      simp <;> omega

/-- All cells of a `rows` × `columns` grid. -/
def allCells (rows columns : Int) : List Cell :=
  (List.range rows.toNat).flatMap fun (r : Nat) =>
    (List.range columns.toNat).map fun (k : Nat) => ⟨Int.ofNat r, Int.ofNat k⟩

theorem mem_allCells (rows columns : Int) (c : Cell) : c ∈ allCells rows columns ↔
    0 ≤ c.row ∧ c.row < rows ∧ 0 ≤ c.col ∧ c.col < columns := by
  simp only [allCells, List.mem_flatMap, List.mem_map, List.mem_range, Cell.ext_iff,
    Int.ofNat_eq_natCast]
  constructor
  · rintro ⟨r, hr, k, hk, h1, h2⟩; omega
  · intro h; exact ⟨c.row.toNat, by omega, c.col.toNat, by omega, by omega, by omega⟩

theorem length_allCells (rows columns : Int) :
    (allCells rows columns).length = rows.toNat * columns.toNat := by
  simp [allCells, List.length_flatMap]

namespace N2
variable {C : Type} {m : GridMap}

theorem isOccupied_inside {c : Cell} (h : Inside m c) : m.isOccupied c = some (m.occ c) := by
  simp [GridMap.isOccupied, (inside_iff m c).mpr h]

/-- A neighbour listed for an inside cell is inside, as are the two corner cells. -/
theorem neighbor_inside {cell n : Cell} (hc : Inside m cell)
    (hn : n ∈ cell.getNeighbors m.rows m.columns) :
    Inside m n ∧ Inside m ⟨n.row, cell.col⟩ ∧ Inside m ⟨cell.row, n.col⟩ := by
  rw [Cell.mem_getNeighbors, chebyshev_eq_one] at hn
  unfold Inside at *
  dsimp only
  omega

theorem skipped_inside {cell n : Cell} (hc : Inside m cell)
    (hn : n ∈ cell.getNeighbors m.rows m.columns) :
    skipped m cell n = some (m.occ n || (n.isDiagonalTo cell &&
      (m.occ ⟨n.row, cell.col⟩ && m.occ ⟨cell.row, n.col⟩))) := by
  obtain ⟨h1, h2, h3⟩ := neighbor_inside hc hn
  unfold skipped
  simp only [isOccupied_inside h1, isOccupied_inside h2, isOccupied_inside h3]
  cases m.occ n <;> cases n.isDiagonalTo cell <;> cases m.occ ⟨n.row, cell.col⟩ <;>
    cases m.occ ⟨cell.row, n.col⟩ <;> rfl

theorem neighborLoop_inside (pathCost : Cell → Cell → C) {cell : Cell} (hc : Inside m cell) :
    ∀ ns : List Cell, (∀ n ∈ ns, n ∈ cell.getNeighbors m.rows m.columns) →
      ∃ l, neighborLoop m pathCost cell ns = some l ∧
        ∀ t, t ∈ l ↔ (t.1 ∈ ns ∧ t.2.2 = pathCost cell t.1 ∧
          (m.occ t.1 || (t.1.isDiagonalTo cell &&
            (m.occ ⟨t.1.row, cell.col⟩ && m.occ ⟨cell.row, t.1.col⟩))) = false) := by
  intro ns
  induction ns with
  | nil => intro _; exact ⟨[], rfl, by simp⟩
  | cons n ns ih =>
    intro h
    obtain ⟨l, hl, hm⟩ := ih (fun x hx => h x (List.mem_cons_of_mem _ hx))
    have hs := skipped_inside hc (h n (List.mem_cons_self ..))
    refine ⟨_, by simp only [neighborLoop, hl, hs]; rfl, ?_⟩
    rintro ⟨t, a, c⟩
    obtain ⟨sk, hsk⟩ : ∃ b, b = (m.occ n || (n.isDiagonalTo cell &&
      (m.occ ⟨n.row, cell.col⟩ && m.occ ⟨cell.row, n.col⟩))) := ⟨_, rfl⟩
    rw [← hsk]
    cases sk with
    | true =>
      simp only [if_true]
      rw [hm]
      simp only [List.mem_cons]
      constructor
      · rintro ⟨h1, h2, h3⟩; exact ⟨Or.inr h1, h2, h3⟩
      · rintro ⟨rfl | h1, h2, h3⟩
        · rw [← hsk] at h3; cases h3
        · exact ⟨h1, h2, h3⟩
    | false =>
      simp only [Bool.false_eq_true, if_false, List.mem_cons]
      rw [hm]
      simp only [Prod.mk.injEq]
      constructor
      · rintro (⟨rfl, _, rfl⟩ | ⟨h1, h2, h3⟩)
        · exact ⟨Or.inl rfl, rfl, hsk.symm⟩
        · exact ⟨Or.inr h1, h2, h3⟩
      · rintro ⟨rfl | h1, h2, h3⟩
        · exact Or.inl ⟨rfl, trivial, h2⟩
        · exact Or.inr ⟨h1, h2, h3⟩

theorem getNeighborStates_inside (pathCost : Cell → Cell → C) {cell : Cell} (hc : Inside m cell) :
    ∃ l, getNeighborStates m pathCost cell = some l ∧
      ∀ t, t ∈ l ↔ (Move m cell t.1 ∧ t.2.2 = pathCost cell t.1) := by
  obtain ⟨l, hl, hm⟩ := neighborLoop_inside (m := m) pathCost hc _ (fun n hn => hn)
  refine ⟨l, hl, ?_⟩
  intro t
  rw [hm]
  constructor
  · rintro ⟨h1, h2, h3⟩
    refine ⟨⟨⟨(neighbor_inside hc h1).1, ?_⟩, ((Cell.mem_getNeighbors _ _ _ _).mp h1).2.1, ?_⟩, h2⟩
    · cases ho : m.occ t.1 with
      | false => rfl
      | true => rw [ho] at h3; simp at h3
    · rintro hr hk ⟨o1, o2⟩
      have : t.1.isDiagonalTo cell = true := by
        simp [Cell.isDiagonalTo, Ne.symm hr, Ne.symm hk]
      rw [this, o1, o2] at h3
      simp at h3
  · rintro ⟨⟨⟨h1, h2⟩, h3, h4⟩, h5⟩
    refine ⟨?_, h5, ?_⟩
    · rw [Cell.mem_getNeighbors]
      refine ⟨?_, h3, ?_⟩
      · simp only [Cell.isValid, Bool.and_eq_true, decide_eq_true_eq]
        unfold Inside at hc; omega
      · unfold Inside at hc h1; omega
    · rw [h2, Bool.false_or, Bool.and_eq_false_iff]
      by_cases hd : t.1.isDiagonalTo cell = true
      · right
        simp only [Cell.isDiagonalTo, Bool.and_eq_true, decide_eq_true_eq] at hd
        have := h4 (Ne.symm hd.1) (Ne.symm hd.2)
        cases h6 : m.occ ⟨t.1.row, cell.col⟩ <;> cases h7 : m.occ ⟨cell.row, t.1.col⟩ <;>
          simp_all
      · left; simpa using hd

end N2
end PathPlanning
