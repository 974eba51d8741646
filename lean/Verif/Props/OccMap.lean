import Verif.Model.OccMap
import Verif.Spec.Grid
import Mathlib.Tactic.Linarith
import Mathlib.Tactic.FieldSimp
import Mathlib.Tactic.NormNum

/-!
# C28, C29: coordinate frames of the occupancy map
-/

namespace PathPlanning
open Spec

/-! ## Truncation -/

private theorem truncInt_int (z : ℤ) : truncInt (z : ℝ) = z := by
  unfold truncInt; split <;> simp

private theorem truncInt_eq_of_nonneg {x : ℝ} {z : ℤ} (h0 : 0 ≤ z) :
    (z : ℝ) ≤ x → x < z + 1 → truncInt x = z := by
  intro h1 h2
  have : 0 ≤ x := le_trans (by exact_mod_cast h0) h1
  rw [truncInt, if_pos this, Int.floor_eq_iff]
  exact ⟨h1, h2⟩

private theorem truncInt_nonneg_iff (x : ℝ) : 0 ≤ truncInt x ↔ -1 < x := by
  unfold truncInt
  split
  · rename_i h
    constructor
    · intro _; linarith
    · intro _; exact Int.floor_nonneg.mpr h
  · rename_i h
    rw [← Int.lt_iff_add_one_le.trans (by simp : (-1 : ℤ) + 1 ≤ ⌈x⌉ ↔ 0 ≤ ⌈x⌉), Int.lt_ceil]
    simp

private theorem truncInt_lt_iff (x : ℝ) (z : ℤ) (hz : 0 < z) : truncInt x < z ↔ x < z := by
  unfold truncInt
  split
  · exact Int.floor_lt
  · rename_i h
    constructor
    · intro _
      have : (0 : ℝ) < z := by exact_mod_cast hz
      linarith
    · intro _
      have : ⌈x⌉ ≤ 0 := Int.ceil_le.mpr (by push_cast; linarith)
      omega

/-! ## C28 -/

/-- C28. Converting a cell to world (local) coordinates and back gives the cell. -/
theorem C28_cell_world_cell (m : OccMap) (hres : 0 < m.resolution) (c : Cell) :
    m.worldPositionToGridCell (m.gridCellToWorldPosition c) false = c ∧
    m.localPositionToGridCell (m.gridCellToLocalPosition c) false = c ∧
    (m.isInsideCell c = true →
      m.worldPositionToGridCell (m.gridCellToWorldPosition c) true = c ∧
      m.localPositionToGridCell (m.gridCellToLocalPosition c) true = c) := by
  have hne := ne_of_gt hres
  have e : ∀ (z : ℤ), truncInt ((z : ℝ) * m.resolution / m.resolution) = z := by
    intro z; rw [mul_div_cancel_right₀ _ hne, truncInt_int]
  have hb : ∀ b, (b = false ∨ m.isInsideCell c = true) →
      m.gridPositionToGridCell (m.gridCellToGridPosition c) b = c := by
    intro b hb
    simp only [OccMap.gridPositionToGridCell, OccMap.gridCellToGridPosition, e]
    cases b
    · simp
    · rcases hb with hb | hb
      · cases hb
      · simp [hb]
  have hw : ∀ b, m.worldPositionToGridCell (m.gridCellToWorldPosition c) b =
      m.gridPositionToGridCell (m.gridCellToGridPosition c) b := by
    intro b
    simp only [OccMap.worldPositionToGridCell, OccMap.gridCellToWorldPosition, Pt.add_x, Pt.add_y,
      add_sub_cancel_left]
  have hl : ∀ b, m.localPositionToGridCell (m.gridCellToLocalPosition c) b =
      m.gridPositionToGridCell (m.gridCellToGridPosition c) b := by
    intro b
    have : m.localGridOrigin + m.gridCellToGridPosition c - m.localGridOrigin =
        m.gridCellToGridPosition c := by ext <;> simp
    simp only [OccMap.localPositionToGridCell, OccMap.gridCellToLocalPosition, this]
  refine ⟨?_, ?_, fun h => ⟨?_, ?_⟩⟩
  · rw [hw]; exact hb _ (Or.inl rfl)
  · rw [hl]; exact hb _ (Or.inl rfl)
  · rw [hw]; exact hb _ (Or.inr h)
  · rw [hl]; exact hb _ (Or.inr h)

/-- C28. A world position in the square of side `resolution` above the corner of a cell of the map
is mapped to that cell. -/
theorem C28_position_in_cell (m : OccMap) (hres : 0 < m.resolution) (c : Cell)
    (hc : m.isInsideCell c = true) (p : Pt)
    (hx : (m.gridCellToWorldPosition c).x ≤ p.x ∧
      p.x < (m.gridCellToWorldPosition c).x + m.resolution)
    (hy : (m.gridCellToWorldPosition c).y ≤ p.y ∧
      p.y < (m.gridCellToWorldPosition c).y + m.resolution) :
    m.worldPositionToGridCell p true = c ∧ m.worldPositionToGridCell p false = c := by
  simp only [OccMap.gridCellToWorldPosition, OccMap.gridCellToGridPosition, Pt.add_x, Pt.add_y]
    at hx hy
  have hin := hc
  simp only [OccMap.isInsideCell, Bool.and_eq_true, decide_eq_true_eq] at hin
  have h1 : truncInt ((p.x - m.worldGridOrigin.x) / m.resolution) = c.row :=
    truncInt_eq_of_nonneg (by omega) (by rw [le_div_iff₀ hres]; linarith)
      (by rw [div_lt_iff₀ hres]; linarith)
  have h2 : truncInt ((p.y - m.worldGridOrigin.y) / m.resolution) = c.col :=
    truncInt_eq_of_nonneg (by omega) (by rw [le_div_iff₀ hres]; linarith)
      (by rw [div_lt_iff₀ hres]; linarith)
  simp only [OccMap.worldPositionToGridCell, OccMap.gridPositionToGridCell, h1, h2]
  simp [hc]

/-- A 4 × 6 map with resolution 1/2. -/
private noncomputable def exMap : OccMap := ⟨1 / 2, 4, 6, ⟨0, 0⟩, ⟨-1, -3 / 2⟩, ⟨-1, -3 / 2⟩⟩

example : 0 < exMap.resolution ∧ exMap.isInsideCell ⟨3, 2⟩ = true ∧
    (exMap.gridCellToWorldPosition ⟨3, 2⟩).x ≤ 3 / 4 ∧
    (3 : ℝ) / 4 < (exMap.gridCellToWorldPosition ⟨3, 2⟩).x + exMap.resolution := by
  refine ⟨by norm_num [exMap], by simp [exMap, OccMap.isInsideCell], ?_, ?_⟩ <;>
    norm_num [exMap, OccMap.gridCellToWorldPosition, OccMap.gridCellToGridPosition]

/-! ## C29 -/

/-- What `IsInsideMap(position)` decides, exactly: the rectangle extended by one cell below. -/
theorem C29_inside_exact (m : OccMap) (hres : 0 < m.resolution) (hr : 0 < m.rows)
    (hc : 0 < m.columns) (p : Pt) :
    m.isInsidePos p = true ↔
      (m.worldGridOrigin.x - m.resolution < p.x ∧
        p.x < m.worldGridOrigin.x + m.rows * m.resolution) ∧
      (m.worldGridOrigin.y - m.resolution < p.y ∧
        p.y < m.worldGridOrigin.y + m.columns * m.resolution) := by
  obtain ⟨r, hrd⟩ : ∃ r, r = truncInt ((p.x - m.worldGridOrigin.x) / m.resolution) := ⟨_, rfl⟩
  obtain ⟨k, hkd⟩ : ∃ k, k = truncInt ((p.y - m.worldGridOrigin.y) / m.resolution) := ⟨_, rfl⟩
  have h0 : m.isInsidePos p = m.isInsideCell ⟨r, k⟩ := by
    simp only [OccMap.isInsidePos, OccMap.worldPositionToGridCell, OccMap.gridPositionToGridCell,
      ← hrd, ← hkd]
    cases h : m.isInsideCell ⟨r, k⟩
    · simp [OccMap.isInsideCell]
    · simp [h]
  rw [h0]
  simp only [OccMap.isInsideCell, Bool.and_eq_true, decide_eq_true_eq, hrd, hkd, ge_iff_le,
    truncInt_nonneg_iff, truncInt_lt_iff _ _ hr, truncInt_lt_iff _ _ hc]
  rw [div_lt_iff₀ hres, div_lt_iff₀ hres, lt_div_iff₀ hres, lt_div_iff₀ hres, and_assoc, and_assoc]
  constructor
  · rintro ⟨a, b, c, d⟩; refine ⟨⟨?_, ?_⟩, ?_, ?_⟩ <;> linarith
  · rintro ⟨⟨a, b⟩, c, d⟩; refine ⟨?_, ?_, ?_, ?_⟩ <;> linarith

/-- The world rectangle covered by the `rows` × `columns` cells. -/
def InRectangle (m : OccMap) (p : Pt) : Prop :=
  (m.gridCellToWorldPosition ⟨0, 0⟩).x ≤ p.x ∧
  p.x < (m.gridCellToWorldPosition ⟨m.rows, m.columns⟩).x ∧
  (m.gridCellToWorldPosition ⟨0, 0⟩).y ≤ p.y ∧
  p.y < (m.gridCellToWorldPosition ⟨m.rows, m.columns⟩).y

/-- C29, partial: for positions not below the low corner of the map, `IsInsideMap` decides
membership in the rectangle; and it never rejects a position of the rectangle. Missing: positions
up to one cell below the low border are accepted (`C29_low_border_accepted`). -/
theorem C29_inside_iff_rectangle_partial (m : OccMap) (hres : 0 < m.resolution) (hr : 0 < m.rows)
    (hc : 0 < m.columns) (p : Pt) :
    (InRectangle m p → m.isInsidePos p = true) ∧
    ((m.gridCellToWorldPosition ⟨0, 0⟩).x ≤ p.x → (m.gridCellToWorldPosition ⟨0, 0⟩).y ≤ p.y →
      (m.isInsidePos p = true ↔ InRectangle m p)) := by
  rw [C29_inside_exact m hres hr hc]
  unfold InRectangle
  simp only [OccMap.gridCellToWorldPosition, OccMap.gridCellToGridPosition, Pt.add_x, Pt.add_y,
    Int.cast_zero, zero_mul, add_zero]
  constructor
  · rintro ⟨a, b, c, d⟩
    exact ⟨⟨by linarith, b⟩, by linarith, d⟩
  · intro hx hy
    constructor
    · rintro ⟨⟨a, b⟩, c, d⟩; exact ⟨hx, b, hy, d⟩
    · rintro ⟨a, b, c, d⟩; exact ⟨⟨by linarith, b⟩, by linarith, d⟩

/-- C29 is violated: on every map some positions outside the rectangle are reported inside. -/
theorem C29_low_border_accepted (m : OccMap) (hres : 0 < m.resolution) (hr : 0 < m.rows)
    (hc : 0 < m.columns) : ∃ p, ¬ InRectangle m p ∧ m.isInsidePos p = true := by
  refine ⟨⟨m.worldGridOrigin.x - m.resolution / 2, m.worldGridOrigin.y⟩, ?_, ?_⟩
  · rintro ⟨h, _⟩
    simp only [OccMap.gridCellToWorldPosition, OccMap.gridCellToGridPosition, Pt.add_x,
      Int.cast_zero, zero_mul, add_zero] at h
    linarith
  · rw [C29_inside_exact m hres hr hc]
    have h1 : (0 : ℝ) < m.rows * m.resolution := mul_pos (by exact_mod_cast hr) hres
    have h2 : (0 : ℝ) < m.columns * m.resolution := mul_pos (by exact_mod_cast hc) hres
    refine ⟨⟨?_, ?_⟩, ?_, ?_⟩ <;> dsimp only <;> linarith

/-- Set-up calls of a map. -/
inductive MapOp where
  | setPosition (p : Pt)
  | initializeSize (width height : ℝ)

/-- Effect of a set-up call; `none` is an exception. -/
noncomputable def MapOp.apply (m : OccMap) : MapOp → Option OccMap
  | .setPosition p => some (m.setPosition p)
  | .initializeSize w h => m.initializeSize w h

/-- Effect of a list of set-up calls. -/
noncomputable def MapOp.run (m : OccMap) : List MapOp → Option OccMap
  | [] => some m
  | o :: os => (o.apply m).bind fun m' => MapOp.run m' os

/-- The world conversions agree with the composition of the local conversions with the translation
between the two frames. -/
def FramesAgree (m : OccMap) : Prop :=
  (∀ p b, m.worldPositionToGridCell p b =
    m.localPositionToGridCell (m.worldPositionToLocalPosition p) b) ∧
  (∀ c, m.gridCellToWorldPosition c = m.localPositionToWorldPosition (m.gridCellToLocalPosition c)) ∧
  (∀ p, m.localPositionToWorldPosition (m.worldPositionToLocalPosition p) = p)

private theorem framesAgree_of {m : OccMap} (h : m.worldGridOrigin = m.localOrigin + m.localGridOrigin) :
    FramesAgree m := by
  refine ⟨fun p b => ?_, fun c => ?_, fun p => ?_⟩
  · simp only [OccMap.worldPositionToGridCell, OccMap.localPositionToGridCell,
      OccMap.worldPositionToLocalPosition, h]
    congr 1
    ext <;> simp [sub_sub]
  · simp only [OccMap.gridCellToWorldPosition, OccMap.localPositionToWorldPosition,
      OccMap.gridCellToLocalPosition, h]
    ext <;> simp [add_assoc]
  · simp only [OccMap.localPositionToWorldPosition, OccMap.worldPositionToLocalPosition]
    ext <;> simp

/-- C29, partial: the frames agree after any set-up that ends with `InitializeSize`. Missing: a
later `SetPosition` does not move the world grid origin (`C29_set_position_after_size`). -/
theorem C29_frames_agree_partial (m m' : OccMap) (ops : List MapOp) (w h : ℝ)
    (hrun : MapOp.run m (ops ++ [.initializeSize w h]) = some m') : FramesAgree m' := by
  induction ops generalizing m with
  | nil =>
    simp only [List.nil_append, MapOp.run, MapOp.apply, OccMap.initializeSize] at hrun
    split at hrun
    · cases hrun
      exact framesAgree_of rfl
    · cases hrun
  | cons o os ih =>
    simp only [List.cons_append, MapOp.run] at hrun
    cases ho : o.apply m with
    | none => rw [ho] at hrun; cases hrun
    | some m1 => rw [ho] at hrun; exact ih m1 hrun

/-- C29 is violated: after `InitializeSize` followed by `SetPosition`, a cell's world position is not
the translation of its local position. -/
theorem C29_set_position_after_size (junk junk' : Pt) :
    ∃ m', MapOp.run (OccMap.new 1 junk junk') [.initializeSize 4 4, .setPosition ⟨10, 0⟩] = some m' ∧
      ¬ FramesAgree m' := by
  have hc : ⌈(4 : ℝ) / 1⌉ = 4 := by norm_num
  simp only [MapOp.run, MapOp.apply, OccMap.initializeSize, OccMap.new, hc, OccMap.setPosition]
  norm_num
  rintro ⟨_, h, _⟩
  have := congrArg Pt.x (h ⟨0, 0⟩)
  simp [OccMap.gridCellToWorldPosition, OccMap.localPositionToWorldPosition,
    OccMap.gridCellToLocalPosition, OccMap.gridCellToGridPosition] at this

/-- A set-up that succeeds and gives a map with cells. -/
example (junk junk' : Pt) : ∃ m', MapOp.run (OccMap.new 1 junk junk')
    [.setPosition ⟨10, 0⟩, .initializeSize 4 6] = some m' ∧ 0 < m'.resolution ∧ m'.rows = 4 ∧
    m'.columns = 6 := by
  have hc : ⌈(4 : ℝ) / 1⌉ = 4 := by norm_num
  have hc' : ⌈(6 : ℝ) / 1⌉ = 6 := by norm_num
  simp only [MapOp.run, MapOp.apply, OccMap.initializeSize, OccMap.new, hc, hc', OccMap.setPosition]
  norm_num

end PathPlanning
