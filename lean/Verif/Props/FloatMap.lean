import Verif.Model.FloatMap
import Verif.Lemmas.Float

/-!
# C120: from cells to positions and back with `float` and `double`
-/

namespace PathPlanning
open Flt

/-- One coordinate: from the index of a cell to the grid coordinate. -/
private noncomputable def toGrid (res : ℝ) (r : ℤ) : ℝ := fl32 (fl32 r * res)
/-- One coordinate: from the index of a cell to a position and back, before truncation. -/
private noncomputable def back (res o : ℝ) (r : ℤ) : ℝ := fl64 (fl64 (fl64 (o + toGrid res r) - o) / res)

private theorem trunc_int (n : ℤ) : truncInt (n : ℝ) = n := by
  unfold truncInt; split <;> simp

private theorem trunc_eq {x : ℝ} {n : ℤ} (h0 : 0 ≤ x) (h1 : (n : ℝ) ≤ x) (h2 : x < n + 1) : truncInt x = n := by
  unfold truncInt; rw [if_pos h0, Int.floor_eq_iff]; exact ⟨h1, h2⟩

private theorem rel {p : ℕ} (x : ℝ) : |fl p x - x| ≤ (2 ^ p)⁻¹ * |x| := fl_rel p x

private theorem back_exact {k a r : ℤ} (ha : |a| ≤ 2 ^ 52) (hr : |r| ≤ 2 ^ 24) :
    back (2 ^ k) (a * 2 ^ (k - 1)) r = r := by
  have hz : (2 : ℝ) ^ k = 2 * 2 ^ (k - 1) := by
    rw [zpow_sub₀ (by norm_num)]; norm_num; ring
  have hp : (0 : ℝ) < 2 ^ k := by positivity
  have e1 : fl32 (r : ℝ) = r := fl_int (by norm_num) hr
  have e2 : toGrid (2 ^ k) r = r * 2 ^ k := by
    unfold toGrid
    rw [e1]
    exact fl_repr (by norm_num) rfl hr
  have hsum : |a + 2 * r| ≤ 2 ^ 53 := by
    have := abs_le.1 ha
    have := abs_le.1 hr
    rw [abs_le]; norm_num at *; omega
  have e3 : fl64 (a * 2 ^ (k - 1) + toGrid (2 ^ k) r) = a * 2 ^ (k - 1) + r * 2 ^ k := by
    rw [e2]
    refine fl_repr (n := a + 2 * r) (e := k - 1) (by norm_num) ?_ hsum
    rw [hz]; push_cast; ring
  have hr' : |r| ≤ 2 ^ 53 := le_trans hr (by norm_num)
  have e4 : fl64 ((a * 2 ^ (k - 1) + r * 2 ^ k) - a * 2 ^ (k - 1)) = r * 2 ^ k :=
    (congrArg fl64 (by ring)).trans (fl_repr (n := r) (e := k) (by norm_num) rfl hr')
  unfold back
  rw [e3, e4, mul_div_assoc, div_self hp.ne', mul_one]
  exact fl_int (by norm_num) hr'

/-- The result of going to a position and back is off by less than one cell. -/
private theorem back_near {res o : ℝ} (hres : 0 < res) (ho : |o| ≤ 2 ^ 50 * res) {r : ℤ} (h0 : 0 ≤ r) (hr : r ≤ 2 ^ 23) :
    |back res o r - r| < 1 := by
  have e1 : fl32 (r : ℝ) = r := fl_int (by norm_num) (by rw [abs_of_nonneg h0]; exact le_trans hr (by norm_num))
  have hr0 : (0 : ℝ) ≤ r := Int.cast_nonneg h0
  have hr1 : (r : ℝ) ≤ 2 ^ 23 := by exact_mod_cast hr
  obtain ⟨g, hg⟩ : ∃ g, g = toGrid res r := ⟨_, rfl⟩
  have b1 : |g - r * res| ≤ (2 ^ 24)⁻¹ * |r * res| := by
    rw [hg]; unfold toGrid; rw [e1]; exact rel _
  rw [abs_of_nonneg (mul_nonneg hr0 hres.le)] at b1
  have b1' : (2 ^ 24)⁻¹ * (r * res) ≤ 1 / 2 * res := by
    rw [← mul_assoc]
    refine mul_le_mul_of_nonneg_right ?_ hres.le
    norm_num at hr1 ⊢; linarith
  have b2 : r * res ≤ 2 ^ 23 * res := mul_le_mul_of_nonneg_right hr1 hres.le
  obtain ⟨b3, b4⟩ := abs_le.1 b1
  obtain ⟨o1, o2⟩ := abs_le.1 ho
  obtain ⟨w, hw⟩ : ∃ w, w = fl64 (o + g) := ⟨_, rfl⟩
  have b5 : |w - (o + g)| ≤ (2 ^ 53)⁻¹ * |o + g| := by rw [hw]; exact rel _
  have hrr : 0 ≤ r * res := mul_nonneg hr0 hres.le
  have b6 : (2 ^ 53)⁻¹ * |o + g| ≤ 1 / 4 * res := by
    have : |o + g| ≤ 2 ^ 51 * res := by rw [abs_le]; norm_num at *; constructor <;> linarith
    norm_num at this ⊢; linarith
  obtain ⟨b7, b8⟩ := abs_le.1 (le_trans b5 b6)
  obtain ⟨d, hd⟩ : ∃ d, d = fl64 (w - o) := ⟨_, rfl⟩
  have b9 : |d - (w - o)| ≤ (2 ^ 53)⁻¹ * |w - o| := by rw [hd]; exact rel _
  have b10 : (2 ^ 53)⁻¹ * |w - o| ≤ 1 / 16 * res := by
    have : |w - o| ≤ 2 ^ 24 * res := by rw [abs_le]; norm_num at *; constructor <;> linarith
    norm_num at this ⊢; linarith
  obtain ⟨b11, b12⟩ := abs_le.1 (le_trans b9 b10)
  obtain ⟨q, hq⟩ : ∃ q, q = fl64 (d / res) := ⟨_, rfl⟩
  have c1 : r - 13 / 16 ≤ d / res := by rw [le_div_iff₀ hres]; nlinarith
  have c2 : d / res ≤ r + 13 / 16 := by rw [div_le_iff₀ hres]; nlinarith
  have b13 : |q - d / res| ≤ (2 ^ 53)⁻¹ * |d / res| := by rw [hq]; exact rel _
  have b14 : (2 ^ 53)⁻¹ * |d / res| ≤ 1 / 16 := by
    have : |d / res| ≤ 2 ^ 24 := by rw [abs_le]; norm_num at hr1 ⊢; constructor <;> linarith
    norm_num at this ⊢; linarith
  obtain ⟨b15, b16⟩ := abs_le.1 (le_trans b13 b14)
  have hb : back res o r = q := by rw [hq, hd, hw, hg]; rfl
  rw [hb, abs_lt]
  constructor <;> linarith

private theorem back_zero {res o : ℝ} (ho : IsFlt 53 o) : back res o 0 = 0 := by
  have e : toGrid res 0 = 0 := by unfold toGrid fl32; push_cast; rw [fl_zero, zero_mul, fl_zero]
  unfold back
  rw [e, add_zero, show fl64 o = o from ho, sub_self]
  unfold fl64
  rw [fl_zero, zero_div, fl_zero]

private theorem index_near {res o : ℝ} (hres : 0 < res) (hf : IsFlt 53 o) (ho : |o| ≤ 2 ^ 50 * res) {r : ℤ} (h0 : 0 ≤ r)
    (hr : r ≤ 2 ^ 23) : (truncInt (back res o r) = r ∨ truncInt (back res o r) = r - 1) ∧
      0 ≤ truncInt (back res o r) := by
  rcases lt_or_eq_of_le h0 with hpos | rfl
  · have h1 : (1 : ℝ) ≤ r := by exact_mod_cast hpos
    obtain ⟨h2, h3⟩ := abs_lt.1 (back_near hres ho h0 hr)
    have hnn : 0 ≤ back res o r := by linarith
    rcases le_or_gt (r : ℝ) (back res o r) with h | h
    · have e : truncInt (back res o r) = r := trunc_eq hnn h (by linarith)
      rw [e]; exact ⟨Or.inl rfl, h0⟩
    · have e : truncInt (back res o r) = r - 1 := trunc_eq hnn (by push_cast; linarith) (by push_cast; linarith)
      rw [e]; exact ⟨Or.inr rfl, by omega⟩
  · have := trunc_int 0
    push_cast at this
    rw [back_zero hf, this]; simp

private theorem world_back (m : OccMap) (c : Cell) :
    m.worldPositionToGridCellF (m.gridCellToWorldPositionF c) false =
      ⟨truncInt (back m.resolution m.worldGridOrigin.x c.row), truncInt (back m.resolution m.worldGridOrigin.y c.col)⟩ := rfl

private theorem local_back (m : OccMap) (c : Cell) :
    m.localPositionToGridCellF (m.gridCellToLocalPositionF c) false =
      ⟨truncInt (back m.resolution m.localGridOrigin.x c.row), truncInt (back m.resolution m.localGridOrigin.y c.col)⟩ := rfl

/-- The bounded look-up returns the cell of the unbounded one if it is in the map. -/
private theorem bounded_eq (m : OccMap) (p : Pt) (h : m.isInsideCell (m.gridPositionToGridCellF p false) = true) :
    m.gridPositionToGridCellF p true = m.gridPositionToGridCellF p false := by
  simp only [OccMap.gridPositionToGridCellF, Bool.not_false, Bool.not_true, if_true] at h ⊢
  simp [h]

/-- C120, partial: with a resolution that is a power of two, and origins that are multiples of half a cell (2^52 of them at
most), the position of every cell of a map of at most 2^24 rows and columns lies in this cell, for the world and the local
frame, with the arithmetic of the program. Missing: other resolutions (`C120_cell_or_lower_neighbour_partial`,
`C120_tenth_resolution_fails`). -/
theorem C120_power_of_two_partial {m : OccMap} {k : ℤ} (hres : m.resolution = 2 ^ k) {a b a' b' : ℤ}
    (hw : m.worldGridOrigin = ⟨a * 2 ^ (k - 1), b * 2 ^ (k - 1)⟩) (hl : m.localGridOrigin = ⟨a' * 2 ^ (k - 1), b' * 2 ^ (k - 1)⟩)
    (ha : |a| ≤ 2 ^ 52) (hb : |b| ≤ 2 ^ 52) (ha' : |a'| ≤ 2 ^ 52) (hb' : |b'| ≤ 2 ^ 52)
    (hrows : m.rows ≤ 2 ^ 24) (hcols : m.columns ≤ 2 ^ 24) {c : Cell} (hc : m.isInsideCell c = true) :
    m.worldPositionToGridCellF (m.gridCellToWorldPositionF c) true = c ∧
    m.localPositionToGridCellF (m.gridCellToLocalPositionF c) true = c := by
  have hc' := hc
  simp only [OccMap.isInsideCell, Bool.and_eq_true, decide_eq_true_eq] at hc'
  obtain ⟨⟨⟨h1, h2⟩, h3⟩, h4⟩ := hc'
  have r1 : |c.row| ≤ 2 ^ 24 := by rw [abs_of_nonneg h1]; omega
  have r2 : |c.col| ≤ 2 ^ 24 := by rw [abs_of_nonneg h3]; omega
  have e1 : m.worldPositionToGridCellF (m.gridCellToWorldPositionF c) false = c := by
    rw [world_back, hres, hw, back_exact ha r1, back_exact hb r2, trunc_int, trunc_int]
  have e2 : m.localPositionToGridCellF (m.gridCellToLocalPositionF c) false = c := by
    rw [local_back, hres, hl, back_exact ha' r1, back_exact hb' r2, trunc_int, trunc_int]
  refine ⟨?_, ?_⟩
  · refine (bounded_eq m _ ?_).trans e1
    show m.isInsideCell (m.worldPositionToGridCellF (m.gridCellToWorldPositionF c) false) = true
    rw [e1]; exact hc
  · refine (bounded_eq m _ ?_).trans e2
    show m.isInsideCell (m.localPositionToGridCellF (m.gridCellToLocalPositionF c) false) = true
    rw [e2]; exact hc

/-- C120, partial: for every resolution, maps of at most 2^23 rows and columns and an origin at most 2^50 cells away, the
position of a cell of the map lies, with the arithmetic of the program, in this cell or in the one before it in either
direction, and in the map. -/
theorem C120_cell_or_lower_neighbour_partial {m : OccMap} (hres : 0 < m.resolution)
    (hfx : IsFlt 53 m.worldGridOrigin.x) (hfy : IsFlt 53 m.worldGridOrigin.y)
    (hx : |m.worldGridOrigin.x| ≤ 2 ^ 50 * m.resolution) (hy : |m.worldGridOrigin.y| ≤ 2 ^ 50 * m.resolution)
    (hrows : m.rows ≤ 2 ^ 23) (hcols : m.columns ≤ 2 ^ 23) {c : Cell} (hc : m.isInsideCell c = true) :
    ∃ c', m.worldPositionToGridCellF (m.gridCellToWorldPositionF c) true = c' ∧ m.isInsideCell c' = true ∧
      (c'.row = c.row ∨ c'.row = c.row - 1) ∧ (c'.col = c.col ∨ c'.col = c.col - 1) := by
  have hc' := hc
  simp only [OccMap.isInsideCell, Bool.and_eq_true, decide_eq_true_eq] at hc'
  obtain ⟨⟨⟨h1, h2⟩, h3⟩, h4⟩ := hc'
  obtain ⟨i1, i2⟩ := index_near hres hfx hx h1 (by omega : c.row ≤ 2 ^ 23)
  obtain ⟨j1, j2⟩ := index_near hres hfy hy h3 (by omega : c.col ≤ 2 ^ 23)
  have hin : m.isInsideCell (m.worldPositionToGridCellF (m.gridCellToWorldPositionF c) false) = true := by
    rw [world_back]
    simp only [OccMap.isInsideCell, Bool.and_eq_true, decide_eq_true_eq]
    omega
  refine ⟨m.worldPositionToGridCellF (m.gridCellToWorldPositionF c) false, bounded_eq m _ hin, hin, ?_, ?_⟩
  · rw [world_back]; exact i1
  · rw [world_back]; exact j1

private theorem trunc_close {x y : ℝ} (h : |x - y| ≤ 1) : |truncInt x - truncInt y| ≤ 1 := by
  obtain ⟨h1, h2⟩ := abs_le.1 h
  have a1 := Int.floor_le x
  have a2 := Int.lt_floor_add_one x
  have a3 := Int.floor_le y
  have a4 := Int.lt_floor_add_one y
  have c1 := Int.le_ceil x
  have c2 := Int.ceil_lt_add_one x
  have c3 := Int.le_ceil y
  have c4 := Int.ceil_lt_add_one y
  unfold truncInt
  split <;> split <;> rename_i hx hy
  · have : ⌊x⌋ < ⌊y⌋ + 2 := by
      have : ((⌊x⌋ : ℤ) : ℝ) < ((⌊y⌋ + 2 : ℤ) : ℝ) := by push_cast; linarith
      exact Int.cast_lt.1 this
    have : ⌊y⌋ < ⌊x⌋ + 2 := by
      have : ((⌊y⌋ : ℤ) : ℝ) < ((⌊x⌋ + 2 : ℤ) : ℝ) := by push_cast; linarith
      exact Int.cast_lt.1 this
    rw [abs_le]; omega
  · have b1 : ⌊x⌋ ≤ 0 := by
      have : ((⌊x⌋ : ℤ) : ℝ) < ((1 : ℤ) : ℝ) := by push_cast; linarith
      have := Int.cast_lt.1 this
      omega
    have b2 : 0 ≤ ⌊x⌋ := Int.floor_nonneg.2 hx
    have b3 : (-1 : ℤ) ≤ ⌈y⌉ := by
      have : ((-2 : ℤ) : ℝ) < ((⌈y⌉ : ℤ) : ℝ) := by push_cast; linarith
      have := Int.cast_lt.1 this
      omega
    have b4 : ⌈y⌉ ≤ 0 := Int.ceil_le.2 (by push_cast; linarith)
    rw [abs_le]; omega
  · have b1 : ⌊y⌋ ≤ 0 := by
      have : ((⌊y⌋ : ℤ) : ℝ) < ((1 : ℤ) : ℝ) := by push_cast; linarith
      have := Int.cast_lt.1 this
      omega
    have b2 : 0 ≤ ⌊y⌋ := Int.floor_nonneg.2 hy
    have b3 : (-1 : ℤ) ≤ ⌈x⌉ := by
      have : ((-2 : ℤ) : ℝ) < ((⌈x⌉ : ℤ) : ℝ) := by push_cast; linarith
      have := Int.cast_lt.1 this
      omega
    have b4 : ⌈x⌉ ≤ 0 := Int.ceil_le.2 (by push_cast; linarith)
    rw [abs_le]; omega
  · have : ⌈x⌉ < ⌈y⌉ + 2 := by
      have : ((⌈x⌉ : ℤ) : ℝ) < ((⌈y⌉ + 2 : ℤ) : ℝ) := by push_cast; linarith
      exact Int.cast_lt.1 this
    have : ⌈y⌉ < ⌈x⌉ + 2 := by
      have : ((⌈y⌉ : ℤ) : ℝ) < ((⌈x⌉ + 2 : ℤ) : ℝ) := by push_cast; linarith
      exact Int.cast_lt.1 this
    rw [abs_le]; omega

private theorem quot_near {res o p : ℝ} (hres : 0 < res) (hp : |p - o| ≤ 2 ^ 50 * res) :
    |fl64 (fl64 (p - o) / res) - (p - o) / res| ≤ 1 := by
  obtain ⟨d, hd⟩ : ∃ d, d = fl64 (p - o) := ⟨_, rfl⟩
  have b9 : |d - (p - o)| ≤ (2 ^ 53)⁻¹ * |p - o| := by rw [hd]; exact rel _
  have b10 : (2 ^ 53)⁻¹ * |p - o| ≤ 1 / 4 * res := by norm_num at hp ⊢; linarith
  obtain ⟨b11, b12⟩ := abs_le.1 (le_trans b9 b10)
  obtain ⟨q, hq⟩ : ∃ q, q = fl64 (d / res) := ⟨_, rfl⟩
  have b13 : |q - d / res| ≤ (2 ^ 53)⁻¹ * |d / res| := by rw [hq]; exact rel _
  obtain ⟨p1, p2⟩ := abs_le.1 hp
  have b14 : (2 ^ 53)⁻¹ * |d / res| ≤ 1 / 4 := by
    have : |d / res| ≤ 2 ^ 51 := by
      rw [abs_div, abs_of_pos hres, div_le_iff₀ hres, abs_le]
      norm_num at *; constructor <;> linarith
    norm_num at this ⊢; linarith
  obtain ⟨b15, b16⟩ := abs_le.1 (le_trans b13 b14)
  have c1 : d / res - (p - o) / res = (d - (p - o)) / res := by ring
  have c2 : (d - (p - o)) / res ≤ 1 / 4 := by rw [div_le_iff₀ hres]; linarith
  have c3 : -(1 / 4) ≤ (d - (p - o)) / res := by rw [le_div_iff₀ hres]; linarith
  rw [← hd, ← hq, abs_le]
  constructor <;> linarith

/-- C120, partial: for every position at most 2^50 cells away from the origin, the row and the column computed with the
arithmetic of the program differ by at most one from those of the exact computation. -/
theorem C120_rounded_cell_near_partial {m : OccMap} (hres : 0 < m.resolution) {p : Pt}
    (hx : |p.x - m.worldGridOrigin.x| ≤ 2 ^ 50 * m.resolution) (hy : |p.y - m.worldGridOrigin.y| ≤ 2 ^ 50 * m.resolution) :
    |(m.worldPositionToGridCellF p false).row - (m.worldPositionToGridCell p false).row| ≤ 1 ∧
    |(m.worldPositionToGridCellF p false).col - (m.worldPositionToGridCell p false).col| ≤ 1 :=
  ⟨trunc_close (quot_near hres hx), trunc_close (quot_near hres hy)⟩

/-- C120: the number of rows and columns is the smallest that covers the requested size, up to one rounding of the size. -/
theorem C120_size_covered {m m' : OccMap} (hres : 0 < m.resolution) {width height : ℝ} (hw : 0 < width) (hh : 0 < height)
    (h : m.initializeSizeF width height = some m') :
    (1 - (2 ^ 24)⁻¹) * width ≤ m'.rows * m'.resolution ∧ (m'.rows - 1) * m'.resolution < (1 + (2 ^ 24)⁻¹) * width ∧
    (1 - (2 ^ 24)⁻¹) * height ≤ m'.columns * m'.resolution ∧
    (m'.columns - 1) * m'.resolution < (1 + (2 ^ 24)⁻¹) * height := by
  have key : ∀ w : ℝ, 0 < w → (1 - (2 ^ 24)⁻¹) * w ≤ ⌈fl32 (w / m.resolution)⌉ * m.resolution ∧
      (⌈fl32 (w / m.resolution)⌉ - 1) * m.resolution < (1 + (2 ^ 24)⁻¹) * w := by
    intro w hw
    have h1 : |fl32 (w / m.resolution) - w / m.resolution| ≤ (2 ^ 24)⁻¹ * |w / m.resolution| := rel _
    rw [abs_of_pos (div_pos hw hres)] at h1
    obtain ⟨h2, h3⟩ := abs_le.1 h1
    have h4 := Int.le_ceil (fl32 (w / m.resolution))
    have h5 := Int.ceil_lt_add_one (fl32 (w / m.resolution))
    have e : w = w / m.resolution * m.resolution := by field_simp
    constructor
    · conv_lhs => rw [e]
      rw [← mul_assoc]
      exact mul_le_mul_of_nonneg_right (by linarith) hres.le
    · conv_rhs => rw [e]
      rw [← mul_assoc]
      exact mul_lt_mul_of_pos_right (by linarith) hres
  unfold OccMap.initializeSizeF at h
  dsimp only at h
  split at h
  · cases h
    exact ⟨(key width hw).1, (key width hw).2, (key height hh).1, (key height hh).2⟩
  · cases h

/-- The `float` nearest to 0.1. -/
private theorem tenth : fl32 (1 / 10) = (13421773 : ℤ) * 2 ^ (-27 : ℤ) := by
  unfold fl32
  have hp : (0 : ℝ) < 1 / 10 := by norm_num
  refine fl_eq ?_ ?_ ?_
  · rw [abs_of_pos hp]; norm_num
  · rw [abs_of_pos hp]; norm_num
  · rw [abs_lt]; norm_num

private theorem rows_tenth : fl32 (10 / fl32 (1 / 10)) = 100 := by
  rw [tenth]
  have h : fl 24 ((10 : ℝ) / ((13421773 : ℤ) * 2 ^ (-27 : ℤ))) = (13107200 : ℤ) * 2 ^ (-17 : ℤ) := by
    have hp : (0 : ℝ) < 10 / ((13421773 : ℤ) * 2 ^ (-27 : ℤ)) := by norm_num
    refine fl_eq ?_ ?_ ?_
    · rw [abs_of_pos hp]; norm_num
    · rw [abs_of_pos hp]; norm_num
    · rw [abs_lt]; norm_num
  unfold fl32
  rw [h]; norm_num

private theorem half_ten : fl64 (-10 / 2) = -5 := by
  have := fl_int (p := 53) (by norm_num) (n := -5) (by norm_num)
  push_cast at this
  rw [show (-10 : ℝ) / 2 = -5 by norm_num]
  exact this

private theorem seven_back : truncInt (back (fl32 (1 / 10)) (-5) 7) = 6 := by
  have e1 : fl32 ((7 : ℤ) : ℝ) = (7 : ℤ) := fl_int (by norm_num) (by norm_num)
  have e2 : toGrid (fl32 (1 / 10)) 7 = (11744051 : ℤ) * 2 ^ (-24 : ℤ) := by
    unfold toGrid
    rw [e1, tenth]
    unfold fl32
    have hp : (0 : ℝ) < ((7 : ℤ) : ℝ) * ((13421773 : ℤ) * 2 ^ (-27 : ℤ)) := by norm_num
    refine fl_eq ?_ ?_ ?_
    · rw [abs_of_pos hp]; norm_num
    · rw [abs_of_pos hp]; norm_num
    · rw [abs_lt]; norm_num
  have e3 : fl64 (-5 + toGrid (fl32 (1 / 10)) 7) = (-72142029 : ℤ) * 2 ^ (-24 : ℤ) := by
    rw [e2]
    exact fl_repr (n := -72142029) (e := -24) (by norm_num) (by norm_num) (by norm_num)
      |>.trans (by norm_num)
  have e4 : fl64 (((-72142029 : ℤ) : ℝ) * 2 ^ (-24 : ℤ) - -5) = (11744051 : ℤ) * 2 ^ (-24 : ℤ) :=
    (congrArg fl64 (by norm_num)).trans (fl_repr (n := 11744051) (e := -24) (by norm_num) rfl (by norm_num))
  unfold back
  rw [e3, e4, tenth]
  obtain ⟨x, hx⟩ : ∃ x : ℝ, x = ((11744051 : ℤ) : ℝ) * 2 ^ (-24 : ℤ) / ((13421773 : ℤ) * 2 ^ (-27 : ℤ)) := ⟨_, rfl⟩
  have b1 : |fl64 x - x| ≤ (2 ^ 53)⁻¹ * |x| := rel _
  have b2 : (6 : ℝ) + 1 / 2 < x ∧ x < 7 - (2 ^ 25)⁻¹ := by rw [hx]; norm_num
  rw [abs_of_pos (show 0 < x by linarith)] at b1
  obtain ⟨b3, b4⟩ := abs_le.1 b1
  rw [← hx]
  refine trunc_eq ?_ ?_ ?_ <;> norm_num at b2 b3 b4 ⊢ <;> linarith

/-- The size of a map of 10 by 10 with the resolution 0.1f. -/
private theorem init_tenth (j j' : Pt) :
    (OccMap.new (fl32 (1 / 10)) j j').initializeSizeF 10 10 = some ⟨fl32 (1 / 10), 100, 100, ⟨0, 0⟩, ⟨-5, -5⟩, ⟨-5, -5⟩⟩ := by
  have h5 : fl64 (0 + -5) = -5 := by
    have := fl_int (p := 53) (by norm_num) (n := -5) (by norm_num)
    push_cast at this
    rw [zero_add]
    exact this
  have hr : ⌈fl32 (10 / fl32 (1 / 10))⌉ = 100 := by
    rw [rows_tenth]
    exact_mod_cast Int.ceil_intCast (100 : ℤ)
  unfold OccMap.initializeSizeF OccMap.new
  simp only [half_ten, h5, hr]
  norm_num

/-- C120, violation: on the map of 10 by 10 with the resolution 0.1f, the position of the cell (7, 7) lies in the cell
(6, 6) for the program. -/
theorem C120_tenth_resolution_fails (j j' : Pt) :
    ∃ m, (OccMap.new (fl32 (1 / 10)) j j').initializeSizeF 10 10 = some m ∧ m.isInsideCell ⟨7, 7⟩ = true ∧
      m.worldPositionToGridCellF (m.gridCellToWorldPositionF ⟨7, 7⟩) true = ⟨6, 6⟩ := by
  refine ⟨_, init_tenth j j', by simp [OccMap.isInsideCell], ?_⟩
  have e : OccMap.worldPositionToGridCellF ⟨fl32 (1 / 10), 100, 100, ⟨0, 0⟩, ⟨-5, -5⟩, ⟨-5, -5⟩⟩
      (OccMap.gridCellToWorldPositionF ⟨fl32 (1 / 10), 100, 100, ⟨0, 0⟩, ⟨-5, -5⟩, ⟨-5, -5⟩⟩ ⟨7, 7⟩) false = ⟨6, 6⟩ := by
    rw [world_back]
    simp only [seven_back]
  refine (bounded_eq _ _ ?_).trans e
  show OccMap.isInsideCell _ (OccMap.worldPositionToGridCellF _ (OccMap.gridCellToWorldPositionF _ _) false) = true
  rw [e]
  simp [OccMap.isInsideCell]

/-- The map of the violation meets the hypotheses of `C120_cell_or_lower_neighbour_partial`, and so does its cell (7, 7). -/
example : ∃ m, (OccMap.new (fl32 (1 / 10)) ⟨0, 0⟩ ⟨0, 0⟩).initializeSizeF 10 10 = some m ∧ 0 < m.resolution ∧
    IsFlt 53 m.worldGridOrigin.x ∧ IsFlt 53 m.worldGridOrigin.y ∧ |m.worldGridOrigin.x| ≤ 2 ^ 50 * m.resolution ∧
    |m.worldGridOrigin.y| ≤ 2 ^ 50 * m.resolution ∧ m.rows ≤ 2 ^ 23 ∧ m.columns ≤ 2 ^ 23 ∧
    m.isInsideCell ⟨7, 7⟩ = true := by
  have h5 : IsFlt 53 (-5) := by
    have := fl_int (p := 53) (by norm_num) (n := -5) (by norm_num)
    push_cast at this
    exact this
  refine ⟨_, init_tenth _ _, ?_, h5, h5, ?_, ?_, by norm_num, by norm_num, by simp [OccMap.isInsideCell]⟩
  · show 0 < fl32 (1 / 10); rw [tenth]; norm_num
  · show |(-5 : ℝ)| ≤ 2 ^ 50 * fl32 (1 / 10); rw [tenth]; norm_num
  · show |(-5 : ℝ)| ≤ 2 ^ 50 * fl32 (1 / 10); rw [tenth]; norm_num

/-- A map of 10 by 10 with the resolution 1/8 meets the hypotheses of `C120_power_of_two_partial`. -/
example : ∃ m, (OccMap.new (1 / 8) ⟨0, 0⟩ ⟨0, 0⟩).initializeSizeF 10 10 = some m ∧ m.resolution = 2 ^ (-3 : ℤ) ∧
    m.worldGridOrigin = ⟨((-80 : ℤ) : ℝ) * 2 ^ (-3 - 1 : ℤ), ((-80 : ℤ) : ℝ) * 2 ^ (-3 - 1 : ℤ)⟩ ∧ m.rows = 80 ∧
    m.isInsideCell ⟨7, 79⟩ = true := by
  have h5 : fl64 (0 + -5) = -5 := by
    have := fl_int (p := 53) (by norm_num) (n := -5) (by norm_num)
    push_cast at this
    rw [zero_add]
    exact this
  have hr : ⌈fl32 (10 / (1 / 8))⌉ = 80 := by
    have := fl_int (p := 24) (by norm_num) (n := 80) (by norm_num)
    push_cast at this
    rw [show (10 : ℝ) / (1 / 8) = 80 by norm_num]
    unfold fl32
    rw [this]
    exact_mod_cast Int.ceil_intCast (80 : ℤ)
  refine ⟨⟨1 / 8, 80, 80, ⟨0, 0⟩, ⟨-5, -5⟩, ⟨-5, -5⟩⟩, ?_, by norm_num, ?_, rfl, by simp [OccMap.isInsideCell]⟩
  · unfold OccMap.initializeSizeF OccMap.new
    simp only [half_ten, h5, hr]
    norm_num
  · norm_num

end PathPlanning
