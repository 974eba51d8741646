import Verif.Model.MapInt
import Verif.Lemmas.FloatRel
import Verif.Props.GridStore

/-!
# C135: grids and cells of positions with 32 bit integers
-/

namespace PathPlanning
open Flt GridStore

private theorem ck_some {x : Int} (h : -2147483648 ≤ x ∧ x ≤ 2147483647) : ckInt x = some x := if_pos h

private theorem ck_none {x : Int} (h : ¬ (-2147483648 ≤ x ∧ x ≤ 2147483647)) : ckInt x = none := if_neg h

/-! ## Storage -/

private theorem newI_eq {T : Type} (r c : Int) (v : T) : newI r c v =
    if !(decide (r > 0) && decide (c > 0)) then some none
    else (ckInt (r * c)).bind fun n => some (some ⟨r, c, List.replicate n.toNat v⟩) := rfl

/-- C135: the constructor of a grid is undefined exactly if the number of cells is not an `int`. -/
theorem C135_grid_undefined_iff {T : Type} (r c : Int) (v : T) :
    newI r c v = none ↔ 0 < r ∧ 0 < c ∧ 2147483647 < r * c := by
  rw [newI_eq]
  split
  · rename_i h
    simp only [Bool.not_eq_true', Bool.and_eq_false_iff, decide_eq_false_iff_not] at h
    simp only [reduceCtorEq, false_iff]
    omega
  · rename_i h
    simp only [Bool.not_eq_true', Bool.and_eq_false_iff, decide_eq_false_iff_not, not_or, not_not] at h
    have h0 : 0 < r * c := Int.mul_pos h.1 h.2
    by_cases hk : r * c ≤ 2147483647
    · rw [ck_some ⟨by omega, hk⟩, Option.bind_some]
      simp only [reduceCtorEq, false_iff]
      omega
    · rw [ck_none (by omega), Option.bind_none]
      simp only [true_iff]
      omega

/-- C135: otherwise it throws or gives the grid that unbounded integers would give. -/
theorem C135_grid_new {T : Type} (r c : Int) (v : T) (h : newI r c v ≠ none) : newI r c v = some (GridStore.new r c v) := by
  have hk : ¬ (0 < r ∧ 0 < c ∧ 2147483647 < r * c) := fun hk => h ((C135_grid_undefined_iff r c v).2 hk)
  rw [newI_eq]
  unfold GridStore.new
  split
  · rfl
  · rename_i hd
    simp only [Bool.not_eq_true', Bool.and_eq_false_iff, decide_eq_false_iff_not, not_or, not_not] at hd
    have h0 : 0 < r * c := Int.mul_pos hd.1 hd.2
    rw [ck_some ⟨by omega, by omega⟩]
    rfl

private theorem row_some {T : Type} {g : GridStore T} (h : g.WF) (hi : g.rows * g.columns ≤ 2147483647) {i j : Int}
    (hb : InB g.rows g.columns i j) : g.rowI i = some (i * g.columns) := by
  obtain ⟨h1, h2, h3, h4⟩ := hb
  have h5 : 0 ≤ i * g.columns := Int.mul_nonneg h1 (by omega)
  have h6 : i * g.columns ≤ g.rows * g.columns := Int.mul_le_mul_of_nonneg_right (by omega) (by omega)
  unfold rowI
  rw [ck_some ⟨by omega, by omega⟩]
  unfold WF at h
  exact if_pos ⟨h5, by omega⟩

private theorem get_same {T : Type} {g : GridStore T} (h : g.WF) (hi : g.rows * g.columns ≤ 2147483647) {i j : Int}
    (hb : InB g.rows g.columns i j) : g.getI i j = g.get i j := by
  unfold getI
  rw [row_some h hi hb]
  rfl

private theorem set_same {T : Type} {g : GridStore T} (h : g.WF) (hi : g.rows * g.columns ≤ 2147483647) {i j : Int}
    (hb : InB g.rows g.columns i j) (v : T) : g.setI i j v = g.set i j v := by
  unfold setI
  rw [row_some h hi hb]
  rfl

private theorem writes_same {T : Type} : ∀ (l : List (Int × Int × T)) (g : GridStore T), g.WF →
    g.rows * g.columns ≤ 2147483647 → (∀ w ∈ l, InB g.rows g.columns w.1 w.2.1) →
    ∃ g', g.writesI l = some g' ∧ g.writes l = some g' ∧ g'.WF ∧ g'.rows = g.rows ∧ g'.columns = g.columns := by
  intro l
  induction l with
  | nil => intro g h _ _; exact ⟨g, rfl, rfl, h, rfl, rfl⟩
  | cons w l ih =>
    intro g h hi hl
    have hb := hl w (List.mem_cons_self ..)
    obtain ⟨g1, e1, e2, e3, e4, -⟩ := C63_set g h w.1 w.2.1 hb w.2.2
    obtain ⟨g2, f1, f2, f3, f4, f5⟩ := ih g1 e2 (by rw [e3, e4]; exact hi)
      (by rw [e3, e4]; exact fun x hx => hl x (List.mem_cons_of_mem _ hx))
    refine ⟨g2, ?_, ?_, f3, f4.trans e3, f5.trans e4⟩
    · show (w :: l).foldlM (fun g (w : Int × Int × T) => g.setI w.1 w.2.1 w.2.2) g = _
      rw [List.foldlM_cons, set_same h hi hb, e1]
      exact f1
    · show (w :: l).foldlM (fun g (w : Int × Int × T) => g.set w.1 w.2.1 w.2.2) g = _
      rw [List.foldlM_cons, e1]
      exact f2

/-- C135: no read or write of a cell of a grid overflows, whatever was written before, and a cell reads the last value
written to it. -/
theorem C135_grid_access {T : Type} (r c : Int) (v : T) (g : GridStore T) (hg : newI r c v = some (some g))
    (l : List (Int × Int × T)) (hl : ∀ w ∈ l, InB r c w.1 w.2.1) :
    ∃ g', g.writesI l = some g' ∧ ∀ i j, InB r c i j → g'.getI i j = some (lastWrite v l i j) := by
  have hne : newI r c v ≠ none := by rw [hg]; simp
  have hk : ¬ (0 < r ∧ 0 < c ∧ 2147483647 < r * c) := fun hk => hne ((C135_grid_undefined_iff r c v).2 hk)
  have hg' : GridStore.new r c v = some g := by
    have := C135_grid_new r c v hne
    rw [hg] at this
    exact (Option.some.inj this).symm
  obtain ⟨h1, h2, h3, -⟩ := (C63_new r c v).2 g hg'
  have hpos : 0 < r ∧ 0 < c := by
    by_contra hcon
    have := (C63_new r c v).1.2 (by omega)
    rw [hg'] at this
    cases this
  have hi : g.rows * g.columns ≤ 2147483647 := by rw [h1, h2]; omega
  obtain ⟨g', e1, e2, e3, e4, e5⟩ := writes_same l g h3 hi (by rw [h1, h2]; exact hl)
  obtain ⟨g'', f1, f2⟩ := C63_writes r c v g hg' l hl
  rw [e2] at f1
  cases f1
  refine ⟨g', e1, fun i j hb => ?_⟩
  rw [get_same e3 (by rw [e4, e5]; exact hi) (by rw [e4, e5, h1, h2]; exact hb)]
  exact f2 i j hb

/-! ## The size of a map -/

private theorem init_eq (m : OccMap) (width height : ℝ) (rows columns : Int) (hr : rows = ⌈fl32 (width / m.resolution)⌉)
    (hc : columns = ⌈fl32 (height / m.resolution)⌉) (h1 : 0 < rows) (h2 : 0 < columns) (h3 : rows * columns ≤ 2147483647) :
    ∃ m' g, m.initializeSizeI width height = some (some (m', g)) ∧ m.initializeSizeF width height = some m' ∧
      m'.rows = rows ∧ m'.columns = columns ∧ newI rows columns (-1) = some (some g) := by
  have k1 : rows ≤ rows * columns := le_mul_of_one_le_right h1.le h2
  have k2 : columns ≤ rows * columns := le_mul_of_one_le_left h2.le h1
  have hn : newI rows columns (-1 : Int) = some (some ⟨rows, columns, List.replicate (rows * columns).toNat (-1)⟩) := by
    rw [newI_eq, if_neg (by simp [h1, h2]), ck_some ⟨by omega, h3⟩]
    rfl
  refine ⟨{ m with
      localGridOrigin := ⟨fl64 (-width / 2), fl64 (-height / 2)⟩
      worldGridOrigin := ⟨fl64 (m.localOrigin.x + fl64 (-width / 2)), fl64 (m.localOrigin.y + fl64 (-height / 2))⟩
      rows := rows
      columns := columns }, _, ?_, ?_, rfl, rfl, hn⟩
  rotate_left
  · unfold OccMap.initializeSizeF
    dsimp only
    rw [← hr, ← hc, if_pos ⟨h1, h2⟩]
  · unfold OccMap.initializeSizeI
    rw [← hr, ← hc, ck_some ⟨by omega, by omega⟩, Option.bind_eq_bind, Option.bind_some, ck_some ⟨by omega, by omega⟩,
      Option.bind_eq_bind, Option.bind_some, hn]
    rfl

private theorem size_bounds {w res : ℝ} (hres : 0 < res) (hw : 0 < w) :
    0 < ⌈fl32 (w / res)⌉ ∧ (1 - (2 ^ 24)⁻¹) * (w / res) ≤ ⌈fl32 (w / res)⌉ ∧
      (⌈fl32 (w / res)⌉ : ℝ) < (1 + (2 ^ 24)⁻¹) * (w / res) + 1 := by
  have hq : 0 < w / res := div_pos hw hres
  have h := Rel.fl 24 hq.le
  have hp : 0 < fl32 (w / res) := lt_of_lt_of_le (mul_pos (by norm_num) hq) h.1
  have hu : fl32 (w / res) ≤ (1 + (2 ^ 24)⁻¹) * (w / res) := h.2
  exact ⟨Int.ceil_pos.2 hp, le_trans h.1 (Int.le_ceil _), lt_of_lt_of_le (Int.ceil_lt_add_one _) (by linarith)⟩

/-- C135: InitializeSize with positive sizes is undefined exactly if the number of cells is not an `int`; else it succeeds,
as with unbounded integers, and every cell of the new matrix can be accessed (`C135_grid_access`). -/
theorem C135_initialize_size (m : OccMap) (hres : 0 < m.resolution) (width height : ℝ) (hw : 0 < width) (hh : 0 < height) :
    (m.initializeSizeI width height = none ↔
      2147483647 < ⌈fl32 (width / m.resolution)⌉ * ⌈fl32 (height / m.resolution)⌉) ∧
    (m.initializeSizeI width height ≠ none → ∃ m' g, m.initializeSizeI width height = some (some (m', g)) ∧
      m.initializeSizeF width height = some m' ∧ newI m'.rows m'.columns (-1) = some (some g)) := by
  obtain ⟨r1, -, -⟩ := size_bounds hres hw
  obtain ⟨c1, -, -⟩ := size_bounds hres hh
  by_cases hk : ⌈fl32 (width / m.resolution)⌉ * ⌈fl32 (height / m.resolution)⌉ ≤ 2147483647
  · obtain ⟨m', g, h1, h2, h3, h4, h5⟩ := init_eq m width height _ _ rfl rfl r1 c1 hk
    refine ⟨?_, fun _ => ⟨m', g, h1, h2, by rw [h3, h4]; exact h5⟩⟩
    rw [h1]
    simp only [reduceCtorEq, false_iff]
    omega
  · have hn : m.initializeSizeI width height = none := by
      unfold OccMap.initializeSizeI
      by_cases a : ⌈fl32 (width / m.resolution)⌉ ≤ 2147483647
      · rw [ck_some ⟨by omega, a⟩, Option.bind_eq_bind, Option.bind_some]
        by_cases b : ⌈fl32 (height / m.resolution)⌉ ≤ 2147483647
        · rw [ck_some ⟨by omega, b⟩, Option.bind_eq_bind, Option.bind_some,
            (C135_grid_undefined_iff _ _ _).2 ⟨r1, c1, by omega⟩]
          rfl
        · rw [ck_none (by omega)]
          rfl
      · rw [ck_none (by omega)]
        rfl
    exact ⟨⟨fun _ => by omega, fun _ => hn⟩, fun h => absurd hn h⟩

/-- C135: a map of at most 46339 by 46339 cells can be created. -/
theorem C135_small_map (m : OccMap) (hres : 0 < m.resolution) (width height : ℝ) (hw : 0 < width) (hh : 0 < height)
    (hw' : width ≤ 46339 * m.resolution) (hh' : height ≤ 46339 * m.resolution) :
    ∃ m' g, m.initializeSizeI width height = some (some (m', g)) := by
  have key : ∀ w : ℝ, 0 < w → w ≤ 46339 * m.resolution → 0 < ⌈fl32 (w / m.resolution)⌉ ∧ ⌈fl32 (w / m.resolution)⌉ ≤ 46340 := by
    intro w h0 h1
    obtain ⟨a, -, b⟩ := size_bounds hres h0
    refine ⟨a, ?_⟩
    have : w / m.resolution ≤ 46339 := (div_le_iff₀ hres).2 h1
    have : (⌈fl32 (w / m.resolution)⌉ : ℝ) < 46341 := by norm_num at b ⊢; linarith
    have : ⌈fl32 (w / m.resolution)⌉ < 46341 := by exact_mod_cast this
    omega
  obtain ⟨a, b⟩ := key width hw hw'
  obtain ⟨c, d⟩ := key height hh hh'
  have hk : ⌈fl32 (width / m.resolution)⌉ * ⌈fl32 (height / m.resolution)⌉ ≤ 46340 * 46340 :=
    Int.mul_le_mul b d c.le (by norm_num)
  obtain ⟨m', g, h1, -⟩ := init_eq m width height _ _ rfl rfl a c (by omega)
  exact ⟨m', g, h1⟩

/-- C135: a map of more than 2^31 cells cannot. -/
theorem C135_large_map_undefined (m : OccMap) (hres : 0 < m.resolution) (width height : ℝ) (hw : 0 < width) (hh : 0 < height)
    (hk : 2 ^ 31 * (1 + (2 ^ 22)⁻¹) * m.resolution ^ 2 ≤ width * height) : m.initializeSizeI width height = none := by
  rw [(C135_initialize_size m hres width height hw hh).1]
  obtain ⟨a, b, -⟩ := size_bounds hres hw
  obtain ⟨c, d, -⟩ := size_bounds hres hh
  have hq : 2 ^ 31 * (1 + (2 ^ 22)⁻¹) ≤ width / m.resolution * (height / m.resolution) := by
    rw [div_mul_div_comm, le_div_iff₀ (by positivity), ← pow_two]
    exact hk
  have p1 : 0 < width / m.resolution := div_pos hw hres
  have p2 : 0 < height / m.resolution := div_pos hh hres
  have hm := mul_le_mul b d (mul_nonneg (by norm_num) p2.le) (by exact_mod_cast a.le)
  have : (2147483647 : ℝ) < (⌈fl32 (width / m.resolution)⌉ : ℝ) * ⌈fl32 (height / m.resolution)⌉ := by
    refine lt_of_lt_of_le ?_ hm
    have e : (1 - (2 ^ 24)⁻¹) * (width / m.resolution) * ((1 - (2 ^ 24)⁻¹) * (height / m.resolution)) =
        (1 - (2 ^ 24)⁻¹) ^ 2 * (width / m.resolution * (height / m.resolution)) := by ring
    rw [e]
    norm_num at hq ⊢
    linarith
  exact_mod_cast this

/-! ## The cell of a position -/

private theorem trunc_near {x : ℝ} (h : |x| < 2147483648) : -2147483648 ≤ truncInt x ∧ truncInt x ≤ 2147483647 := by
  obtain ⟨h1, h2⟩ := abs_lt.1 h
  unfold truncInt
  split
  · rename_i h0
    have a : 0 ≤ ⌊x⌋ := Int.floor_nonneg.2 h0
    have b : ⌊x⌋ < 2147483648 := Int.floor_lt.2 (by exact_mod_cast h2)
    omega
  · rename_i h0
    have a : -2147483648 ≤ ⌈x⌉ := by
      have := Int.le_ceil x
      have : (-2147483648 : ℝ) < ⌈x⌉ := lt_of_lt_of_le h1 this
      have : (-2147483648 : ℤ) < ⌈x⌉ := by exact_mod_cast this
      omega
    have b : ⌈x⌉ ≤ 0 := Int.ceil_le.2 (by push_cast; linarith)
    omega

private theorem trunc_far {x : ℝ} (h : 2147483649 ≤ |x|) : ¬ (-2147483648 ≤ truncInt x ∧ truncInt x ≤ 2147483647) := by
  unfold truncInt
  split
  · rename_i h0
    rw [abs_of_nonneg h0] at h
    have : (2147483649 : ℤ) ≤ ⌊x⌋ := Int.le_floor.2 (by exact_mod_cast h)
    omega
  · rename_i h0
    rw [abs_of_neg (not_le.1 h0)] at h
    have : ⌈x⌉ ≤ (-2147483649 : ℤ) := Int.ceil_le.2 (by push_cast; linarith)
    omega

private theorem abs_fl (x : ℝ) : |fl64 x| ≤ (1 + (2 ^ 53)⁻¹) * |x| ∧ (1 - (2 ^ 53)⁻¹) * |x| ≤ |fl64 x| := by
  have h1 := abs_le.1 (abs_abs_sub_abs_le (fl64 x) x)
  have h2 : |fl64 x - x| ≤ (2 ^ 53)⁻¹ * |x| := fl_rel 53 x
  constructor <;> linarith [h1.1, h1.2]

/-- The rounded quotient of a rounded difference. -/
private theorem quotient {res d : ℝ} (hres : 0 < res) :
    |fl64 (fl64 d / res)| ≤ (1 + (2 ^ 51)⁻¹) * (|d| / res) ∧ (1 - (2 ^ 51)⁻¹) * (|d| / res) ≤ |fl64 (fl64 d / res)| := by
  have a1 := abs_fl d
  have a2 := abs_fl (fl64 d / res)
  rw [abs_div, abs_of_pos hres] at a2
  have b1 : |fl64 d| / res ≤ (1 + (2 ^ 53)⁻¹) * (|d| / res) := by
    rw [← mul_div_assoc]; exact div_le_div_of_nonneg_right a1.1 hres.le
  have b2 : (1 - (2 ^ 53)⁻¹) * (|d| / res) ≤ |fl64 d| / res := by
    rw [← mul_div_assoc]; exact div_le_div_of_nonneg_right a1.2 hres.le
  have n : 0 ≤ |d| / res := div_nonneg (abs_nonneg _) hres.le
  constructor
  · refine le_trans a2.1 (le_trans (mul_le_mul_of_nonneg_left b1 (by norm_num)) ?_)
    norm_num
    linarith
  · refine le_trans ?_ (le_trans (mul_le_mul_of_nonneg_left b2 (by norm_num)) a2.2)
    norm_num
    linarith

private theorem near {res d : ℝ} (hres : 0 < res) (h : |d| ≤ 2147483647 * res) : |fl64 (fl64 d / res)| < 2147483648 := by
  have h1 : |d| / res ≤ 2147483647 := (div_le_iff₀ hres).2 h
  refine lt_of_le_of_lt (quotient hres).1 ?_
  norm_num
  linarith

private theorem far {res d : ℝ} (hres : 0 < res) (h : 2147483650 * res ≤ |d|) : 2147483649 ≤ |fl64 (fl64 d / res)| := by
  have h1 : 2147483650 ≤ |d| / res := (le_div_iff₀ hres).2 h
  refine le_trans ?_ (quotient hres).2
  norm_num
  linarith

private theorem cell_same (m : OccMap) (hres : 0 < m.resolution) (p : Pt) (bounded : Bool)
    (hx : |p.x - m.worldGridOrigin.x| ≤ 2147483647 * m.resolution)
    (hy : |p.y - m.worldGridOrigin.y| ≤ 2147483647 * m.resolution) :
    m.worldPositionToGridCellI p bounded = some (m.worldPositionToGridCellF p bounded) := by
  unfold OccMap.worldPositionToGridCellI OccMap.gridPositionToGridCellI OccMap.worldPositionToGridCellF
    OccMap.gridPositionToGridCellF
  dsimp only
  rw [ck_some (trunc_near (near hres hx)), Option.bind_eq_bind, Option.bind_some, ck_some (trunc_near (near hres hy)),
    Option.bind_some]
  split
  · rfl
  · split <;> rfl

private theorem cell_undefined (m : OccMap) (hres : 0 < m.resolution) (p : Pt) (bounded : Bool)
    (h : 2147483650 * m.resolution ≤ |p.x - m.worldGridOrigin.x| ∨ 2147483650 * m.resolution ≤ |p.y - m.worldGridOrigin.y|) :
    m.worldPositionToGridCellI p bounded = none := by
  unfold OccMap.worldPositionToGridCellI OccMap.gridPositionToGridCellI
  dsimp only
  rcases h with h | h
  · rw [ck_none (trunc_far (far hres h))]
    rfl
  · rw [ck_none (trunc_far (far hres h))]
    cases ckInt (truncInt (fl64 (fl64 (p.x - m.worldGridOrigin.x) / m.resolution))) <;> rfl

/-- C135: for a position up to 2147483647 cells away from the corner of the map, in either direction, the conversions to
`int` are defined: WorldPositionToGridCell and IsInsideMap answer as with unbounded integers. -/
theorem C135_cell_of_position_partial (m : OccMap) (hres : 0 < m.resolution) (p : Pt)
    (hx : |p.x - m.worldGridOrigin.x| ≤ 2147483647 * m.resolution)
    (hy : |p.y - m.worldGridOrigin.y| ≤ 2147483647 * m.resolution) :
    (∀ bounded, m.worldPositionToGridCellI p bounded = some (m.worldPositionToGridCellF p bounded)) ∧
    m.isInsidePosI p = some (m.isInsideCell (m.worldPositionToGridCellF p true)) := by
  refine ⟨fun b => cell_same m hres p b hx hy, ?_⟩
  unfold OccMap.isInsidePosI
  rw [cell_same m hres p true hx hy]
  rfl

/-- C135, violated: for a position three cells farther away WorldPositionToGridCell is undefined, and so are IsInsideMap,
which should be false, and IsStateValid, although the state is outside the bounds: the cell is computed first. -/
theorem C135_far_position_undefined (m : OccMap) (hres : 0 < m.resolution) (p : Pt)
    (h : 2147483650 * m.resolution ≤ |p.x - m.worldGridOrigin.x| ∨ 2147483650 * m.resolution ≤ |p.y - m.worldGridOrigin.y|) :
    (∀ bounded, m.worldPositionToGridCellI p bounded = none) ∧ m.isInsidePosI p = none ∧
    ∀ (v : Validator) (theta : ℝ), v.map = m → v.isStateValidI ⟨p, theta⟩ = none := by
  refine ⟨fun b => cell_undefined m hres p b h, ?_, ?_⟩
  · unfold OccMap.isInsidePosI
    rw [cell_undefined m hres p true h]
    rfl
  · rintro v theta rfl
    unfold Validator.isStateValidI
    dsimp only
    rw [cell_undefined v.map hres p true h]
    cases wrapThetaF theta <;> rfl

/-- C135: IsStateValid of a state up to 2147483647 cells away answers as with unbounded integers. -/
theorem C135_state_valid_partial (v : Validator) (hres : 0 < v.map.resolution) (s : PoseR)
    (hx : |s.position.x - v.map.worldGridOrigin.x| ≤ 2147483647 * v.map.resolution)
    (hy : |s.position.y - v.map.worldGridOrigin.y| ≤ 2147483647 * v.map.resolution) :
    v.isStateValidI s = v.isStateValidF s := by
  unfold Validator.isStateValidI Validator.isStateValidF
  rw [cell_same v.map hres s.position true hx hy]
  rfl

/-- C135: the cell of a position in the search of hybrid A* is defined for coordinates below 2^31 resolutions. -/
theorem C135_discretize_partial (res : ℝ) (hres : 0 < res) (p : Pt) (hx : |p.x| ≤ 2147483647 * res)
    (hy : |p.y| ≤ 2147483647 * res) :
    HybridAStar.discretizePositionI res p = some (truncInt (fl64 (p.x / res)), truncInt (fl64 (p.y / res))) := by
  have key : ∀ x : ℝ, |x| ≤ 2147483647 * res → |fl64 (x / res)| < 2147483648 := by
    intro x h
    have h1 : |x| / res ≤ 2147483647 := (div_le_iff₀ hres).2 h
    have h2 := (abs_fl (x / res)).1
    rw [abs_div, abs_of_pos hres] at h2
    refine lt_of_le_of_lt h2 ?_
    norm_num
    linarith
  unfold HybridAStar.discretizePositionI
  rw [ck_some (trunc_near (key _ hx)), Option.bind_eq_bind, Option.bind_some, ck_some (trunc_near (key _ hy))]
  rfl

/-- C135: and it is undefined for coordinates above. -/
theorem C135_discretize_far_undefined (res : ℝ) (hres : 0 < res) (p : Pt) (h : 2147483650 * res ≤ |p.x|) :
    HybridAStar.discretizePositionI res p = none := by
  have h1 : 2147483650 ≤ |p.x| / res := (le_div_iff₀ hres).2 h
  have h2 := (abs_fl (p.x / res)).2
  rw [abs_div, abs_of_pos hres] at h2
  unfold HybridAStar.discretizePositionI
  rw [ck_none (trunc_far (le_trans (by norm_num; linarith) h2))]
  rfl

/-! ## Non-vacuity -/

/-- Non-vacuity: a grid of two rows and three columns, with two writes to one cell. -/
example : ∃ g, newI 2 3 (0 : Int) = some (some g) ∧ ∃ g', g.writesI [(1, 2, 5), (1, 2, 7)] = some g' ∧ g'.getI 1 2 = some 7 :=
  ⟨_, rfl, _, rfl, rfl⟩

/-- A grid of 46341 by 46341 cells overflows. -/
example : newI 46341 46341 (0 : Int) = none := (C135_grid_undefined_iff _ _ _).2 (by norm_num)

/-- Non-vacuity: a map of 100 m by 50 m with cells of 0.5 m can be created, one of 100 km by 100 km with cells of 1 m not. -/
example : (∃ m' g, (OccMap.new (1 / 2) ⟨0, 0⟩ ⟨0, 0⟩).initializeSizeI 100 50 = some (some (m', g))) ∧
    (OccMap.new 1 ⟨0, 0⟩ ⟨0, 0⟩).initializeSizeI 100000 100000 = none :=
  ⟨C135_small_map _ (by norm_num [OccMap.new]) _ _ (by norm_num) (by norm_num) (by norm_num [OccMap.new])
    (by norm_num [OccMap.new]),
   C135_large_map_undefined _ (by norm_num [OccMap.new]) _ _ (by norm_num) (by norm_num) (by norm_num [OccMap.new])⟩

/-- Non-vacuity: in a map with cells of 0.1 m, positions up to 1000 km away are fine, one at 300000 km is not. -/
example : ((⟨1 / 10, 10, 10, ⟨0, 0⟩, ⟨0, 0⟩, ⟨0, 0⟩⟩ : OccMap).isInsidePosI ⟨1000000, 0⟩).isSome = true ∧
    (⟨1 / 10, 10, 10, ⟨0, 0⟩, ⟨0, 0⟩, ⟨0, 0⟩⟩ : OccMap).isInsidePosI ⟨300000000, 0⟩ = none := by
  constructor
  · rw [(C135_cell_of_position_partial _ (by norm_num) _ (by norm_num [abs_of_nonneg]) (by norm_num)).2]
    rfl
  · exact (C135_far_position_undefined _ (by norm_num) _ (.inl (by norm_num [abs_of_nonneg]))).2.1

end PathPlanning
