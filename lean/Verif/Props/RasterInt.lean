import Verif.Model.RasterInt
import Verif.Props.ShapeNear
import Verif.Props.Shape
import Mathlib.Tactic.Linarith
import Mathlib.Tactic.Ring
import Mathlib.Tactic.NormNum

/-! # C129: rasterisation with 32 bit integers -/

namespace PathPlanning

theorem ckInt_some {x : Int} (h1 : -2147483648 ≤ x) (h2 : x ≤ 2147483647) : ckInt x = some x := if_pos ⟨h1, h2⟩

theorem ckInt_none {x : Int} (h : x < -2147483648 ∨ 2147483647 < x) : ckInt x = none := if_neg (by omega)

private theorem ckInt_eq {x y : Int} (h : ckInt x = some y) : y = x := by
  unfold ckInt at h
  split at h
  · injection h with h; exact h.symm
  · cases h

namespace Raster
open Spec

/-- The loop does not overflow: in the `k` remaining iterations `y` makes at most `r` steps. -/
theorem lineLoopI_some (rows columns : Int) (steep : Bool) {dx dy ystep : Int} (hdy : 0 ≤ dy) (hd : dy ≤ dx)
    (hdx : dx ≤ 2147483647) (hys : ystep = 1 ∨ ystep = -1) :
    ∀ (k : Nat) (x y err r : Int), 0 ≤ err → err ≤ dx → 0 ≤ r → k * dy - err ≤ r * dx →
      -2147483648 ≤ y → y ≤ 2147483647 → -2147483648 ≤ y + ystep * r → y + ystep * r ≤ 2147483647 →
      -2147483648 ≤ x → x + k ≤ 2147483647 →
      lineLoopI rows columns steep dx dy ystep k x y err = some (lineLoop rows columns steep dx dy ystep k x y err) := by
  intro k
  induction k with
  | zero => intros; rfl
  | succ k ih =>
    intro x y err r he0 he1 hr hk hy0 hy1 hr0 hr1 hx0 hx1
    have hk' : ((k + 1 : Nat) : Int) * dy = k * dy + dy := by push_cast; ring
    rw [hk'] at hk
    push_cast at hx1
    unfold lineLoopI lineLoop
    simp only [Option.bind_eq_bind, Option.pure_def]
    rw [ckInt_some (x := err - dy) (by omega) (by omega)]
    simp only [Option.bind_some]
    have hkd : 0 ≤ (k : Int) * dy := mul_nonneg (by positivity) hdy
    by_cases hneg : err - dy < 0
    · have hr1' : 1 ≤ r := by
        by_contra hc
        have : r = 0 := by omega
        rw [this, zero_mul] at hk
        omega
      have hrd : (r - 1) * dx = r * dx - dx := by ring
      have hyr : y + ystep + ystep * (r - 1) = y + ystep * r := by ring
      rw [if_pos hneg, if_pos hneg, ckInt_some (x := y + ystep) (by rcases hys with rfl | rfl <;> omega)
        (by rcases hys with rfl | rfl <;> omega)]
      simp only [Option.bind_some]
      rw [ckInt_some (x := err - dy + dx) (by omega) (by omega)]
      simp only [Option.bind_some]
      rw [ckInt_some (x := x + 1) (by omega) (by omega)]
      simp only [Option.bind_some]
      rw [ih (x + 1) (y + ystep) (err - dy + dx) (r - 1) (by omega) (by omega) (by omega) (by rw [hrd]; omega)
        (by rcases hys with rfl | rfl <;> omega) (by rcases hys with rfl | rfl <;> omega)
        (by rw [hyr]; exact hr0) (by rw [hyr]; exact hr1) (by omega) (by omega)]
      rfl
    · rw [if_neg hneg, if_neg hneg, ckInt_some (x := x + 1) (by omega) (by omega)]
      simp only [Option.bind_some]
      rw [ih (x + 1) y (err - dy) r (by omega) (by omega) hr (by omega) hy0 hy1 hr0 hr1 (by omega) (by omega)]
      rfl

/-- Whatever the 32 bit loop computes is what the ideal loop computes. -/
theorem lineLoopI_exact (rows columns : Int) (steep : Bool) (dx dy ystep : Int) :
    ∀ (k : Nat) (x y err : Int) (l : List Cell), lineLoopI rows columns steep dx dy ystep k x y err = some l →
      lineLoop rows columns steep dx dy ystep k x y err = l := by
  intro k
  induction k with
  | zero => intro x y err l h; unfold lineLoopI at h; injection h
  | succ k ih =>
    intro x y err l h
    unfold lineLoopI at h
    unfold lineLoop
    simp only [Option.bind_eq_bind, Option.bind_eq_some_iff, Option.map_eq_some_iff] at h
    obtain ⟨e, he, rest, hrest, hl⟩ := h
    have he := ckInt_eq he
    subst he
    dsimp only
    by_cases hneg : err - dy < 0
    · rw [if_pos hneg] at hrest ⊢
      simp only [Option.bind_eq_some_iff] at hrest
      obtain ⟨y', hy', e', he', x', hx', hr⟩ := hrest
      have hy' := ckInt_eq hy'; have he' := ckInt_eq he'; have hx' := ckInt_eq hx'
      subst hy' he' hx'
      rw [ih _ _ _ _ hr]
      exact hl
    · rw [if_neg hneg] at hrest ⊢
      simp only [Option.bind_eq_some_iff] at hrest
      obtain ⟨x', hx', hr⟩ := hrest
      have hx' := ckInt_eq hx'
      subst hx'
      rw [ih _ _ _ _ hr]
      exact hl

/-- If the counter reaches the greatest `int`, its last increment overflows. -/
theorem lineLoopI_end (rows columns : Int) (steep : Bool) (dx dy ystep : Int) :
    ∀ (k : Nat) (x y err : Int), x + k = 2147483647 →
      lineLoopI rows columns steep dx dy ystep (k + 1) x y err = none := by
  intro k
  induction k with
  | zero =>
    intro x y err hx
    have hx : x = 2147483647 := by simpa using hx
    subst hx
    unfold lineLoopI
    simp only [Option.bind_eq_bind, Option.bind_eq_none_iff, Option.map_eq_none_iff]
    intro e _
    rw [Option.eq_none_iff_forall_ne_some]
    intro rest hrest
    split at hrest
    · simp only [Option.bind_eq_some_iff] at hrest
      obtain ⟨_, _, _, _, x', hx', -⟩ := hrest
      rw [ckInt_none (by norm_num)] at hx'
      cases hx'
    · simp only [Option.bind_eq_some_iff] at hrest
      obtain ⟨x', hx', -⟩ := hrest
      rw [ckInt_none (by norm_num)] at hx'
      cases hx'
  | succ k ih =>
    intro x y err hx
    push_cast at hx
    unfold lineLoopI
    simp only [Option.bind_eq_bind, Option.bind_eq_none_iff, Option.map_eq_none_iff]
    intro e _
    rw [Option.eq_none_iff_forall_ne_some]
    intro rest hrest
    split at hrest
    · simp only [Option.bind_eq_some_iff] at hrest
      obtain ⟨_, _, _, _, x', hx', h⟩ := hrest
      have hx' := ckInt_eq hx'
      subst hx'
      rw [ih _ _ _ (by omega)] at h
      cases h
    · simp only [Option.bind_eq_some_iff] at hrest
      obtain ⟨x', hx', h⟩ := hrest
      have hx' := ckInt_eq hx'
      subst hx'
      rw [ih _ _ _ (by omega)] at h
      cases h

private theorem tdiv_two {d : Int} (h : 0 ≤ d) : 0 ≤ d.tdiv 2 ∧ d.tdiv 2 ≤ d := by
  rw [Int.tdiv_eq_ediv_of_nonneg h]; omega

private theorem lineI_some (rows columns : Int) (steep : Bool) {x0 y0 x1 y1 : Int} (hx : x0 ≤ x1)
    (hd : |y1 - y0| ≤ x1 - x0) (hX : x1 - x0 ≤ 2147483647) (hx0 : -2147483648 ≤ x0) (hx1 : x1 < 2147483647)
    (hy0 : -2147483648 < y0) (hy0' : y0 < 2147483647) (hy1 : -2147483648 < y1) (hy1' : y1 < 2147483647) :
    lineI rows columns steep x0 y0 x1 y1 = some (line rows columns steep x0 y0 x1 y1) := by
  have hab := abs_nonneg (y1 - y0)
  have habs := abs_le.1 (le_refl |y1 - y0|)
  obtain ⟨h1, h2⟩ := tdiv_two (show 0 ≤ x1 - x0 by omega)
  unfold lineI absI line
  simp only [Option.bind_eq_bind]
  rw [ckInt_some (x := x1 - x0) (by omega) (by omega)]
  simp only [Option.bind_some]
  rw [ckInt_some (x := y1 - y0) (by omega) (by omega)]
  simp only [Option.bind_some]
  rw [ckInt_some (x := |y1 - y0|) (by omega) (by omega)]
  simp only [Option.bind_some]
  rw [ckInt_some (x := (x1 - x0).tdiv 2) (by omega) (by omega)]
  simp only [Option.bind_some]
  have hk : (((x1 - x0 + 1).toNat : Nat) : Int) = x1 - x0 + 1 := Int.toNat_of_nonneg (by omega)
  have hys : (if y0 < y1 then (1 : Int) else -1) = 1 ∨ (if y0 < y1 then (1 : Int) else -1) = -1 := by
    split <;> simp
  have hend : y0 + (if y0 < y1 then (1 : Int) else -1) * (|y1 - y0| + 1) = y1 + (if y0 < y1 then (1 : Int) else -1) := by
    split
    · rw [abs_of_nonneg (by omega)]; ring
    · rw [abs_of_nonpos (by omega)]; ring
  refine lineLoopI_some rows columns steep hab hd hX hys _ x0 y0 _ (|y1 - y0| + 1) h1 h2 (by omega) ?_ (by omega) (by omega)
    ?_ ?_ hx0 (by omega)
  · rw [hk]
    have e1 : (x1 - x0 + 1) * |y1 - y0| = |y1 - y0| * (x1 - x0) + |y1 - y0| := by ring
    have e2 : (|y1 - y0| + 1) * (x1 - x0) = |y1 - y0| * (x1 - x0) + (x1 - x0) := by ring
    rw [e1, e2]
    omega
  · rw [hend]; split <;> omega
  · rw [hend]; split <;> omega

private theorem lineI_exact {rows columns : Int} {steep : Bool} {x0 y0 x1 y1 : Int} {l : List Cell}
    (h : lineI rows columns steep x0 y0 x1 y1 = some l) : line rows columns steep x0 y0 x1 y1 = l := by
  unfold lineI absI at h
  simp only [Option.bind_eq_bind, Option.bind_eq_some_iff] at h
  obtain ⟨dx, hdx, dy', hdy', dy, hdy, e, he, h⟩ := h
  have hdx := ckInt_eq hdx; have hdy' := ckInt_eq hdy'; have hdy := ckInt_eq hdy; have he := ckInt_eq he
  subst hdx hdy' hdy he
  exact lineLoopI_exact _ _ _ _ _ _ _ _ _ _ _ h

/-- C129: whenever the 32 bit program rasterises a line without overflow, it yields exactly the cells of the ideal
program. -/
theorem C129_line_exact {rows columns : Int} {p0 p1 : Cell} {l : List Cell}
    (h : rasterCellsI rows columns p0 p1 = some l) : rasterCells rows columns p0 p1 = l := by
  unfold rasterCellsI absI at h
  simp only [Option.bind_eq_bind, Option.bind_eq_some_iff] at h
  obtain ⟨a', ha', a, ha, b', hb', b, hb, h⟩ := h
  have ha' := ckInt_eq ha'; have ha := ckInt_eq ha; have hb' := ckInt_eq hb'; have hb := ckInt_eq hb
  subst ha' ha hb' hb
  unfold rasterCells orderEnds
  unfold orderEndsI at h
  dsimp only
  split at h <;> split at h <;> simp_all only [if_true, if_false] <;> exact lineI_exact h

/-- C129: the line between two cells is rasterised without overflow if the differences of the rows and of the columns are
`int`s, and neither cell has a row or column next to the ends of the range of `int`. -/
theorem C129_line_no_overflow {rows columns : Int} {p0 p1 : Cell}
    (hr : |p1.row - p0.row| ≤ 2147483647) (hc : |p1.col - p0.col| ≤ 2147483647)
    (h0 : ∀ x ∈ [p0.row, p0.col, p1.row, p1.col], -2147483648 < x ∧ x < 2147483647) :
    rasterCellsI rows columns p0 p1 = some (rasterCells rows columns p0 p1) := by
  simp only [List.mem_cons, List.not_mem_nil, or_false, forall_eq_or_imp, forall_eq] at h0
  obtain ⟨⟨a1, a2⟩, ⟨b1, b2⟩, ⟨c1, c2⟩, d1, d2⟩ := h0
  have hr' := abs_le.1 hr
  have hc' := abs_le.1 hc
  have hr0 := abs_nonneg (p1.row - p0.row)
  have hc0 := abs_nonneg (p1.col - p0.col)
  unfold rasterCellsI absI rasterCells orderEnds orderEndsI
  simp only [Option.bind_eq_bind]
  rw [ckInt_some (x := p1.col - p0.col) (by omega) (by omega)]
  simp only [Option.bind_some]
  rw [ckInt_some (x := |p1.col - p0.col|) (by omega) (by omega)]
  simp only [Option.bind_some]
  rw [ckInt_some (x := p1.row - p0.row) (by omega) (by omega)]
  simp only [Option.bind_some]
  rw [ckInt_some (x := |p1.row - p0.row|) (by omega) (by omega)]
  simp only [Option.bind_some]
  have e1 := abs_sub_comm p1.row p0.row
  have e2 := abs_sub_comm p1.col p0.col
  by_cases hs : |p1.col - p0.col| > |p1.row - p0.row|
  · simp only [hs, decide_true, if_true]
    split
    · refine lineI_some rows columns true (by omega) ?_ (by omega) (by omega) (by omega) (by omega) (by omega) (by omega)
        (by omega)
      rw [abs_of_nonpos (show p1.col - p0.col ≤ 0 by omega)] at hs
      omega
    · refine lineI_some rows columns true (by omega) ?_ (by omega) (by omega) (by omega) (by omega) (by omega) (by omega)
        (by omega)
      rw [abs_of_nonneg (show 0 ≤ p1.col - p0.col by omega)] at hs
      omega
  · simp only [hs, decide_false, Bool.false_eq_true, if_false]
    split
    · refine lineI_some rows columns false (by omega) ?_ (by omega) (by omega) (by omega) (by omega) (by omega) (by omega)
        (by omega)
      rw [abs_of_nonpos (show p1.row - p0.row ≤ 0 by omega)] at hs
      omega
    · refine lineI_some rows columns false (by omega) ?_ (by omega) (by omega) (by omega) (by omega) (by omega) (by omega)
        (by omega)
      rw [abs_of_nonneg (show 0 ≤ p1.row - p0.row by omega)] at hs
      omega

/-- C129: a line that spans more rows or columns than an `int` can count overflows. -/
theorem C129_long_line_overflows {rows columns : Int} {p0 p1 : Cell}
    (h : 2147483647 < |p1.row - p0.row| ∨ 2147483647 < |p1.col - p0.col|) : rasterCellsI rows columns p0 p1 = none := by
  rw [Option.eq_none_iff_forall_ne_some]
  intro l hl
  unfold rasterCellsI absI at hl
  simp only [Option.bind_eq_bind, Option.bind_eq_some_iff] at hl
  obtain ⟨a', ha', a, ha, b', hb', b, hb, -⟩ := hl
  have ha' := ckInt_eq ha'; have hb' := ckInt_eq hb'
  subst ha' hb'
  rcases h with h | h
  · rw [ckInt_none (Or.inr h)] at hb; cases hb
  · rw [ckInt_none (Or.inr h)] at ha; cases ha

/-- C129: so does a line along a row that ends in the greatest column an `int` can hold: the counter of the loop is
incremented beyond it. -/
theorem C129_last_column_overflows {rows columns row c : Int} (h0 : 0 ≤ c) (h : c < 2147483647) :
    rasterCellsI rows columns ⟨row, c⟩ ⟨row, 2147483647⟩ = none := by
  rw [Option.eq_none_iff_forall_ne_some]
  intro l hl
  unfold rasterCellsI absI orderEndsI lineI at hl
  simp only [Option.bind_eq_bind, Option.bind_eq_some_iff, sub_self, abs_zero] at hl
  obtain ⟨a', ha', a, ha, b', hb', b, hb, hl⟩ := hl
  have ha' := ckInt_eq ha'; have ha := ckInt_eq ha; have hb' := ckInt_eq hb'; have hb := ckInt_eq hb
  subst ha' ha hb' hb
  rw [abs_zero, abs_of_nonneg (by omega : 0 ≤ 2147483647 - c), if_pos (by simp; omega), if_neg (by omega)] at hl
  simp only [Option.bind_eq_some_iff] at hl
  obtain ⟨_, _, _, _, _, _, _, _, hl⟩ := hl
  obtain ⟨k, hk⟩ : ∃ k : Nat, (k : Int) = 2147483647 - c := ⟨(2147483647 - c).toNat, Int.toNat_of_nonneg (by omega)⟩
  have e : (2147483647 - c + 1).toNat = k + 1 := by omega
  rw [e, lineLoopI_end _ _ _ _ _ _ _ _ _ _ (by omega)] at hl
  cases hl

end Raster

namespace Shape
open Spec

private theorem cellI_some {m : OccMap} {p : Pt} (hx : |(p.x - m.worldGridOrigin.x) / m.resolution| < 2 ^ 30)
    (hy : |(p.y - m.worldGridOrigin.y) / m.resolution| < 2 ^ 30) :
    cellI m p = some (m.worldPositionToGridCell p false) ∧
      ∀ x ∈ [(m.worldPositionToGridCell p false).row, (m.worldPositionToGridCell p false).col], -1073741824 < x ∧ x < 1073741824 := by
  have key : ∀ z : ℝ, |z| < 2 ^ 30 → -1073741824 < truncInt z ∧ truncInt z < 1073741824 := by
    intro z hz
    have hz := abs_lt.1 hz
    norm_num at hz
    unfold truncInt
    split
    · rename_i h0
      refine ⟨?_, ?_⟩
      · have := Int.floor_nonneg.mpr h0; omega
      · rw [Int.floor_lt]; push_cast; exact hz.2
    · rename_i h0
      push Not at h0
      refine ⟨?_, ?_⟩
      · rw [Int.lt_ceil]; push_cast; exact hz.1
      · have : ⌈z⌉ ≤ 0 := Int.ceil_le.mpr (by push_cast; exact h0.le)
        omega
  have h1 := key _ hx
  have h2 := key _ hy
  have e : m.worldPositionToGridCell p false = ⟨truncInt ((p.x - m.worldGridOrigin.x) / m.resolution),
      truncInt ((p.y - m.worldGridOrigin.y) / m.resolution)⟩ := rfl
  unfold cellI
  rw [e]
  dsimp only
  simp only [Option.bind_eq_bind]
  rw [ckInt_some (by omega) (by omega), ckInt_some (by omega) (by omega)]
  refine ⟨rfl, ?_⟩
  simp only [List.mem_cons, List.not_mem_nil, or_false, forall_eq_or_imp, forall_eq]
  exact ⟨h1, h2⟩

private theorem cellI_exact {m : OccMap} {p : Pt} {c : Cell} (h : cellI m p = some c) :
    c = m.worldPositionToGridCell p false := by
  unfold cellI at h
  simp only [Option.bind_eq_bind, Option.bind_eq_some_iff] at h
  obtain ⟨r, hr, k, hk, h⟩ := h
  have hr := ckInt_eq hr; have hk := ckInt_eq hk
  subst hr hk
  injection h with h
  exact h.symm

private theorem cellI_none {m : OccMap} {p : Pt} (h : 2 ^ 31 + 1 ≤ |(p.x - m.worldGridOrigin.x) / m.resolution| ∨
    2 ^ 31 + 1 ≤ |(p.y - m.worldGridOrigin.y) / m.resolution|) : cellI m p = none := by
  have key : ∀ z : ℝ, 2 ^ 31 + 1 ≤ |z| → truncInt z < -2147483648 ∨ 2147483647 < truncInt z := by
    intro z hz
    norm_num at hz
    unfold truncInt
    split
    · rename_i h0
      rw [abs_of_nonneg h0] at hz
      have : (2147483649 : Int) ≤ ⌊z⌋ := Int.le_floor.mpr (by push_cast; exact hz)
      omega
    · rename_i h0
      push Not at h0
      rw [abs_of_neg h0] at hz
      have : ⌈z⌉ ≤ (-2147483649 : Int) := Int.ceil_le.mpr (by push_cast; linarith)
      omega
  have e : m.worldPositionToGridCell p false = ⟨truncInt ((p.x - m.worldGridOrigin.x) / m.resolution),
      truncInt ((p.y - m.worldGridOrigin.y) / m.resolution)⟩ := rfl
  unfold cellI
  rw [e]
  dsimp only
  simp only [Option.bind_eq_bind]
  rcases h with h | h
  · rw [ckInt_none (key _ h)]; rfl
  · rw [ckInt_none (key _ h)]
    cases ckInt _ <;> rfl

private theorem rasterizeLineI_exact {m : OccMap} {a b : Pt} {l : List Cell} (h : rasterizeLineI m a b = some l) :
    rasterizeLine m a b = l := by
  unfold rasterizeLineI at h
  simp only [Option.bind_eq_bind, Option.bind_eq_some_iff] at h
  obtain ⟨c0, h0, c1, h1, h⟩ := h
  rw [cellI_exact h0, cellI_exact h1] at h
  exact Raster.C129_line_exact h

private theorem rasterizeLineI_some {m : OccMap} {a b : Pt}
    (ha : |(a.x - m.worldGridOrigin.x) / m.resolution| < 2 ^ 30 ∧ |(a.y - m.worldGridOrigin.y) / m.resolution| < 2 ^ 30)
    (hb : |(b.x - m.worldGridOrigin.x) / m.resolution| < 2 ^ 30 ∧ |(b.y - m.worldGridOrigin.y) / m.resolution| < 2 ^ 30) :
    rasterizeLineI m a b = some (rasterizeLine m a b) := by
  obtain ⟨h1, h2⟩ := cellI_some ha.1 ha.2
  obtain ⟨h3, h4⟩ := cellI_some hb.1 hb.2
  unfold rasterizeLineI rasterizeLine
  rw [h1, h3]
  simp only [Option.bind_eq_bind, Option.bind_some]
  simp only [List.mem_cons, List.not_mem_nil, or_false, forall_eq_or_imp, forall_eq] at h2 h4
  refine Raster.C129_line_no_overflow (abs_le.2 ⟨by omega, by omega⟩) (abs_le.2 ⟨by omega, by omega⟩) ?_
  simp only [List.mem_cons, List.not_mem_nil, or_false, forall_eq_or_imp, forall_eq]
  omega

private theorem edgeLoopI_exact {m : OccMap} {vs : List Pt} : ∀ (is : List Nat) {l : List Cell},
    edgeLoopI m vs is = some l → edgeLoop m vs is = some l := by
  intro is
  induction is with
  | nil => intro l h; exact h
  | cons i is ih =>
    intro l h
    unfold edgeLoopI at h
    unfold edgeLoop
    simp only [Option.bind_eq_bind, Option.bind_eq_some_iff] at h ⊢
    obtain ⟨a, ha, b, hb, cells, hcells, rest, hrest, h⟩ := h
    refine ⟨a, ha, b, hb, rest, ih hrest, ?_⟩
    rw [rasterizeLineI_exact hcells]; exact h

private theorem edgeLoopI_some {m : OccMap} {vs : List Pt}
    (hv : ∀ p ∈ vs, |(p.x - m.worldGridOrigin.x) / m.resolution| < 2 ^ 30 ∧
      |(p.y - m.worldGridOrigin.y) / m.resolution| < 2 ^ 30) : ∀ is : List Nat,
    edgeLoopI m vs is = edgeLoop m vs is := by
  intro is
  induction is with
  | nil => rfl
  | cons i is ih =>
    unfold edgeLoopI edgeLoop
    rw [ih]
    cases ha : vs[i % vs.length]? with
    | none => rfl
    | some a =>
      cases hb : vs[(i + 1) % vs.length]? with
      | none => rfl
      | some b =>
        simp only [Option.bind_eq_bind, Option.bind_some]
        rw [rasterizeLineI_some (hv a (List.mem_of_getElem? ha)) (hv b (List.mem_of_getElem? hb))]
        rfl

/-- C129: whenever the 32 bit program computes the cells of an obstacle without overflow, they are those of the ideal
program. -/
theorem C129_cells_exact (m : OccMap) (pose : PoseR) (s : Shape) (l : List Cell) (h : gridCellsI m pose s = some l) :
    gridCells m pose s = some l := by
  induction s using Shape.rec (motive_2 := fun children => ∀ l : List Cell,
    gridCellsListI m pose children = some l → gridCellsList m pose children = some l) generalizing l with
  | polygon vs =>
    rw [gridCellsI] at h
    rw [gridCells]
    exact edgeLoopI_exact _ h
  | composite children ih =>
    rw [gridCellsI] at h
    rw [gridCells]
    exact ih l h
  | nil => rename_i l h; rw [gridCellsListI] at h; rw [gridCellsList]; exact h
  | cons s ss ih1 ih2 =>
    rename_i l h
    rw [gridCellsListI] at h
    rw [gridCellsList]
    simp only [Option.bind_eq_bind, Option.bind_eq_some_iff] at h ⊢
    obtain ⟨a, ha, b, hb, h⟩ := h
    exact ⟨a, ih1 a ha, b, ih2 b hb, h⟩

/-- C129: the cells of an obstacle are computed without overflow, and exactly, if each of its corners is less than `2³⁰`
cells away from the corner of the map, along both axes. The obstacle need not be inside the map. -/
theorem C129_no_overflow (m : OccMap) (pose : PoseR) (s : Shape)
    (h : ∀ p, IsCorner pose s p → |(p.x - m.worldGridOrigin.x) / m.resolution| < 2 ^ 30 ∧
      |(p.y - m.worldGridOrigin.y) / m.resolution| < 2 ^ 30) :
    ∃ l, gridCellsI m pose s = some l ∧ gridCells m pose s = some l := by
  have key : gridCellsI m pose s = gridCells m pose s := by
    induction s using Shape.rec (motive_2 := fun children =>
      (∀ s ∈ children, ∀ p, IsCorner pose s p → |(p.x - m.worldGridOrigin.x) / m.resolution| < 2 ^ 30 ∧
        |(p.y - m.worldGridOrigin.y) / m.resolution| < 2 ^ 30) →
      gridCellsListI m pose children = gridCellsList m pose children) with
    | polygon vs =>
      rw [gridCellsI, gridCells]
      refine edgeLoopI_some (fun p hp => ?_) _
      obtain ⟨u, hu, rfl⟩ := List.mem_map.mp hp
      exact h _ (.corner hu)
    | composite children ih =>
      rw [gridCellsI, gridCells]
      exact ih fun s hs p hp => h p (.part hs hp)
    | nil => rw [gridCellsListI, gridCellsList]
    | cons s ss ih1 ih2 =>
      rename_i h
      rw [gridCellsListI, gridCellsList, ih1 (h s (List.mem_cons_self ..)),
        ih2 fun s' hs => h s' (List.mem_cons_of_mem _ hs)]
  obtain ⟨l, hl⟩ := Option.isSome_iff_exists.mp (gridCells_total m pose s)
  exact ⟨l, by rw [key]; exact hl, hl⟩

/-- C129: the cells of an obstacle with a corner more than `2³¹` cells away from the corner of the map, along one of the
axes, are undefined: the conversion to `int` is out of range. -/
theorem C129_far_corner_undefined (m : OccMap) (pose : PoseR) (s : Shape) (p : Pt) (hp : IsCorner pose s p)
    (h : 2 ^ 31 + 1 ≤ |(p.x - m.worldGridOrigin.x) / m.resolution| ∨
      2 ^ 31 + 1 ≤ |(p.y - m.worldGridOrigin.y) / m.resolution|) : gridCellsI m pose s = none := by
  induction hp with
  | @corner vs u hu =>
    rw [gridCellsI]
    obtain ⟨i, hi⟩ := List.getElem?_of_mem (List.mem_map_of_mem (f := place pose) hu)
    have hlt : i < vs.length := by
      by_contra hc
      rw [List.getElem?_eq_none (by rw [List.length_map]; omega)] at hi
      cases hi
    have key : ∀ is : List Nat, i ∈ is → edgeLoopI m (vs.map (place pose)) is = none := by
      intro is his
      induction is with
      | nil => cases his
      | cons j js ih =>
        rw [Option.eq_none_iff_forall_ne_some]
        intro l hl
        unfold edgeLoopI rasterizeLineI at hl
        simp only [Option.bind_eq_bind, Option.bind_eq_some_iff] at hl
        obtain ⟨a, ha, b, hb, cells, ⟨c0, hc0, -⟩, rest, hrest, -⟩ := hl
        rcases List.mem_cons.mp his with rfl | his
        · rw [Nat.mod_eq_of_lt (by rw [List.length_map]; exact hlt), hi] at ha
          injection ha with ha
          subst ha
          rw [cellI_none h] at hc0
          cases hc0
        · rw [ih his] at hrest; cases hrest
    exact key _ (List.mem_range.mpr hlt)
  | @part children s p hs _ ih =>
    rw [gridCellsI]
    have key : ∀ cs : List Shape, s ∈ cs → gridCellsListI m pose cs = none := by
      intro cs hcs
      induction cs with
      | nil => cases hcs
      | cons c cs ih2 =>
        rw [gridCellsListI]
        rw [Option.eq_none_iff_forall_ne_some]
        intro l hl
        simp only [Option.bind_eq_bind, Option.bind_eq_some_iff] at hl
        obtain ⟨a, ha, b, hb, -⟩ := hl
        rcases List.mem_cons.mp hcs with rfl | hcs
        · rw [ih h] at ha; cases ha
        · rw [ih2 hcs] at hb; cases hb
    exact key _ hs

/-! ## Examples -/

/-- The line from (0, -3) to (1000000, 5) on a 10 × 10 map: the first cells are clipped, the rest of the line is outside. -/
example : Raster.rasterCellsI 10 10 ⟨0, -3⟩ ⟨1000000, 5⟩ = some (Raster.rasterCells 10 10 ⟨0, -3⟩ ⟨1000000, 5⟩) :=
  Raster.C129_line_no_overflow (by norm_num) (by norm_num) (by decide)

example : Raster.rasterCellsI 10 10 ⟨2, 3⟩ ⟨4, 7⟩ = some [⟨2, 3⟩, ⟨2, 4⟩, ⟨3, 5⟩, ⟨3, 6⟩, ⟨4, 7⟩] := by decide +kernel

/-- Two cells whose rows and columns are `int`s, but not the difference of their rows. -/
example : Raster.rasterCellsI 10 10 ⟨-1073741825, 0⟩ ⟨1073741823, 5⟩ = none :=
  Raster.C129_long_line_overflows (Or.inl (by norm_num))

/-- A triangle that reaches out of the map. -/
example (m : OccMap) (h0 : m.worldGridOrigin = ⟨0, 0⟩) (h1 : m.resolution = 1) :
    ∃ l, gridCellsI m ⟨⟨0, 0⟩, 0⟩ (.polygon [⟨1, 1⟩, ⟨500000, 3⟩, ⟨2, 5⟩]) = some l ∧
      gridCells m ⟨⟨0, 0⟩, 0⟩ (.polygon [⟨1, 1⟩, ⟨500000, 3⟩, ⟨2, 5⟩]) = some l := by
  refine C129_no_overflow m _ _ fun p hp => ?_
  cases hp with
  | corner hu =>
    simp only [List.mem_cons, List.not_mem_nil, or_false] at hu
    rw [h0, h1]
    rcases hu with rfl | rfl | rfl <;> simp [place] <;> norm_num [abs_of_pos]

end Shape
end PathPlanning
