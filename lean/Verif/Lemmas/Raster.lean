import Verif.Model.Raster
import Verif.Spec.Raster
import Verif.Lemmas.Grid
import Mathlib.Data.List.Range
import Mathlib.Tactic.Linarith
import Mathlib.Tactic.Ring

/-! # Bresenham invariant -/

namespace PathPlanning.Raster
open Spec

/-- One iteration of the loop on `(y, err)`. -/
def step (dx dy ystep : Int) (s : Int × Int) : Int × Int :=
  if s.2 - dy < 0 then (s.1 + ystep, s.2 - dy + dx) else (s.1, s.2 - dy)

/-- The state after `i` iterations. -/
def iter (dx dy ystep : Int) : Nat → Int × Int → Int × Int
  | 0, s => s
  | i + 1, s => iter dx dy ystep i (step dx dy ystep s)

theorem iter_succ' (dx dy ystep : Int) (i : Nat) (s : Int × Int) :
    iter dx dy ystep (i + 1) s = step dx dy ystep (iter dx dy ystep i s) := by
  induction i generalizing s with
  | zero => rfl
  | succ i ih => rw [iter, ih]; rfl

/-- The cell for abstract coordinates. -/
def mk (steep : Bool) (x y : Int) : Cell := if steep then ⟨y, x⟩ else ⟨x, y⟩

def inB (rows columns : Int) (c : Cell) : Bool :=
  c.row ≥ 0 && c.row < rows && c.col ≥ 0 && c.col < columns

theorem lineLoop_eq (rows columns : Int) (steep : Bool) (dx dy ystep : Int) :
    ∀ (k : Nat) (x y err : Int), lineLoop rows columns steep dx dy ystep k x y err =
      ((List.range k).map (fun i : Nat => mk steep (x + (i : Int)) (iter dx dy ystep i (y, err)).1)).filter
        (inB rows columns) := by
  intro k
  induction k with
  | zero => intro x y err; rfl
  | succ k ih =>
    intro x y err
    rw [List.range_succ_eq_map, List.map_cons, List.map_map, List.filter_cons]
    have hrest : (if err - dy < 0 then
          lineLoop rows columns steep dx dy ystep k (x + 1) (y + ystep) (err - dy + dx)
        else lineLoop rows columns steep dx dy ystep k (x + 1) y (err - dy)) =
        (List.map ((fun i : Nat => mk steep (x + (i : Int)) (iter dx dy ystep i (y, err)).1) ∘ Nat.succ)
          (List.range k)).filter (inB rows columns) := by
      have hf : ((fun i : Nat => mk steep (x + (i : Int)) (iter dx dy ystep i (y, err)).1) ∘ Nat.succ) =
          fun i : Nat => mk steep (x + 1 + (i : Int))
            (iter dx dy ystep i (step dx dy ystep (y, err))).1 := by
        funext i
        simp only [Function.comp, iter, Nat.succ_eq_add_one, Nat.cast_add, Nat.cast_one]
        congr 1; omega
      rw [hf]
      unfold step
      dsimp only
      split
      · rw [ih]
      · rw [ih]
    rw [lineLoop]
    rw [hrest]
    simp only [iter, Nat.cast_zero, add_zero]
    rfl

/-- The error term and the number of minor steps after `i` iterations. -/
theorem iter_inv {dx dy ystep y0 : Int} (hd : 0 ≤ dy) (hdx : dy ≤ dx) (hpos : 0 < dx) :
    ∀ i : Nat, ∃ m : Int, (iter dx dy ystep i (y0, dx / 2)).1 = y0 + ystep * m ∧
      (iter dx dy ystep i (y0, dx / 2)).2 = dx / 2 - i * dy + m * dx ∧
      0 ≤ (iter dx dy ystep i (y0, dx / 2)).2 ∧ (iter dx dy ystep i (y0, dx / 2)).2 < dx := by
  intro i
  induction i with
  | zero => exact ⟨0, by simp [iter], by simp [iter], by simp [iter]; omega, by simp [iter]; omega⟩
  | succ i ih =>
    obtain ⟨m, h1, h2, h3, h4⟩ := ih
    rw [iter_succ']
    obtain ⟨s, hs⟩ : ∃ s, s = iter dx dy ystep i (y0, dx / 2) := ⟨_, rfl⟩
    rw [← hs] at h1 h2 h3 h4 ⊢
    unfold step
    split
    · refine ⟨m + 1, ?_, ?_, ?_, ?_⟩
      · dsimp only; rw [h1]; ring
      · dsimp only; rw [h2]; push_cast; ring
      · dsimp only; omega
      · dsimp only; omega
    · refine ⟨m, h1, ?_, ?_, ?_⟩
      · dsimp only; rw [h2]; push_cast; ring
      · dsimp only; omega
      · dsimp only; omega

theorem iter_step (dx dy ystep : Int) (hs : ystep = 1 ∨ ystep = -1) (i : Nat) (s : Int × Int) :
    -1 ≤ (iter dx dy ystep (i + 1) s).1 - (iter dx dy ystep i s).1 ∧
    (iter dx dy ystep (i + 1) s).1 - (iter dx dy ystep i s).1 ≤ 1 := by
  rw [iter_succ']
  unfold step
  split <;> dsimp only <;> omega

/-- The minor coordinate stays within half a cell of the ideal line and between the end points. -/
theorem iter_near {dx y0 y1 : Int} (hdx : |y1 - y0| ≤ dx) (i : Nat) (hi : (i : Int) ≤ dx) :
    ∃ y, y = (iter dx |y1 - y0| (if y0 < y1 then 1 else -1) i (y0, dx / 2)).1 ∧
      2 * |dx * (y - y0) - (y1 - y0) * i| ≤ dx ∧ min y0 y1 ≤ y ∧ y ≤ max y0 y1 ∧
      ((i : Int) = dx → y = y1) := by
  refine ⟨_, rfl, ?_⟩
  have hd : 0 ≤ |y1 - y0| := abs_nonneg _
  rcases Int.lt_or_le 0 dx with hpos | hneg
  · obtain ⟨m, h1, h2, h3, h4⟩ := iter_inv (ystep := if y0 < y1 then 1 else -1) (y0 := y0)
      hd hdx hpos i
    rw [h1]
    rw [h2] at h3 h4
    obtain ⟨d, hdd⟩ : ∃ d, d = |y1 - y0| := ⟨_, rfl⟩
    rw [← hdd] at h1 h2 h3 h4 hd hdx
    have hb : 2 * |m * dx - i * d| ≤ dx := by
      have : |m * dx - i * d| ≤ dx / 2 := by
        rw [abs_le]; omega
      omega
    have hid : (i : Int) * d ≤ dx * d := Int.mul_le_mul_of_nonneg_right hi hd
    have hid0 : 0 ≤ (i : Int) * d := Int.mul_nonneg (Int.natCast_nonneg i) hd
    have hm0 : 0 ≤ m := by
      by_contra hc
      have : m * dx ≤ (-1) * dx := Int.mul_le_mul_of_nonneg_right (by omega) (le_of_lt hpos)
      omega
    have hm1 : m ≤ d := by
      by_contra hc
      have : (d + 1) * dx ≤ m * dx := Int.mul_le_mul_of_nonneg_right (by omega) (le_of_lt hpos)
      have e : (d + 1) * dx = dx * d + dx := by ring
      omega
    have hend : (i : Int) = dx → m = d := by
      intro he
      by_contra hc
      have : m * dx ≤ (d - 1) * dx := Int.mul_le_mul_of_nonneg_right (by omega) (le_of_lt hpos)
      have e : (d - 1) * dx = dx * d - dx := by ring
      have e2 : (i : Int) * d = dx * d := by rw [he]
      omega
    have habs := abs_eq_max_neg (a := y1 - y0)
    split
    · rename_i hlt
      have hdy : y1 - y0 = d := by omega
      refine ⟨?_, by omega, by omega, fun he => by have := hend he; omega⟩
      rw [hdy]
      have e : dx * (y0 + 1 * m - y0) - d * (i : Int) = m * dx - i * d := by ring
      rw [e]; exact hb
    · rename_i hlt
      have hdy : y1 - y0 = -d := by omega
      refine ⟨?_, by omega, by omega, fun he => by have := hend he; omega⟩
      rw [hdy]
      have e : dx * (y0 + -1 * m - y0) - -d * (i : Int) = -(m * dx - i * d) := by ring
      rw [e, abs_neg]; exact hb
  · have hi0 : i = 0 := by omega
    have hdx0 : dx = 0 := by omega
    subst hi0
    have habs := abs_eq_max_neg (a := y1 - y0)
    simp only [iter, hdx0]
    refine ⟨by simp, by omega, by omega, fun _ => by omega⟩

/-- The unclipped line. -/
def full (steep : Bool) (x0 y0 x1 y1 : Int) : List Cell :=
  (List.range (x1 - x0 + 1).toNat).map (fun i : Nat => mk steep (x0 + (i : Int))
    (iter (x1 - x0) |y1 - y0| (if y0 < y1 then 1 else -1) i (y0, (x1 - x0) / 2)).1)

theorem line_eq {rows columns : Int} {steep : Bool} {x0 y0 x1 y1 : Int} (h : x0 ≤ x1) :
    line rows columns steep x0 y0 x1 y1 = (full steep x0 y0 x1 y1).filter (inB rows columns) := by
  unfold line
  dsimp only
  rw [lineLoop_eq, Int.tdiv_eq_ediv_of_nonneg (by omega)]
  rfl

theorem mk_row_col (steep : Bool) (x y : Int) :
    ((mk steep x y).row = if steep then y else x) ∧ ((mk steep x y).col = if steep then x else y) := by
  cases steep <;> simp [mk]

/-- The unclipped line is a digital line. -/
theorem full_digital (steep : Bool) {x0 y0 x1 y1 : Int} (hx : x0 ≤ x1) (hy : |y1 - y0| ≤ x1 - x0) :
    DigitalLine (mk steep x0 y0) (mk steep x1 y1) (full steep x0 y0 x1 y1) := by
  have hch : chebyshev (mk steep x0 y0) (mk steep x1 y1) = x1 - x0 := by
    have h1 := abs_eq_max_neg (a := y1 - y0)
    have h2 := abs_eq_max_neg (a := y0 - y1)
    have h3 := abs_eq_max_neg (a := x0 - x1)
    cases steep <;> simp only [mk, chebyshev, if_true, Bool.false_eq_true, if_false] <;> omega
  obtain ⟨k, hk⟩ : ∃ k : Nat, (k : Int) = x1 - x0 := ⟨(x1 - x0).toNat, by omega⟩
  have hlen : (x1 - x0 + 1).toNat = k + 1 := by omega
  refine ⟨?_, ?_, ?_, ?_, ?_, ?_⟩
  · unfold full
    rw [hlen, List.range_succ_eq_map]
    simp [iter]
  · unfold full
    rw [hlen, List.range_succ, List.map_append]
    obtain ⟨y, he, _, _, _, hl⟩ := iter_near (dx := x1 - x0) (y0 := y0) (y1 := y1) hy k (by omega)
    simp only [List.map_cons, List.map_nil, List.getLast?_append, List.getLast?_singleton,
      Option.some_or]
    rw [← he, hl hk, hk]
    congr 2; omega
  · unfold full; simp only [List.length_map, List.length_range]; omega
  · unfold full
    rw [hlen, List.isChain_map, List.isChain_range_succ]
    intro i hi
    have h1 := iter_step (x1 - x0) |y1 - y0| (if y0 < y1 then 1 else -1) (by split <;> simp) i
      (y0, (x1 - x0) / 2)
    rw [chebyshev_eq_one, Nat.succ_eq_add_one]
    simp only [(mk_row_col _ _ _).1, (mk_row_col _ _ _).2]
    push_cast
    cases steep <;> simp only [if_true, Bool.false_eq_true, if_false] <;> omega
  · intro c hc
    unfold full at hc
    simp only [List.mem_map, List.mem_range] at hc
    obtain ⟨i, hi, rfl⟩ := hc
    obtain ⟨y, he, hn, _, _, _⟩ := iter_near (dx := x1 - x0) (y0 := y0) (y1 := y1) hy i (by omega)
    rw [← he, hch]
    have e : |cross (mk steep x0 y0) (mk steep x1 y1) (mk steep (x0 + i) y)| =
        |(x1 - x0) * (y - y0) - (y1 - y0) * (i : Int)| := by
      cases steep
      · simp only [mk, cross, Bool.false_eq_true, if_false]; congr 1; ring
      · simp only [mk, cross, if_true]
        rw [← abs_neg]; congr 1; ring
    rw [e]; exact hn
  · intro c hc
    unfold full at hc
    simp only [List.mem_map, List.mem_range] at hc
    obtain ⟨i, hi, rfl⟩ := hc
    obtain ⟨y, he, _, h1, h2, _⟩ := iter_near (dx := x1 - x0) (y0 := y0) (y1 := y1) hy i (by omega)
    rw [← he]
    simp only [(mk_row_col _ _ _).1, (mk_row_col _ _ _).2]
    cases steep <;> simp only [if_true, Bool.false_eq_true, if_false] <;> omega

/-- Shape of the rasterised line: along the dominant axis, the ends in increasing order. -/
theorem rasterCells_eq (rows columns : Int) (p0 p1 : Cell) :
    ∃ steep x0 y0 x1 y1, x0 ≤ x1 ∧ |y1 - y0| ≤ x1 - x0 ∧
      rasterCells rows columns p0 p1 = (full steep x0 y0 x1 y1).filter (inB rows columns) ∧
      ((p0 = mk steep x0 y0 ∧ p1 = mk steep x1 y1) ∨ (p1 = mk steep x0 y0 ∧ p0 = mk steep x1 y1)) ∧
      steep = decide (|p1.col - p0.col| > |p1.row - p0.row|) := by
  unfold rasterCells
  dsimp only
  have h1 := abs_eq_max_neg (a := p1.row - p0.row)
  have h2 := abs_eq_max_neg (a := p1.col - p0.col)
  have h3 := abs_eq_max_neg (a := p0.row - p1.row)
  have h4 := abs_eq_max_neg (a := p0.col - p1.col)
  cases hst : decide (|p1.col - p0.col| > |p1.row - p0.row|)
  · have hst' := of_decide_eq_false hst
    simp only [Bool.false_eq_true, if_false]
    unfold orderEnds
    split
    · refine ⟨false, p1.row, p1.col, p0.row, p0.col, by omega, by omega, line_eq (by omega),
        Or.inr ⟨rfl, rfl⟩, rfl⟩
    · refine ⟨false, p0.row, p0.col, p1.row, p1.col, by omega, by omega, line_eq (by omega),
        Or.inl ⟨rfl, rfl⟩, rfl⟩
  · have hst' := of_decide_eq_true hst
    simp only [if_true]
    unfold orderEnds
    split
    · refine ⟨true, p1.col, p1.row, p0.col, p0.row, by omega, by omega, line_eq (by omega),
        Or.inr ⟨rfl, rfl⟩, rfl⟩
    · refine ⟨true, p0.col, p0.row, p1.col, p1.row, by omega, by omega, line_eq (by omega),
        Or.inl ⟨rfl, rfl⟩, rfl⟩

end PathPlanning.Raster
