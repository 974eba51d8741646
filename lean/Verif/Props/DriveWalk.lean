import Verif.Props.PlanOutside
import Verif.Props.Grid
import Verif.Props.ObstHeuristic

/-!
# C183: where the vehicle can drive there is a walk over free cells

The motions that hybrid A* has checked are followed from cell to cell. A motion may leave the map between two checked
states (by less than the interpolation step); its cells are moved to the border of the map then.
-/

namespace PathPlanning
open Real Spec HybridAStar HybridAStar.Propagator Validator ObstHeuristic

namespace DriveWalk

noncomputable def raw (o r x : ℝ) : ℤ := truncInt ((x - o) / r)

private theorem raw_close {o r x y : ℝ} (hr : 0 < r) : |((raw o r x - raw o r y : ℤ) : ℝ)| * r ≤ |x - y| + r := by
  obtain ⟨a, ha⟩ : ∃ a, a = (x - o) / r := ⟨_, rfl⟩
  obtain ⟨b, hb⟩ : ∃ b, b = (y - o) / r := ⟨_, rfl⟩
  have e : |x - y| = |a - b| * r := by
    rw [ha, hb, ← sub_div, abs_div, abs_of_pos hr, div_mul_cancel₀ _ hr.ne']
    congr 1
    ring
  have key : |((truncInt a - truncInt b : ℤ) : ℝ)| ≤ |a - b| + 1 := by
    have a1 := Int.floor_le a
    have a2 := Int.lt_floor_add_one a
    have a3 := Int.floor_le b
    have a4 := Int.lt_floor_add_one b
    have c1 := Int.le_ceil a
    have c2 := Int.ceil_lt_add_one a
    have c3 := Int.le_ceil b
    have c4 := Int.ceil_lt_add_one b
    have h1 := le_abs_self (a - b)
    have h2 := neg_abs_le (a - b)
    have h3 := abs_nonneg (a - b)
    have f : ∀ x : ℝ, 0 ≤ x → (0 : ℝ) ≤ (⌊x⌋ : ℤ) := fun x h => by exact_mod_cast Int.floor_nonneg.2 h
    have g : ∀ x : ℝ, ¬ 0 ≤ x → ((⌈x⌉ : ℤ) : ℝ) ≤ 0 := fun x h => by
      exact_mod_cast Int.ceil_le.2 (by push_cast; linarith)
    rw [abs_le]
    unfold truncInt
    push_cast
    constructor <;> split <;> split <;> rename_i p q <;>
      first | linarith | linarith [f a p, g b q] | linarith [g a p, f b q]
  unfold raw
  rw [← ha, ← hb, e]
  nlinarith

theorem walkAppend {m : GridMap} {a b c : Cell} {l k : List Cell} (h : Walk m a l b) (h' : Walk m b k c) :
    Walk m a (l ++ k.tail) c := by
  induction h with
  | stop a =>
    cases h' with
    | stop => exact .stop _
    | move hm hw => exact .move hm hw
  | move hm _ ih => exact .move hm (ih h')

theorem walkPos {m : GridMap} {a b : Cell} {l : List Cell} (h : Walk m a l b) : 1 ≤ l.length := by
  cases h <;> simp

private theorem walkCost_le {m : GridMap} {a b : Cell} {l : List Cell} (h : Walk m a l b) :
    walkCost (moveLength √2) l ≤ √2 * (l.length - 1) := by
  induction h with
  | stop => simp [walkCost]
  | @move x y z l h1 h2 ih =>
    have e : walkCost (moveLength √2) (x :: l) = moveLength √2 x y + walkCost (moveLength √2) l := by
      cases h2 <;> rfl
    have : moveLength √2 x y ≤ √2 := by
      unfold moveLength
      split
      · exact le_rfl
      · exact Real.one_le_sqrt.2 (by norm_num)
    rw [e, List.length_cons]
    push_cast
    linarith

private theorem raw_step {o r x y : ℝ} (hr : 0 < r) (h : |x - y| < r) : |raw o r x - raw o r y| ≤ 1 := by
  have h1 := raw_close (o := o) (x := x) (y := y) hr
  have h2 : |((raw o r x - raw o r y : ℤ) : ℝ)| < 2 := by
    by_contra hc
    rw [not_lt] at hc
    nlinarith
  have h3 : |raw o r x - raw o r y| < 2 := by exact_mod_cast h2
  omega

def clamp (n z : ℤ) : ℤ := max 0 (min (n - 1) z)

private theorem clamp_in {n : ℤ} (hn : 0 < n) (z : ℤ) : 0 ≤ clamp n z ∧ clamp n z < n := by unfold clamp; omega

private theorem clamp_id {n z : ℤ} (h0 : 0 ≤ z) (h1 : z < n) : clamp n z = z := by unfold clamp; omega

private theorem clamp_close (n z w : ℤ) : |clamp n z - clamp n w| ≤ |z - w| := by
  unfold clamp
  rcases abs_cases (max 0 (min (n - 1) z) - max 0 (min (n - 1) w)) with ⟨e, _⟩ | ⟨e, _⟩ <;>
  rcases abs_cases (z - w) with ⟨e', _⟩ | ⟨e', _⟩ <;> omega

/-- The cell of a position, moved to the border of the map if the position is outside. -/
noncomputable def cellOf (m : OccMap) (p : Pt) : Cell :=
  ⟨clamp m.rows (raw m.worldGridOrigin.x m.resolution p.x), clamp m.columns (raw m.worldGridOrigin.y m.resolution p.y)⟩

private theorem raw_cell {m : OccMap} {p : Pt} (h : m.isInsidePos p = true) :
    m.worldPositionToGridCell p true =
      ⟨raw m.worldGridOrigin.x m.resolution p.x, raw m.worldGridOrigin.y m.resolution p.y⟩ := by
  have hc := inRect_of_inside h
  unfold OccMap.worldPositionToGridCell OccMap.gridPositionToGridCell at hc ⊢
  simp only [Bool.not_true, Bool.false_eq_true, if_false] at hc ⊢
  split
  · rfl
  · rename_i hn
    rw [if_neg hn] at hc
    unfold InRect at hc
    dsimp only at hc
    omega

theorem cellOf_inside {m : OccMap} {p : Pt} (h : m.isInsidePos p = true) :
    cellOf m p = m.worldPositionToGridCell p true := by
  have hc := inRect_of_inside h
  rw [raw_cell h] at hc ⊢
  obtain ⟨h1, h2, h3, h4⟩ := hc
  unfold cellOf
  rw [clamp_id h1 h2, clamp_id h3 h4]

/-- Cells are no further apart than the positions, up to a diagonal. -/
private theorem cells_close {m : OccMap} (hres : 0 < m.resolution) (p q : Pt) :
    √((sqDist (cellOf m p) (cellOf m q) : Int) : ℝ) * m.resolution ≤ euclid p q + √2 * m.resolution := by
  have key : ∀ n o x y, |((clamp n (raw o m.resolution x) - clamp n (raw o m.resolution y) : ℤ) : ℝ)| * m.resolution ≤
      |x - y| + m.resolution := by
    intro n o x y
    refine le_trans (mul_le_mul_of_nonneg_right ?_ hres.le) (raw_close (o := o) hres)
    exact_mod_cast clamp_close n _ _
  have h1 := key m.rows m.worldGridOrigin.x p.x q.x
  have h2 := key m.columns m.worldGridOrigin.y p.y q.y
  have t := euclid_triangle ⟨0, 0⟩ ⟨|p.x - q.x|, |p.y - q.y|⟩ ⟨|p.x - q.x| + m.resolution, |p.y - q.y| + m.resolution⟩
  have e1 : euclid ⟨0, 0⟩ ⟨|p.x - q.x|, |p.y - q.y|⟩ = euclid p q := by
    unfold euclid
    congr 1
    simp only [zero_sub, neg_sq, sq_abs]
  have e2 : euclid ⟨|p.x - q.x|, |p.y - q.y|⟩ ⟨|p.x - q.x| + m.resolution, |p.y - q.y| + m.resolution⟩ =
      √2 * m.resolution := by
    unfold euclid
    rw [show (|p.x - q.x| - (|p.x - q.x| + m.resolution)) ^ 2 + (|p.y - q.y| - (|p.y - q.y| + m.resolution)) ^ 2 =
      2 * m.resolution ^ 2 by ring, Real.sqrt_mul (by norm_num), Real.sqrt_sq hres.le]
  rw [e1, e2] at t
  refine le_trans ?_ t
  have e3 : ∀ x : ℝ, √x * m.resolution = √(x * m.resolution ^ 2) := by
    intro x
    rw [Real.sqrt_mul' _ (by positivity), Real.sqrt_sq hres.le]
  rw [e3]
  unfold euclid sqDist cellOf
  dsimp only
  refine Real.sqrt_le_sqrt ?_
  have s1 := mul_self_le_mul_self (by positivity) h1
  have s2 := mul_self_le_mul_self (by positivity) h2
  have a1 := abs_mul_abs_self ((clamp m.rows (raw m.worldGridOrigin.x m.resolution p.x) -
    clamp m.rows (raw m.worldGridOrigin.x m.resolution q.x) : ℤ) : ℝ)
  have a2 := abs_mul_abs_self ((clamp m.columns (raw m.worldGridOrigin.y m.resolution p.y) -
    clamp m.columns (raw m.worldGridOrigin.y m.resolution q.y) : ℤ) : ℝ)
  rw [mul_mul_mul_comm, a1] at s1
  rw [mul_mul_mul_comm, a2] at s2
  push_cast at s1 s2 ⊢
  nlinarith

/-- The position is within reach of an acceptable state, up to `ε`. -/
def Reached (v : Validator) (ε : ℝ) (x : Pt) : Prop :=
  ∃ s, Acceptable v s ∧ euclid s.position x ≤ max (reportedDistance v s.position - v.minSafe) v.minStep + ε

private theorem Reached.move {v : Validator} {ε δ : ℝ} {x y : Pt} (h : Reached v ε x) (hd : euclid x y ≤ δ) :
    Reached v (ε + δ) y := by
  obtain ⟨s, h1, h2⟩ := h
  exact ⟨s, h1, by linarith [euclid_triangle s.position x y]⟩

/-- What is within reach is clear of the covered cells. -/
private theorem reached_clear {v : Validator} {ops : List MapState.Op} (hv : SeesMap v (ops ++ [.update])) (ht : Tidy ops)
    (hres : 0 < v.map.resolution) {D : ℝ} (hD : ∀ p, v.map.isInsidePos p = true → reportedDistance v p ≤ D)
    (hclear : 0 < guaranteedClearance v D) {ε : ℝ} (hε : ε ≤ v.map.resolution) {x : Pt} (hx : Reached v ε x)
    {o : Cell} (ho : Covered ops o) : 2 < sqDist o (cellOf v.map x) := by
  obtain ⟨st, hr, hdist⟩ := hv
  have hops : obstacleOps (ops ++ [.update]) = obstacleOps ops := by
    rw [MapState.obstacleOps_snoc]; simp
  obtain ⟨dops, hrun, hob, hlast, -⟩ :=
    MapState.tidy hr ⟨by rw [hops]; exact ht.still, by rw [hops]; exact ht.apart⟩
  obtain ⟨d, rfl⟩ := hlast ops rfl
  rw [← hdist] at hrun
  have hoo : o ∈ obstacles d := by
    have : o ∈ obstacles (d ++ [.update]) := by
      rw [hob]; unfold Covered; rw [hops]; exact ho
    rwa [MapState.obstacles_snoc] at this
  have h8 : √2 < 1.5 := by
    rw [Real.sqrt_lt' (by norm_num)]; norm_num
  have hk1 : 1 ≤ √(4 - 2 * √2) := by
    rw [Real.one_le_sqrt]; linarith
  obtain ⟨s, hs, hle⟩ := hx
  have h1 := reported_le hres hrun o hoo _ hs.inside
  rw [← cellOf_inside hs.inside] at h1
  have h2 := check_loss (step := v.minStep) hk1 hs.clear (hD _ hs.inside)
  have h3 := cells_close hres s.position x
  rw [← euclid_corners v.map hres] at h1 h3
  have h4 := euclid_triangle (v.map.gridCellToWorldPosition (cellOf v.map s.position))
    (v.map.gridCellToWorldPosition (cellOf v.map x)) (v.map.gridCellToWorldPosition o)
  rw [euclid_comm (v.map.gridCellToWorldPosition (cellOf v.map s.position))
    (v.map.gridCellToWorldPosition (cellOf v.map x)), euclid_corners v.map hres o (cellOf v.map x)] at h4
  have h5 : reportedDistance v s.position / √(4 - 2 * √2) ≤
      euclid (v.map.gridCellToWorldPosition (cellOf v.map s.position)) (v.map.gridCellToWorldPosition o) := by
    rw [div_le_iff₀ (by linarith), mul_comm]
    exact h1
  unfold guaranteedClearance at hclear
  have h6 : 1.5 * v.map.resolution < √((sqDist o (cellOf v.map x) : Int) : ℝ) * v.map.resolution := by linarith
  have h7 := lt_of_mul_lt_mul_right h6 hres.le
  rw [Real.lt_sqrt (by norm_num)] at h7
  have : (2 : ℝ) < ((sqDist o (cellOf v.map x) : Int) : ℝ) := by norm_num at h7 ⊢; linarith
  exact_mod_cast this

section
variable {v : Validator} {ops : List MapState.Op} (hv : SeesMap v (ops ++ [.update])) (ht : Tidy ops)
  (hres : 0 < v.map.resolution) {D : ℝ} (hD : ∀ p, v.map.isInsidePos p = true → reportedDistance v p ≤ D)
  (hclear : 0 < guaranteedClearance v D) {occ : Cell → Bool} (hocc : ∀ c, occ c = true → Covered ops c)
include hv ht hres hD hclear hocc

theorem reached_free {ε : ℝ} (hε : ε ≤ v.map.resolution) {x : Pt} (hx : Reached v ε x) {c : Cell}
    (hc : sqDist c (cellOf v.map x) ≤ 2) : occ c = false := by
  cases h : occ c with
  | false => rfl
  | true => exact absurd (reached_clear hv ht hres hD hclear hε hx (hocc c h)) (by omega)

private theorem cell_free {ε : ℝ} (hε : ε ≤ v.map.resolution) {x : Pt} (hx : Reached v ε x) :
    Free ⟨v.map.rows, v.map.columns, occ⟩ (cellOf v.map x) := by
  obtain ⟨s, hs, -⟩ := id hx
  obtain ⟨h1, h2, h3, h4⟩ := inRect_of_inside hs.inside
  obtain ⟨a1, a2⟩ := clamp_in (n := v.map.rows) (by omega) (raw v.map.worldGridOrigin.x v.map.resolution x.x)
  obtain ⟨b1, b2⟩ := clamp_in (n := v.map.columns) (by omega) (raw v.map.worldGridOrigin.y v.map.resolution x.y)
  refine ⟨⟨a1, a2, b1, b2⟩, ?_⟩
  exact reached_free hv ht hres hD hclear hocc hε hx (by simp [sqDist])

private theorem short_step {ε : ℝ} (hε : ε ≤ v.map.resolution) {x y : Pt} (hy : Reached v ε y)
    (h : euclid x y < v.map.resolution) :
    ∃ l, Walk ⟨v.map.rows, v.map.columns, occ⟩ (cellOf v.map x) l (cellOf v.map y) ∧ l.length ≤ 2 := by
  obtain ⟨hx1, hy1⟩ := abs_le_euclid x y
  have c1 : |(cellOf v.map x).row - (cellOf v.map y).row| ≤ 1 :=
    (clamp_close _ _ _).trans (raw_step hres (by rw [abs_sub_comm]; exact hx1.trans_lt h))
  have c2 : |(cellOf v.map x).col - (cellOf v.map y).col| ≤ 1 :=
    (clamp_close _ _ _).trans (raw_step hres (by rw [abs_sub_comm]; exact hy1.trans_lt h))
  have hf := fun c => reached_free hv ht hres hD hclear hocc hε hy (c := c)
  have hfree := cell_free hv ht hres hD hclear hocc hε hy
  obtain ⟨a, ha⟩ : ∃ a, a = cellOf v.map x := ⟨_, rfl⟩
  obtain ⟨b, hb⟩ : ∃ b, b = cellOf v.map y := ⟨_, rfl⟩
  rw [← ha, ← hb] at c1 c2 ⊢
  rw [← hb] at hf hfree
  rw [abs_le] at c1 c2
  by_cases hab : a = b
  · rw [hab]; exact ⟨_, .stop b, by simp⟩
  refine ⟨_, .move ⟨hfree, ?_, ?_⟩ (.stop b), by simp⟩
  · rw [chebyshev_eq_one]
    have : ¬ (a.row = b.row ∧ a.col = b.col) := by
      rintro ⟨e1, e2⟩
      exact hab (by cases a; cases b; simp_all)
    omega
  · rintro - - ⟨h1, -⟩
    have := hf ⟨b.row, a.col⟩ (by
      have : (a.col - b.col) ^ 2 ≤ 1 := by nlinarith
      simp only [sqDist, sub_self]
      omega)
    rw [show occ ⟨b.row, a.col⟩ = true from h1] at this
    cases this

omit hv ht hres hD hclear hocc in
/-- Every position of a path on which each state follows an acceptable one closely is within reach. -/
theorem path_reached {a : AnyPath} (hu : UnitSpeed a) (hl : 0 < a.length)
    (hck : ∀ s, 0 ≤ s → s < a.length → ∃ t, 0 ≤ t ∧ t ≤ s ∧ Acceptable v (a.interpolate (t / a.length)) ∧
      s - t < max (freeDistance v (a.interpolate (t / a.length))) v.minStep) {ε : ℝ} (hε : 0 < ε)
    (t : ℝ) (h0 : 0 ≤ t) (h1 : t ≤ 1) : Reached v ε (a.interpolate t).position := by
  have before : ∀ t, 0 ≤ t → t < 1 → Reached v 0 (a.interpolate t).position := by
    intro t h0 h1
    obtain ⟨x, x1, x2, x3, x4⟩ := hck (t * a.length) (mul_nonneg h0 hl.le) (by nlinarith)
    refine ⟨_, x3, ?_⟩
    have hs := hu (x / a.length) t (div_nonneg x1 hl.le) (by rw [div_le_iff₀ hl]; exact x2) h1.le
    have e : (t - x / a.length) * a.length = t * a.length - x := by field_simp
    rw [e] at hs
    have h4 : freeDistance v (a.interpolate (x / a.length)) ≤
      reportedDistance v (a.interpolate (x / a.length)).position - v.minSafe := min_le_left _ _
    have h5 := max_le_max_right v.minStep h4
    linarith
  rcases h1.lt_or_eq with h | rfl
  · obtain ⟨s, s1, s2⟩ := before t h0 h
    exact ⟨s, s1, by linarith⟩
  · obtain ⟨δ, hδ0, hδ1, hδ⟩ : ∃ δ : ℝ, 0 < δ ∧ δ ≤ 1 ∧ δ * a.length ≤ ε := by
      refine ⟨min 1 (ε / a.length), lt_min one_pos (div_pos hε hl), min_le_left _ _, ?_⟩
      calc min 1 (ε / a.length) * a.length ≤ ε / a.length * a.length := by
            gcongr
            exact min_le_right _ _
        _ = ε := div_mul_cancel₀ _ hl.ne'
    have h2 := hu (1 - δ) 1 (by linarith) (by linarith) le_rfl
    rw [show (1 : ℝ) - (1 - δ) = δ by ring] at h2
    have := (before (1 - δ) (by linarith) (by linarith)).move (h2.trans hδ)
    rwa [zero_add] at this

/-- A curve within reach is followed from cell to cell. -/
theorem curve_walk (f : ℝ → Pt) (len : ℝ) (hl : 0 ≤ len)
    (hu : ∀ a b, 0 ≤ a → a ≤ b → b ≤ 1 → euclid (f a) (f b) ≤ (b - a) * len)
    (hreach : ∀ t, 0 ≤ t → t ≤ 1 → Reached v v.map.resolution (f t)) :
    ∃ l, Walk ⟨v.map.rows, v.map.columns, occ⟩ (cellOf v.map (f 0)) l (cellOf v.map (f 1)) ∧
      (l.length : ℝ) ≤ len / v.map.resolution + 2 := by
  obtain ⟨n, hn, hn'⟩ : ∃ n : Nat, len / v.map.resolution < n ∧ (n : ℝ) ≤ len / v.map.resolution + 1 := by
    refine ⟨⌊len / v.map.resolution⌋₊ + 1, ?_, ?_⟩
    · push_cast; exact Nat.lt_floor_add_one _
    · push_cast; linarith [Nat.floor_le (div_nonneg hl hres.le)]
  have hn0 : (0 : ℝ) < n := lt_of_le_of_lt (div_nonneg hl hres.le) hn
  have key : ∀ k : Nat, k ≤ n → ∃ l, Walk ⟨v.map.rows, v.map.columns, occ⟩ (cellOf v.map (f 0)) l
      (cellOf v.map (f ((k : ℝ) / n))) ∧ l.length ≤ k + 1 := by
    intro k
    induction k with
    | zero => intro _; simp only [Nat.cast_zero, zero_div]; exact ⟨_, .stop _, by simp⟩
    | succ k ih =>
      intro hk
      obtain ⟨l, hw, hlen⟩ := ih (by omega)
      have hkr : ((k + 1 : Nat) : ℝ) ≤ n := by exact_mod_cast hk
      have b1 : ((k + 1 : Nat) : ℝ) / n ≤ 1 := by rw [div_le_one hn0]; exact hkr
      have hs := hu ((k : ℝ) / n) (((k + 1 : Nat) : ℝ) / n) (by positivity)
        (by gcongr; exact_mod_cast Nat.le_succ k) b1
      have e : (((k + 1 : Nat) : ℝ) / n - (k : ℝ) / n) * len = len / n := by
        push_cast; field_simp; ring
      have hlt : len / n < v.map.resolution := by
        rw [div_lt_iff₀ hn0]
        rw [div_lt_iff₀ hres] at hn
        linarith
      rw [e] at hs
      obtain ⟨l', hw', hlen'⟩ := short_step hv ht hres hD hclear hocc le_rfl (hreach _ (by positivity) b1)
        (hs.trans_lt hlt)
      exact ⟨_, walkAppend hw hw', by simp only [List.length_append, List.length_tail]; omega⟩
  obtain ⟨l, hw, hlen⟩ := key n le_rfl
  rw [div_self hn0.ne'] at hw
  refine ⟨l, hw, ?_⟩
  have : (l.length : ℝ) ≤ n + 1 := by exact_mod_cast hlen
  linarith

omit hv ht hres hD hclear hocc in
private theorem action_reached {a : Action} (hg : Good a) (hl : 0 < a.length) (hck : Checked v a) {ε : ℝ} (hε : 0 < ε)
    (t : ℝ) (h0 : 0 ≤ t) (h1 : t ≤ 1) : Reached v ε (a.interpolate t).position :=
  path_reached (a := a.any) hg.speed hl hck hε t h0 h1

private theorem action_walk {a : Action} (hg : Good a) (hl : 0 < a.length) (hck : Checked v a) :
    ∃ l, Walk ⟨v.map.rows, v.map.columns, occ⟩ (cellOf v.map a.init.position) l (cellOf v.map a.final.position) ∧
      (l.length : ℝ) ≤ a.length / v.map.resolution + 2 := by
  have h := curve_walk hv ht hres hD hclear hocc (fun t => (a.interpolate t).position) a.length hl.le hg.speed
    (fun t h0 h1 => action_reached hg hl hck hres t h0 h1)
  rw [hg.last, hg.first.1] at h
  exact h

private theorem joined_walk {ε : ℝ} (hε : 0 < ε) : ∀ (l : List Action) (p q : PoseR), Joined p l q → (∀ a ∈ l, Good a) →
    (∀ a ∈ l, Checked v a) → (∃ w, Walk ⟨v.map.rows, v.map.columns, occ⟩ (cellOf v.map p.position) w
      (cellOf v.map q.position) ∧ (w.length : ℝ) ≤ motionsLength l / v.map.resolution + l.length + 1) ∧
      (Reached v ε p.position → Reached v ε q.position)
  | [], p, q, hj, _, _ => by
    have : p = q := hj
    subst this
    exact ⟨⟨_, .stop _, by simp [motionsLength]⟩, id⟩
  | a :: l, p, q, hj, hg, hck => by
    obtain ⟨⟨w, hw, hlen⟩, h2⟩ := joined_walk hε l a.final q hj.2 (fun a h => hg a (List.mem_cons_of_mem _ h))
      (fun a h => hck a (List.mem_cons_of_mem _ h))
    have ga := hg a (List.mem_cons_self ..)
    have ca := hck a (List.mem_cons_self ..)
    have e : a.init = p := hj.1
    have em : motionsLength (a :: l) = a.length + motionsLength l := by simp [motionsLength]
    rcases ga.nonneg.lt_or_eq with hl | hl
    · obtain ⟨w', hw', hlen'⟩ := action_walk hv ht hres hD hclear hocc ga hl ca
      rw [e] at hw'
      refine ⟨⟨_, walkAppend hw' hw, ?_⟩, fun _ => h2 ?_⟩
      · have h1 : 1 ≤ w.length := walkPos hw
        rw [em, add_div]
        simp only [List.length_append, List.length_tail, List.length_cons]
        push_cast [h1]
        linarith
      rw [← ga.last]
      exact action_reached ga hl ca hε 1 zero_le_one le_rfl
    · have : a.final = p := by rw [← ga.last, ga.still hl.symm, e]
      rw [this] at hw h2
      refine ⟨⟨w, hw, ?_⟩, h2⟩
      rw [em, ← hl, zero_add, List.length_cons]
      push_cast
      linarith

end

end DriveWalk

open DriveWalk in
/-- C183. Joined motions of the vehicle that were checked for collisions, from a start in the map: if they end in the map,
there is a walk over free cells from the cell of the start to the cell of the end. `occ` holds for covered cells only. -/
theorem C183_checked_motions_give_walk (v : Validator) (ops : List MapState.Op) (hv : SeesMap v (ops ++ [.update]))
    (ht : Tidy ops) (hres : 0 < v.map.resolution)
    (D : ℝ) (hD : ∀ p, v.map.isInsidePos p = true → reportedDistance v p ≤ D) (hclear : 0 < guaranteedClearance v D)
    (occ : Cell → Bool) (hocc : ∀ c, occ c = true → Covered ops c)
    (p : HybridParam) (hR : 0 < p.minTurningRadius) (goal init q : PoseR) (actions : List Action)
    (hj : Joined init actions q) (ha : ∀ a ∈ actions, Motion p goal a ∧ 0 ≤ a.length ∧ Checked v a)
    (hi : v.map.isInsidePos init.position = true) (hq : v.map.isInsidePos q.position = true) :
    ∃ cells, Walk ⟨v.map.rows, v.map.columns, occ⟩ (v.map.worldPositionToGridCell init.position true) cells
      (v.map.worldPositionToGridCell q.position true) := by
  obtain ⟨⟨w, hw, -⟩, -⟩ := joined_walk hv ht hres hD hclear hocc one_pos actions init q hj
    (fun a h => motion_good hR (ha a h).1 (ha a h).2.1) (fun a h => (ha a h).2.2)
  rw [cellOf_inside hi, cellOf_inside hq] at hw
  exact ⟨w, hw⟩

open DriveWalk in
/-- C183. When `SearchPath` of hybrid A* succeeds after an update of the map, from a start that the validator accepts to a
goal in the map, there is a walk over free cells from the cell of the start to the cell of the goal, which are free
themselves. Cells are larger than the tolerance of the goal test, 1 mm. -/
theorem C183_plan_gives_walk (e : Propagator) (hc : Configured e) (random : Nat → ℝ)
    (nbrs : Nat → State → List (State × Action × WithTop ℝ)) (h : e.Answers random nbrs)
    (d : ℝ) (hd : 0 < d) (dflt : PoseR) (sp : SmoothParam) (ob ed : Cell → Cell) (maxIterations : Int)
    (old : List PoseR) (fuel : Nat) (init : PoseR) (path : List PoseR)
    (hs : searchPath e nbrs d dflt
      (smoothPoses (sp.terms e.validator.map ob ed) maxIterations e.validator.isStateValid) old fuel init
        = some (.success, path))
    (ops : List MapState.Op) (hv : SeesMap e.validator (ops ++ [.update])) (ht : Tidy ops)
    (hres : 1e-3 < e.validator.map.resolution)
    (D : ℝ) (hD : ∀ p, e.validator.map.isInsidePos p = true → reportedDistance e.validator p ≤ D)
    (hclear : 0 < guaranteedClearance e.validator D) (occ : Cell → Bool) (hocc : ∀ c, occ c = true → Covered ops c)
    (hi : e.validator.isStateValid init = some true) (hg : e.validator.map.isInsidePos e.goal.position = true) :
    let m : GridMap := ⟨e.validator.map.rows, e.validator.map.columns, occ⟩
    let a := e.validator.map.worldPositionToGridCell init.position true
    let b := e.validator.map.worldPositionToGridCell e.goal.position true
    Free m a ∧ Free m b ∧ ∃ cells, Walk m a cells b := by
  have hres0 : 0 < e.validator.map.resolution := lt_trans (by norm_num) hres
  obtain ⟨actions, q, states, h1, h2, h3, -⟩ := (C86_result e hc random nbrs h d hd dflt sp ob ed maxIterations old
    fuel init .success path hs).2 rfl
  obtain ⟨b, hb, hb'⟩ := C53_state_valid_iff e.validator hc.size init
  rw [hi] at hb
  have hacc : Acceptable e.validator init := hb'.mp (Option.some.inj hb).symm
  obtain ⟨ε, hε⟩ : ∃ ε, ε = e.validator.map.resolution - 1e-3 := ⟨_, rfl⟩
  have hε0 : 0 < ε := by rw [hε]; linarith
  have hstep : 0 < e.validator.minStep := hc.step
  have hr0 : Reached e.validator ε init.position := by
    refine ⟨init, hacc, ?_⟩
    rw [euclid_self]
    have := le_max_right (reportedDistance e.validator init.position - e.validator.minSafe) e.validator.minStep
    linarith
  obtain ⟨⟨w, hw, -⟩, k2⟩ := joined_walk hv ht hres0 hD hclear hocc hε0 actions init q h1
    (fun a h => motion_good hc.radius (h3 a h).1 (h3 a h).2.1) (fun a h => (h3 a h).2.2)
  have hqg : euclid q.position e.goal.position < 1e-3 := h2.1
  have hr1 : Reached e.validator e.validator.map.resolution e.goal.position := by
    have := (k2 hr0).move hqg.le
    rwa [hε, sub_add_cancel] at this
  obtain ⟨w', hw', -⟩ := short_step hv ht hres0 hD hclear hocc le_rfl hr1 (hqg.trans hres)
  have f1 := cell_free hv ht hres0 hD hclear hocc (by rw [hε]; linarith) hr0
  have f2 := cell_free hv ht hres0 hD hclear hocc le_rfl hr1
  have hww := walkAppend hw hw'
  rw [cellOf_inside hacc.inside] at f1 hww
  rw [cellOf_inside hg] at f2 hww
  exact ⟨f1, f2, _, hww⟩

/-- C183, for the searches on the grid: when hybrid A* succeeds as in `C183_plan_gives_walk`, the grid planner succeeds
between the cells of the start and the goal, whatever the costs and the heuristic; and the obstacle heuristic, updated for
the goal, has a finite table entry for the cell of the start. So a failure of the grid planner shows that hybrid A* cannot
succeed. -/
theorem C183_grid_searches_succeed (e : Propagator) (hc : Configured e) (random : Nat → ℝ)
    (nbrs : Nat → State → List (State × Action × WithTop ℝ)) (h : e.Answers random nbrs)
    (d : ℝ) (hd : 0 < d) (dflt : PoseR) (sp : SmoothParam) (ob ed : Cell → Cell) (maxIterations : Int)
    (old : List PoseR) (fuel : Nat) (init : PoseR) (path : List PoseR)
    (hs : searchPath e nbrs d dflt
      (smoothPoses (sp.terms e.validator.map ob ed) maxIterations e.validator.isStateValid) old fuel init
        = some (.success, path))
    (ops : List MapState.Op) (hv : SeesMap e.validator (ops ++ [.update])) (ht : Tidy ops)
    (hres : 1e-3 < e.validator.map.resolution)
    (D : ℝ) (hD : ∀ p, e.validator.map.isInsidePos p = true → reportedDistance e.validator p ≤ D)
    (hclear : 0 < guaranteedClearance e.validator D) (occ : Cell → Bool) (hocc : ∀ c, occ c = true → Covered ops c)
    (hi : e.validator.isStateValid init = some true) (hg : e.validator.map.isInsidePos e.goal.position = true) :
    let m : GridMap := ⟨e.validator.map.rows, e.validator.map.columns, occ⟩
    let a := e.validator.map.worldPositionToGridCell init.position true
    let b := e.validator.map.worldPositionToGridCell e.goal.position true
    (∀ pathCost heur : Cell → Cell → ℝ, ∃ s, AStar.searchPath (N2.problem m pathCost heur b) true
      (m.rows.toNat * m.columns.toNat + 1) a = some (.success, s)) ∧
    ∃ t, updatePose e.validator.map occ √2 e.goal = some t ∧ t.explored a = true ∧ ∃ x : ℝ, t.cost a = x := by
  obtain ⟨f1, f2, cells, hw⟩ := C183_plan_gives_walk e hc random nbrs h d hd dflt sp ob ed maxIterations old fuel init path
    hs ops hv ht hres D hD hclear occ hocc hi hg
  constructor
  · intro pathCost heur
    obtain ⟨⟨st, s⟩, hs⟩ := Option.isSome_iff_exists.1 (C20_grid_search_terminates _ pathCost heur _
      (e.validator.map.worldPositionToGridCell e.goal.position true) f1.1)
    cases st with
    | success => exact ⟨s, hs⟩
    | failure => exact absurd ⟨cells, hw⟩ (C20_grid_failure_no_path _ pathCost heur _ _ f1.1 hs).1
  · obtain ⟨t, k1, k2, k3⟩ := C54_update_to_goal _ √2 zero_le_one (Real.one_le_sqrt.2 (by norm_num)) _ f2
    have he := (k2 _).2 ⟨f1, cells, hw⟩
    obtain ⟨x, -, hx, -⟩ := k3 _ he
    exact ⟨t, k1, he, x, hx⟩

open DriveWalk in
/-- C183, for the value of the obstacle heuristic, which may exceed the cost of a drive (`C71_overestimates`): it is bounded
by twice the length of any checked drive to the goal (which may end 1 mm from it), plus two cells for each motion and two
for the last step, times the lower of the direction multipliers; or it is the straight-line distance. -/
theorem C183_heuristic_bounded_by_drive (v : Validator) (hsize : SameSize v) (hstep : 0 < v.minStep)
    (ops : List MapState.Op) (hv : SeesMap v (ops ++ [.update])) (ht : Tidy ops) (hres : 1e-3 < v.map.resolution)
    (D : ℝ) (hD : ∀ p, v.map.isInsidePos p = true → reportedDistance v p ≤ D) (hclear : 0 < guaranteedClearance v D)
    (occ : Cell → Bool) (hocc : ∀ c, occ c = true → Covered ops c) (reverseCost forwardCost : ℝ)
    (hr : 0 ≤ reverseCost) (hf : 0 ≤ forwardCost)
    (p : HybridParam) (hR : 0 < p.minTurningRadius) (goal state q : PoseR) (actions : List Action)
    (hj : Joined state actions q) (hq : euclid q.position goal.position < 1e-3)
    (ha : ∀ a ∈ actions, Motion p goal a ∧ 0 ≤ a.length ∧ Checked v a)
    (hi : v.isStateValid state = some true) (hg : v.map.isInsidePos goal.position = true) :
    ∃ t h, updatePose v.map occ √2 goal = some t ∧
      getHeuristicValue v.map reverseCost forwardCost t goal state = some h ∧
      h ≤ max (min reverseCost forwardCost *
        (2 * (motionsLength actions + (actions.length + 1) * v.map.resolution)) - √2 * v.map.resolution)
        (euclid goal.position state.position) := by
  have hres0 : 0 < v.map.resolution := lt_trans (by norm_num) hres
  obtain ⟨b, hb, hb'⟩ := C53_state_valid_iff v hsize state
  rw [hi] at hb
  have hacc : Acceptable v state := hb'.mp (Option.some.inj hb).symm
  obtain ⟨ε, hε⟩ : ∃ ε, ε = v.map.resolution - 1e-3 := ⟨_, rfl⟩
  have hε0 : 0 < ε := by rw [hε]; linarith
  have hr0 : Reached v ε state.position := by
    refine ⟨state, hacc, ?_⟩
    rw [euclid_self]
    have := le_max_right (reportedDistance v state.position - v.minSafe) v.minStep
    linarith
  obtain ⟨⟨w, hw, hlen⟩, k2⟩ := joined_walk hv ht hres0 hD hclear hocc hε0 actions state q hj
    (fun a h => motion_good hR (ha a h).1 (ha a h).2.1) (fun a h => (ha a h).2.2)
  have hr1 : Reached v v.map.resolution goal.position := by
    have := (k2 hr0).move hq.le
    rwa [hε, sub_add_cancel] at this
  obtain ⟨w', hw', hlen'⟩ := short_step hv ht hres0 hD hclear hocc le_rfl hr1 (hq.trans hres)
  have f1 := cell_free hv ht hres0 hD hclear hocc (by rw [hε]; linarith) hr0
  have hww := walkAppend hw hw'
  obtain ⟨l, hl⟩ : ∃ l, l = w ++ w'.tail := ⟨_, rfl⟩
  have hll : (l.length : ℝ) - 1 ≤ motionsLength actions / v.map.resolution + actions.length + 1 := by
    have h1 := walkPos hw'
    have : (l.length : ℝ) ≤ w.length + 1 := by
      rw [hl]
      exact_mod_cast (by simp only [List.length_append, List.length_tail]; omega)
    linarith
  rw [← hl, cellOf_inside hacc.inside, cellOf_inside hg] at hww
  rw [cellOf_inside hacc.inside] at f1
  obtain ⟨hrev, hcost⟩ := hww.reverse (moveLength √2) (fun a b => by unfold moveLength; simp only [ne_comm]) f1
  obtain ⟨t, h, t1, t2, -, -, t3, -⟩ := C71_bounds_partial v.map occ reverseCost forwardCost hr hf hres0.le goal state
  refine ⟨t, h, t1, t2, (t3 _ hg hacc.inside hrev).trans (max_le_max_right _ ?_)⟩
  rw [hcost]
  have hm : 0 ≤ min reverseCost forwardCost := le_min hr hf
  have h1 := walkCost_le hww
  have h2 : √2 * walkCost (moveLength √2) l ≤ 2 * (l.length - 1) := by
    calc √2 * walkCost (moveLength √2) l ≤ √2 * (√2 * (l.length - 1)) := by gcongr
      _ = 2 * (l.length - 1) := by rw [← mul_assoc, Real.mul_self_sqrt (by norm_num)]
  have h3 : √2 * walkCost (moveLength √2) l * v.map.resolution ≤
      2 * (motionsLength actions + (actions.length + 1) * v.map.resolution) := by
    calc √2 * walkCost (moveLength √2) l * v.map.resolution
        ≤ 2 * (motionsLength actions / v.map.resolution + actions.length + 1) * v.map.resolution := by
          refine mul_le_mul_of_nonneg_right ?_ hres0.le
          linarith
      _ = 2 * (motionsLength actions + (actions.length + 1) * v.map.resolution) := by
          field_simp
          ring
  have h4 := mul_le_mul_of_nonneg_left h3 hm
  have e : √2 * walkCost (moveLength √2) l * (min reverseCost forwardCost * v.map.resolution) =
    min reverseCost forwardCost * (√2 * walkCost (moveLength √2) l * v.map.resolution) := by ring
  rw [e]
  linarith

end PathPlanning
