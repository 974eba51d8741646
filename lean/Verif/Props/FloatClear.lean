import Verif.Spec.FloatClear
import Verif.Props.FloatShape
import Verif.Props.FloatSteer
import Verif.Props.FloatPath
import Verif.Props.PlanOutside

/-!
# C148: paths that the program accepts and the obstacles, with rounding
-/

namespace PathPlanning
open Flt Spec

private theorem over_bounds : 1 ≤ overestimate := by
  have h8 : √2 < 1.5 := by rw [Real.sqrt_lt' (by norm_num)]; norm_num
  have hk1 : 1 ≤ √(4 - 2 * √2) := by rw [Real.one_le_sqrt]; linarith
  unfold overestimate
  nlinarith [show (0 : ℝ) ≤ (2 ^ 23)⁻¹ by positivity]

/-- The loss of the path check. -/
private theorem check_lossF {k d s m D : ℝ} (hk : 1 ≤ k) (h1 : s ≤ d) (h2 : d ≤ D) :
    min (s - (1 - 1 / k) * D - (2 ^ 23)⁻¹ * (D - s)) (s / k - (1 + (2 ^ 53)⁻¹) * m) ≤
      d / k - (1 + (2 ^ 53)⁻¹) * max ((1 + (2 ^ 24)⁻¹) * (d - s)) m := by
  have hk0 : 0 < k := by linarith
  have h3 : 0 ≤ 1 - 1 / k := by
    rw [sub_nonneg, div_le_one hk0]; exact hk
  have e : d / k = d * (1 / k) := by ring
  rcases le_total ((1 + (2 ^ 24)⁻¹) * (d - s)) m with h | h
  · rw [max_eq_right h]
    refine le_trans (min_le_right _ _) ?_
    have : s / k ≤ d / k := by gcongr
    linarith
  · rw [max_eq_left h]
    refine le_trans (min_le_left _ _) ?_
    rw [e]
    have h4 := mul_le_mul_of_nonneg_left h2 h3
    have h5 : (1 + (2 ^ 53)⁻¹) * ((1 + (2 ^ 24)⁻¹) * (d - s)) ≤ (d - s) + (2 ^ 23)⁻¹ * (d - s) := by
      have : 0 ≤ d - s := by linarith
      norm_num
      linarith
    have h6 : ((2 : ℝ) ^ 23)⁻¹ * (d - s) ≤ (2 ^ 23)⁻¹ * (D - s) := by gcongr
    linarith

private theorem follows_speed {η : ℝ} {q ideal : AnyPath} (h : Follows η q ideal) : Validator.UnitSpeedUpTo (3 * η) q := by
  have symm : ∀ x y : Pt, euclid x y = euclid y x := fun x y => by rw [euclid_swap]; rfl
  intro a b a0 a1 b0 b1
  have n1 := h.near a a0 a1
  have n2 := h.near b b0 b1
  rw [symm] at n2
  have hl := abs_le.1 h.length
  have mid : euclid (ideal.interpolate a).position (ideal.interpolate b).position ≤ |b - a| * ideal.length := by
    rcases le_total a b with hab | hab
    · rw [abs_of_nonneg (by linarith)]; exact h.speed a b a0 hab b1
    · rw [abs_of_nonpos (by linarith), neg_sub, symm]; exact h.speed b a b0 hab a1
  have hab : |b - a| ≤ 1 := abs_le.2 ⟨by linarith, by linarith⟩
  have hη : 0 ≤ η := (abs_nonneg _).trans h.length
  have len : |b - a| * ideal.length ≤ |b - a| * q.length + η := by
    have : |b - a| * (ideal.length - q.length) ≤ 1 * η :=
      (mul_le_mul_of_nonneg_left (by linarith) (abs_nonneg _)).trans (mul_le_mul_of_nonneg_right hab hη)
    linarith
  have t1 := euclid_tri (q.interpolate a).position (ideal.interpolate a).position (q.interpolate b).position
  have t2 := euclid_tri (ideal.interpolate a).position (ideal.interpolate b).position (q.interpolate b).position
  linarith

/-- C148: a path that the program accepts after Update, and that follows a curve up to rounding. All of the curve, its end
included, keeps clear of the outline of every registered obstacle with its corners on the map. -/
theorem C148_accepted_path_keeps_clear (lm : Libm) (hlm : lm.Accurate) (v : Validator) (ops : List MapState.Op)
    (hv : SeesMap v (ops ++ [.update])) (ht : Tidy ops) (hres : 0 < v.map.resolution)
    (hrows : v.map.rows ≤ 2 ^ 31) (hcols : v.map.columns ≤ 2 ^ 31)
    (o : Nat) (ho : registered (obstacleOps ops) o = true) (pose : PoseR) (hpose : IsFlt 53 pose.theta)
    (W : ℝ) (shape : Shape) (hW : FitsIn W shape)
    (hcells : shape.gridCellsF lm v.map pose = some (covers (obstacleOps ops) o))
    (hin : ∀ u, IsVertex shape u → Inside v.map.size (v.map.worldPositionToGridCellF (Shape.placeF lm pose u) false))
    (D : ℝ) (hD : ∀ p, v.map.isInsideCell (v.map.worldPositionToGridCellF p true) = true → reportedDistanceF v p ≤ D)
    (hstep : 0 < v.minStep) (q ideal : AnyPath) (hq : 0 < q.length) (hl : q.length ≤ 2 ^ 52 * v.minStep) (hh : Headings q)
    (η : ℝ) (hf : Follows η q ideal) (r : ℝ) (ha : v.isPathValidF q = some (true, r))
    (t : ℝ) (h0 : 0 ≤ t) (h1 : t ≤ 1) (p : Pt) (hp : OnOutline pose shape p) :
    pathClearance v D (cornerError W pose) q.length η ≤ euclid (ideal.interpolate t).position p := by
  obtain ⟨c, hc, hd⟩ := C146_outline_near_cells lm hlm v.map hres hrows hcols pose hpose W shape hW hin _ hcells p hp
  obtain ⟨st, hr, hdist⟩ := hv
  have hops : obstacleOps (ops ++ [.update]) = obstacleOps ops := by
    rw [MapState.obstacleOps_snoc]; simp
  obtain ⟨dops, hrun, hob, hlast, -⟩ :=
    MapState.tidy hr ⟨by rw [hops]; exact ht.still, by rw [hops]; exact ht.apart⟩
  obtain ⟨d, rfl⟩ := hlast ops rfl
  rw [← hdist] at hrun
  have hoo : c ∈ obstacles d := by
    have : c ∈ obstacles (d ++ [.update]) := by
      rw [hob]; unfold Covered; rw [hops]; exact ⟨o, ho, hc⟩
    rwa [MapState.obstacles_snoc] at this
  have h2 : √2 < 2 := by rw [Real.sqrt_lt' (by norm_num)]; norm_num
  obtain ⟨E, hE⟩ : ∃ E, E = min (v.minSafe - (1 - 1 / overestimate) * D - (2 ^ 23)⁻¹ * (D - v.minSafe))
      (v.minSafe / overestimate - (1 + (2 ^ 53)⁻¹) * v.minStep)
      - √2 * ((1 + (2 ^ 19)⁻¹) * v.map.resolution) - (2 ^ 52)⁻¹ * q.length - 4 * η := ⟨_, rfl⟩
  -- before the end
  have before : ∀ t, 0 ≤ t → t < 1 → E ≤ euclid (ideal.interpolate t).position (v.map.gridCellToWorldPosition c) := by
    intro t h0 h1
    obtain ⟨a, a0, a1, acc, hle⟩ := Validator.C127_clearance_partial v d hrun hres hrows hcols hstep q hq hl hh (3 * η)
      (follows_speed hf) r ha c hoo t h0 h1
    have loss := check_lossF (m := v.minStep) over_bounds acc.clear (hD _ acc.inside)
    have n := hf.near t h0 h1.le
    have tri := euclid_tri (q.interpolate t).position (ideal.interpolate t).position (v.map.gridCellToWorldPosition c)
    have hle : reportedDistanceF v (q.interpolate a).position / overestimate
        - (1 + (2 ^ 53)⁻¹) * max ((1 + (2 ^ 24)⁻¹) * (reportedDistanceF v (q.interpolate a).position - v.minSafe)) v.minStep
        - √2 * ((1 + (2 ^ 19)⁻¹) * v.map.resolution) - (2 ^ 52)⁻¹ * q.length - 3 * η ≤
        euclid (q.interpolate t).position (v.map.gridCellToWorldPosition c) := hle
    rw [hE]
    linarith
  -- at the end, by continuity
  have all : E ≤ euclid (ideal.interpolate t).position (v.map.gridCellToWorldPosition c) := by
    rcases h1.lt_or_eq with h | rfl
    · exact before t h0 h
    · refine le_of_forall_pos_le_add fun ε hε => ?_
      obtain ⟨L, hL⟩ : ∃ L, L = max ideal.length 1 := ⟨_, rfl⟩
      have hL1 : 1 ≤ L := by rw [hL]; exact le_max_right _ _
      obtain ⟨δ, hδ0, hδ1, hδ⟩ : ∃ δ : ℝ, 0 < δ ∧ δ ≤ 1 ∧ δ * L ≤ ε := by
        refine ⟨min 1 (ε / L), lt_min one_pos (by positivity), min_le_left _ _, ?_⟩
        calc min 1 (ε / L) * L ≤ ε / L * L := by gcongr; exact min_le_right _ _
          _ = ε := by field_simp
      have h3 := before (1 - δ) (by linarith) (by linarith)
      have h4 := hf.speed (1 - δ) 1 (by linarith) (by linarith) le_rfl
      have h5 := euclid_tri (ideal.interpolate (1 - δ)).position (ideal.interpolate 1).position
        (v.map.gridCellToWorldPosition c)
      have h6 : (1 - (1 - δ)) * ideal.length ≤ δ * L := by
        rw [sub_sub_cancel, hL]
        exact mul_le_mul_of_nonneg_left (le_max_left _ _) hδ0.le
      linarith
  have t2 := euclid_tri (ideal.interpolate t).position p (v.map.gridCellToWorldPosition c)
  have h5 : √2 * ((1 + (2 ^ 19)⁻¹) * v.map.resolution) ≤ √2 * v.map.resolution + (2 ^ 18)⁻¹ * v.map.resolution := by
    rw [show √2 * ((1 + (2 ^ 19)⁻¹) * v.map.resolution) =
      √2 * v.map.resolution + √2 * ((2 ^ 19)⁻¹ * v.map.resolution) by ring]
    have := mul_le_mul_of_nonneg_right h2.le (show 0 ≤ (2 ^ 19)⁻¹ * v.map.resolution by positivity)
    norm_num at this ⊢
    linarith
  have e : (√2 + 5 / 2 + (2 ^ 17)⁻¹) * v.map.resolution = √2 * v.map.resolution + (2 ^ 18)⁻¹ * v.map.resolution +
      (5 / 2 + (2 ^ 18)⁻¹) * v.map.resolution := by norm_num; ring
  unfold pathClearance
  rw [hE] at all
  linarith

/-- C148: if the guaranteed clearance is positive, the curve never enters a registered convex obstacle that does not contain
its start. -/
theorem C148_accepted_path_stays_outside (lm : Libm) (hlm : lm.Accurate) (v : Validator) (ops : List MapState.Op)
    (hv : SeesMap v (ops ++ [.update])) (ht : Tidy ops) (hres : 0 < v.map.resolution)
    (hrows : v.map.rows ≤ 2 ^ 31) (hcols : v.map.columns ≤ 2 ^ 31)
    (o : Nat) (ho : registered (obstacleOps ops) o = true) (pose : PoseR) (hpose : IsFlt 53 pose.theta)
    (W : ℝ) (shape : Shape) (hW : FitsIn W shape)
    (hcells : shape.gridCellsF lm v.map pose = some (covers (obstacleOps ops) o))
    (hin : ∀ u, IsVertex shape u → Inside v.map.size (v.map.worldPositionToGridCellF (Shape.placeF lm pose u) false))
    (hturn : TurnsLeft (placedCorners pose shape))
    (D : ℝ) (hD : ∀ p, v.map.isInsideCell (v.map.worldPositionToGridCellF p true) = true → reportedDistanceF v p ≤ D)
    (hstep : 0 < v.minStep) (q ideal : AnyPath) (hq : 0 < q.length) (hl : q.length ≤ 2 ^ 52 * v.minStep) (hh : Headings q)
    (η : ℝ) (hf : Follows η q ideal) (r : ℝ) (ha : v.isPathValidF q = some (true, r))
    (hclear : 0 < pathClearance v D (cornerError W pose) q.length η)
    (hstart : ¬ InsideConvex (placedCorners pose shape) (ideal.interpolate 0).position)
    (t : ℝ) (h0 : 0 ≤ t) (h1 : t ≤ 1) : ¬ InsideConvex (placedCorners pose shape) (ideal.interpolate t).position := by
  obtain ⟨cx, cy⟩ := unit_speed_continuous (q := ideal) hf.speed
  refine stays_outside hturn (fun t => (ideal.interpolate t).position) cx cy ?_ hstart t h0 h1
  intro t h0 h1 p q' s he s0 s1 heq
  have hon : OnOutline pose shape (ideal.interpolate t).position := by
    rw [heq]
    cases shape with
    | polygon vs => exact .side he s0 s1
    | composite children =>
      obtain ⟨i, hi, -⟩ := he
      simp [placedCorners] at hi
  have := C148_accepted_path_keeps_clear lm hlm v ops hv ht hres hrows hcols o ho pose hpose W shape hW hcells hin D hD hstep
    q ideal hq hl hh η hf r ha t h0 h1 _ hon
  rw [euclid_self] at this
  linarith

/-! ## The paths of the program follow their curves -/

private theorem euclid_le_two {p q : Pt} {E : ℝ} (h1 : |p.x - q.x| ≤ E) (h2 : |p.y - q.y| ≤ E) : euclid p q ≤ 3 / 2 * E := by
  have hE : 0 ≤ E := (abs_nonneg _).trans h1
  unfold euclid
  rw [Real.sqrt_le_iff]
  refine ⟨by positivity, ?_⟩
  have a1 := sq_le_sq' (by linarith [(abs_le.1 h1).1]) (abs_le.1 h1).2
  have a2 := sq_le_sq' (by linarith [(abs_le.1 h2).1]) (abs_le.1 h2).2
  nlinarith [sq_nonneg E]

/-- C148: a Reeds-Shepp path of the program follows the exact drive along its segment. -/
theorem C148_reeds_shepp_follows (lm : Libm) (hlm : lm.Accurate) (init : PoseR) (hi : Wrapped init.theta) (s : RS.Segment)
    (hs : DoubleSegment s) (h7 : ShortTurns s.valid) (R : ℝ) (hR : 0 < R) :
    Follows (driven R s.valid / 2 ^ 44 + max |init.position.x| |init.position.y| / 2 ^ 48) (pathOfF lm init s R)
      ⟨init, driven R s.valid, fun t => driveDist init (t * driven R s.valid) (stretches R s.motions)⟩ := by
  have hM : 0 ≤ max |init.position.x| |init.position.y| := (abs_nonneg _).trans (le_max_left _ _)
  have hlen := C132_length s hs R hR.le
  have hT : 0 ≤ driven R s.valid := by
    have := (abs_nonneg _).trans hlen
    norm_num at this
    linarith
  refine ⟨?_, ?_, ?_⟩
  · intro a b a0 hab b1
    show euclid (driveDist init (a * driven R s.valid) _).position (driveDist init (b * driven R s.valid) _).position ≤ _
    rw [sub_mul]
    refine driveDist_speed (fun c hc => ⟨?_, stretches_sense R _ c hc⟩) init (mul_nonneg a0 hT)
      (mul_le_mul_of_nonneg_right hab hT)
    obtain ⟨m, hm, rfl⟩ := List.mem_map.1 hc
    exact mul_nonneg (hs.1 m hm).1 hR.le
  · intro t t0 t1
    obtain ⟨p, p1, -, p3⟩ := C136_reeds_shepp_pose lm hlm init hi s hs h7 R hR t t0 t1
    have e1 : (pathOfF lm init s R).interpolate t = p := by unfold pathOfF; dsimp only; rw [p1]; rfl
    rw [e1]
    obtain ⟨x1, x2, -⟩ := p3
    have := euclid_le_two x1 x2
    norm_num at this ⊢
    linarith
  · show |s.getLengthF R - driven R s.valid| ≤ _
    refine hlen.trans ?_
    norm_num
    linarith

/-- C148: a straight path of the program follows the segment between its ends. -/
theorem C148_straight_follows (a b : PoseR) (ha : PoseDouble a) (hb : PoseDouble b) (M : ℝ)
    (hA : |a.position.x| ≤ M ∧ |a.position.y| ≤ M) (hB : |b.position.x| ≤ M ∧ |b.position.y| ≤ M) :
    Follows (M / 2 ^ 48) ⟨a, (PathSE2.connectF a b).length, (PathSE2.connectF a b).interpolateF⟩
      (PathSE2.connect a b).toAny := by
  obtain ⟨-, -, h3, h4⟩ := C145_se2 a b ha hb
  have hM : 0 ≤ M := (abs_nonneg _).trans hA.1
  refine ⟨C70_unit_speed_straight a b, ?_, ?_⟩
  · intro t t0 t1
    obtain ⟨⟨x1, x2⟩, -⟩ := h4 M (max |a.theta| |b.theta|) t ⟨⟨by simpa using hA.1, by simpa using hA.2⟩, by simp⟩
      ⟨⟨by simpa using hB.1, by simpa using hB.2⟩, by simp⟩ t0 t1
    have e : ((PathSE2.connect a b).toAny.interpolate t).position =
        ⟨(1 - t) * a.position.x + t * b.position.x, (1 - t) * a.position.y + t * b.position.y⟩ := rfl
    rw [e]
    refine (euclid_le_two x1 x2).trans ?_
    norm_num
    linarith
  · have e : (PathSE2.connect a b).toAny.length = dist2 a.position b.position := by
      show (b.position - a.position).norm = _
      unfold Pt.norm dist2
      congr 1
      simp only [Pt.sub_x, Pt.sub_y]
      ring
    rw [e]
    refine h3.trans ?_
    have : dist2 a.position b.position ≤ 3 / 2 * (2 * M) := by
      refine euclid_le_two (p := a.position) (q := b.position) ?_ ?_
      · exact (abs_sub _ _).trans (by linarith [hA.1, hB.1])
      · exact (abs_sub _ _).trans (by linarith [hA.2, hB.2])
    norm_num
    linarith

/-- C148: a motion of hybrid A* with a constant steering angle follows the arc. -/
theorem C148_steer_follows (lm : LibmSteer) (hlm : lm.Accurate) (p : HybridParam) (hL : 0 < p.wheelbase)
    (hR : 0 < p.minTurningRadius) (hRf : IsFlt 53 p.minTurningRadius) (hR8 : p.minTurningRadius ≤ 10 ^ 8)
    (h4 : p.wheelbase ≤ 4 * p.minTurningRadius) (hn : p.numGeneratedMotion ≤ 5) (hsp : 0 ≤ p.spatialResolution) (l : List ℝ)
    (hl : HybridAStar.deltasF lm p = some l) (s : ℝ) (hs : s ∈ l) (from_ : PoseR) (hf : IsFlt 53 from_.theta)
    (hf4 : |from_.theta| ≤ 4) (dir : Direction) :
    let a := HybridAStar.steerMotionF lm p from_ s dir
    Follows ((700 * p.minTurningRadius + 1000 * a.length + 2 * max |from_.position.x| |from_.position.y|) / 2 ^ 53)
      ⟨from_, a.length, a.interpolateF lm⟩
      ⟨from_, a.length, fun t => arc (Real.tan s / p.wheelbase) (signed dir (a.length * t)) from_⟩ := by
  intro a
  have hal : 0 ≤ a.length := fl_nonneg 53 (by positivity)
  have hM : 0 ≤ max |from_.position.x| |from_.position.y| := (abs_nonneg _).trans (le_max_left _ _)
  refine ⟨?_, ?_, ?_⟩
  · intro x y x0 hxy y1
    show euclid (arc _ (signed dir (a.length * x)) from_).position (arc _ (signed dir (a.length * y)) from_).position ≤ _
    have e : signed dir (a.length * y) = signed dir (a.length * x) + signed dir (a.length * (y - x)) := by
      unfold signed
      split <;> ring
    rw [e, ← arc_add, euclid_swap]
    refine (arc_chord _ _ _).trans (le_of_eq ?_)
    have : |signed dir (a.length * (y - x))| = |a.length * (y - x)| := by
      unfold signed
      split
      · exact abs_neg _
      · rfl
    rw [this, abs_of_nonneg (mul_nonneg hal (by linarith)), mul_comm]
  · intro t t0 t1
    obtain ⟨-, x1, x2, -⟩ := C137_hybrid_motion lm hlm p hL hR hRf hR8 h4 hn l hl s hs from_ hf dir t
    have hlt : |a.length * t| ≤ a.length := by
      rw [abs_of_nonneg (mul_nonneg hal t0)]
      exact mul_le_of_le_one_right hal t1
    have hb : p.minTurningRadius * |from_.theta| ≤ p.minTurningRadius * 4 := mul_le_mul_of_nonneg_left hf4 hR.le
    have key : ∀ z, |z| ≤ max |from_.position.x| |from_.position.y| → (2 ^ 53)⁻¹ * (225 * p.minTurningRadius +
        545 * |a.length * t| + 54 * p.minTurningRadius * |from_.theta| + |z|) ≤ (2 ^ 53)⁻¹ * (441 * p.minTurningRadius +
        545 * a.length + max |from_.position.x| |from_.position.y|) := by
      intro z hz
      refine mul_le_mul_of_nonneg_left ?_ (by positivity)
      linarith
    refine (euclid_le_two (x1.trans (key _ (le_max_left _ _))) (x2.trans (key _ (le_max_right _ _)))).trans ?_
    norm_num
    linarith
  · show |a.length - a.length| ≤ _
    rw [sub_self, abs_zero]
    positivity

/-! ## The hypotheses can be met -/

/-- A straight path away from the triangle. -/
private noncomputable def exA : PoseR := ⟨⟨13 / 4, 7 / 2⟩, 0⟩
private noncomputable def exB : PoseR := ⟨⟨15 / 4, 7 / 2⟩, 0⟩

private theorem quarter (n : ℤ) (hn : |n| ≤ 100) : IsFlt 53 ((n : ℝ) / 4) :=
  fl_repr (p := 53) (n := n) (e := -2) (by norm_num) (by rw [zpow_neg]; norm_num; ring) (hn.trans (by norm_num))

private theorem ex_pathF (t : ℝ) (t0 : 0 ≤ t) (t1 : t ≤ 1) :
    let s := (PathSE2.connectF exA exB).interpolateF t
    (3.1 ≤ s.position.x ∧ s.position.x ≤ 3.9) ∧ (3.1 ≤ s.position.y ∧ s.position.y ≤ 3.9) := by
  intro s
  have q1 : IsFlt 53 ((13 : ℝ) / 4) := by have := quarter 13 (by norm_num); rwa [show ((13 : ℤ) : ℝ) = 13 by norm_num] at this
  have q2 : IsFlt 53 ((15 : ℝ) / 4) := by have := quarter 15 (by norm_num); rwa [show ((15 : ℤ) : ℝ) = 15 by norm_num] at this
  have q3 : IsFlt 53 ((7 : ℝ) / 2) := by
    have := quarter 14 (by norm_num)
    rw [show ((14 : ℤ) : ℝ) / 4 = 7 / 2 by norm_num] at this
    exact this
  have z : IsFlt 53 (0 : ℝ) := fl_zero 53
  obtain ⟨-, -, -, h4⟩ := C145_se2 exA exB ⟨⟨q1, q3⟩, z⟩ ⟨⟨q2, q3⟩, z⟩
  obtain ⟨⟨x1, x2⟩, -⟩ := h4 4 0 t ⟨⟨by norm_num [exA, abs_le], by norm_num [exA, abs_le]⟩, by simp [exA]⟩
    ⟨⟨by norm_num [exB, abs_le], by norm_num [exB, abs_le]⟩, by simp [exB]⟩ t0 t1
  have x1 : |s.position.x - ((1 - t) * (13 / 4) + t * (15 / 4))| ≤ 4 / 2 ^ 51 := x1
  have x2 : |s.position.y - ((1 - t) * (7 / 2) + t * (7 / 2))| ≤ 4 / 2 ^ 51 := x2
  norm_num at x1 x2
  rw [abs_le] at x1 x2
  norm_num
  refine ⟨⟨?_, ?_⟩, ?_, ?_⟩ <;> linarith [x1.1, x1.2, x2.1, x2.2]

/-- Non-vacuity: with the triangle registered on the 10 × 10 map and a safe radius of 5.6 m, the program accepts the straight
path from (3.25, 3.5) to (3.75, 3.5), and the guaranteed clearance is positive. -/
example : ∃ (v : Validator) (cells : List Cell) (r : ℝ), SeesMap v (exOneObstacle cells ++ [.update]) ∧
    Tidy (exOneObstacle cells) ∧ v.map = Validator.exMap ∧ 0 < v.minStep ∧
    Shape.gridCellsF bestLibm Validator.exMap ⟨⟨0, 0⟩, 0⟩ exTriangle = some (covers (obstacleOps (exOneObstacle cells)) 0) ∧
    TurnsLeft (placedCorners ⟨⟨0, 0⟩, 0⟩ exTriangle) ∧
    (∀ p, v.map.isInsideCell (v.map.worldPositionToGridCellF p true) = true → reportedDistanceF v p ≤ 13) ∧
    let q : AnyPath := ⟨exA, (PathSE2.connectF exA exB).length, (PathSE2.connectF exA exB).interpolateF⟩
    0 < q.length ∧ q.length ≤ 2 ^ 52 * v.minStep ∧ Headings q ∧ v.isPathValidF q = some (true, r) ∧
      Follows (4 / 2 ^ 48) q (PathSE2.connect exA exB).toAny ∧
      0 < pathClearance v 13 (cornerError 5 ⟨⟨0, 0⟩, 0⟩) q.length (4 / 2 ^ 48) ∧
      ¬ InsideConvex (placedCorners ⟨⟨0, 0⟩, 0⟩ exTriangle) ((PathSE2.connect exA exB).toAny.interpolate 0).position := by
  obtain ⟨cells, hcells, hne, hin, hfar⟩ := exTriangle_cells
  obtain ⟨st, hr⟩ := C90_histories_execute (rows := 10) (columns := 10) (exOneObstacle cells ++ [.update]) (by
    intro o cells hm c hc
    simp [exOneObstacle] at hm
    obtain ⟨-, rfl⟩ := hm
    exact hin c hc) (by simp [exOneObstacle])
  obtain ⟨v, hv⟩ : ∃ v : Validator, v = { Validator.exValidator st.dist.core with minSafe := 5.6 } := ⟨_, rfl⟩
  have hmap : v.map = Validator.exMap := by rw [hv]; rfl
  have hdist : v.dist = st.dist.core := by rw [hv]; rfl
  have hsafe : v.minSafe = 5.6 := by rw [hv]
  have hstep : v.minStep = 1 / 10 := by rw [hv]; rfl
  have sees : SeesMap v (exOneObstacle cells ++ [.update]) := ⟨st, by rw [hmap]; exact hr, hdist⟩
  -- the reported distances
  have hex : ∀ c, InRect 10 10 c → ∃ o ∈ cells, √((ObstDistMap.toInt (st.dist.core.dist c) : Int) : ℝ) = √((sqDist o c : Int) : ℝ) := by
    intro c hc
    obtain ⟨o, ho, e, he, hle⟩ := C90_exact_without_removal hr (exOne_tidy cells) (by simp [exOneObstacle])
      (by
        obtain ⟨c, hc⟩ := List.exists_mem_of_ne_nil cells hne
        exact ⟨c, (exOne_covered cells c).mpr hc⟩) c hc
    refine ⟨o, (exOne_covered cells o).mp ho, ?_⟩
    rw [he, ← hle]
    rfl
  have hD : ∀ p, v.map.isInsideCell (v.map.worldPositionToGridCellF p true) = true → reportedDistanceF v p ≤ 13 := by
    intro p hp
    unfold reportedDistanceF
    rw [hdist]
    rw [hmap] at hp ⊢
    obtain ⟨c, hc⟩ : ∃ c, c = Validator.exMap.worldPositionToGridCellF p true := ⟨_, rfl⟩
    rw [← hc] at hp ⊢
    have hrect : InRect 10 10 c := by
      have : InRect Validator.exMap.rows Validator.exMap.columns c := by simpa [OccMap.isInsideCell, InRect, and_assoc] using hp
      exact this
    obtain ⟨o, ho, he⟩ := hex c hrect
    refine (Validator.worldDistanceF_le (by norm_num [Validator.exMap]) _).trans ?_
    show _ * (√((ObstDistMap.toInt (st.dist.core.dist c) : Int) : ℝ) * 1) ≤ 13
    rw [he, mul_one]
    obtain ⟨q1, q2, q3, q4⟩ := hin o ho
    obtain ⟨p1, p2, p3, p4⟩ := hrect
    have a2 : sqDist o c ≤ (162 : Int) := by unfold sqDist; nlinarith
    have b2 : ((sqDist o c : Int) : ℝ) ≤ 162 := by exact_mod_cast a2
    have : √((sqDist o c : Int) : ℝ) ≤ 12.8 := (Real.sqrt_le_left (by norm_num)).mpr (by norm_num; linarith)
    norm_num at this ⊢
    linarith
  obtain ⟨q, hq⟩ : ∃ q : AnyPath, q = ⟨exA, (PathSE2.connectF exA exB).length, (PathSE2.connectF exA exB).interpolateF⟩ := ⟨_, rfl⟩
  have q1 : IsFlt 53 ((13 : ℝ) / 4) := by have := quarter 13 (by norm_num); rwa [show ((13 : ℤ) : ℝ) = 13 by norm_num] at this
  have q2 : IsFlt 53 ((15 : ℝ) / 4) := by have := quarter 15 (by norm_num); rwa [show ((15 : ℤ) : ℝ) = 15 by norm_num] at this
  have q3 : IsFlt 53 ((7 : ℝ) / 2) := by
    have := quarter 14 (by norm_num)
    rw [show ((14 : ℤ) : ℝ) / 4 = 7 / 2 by norm_num] at this
    exact this
  have z : IsFlt 53 (0 : ℝ) := fl_zero 53
  have hlen : 0.4 ≤ q.length ∧ q.length ≤ 0.6 := by
    obtain ⟨-, -, h3, -⟩ := C145_se2 exA exB ⟨⟨q1, q3⟩, z⟩ ⟨⟨q2, q3⟩, z⟩
    have e : dist2 exA.position exB.position = 1 / 2 := by
      show √((13 / 4 - 15 / 4 : ℝ) ^ 2 + (7 / 2 - 7 / 2) ^ 2) = 1 / 2
      rw [show (13 / 4 - 15 / 4 : ℝ) ^ 2 + (7 / 2 - 7 / 2) ^ 2 = (1 / 2) ^ 2 by norm_num, Real.sqrt_sq (by norm_num)]
    rw [e, abs_le] at h3
    rw [hq]
    norm_num at h3 ⊢
    constructor <;> linarith [h3.1, h3.2]
  have hh : Headings q := Validator.headings_zero (by rw [hq]; rfl) (by
    intro t
    rw [hq]
    have z : fl64 0 = 0 := fl_zero 53
    show fl64 (fl64 (fl64 (1 - t) * 0) + fl64 (t * 0)) = 0
    simp [z])
  have hacc : ∀ t, 0 ≤ t → t ≤ 1 → AcceptableF v (q.interpolate t) := by
    intro t t0 t1
    obtain ⟨⟨x1, x2⟩, y1, y2⟩ := ex_pathF t t0 t1
    have e : q.interpolate t = (PathSE2.connectF exA exB).interpolateF t := by rw [hq]
    have hθ : (q.interpolate t).theta = 0 := by
      rw [e]
      have z : fl64 0 = 0 := fl_zero 53
      show fl64 (fl64 (fl64 (1 - t) * 0) + fl64 (t * 0)) = 0
      simp [z]
    rw [← e] at x1 x2 y1 y2
    refine Validator.ex_acceptableF v (by rw [hv]; rfl) hmap _ ⟨by linarith, by linarith⟩ ⟨by linarith, by linarith⟩ hθ ?_
    have key : ∀ x : ℝ, 3.1 ≤ x → x ≤ 3.9 → truncInt (fl64 (fl64 (x - -5) / 1)) = 8 := by
      intro x h1 h2
      have b : ∀ y : ℝ, 8 ≤ y → y ≤ 8.95 → |fl64 y - y| ≤ 1 / 1000 := by
        intro y y1 y2
        refine (fl_rel 53 y).trans ?_
        rw [abs_of_nonneg (by linarith)]
        norm_num
        linarith
      have b1 := abs_le.1 (b (x - -5) (by linarith) (by linarith))
      have b2 := abs_le.1 (b (fl64 (x - -5) / 1) (by rw [div_one]; linarith [b1.1]) (by rw [div_one]; linarith [b1.2]))
      rw [div_one] at b2
      unfold truncInt
      rw [div_one, if_pos (by linarith [b1.1, b2.1]), Int.floor_eq_iff]
      push_cast
      constructor <;> linarith [b1.1, b2.1, b1.2, b2.2]
    have hcell : Validator.exMap.worldPositionToGridCellF (q.interpolate t).position true = ⟨8, 8⟩ := by
      have e : ∀ c : Cell, c = ⟨truncInt (fl64 (fl64 ((q.interpolate t).position.x - -5) / 1)),
          truncInt (fl64 (fl64 ((q.interpolate t).position.y - -5) / 1))⟩ →
          Validator.exMap.worldPositionToGridCellF (q.interpolate t).position true =
            if Validator.exMap.isInsideCell c then c else ⟨-1, -1⟩ := by
        rintro c rfl; rfl
      rw [e _ rfl, key _ x1 x2, key _ y1 y2]
      simp [OccMap.isInsideCell, Validator.exMap]
    unfold reportedDistanceF
    rw [hdist, hmap, hcell, hsafe]
    obtain ⟨o, ho, he⟩ := hex ⟨8, 8⟩ (by simp [InRect])
    refine le_trans ?_ (Validator.le_worldDistanceF (by norm_num [Validator.exMap]) _)
    show _ ≤ _ * (√((ObstDistMap.toInt (st.dist.core.dist ⟨8, 8⟩) : Int) : ℝ) * 1)
    rw [he, mul_one]
    obtain ⟨r1, r2⟩ := hfar o ho
    have a1 : (32 : Int) ≤ sqDist o ⟨8, 8⟩ := by unfold sqDist; dsimp only; nlinarith
    have b1 : (32 : ℝ) ≤ ((sqDist o ⟨8, 8⟩ : Int) : ℝ) := by exact_mod_cast a1
    have : 5.65 ≤ √((sqDist o ⟨8, 8⟩ : Int) : ℝ) := Real.le_sqrt_of_sq_le (by norm_num; linarith)
    norm_num at this ⊢
    linarith
  have hvalid := Validator.not_rejectedF (seesF_sameSize sees) (by rw [hstep]; norm_num) (by linarith [hlen.1])
    (by rw [hstep]; norm_num; linarith [hlen.2]) hh hacc
  have hcor : placedCorners ⟨⟨0, 0⟩, 0⟩ exTriangle = [⟨-4.5, -4.5⟩, ⟨-2.5, -4.5⟩, ⟨-4.5, -2.5⟩] := by
    simp [placedCorners, exTriangle, Shape.place]
  refine ⟨v, cells, 1, sees, exOne_tidy _, hmap, by rw [hstep]; norm_num, ?_, ?_, hD, ?_⟩
  · rw [exOne_covers, exTriangle_cellsF]; exact hcells
  · rw [hcor]
    intro i a b c h1 h2 h3
    rcases i with _ | _ | _ | i <;> simp at h1 h2 h3 <;> subst h1 <;> subst h2 <;> subst h3 <;> norm_num [leftOf]
  · rw [← hq]
    refine ⟨by linarith [hlen.1], by rw [hstep]; norm_num; linarith [hlen.2], hh, hvalid, ?_, ?_, ?_⟩
    · rw [hq]
      exact C148_straight_follows exA exB ⟨⟨q1, q3⟩, z⟩ ⟨⟨q2, q3⟩, z⟩ 4
        ⟨by norm_num [exA, abs_le], by norm_num [exA, abs_le]⟩ ⟨by norm_num [exB, abs_le], by norm_num [exB, abs_le]⟩
    · have s2 : √2 < 1.4143 := by rw [Real.sqrt_lt' (by norm_num)]; norm_num
      have s2' : 1.4142 < √2 := by rw [Real.lt_sqrt (by norm_num)]; norm_num
      have hk : √(4 - 2 * √2) < 1.0825 := by rw [Real.sqrt_lt' (by norm_num)]; norm_num; linarith
      have ho : overestimate < 1.083 := by unfold overestimate; norm_num; linarith
      have ho1 := over_bounds
      have i1 : 1 / 1.083 < 1 / overestimate := one_div_lt_one_div_of_lt (by linarith) ho
      have i2 : 5.6 / 1.083 < 5.6 / overestimate := div_lt_div_of_pos_left (by norm_num) (by linarith) ho
      unfold pathClearance cornerError
      rw [hsafe, hstep, hmap, show Validator.exMap.resolution = 1 from rfl]
      have hmin : 4.6 < min (5.6 - (1 - 1 / overestimate) * 13 - (2 ^ 23)⁻¹ * (13 - 5.6))
          (5.6 / overestimate - (1 + (2 ^ 53)⁻¹) * (1 / 10)) := by
        refine lt_min ?_ ?_
        · norm_num at i1 ⊢; linarith
        · norm_num at i2 ⊢; linarith
      have := hlen.2
      obtain ⟨m, hm⟩ : ∃ m, m = min (5.6 - (1 - 1 / overestimate) * 13 - (2 ^ 23)⁻¹ * (13 - 5.6))
          (5.6 / overestimate - (1 + (2 ^ 53)⁻¹) * (1 / 10)) := ⟨_, rfl⟩
      rw [← hm] at hmin ⊢
      norm_num at this hmin s2 ⊢
      linarith
    · rw [hcor]
      intro hI
      have := hI ⟨-2.5, -4.5⟩ ⟨-4.5, -2.5⟩ ⟨1, by simp⟩
      have e : ((PathSE2.connect exA exB).toAny.interpolate 0).position = exA.position := by
        show (⟨(1 - 0) * (13 / 4) + 0 * (15 / 4), (1 - 0) * (7 / 2) + 0 * (7 / 2)⟩ : Pt) = ⟨13 / 4, 7 / 2⟩
        norm_num
      rw [e] at this
      unfold leftOf exA at this
      norm_num at this

end PathPlanning
