import Verif.Props.ShapeNear
import Verif.Props.HybridResult
import Verif.Props.HybridClearance

/-!
# C92: the planned path and the outlines of the registered obstacles
-/

namespace PathPlanning
open Real Spec HybridAStar HybridAStar.Propagator Validator

/-- The loss of the path check in the clearance: `r` is the distance reported where it looked. -/
theorem check_loss {k r safe step D : ℝ} (hk : 1 ≤ k) (h1 : safe ≤ r) (h2 : r ≤ D) :
    min (safe - (1 - 1 / k) * D) (safe / k - step) ≤ r / k - max (r - safe) step := by
  have hk0 : 0 < k := by linarith
  have h3 : 0 ≤ 1 - 1 / k := by
    rw [sub_nonneg, div_le_one hk0]; exact hk
  rcases le_total (r - safe) step with h | h
  · rw [max_eq_right h]
    refine le_trans (min_le_right _ _) ?_
    have : safe / k ≤ r / k := by gcongr
    linarith
  · rw [max_eq_left h]
    refine le_trans (min_le_left _ _) ?_
    have e : r / k = r * (1 / k) := by ring
    rw [e]
    nlinarith

/-- C92: the clearance of a motion that passed the path check after Update, from the outline of a registered
obstacle, at all its poses. `D` bounds the distances that the map reports. -/
theorem C92_checked_motion_keeps_clear (v : Validator) (ops : List MapState.Op) (hv : SeesMap v (ops ++ [.update]))
    (ht : Tidy ops) (hres : 0 < v.map.resolution) (o : Nat) (ho : registered (obstacleOps ops) o = true)
    (pose : PoseR) (shape : Shape) (hcells : Shape.gridCells v.map pose shape = some (covers (obstacleOps ops) o))
    (hin : ∀ u, IsCorner pose shape u → Inside v.map.size (v.map.worldPositionToGridCell u false))
    (D : ℝ) (hD : ∀ p, v.map.isInsidePos p = true → reportedDistance v p ≤ D)
    (a : Action) (hspeed : UnitSpeed a.any) (hck : Checked v a) (hl : 0 < a.length)
    (t : ℝ) (h0 : 0 ≤ t) (h1 : t ≤ 1) (p : Pt) (hp : OnOutline pose shape p) :
    min (v.minSafe - (1 - 1 / √(4 - 2 * √2)) * D) (v.minSafe / √(4 - 2 * √2) - v.minStep)
      - (√2 + 5 / 2) * v.map.resolution ≤ euclid (a.interpolate t).position p := by
  obtain ⟨c, hc, hd⟩ := C91_outline_near_cells v.map hres pose shape hin _ hcells p hp
  obtain ⟨st, hr, hdist⟩ := hv
  have hops : obstacleOps (ops ++ [.update]) = obstacleOps ops := by
    rw [MapState.obstacleOps_snoc]; simp
  obtain ⟨dops, hrun, hob, hlast, -⟩ :=
    MapState.tidy hr ⟨by rw [hops]; exact ht.still, by rw [hops]; exact ht.apart⟩
  obtain ⟨d, rfl⟩ := hlast ops rfl
  rw [← hdist] at hrun
  have hoo : c ∈ obstacles d := by
    have : c ∈ obstacles (d ++ [.update]) := by
      rw [hob]; unfold Covered; rw [hops]; exact ⟨o, ho, hc⟩
    rwa [MapState.obstacles_snoc] at this
  have h8 : √2 < 1.5 := by
    rw [Real.sqrt_lt' (by norm_num)]; norm_num
  have hk1 : 1 ≤ √(4 - 2 * √2) := by
    rw [Real.one_le_sqrt]; linarith
  -- before the end
  have before : ∀ t, 0 ≤ t → t < 1 →
      min (v.minSafe - (1 - 1 / √(4 - 2 * √2)) * D) (v.minSafe / √(4 - 2 * √2) - v.minStep)
        - √2 * v.map.resolution ≤ euclid (a.interpolate t).position (v.map.gridCellToWorldPosition c) := by
    intro t h0 h1
    obtain ⟨x, x1, x2, x3, x4⟩ := hck (t * a.length) (mul_nonneg h0 hl.le) (by nlinarith)
    obtain ⟨b, -, -, b3, b4⟩ := clearance_at hres (q := a.any) hl hspeed c _ (by linarith)
      (reported_le hres hrun c hoo) t h1 x1 x2 x3 x4
    have := check_loss (step := v.minStep) hk1 b3.clear (hD _ b3.inside)
    have b4 : _ ≤ euclid (a.interpolate t).position (v.map.gridCellToWorldPosition c) := b4
    linarith
  -- at the end, by continuity
  have all : min (v.minSafe - (1 - 1 / √(4 - 2 * √2)) * D) (v.minSafe / √(4 - 2 * √2) - v.minStep)
        - √2 * v.map.resolution ≤ euclid (a.interpolate t).position (v.map.gridCellToWorldPosition c) := by
    rcases h1.lt_or_eq with h | rfl
    · exact before t h0 h
    · refine le_of_forall_pos_le_add fun ε hε => ?_
      obtain ⟨δ, hδ0, hδ1, hδ⟩ : ∃ δ : ℝ, 0 < δ ∧ δ ≤ 1 ∧ δ * a.length ≤ ε := by
        refine ⟨min 1 (ε / a.length), lt_min one_pos (div_pos hε hl), min_le_left _ _, ?_⟩
        calc min 1 (ε / a.length) * a.length ≤ ε / a.length * a.length := by
              gcongr; exact min_le_right _ _
          _ = ε := by field_simp
      have h3 := before (1 - δ) (by linarith) (by linarith)
      have h4 : euclid (a.interpolate (1 - δ)).position (a.interpolate 1).position ≤ (1 - (1 - δ)) * a.length :=
        hspeed (1 - δ) 1 (by linarith) (by linarith) le_rfl
      have h5 := euclid_triangle (a.interpolate (1 - δ)).position (a.interpolate 1).position
        (v.map.gridCellToWorldPosition c)
      have h6 : (1 - (1 - δ)) * a.length = δ * a.length := by ring
      linarith
  have h2 := euclid_triangle (a.interpolate t).position p (v.map.gridCellToWorldPosition c)
  linarith

/-- C92: what `SearchPath` of hybrid A* returns after an update of the map. There are motions of the vehicle from the
start that keep clear of the outline of every registered obstacle; the returned path consists of samples of these
motions, or of states that keep clear of the outlines by the safe radius less 7.7 % and four cells. -/
theorem C92_planned_path_keeps_clear (e : Propagator) (hc : Configured e) (random : Nat → ℝ)
    (nbrs : Nat → State → List (State × Action × WithTop ℝ)) (h : e.Answers random nbrs)
    (d : ℝ) (hd : 0 < d) (dflt : PoseR) (sp : SmoothParam) (ob ed : Cell → Cell) (maxIterations : Int)
    (old : List PoseR) (fuel : Nat) (init : PoseR) (path : List PoseR)
    (hs : searchPath e nbrs d dflt
      (smoothPoses (sp.terms e.validator.map ob ed) maxIterations e.validator.isStateValid) old fuel init
        = some (.success, path))
    (ops : List MapState.Op) (hv : SeesMap e.validator (ops ++ [.update])) (ht : Tidy ops)
    (hres : 0 < e.validator.map.resolution) (pose : Nat → PoseR) (shape : Nat → Shape)
    (hcells : ∀ o, registered (obstacleOps ops) o = true →
      Shape.gridCells e.validator.map (pose o) (shape o) = some (covers (obstacleOps ops) o) ∧
      ∀ u, IsCorner (pose o) (shape o) u →
        Inside e.validator.map.size (e.validator.map.worldPositionToGridCell u false))
    (D : ℝ) (hD : ∀ p, e.validator.map.isInsidePos p = true → reportedDistance e.validator p ≤ D) :
    ∃ actions q states, Joined init actions q ∧ SampledPath actions init q d states ∧
      (∀ a ∈ actions, a.length ≠ 0 → ∀ t, 0 ≤ t → t ≤ 1 →
        ∀ o, registered (obstacleOps ops) o = true → ∀ p, OnOutline (pose o) (shape o) p →
          min (e.validator.minSafe - (1 - 1 / √(4 - 2 * √2)) * D)
            (e.validator.minSafe / √(4 - 2 * √2) - e.validator.minStep)
            - (√2 + 5 / 2) * e.validator.map.resolution ≤ euclid (a.interpolate t).position p) ∧
      (path = states ∨ ∀ s ∈ path,
        ∀ o, registered (obstacleOps ops) o = true → ∀ p, OnOutline (pose o) (shape o) p →
          e.validator.minSafe / √(4 - 2 * √2) - (√2 + 5 / 2) * e.validator.map.resolution ≤ euclid s.position p) := by
  obtain ⟨actions, q, states, h1, -, h3, h4, -, h5⟩ := (C86_result e hc random nbrs h d hd dflt sp ob ed maxIterations old
    fuel init .success path hs).2 rfl
  refine ⟨actions, q, states, h1, h4, ?_, ?_⟩
  · intro a ha hl t h0 ht1 o ho p hp
    obtain ⟨m1, m2, m3⟩ := h3 a ha
    exact C92_checked_motion_keeps_clear e.validator ops hv ht hres o ho (pose o) (shape o) (hcells o ho).1
      (hcells o ho).2 D hD a (motion_unit_speed hc.radius m1) m3 (lt_of_le_of_ne m2 (Ne.symm hl)) t h0 ht1 p hp
  · rcases h5 with h5 | h5
    · exact Or.inl h5
    · refine Or.inr fun s hs o ho p hp => ?_
      obtain ⟨b, hb, hb'⟩ := C53_state_valid_iff e.validator hc.size s
      rw [hb'.mpr (h5 s hs)] at hb
      exact C92_accepted_state_keeps_clear e.validator ops hv ht hres s hb o ho (pose o) (shape o) (hcells o ho).1
        (hcells o ho).2 p hp

/-- C92: such a bound on the reported distances exists as soon as a cell is covered: the diagonal of the map plus
8.3 %. -/
theorem C92_reported_distance_bounded (v : Validator) (ops : List MapState.Op) (hv : SeesMap v (ops ++ [.update]))
    (ht : Tidy ops) (hres : 0 < v.map.resolution) (o : Cell) (ho : Covered ops o)
    (hino : InRect v.map.rows v.map.columns o) (p : Pt) (hp : v.map.isInsidePos p = true) :
    reportedDistance v p ≤ √(4 - 2 * √2) *
      (√((((v.map.rows - 1) ^ 2 + (v.map.columns - 1) ^ 2 : Int)) : ℝ) * v.map.resolution) := by
  obtain ⟨st, hr, hd⟩ := hv
  have hc := inRect_of_inside hp
  have hops : obstacleOps (ops ++ [.update]) = obstacleOps ops := by
    rw [MapState.obstacleOps_snoc]; simp
  obtain ⟨dops, hrun, hob, hlast, -⟩ :=
    MapState.tidy hr ⟨by rw [hops]; exact ht.still, by rw [hops]; exact ht.apart⟩
  obtain ⟨d, rfl⟩ := hlast ops rfl
  rw [← hd] at hrun
  have hoo : o ∈ obstacles d := by
    have : o ∈ obstacles (d ++ [.update]) := by
      rw [hob]; unfold Covered; rw [hops]; exact ho
    rwa [MapState.obstacles_snoc] at this
  refine le_trans (reported_le hres hrun o hoo p hp) ?_
  have hle : sqDist o (v.map.worldPositionToGridCell p true) ≤
      (v.map.rows - 1) ^ 2 + (v.map.columns - 1) ^ 2 := by
    obtain ⟨a1, a2, a3, a4⟩ := hino
    obtain ⟨b1, b2, b3, b4⟩ := hc
    unfold sqDist
    have e1 := sq_le_sq' (show -(v.map.rows - 1) ≤ o.row - (v.map.worldPositionToGridCell p true).row by omega)
      (show o.row - (v.map.worldPositionToGridCell p true).row ≤ v.map.rows - 1 by omega)
    have e2 := sq_le_sq' (show -(v.map.columns - 1) ≤ o.col - (v.map.worldPositionToGridCell p true).col by omega)
      (show o.col - (v.map.worldPositionToGridCell p true).col ≤ v.map.columns - 1 by omega)
    omega
  gcongr

end PathPlanning
