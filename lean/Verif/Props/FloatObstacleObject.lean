import Verif.Props.FloatObstacle
import Verif.Props.Obstacle

/-!
# C146 for obstacle objects
-/

namespace PathPlanning
open Flt Spec

/-- C146 for an obstacle object, after any history of calls of `SetShape` and `SetPose`. The positions that it reports are
the corners of the last shape at the last pose, in the same order, up to a few roundings. The cells that it reports for a map
are defined; every point of the outline of the last shape at the last pose is near one of them if the corners are in the map,
and each of them is near that outline if the corners are not too far away. -/
theorem C146_obstacle (lm : Libm) (hlm : lm.Accurate) (junk : Pt) (ops : List Obstacle.Op) (shape : Shape) (pose : PoseR)
    (hs : lastShape ops = some shape) (hp : lastPose ops = some pose) (hpose : IsFlt 53 pose.theta) (W : ℝ)
    (hW : FitsIn W shape) :
    (∃ pts, ((Obstacle.new junk).after ops).getBoundaryWorldPositionF lm = some pts ∧
      List.Forall₂ (Within (cornerError W pose)) pts (shape.verticesPosition pose)) ∧
    ∀ m : OccMap, 0 < m.resolution → m.rows ≤ 2 ^ 31 → m.columns ≤ 2 ^ 31 →
      ∃ cells, ((Obstacle.new junk).after ops).getBoundaryGridCellPositionF lm m = some cells ∧
        ((∀ u, IsVertex shape u → Inside m.size (m.worldPositionToGridCellF (Shape.placeF lm pose u) false)) →
          ∀ p, OnOutline pose shape p → ∃ c ∈ cells, euclid p (m.gridCellToWorldPosition c) ≤
            (5 / 2 + (2 ^ 18)⁻¹) * m.resolution + √2 * cornerError W pose) ∧
        ((∀ u, IsVertex shape u → NearMap m (Shape.placeF lm pose u)) →
          ∀ c ∈ cells, ∃ p, OnOutline pose shape p ∧ euclid p (m.gridCellToWorldPosition c) ≤
            (√13 / 2 + (2 ^ 18)⁻¹) * m.resolution + √2 * cornerError W pose) := by
  rw [new_after, hs, hp]
  refine ⟨⟨_, rfl, C146_vertices lm hlm pose hpose W shape hW⟩, fun m hres hrows hcols => ?_⟩
  obtain ⟨cells, hcells⟩ := Option.isSome_iff_exists.mp (gridCellsF_total lm m pose shape)
  exact ⟨cells, hcells,
    fun hin p hon => C146_outline_near_cells lm hlm m hres hrows hcols pose hpose W shape hW hin cells hcells p hon,
    fun hnear c hc => C146_cells_near_outline lm hlm m hres pose hpose W shape hW hnear cells hcells c hc⟩

/-- C146: without a shape both functions dereference a null pointer. -/
theorem C146_no_shape (lm : Libm) (junk : Pt) (ops : List Obstacle.Op) (hs : lastShape ops = none) (m : OccMap) :
    ((Obstacle.new junk).after ops).getBoundaryWorldPositionF lm = none ∧
    ((Obstacle.new junk).after ops).getBoundaryGridCellPositionF lm m = none := by
  rw [new_after, hs]
  exact ⟨rfl, rfl⟩

/-- The hypotheses of `C146_obstacle` hold for a triangle that is moved and then turned. -/
example : lastShape [.setPose ⟨⟨1, 1⟩, 0⟩, .setShape (some (.polygon [⟨0, 0⟩, ⟨2, 0⟩, ⟨0, 1⟩])), .setPose ⟨⟨3, 1⟩, 1⟩] =
      some (.polygon [⟨0, 0⟩, ⟨2, 0⟩, ⟨0, 1⟩]) ∧
    lastPose [.setPose ⟨⟨1, 1⟩, 0⟩, .setShape (some (.polygon [⟨0, 0⟩, ⟨2, 0⟩, ⟨0, 1⟩])), .setPose ⟨⟨3, 1⟩, 1⟩] =
      some ⟨⟨3, 1⟩, 1⟩ ∧
    IsFlt 53 1 ∧ FitsIn 2 (.polygon [⟨0, 0⟩, ⟨2, 0⟩, ⟨0, 1⟩]) := by
  refine ⟨rfl, rfl, ?_, ?_⟩
  · have := fl_int (p := 53) (by norm_num) (n := 1) (by norm_num)
    simpa [IsFlt] using this
  · intro u hu
    cases hu with
    | corner h =>
      simp only [List.mem_cons, List.not_mem_nil, or_false] at h
      rcases h with rfl | rfl | rfl <;> constructor <;> norm_num

end PathPlanning
