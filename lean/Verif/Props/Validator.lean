import Verif.Spec.Validator
import Verif.Props.StateSpace
import Verif.Props.DistMap
import Verif.Props.Pose

/-! # C53: state and path validation -/

namespace PathPlanning
open Spec

namespace Validator

theorem inside_eq {v : Validator} (h : SameSize v) (c : Cell) : v.dist.inside c = v.map.isInsideCell c := by
  unfold DistMap.inside OccMap.isInsideCell
  rw [h.1, h.2]

/-- C53: `IsStateValid` accepts exactly the acceptable states (and never reads outside the map). -/
theorem C53_state_valid_iff (v : Validator) (h : SameSize v) (s : PoseR) :
    ∃ b, v.isStateValid s = some b ∧ (b = true ↔ Acceptable v s) := by
  unfold isStateValid
  obtain ⟨bd, hbd⟩ : ∃ bd, bd = v.space.validateBounds
    (PoseR.mk' (v.map.worldPositionToLocalPosition s.position) s.theta) := ⟨_, rfl⟩
  have hb := C43_se2_validate v.space (PoseR.mk' (v.map.worldPositionToLocalPosition s.position) s.theta)
  rw [← hbd] at hb
  dsimp only
  rw [← hbd]
  obtain ⟨ins, hins⟩ : ∃ b, b = v.map.isInsideCell (v.map.worldPositionToGridCell s.position true) := ⟨_, rfl⟩
  have hpos : v.map.isInsidePos s.position = ins := hins.symm
  rw [← hins]
  cases bd with
  | false =>
    refine ⟨false, by simp, ?_⟩
    constructor
    · intro hc; cases hc
    · intro ha
      have := hb.mpr (by
        obtain ⟨h1, h2, h3, h4, h5, h6, -, -⟩ := ha
        simp only [PoseR.mk', OccMap.worldPositionToLocalPosition, Pt.sub_x, Pt.sub_y]
        tauto)
      cases this
  | true =>
    cases hi : ins with
    | false =>
      refine ⟨false, by simp, ?_⟩
      constructor
      · intro hc; cases hc
      · intro ha; rw [hi] at hpos; rw [ha.inside] at hpos; cases hpos
    | true =>
      rw [hi] at hins hpos
      have hr : v.dist.read v.dist.dist (v.map.worldPositionToGridCell s.position true) =
          some (v.dist.dist (v.map.worldPositionToGridCell s.position true)) := by
        unfold DistMap.read
        rw [inside_eq h, ← hins]; rfl
      refine ⟨decide (reportedDistance v s.position ≥ v.minSafe), ?_, ?_⟩
      · simp [obstacleDistance, hr, reportedDistance]
      · rw [decide_eq_true_eq]
        have hb := hb.mp rfl
        simp only [PoseR.mk', OccMap.worldPositionToLocalPosition, Pt.sub_x, Pt.sub_y] at hb
        constructor
        · intro hc
          exact ⟨by tauto, by tauto, by tauto, by tauto, by tauto, by tauto, hpos, hc⟩
        · intro ha; exact ha.clear

theorem increment_eq {v : Validator} (h : SameSize v) {s : PoseR} (ha : Acceptable v s) :
    v.increment s = some (max (freeDistance v s) v.minStep) := by
  have hr : v.dist.read v.dist.dist (v.map.worldPositionToGridCell s.position true) =
      some (v.dist.dist (v.map.worldPositionToGridCell s.position true)) := by
    unfold DistMap.read
    rw [inside_eq h]
    have : v.map.isInsideCell (v.map.worldPositionToGridCell s.position true) = true := ha.inside
    rw [this]; rfl
  unfold increment obstacleDistance
  rw [hr]
  rfl

/-- The state of the path at a distance from its start. -/
noncomputable def _root_.PathPlanning.AnyPath.at (q : AnyPath) (s : ℝ) : PoseR := q.interpolate (s / q.length)

/-- Every distance up to `b` is covered by a checked state. -/
private def Covered (v : Validator) (q : AnyPath) (b : ℝ) : Prop :=
  ∀ s, 0 ≤ s → s < b → ∃ a, 0 ≤ a ∧ a ≤ s ∧ a < q.length ∧ Acceptable v (q.at a) ∧
    s - a < max (freeDistance v (q.at a)) v.minStep

private theorem loop_spec {v : Validator} (h : SameSize v) (hstep : 0 < v.minStep) (q : AnyPath) :
    ∀ (n : Nat) (length last : ℝ), q.length - length ≤ n * v.minStep → 0 ≤ length → 0 ≤ last →
      last ≤ length →
      Covered v q length →
      (length = 0 ∧ last = 0 ∨
        Acceptable v (q.at last) ∧ length = last + max (freeDistance v (q.at last)) v.minStep) →
      ∃ r, v.pathLoop q length last = some r ∧
        (r.1 = true → r.2 = 1 ∧ Covered v q q.length) ∧
        (r.1 = false → ∃ a b, r.2 = a / q.length ∧ 0 ≤ a ∧ a ≤ b ∧ b < q.length ∧
          ¬ Acceptable v (q.at b) ∧ Covered v q b ∧
          (b = 0 ∧ a = 0 ∨ Acceptable v (q.at a) ∧ b = a + max (freeDistance v (q.at a)) v.minStep)) := by
  intro n
  induction n with
  | zero =>
    intro length last hn h0 _ _ hcov _
    rw [pathLoop]
    have : ¬ length < q.length := by push_cast at hn; linarith
    rw [if_neg this]
    refine ⟨_, rfl, fun _ => ⟨rfl, fun s hs hsb => hcov s hs (by linarith)⟩, fun hc => by cases hc⟩
  | succ n ih =>
    intro length last hn h0 hl0 hll hcov hlast
    rw [pathLoop]
    by_cases hlt : length < q.length
    · rw [if_pos hlt]
      obtain ⟨b, hb, hacc⟩ := C53_state_valid_iff v h (q.at length)
      have hb' : v.isStateValid (q.interpolate (length / q.length)) = some b := hb
      dsimp only
      rw [hb']
      cases b with
      | false =>
        refine ⟨_, rfl, fun hc => (by cases hc), fun _ => ⟨last, length, rfl, hl0, hll, hlt, ?_, hcov, hlast⟩⟩
        intro ha; have := hacc.mpr ha; cases this
      | true =>
        have ha := hacc.mp rfl
        have hi : v.increment (q.interpolate (length / q.length)) =
          some (max (freeDistance v (q.at length)) v.minStep) := increment_eq h ha
        simp only [Option.bind_eq_bind, Option.bind_some, if_true, hi]
        have hm : v.minStep ≤ max (freeDistance v (q.at length)) v.minStep := le_max_right _ _
        refine ih _ length ?_ (by linarith) h0 (by linarith) ?_ (Or.inr ⟨ha, rfl⟩)
        · push_cast at hn ⊢; linarith
        · intro s hs hsb
          by_cases hsl : s < length
          · exact hcov s hs hsl
          · exact ⟨length, h0, by linarith, hlt, ha, by linarith⟩
    · rw [if_neg hlt]
      refine ⟨_, rfl, fun _ => ⟨rfl, fun s hs hsb => hcov s hs (by linarith)⟩, fun hc => by cases hc⟩

private theorem path_spec {v : Validator} (h : SameSize v) (hstep : 0 < v.minStep) (q : AnyPath)
    (hq : q.length ≠ 0) : ∃ r, v.isPathValid q = some r ∧
        (r.1 = true → r.2 = 1 ∧ Covered v q q.length) ∧
        (r.1 = false → ∃ a b, r.2 = a / q.length ∧ 0 ≤ a ∧ a ≤ b ∧ b < q.length ∧
          ¬ Acceptable v (q.at b) ∧ Covered v q b ∧
          (b = 0 ∧ a = 0 ∨ Acceptable v (q.at a) ∧ b = a + max (freeDistance v (q.at a)) v.minStep)) := by
  unfold isPathValid
  rw [if_neg hq]
  obtain ⟨n, hn⟩ := exists_nat_ge (q.length / v.minStep)
  refine loop_spec h hstep q n 0 0 ?_ le_rfl le_rfl le_rfl (fun s h1 h2 => by linarith) (Or.inl ⟨rfl, rfl⟩)
  rw [div_le_iff₀ hstep] at hn
  linarith

/-- C53: with a positive interpolation step `IsPathValid` terminates, without reading outside the map. -/
theorem C53_terminates (v : Validator) (h : SameSize v) (hstep : 0 < v.minStep) (q : AnyPath) :
    ∃ r, v.isPathValid q = some r := by
  by_cases hq : q.length = 0
  · unfold isPathValid
    rw [if_pos hq]
    obtain ⟨b, hb, -⟩ := C53_state_valid_iff v h q.init
    exact ⟨_, by rw [hb]; rfl⟩
  · obtain ⟨r, hr, -⟩ := path_spec h hstep q hq
    exact ⟨r, hr⟩

/-- C53: an accepted path of positive length starts with an acceptable state, and each of its states
follows an acceptable one at less than the free distance (or the interpolation step). Missing: the
final state need not be acceptable (`C53_final_state_not_checked`). -/
theorem C53_accepted_partial (v : Validator) (h : SameSize v) (hstep : 0 < v.minStep) (q : AnyPath)
    (hq : 0 < q.length) (r : ℝ) (ha : v.isPathValid q = some (true, r)) :
    r = 1 ∧ Acceptable v (q.interpolate 0) ∧
    ∀ s, 0 ≤ s → s < q.length → ∃ a, 0 ≤ a ∧ a ≤ s ∧ Acceptable v (q.interpolate (a / q.length)) ∧
      s - a < max (freeDistance v (q.interpolate (a / q.length))) v.minStep := by
  obtain ⟨r', hr, h1, -⟩ := path_spec h hstep q hq.ne'
  rw [ha] at hr
  injection hr with hr
  subst hr
  obtain ⟨h2, h3⟩ := h1 rfl
  refine ⟨h2, ?_, fun s hs hsl => ?_⟩
  · obtain ⟨a, h4, h5, -, h6, -⟩ := h3 0 le_rfl hq
    obtain rfl : a = 0 := le_antisymm h5 h4
    simpa [AnyPath.at] using h6
  · obtain ⟨a, h4, h5, -, h6, h7⟩ := h3 s hs hsl
    exact ⟨a, h4, h5, h6, h7⟩

/-- C53: a rejected path has an unacceptable state; the returned ratio is that of the last state
checked before it, which is acceptable (or the unacceptable state is the first one, with ratio 0). All
states checked before are acceptable. -/
theorem C53_rejected (v : Validator) (h : SameSize v) (hstep : 0 < v.minStep) (q : AnyPath)
    (hq : 0 < q.length) (r : ℝ) (ha : v.isPathValid q = some (false, r)) :
    ∃ bad, 0 ≤ r ∧ r ≤ bad ∧ bad < 1 ∧ ¬ Acceptable v (q.interpolate bad) ∧
      (bad = 0 ∧ r = 0 ∨ Acceptable v (q.interpolate r) ∧
        (bad - r) * q.length = max (freeDistance v (q.interpolate r)) v.minStep) ∧
      ∀ s, 0 ≤ s → s < bad * q.length → ∃ a, 0 ≤ a ∧ a ≤ s ∧
        Acceptable v (q.interpolate (a / q.length)) ∧
        s - a < max (freeDistance v (q.interpolate (a / q.length))) v.minStep := by
  obtain ⟨r', hr, -, h1⟩ := path_spec h hstep q hq.ne'
  rw [ha] at hr
  injection hr with hr
  subst hr
  obtain ⟨a, b, h2, h3, h4, h5, h6, h7, h8⟩ := h1 rfl
  have h2 : r = a / q.length := h2
  refine ⟨b / q.length, by rw [h2]; exact div_nonneg h3 hq.le, by rw [h2]; gcongr,
    (div_lt_one hq).mpr h5, h6, ?_, ?_⟩
  · rcases h8 with ⟨rfl, rfl⟩ | ⟨h8, h9⟩
    · left; simp [h2]
    · right
      rw [h2]
      refine ⟨h8, ?_⟩
      rw [sub_mul, div_mul_cancel₀ _ hq.ne', div_mul_cancel₀ _ hq.ne']
      show _ = max (freeDistance v (q.at a)) v.minStep
      linarith
  · intro s hs hsb
    rw [div_mul_cancel₀ _ hq.ne'] at hsb
    obtain ⟨a, h4, h5, -, h6, h7⟩ := h7 s hs hsb
    exact ⟨a, h4, h5, h6, h7⟩

/-- C53: a path of length 0 is accepted exactly if its initial state is acceptable. -/
theorem C53_length_zero (v : Validator) (h : SameSize v) (q : AnyPath) (hq : q.length = 0) :
    ∃ b, v.isPathValid q = some (b, 1) ∧ (b = true ↔ Acceptable v q.init) := by
  obtain ⟨b, hb, hb'⟩ := C53_state_valid_iff v h q.init
  exact ⟨b, by unfold isPathValid; rw [if_pos hq, hb]; rfl, hb'⟩

/-- C53: without a positive interpolation step `IsPathValid` need not terminate: it does not when the
initial state is acceptable and its free distance is 0. -/
theorem C53_zero_step_does_not_end (v : Validator) (h : SameSize v) (q : AnyPath) (hq : 0 < q.length)
    (hstep : v.minStep = 0) (ha : Acceptable v (q.interpolate 0))
    (hf : freeDistance v (q.interpolate 0) = 0) : v.isPathValid q = none := by
  have key : ∀ length last r, v.pathLoop q length last = some r → length = 0 → False := by
    intro length last r
    refine pathLoop.partial_correctness v q (fun length _ _ => length = 0 → False) ?_ length last r
    intro f ih length last r hr h0
    subst h0
    rw [if_pos hq] at hr
    dsimp only at hr
    rw [zero_div] at hr
    obtain ⟨b, hb, hb'⟩ := C53_state_valid_iff v h (q.interpolate 0)
    rw [hb'.mpr ha] at hb
    rw [hb] at hr
    simp only [Option.bind_eq_bind, Option.bind_some, if_true, increment_eq h ha, hf, hstep, max_self,
      add_zero] at hr
    exact ih _ _ _ hr rfl
  unfold isPathValid
  rw [if_neg hq.ne']
  cases hr : v.pathLoop q 0 0 with
  | none => rfl
  | some r => exact (key _ _ _ hr rfl).elim

end Validator
end PathPlanning
