import Verif.Spec.FloatValidator
import Verif.Props.FloatPose
import Verif.Props.ValidatorMore

/-!
# C127: path validation with the arithmetic of the program
-/

namespace PathPlanning
open Spec Flt

namespace Validator

private theorem h53 : 1 ≤ 53 := by norm_num

/-- C127: `IsStateValid` accepts exactly the acceptable states, and never reads outside the map. -/
theorem C127_state_valid_iff (v : Validator) (h : SameSize v) (s : PoseR) (ht : IsFlt 53 s.theta) (hb : |s.theta| ≤ 2 ^ 56) :
    ∃ b, v.isStateValidF s = some b ∧ (b = true ↔ AcceptableF v s) := by
  obtain ⟨t, k, hw, -⟩ := C121_wrap_returns_partial ht hb
  unfold isStateValidF
  rw [hw, Option.bind_some]
  dsimp only
  have hb := C43_se2_validate v.space ⟨⟨fl64 (s.position.x - v.map.localOrigin.x),
      fl64 (s.position.y - v.map.localOrigin.y)⟩, t⟩
  obtain ⟨bd, hbd⟩ : ∃ bd, bd = v.space.validateBounds ⟨⟨fl64 (s.position.x - v.map.localOrigin.x),
      fl64 (s.position.y - v.map.localOrigin.y)⟩, t⟩ := ⟨_, rfl⟩
  rw [← hbd] at hb ⊢
  cases bd with
  | false =>
    refine ⟨false, by simp, ?_⟩
    constructor
    · intro hc; cases hc
    · intro ha
      have := hb.mpr (by
        obtain ⟨h1, h2, h3, h4, ⟨t', h5, h6, h7⟩, -, -⟩ := ha
        rw [hw] at h5
        cases h5
        dsimp only
        tauto)
      cases this
  | true =>
    cases hi : v.map.isInsideCell (v.map.worldPositionToGridCellF s.position true) with
    | false =>
      refine ⟨false, by simp, ?_⟩
      constructor
      · intro hc; cases hc
      · intro ha; have := ha.inside; rw [hi] at this; cases this
    | true =>
      have hr : v.dist.read v.dist.dist (v.map.worldPositionToGridCellF s.position true) =
          some (v.dist.dist (v.map.worldPositionToGridCellF s.position true)) := by
        unfold DistMap.read
        rw [inside_eq h, hi]; rfl
      refine ⟨decide (reportedDistanceF v s.position ≥ v.minSafe), ?_, ?_⟩
      · simp [obstacleDistanceF, hr, reportedDistanceF]
      · rw [decide_eq_true_eq]
        have hb := hb.mp rfl
        dsimp only at hb
        constructor
        · intro hc
          exact ⟨by tauto, by tauto, by tauto, by tauto, ⟨t, hw, by tauto, by tauto⟩, hi, hc⟩
        · intro ha; exact ha.clear

theorem incrementF_eq {v : Validator} (h : SameSize v) {s : PoseR} (ha : AcceptableF v s) :
    v.incrementF s = some (stepF v s) := by
  have hr : v.dist.read v.dist.dist (v.map.worldPositionToGridCellF s.position true) =
      some (v.dist.dist (v.map.worldPositionToGridCellF s.position true)) := by
    unfold DistMap.read
    rw [inside_eq h, ha.inside]; rfl
  unfold incrementF obstacleDistanceF
  rw [hr]
  rfl

/-- The state checked for a distance from the start. -/
noncomputable def checked (q : AnyPath) (a : ℝ) : PoseR := q.interpolate (fl64 (a / q.length))

theorem ratio_range {q : AnyPath} {a : ℝ} (h0 : 0 ≤ a) (h1 : a < q.length) :
    0 ≤ fl64 (a / q.length) ∧ fl64 (a / q.length) ≤ 1 := by
  have hq : 0 < q.length := lt_of_le_of_lt h0 h1
  refine ⟨fl_nonneg _ (div_nonneg h0 hq.le), ?_⟩
  have h2 := fl_mono 53 h53 ((div_le_one hq).mpr h1.le)
  rwa [show fl 53 1 = 1 by have := fl_int (p := 53) h53 (n := 1) (by norm_num); simpa using this] at h2

/-- A step makes progress. -/
theorem progress {v : Validator} (hstep : 0 < v.minStep) {a : ℝ} (h0 : 0 ≤ a) (ha : a ≤ 2 ^ 52 * v.minStep) (s : PoseR) :
    a + v.minStep / 4 ≤ fl64 (a + stepF v s) := by
  have h1 : v.minStep ≤ stepF v s := le_max_right _ _
  have h2 := fl_mono 53 h53 (show a + v.minStep ≤ a + stepF v s by linarith)
  have h3 := (abs_le.1 (fl_rel 53 (a + v.minStep))).1
  rw [abs_of_nonneg (by linarith)] at h3
  have h4 : ((2 : ℝ) ^ 53)⁻¹ * (a + v.minStep) ≤ 3 / 4 * v.minStep := by
    norm_num at ha ⊢
    linarith
  show _ ≤ fl 53 _
  linarith

private def CoveredF (v : Validator) (q : AnyPath) (b : ℝ) : Prop :=
  ∀ s, 0 ≤ s → s < b → ∃ a, 0 ≤ a ∧ a ≤ s ∧ a < q.length ∧ AcceptableF v (checked q a) ∧
    s < fl64 (a + stepF v (checked q a))

private theorem loopF_spec {v : Validator} (h : SameSize v) (hstep : 0 < v.minStep) (q : AnyPath)
    (hl : q.length ≤ 2 ^ 52 * v.minStep) (hh : Headings q) :
    ∀ (n : Nat) (length last : ℝ), q.length - length ≤ n * (v.minStep / 4) → 0 ≤ length → 0 ≤ last →
      last ≤ length → CoveredF v q length →
      (length = 0 ∧ last = 0 ∨ AcceptableF v (checked q last) ∧ length = fl64 (last + stepF v (checked q last))) →
      ∃ r, v.pathLoopF q length last = some r ∧
        (r.1 = true → r.2 = 1 ∧ CoveredF v q q.length) ∧
        (r.1 = false → ∃ a b, r.2 = fl32 (fl64 (a / q.length)) ∧ 0 ≤ a ∧ a ≤ b ∧ b < q.length ∧
          ¬ AcceptableF v (checked q b) ∧ CoveredF v q b ∧
          (b = 0 ∧ a = 0 ∨ AcceptableF v (checked q a) ∧ b = fl64 (a + stepF v (checked q a)))) := by
  intro n
  induction n with
  | zero =>
    intro length last hn h0 _ _ hcov _
    rw [pathLoopF]
    have : ¬ length < q.length := by push_cast at hn; linarith
    rw [if_neg this]
    refine ⟨_, rfl, fun _ => ⟨rfl, fun s hs hsb => hcov s hs (by linarith)⟩, fun hc => by cases hc⟩
  | succ n ih =>
    intro length last hn h0 hl0 hll hcov hlast
    rw [pathLoopF]
    by_cases hlt : length < q.length
    · rw [if_pos hlt]
      obtain ⟨r1, r2⟩ := ratio_range h0 hlt
      obtain ⟨w1, w2⟩ := hh.2 _ r1 r2
      obtain ⟨b, hb, hacc⟩ := C127_state_valid_iff v h (checked q length) w1 w2
      have hb' : v.isStateValidF (q.interpolate (fl64 (length / q.length))) = some b := hb
      dsimp only
      rw [hb']
      cases b with
      | false =>
        refine ⟨_, rfl, fun hc => (by cases hc), fun _ => ⟨last, length, rfl, hl0, hll, hlt, ?_, hcov, hlast⟩⟩
        intro ha; have := hacc.mpr ha; cases this
      | true =>
        have ha := hacc.mp rfl
        have hi : v.incrementF (q.interpolate (fl64 (length / q.length))) = some (stepF v (checked q length)) :=
          incrementF_eq h ha
        simp only [Option.bind_eq_bind, Option.bind_some, if_true, hi]
        have hm := progress hstep h0 (by linarith) (v := v) (checked q length)
        refine ih _ length ?_ (by linarith) h0 (by linarith) ?_ (Or.inr ⟨ha, rfl⟩)
        · push_cast at hn ⊢; linarith
        · intro s hs hsb
          by_cases hsl : s < length
          · exact hcov s hs hsl
          · exact ⟨length, h0, by linarith, hlt, ha, hsb⟩
    · rw [if_neg hlt]
      refine ⟨_, rfl, fun _ => ⟨rfl, fun s hs hsb => hcov s hs (by linarith)⟩, fun hc => by cases hc⟩

private theorem pathF_spec {v : Validator} (h : SameSize v) (hstep : 0 < v.minStep) (q : AnyPath)
    (hl : q.length ≤ 2 ^ 52 * v.minStep) (hh : Headings q) (hq : q.length ≠ 0) :
    ∃ r, v.isPathValidF q = some r ∧
        (r.1 = true → r.2 = 1 ∧ CoveredF v q q.length) ∧
        (r.1 = false → ∃ a b, r.2 = fl32 (fl64 (a / q.length)) ∧ 0 ≤ a ∧ a ≤ b ∧ b < q.length ∧
          ¬ AcceptableF v (checked q b) ∧ CoveredF v q b ∧
          (b = 0 ∧ a = 0 ∨ AcceptableF v (checked q a) ∧ b = fl64 (a + stepF v (checked q a)))) := by
  unfold isPathValidF
  rw [if_neg hq]
  obtain ⟨n, hn⟩ := exists_nat_ge (q.length / (v.minStep / 4))
  refine loopF_spec h hstep q hl hh n 0 0 ?_ le_rfl le_rfl le_rfl (fun s h1 h2 => by linarith) (Or.inl ⟨rfl, rfl⟩)
  rw [div_le_iff₀ (by linarith)] at hn
  linarith

/-- C127: `IsPathValid` returns for every path of at most 2^52 interpolation steps, without reading outside the map. -/
theorem C127_terminates_partial (v : Validator) (h : SameSize v) (hstep : 0 < v.minStep) (q : AnyPath)
    (hl : q.length ≤ 2 ^ 52 * v.minStep) (hh : Headings q) : ∃ r, v.isPathValidF q = some r := by
  by_cases hq : q.length = 0
  · unfold isPathValidF
    rw [if_pos hq]
    obtain ⟨b, hb, -⟩ := C127_state_valid_iff v h q.init hh.1.1 hh.1.2
    exact ⟨_, by rw [hb]; rfl⟩
  · obtain ⟨r, hr, -⟩ := pathF_spec h hstep q hl hh hq
    exact ⟨r, hr⟩

/-- C127: a path of length 0 is accepted exactly if its initial state is acceptable. -/
theorem C127_length_zero (v : Validator) (h : SameSize v) (q : AnyPath) (hq : q.length = 0) (hh : Headings q) :
    ∃ b, v.isPathValidF q = some (b, 1) ∧ (b = true ↔ AcceptableF v q.init) := by
  obtain ⟨b, hb, hb'⟩ := C127_state_valid_iff v h q.init hh.1.1 hh.1.2
  exact ⟨b, by unfold isPathValidF; rw [if_pos hq, hb]; rfl, hb'⟩

/-- C127: an accepted path of positive length starts with an acceptable state, and every distance along the path is less
than the one that follows that of a checked, acceptable state. -/
theorem C127_accepted_partial (v : Validator) (h : SameSize v) (hstep : 0 < v.minStep) (q : AnyPath) (hq : 0 < q.length)
    (hl : q.length ≤ 2 ^ 52 * v.minStep) (hh : Headings q) (r : ℝ) (ha : v.isPathValidF q = some (true, r)) :
    r = 1 ∧ AcceptableF v (q.interpolate 0) ∧
    ∀ s, 0 ≤ s → s < q.length → ∃ a, 0 ≤ a ∧ a ≤ s ∧ AcceptableF v (q.interpolate (fl64 (a / q.length))) ∧
      s < fl64 (a + stepF v (q.interpolate (fl64 (a / q.length)))) := by
  obtain ⟨r', hr, h1, -⟩ := pathF_spec h hstep q hl hh hq.ne'
  rw [ha] at hr
  injection hr with hr
  subst hr
  obtain ⟨h2, h3⟩ := h1 rfl
  refine ⟨h2, ?_, fun s hs hsl => ?_⟩
  · obtain ⟨a, h4, h5, -, h6, -⟩ := h3 0 le_rfl hq
    obtain rfl : a = 0 := le_antisymm h5 h4
    have h6 : AcceptableF v (q.interpolate (fl64 (0 / q.length))) := h6
    rwa [zero_div, show fl64 0 = 0 from fl_zero 53] at h6
  · obtain ⟨a, h4, h5, -, h6, h7⟩ := h3 s hs hsl
    exact ⟨a, h4, h5, h6, h7⟩

/-- C127: a rejected path has an unacceptable state. The returned ratio lies in [0, 1]; it is, up to two roundings, that of
the last state checked before, which is acceptable (or the unacceptable state is the first one, with ratio 0). -/
theorem C127_rejected (v : Validator) (h : SameSize v) (hstep : 0 < v.minStep) (q : AnyPath) (hq : 0 < q.length)
    (hl : q.length ≤ 2 ^ 52 * v.minStep) (hh : Headings q) (r : ℝ) (ha : v.isPathValidF q = some (false, r)) :
    0 ≤ r ∧ r ≤ 1 ∧ ∃ a b, 0 ≤ a ∧ a ≤ b ∧ b < q.length ∧ r = fl32 (fl64 (a / q.length)) ∧
      ¬ AcceptableF v (q.interpolate (fl64 (b / q.length))) ∧
      (b = 0 ∧ a = 0 ∨ AcceptableF v (q.interpolate (fl64 (a / q.length))) ∧
        b = fl64 (a + stepF v (q.interpolate (fl64 (a / q.length))))) := by
  obtain ⟨r', hr, -, h1⟩ := pathF_spec h hstep q hl hh hq.ne'
  rw [ha] at hr
  injection hr with hr
  subst hr
  obtain ⟨a, b, h2, h3, h4, h5, h6, -, h8⟩ := h1 rfl
  have h2 : r = fl32 (fl64 (a / q.length)) := h2
  obtain ⟨r1, r2⟩ := ratio_range h3 (lt_of_le_of_lt h4 h5)
  refine ⟨by rw [h2]; exact fl_nonneg _ r1, ?_, a, b, h3, h4, h5, h2, h6, h8⟩
  rw [h2]
  have := fl_mono 24 (by norm_num) r2
  rwa [show fl 24 1 = 1 by have := fl_int (p := 24) (by norm_num) (n := 1) (by norm_num); simpa using this] at this

private theorem loopF_agree {v : Validator} (hstep : 0 ≤ v.minStep) {q q' : AnyPath} (hl : q'.length = q.length)
    (hint : ∀ t, 0 ≤ t → t ≤ 1 → q'.interpolate t = q.interpolate t) :
    ∀ length last r, v.pathLoopF q length last = some r → 0 ≤ length → v.pathLoopF q' length last = some r := by
  refine pathLoopF.partial_correctness v q
    (fun length last r => 0 ≤ length → v.pathLoopF q' length last = some r) ?_
  intro f hf length last r hr h0
  rw [pathLoopF, hl]
  by_cases hlt : length < q.length
  · obtain ⟨r1, r2⟩ := ratio_range h0 hlt
    rw [if_pos hlt] at hr ⊢
    dsimp only at hr ⊢
    rw [hint _ r1 r2]
    cases hv : v.isStateValidF (q.interpolate (fl64 (length / q.length))) with
    | none => rw [hv] at hr; cases hr
    | some b =>
      rw [hv] at hr
      cases b with
      | false => exact hr
      | true =>
        cases hi : v.incrementF (q.interpolate (fl64 (length / q.length))) with
        | none => simp [hi] at hr
        | some d =>
          simp only [hi, Option.bind_eq_bind, Option.bind_some, if_true] at hr ⊢
          refine hf _ _ _ hr (fl_nonneg _ ?_)
          have : v.minStep ≤ d := by
            unfold incrementF at hi
            obtain ⟨dd, -, rfl⟩ := Option.map_eq_some_iff.mp hi
            exact le_max_right _ _
          linarith
  · rw [if_neg hlt] at hr ⊢
    exact hr

/-- C127: `Interpolate` is called with ratios in [0, 1] only: what the path returns for others does not matter. -/
theorem C127_ratios_in_range (v : Validator) (q q' : AnyPath) (hl : q'.length = q.length) (hi : q'.init = q.init)
    (hstep : 0 ≤ v.minStep)
    (hint : ∀ t, 0 ≤ t → t ≤ 1 → q'.interpolate t = q.interpolate t) : v.isPathValidF q' = v.isPathValidF q := by
  unfold isPathValidF
  rw [hl, hi]
  split
  · rfl
  · have e1 : ∀ r, v.pathLoopF q' 0 0 = some r → v.pathLoopF q 0 0 = some r := fun r h =>
      loopF_agree hstep hl.symm (fun t h0 h1 => (hint t h0 h1).symm) 0 0 r h le_rfl
    have e2 : ∀ r, v.pathLoopF q 0 0 = some r → v.pathLoopF q' 0 0 = some r := fun r h =>
      loopF_agree hstep hl hint 0 0 r h le_rfl
    exact Option.ext fun r => ⟨e1 r, e2 r⟩

private theorem fl_half (E : ℤ) : fl 53 (2 ^ E + 2 ^ (E - 53)) = 2 ^ E := by
  have h2 : (0 : ℝ) < 2 ^ (E - 52) := zpow_pos (by norm_num) _
  have e1 : (2 : ℝ) ^ E = 2 ^ 52 * 2 ^ (E - 52) := by
    rw [← zpow_natCast, ← zpow_add₀ (by norm_num)]; congr 1; push_cast; ring
  have e2 : (2 : ℝ) ^ (E - 53) = 2 ^ (E - 52) / 2 := by
    rw [show E - 53 = E - 52 - 1 by ring, zpow_sub_one₀ (by norm_num)]; ring
  have e3 : (2 : ℝ) ^ (E + 1) = 2 ^ 53 * 2 ^ (E - 52) := by
    rw [← zpow_natCast, ← zpow_add₀ (by norm_num)]; congr 1; push_cast; ring
  have hb : lastBit 53 ((2 : ℝ) ^ E + 2 ^ (E - 53)) = E - 52 := by
    refine lastBit_eq ?_ ?_
    · rw [show E - 52 + ((53 : ℕ) - 1 : ℤ) = E by push_cast; ring, abs_of_pos (by positivity), e2]
      linarith
    · rw [show E - 52 + ((53 : ℕ) : ℤ) = E + 1 by push_cast; ring, abs_of_pos (by positivity), e1, e2, e3]
      nlinarith
  unfold fl
  rw [hb, e1, e2]
  rw [show (2 ^ 52 * 2 ^ (E - 52) + 2 ^ (E - 52) / 2 : ℝ) / 2 ^ (E - 52) = 2 ^ 52 + 1 / 2 by field_simp]
  have hf : ⌊(2 ^ 52 + 1 / 2 : ℝ)⌋ = 2 ^ 52 := by
    rw [Int.floor_eq_iff]; norm_num
  have : rne (2 ^ 52 + 1 / 2) = 2 ^ 52 := by
    unfold rne
    rw [hf, if_neg (by norm_num), if_neg (by norm_num), if_pos (by decide)]
  rw [this]; norm_num

/-- **C127 is violated** for very long paths: where all states are acceptable and steps are at most half of the last bit of
2^E, the length stops growing at 2^E, and `IsPathValid` does not return for longer paths. -/
theorem C127_long_paths_hang (v : Validator) (h : SameSize v) (q : AnyPath) (hh : Headings q) (E : ℤ)
    (hl : 2 ^ E < q.length) (hstep : 0 ≤ v.minStep)
    (hall : ∀ t, 0 ≤ t → t ≤ 1 → AcceptableF v (q.interpolate t))
    (hs : ∀ t, 0 ≤ t → t ≤ 1 → stepF v (q.interpolate t) ≤ 2 ^ (E - 53)) : v.isPathValidF q = none := by
  have h2 : (0 : ℝ) < 2 ^ E := zpow_pos (by norm_num) _
  unfold isPathValidF
  rw [if_neg (by linarith)]
  by_contra hne
  obtain ⟨r, hr⟩ := Option.ne_none_iff_exists'.mp hne
  have key : ∀ length last r, v.pathLoopF q length last = some r → 0 ≤ length → length ≤ 2 ^ E → False := by
    refine pathLoopF.partial_correctness v q (fun length _ _ => 0 ≤ length → length ≤ 2 ^ E → False) ?_
    intro f hf length last r hr h0 hle
    have hlt : length < q.length := by linarith
    obtain ⟨r1, r2⟩ := ratio_range h0 hlt
    obtain ⟨w1, w2⟩ := hh.2 _ r1 r2
    have ha := hall _ r1 r2
    obtain ⟨b, hb, hacc⟩ := C127_state_valid_iff v h _ w1 w2
    rw [hacc.mpr ha] at hb
    rw [if_pos hlt] at hr
    dsimp only at hr
    rw [hb] at hr
    simp only [Option.bind_eq_bind, Option.bind_some, if_true, incrementF_eq h ha] at hr
    have h3 : v.minStep ≤ stepF v (q.interpolate (fl64 (length / q.length))) := le_max_right _ _
    refine hf _ _ _ hr (fl_nonneg _ (by linarith)) ?_
    have h4 := fl_mono 53 h53 (show length + stepF v (q.interpolate (fl64 (length / q.length))) ≤ 2 ^ E + 2 ^ (E - 53) from
      add_le_add hle (hs _ r1 r2))
    rwa [fl_half] at h4
  exact key _ _ _ hr le_rfl h2.le

/-! ## Clearance -/

private theorem coord_near {res o p : ℝ} (hres : 0 < res) {n : ℤ} (h : truncInt (fl64 (fl64 (p - o) / res)) = n)
    (h0 : 0 ≤ n) (h1 : n < 2 ^ 31) : |(p - o) / res - n| ≤ 1 + (2 ^ 19)⁻¹ := by
  obtain ⟨x, hx⟩ : ∃ x, x = (p - o) / res := ⟨_, rfl⟩
  obtain ⟨y, hy⟩ : ∃ y, y = fl64 (p - o) / res := ⟨_, rfl⟩
  obtain ⟨z, hz⟩ : ∃ z, z = fl64 y := ⟨_, rfl⟩
  rw [← hy, ← hz] at h
  rw [← hx]
  have hzn : |z - n| < 1 := by
    rw [← h]; unfold truncInt
    split
    · rw [abs_lt]; constructor <;> linarith [Int.floor_le z, Int.lt_floor_add_one z]
    · rw [abs_lt]; constructor <;> linarith [Int.le_ceil z, Int.ceil_lt_add_one z]
  have hn0 : (0 : ℝ) ≤ n := by exact_mod_cast h0
  have hn1 : (n : ℝ) ≤ 2 ^ 31 := by exact_mod_cast h1.le
  have hzy : |z - y| ≤ (2 ^ 53)⁻¹ * |y| := by rw [hz]; exact fl_rel 53 y
  have hyx : |y - x| ≤ (2 ^ 53)⁻¹ * |x| := by
    have := fl_rel 53 (p - o)
    have e : y - x = (fl 53 (p - o) - (p - o)) / res := by rw [hy, hx]; show fl 53 _ / _ - _ = _; ring
    rw [e, hx, abs_div, abs_div, abs_of_pos hres, ← mul_div_assoc]
    exact div_le_div_of_nonneg_right this hres.le
  obtain ⟨a1, a2⟩ := abs_lt.1 hzn
  obtain ⟨b1, b2⟩ := abs_le.1 hzy
  obtain ⟨c1, c2⟩ := abs_le.1 hyx
  have hyb : |y| ≤ 2 ^ 32 := by
    norm_num at b1 b2 hn1 ⊢
    rcases abs_cases y with ⟨e, -⟩ | ⟨e, -⟩ <;> linarith
  have hxb : |x| ≤ 2 ^ 33 := by
    obtain ⟨d1, d2⟩ := abs_le.1 hyb
    norm_num at c1 c2 d1 d2 ⊢
    rcases abs_cases x with ⟨e, -⟩ | ⟨e, -⟩ <;> linarith
  rw [abs_le]
  norm_num at b1 b2 c1 c2 hyb hxb ⊢
  constructor <;> linarith

/-- A position is close to the corner of the cell it is mapped to. -/
theorem near_cornerF {m : OccMap} (hres : 0 < m.resolution) (hrows : m.rows ≤ 2 ^ 31) (hcols : m.columns ≤ 2 ^ 31) (p : Pt)
    (h : m.isInsideCell (m.worldPositionToGridCellF p true) = true) :
    euclid p (m.gridCellToWorldPosition (m.worldPositionToGridCellF p true)) ≤
      √2 * ((1 + (2 ^ 19)⁻¹) * m.resolution) := by
  obtain ⟨r, hr⟩ : ∃ r, r = truncInt (fl64 (fl64 (p.x - m.worldGridOrigin.x) / m.resolution)) := ⟨_, rfl⟩
  obtain ⟨k, hk⟩ : ∃ k, k = truncInt (fl64 (fl64 (p.y - m.worldGridOrigin.y) / m.resolution)) := ⟨_, rfl⟩
  have hi : m.isInsideCell ⟨r, k⟩ = true ∧ m.worldPositionToGridCellF p true = ⟨r, k⟩ := by
    simp only [OccMap.worldPositionToGridCellF, OccMap.gridPositionToGridCellF, ← hr, ← hk] at h ⊢
    cases hi : m.isInsideCell ⟨r, k⟩
    · rw [hi] at h; simp [OccMap.isInsideCell] at h
    · simp
  obtain ⟨hi, h0⟩ := hi
  simp only [OccMap.isInsideCell, Bool.and_eq_true, decide_eq_true_eq] at hi
  have h1 := coord_near hres hr.symm (by omega) (by omega)
  have h2 := coord_near hres hk.symm (by omega) (by omega)
  have e1 : p.x - (m.gridCellToWorldPosition ⟨r, k⟩).x =
      ((p.x - m.worldGridOrigin.x) / m.resolution - r) * m.resolution := by
    simp only [OccMap.gridCellToWorldPosition, OccMap.gridCellToGridPosition, Pt.add_x]
    field_simp; ring
  have e2 : p.y - (m.gridCellToWorldPosition ⟨r, k⟩).y =
      ((p.y - m.worldGridOrigin.y) / m.resolution - k) * m.resolution := by
    simp only [OccMap.gridCellToWorldPosition, OccMap.gridCellToGridPosition, Pt.add_y]
    field_simp; ring
  rw [h0]
  unfold euclid
  rw [e1, e2]
  have hs : √2 * ((1 + (2 ^ 19)⁻¹) * m.resolution) = √(2 * ((1 + (2 ^ 19)⁻¹) * m.resolution) ^ 2) := by
    rw [Real.sqrt_mul (by norm_num), Real.sqrt_sq (by positivity)]
  rw [hs]
  apply Real.sqrt_le_sqrt
  have h3 := sq_le_sq' (by linarith [(abs_le.1 h1).1]) (abs_le.1 h1).2
  have h4 := sq_le_sq' (by linarith [(abs_le.1 h2).1]) (abs_le.1 h2).2
  rw [mul_pow, mul_pow, mul_pow, ← add_mul, ← mul_assoc]
  gcongr
  linarith

/-- The path does not move faster than its length, up to the error `η` of the positions that `Interpolate` returns. -/
def UnitSpeedUpTo (η : ℝ) (q : AnyPath) : Prop :=
  ∀ a b, 0 ≤ a → a ≤ 1 → 0 ≤ b → b ≤ 1 →
    euclid (q.interpolate a).position (q.interpolate b).position ≤ |b - a| * q.length + η

/-- The reported distance exceeds the exact one by at most three roundings. -/
theorem worldDistanceF_le {res : ℝ} (hres : 0 < res) (d : WithTop Nat) :
    worldDistanceF res d ≤ (1 + (2 ^ 23)⁻¹) * worldDistance res d := by
  unfold worldDistanceF worldDistance
  obtain ⟨w, hw⟩ : ∃ w, w = √((ObstDistMap.toInt d : Int) : ℝ) := ⟨_, rfl⟩
  rw [← hw]
  have h0 : 0 ≤ w := by rw [hw]; exact Real.sqrt_nonneg _
  have up : ∀ (p : ℕ) (x : ℝ), 0 ≤ x → 0 ≤ fl p x ∧ fl p x ≤ (1 + (2 ^ p)⁻¹) * x := by
    intro p x hx
    have := (abs_le.1 (fl_rel p x)).2
    rw [abs_of_nonneg hx] at this
    exact ⟨fl_nonneg p hx, by linarith⟩
  obtain ⟨a1, a2⟩ := up 53 w h0
  obtain ⟨b1, b2⟩ := up 53 (fl 53 w * res) (mul_nonneg a1 hres.le)
  obtain ⟨c1, c2⟩ := up 24 (fl 53 (fl 53 w * res)) b1
  show fl 24 (fl 53 (fl 53 w * res)) ≤ _
  have h1 : fl 53 w * res ≤ (1 + (2 ^ 53)⁻¹) * (w * res) := by
    rw [← mul_assoc]; exact mul_le_mul_of_nonneg_right a2 hres.le
  have h2 := mul_nonneg h0 hres.le
  norm_num at *
  linarith

/-- The general estimate: the exact distance `E` of a cell to the nearest obstacle is at most `k` times the real one. -/
private theorem clearanceF {v : Validator} (h : SameSize v) (hres : 0 < v.map.resolution)
    (hrows : v.map.rows ≤ 2 ^ 31) (hcols : v.map.columns ≤ 2 ^ 31)
    (hstep : 0 < v.minStep) {q : AnyPath} (hq : 0 < q.length) (hl : q.length ≤ 2 ^ 52 * v.minStep) (hh : Headings q)
    {η : ℝ} (hu : UnitSpeedUpTo η q) {r : ℝ}
    (ha : v.isPathValidF q = some (true, r)) (o : Cell) (k : ℝ) (hk : 0 < k)
    (hdist : ∀ c, InRect v.map.rows v.map.columns c → worldDistance v.map.resolution (v.dist.dist c) ≤
      k * (√((sqDist o c : Int) : ℝ) * v.map.resolution))
    (t : ℝ) (ht : 0 ≤ t) (ht1 : t < 1) :
    ∃ a, 0 ≤ a ∧ a ≤ 1 ∧ AcceptableF v (q.interpolate a) ∧
      reportedDistanceF v (q.interpolate a).position / ((1 + (2 ^ 23)⁻¹) * k)
        - (1 + (2 ^ 53)⁻¹) * max ((1 + (2 ^ 24)⁻¹) * (reportedDistanceF v (q.interpolate a).position - v.minSafe)) v.minStep
        - √2 * ((1 + (2 ^ 19)⁻¹) * v.map.resolution) - (2 ^ 52)⁻¹ * q.length - η
        ≤ euclid (q.interpolate t).position (v.map.gridCellToWorldPosition o) := by
  obtain ⟨-, -, hc⟩ := C127_accepted_partial v h hstep q hq hl hh r ha
  obtain ⟨a, h0, h1, h2, h3⟩ := hc (t * q.length) (mul_nonneg ht hq.le) (by nlinarith)
  have haL : a < q.length := by nlinarith
  obtain ⟨r1, r2⟩ := ratio_range h0 haL
  obtain ⟨u, hu'⟩ : ∃ u, u = fl64 (a / q.length) := ⟨_, rfl⟩
  rw [← hu'] at h2 h3 r1 r2
  refine ⟨u, r1, r2, h2, ?_⟩
  obtain ⟨p, hp⟩ : ∃ p, p = (q.interpolate u).position := ⟨_, rfl⟩
  have hin := h2.inside
  have hclear := h2.clear
  have hn := near_cornerF hres hrows hcols p (by rw [hp]; exact hin)
  have hs := hu u t r1 r2 ht ht1.le
  rw [← hp] at hs hin hclear ⊢
  obtain ⟨c, hc⟩ : ∃ c, c = v.map.worldPositionToGridCellF p true := ⟨_, rfl⟩
  rw [← hc] at hn hin
  obtain ⟨D, hD⟩ : ∃ D, D = reportedDistanceF v p := ⟨_, rfl⟩
  rw [← hD] at hclear ⊢
  have hd : D / ((1 + (2 ^ 23)⁻¹) * k) ≤ euclid (v.map.gridCellToWorldPosition c) (v.map.gridCellToWorldPosition o) := by
    rw [div_le_iff₀ (by positivity), euclid_corners v.map hres]
    have e1 : D ≤ (1 + (2 ^ 23)⁻¹) * worldDistance v.map.resolution (v.dist.dist c) := by
      rw [hD, hc]; exact worldDistanceF_le hres _
    have e2 := mul_le_mul_of_nonneg_left (hdist c (by simpa [OccMap.isInsideCell, InRect, and_assoc] using hin))
      (show (0 : ℝ) ≤ 1 + (2 ^ 23)⁻¹ by positivity)
    refine le_trans e1 (le_trans e2 (le_of_eq ?_))
    ring
  -- the distance to the next checked state
  obtain ⟨M, hM⟩ : ∃ M, M = max ((1 + (2 ^ 24)⁻¹) * (D - v.minSafe)) v.minStep := ⟨_, rfl⟩
  rw [← hM]
  have hstepM : stepF v (q.interpolate u) ≤ M := by
    unfold stepF
    rw [hM, ← hp, ← hD]
    refine max_le_max_right _ (le_trans (min_le_left _ _) ?_)
    have := (abs_le.1 (fl_rel 24 (D - v.minSafe))).2
    rw [abs_of_nonneg (by linarith)] at this
    show fl 24 _ ≤ _
    linarith
  have hM0 : 0 < M := by rw [hM]; exact lt_of_lt_of_le hstep (le_max_right _ _)
  have h4 := fl_mono 53 h53 (show a + stepF v (q.interpolate u) ≤ a + M by linarith)
  have h5 := (abs_le.1 (fl_rel 53 (a + M))).2
  rw [abs_of_nonneg (by linarith)] at h5
  have h6 : t * q.length < a + M + (2 ^ 53)⁻¹ * (a + M) := lt_of_lt_of_le h3 (by
    show fl 53 _ ≤ _
    linarith)
  have h7 : |t - u| * q.length ≤ (t * q.length - a) + (2 ^ 53)⁻¹ * a := by
    have e1 := fl_rel 53 (a / q.length)
    rw [show fl 53 (a / q.length) = u from hu'.symm, abs_of_nonneg (div_nonneg h0 hq.le)] at e1
    have e2 : |t - u| ≤ |t - a / q.length| + |u - a / q.length| := by
      have := abs_sub_le t (a / q.length) u
      rwa [abs_sub_comm (a / q.length) u] at this
    have e3 : |t - a / q.length| = t - a / q.length := abs_of_nonneg (by
      rw [sub_nonneg, div_le_iff₀ hq]; exact h1)
    have e4 : |t - u| ≤ (t - a / q.length) + (2 ^ 53)⁻¹ * (a / q.length) := by linarith
    have e5 := mul_le_mul_of_nonneg_right e4 hq.le
    refine le_trans e5 (le_of_eq ?_)
    field_simp
  have t1 := euclid_triangle (v.map.gridCellToWorldPosition c) p (v.map.gridCellToWorldPosition o)
  have t2 := euclid_triangle p (q.interpolate t).position (v.map.gridCellToWorldPosition o)
  have t3 : euclid (v.map.gridCellToWorldPosition c) p = euclid p (v.map.gridCellToWorldPosition c) := by
    simp only [euclid_dist]; exact dist_comm _ _
  have h8 : (2 ^ 53)⁻¹ * a ≤ ((2 : ℝ) ^ 53)⁻¹ * q.length := mul_le_mul_of_nonneg_left haL.le (by positivity)
  have h9 : ((2 : ℝ) ^ 52)⁻¹ * q.length = (2 ^ 53)⁻¹ * q.length + (2 ^ 53)⁻¹ * q.length := by norm_num; linarith
  linarith

/-- C127: each state of an accepted path (but the final one) is near a checked state: the distance `D` reported there bounds
the distance to every obstacle from below, as in C70, and what rounding adds is a few units in the last place. -/
theorem C127_clearance_partial (v : Validator) (ops : List DistMap.Op)
    (hrun : DistMap.Run (.new v.map.rows v.map.columns) (ops ++ [.update]) v.dist)
    (hres : 0 < v.map.resolution) (hrows : v.map.rows ≤ 2 ^ 31) (hcols : v.map.columns ≤ 2 ^ 31)
    (hstep : 0 < v.minStep) (q : AnyPath) (hq : 0 < q.length) (hl : q.length ≤ 2 ^ 52 * v.minStep) (hh : Headings q)
    (η : ℝ) (hu : UnitSpeedUpTo η q) (r : ℝ) (ha : v.isPathValidF q = some (true, r))
    (o : Cell) (ho : o ∈ obstacles ops) (t : ℝ) (ht : 0 ≤ t) (ht1 : t < 1) :
    ∃ a, 0 ≤ a ∧ a ≤ 1 ∧ AcceptableF v (q.interpolate a) ∧
      reportedDistanceF v (q.interpolate a).position / ((1 + (2 ^ 23)⁻¹) * √(4 - 2 * √2))
        - (1 + (2 ^ 53)⁻¹) * max ((1 + (2 ^ 24)⁻¹) * (reportedDistanceF v (q.interpolate a).position - v.minSafe)) v.minStep
        - √2 * ((1 + (2 ^ 19)⁻¹) * v.map.resolution) - (2 ^ 52)⁻¹ * q.length - η
        ≤ euclid (q.interpolate t).position (v.map.gridCellToWorldPosition o) := by
  have h2 : √2 < 2 := by
    rw [Real.sqrt_lt' (by norm_num)]; norm_num
  refine clearanceF (DistMap.run_size hrun) hres hrows hcols hstep hq hl hh hu ha o _ (Real.sqrt_pos.mpr (by linarith))
    ?_ t ht ht1
  intro c hc
  obtain ⟨d, hd, hle⟩ := C38_at_most_eight_percent_partial hrun _ hc o ho
  unfold worldDistance
  rw [hd, ← mul_assoc, ← Real.sqrt_mul (by linarith)]
  gcongr
  exact hle

/-- C127: with a single obstacle, every state of an accepted path (but the final one) is at least the safe radius, less the
interpolation step and the diagonal of a cell, away from it, up to a rounding error of 2^-18 cells, 2^-21 of the diagonal of
the map, 2^-53 of the step and 2^-52 of the length of the path. Missing: several obstacles, the final state (C53, C70). -/
theorem C127_constant_clearance_partial (v : Validator) (ops : List DistMap.Op)
    (hrun : DistMap.Run (.new v.map.rows v.map.columns) (ops ++ [.update]) v.dist)
    (hres : 0 < v.map.resolution) (hrows : v.map.rows ≤ 2 ^ 31) (hcols : v.map.columns ≤ 2 ^ 31)
    (hstep : 0 < v.minStep) (hsafe : 0 ≤ v.minSafe)
    (q : AnyPath) (hq : 0 < q.length) (hl : q.length ≤ 2 ^ 52 * v.minStep) (hh : Headings q)
    (η : ℝ) (hu : UnitSpeedUpTo η q) (r : ℝ) (ha : v.isPathValidF q = some (true, r))
    (o : Cell) (ho : ∀ o', o' ∈ obstacles ops ↔ o' = o) (hn : NoUnset ops) (hoin : InRect v.map.rows v.map.columns o)
    (t : ℝ) (ht : 0 ≤ t) (ht1 : t < 1) :
    v.minSafe - v.minStep - √2 * v.map.resolution
      - ((2 ^ 18)⁻¹ * v.map.resolution
        + (2 ^ 21)⁻¹ * (√((v.map.rows : ℝ) ^ 2 + (v.map.columns : ℝ) ^ 2) * v.map.resolution)
        + (2 ^ 53)⁻¹ * v.minStep + (2 ^ 52)⁻¹ * q.length + η)
      ≤ euclid (q.interpolate t).position (v.map.gridCellToWorldPosition o) := by
  have hex : ∀ c, InRect v.map.rows v.map.columns c → worldDistance v.map.resolution (v.dist.dist c) =
      √((sqDist o c : Int) : ℝ) * v.map.resolution := by
    intro c hc
    obtain ⟨o', ho', d, hd, hle⟩ := C38_never_below_partial hrun hn _ hc ⟨o, (ho o).mpr rfl⟩
    rw [(ho o').mp ho'] at hle
    unfold worldDistance
    rw [hd, ← hle]
    rfl
  obtain ⟨a, h0, h1, hacc, hle⟩ := clearanceF (DistMap.run_size hrun) hres hrows hcols hstep hq hl hh hu ha o 1 one_pos
    (fun c hc => by rw [hex c hc, one_mul]) t ht ht1
  obtain ⟨D, hD⟩ : ∃ D, D = reportedDistanceF v (q.interpolate a).position := ⟨_, rfl⟩
  have hc := hacc.clear
  rw [← hD] at hle hc
  have hin := hacc.inside
  have hDle : D ≤ 2 * (√((v.map.rows : ℝ) ^ 2 + (v.map.columns : ℝ) ^ 2) * v.map.resolution) := by
    obtain ⟨c, hcc⟩ : ∃ c, c = v.map.worldPositionToGridCellF (q.interpolate a).position true := ⟨_, rfl⟩
    rw [← hcc] at hin
    have hcr : InRect v.map.rows v.map.columns c := by simpa [OccMap.isInsideCell, InRect, and_assoc] using hin
    have e1 : D ≤ (1 + (2 ^ 23)⁻¹) * worldDistance v.map.resolution (v.dist.dist c) := by
      rw [hD, hcc]; exact worldDistanceF_le hres _
    rw [hex c hcr] at e1
    have e2 : √((sqDist o c : Int) : ℝ) ≤ √((v.map.rows : ℝ) ^ 2 + (v.map.columns : ℝ) ^ 2) := by
      apply Real.sqrt_le_sqrt
      unfold sqDist
      obtain ⟨o1, o2, o3, o4⟩ := hoin
      obtain ⟨c1, c2, c3, c4⟩ := hcr
      have : (o.row - c.row) ^ 2 + (o.col - c.col) ^ 2 ≤ v.map.rows ^ 2 + v.map.columns ^ 2 := by
        have := sq_le_sq' (show -v.map.rows ≤ o.row - c.row by omega) (by omega)
        have := sq_le_sq' (show -v.map.columns ≤ o.col - c.col by omega) (by omega)
        linarith
      exact_mod_cast this
    have e3 := mul_le_mul_of_nonneg_right e2 hres.le
    have e4 : 0 ≤ √((v.map.rows : ℝ) ^ 2 + (v.map.columns : ℝ) ^ 2) * v.map.resolution := by positivity
    norm_num at e1
    linarith
  have hm : max ((1 + (2 ^ 24)⁻¹) * (D - v.minSafe)) v.minStep ≤ (1 + (2 ^ 24)⁻¹) * (D - v.minSafe) + v.minStep :=
    max_le (by linarith) (by
      have : 0 ≤ (1 + ((2 : ℝ) ^ 24)⁻¹) * (D - v.minSafe) := mul_nonneg (by positivity) (by linarith)
      linarith)
  have hm' := mul_le_mul_of_nonneg_left hm (show (0 : ℝ) ≤ 1 + (2 ^ 53)⁻¹ by positivity)
  have hdiv : (1 - (2 ^ 23)⁻¹) * D ≤ D / ((1 + (2 ^ 23)⁻¹) * 1) := by
    rw [le_div_iff₀ (by positivity)]
    norm_num
    linarith
  have hs2 : √2 ≤ 3 / 2 := by
    rw [Real.sqrt_le_left (by norm_num)]; norm_num
  have hsr : √2 * v.map.resolution ≤ 3 / 2 * v.map.resolution := mul_le_mul_of_nonneg_right hs2 hres.le
  have e5 : √2 * ((1 + (2 ^ 19)⁻¹) * v.map.resolution) = √2 * v.map.resolution + (2 ^ 19)⁻¹ * (√2 * v.map.resolution) := by
    ring
  rw [e5] at hle
  obtain ⟨M, hM⟩ : ∃ M, M = max ((1 + (2 ^ 24)⁻¹) * (D - v.minSafe)) v.minStep := ⟨_, rfl⟩
  obtain ⟨G, hG⟩ : ∃ G, G = √((v.map.rows : ℝ) ^ 2 + (v.map.columns : ℝ) ^ 2) * v.map.resolution := ⟨_, rfl⟩
  rw [← hM] at hle hm'
  rw [← hG] at hDle ⊢
  norm_num at hle hm' hdiv hDle hsr ⊢
  linarith

/-! ## Examples -/

private theorem fl_int_bounds {n m : ℤ} (hn : |n| ≤ 2 ^ 53) (hm : |m| ≤ 2 ^ 53) {x : ℝ} (h1 : n ≤ x) (h2 : x ≤ m) :
    n ≤ fl64 x ∧ fl64 x ≤ m := by
  have a := fl_mono 53 h53 h1
  have b := fl_mono 53 h53 h2
  rw [fl_int h53 hn] at a
  rw [fl_int h53 hm] at b
  exact ⟨a, b⟩

theorem ex_acceptableF (v : Validator) (hsp : v.space = exSpace) (hmap : v.map = exMap) (s : PoseR)
    (hx : -5 ≤ s.position.x ∧ s.position.x ≤ 4) (hy : -5 ≤ s.position.y ∧ s.position.y ≤ 4) (ht : s.theta = 0)
    (hd : v.minSafe ≤ reportedDistanceF v s.position) : AcceptableF v s := by
  have b1 := fl_int_bounds (n := -5) (m := 4) (by norm_num) (by norm_num) (x := s.position.x - 0)
    (by push_cast; linarith [hx.1]) (by push_cast; linarith [hx.2])
  have b2 := fl_int_bounds (n := -5) (m := 4) (by norm_num) (by norm_num) (x := s.position.y - 0)
    (by push_cast; linarith [hy.1]) (by push_cast; linarith [hy.2])
  have key : ∀ x : ℝ, -5 ≤ x → x ≤ 4 →
      0 ≤ truncInt (fl64 (fl64 (x - -5) / 1)) ∧ truncInt (fl64 (fl64 (x - -5) / 1)) < 10 := by
    intro x h1 h2
    have c1 := fl_int_bounds (n := 0) (m := 9) (by norm_num) (by norm_num) (x := x - -5)
      (by push_cast; linarith) (by push_cast; linarith)
    have c2 := fl_int_bounds (n := 0) (m := 9) (by norm_num) (by norm_num) (x := fl64 (x - -5) / 1)
      (by rw [div_one]; exact c1.1) (by rw [div_one]; exact c1.2)
    push_cast at c2
    unfold truncInt
    rw [if_pos c2.1]
    refine ⟨Int.floor_nonneg.mpr c2.1, Int.floor_lt.mpr ?_⟩
    push_cast
    linarith [c2.2]
  push_cast at b1 b2
  refine ⟨?_, ?_, ?_, ?_, ⟨0, ?_, ?_, ?_⟩, ?_, hd⟩
  · rw [hsp, hmap]; exact b1.1
  · rw [hsp, hmap]; exact le_trans b1.2 (by norm_num [exSpace])
  · rw [hsp, hmap]; exact b2.1
  · rw [hsp, hmap]; exact le_trans b2.2 (by norm_num [exSpace])
  · rw [ht]
    have hp := mPi_bounds.1
    unfold wrapThetaF
    rw [wrapDownF_le (by linarith), Option.bind_some, wrapUpF_ge (by linarith)]
  · rw [hsp]; norm_num [exSpace]
  · rw [hsp]; norm_num [exSpace]
  · have k1 := key _ hx.1 hx.2
    have k2 := key _ hy.1 hy.2
    have : exMap.isInsideCell ⟨truncInt (fl64 (fl64 (s.position.x - -5) / 1)),
        truncInt (fl64 (fl64 (s.position.y - -5) / 1))⟩ = true := by
      obtain ⟨k1, k1'⟩ := k1
      obtain ⟨k2, k2'⟩ := k2
      simp only [OccMap.isInsideCell, Bool.and_eq_true, decide_eq_true_eq]
      exact ⟨⟨⟨k1, k1'⟩, k2⟩, k2'⟩
    rw [hmap]
    have e : exMap.worldPositionToGridCellF s.position true = ⟨truncInt (fl64 (fl64 (s.position.x - -5) / 1)),
        truncInt (fl64 (fl64 (s.position.y - -5) / 1))⟩ := by
      exact if_pos this
    rw [e]; exact this

theorem not_rejectedF {v : Validator} (h : SameSize v) (hstep : 0 < v.minStep) {q : AnyPath} (hq : 0 < q.length)
    (hl : q.length ≤ 2 ^ 52 * v.minStep) (hh : Headings q)
    (hall : ∀ r, 0 ≤ r → r ≤ 1 → AcceptableF v (q.interpolate r)) : v.isPathValidF q = some (true, 1) := by
  obtain ⟨⟨b, r⟩, hr⟩ := C127_terminates_partial v h hstep q hl hh
  cases b with
  | true => rw [hr, (C127_accepted_partial v h hstep q hq hl hh r hr).1]
  | false =>
    obtain ⟨-, -, a, b, h1, h2, h3, -, h4, -⟩ := C127_rejected v h hstep q hq hl hh r hr
    obtain ⟨r1, r2⟩ := ratio_range (le_trans h1 h2) h3
    exact (h4 (hall _ r1 r2)).elim

theorem headings_zero {q : AnyPath} (h0 : q.init.theta = 0) (h : ∀ t, (q.interpolate t).theta = 0) : Headings q := by
  refine ⟨?_, fun t _ _ => ?_⟩
  · rw [h0]; exact ⟨fl_zero 53, by norm_num⟩
  · rw [h]; exact ⟨fl_zero 53, by norm_num⟩

theorem le_worldDistanceF {res : ℝ} (hres : 0 < res) (d : WithTop Nat) :
    (1 - (2 ^ 22)⁻¹) * worldDistance res d ≤ worldDistanceF res d := by
  unfold worldDistanceF worldDistance
  obtain ⟨w, hw⟩ : ∃ w, w = √((ObstDistMap.toInt d : Int) : ℝ) := ⟨_, rfl⟩
  rw [← hw]
  have h0 : 0 ≤ w := by rw [hw]; exact Real.sqrt_nonneg _
  have up : ∀ (p : ℕ) (x : ℝ), 0 ≤ x → 0 ≤ fl p x ∧ (1 - (2 ^ p)⁻¹) * x ≤ fl p x := by
    intro p x hx
    have := (abs_le.1 (fl_rel p x)).1
    rw [abs_of_nonneg hx] at this
    exact ⟨fl_nonneg p hx, by linarith⟩
  obtain ⟨a1, a2⟩ := up 53 w h0
  obtain ⟨b1, b2⟩ := up 53 (fl 53 w * res) (mul_nonneg a1 hres.le)
  obtain ⟨c1, c2⟩ := up 24 (fl 53 (fl 53 w * res)) b1
  show _ ≤ fl 24 (fl 53 (fl 53 w * res))
  have h1 : (1 - (2 ^ 53)⁻¹) * (w * res) ≤ fl 53 w * res := by
    rw [← mul_assoc]; exact mul_le_mul_of_nonneg_right a2 hres.le
  have h2 := mul_nonneg h0 hres.le
  norm_num at *
  linarith

theorem ex_reportedF (p : Pt) (v : Validator) (hm : v.map = exMap) (hd : v.dist = .new 10 10) :
    1 ≤ reportedDistanceF v p := by
  unfold reportedDistanceF
  rw [hm, hd]
  refine le_trans ?_ (le_worldDistanceF (by norm_num [exMap]) _)
  show 1 ≤ _ * (√(((2147483647 : Int) : ℝ)) * 1)
  have : (2 : ℝ) ≤ √(((2147483647 : Int) : ℝ)) := Real.le_sqrt' (by norm_num) |>.mpr (by norm_num)
  norm_num at *
  linarith

/-- With an obstacle in the corner cell of the 10 × 10 map, the states away from it are acceptable. -/
theorem ex_corner_acceptableF {d : DistMap} (hd : DistMap.Run (.new 10 10) ([.set ⟨0, 0⟩] ++ [.update]) d) {s : PoseR}
    (hx1 : 2 ≤ s.position.x) (hx2 : s.position.x ≤ 4) (hy1 : 2 ≤ s.position.y) (hy2 : s.position.y ≤ 4) (ht : s.theta = 0) :
    AcceptableF (exValidator d) s := by
  have hob : ∀ o', o' ∈ obstacles [.set ⟨0, 0⟩] ↔ o' = (⟨0, 0⟩ : Cell) := by
    intro o'
    show (False ∨ o' = ⟨0, 0⟩) ↔ _
    simp
  have hno : NoUnset [.set ⟨0, 0⟩] := by intro s hs; simp at hs
  have hfar : AcceptableF { exValidator d with dist := .new 10 10 } s :=
    ex_acceptableF _ rfl rfl _ ⟨by linarith, hx2⟩ ⟨by linarith, hy2⟩ ht (ex_reportedF _ _ rfl rfl)
  have hin := hfar.inside
  refine ex_acceptableF _ rfl rfl _ ⟨by linarith, hx2⟩ ⟨by linarith, hy2⟩ ht ?_
  have hin : exMap.isInsideCell (exMap.worldPositionToGridCellF s.position true) = true := hin
  obtain ⟨c, hcc⟩ : ∃ c, c = exMap.worldPositionToGridCellF s.position true := ⟨_, rfl⟩
  have h3 := near_cornerF (m := exMap) (by norm_num [exMap]) (by norm_num [exMap]) (by norm_num [exMap]) _ hin
  rw [← hcc] at hin h3
  have hc : InRect 10 10 c := by
    have : InRect exMap.rows exMap.columns c := by simpa [OccMap.isInsideCell, InRect, and_assoc] using hin
    exact this
  obtain ⟨o', ho', e, he, hle⟩ := C38_never_below_partial hd hno _ hc ⟨_, (hob _).mpr rfl⟩
  rw [(hob o').mp ho'] at hle
  have h4 := euclid_corners exMap (by norm_num [exMap]) ⟨0, 0⟩ c
  have h5 := euclid_triangle s.position (exMap.gridCellToWorldPosition c) (exMap.gridCellToWorldPosition ⟨0, 0⟩)
  have h6 : 7 ≤ euclid s.position (exMap.gridCellToWorldPosition ⟨0, 0⟩) := by
    unfold euclid
    apply Real.le_sqrt_of_sq_le
    simp only [OccMap.gridCellToWorldPosition, OccMap.gridCellToGridPosition, Pt.add_x, Pt.add_y, exMap]
    push_cast
    nlinarith
  have h7 : √2 < 2 := by
    rw [Real.sqrt_lt' (by norm_num)]; norm_num
  have h8 : exMap.resolution = 1 := rfl
  show 1 ≤ worldDistanceF exMap.resolution (d.dist (exMap.worldPositionToGridCellF s.position true))
  rw [← hcc]
  refine le_trans ?_ (le_worldDistanceF (by rw [h8]; norm_num) _)
  unfold worldDistance
  rw [he]
  show 1 ≤ _ * (√((e : Int) : ℝ) * _)
  rw [hle, ← h4]
  rw [h8] at h3
  norm_num at h3 ⊢
  linarith

/-- Non-vacuity of `C127_clearance_partial` and `C127_constant_clearance_partial`: an obstacle in the corner cell of the
10 × 10 map, and an accepted path of length 2. -/
example : ∃ (v : Validator) (q : AnyPath) (o : Cell),
    v.map.rows = 10 ∧ v.map.columns = 10 ∧
    DistMap.Run (.new v.map.rows v.map.columns) ([.set o] ++ [.update]) v.dist ∧
    0 < v.map.resolution ∧ 0 < v.minStep ∧ 0 ≤ v.minSafe ∧ q.length = 2 ∧ q.length ≤ 2 ^ 52 * v.minStep ∧ Headings q ∧
    UnitSpeedUpTo 0 q ∧ v.isPathValidF q = some (true, 1) ∧
    (∀ o', o' ∈ obstacles [.set o] ↔ o' = o) ∧ NoUnset [.set o] ∧ InRect v.map.rows v.map.columns o := by
  obtain ⟨d, hd⟩ := DistMap.exists_run (rows := 10) (columns := 10) ([.set ⟨0, 0⟩] ++ [.update]) (by
    intro o ho
    simp only [List.cons_append, List.nil_append, List.mem_cons, List.not_mem_nil, or_false] at ho
    rcases ho with rfl | rfl <;> simp [OpIn, InRect])
  have hob : ∀ o', o' ∈ obstacles [.set ⟨0, 0⟩] ↔ o' = (⟨0, 0⟩ : Cell) := by
    intro o'
    show (False ∨ o' = ⟨0, 0⟩) ↔ _
    simp
  have hno : NoUnset [.set ⟨0, 0⟩] := by intro s hs; simp at hs
  obtain ⟨q, hq⟩ : ∃ q : AnyPath, q = ⟨⟨⟨2, 2⟩, 0⟩, 2, fun r => ⟨⟨2 + 2 * r, 2⟩, 0⟩⟩ := ⟨_, rfl⟩
  have hh : Headings q := headings_zero (by rw [hq]) (by rw [hq]; intro; rfl)
  have hst : (exValidator d).minStep = 1 / 10 := rfl
  refine ⟨exValidator d, q, ⟨0, 0⟩, rfl, rfl, hd, by norm_num [exValidator, exMap],
    by norm_num [exValidator], by norm_num [exValidator], by rw [hq], by rw [hq, hst]; norm_num, hh, ?_, ?_, hob, hno,
    by simp [InRect, exValidator, exMap]⟩
  · intro a b h0 h1 h2 h3
    rw [hq]
    simp only [euclid]
    rw [show (2 + 2 * a - (2 + 2 * b)) ^ 2 + ((2 : ℝ) - 2) ^ 2 = ((b - a) * 2) ^ 2 by ring,
      Real.sqrt_sq_eq_abs, abs_mul, abs_two, add_zero]
  · refine not_rejectedF (DistMap.run_size hd) (by norm_num [exValidator]) (by rw [hq]; norm_num)
      (by rw [hq, hst]; norm_num) hh ?_
    intro r h0 h1
    have hx : (q.interpolate r).position = ⟨2 + 2 * r, 2⟩ := by rw [hq]
    refine ex_corner_acceptableF hd ?_ ?_ ?_ ?_ (by rw [hq]) <;> rw [hx] <;> dsimp only <;> linarith

/-- Non-vacuity of `C127_rejected`: a path outside the bounds is rejected. -/
example : ∃ r, (exValidator (.new 10 10)).isPathValidF ⟨⟨⟨7, 0⟩, 0⟩, 1, fun t => ⟨⟨7 + t, 0⟩, 0⟩⟩ = some (false, r) := by
  obtain ⟨q, hq⟩ : ∃ q : AnyPath, q = ⟨⟨⟨7, 0⟩, 0⟩, 1, fun t => ⟨⟨7 + t, 0⟩, 0⟩⟩ := ⟨_, rfl⟩
  have hh : Headings q := headings_zero (by rw [hq]) (by rw [hq]; intro; rfl)
  have hst : (exValidator (.new 10 10)).minStep = 1 / 10 := rfl
  rw [← hq]
  obtain ⟨⟨b, r⟩, hr⟩ := C127_terminates_partial (exValidator (.new 10 10)) ⟨rfl, rfl⟩ (by rw [hst]; norm_num) q
    (by rw [hq, hst]; norm_num) hh
  cases b with
  | false => exact ⟨r, hr⟩
  | true =>
    have := (C127_accepted_partial _ ⟨rfl, rfl⟩ (by rw [hst]; norm_num) q (by rw [hq]; norm_num) (by rw [hq, hst]; norm_num) hh
      r hr).2.1.x_le
    have h7 : fl64 (7 + 0 - 0) = 7 := by
      have := fl_int (p := 53) (by norm_num) (n := 7) (by norm_num)
      simpa [fl64] using this
    rw [hq] at this
    have this : fl64 (7 + 0 - 0) ≤ 5 := this
    rw [h7] at this
    norm_num at this

/-- Non-vacuity of `C127_long_paths_hang`: with an interpolation step of 2^-60 (a `float`) `IsPathValid` does not return for
a straight path of length 1 along the border of the map. -/
example : ({ exValidator (.new 10 10) with minStep := 2 ^ (-60 : ℤ) } : Validator).isPathValidF
    ⟨⟨⟨-5, 0⟩, 0⟩, 1, fun t => ⟨⟨-5, t⟩, 0⟩⟩ = none := by
  obtain ⟨q, hq⟩ : ∃ q : AnyPath, q = ⟨⟨⟨-5, 0⟩, 0⟩, 1, fun t => ⟨⟨-5, t⟩, 0⟩⟩ := ⟨_, rfl⟩
  have hh : Headings q := headings_zero (by rw [hq]) (by rw [hq]; intro; rfl)
  rw [← hq]
  refine C127_long_paths_hang _ ⟨rfl, rfl⟩ q hh (-7) (by rw [hq]; norm_num) (by positivity) ?_ ?_
  · intro t h0 h1
    refine ex_acceptableF _ rfl rfl _ (by rw [hq]; norm_num) ?_ (by rw [hq]) (ex_reportedF _ _ rfl rfl)
    rw [hq]; constructor <;> dsimp only <;> linarith
  · intro t h0 h1
    refine max_le (le_trans (min_le_right _ _) ?_) (by norm_num)
    unfold distToMapBorderF
    have e : fl64 ((q.interpolate t).position.x - exSpace.lb.position.x) = 0 := by
      rw [hq]; simp [exSpace, fl64, fl_zero]
    refine le_trans (fl_mono 24 (by norm_num) (y := 0) ?_) (by rw [fl_zero]; positivity)
    refine le_trans (min_le_left _ _) (le_trans (min_le_left _ _) ?_)
    exact e.le

end Validator
end PathPlanning
