import Verif.Props.Validator
import Verif.Props.ValidatorMore
import Verif.Model.HybridAStar

/-!
# C178: the part of a path that is reported as valid is itself accepted

`IsPathValid` reports the ratio of the last valid state, and hybrid A* truncates a rejected motion to this ratio and
uses it without another check.
-/

namespace PathPlanning
open Spec

namespace Spec

/-- The part of a path from its start to a ratio. -/
noncomputable def firstPart (t : ℝ) (q : AnyPath) : AnyPath :=
  ⟨q.init, q.length * t, fun ratio => q.interpolate (ratio * t)⟩

/-- A motion with a constant steering angle, as a path. -/
noncomputable def motionPath (p : PathSteer) : AnyPath := ⟨p.init, p.length, p.interpolate⟩

end Spec

namespace Validator

private theorem increment_nonneg {v : Validator} (hstep : 0 ≤ v.minStep) {s : PoseR} {d : ℝ} (h : v.increment s = some d) :
    0 ≤ d := by
  unfold increment at h
  obtain ⟨x, -, rfl⟩ := Option.map_eq_some_iff.mp h
  exact hstep.trans (le_max_right _ _)

private theorem part_state {q : AnyPath} {t : ℝ} (ht : 0 < t) (length : ℝ) :
    (firstPart t q).interpolate (length / (firstPart t q).length) = q.interpolate (length / q.length) := by
  show q.interpolate (length / (q.length * t) * t) = _
  congr 1
  rw [div_mul_eq_mul_div, mul_div_mul_right _ _ ht.ne']

private theorem accepted_part {v : Validator} {q : AnyPath} (hq : 0 < q.length) {t : ℝ} (ht : 0 < t) (ht1 : t ≤ 1)
    (length last : ℝ) (x : Bool × ℝ) (h : v.pathLoop q length last = some x) (hx : x.1 = true) (last' : ℝ) :
    v.pathLoop (firstPart t q) length last' = some (true, 1) := by
  revert hx last'
  refine pathLoop.partial_correctness v q
    (fun length _ x => x.1 = true → ∀ last', v.pathLoop (firstPart t q) length last' = some (true, 1)) ?_ length last x h
  intro f ih length last x hr hx last'
  rw [pathLoop]
  by_cases hlt : length < (firstPart t q).length
  · have hlt' : length < q.length := lt_of_lt_of_le hlt (mul_le_of_le_one_right hq.le ht1)
    rw [if_pos hlt'] at hr
    rw [if_pos hlt]
    dsimp only at hr ⊢
    rw [part_state ht]
    cases hv : v.isStateValid (q.interpolate (length / q.length)) with
    | none => rw [hv] at hr; cases hr
    | some b =>
      rw [hv] at hr
      cases b with
      | false =>
        simp only [Option.bind_eq_bind, Option.bind_some, Bool.false_eq_true, if_false, Option.some.injEq] at hr
        subst hr; cases hx
      | true =>
        simp only [Option.bind_eq_bind, Option.bind_some, if_true] at hr ⊢
        cases hi : v.increment (q.interpolate (length / q.length)) with
        | none => rw [hi] at hr; cases hr
        | some d =>
          rw [hi] at hr
          exact ih _ _ _ hr hx _
  · rw [if_neg hlt]

private theorem rejected_part {v : Validator} (hstep : 0 ≤ v.minStep) {q : AnyPath} (hq : 0 < q.length)
    (length last : ℝ) (x : Bool × ℝ) (h : v.pathLoop q length last = some x) (hx : x.1 = false) (hl : last ≤ length) :
    ∃ bad, length ≤ bad ∧ bad < q.length ∧ x.2 * q.length ≤ bad ∧
      v.isStateValid (q.interpolate (bad / q.length)) = some false ∧
      ∀ t, 0 < t → t ≤ 1 → v.pathLoop (firstPart t q) length last =
        if q.length * t ≤ bad then some (true, 1) else some (false, x.2 / t) := by
  revert hx hl
  refine pathLoop.partial_correctness v q
    (fun length last x => x.1 = false → last ≤ length → ∃ bad, length ≤ bad ∧ bad < q.length ∧ x.2 * q.length ≤ bad ∧
      v.isStateValid (q.interpolate (bad / q.length)) = some false ∧
      ∀ t, 0 < t → t ≤ 1 → v.pathLoop (firstPart t q) length last =
        if q.length * t ≤ bad then some (true, 1) else some (false, x.2 / t)) ?_ length last x h
  intro f ih length last x hr hx hl
  by_cases hlt : length < q.length
  · rw [if_pos hlt] at hr
    dsimp only at hr
    cases hv : v.isStateValid (q.interpolate (length / q.length)) with
    | none => rw [hv] at hr; cases hr
    | some b =>
      rw [hv] at hr
      cases b with
      | false =>
        simp only [Option.bind_eq_bind, Option.bind_some, Bool.false_eq_true, if_false, Option.some.injEq] at hr
        subst hr
        refine ⟨length, le_rfl, hlt, ?_, hv, ?_⟩
        · dsimp only
          rw [div_mul_cancel₀ _ hq.ne']; exact hl
        · intro t ht ht1
          rw [pathLoop]
          by_cases hle : q.length * t ≤ length
          · rw [if_pos hle, if_neg (show ¬ length < (firstPart t q).length from not_lt.mpr hle)]
          · rw [if_neg hle, if_pos (show length < (firstPart t q).length from not_le.mp hle)]
            dsimp only
            rw [part_state ht, hv]
            simp only [Option.bind_eq_bind, Option.bind_some, Bool.false_eq_true, if_false, Option.some.injEq,
              Prod.mk.injEq, true_and]
            show last / (q.length * t) = last / q.length / t
            rw [div_div]
      | true =>
        simp only [Option.bind_eq_bind, Option.bind_some, if_true] at hr
        cases hi : v.increment (q.interpolate (length / q.length)) with
        | none => rw [hi] at hr; cases hr
        | some d =>
          rw [hi] at hr
          have hd := increment_nonneg hstep hi
          obtain ⟨bad, h1, h2, h3, h4, h5⟩ := ih _ _ _ hr hx (by linarith)
          refine ⟨bad, by linarith, h2, h3, h4, ?_⟩
          intro t ht ht1
          have h6 := h5 t ht ht1
          by_cases hle : q.length * t ≤ bad
          · rw [if_pos hle] at h6 ⊢
            rw [pathLoop]
            by_cases hlt2 : length < (firstPart t q).length
            · rw [if_pos hlt2]
              dsimp only
              rw [part_state ht, hv]
              simp only [Option.bind_eq_bind, Option.bind_some, if_true, hi]
              exact h6
            · rw [if_neg hlt2]
          · rw [if_neg hle] at h6 ⊢
            rw [pathLoop, if_pos (show length < (firstPart t q).length from by
              show length < q.length * t
              linarith [not_le.mp hle])]
            dsimp only
            rw [part_state ht, hv]
            simp only [Option.bind_eq_bind, Option.bind_some, if_true, hi]
            exact h6
  · rw [if_neg hlt] at hr
    injection hr with hr
    subst hr; cases hx

end Validator

private theorem part_ne {q : AnyPath} (hq : 0 < q.length) {t : ℝ} (ht : 0 < t) : (firstPart t q).length ≠ 0 :=
  (mul_pos hq ht).ne'

/-- C178: every first part of an accepted path is accepted. -/
theorem C178_part_of_accepted {v : Validator} {q : AnyPath} (hq : 0 < q.length) {r : ℝ}
    (ha : v.isPathValid q = some (true, r)) {t : ℝ} (ht : 0 < t) (ht1 : t ≤ 1) :
    v.isPathValid (firstPart t q) = some (true, 1) := by
  unfold Validator.isPathValid at ha ⊢
  rw [if_neg hq.ne'] at ha
  rw [if_neg (part_ne hq ht)]
  exact Validator.accepted_part hq ht ht1 _ _ _ ha rfl _

/-- C178: a rejected path has a first bad ratio, not before the reported one: the parts up to it are accepted, and the
longer ones are rejected with the same last valid state. -/
theorem C178_parts_of_rejected {v : Validator} (hstep : 0 ≤ v.minStep) {q : AnyPath} (hq : 0 < q.length) {r : ℝ}
    (ha : v.isPathValid q = some (false, r)) :
    ∃ bad, 0 ≤ bad ∧ r ≤ bad ∧ bad < 1 ∧ v.isStateValid (q.interpolate bad) = some false ∧
      ∀ t, 0 < t → t ≤ 1 →
        v.isPathValid (firstPart t q) = if t ≤ bad then some (true, 1) else some (false, r / t) := by
  unfold Validator.isPathValid at ha
  rw [if_neg hq.ne'] at ha
  obtain ⟨b, h0, h1, h2, h3, h4⟩ := Validator.rejected_part hstep hq _ _ _ ha rfl le_rfl
  refine ⟨b / q.length, div_nonneg h0 hq.le, by rwa [le_div_iff₀ hq], by rwa [div_lt_one hq], h3, ?_⟩
  intro t ht ht1
  unfold Validator.isPathValid
  rw [if_neg (part_ne hq ht), h4 t ht ht1]
  have : q.length * t ≤ b ↔ t ≤ b / q.length := by rw [le_div_iff₀ hq, mul_comm]
  simp only [this]

/-- C178: the part of a rejected path up to the reported ratio is accepted. -/
theorem C178_reported_part {v : Validator} (hstep : 0 ≤ v.minStep) {q : AnyPath} (hq : 0 < q.length) {r : ℝ}
    (ha : v.isPathValid q = some (false, r)) (hr : 0 < r) : v.isPathValid (firstPart r q) = some (true, 1) := by
  obtain ⟨bad, -, h1, h2, -, h3⟩ := C178_parts_of_rejected hstep hq ha
  rw [h3 r hr (h1.trans h2.le), if_pos h1]

/-- C178: a path is rejected if a part of it is, with the same last valid state. -/
theorem C178_rejected_part {v : Validator} (h : SameSize v) (hstep : 0 < v.minStep) {q : AnyPath} (hq : 0 < q.length)
    {t r : ℝ} (ht : 0 < t) (ht1 : t ≤ 1) (ha : v.isPathValid (firstPart t q) = some (false, r)) :
    v.isPathValid q = some (false, r * t) := by
  obtain ⟨x, hx⟩ := Validator.C53_terminates v h hstep q
  obtain ⟨b, s⟩ := x
  cases b with
  | true => rw [C178_part_of_accepted hq hx ht ht1] at ha; cases ha
  | false =>
    obtain ⟨bad, -, -, -, -, h4⟩ := C178_parts_of_rejected hstep.le hq hx
    rw [h4 t ht ht1] at ha
    split at ha
    · cases ha
    · simp only [Option.some.injEq, Prod.mk.injEq, true_and] at ha
      rw [hx, ← ha, div_mul_cancel₀ _ ht.ne']

/-- C178: a motion that hybrid A* has truncated to the reported ratio is accepted when it is checked again. -/
theorem C178_truncated_motion {v : Validator} (hstep : 0 ≤ v.minStep) {p : PathSteer} (hp : 0 < p.length) {r : ℝ}
    (ha : v.isPathValid (motionPath p) = some (false, r)) (hr : 0 < r) :
    v.isPathValid (motionPath (p.truncate r)) = some (true, 1) := by
  have e : motionPath (p.truncate r) = firstPart r (motionPath p) := by
    unfold motionPath firstPart
    simp only [AnyPath.mk.injEq]
    refine ⟨rfl, rfl, funext fun t => ?_⟩
    show p.model.constantSteer p.init p.steering (p.length * r * t) p.direction =
      p.model.constantSteer p.init p.steering (p.length * (t * r)) p.direction
    rw [show p.length * r * t = p.length * (t * r) by ring]
  rw [e]
  exact C178_reported_part hstep hp ha hr

/-- C178: the same for the straight path of the state space. -/
theorem C178_truncated_line {v : Validator} (hstep : 0 ≤ v.minStep) {p : PathSE2} (hp : 0 < p.length) {r : ℝ}
    (ha : v.isPathValid p.toAny = some (false, r)) (hr : 0 < r) :
    v.isPathValid (p.truncate r).toAny = some (true, 1) := by
  have e : (p.truncate r).toAny = firstPart r p.toAny := by
    unfold PathSE2.toAny firstPart
    simp only [AnyPath.mk.injEq]
    refine ⟨rfl, rfl, funext fun t => ?_⟩
    unfold PathSE2.truncate PathSE2.interpolate Pt.lerp
    simp only [PoseR.mk.injEq, Pt.mk.injEq]
    exact ⟨⟨by ring, by ring⟩, by ring⟩
  rw [e]
  exact C178_reported_part hstep hp ha hr

/-- Non-vacuity: a path out of the map is rejected, with a positive ratio. -/
example : ∃ r, 0 < r ∧ (PathSE2.connect ⟨⟨0, 0⟩, 0⟩ ⟨⟨8, 6⟩, 0⟩).length = 10 ∧
    (Validator.exValidator (.new 10 10)).isPathValid (PathSE2.connect ⟨⟨0, 0⟩, 0⟩ ⟨⟨8, 6⟩, 0⟩).toAny = some (false, r) := by
  have hl : (PathSE2.connect ⟨⟨0, 0⟩, 0⟩ ⟨⟨8, 6⟩, 0⟩).length = 10 := by
    show √((8 - 0) ^ 2 + (6 - 0) ^ 2) = (10 : ℝ)
    rw [show ((8 : ℝ) - 0) ^ 2 + (6 - 0) ^ 2 = 10 ^ 2 by norm_num]
    exact Real.sqrt_sq (by norm_num)
  obtain ⟨q, hqd⟩ : ∃ q, q = (PathSE2.connect ⟨⟨0, 0⟩, 0⟩ ⟨⟨8, 6⟩, 0⟩).toAny := ⟨_, rfl⟩
  have hql : q.length = 10 := by rw [hqd]; exact hl
  have hqx : ∀ t, (q.interpolate t).position.x = 8 * t := by
    intro t; rw [hqd]; simp [PathSE2.toAny, PathSE2.connect, PathSE2.interpolate, Pt.lerp]; ring
  have hqy : ∀ t, (q.interpolate t).position.y = 6 * t := by
    intro t; rw [hqd]; simp [PathSE2.toAny, PathSE2.connect, PathSE2.interpolate, Pt.lerp]; ring
  have hs : SameSize (Validator.exValidator (.new 10 10)) := ⟨rfl, rfl⟩
  have hst : 0 < (Validator.exValidator (.new 10 10)).minStep := by norm_num [Validator.exValidator]
  have hms : (Validator.exValidator (.new 10 10)).minStep = 1 / 10 := rfl
  have hfree : ∀ t, freeDistance (Validator.exValidator (.new 10 10)) (q.interpolate t) ≤ 5 - 8 * t := by
    intro t
    rw [← hqx t]
    exact (min_le_right _ _).trans ((min_le_left _ _).trans (min_le_right _ _))
  have hacc : ∀ t, 0 ≤ t → t ≤ 1 / 2 → Acceptable (Validator.exValidator (.new 10 10)) (q.interpolate t) := by
    intro t h0 h1
    refine Validator.ex_acceptable _ _ ?_ ?_ (Validator.ex_reported _)
    · rw [hqx]; constructor <;> linarith
    · rw [hqy]; constructor <;> linarith
  rw [← hqd]
  obtain ⟨⟨b, r⟩, hr⟩ := Validator.C53_terminates _ hs hst q
  cases b with
  | true =>
    obtain ⟨-, -, h⟩ := Validator.C53_accepted_partial _ hs hst q (by rw [hql]; norm_num) r hr
    obtain ⟨a, h0, h1, h2, h3⟩ := h 9.5 (by norm_num) (by rw [hql]; norm_num)
    have hx := h2.x_le
    rw [hqx, hql] at hx
    have hx' : 8 * (a / 10) - 0 ≤ 5 := hx
    have hf := hfree (a / q.length)
    rw [hql] at hf
    rw [hql, hms] at h3
    rcases lt_max_iff.mp h3 with h4 | h4 <;> linarith
  | false =>
    obtain ⟨bad, h0, h1, h2, h3, h4, -⟩ := Validator.C53_rejected _ hs hst q (by rw [hql]; norm_num) r hr
    refine ⟨r, lt_of_le_of_ne h0 fun he => ?_, hl, hr⟩
    subst he
    refine h3 (hacc bad h1 ?_)
    rcases h4 with ⟨h4, -⟩ | ⟨-, h4⟩
    · rw [h4]; norm_num
    · have hf := hfree 0
      rw [hql, hms] at h4
      rcases max_cases (freeDistance (Validator.exValidator (.new 10 10)) (q.interpolate 0)) (1 / 10) with ⟨h5, -⟩ | ⟨h5, -⟩ <;>
        rw [h5] at h4 <;> linarith

end PathPlanning
