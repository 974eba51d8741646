import Verif.Spec.Pose
import Mathlib.Tactic.Ring
import Mathlib.Tactic.Linarith

/-!
# Headings modulo 2π
-/

namespace PathPlanning.Spec
open Real

theorem SameAngle.refl (a : ℝ) : SameAngle a a := ⟨0, by simp⟩
theorem SameAngle.symm {a b : ℝ} (h : SameAngle a b) : SameAngle b a := by
  obtain ⟨k, hk⟩ := h
  exact ⟨-k, by push_cast; linarith⟩
theorem SameAngle.trans {a b c : ℝ} (h : SameAngle a b) (h' : SameAngle b c) : SameAngle a c := by
  obtain ⟨k, hk⟩ := h
  obtain ⟨l, hl⟩ := h'
  exact ⟨k + l, by push_cast; linarith⟩
theorem SameAngle.add {a b c d : ℝ} (h : SameAngle a b) (h' : SameAngle c d) :
    SameAngle (a + c) (b + d) := by
  obtain ⟨k, hk⟩ := h
  obtain ⟨l, hl⟩ := h'
  exact ⟨k + l, by push_cast; linarith⟩
theorem SameAngle.neg {a b : ℝ} (h : SameAngle a b) : SameAngle (-a) (-b) := by
  obtain ⟨k, hk⟩ := h
  exact ⟨-k, by push_cast; linarith⟩
theorem SameAngle.sub {a b c d : ℝ} (h : SameAngle a b) (h' : SameAngle c d) :
    SameAngle (a - c) (b - d) := by
  rw [sub_eq_add_neg, sub_eq_add_neg]; exact h.add h'.neg
theorem SameAngle.cos {a b : ℝ} (h : SameAngle a b) : Real.cos a = Real.cos b := by
  obtain ⟨k, rfl⟩ := h
  exact cos_add_int_mul_two_pi b k
theorem SameAngle.sin {a b : ℝ} (h : SameAngle a b) : Real.sin a = Real.sin b := by
  obtain ⟨k, rfl⟩ := h
  exact sin_add_int_mul_two_pi b k
theorem SamePose.refl (a : PoseR) : SamePose a a := ⟨rfl, .refl _⟩
theorem SamePose.symm {a b : PoseR} (h : SamePose a b) : SamePose b a := ⟨h.1.symm, h.2.symm⟩
theorem SamePose.trans {a b c : PoseR} (h : SamePose a b) (h' : SamePose b c) : SamePose a c :=
  ⟨h.1.trans h'.1, h.2.trans h'.2⟩

end PathPlanning.Spec
