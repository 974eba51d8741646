import Verif.Lemmas.Float
import Mathlib.Analysis.SpecialFunctions.Sqrt

/-!
# Relative errors of non-negative numbers
-/

namespace PathPlanning.Flt

/-- `y` is `x` up to a relative error `δ`. -/
def Rel (δ x y : ℝ) : Prop := (1 - δ) * x ≤ y ∧ y ≤ (1 + δ) * x

theorem Rel.mono {δ ε x y : ℝ} (hx : 0 ≤ x) (h : Rel δ x y) (hd : δ ≤ ε) : Rel ε x y :=
  ⟨le_trans (mul_le_mul_of_nonneg_right (by linarith) hx) h.1,
    le_trans h.2 (mul_le_mul_of_nonneg_right (by linarith) hx)⟩

theorem Rel.nonneg {δ x y : ℝ} (hx : 0 ≤ x) (h : Rel δ x y) (hd : δ ≤ 1) : 0 ≤ y :=
  le_trans (mul_nonneg (by linarith) hx) h.1

theorem Rel.fl (p : ℕ) {x : ℝ} (hx : 0 ≤ x) : Rel (2 ^ p)⁻¹ x (Flt.fl p x) := by
  have := abs_le.1 (fl_rel p x)
  rw [abs_of_nonneg hx] at this
  constructor <;> linarith [this.1, this.2]

theorem Rel.refl (x : ℝ) : Rel 0 x x := by constructor <;> linarith

theorem Rel.trans {δ ε x y z : ℝ} (hx : 0 ≤ x) (h1 : Rel δ x y) (h2 : Rel ε y z) (h0 : 0 ≤ δ) (hd : δ ≤ 1)
    (e0 : 0 ≤ ε) (e1 : ε ≤ 1) : Rel (δ + ε + δ * ε) x z := by
  constructor
  · calc (1 - (δ + ε + δ * ε)) * x ≤ (1 - ε) * ((1 - δ) * x) := by nlinarith [mul_nonneg (mul_nonneg h0 e0) hx]
      _ ≤ (1 - ε) * y := mul_le_mul_of_nonneg_left h1.1 (by linarith)
      _ ≤ z := h2.1
  · calc z ≤ (1 + ε) * y := h2.2
      _ ≤ (1 + ε) * ((1 + δ) * x) := mul_le_mul_of_nonneg_left h1.2 (by linarith)
      _ = (1 + (δ + ε + δ * ε)) * x := by ring

theorem Rel.mul {δ ε x y x' y' : ℝ} (hx : 0 ≤ x) (hy : 0 ≤ y) (h1 : Rel δ x x') (h2 : Rel ε y y') (h0 : 0 ≤ δ)
    (hd : δ ≤ 1) (e0 : 0 ≤ ε) (e1 : ε ≤ 1) : Rel (δ + ε + δ * ε) (x * y) (x' * y') := by
  have hx' := h1.nonneg hx hd
  constructor
  · calc (1 - (δ + ε + δ * ε)) * (x * y) ≤ ((1 - δ) * x) * ((1 - ε) * y) := by
          nlinarith [mul_nonneg (mul_nonneg h0 e0) (mul_nonneg hx hy)]
      _ ≤ x' * y' := mul_le_mul h1.1 h2.1 (mul_nonneg (by linarith) hy) hx'
  · calc x' * y' ≤ ((1 + δ) * x) * ((1 + ε) * y) :=
          mul_le_mul h1.2 h2.2 (h2.nonneg hy e1) (mul_nonneg (by linarith) hx)
      _ = (1 + (δ + ε + δ * ε)) * (x * y) := by ring

/-- Dividing by a perturbed number. -/
theorem Rel.div {δ a x x' : ℝ} (ha : 0 ≤ a) (hx : 0 < x) (h : Rel δ x x') (h0 : 0 ≤ δ) (hd : δ ≤ 1 / 2) :
    Rel (δ + 2 * δ ^ 2) (a / x) (a / x') := by
  have hx' : 0 < x' := lt_of_lt_of_le (mul_pos (by linarith) hx) h.1
  constructor
  · rw [le_div_iff₀ hx']
    have h1 : (1 - (δ + 2 * δ ^ 2)) * (1 + δ) ≤ 1 := by nlinarith [mul_nonneg h0 (sq_nonneg δ), sq_nonneg δ]
    have e : a / x * x = a := div_mul_cancel₀ a (ne_of_gt hx)
    have hq : 0 ≤ a / x := div_nonneg ha hx.le
    have hc : 0 ≤ 1 - (δ + 2 * δ ^ 2) := by nlinarith
    calc (1 - (δ + 2 * δ ^ 2)) * (a / x) * x' ≤ (1 - (δ + 2 * δ ^ 2)) * (a / x) * ((1 + δ) * x) :=
          mul_le_mul_of_nonneg_left h.2 (mul_nonneg hc hq)
      _ = (1 - (δ + 2 * δ ^ 2)) * (1 + δ) * (a / x * x) := by ring
      _ ≤ 1 * (a / x * x) := mul_le_mul_of_nonneg_right h1 (by rw [e]; exact ha)
      _ = a := by rw [e, one_mul]
  · rw [div_le_iff₀ hx']
    have h1 : 1 ≤ (1 + (δ + 2 * δ ^ 2)) * (1 - δ) := by nlinarith [mul_nonneg h0 h0]
    have e : a / x * x = a := div_mul_cancel₀ a (ne_of_gt hx)
    have hq : 0 ≤ a / x := div_nonneg ha hx.le
    calc a = 1 * (a / x * x) := by rw [e, one_mul]
      _ ≤ (1 + (δ + 2 * δ ^ 2)) * (1 - δ) * (a / x * x) := mul_le_mul_of_nonneg_right h1 (by rw [e]; exact ha)
      _ = (1 + (δ + 2 * δ ^ 2)) * (a / x) * ((1 - δ) * x) := by ring
      _ ≤ (1 + (δ + 2 * δ ^ 2)) * (a / x) * x' := mul_le_mul_of_nonneg_left h.1 (by positivity)

theorem Rel.add {δ x y x' y' : ℝ} (h1 : Rel δ x x') (h2 : Rel δ y y') : Rel δ (x + y) (x' + y') :=
  ⟨by linarith [h1.1, h2.1], by linarith [h1.2, h2.2]⟩

theorem Rel.sqrt {δ x y : ℝ} (hx : 0 ≤ x) (h : Rel δ x y) (h0 : 0 ≤ δ) (hd : δ ≤ 1) : Rel δ √x √y := by
  constructor
  · apply Real.le_sqrt_of_sq_le
    rw [mul_pow, Real.sq_sqrt hx]
    refine le_trans (mul_le_mul_of_nonneg_right ?_ hx) h.1
    nlinarith
  · rw [Real.sqrt_le_left (mul_nonneg (by linarith) (Real.sqrt_nonneg _)), mul_pow, Real.sq_sqrt hx]
    refine le_trans h.2 (mul_le_mul_of_nonneg_right ?_ hx)
    nlinarith

end PathPlanning.Flt
