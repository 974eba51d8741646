import Mathlib.Data.Real.Basic

/-!
# Specification of images: C102
-/

namespace PathPlanning.Spec

/-- The three bytes of the pixel in column `x`, line `j` from the top, of an image of width `w` (binary PPM). -/
def pixelAt (data : List Nat) (w x j : Nat) : List Nat := (data.drop (3 * (j * w + x))).take 3

/-- A number limited to [0, 1]. -/
noncomputable def clip (t : ℝ) : ℝ := max 0 (min t 1)

/-- Red, green and blue of the fully saturated hue `h` in [0, 1): red at 0, green at 1/3, blue at 2/3. -/
noncomputable def hueRed (h : ℝ) : ℝ := clip (|6 * h - 3| - 1)
noncomputable def hueGreen (h : ℝ) : ℝ := clip (2 - |6 * h - 2|)
noncomputable def hueBlue (h : ℝ) : ℝ := clip (2 - |6 * h - 4|)

end PathPlanning.Spec
