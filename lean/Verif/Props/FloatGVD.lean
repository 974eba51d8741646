import Verif.Model.FloatGVD
import Verif.Lemmas.FloatRel
import Verif.Props.FloatValidator
import Verif.Props.DistMapInt
import Verif.Props.GVD

/-!
# C133: the Voronoi potential with the arithmetic of the program
-/

namespace PathPlanning
open Spec Flt Validator

/-! ## The potential as a function of the two distances -/

private theorem one32 : fl32 1 = 1 := by
  have := fl_int (p := 24) (by norm_num) (n := 1) (by norm_num); simpa [fl32] using this
private theorem one64 : fl64 1 = 1 := by
  have := fl_int (p := 53) (by norm_num) (n := 1) (by norm_num); simpa [fl64] using this

private theorem le_one32 {x : ℝ} (h : x ≤ 1) : fl32 x ≤ 1 := by
  rw [← one32]; exact fl_mono 24 (by norm_num) h
private theorem le_one64 {x : ℝ} (h : x ≤ 1) : fl64 x ≤ 1 := by
  rw [← one64]; exact fl_mono 53 (by norm_num) h
private theorem n32 {x : ℝ} (h : 0 ≤ x) : 0 ≤ fl32 x := fl_nonneg 24 h
private theorem n64 {x : ℝ} (h : 0 ≤ x) : 0 ≤ fl64 x := fl_nonneg 53 h
private theorem m32 {x y : ℝ} (h : x ≤ y) : fl32 x ≤ fl32 y := fl_mono 24 (by norm_num) h
private theorem m64 {x y : ℝ} (h : x ≤ y) : fl64 x ≤ fl64 y := fl_mono 53 (by norm_num) h

section Cost
variable {alpha dMax : ℝ} (ha : 0 < alpha) (hd : 0 < dMax)
include ha hd

/-- C133: rounding changes the potential by a relative error of at most 2^-20. -/
theorem C133_relative_error {o v : ℝ} (ho : 0 ≤ o) (hv : 0 ≤ v) :
    |voronoiCostF alpha dMax o v - voronoiCost alpha dMax o v| ≤ (2 ^ 20)⁻¹ * voronoiCost alpha dMax o v := by
  suffices h : Rel (2 ^ 20)⁻¹ (voronoiCost alpha dMax o v) (voronoiCostF alpha dMax o v) by
    rw [abs_le]; constructor <;> linarith [h.1, h.2]
  unfold voronoiCostF voronoiCost
  split
  · constructor <;> simp
  · rename_i hlt
    have hlt := not_le.mp hlt
    dsimp only
    -- the first factor
    have f0 : 0 ≤ alpha / (alpha + o) := by positivity
    have f1 : Rel (2 ^ 22)⁻¹ (alpha / (alpha + o)) (fl32 (alpha / fl32 (alpha + o))) := by
      have r1 := Rel.fl 24 (x := alpha + o) (by linarith)
      have r2 := Rel.div ha.le (by linarith) r1 (by positivity) (by norm_num)
      have n := r2.nonneg f0 (by norm_num)
      exact (r2.trans f0 (Rel.fl 24 n) (by positivity) (by norm_num) (by positivity) (by norm_num)).mono f0 (by norm_num)
    -- the second factor
    have g0 : 0 ≤ v / (o + v) := by positivity
    have g1 : Rel (2 ^ 22)⁻¹ (v / (o + v)) (fl32 (v / fl32 (o + v))) := by
      rcases eq_or_lt_of_le (add_nonneg ho hv) with hz | hp
      · have hv0 : v = 0 := by linarith
        rw [hv0, zero_div, zero_div]
        have : fl32 0 = 0 := fl_zero 24
        rw [this]
        constructor <;> simp
      · have r1 := Rel.fl 24 (x := o + v) hp.le
        have r2 := Rel.div hv hp r1 (by positivity) (by norm_num)
        have n := r2.nonneg g0 (by norm_num)
        exact (r2.trans g0 (Rel.fl 24 n) (by positivity) (by norm_num) (by positivity) (by norm_num)).mono g0 (by norm_num)
    -- the third factor
    have k0 : 0 ≤ (o - dMax) ^ 2 / dMax ^ 2 := by positivity
    have k1 : Rel (2 ^ 22)⁻¹ ((o - dMax) ^ 2 / dMax ^ 2)
        (fl64 (fl64 (fl32 (o - dMax) ^ 2) / fl64 (dMax ^ 2))) := by
      have e1 : fl32 (o - dMax) = -fl32 (dMax - o) := by
        rw [show o - dMax = -(dMax - o) by ring]; exact fl_neg 24 _
      have e2 : (o - dMax) ^ 2 = (dMax - o) * (dMax - o) := by ring
      have e3 : fl32 (o - dMax) ^ 2 = fl32 (dMax - o) * fl32 (dMax - o) := by rw [e1]; ring
      rw [e2, e3]
      have p0 : 0 ≤ dMax - o := by linarith
      have r1 := Rel.fl 24 p0
      have r2 := Rel.mul p0 p0 r1 r1 (by positivity) (by norm_num) (by positivity) (by norm_num)
      have q0 : 0 ≤ (dMax - o) * (dMax - o) := mul_nonneg p0 p0
      have n2 := r2.nonneg q0 (by norm_num)
      have r3 := r2.trans q0 (Rel.fl 53 n2) (by positivity) (by norm_num) (by positivity) (by norm_num)
      have n3 := r3.nonneg q0 (by norm_num)
      have d0 : 0 < dMax ^ 2 := by positivity
      have r4 := Rel.fl 53 d0.le
      have r5 := Rel.div (a := 1) (by norm_num) d0 r4 (by positivity) (by norm_num)
      have i0 : 0 ≤ 1 / dMax ^ 2 := by positivity
      have r6 := Rel.mul q0 i0 r3 r5 (by positivity) (by norm_num) (by positivity) (by norm_num)
      rw [mul_one_div, mul_one_div] at r6
      have z0 : 0 ≤ (dMax - o) * (dMax - o) / dMax ^ 2 := by positivity
      have n6 := r6.nonneg z0 (by norm_num)
      exact (r6.trans z0 (Rel.fl 53 n6) (by positivity) (by norm_num) (by positivity) (by norm_num)).mono z0 (by norm_num)
    obtain ⟨F, hF⟩ : ∃ F, F = fl32 (alpha / fl32 (alpha + o)) := ⟨_, rfl⟩
    obtain ⟨G, hG⟩ : ∃ G, G = fl32 (v / fl32 (o + v)) := ⟨_, rfl⟩
    obtain ⟨K, hK⟩ : ∃ K, K = fl64 (fl64 (fl32 (o - dMax) ^ 2) / fl64 (dMax ^ 2)) := ⟨_, rfl⟩
    rw [← hF] at f1 ⊢
    rw [← hG] at g1 ⊢
    rw [← hK] at k1 ⊢
    have fg0 := mul_nonneg f0 g0
    have fgk0 := mul_nonneg fg0 k0
    have r1 := Rel.mul f0 g0 f1 g1 (by positivity) (by norm_num) (by positivity) (by norm_num)
    have n1 := r1.nonneg fg0 (by norm_num)
    have r2 := r1.trans fg0 (Rel.fl 24 n1) (by positivity) (by norm_num) (by positivity) (by norm_num)
    have r3 := Rel.mul fg0 k0 r2 k1 (by positivity) (by norm_num) (by positivity) (by norm_num)
    have n3 := r3.nonneg fgk0 (by norm_num)
    have r4 := r3.trans fgk0 (Rel.fl 53 n3) (by positivity) (by norm_num) (by positivity) (by norm_num)
    have n4 := r4.nonneg fgk0 (by norm_num)
    exact (r4.trans fgk0 (Rel.fl 24 n4) (by positivity) (by norm_num) (by positivity) (by norm_num)).mono fgk0 (by norm_num)

/-- C133: the potential lies in [0, 1]. The distances are `float`s, and so are `alpha` and `dMax`. -/
theorem C133_between_zero_and_one (hfa : IsFlt 24 alpha) (hfd : IsFlt 24 dMax) {o v : ℝ} (ho : 0 ≤ o) (hv : 0 ≤ v)
    (hfv : IsFlt 24 v) : 0 ≤ voronoiCostF alpha dMax o v ∧ voronoiCostF alpha dMax o v ≤ 1 := by
  unfold voronoiCostF
  split
  · exact ⟨le_refl _, zero_le_one⟩
  · rename_i h
    have h := not_le.mp h
    dsimp only
    have a1 : alpha ≤ fl32 (alpha + o) := by
      have : fl32 alpha ≤ fl32 (alpha + o) := m32 (by linarith)
      rwa [show fl32 alpha = alpha from hfa] at this
    have a2 : v ≤ fl32 (o + v) := by
      have : fl32 v ≤ fl32 (o + v) := m32 (by linarith)
      rwa [show fl32 v = v from hfv] at this
    have f1 : 0 ≤ fl32 (alpha / fl32 (alpha + o)) := n32 (div_nonneg ha.le (by linarith))
    have f2 : fl32 (alpha / fl32 (alpha + o)) ≤ 1 := le_one32 (div_le_one_of_le₀ a1 (by linarith))
    have g1 : 0 ≤ fl32 (v / fl32 (o + v)) := n32 (div_nonneg hv (by linarith))
    have g2 : fl32 (v / fl32 (o + v)) ≤ 1 := le_one32 (div_le_one_of_le₀ a2 (by linarith))
    have b1 : fl32 (o - dMax) ≤ 0 := by
      have : fl32 (o - dMax) ≤ fl32 0 := m32 (by linarith)
      rwa [show fl32 0 = 0 from fl_zero 24] at this
    have b2 : -dMax ≤ fl32 (o - dMax) := by
      have : fl32 (-dMax) ≤ fl32 (o - dMax) := m32 (by linarith)
      rwa [show fl32 (-dMax) = -dMax from isFlt_neg hfd] at this
    have b3 : fl32 (o - dMax) ^ 2 ≤ dMax ^ 2 := by nlinarith
    have k1 : 0 ≤ fl64 (fl64 (fl32 (o - dMax) ^ 2) / fl64 (dMax ^ 2)) :=
      n64 (div_nonneg (n64 (sq_nonneg _)) (n64 (sq_nonneg _)))
    have k2 : fl64 (fl64 (fl32 (o - dMax) ^ 2) / fl64 (dMax ^ 2)) ≤ 1 :=
      le_one64 (div_le_one_of_le₀ (m64 b3) (n64 (sq_nonneg _)))
    have p1 := n32 (mul_nonneg f1 g1)
    have p2 := le_one32 (mul_le_one₀ f2 g1 g2)
    exact ⟨n32 (n64 (mul_nonneg p1 k1)), le_one32 (le_one64 (mul_le_one₀ p2 k1 k2))⟩

/-- C133: the potential is 0 exactly on Voronoi edges and from the cut-off distance on. -/
theorem C133_zero_iff_edge_or_far {o v : ℝ} (ho : 0 ≤ o) (hv : 0 ≤ v) (hne : ¬ (o = 0 ∧ v = 0)) :
    voronoiCostF alpha dMax o v = 0 ↔ v = 0 ∨ dMax ≤ o := by
  rw [← C40_zero_iff_edge_or_far ha hd ho hv hne]
  have e := abs_le.1 (C133_relative_error ha hd ho hv)
  have n := (C40_between_zero_and_one ha hd ho hv).1
  constructor
  · intro h; rw [h] at e; norm_num at e; linarith [e.1]
  · intro h; rw [h] at e; norm_num at e; linarith [e.1, e.2]

/-- C133: the potential does not increase with the distance to the obstacle, rounding included. -/
theorem C133_decreases_with_obstacle_distance (hfa : IsFlt 24 alpha) (hfd : IsFlt 24 dMax) {o o' v : ℝ} (ho : 0 ≤ o)
    (hoo : o ≤ o') (hv : 0 ≤ v) (hfv : IsFlt 24 v) (hne : ¬ (o = 0 ∧ v = 0)) :
    voronoiCostF alpha dMax o' v ≤ voronoiCostF alpha dMax o v := by
  by_cases h' : dMax ≤ o'
  · have := (C133_between_zero_and_one ha hd hfa hfd ho hv hfv).1
    have e : voronoiCostF alpha dMax o' v = 0 := by unfold voronoiCostF; rw [if_pos h']
    rw [e]; exact this
  · have h' := not_le.mp h'
    have h : ¬ o ≥ dMax := by intro h; linarith
    unfold voronoiCostF
    rw [if_neg (show ¬ o' ≥ dMax by linarith), if_neg h]
    dsimp only
    have a1 : 0 < fl32 (alpha + o) := by
      have : fl32 alpha ≤ fl32 (alpha + o) := m32 (by linarith)
      rw [show fl32 alpha = alpha from hfa] at this
      linarith
    have a2 : fl32 (alpha + o) ≤ fl32 (alpha + o') := m32 (by linarith)
    have f0 : 0 ≤ fl32 (alpha / fl32 (alpha + o)) := n32 (by positivity)
    have f1 : fl32 (alpha / fl32 (alpha + o')) ≤ fl32 (alpha / fl32 (alpha + o)) :=
      m32 (div_le_div_of_nonneg_left ha.le a1 a2)
    have c2 : fl32 (o + v) ≤ fl32 (o' + v) := m32 (by linarith)
    have g0 : 0 ≤ fl32 (v / fl32 (o' + v)) := n32 (div_nonneg hv (n32 (by linarith)))
    have g1 : fl32 (v / fl32 (o' + v)) ≤ fl32 (v / fl32 (o + v)) := by
      rcases eq_or_lt_of_le hv with hz | hp
      · rw [← hz, zero_div, zero_div]
      · have c1 : 0 < fl32 (o + v) := by
          have : fl32 v ≤ fl32 (o + v) := m32 (by linarith)
          rw [show fl32 v = v from hfv] at this
          linarith
        exact m32 (div_le_div_of_nonneg_left hv c1 c2)
    have b1 : fl32 (o' - dMax) ≤ 0 := by
      have : fl32 (o' - dMax) ≤ fl32 0 := m32 (by linarith)
      rwa [show fl32 0 = 0 from fl_zero 24] at this
    have b2 : fl32 (o - dMax) ≤ fl32 (o' - dMax) := m32 (by linarith)
    have b3 : fl32 (o' - dMax) ^ 2 ≤ fl32 (o - dMax) ^ 2 := by nlinarith
    have k0 : 0 ≤ fl64 (fl64 (fl32 (o' - dMax) ^ 2) / fl64 (dMax ^ 2)) :=
      n64 (div_nonneg (n64 (sq_nonneg _)) (n64 (sq_nonneg _)))
    have k1 := m64 (div_le_div_of_nonneg_right (m64 b3) (n64 (sq_nonneg dMax)))
    have p1 := m32 (mul_le_mul f1 g1 g0 f0)
    exact m32 (m64 (mul_le_mul p1 k1 k0 (n32 (mul_nonneg f0 (le_trans g0 g1)))))

/-- C133 (partial: up to a relative error of 2^-18; see `C133_not_increasing_with_edge_distance`): the potential does not
decrease with the distance to the Voronoi edge. -/
theorem C133_increases_with_edge_distance_partial {o v v' : ℝ} (ho : 0 ≤ o) (hv : 0 ≤ v) (hvv : v ≤ v')
    (hne : ¬ (o = 0 ∧ v = 0)) :
    voronoiCostF alpha dMax o v ≤ (1 + (2 ^ 18)⁻¹) * voronoiCostF alpha dMax o v' := by
  have e1 := abs_le.1 (C133_relative_error ha hd ho hv)
  have e2 := abs_le.1 (C133_relative_error ha hd ho (le_trans hv hvv))
  have m := C40_increases_with_edge_distance ha hd ho hv hvv hne
  have n := (C40_between_zero_and_one ha hd ho hv).1
  norm_num at e1 e2 ⊢
  linarith [e1.2, e2.1]

end Cost

/-! ## The distances that the maps report -/

theorem worldDistanceF_isFlt (res : ℝ) (d : WithTop Nat) : IsFlt 24 (worldDistanceF res d) := isFlt_fl 24 (by norm_num) _

theorem worldDistanceF_nonneg {res : ℝ} (h : 0 < res) (d : WithTop Nat) : 0 ≤ worldDistanceF res d := by
  have := le_worldDistanceF h d
  have := worldDistance_nonneg h d
  norm_num at *
  linarith

theorem worldDistanceF_eq_zero {res : ℝ} (h : 0 < res) (d : WithTop Nat) : worldDistanceF res d = 0 ↔ d = 0 := by
  rw [← worldDistance_eq_zero h]
  have h1 := le_worldDistanceF h d
  have h2 := worldDistanceF_le h d
  have h3 := worldDistance_nonneg h d
  constructor
  · intro e; rw [e] at h1; norm_num at h1; linarith
  · intro e; rw [e] at h1 h2; norm_num at h1 h2; linarith

/-- A distance of the map is at most 46,343 times another one that is not 0. -/
theorem worldDistanceF_ratio {res : ℝ} (h : 0 < res) {d e : WithTop Nat} (hd : DistMap.Fits d) (he : e ≠ 0) :
    worldDistanceF res d ≤ 46343 * worldDistanceF res e := by
  have h1 := worldDistanceF_le h d
  have h2 := le_worldDistanceF h e
  have h3 : worldDistance res d ≤ 46341 * res := by
    unfold worldDistance
    refine mul_le_mul_of_nonneg_right ?_ h.le
    rw [Real.sqrt_le_left (by norm_num)]
    have : ObstDistMap.toInt d ≤ 2147483647 := by
      cases d with
      | top => exact le_refl _
      | coe k => exact (hd k rfl).le
    have : ((ObstDistMap.toInt d : Int) : ℝ) ≤ 2147483647 := by exact_mod_cast this
    norm_num
    linarith
  have h4 : 1 * res ≤ worldDistance res e := by
    unfold worldDistance
    refine mul_le_mul_of_nonneg_right ?_ h.le
    rw [Real.one_le_sqrt]
    have : (1 : Int) ≤ ObstDistMap.toInt e := by
      cases e with
      | top => show (1 : Int) ≤ 2147483647; norm_num
      | coe k =>
        show (1 : Int) ≤ (k : Int)
        have : k ≠ 0 := by rintro rfl; exact he rfl
        omega
    exact_mod_cast this
  norm_num at h1 h2
  linarith

/-- C133: the potential of a cell is 1 exactly at the obstacles: not even the cell next to an obstacle on a map as large as
`int` allows is rounded to 1. -/
theorem C133_one_iff_obstacle {alpha dMax : ℝ} (ha : 0 < alpha) (hd : 0 < dMax) (hfa : IsFlt 24 alpha)
    (hfd : IsFlt 24 dMax) {res : ℝ} (h : 0 < res) {d e : WithTop Nat} (he : DistMap.Fits e) (hne : ¬ (d = 0 ∧ e = 0)) :
    voronoiCostF alpha dMax (worldDistanceF res d) (worldDistanceF res e) = 1 ↔ d = 0 := by
  have ho := worldDistanceF_nonneg h d
  have hv := worldDistanceF_nonneg h e
  constructor
  · intro h1
    by_contra hd0
    have hr := worldDistanceF_ratio h he hd0
    have hpos : 0 < worldDistanceF res d := lt_of_le_of_ne ho fun hz => hd0 ((worldDistanceF_eq_zero h d).1 hz.symm)
    obtain ⟨o, hoo⟩ : ∃ o, o = worldDistanceF res d := ⟨_, rfl⟩
    obtain ⟨v, hvv⟩ : ∃ v, v = worldDistanceF res e := ⟨_, rfl⟩
    rw [← hoo] at ho hr hpos h1
    rw [← hvv] at hv hr h1
    have e1 := abs_le.1 (C133_relative_error ha hd ho hv)
    have key : voronoiCost alpha dMax o v ≤ 46343 / 46344 := by
      unfold voronoiCost
      split
      · norm_num
      · rename_i hlt
        have hlt := not_le.mp hlt
        have f0 : 0 ≤ alpha / (alpha + o) := by positivity
        have f1 : alpha / (alpha + o) ≤ 1 := div_le_one_of_le₀ (by linarith) (by linarith)
        have g0 : 0 ≤ v / (o + v) := by positivity
        have g1 : v / (o + v) ≤ 46343 / 46344 := by
          rw [div_le_div_iff₀ (by linarith) (by norm_num)]; linarith
        have k0 : 0 ≤ (o - dMax) ^ 2 / dMax ^ 2 := by positivity
        have k1 : (o - dMax) ^ 2 / dMax ^ 2 ≤ 1 := by
          apply div_le_one_of_le₀ _ (by positivity)
          nlinarith
        calc alpha / (alpha + o) * (v / (o + v)) * ((o - dMax) ^ 2 / dMax ^ 2)
            ≤ 1 * (46343 / 46344) * 1 := by
              refine mul_le_mul (mul_le_mul f1 g1 g0 (by norm_num)) k1 k0 (by norm_num)
          _ = 46343 / 46344 := by norm_num
    rw [h1] at e1
    norm_num at e1
    linarith [e1.2]
  · intro hz
    have e0 : worldDistanceF res d = 0 := (worldDistanceF_eq_zero h d).2 hz
    have hv0 : worldDistanceF res e ≠ 0 := fun hz' => hne ⟨hz, (worldDistanceF_eq_zero h e).1 hz'⟩
    have hf := worldDistanceF_isFlt res e
    rw [e0]
    obtain ⟨v, hvv⟩ : ∃ v, v = worldDistanceF res e := ⟨_, rfl⟩
    rw [← hvv] at hv hv0 hf ⊢
    unfold voronoiCostF
    rw [if_neg (by linarith : ¬ (0 : ℝ) ≥ dMax)]
    dsimp only
    rw [add_zero, zero_add, zero_sub, show fl32 alpha = alpha from hfa, show fl32 v = v from hf,
      show fl32 (-dMax) = -dMax from isFlt_neg hfd, neg_sq, div_self (ne_of_gt ha), div_self hv0]
    have hdd : fl64 (dMax ^ 2) ≠ 0 := by
      have := (Rel.fl 53 (x := dMax ^ 2) (by positivity)).1
      have h2 : 0 < dMax ^ 2 := by positivity
      intro hz
      rw [show fl 53 (dMax ^ 2) = fl64 (dMax ^ 2) from rfl, hz] at this
      norm_num at this
      linarith
    rw [div_self hdd, one32, one64]
    norm_num
    rw [one32, one64, one32]

/-- C133: neither a value of the potential nor a factor of it underflows: a potential that is not 0 is at least 2^-68
(the least normal `float` is 2^-126). -/
theorem C133_no_underflow {res : ℝ} (h : 0 < res) {d e : WithTop Nat} (hd : DistMap.Fits d) (he : DistMap.Fits e)
    (hn : voronoiCostF GVD.alpha GVD.dMax (worldDistanceF res d) (worldDistanceF res e) ≠ 0) :
    (2 ^ 68)⁻¹ ≤ voronoiCostF GVD.alpha GVD.dMax (worldDistanceF res d) (worldDistanceF res e) := by
  have ha : (0 : ℝ) < GVD.alpha := by unfold GVD.alpha; norm_num
  have hdm : (0 : ℝ) < GVD.dMax := by unfold GVD.dMax; norm_num
  have ho := worldDistanceF_nonneg h d
  have hv := worldDistanceF_nonneg h e
  have e1 := (abs_le.1 (C133_relative_error ha hdm ho hv)).1
  have he0 : e ≠ 0 := by
    intro hz
    apply hn
    rw [(worldDistanceF_eq_zero h e).2 hz]
    unfold voronoiCostF
    dsimp only
    rw [zero_div, show fl32 0 = 0 from fl_zero 24, mul_zero, show fl32 0 = 0 from fl_zero 24, zero_mul,
      show fl64 0 = 0 from fl_zero 53, show fl32 0 = 0 from fl_zero 24]
    simp
  have hlt : worldDistanceF res d < GVD.dMax := by
    by_contra hge
    apply hn
    unfold voronoiCostF
    rw [if_pos (not_lt.mp hge)]
  have hr := worldDistanceF_ratio h hd he0
  have hvpos : 0 < worldDistanceF res e := lt_of_le_of_ne hv fun hz => he0 ((worldDistanceF_eq_zero h e).1 hz.symm)
  have hf := worldDistanceF_isFlt res d
  obtain ⟨o, hoo⟩ : ∃ o, o = worldDistanceF res d := ⟨_, rfl⟩
  obtain ⟨v, hvv⟩ : ∃ v, v = worldDistanceF res e := ⟨_, rfl⟩
  rw [← hoo] at ho hr hlt hf hn e1 ⊢
  rw [← hvv] at hv hr hvpos hn e1 ⊢
  have hgap : (2 ^ 19 : ℝ)⁻¹ ≤ GVD.dMax - o := by
    unfold GVD.dMax at hlt ⊢
    by_cases h16 : 16 ≤ o
    · obtain ⟨n, hn⟩ := isFlt_multiple (p := 24) (by norm_num) hf (e := -19) (le_lastBit (by
        rw [abs_of_nonneg ho]; norm_num; exact h16))
      rw [hn] at hlt ⊢
      have h1 : (n : ℝ) < 15728640 := by
        have := hlt
        rw [zpow_neg] at this
        norm_num at this
        linarith
      have h2 : n ≤ 15728639 := by
        have : n < 15728640 := by exact_mod_cast h1
        omega
      have h3 : (n : ℝ) ≤ 15728639 := by exact_mod_cast h2
      rw [zpow_neg]
      norm_num
      linarith
    · norm_num
      linarith [not_le.mp h16]
  have key : (2 ^ 67 : ℝ)⁻¹ ≤ voronoiCost GVD.alpha GVD.dMax o v := by
    unfold voronoiCost
    rw [if_neg (not_le.mpr hlt)]
    have f1 : (2 ^ 2 : ℝ)⁻¹ ≤ GVD.alpha / (GVD.alpha + o) := by
      rw [le_div_iff₀ (by linarith)]
      unfold GVD.alpha GVD.dMax at *
      norm_num
      linarith
    have g1 : (2 ^ 16 : ℝ)⁻¹ ≤ v / (o + v) := by
      rw [le_div_iff₀ (by linarith)]
      norm_num
      linarith
    have k1 : (2 ^ 48 : ℝ)⁻¹ ≤ (o - GVD.dMax) ^ 2 / GVD.dMax ^ 2 := by
      have : ((2 ^ 19 : ℝ)⁻¹) ^ 2 ≤ (o - GVD.dMax) ^ 2 := by
        rw [← neg_sq (o - GVD.dMax)]
        refine pow_le_pow_left₀ (by positivity) ?_ 2
        linarith
      rw [le_div_iff₀ (by positivity)]
      unfold GVD.dMax at *
      norm_num at this ⊢
      linarith
    calc (2 ^ 67 : ℝ)⁻¹ ≤ (2 ^ 2)⁻¹ * (2 ^ 16)⁻¹ * (2 ^ 48)⁻¹ := by norm_num
      _ ≤ _ := mul_le_mul (mul_le_mul f1 g1 (by positivity) (le_trans (by positivity) f1)) k1 (by positivity)
          (mul_nonneg (le_trans (by positivity) f1) (le_trans (by positivity) g1))
  norm_num at e1 key ⊢
  linarith

/-! ## The potential may decrease away from the Voronoi edge -/

private theorem at64 (x : ℝ) (n e : ℤ) (h1 : (2 : ℝ) ^ (e + 52) ≤ |x|) (h2 : |x| < 2 ^ (e + 53))
    (h3 : |x - n * 2 ^ e| < 2 ^ e / 2) : fl64 x = n * 2 ^ e := by
  unfold fl64
  exact fl_eq (p := 53) (by simpa using h1) (by simpa using h2) h3

private theorem at32 (x : ℝ) (n e : ℤ) (h1 : (2 : ℝ) ^ (e + 23) ≤ |x|) (h2 : |x| < 2 ^ (e + 24))
    (h3 : |x - n * 2 ^ e| < 2 ^ e / 2) : fl32 x = n * 2 ^ e := by
  unfold fl32
  exact fl_eq (p := 24) (by simpa using h1) (by simpa using h2) h3

/-- Violation of C133: cells of 1 m, two cells diagonally next to an obstacle. The nearest edge of the first is 216 rows and
135 columns away, that of the second 199 rows and 159 columns, which is farther: but the potential of the second is less. -/
theorem C133_not_increasing_with_edge_distance :
    ∃ v v' : Nat, v = 216 ^ 2 + 135 ^ 2 ∧ v' = 199 ^ 2 + 159 ^ 2 ∧ v < v' ∧
      worldDistanceF 1 (v : WithTop Nat) < worldDistanceF 1 (v' : WithTop Nat) ∧
      voronoiCostF GVD.alpha GVD.dMax (worldDistanceF 1 ((2 : Nat) : WithTop Nat)) (worldDistanceF 1 (v' : WithTop Nat)) <
        voronoiCostF GVD.alpha GVD.dMax (worldDistanceF 1 ((2 : Nat) : WithTop Nat)) (worldDistanceF 1 (v : WithTop Nat)) := by
  refine ⟨64881, 64882, by norm_num, by norm_num, by norm_num, ?_⟩
  have i900 : fl64 900 = 900 := by have := fl_int (p := 53) (by norm_num) (n := 900) (by norm_num); simpa [fl64] using this
  have so1 : (((6369051672525773 - 49 / 100) * 2 ^ (-52 : ℤ) : ℝ)) < √2 := by
    apply Real.lt_sqrt_of_sq_lt; norm_num
  have so2 : √2 < ((6369051672525773 + 49 / 100) * 2 ^ (-52 : ℤ) : ℝ) := by
    rw [Real.sqrt_lt' (by norm_num)]; norm_num
  have so : fl64 √2 = (6369051672525773 / 2 ^ 52) := by
    rw [at64 (√2) 6369051672525773 (-52)]
    · norm_num
    · rw [abs_of_nonneg (Real.sqrt_nonneg _)]; norm_num at so1 ⊢
    · rw [abs_of_nonneg (Real.sqrt_nonneg _)]; norm_num at so2 ⊢
    · rw [abs_lt]; norm_num at so1 so2 ⊢; constructor <;> linarith
  have vo : fl32 ((6369051672525773 / 2 ^ 52)) = (11863283 / 2 ^ 23) := by
    rw [at32 ((6369051672525773 / 2 ^ 52)) 11863283 (-23)] <;> norm_num [abs_lt]
  have «do» : worldDistanceF 1 ((2 : Nat) : WithTop Nat) = (11863283 / 2 ^ 23) := by
    show fl32 (fl64 (fl64 √(((2 : Nat) : Int) : ℝ) * 1)) = _
    rw [show ((((2 : Nat) : Int)) : ℝ) = 2 by norm_num, so, mul_one, ← so, show fl64 (fl64 √2) = fl64 √2 from fl_fl 53 (by norm_num) _, so, vo]
  have ao : fl32 (20 + (11863283 / 2 ^ 23)) = (11227215 / 2 ^ 19) := by
    rw [at32 (20 + (11863283 / 2 ^ 23)) 11227215 (-19)] <;> norm_num [abs_lt]
  have far : fl32 (20 / (11227215 / 2 ^ 19)) = (7834617 / 2 ^ 23) := by
    rw [at32 (20 / (11227215 / 2 ^ 19)) 15669234 (-24)] <;> norm_num [abs_lt]
  have om : fl32 ((11863283 / 2 ^ 23) - 30) = -(14987185 / 2 ^ 19) := by
    rw [at32 ((11863283 / 2 ^ 23) - 30) (-14987185) (-19)] <;> norm_num [abs_lt]
  have om2 : fl64 ((-(14987185 / 2 ^ 19)) ^ 2) = (224615714224225 / 2 ^ 38) := by
    rw [show ((-(14987185 / 2 ^ 19) : ℝ)) ^ 2 = ((224615714224225 : ℤ) : ℝ) * 2 ^ (-38 : ℤ) by norm_num]
    rw [show fl64 _ = _ from fl_repr (p := 53) (by norm_num) rfl (by norm_num)]
    norm_num
  have near : fl64 ((224615714224225 / 2 ^ 38) / 900) = (2044502145472057 / 2 ^ 51) := by
    rw [at64 ((224615714224225 / 2 ^ 38) / 900) 8178008581888228 (-53)] <;> norm_num [abs_lt]
  have sa1 : (((8962074965591102 - 49 / 100) * 2 ^ (-45 : ℤ) : ℝ)) < √64881 := by
    apply Real.lt_sqrt_of_sq_lt; norm_num
  have sa2 : √64881 < ((8962074965591102 + 49 / 100) * 2 ^ (-45 : ℤ) : ℝ) := by
    rw [Real.sqrt_lt' (by norm_num)]; norm_num
  have sa : fl64 √64881 = (4481037482795551 / 2 ^ 44) := by
    rw [at64 (√64881) 8962074965591102 (-45)]
    · norm_num
    · rw [abs_of_nonneg (Real.sqrt_nonneg _)]; norm_num at sa1 ⊢; linarith
    · rw [abs_of_nonneg (Real.sqrt_nonneg _)]; norm_num at sa2 ⊢; linarith
    · rw [abs_lt]; norm_num at sa1 sa2 ⊢; constructor <;> linarith
  have va : fl32 ((4481037482795551 / 2 ^ 44)) = (16693165 / 2 ^ 16) := by
    rw [at32 ((4481037482795551 / 2 ^ 44)) 16693165 (-16)] <;> norm_num [abs_lt]
  have da : worldDistanceF 1 ((64881 : Nat) : WithTop Nat) = (16693165 / 2 ^ 16) := by
    show fl32 (fl64 (fl64 √(((64881 : Nat) : Int) : ℝ) * 1)) = _
    rw [show ((((64881 : Nat) : Int)) : ℝ) = 64881 by norm_num, sa, mul_one, ← sa, show fl64 (fl64 √64881) = fl64 √64881 from fl_fl 53 (by norm_num) _, sa, va]
  have ta : fl32 ((11863283 / 2 ^ 23) + (16693165 / 2 ^ 16)) = (8392923 / 2 ^ 15) := by
    rw [at32 ((11863283 / 2 ^ 23) + (16693165 / 2 ^ 16)) 8392923 (-15)] <;> norm_num [abs_lt]
  have ra : fl32 ((16693165 / 2 ^ 16) / (8392923 / 2 ^ 15)) = (16684583 / 2 ^ 24) := by
    rw [at32 ((16693165 / 2 ^ 16) / (8392923 / 2 ^ 15)) 16684583 (-24)] <;> norm_num [abs_lt]
  have pa : fl32 ((7834617 / 2 ^ 23) * (16684583 / 2 ^ 24)) = (15582719 / 2 ^ 24) := by
    rw [at32 ((7834617 / 2 ^ 23) * (16684583 / 2 ^ 24)) 15582719 (-24)] <;> norm_num [abs_lt]
  have wa : fl64 ((15582719 / 2 ^ 24) * (2044502145472057 / 2 ^ 51)) = (7595754248568579 / 2 ^ 53) := by
    rw [at64 ((15582719 / 2 ^ 24) * (2044502145472057 / 2 ^ 51)) 7595754248568579 (-53)] <;> norm_num [abs_lt]
  have fa : fl32 ((7595754248568579 / 2 ^ 53)) = (14148195 / 2 ^ 24) := by
    rw [at32 ((7595754248568579 / 2 ^ 53)) 14148195 (-24)] <;> norm_num [abs_lt]
  have ca : voronoiCostF GVD.alpha GVD.dMax (11863283 / 2 ^ 23) (16693165 / 2 ^ 16) = (14148195 / 2 ^ 24) := by
    unfold voronoiCostF GVD.alpha GVD.dMax
    rw [if_neg (by norm_num)]
    dsimp only
    rw [om, ao, far, om2, show ((30 : ℝ)) ^ 2 = 900 by norm_num, i900, near, ta, ra, pa, wa, fa]
  have sb1 : (((8962144030806135 - 49 / 100) * 2 ^ (-45 : ℤ) : ℝ)) < √64882 := by
    apply Real.lt_sqrt_of_sq_lt; norm_num
  have sb2 : √64882 < ((8962144030806135 + 49 / 100) * 2 ^ (-45 : ℤ) : ℝ) := by
    rw [Real.sqrt_lt' (by norm_num)]; norm_num
  have sb : fl64 √64882 = (8962144030806135 / 2 ^ 45) := by
    rw [at64 (√64882) 8962144030806135 (-45)]
    · norm_num
    · rw [abs_of_nonneg (Real.sqrt_nonneg _)]; norm_num at sb1 ⊢; linarith
    · rw [abs_of_nonneg (Real.sqrt_nonneg _)]; norm_num at sb2 ⊢; linarith
    · rw [abs_lt]; norm_num at sb1 sb2 ⊢; constructor <;> linarith
  have vb : fl32 ((8962144030806135 / 2 ^ 45)) = (8346647 / 2 ^ 15) := by
    rw [at32 ((8962144030806135 / 2 ^ 45)) 16693294 (-16)] <;> norm_num [abs_lt]
  have db : worldDistanceF 1 ((64882 : Nat) : WithTop Nat) = (8346647 / 2 ^ 15) := by
    show fl32 (fl64 (fl64 √(((64882 : Nat) : Int) : ℝ) * 1)) = _
    rw [show ((((64882 : Nat) : Int)) : ℝ) = 64882 by norm_num, sb, mul_one, ← sb, show fl64 (fl64 √64882) = fl64 √64882 from fl_fl 53 (by norm_num) _, sb, vb]
  have tb : fl32 ((11863283 / 2 ^ 23) + (8346647 / 2 ^ 15)) = (2098247 / 2 ^ 13) := by
    rw [at32 ((11863283 / 2 ^ 23) + (8346647 / 2 ^ 15)) 8392988 (-15)] <;> norm_num [abs_lt]
  have rb : fl32 ((8346647 / 2 ^ 15) / (2098247 / 2 ^ 13)) = (8342291 / 2 ^ 23) := by
    rw [at32 ((8346647 / 2 ^ 15) / (2098247 / 2 ^ 13)) 16684582 (-24)] <;> norm_num [abs_lt]
  have pb : fl32 ((7834617 / 2 ^ 23) * (8342291 / 2 ^ 23)) = (7791359 / 2 ^ 23) := by
    rw [at32 ((7834617 / 2 ^ 23) * (8342291 / 2 ^ 23)) 15582718 (-24)] <;> norm_num [abs_lt]
  have wb : fl64 ((7791359 / 2 ^ 23) * (2044502145472057 / 2 ^ 51)) = (7595753761121283 / 2 ^ 53) := by
    rw [at64 ((7791359 / 2 ^ 23) * (2044502145472057 / 2 ^ 51)) 7595753761121283 (-53)] <;> norm_num [abs_lt]
  have fb : fl32 ((7595753761121283 / 2 ^ 53)) = (7074097 / 2 ^ 23) := by
    rw [at32 ((7595753761121283 / 2 ^ 53)) 14148194 (-24)] <;> norm_num [abs_lt]
  have cb : voronoiCostF GVD.alpha GVD.dMax (11863283 / 2 ^ 23) (8346647 / 2 ^ 15) = (7074097 / 2 ^ 23) := by
    unfold voronoiCostF GVD.alpha GVD.dMax
    rw [if_neg (by norm_num)]
    dsimp only
    rw [om, ao, far, om2, show ((30 : ℝ)) ^ 2 = 900 by norm_num, i900, near, tb, rb, pb, wb, fb]

  rw [«do», da, db, ca, cb]
  constructor <;> norm_num

/-! ## The map of potentials -/

private theorem fits_of_run {rows columns : Int} {ops : List DistMap.Op} {m : DistMap}
    (r : DistMap.Run (.new rows columns) ops m) (hfit : DiagonalFits rows columns) (c : Cell) (hc : InRect rows columns c) :
    DistMap.Fits (m.dist c) := by
  rcases C34_distance_of_reported_obstacle r c hc with ⟨-, h⟩ | ⟨ho, d, hd, hs⟩
  · rw [h]; exact DistMap.fits_top
  · rw [hd]
    apply DistMap.fits_coe
    have h1 : (d : Int) ≤ 2147483647 := by
      rw [hs]
      refine le_trans ?_ hfit
      unfold sqDist
      obtain ⟨a1, a2, a3, a4⟩ := ho
      obtain ⟨b1, b2, b3, b4⟩ := hc
      have := abs_le.2 (⟨by linarith, by linarith⟩ : -(rows - 1) ≤ (m.obst c).row - c.row ∧ (m.obst c).row - c.row ≤ rows - 1)
      have := abs_le.2 (⟨by linarith, by linarith⟩ : -(columns - 1) ≤ (m.obst c).col - c.col ∧ (m.obst c).col - c.col ≤ columns - 1)
      nlinarith [sq_abs ((m.obst c).row - c.row), sq_abs ((m.obst c).col - c.col), abs_nonneg ((m.obst c).row - c.row),
        abs_nonneg ((m.obst c).col - c.col)]
    rcases lt_or_eq_of_le h1 with h | h
    · exact h
    · have := sq_ne_intMax ((m.obst c).row - c.row) ((m.obst c).col - c.col)
      rw [hs] at h
      unfold sqDist at h
      exact absurd (by rw [← h]; ring) this

/-- C133: after Update, with every order of the queues, on every map whose squared diagonal is an `int`: the potential of
each cell lies in [0, 1], is 1 exactly at the obstacle cells and 0 exactly at the edge cells and where the reported distance
to the obstacle is at least `dMax`; the sum of the two distances, by which one is divided, is not 0. -/
theorem C133_potential_map {rows columns : Int} {ops : List ObstDistMap.Op} {occ : Cell → Int} {g g' : GVD}
    (r : ObstDistMap.Run (.new rows columns) ops g.maps) (u : GVD.UpdateF occ g g')
    (hres : 0 < g.map.resolution) (hfit : DiagonalFits rows columns) (c : Cell) (hc : InRect rows columns c) :
    0 ≤ g'.cost c ∧ g'.cost c ≤ 1 ∧ (g'.cost c = 1 ↔ c ∈ obstacles (obstacleCalls ops)) ∧
    ∃ e, g'.maps.edges = some e ∧ (g'.cost c = 0 ↔
      e.obst c = c ∨ GVD.dMax ≤ worldDistanceF g.map.resolution (g'.maps.core.dist c)) ∧
    0 < fl32 (worldDistanceF g.map.resolution (g'.maps.core.dist c) + worldDistanceF g.map.resolution (e.dist c)) := by
  have ux : GVD.Update occ g ⟨g'.map, g'.maps,
      GVD.updateCost ⟨g.map, ⟨g'.maps.core, none⟩, g.cost⟩ (g'.maps.edges.getD g.maps.core)⟩ := by
    obtain ⟨m1, e1, e2, u1, he, u2, rfl⟩ := u
    exact ⟨m1, e1, e2, u1, he, u2, rfl⟩
  obtain ⟨m1, r1, hcore, e1, e2, he1, he2, u2, -, -⟩ := ux.run r
  have hcore : g'.maps.core = m1.core := hcore
  have he2 : g'.maps.edges = some e2 := he2
  obtain ⟨hr, hedge⟩ := C34_linked_maps r1
  obtain ⟨eops, re⟩ := hedge e1 he1
  have re2 : DistMap.Run (.new rows columns) (eops ++ [.update]) e2 := re.append (.cons (.update u2) .nil)
  have hz := DistMap.run_size hr
  have hcost : g'.cost c = voronoiCostF GVD.alpha GVD.dMax (worldDistanceF g.map.resolution (m1.core.dist c))
      (worldDistanceF g.map.resolution (e2.dist c)) := by
    rw [← hcore]
    obtain ⟨m', e1', e2', -, -, -, rfl⟩ := u
    have h1 : m'.core = m1.core := hcore
    have h2 : e2' = e2 := Option.some.inj he2
    show GVD.updateCostF { g with maps := m' } e2' c = _
    unfold GVD.updateCostF
    rw [if_pos (by show m'.core.inside c = true; rw [DistMap.inside_iff, h1, hz.1, hz.2]; exact hc), h2]
  rw [hcost, hcore]
  have ha : (0 : ℝ) < GVD.alpha := by unfold GVD.alpha; norm_num
  have hd : (0 : ℝ) < GVD.dMax := by unfold GVD.dMax; norm_num
  have hfa : IsFlt 24 GVD.alpha := by
    have := fl_int (p := 24) (by norm_num) (n := 20) (by norm_num); simpa [IsFlt, GVD.alpha] using this
  have hfd : IsFlt 24 GVD.dMax := by
    have := fl_int (p := 24) (by norm_num) (n := 30) (by norm_num); simpa [IsFlt, GVD.dMax] using this
  have ho := worldDistanceF_nonneg hres (m1.core.dist c)
  have hv := worldDistanceF_nonneg hres (e2.dist c)
  have hedge2 : e2.dist c = 0 ↔ e1.dist c = 0 := by
    rw [(C34_obstacles_report_themselves re2 c hc).2, (C34_obstacles_report_themselves re c hc).2,
      ObstDistMap.obstacles_append]
    exact Iff.rfl
  have hne0 : ¬ (m1.core.dist c = 0 ∧ e2.dist c = 0) := by
    rw [hedge2]; exact C67_no_obstacle_is_an_edge r1 e1 he1 c hc
  have hne : ¬ (worldDistanceF g.map.resolution (m1.core.dist c) = 0 ∧
      worldDistanceF g.map.resolution (e2.dist c) = 0) := by
    rw [worldDistanceF_eq_zero hres, worldDistanceF_eq_zero hres]
    exact hne0
  have h01 := C133_between_zero_and_one ha hd hfa hfd ho hv (worldDistanceF_isFlt _ _)
  refine ⟨h01.1, h01.2, ?_, e2, he2, ?_, ?_⟩
  · rw [C133_one_iff_obstacle ha hd hfa hfd hres (fits_of_run re2 hfit c hc) hne0,
      (C34_obstacles_report_themselves hr c hc).2]
    have : obstacleCalls (ops ++ [.update occ]) = obstacleCalls ops ++ [.update] := by
      unfold obstacleCalls; rw [List.filterMap_append]; rfl
    rw [this, ObstDistMap.obstacles_append]
    exact Iff.rfl
  · rw [C133_zero_iff_edge_or_far ha hd ho hv hne, worldDistanceF_eq_zero hres,
      (C34_obstacles_report_themselves re2 c hc).2, (C34_obstacles_report_themselves re2 c hc).1]
  · have hpos : 0 < worldDistanceF g.map.resolution (m1.core.dist c) + worldDistanceF g.map.resolution (e2.dist c) := by
      rcases eq_or_lt_of_le ho with h0 | h0
      · rcases eq_or_lt_of_le hv with h1 | h1
        · exact absurd ⟨h0.symm, h1.symm⟩ hne
        · linarith
      · linarith
    have := (Rel.fl 24 hpos.le).1
    refine lt_of_lt_of_le (mul_pos (by norm_num) hpos) this

/-- Non-vacuity: a diagram on linked maps with two obstacles, of 4 by 5 cells, can be updated. -/
example : ∃ (g g' : GVD) (ops : List ObstDistMap.Op), ops = [.link, .set ⟨0, 0⟩, .set ⟨2, 3⟩] ∧
    ObstDistMap.Run (.new 4 5) ops g.maps ∧ GVD.UpdateF (fun c => c.row) g g' ∧ 0 < g.map.resolution ∧
    DiagonalFits 4 5 ∧ InRect 4 5 ⟨1, 1⟩ := by
  obtain ⟨g, g', ops, h1, h2, ⟨m1, e1, e2, u1, he, u2, -⟩, h4, -⟩ := GVD.update_example
  exact ⟨g, _, ops, h1, h2, ⟨m1, e1, e2, u1, he, u2, rfl⟩, h4, by norm_num [DiagonalFits], by simp [InRect]⟩

/-- Non-vacuity: the constants of the code are `float`s, and so are the reported distances. -/
example : (0 : ℝ) < GVD.alpha ∧ (0 : ℝ) < GVD.dMax ∧ IsFlt 24 GVD.alpha ∧ IsFlt 24 GVD.dMax ∧
    IsFlt 24 (worldDistanceF 1 2) ∧ 0 < worldDistanceF 1 2 ∧ DistMap.Fits 2 ∧
    voronoiCostF GVD.alpha GVD.dMax (worldDistanceF 1 2) (worldDistanceF 1 2) ≠ 0 := by
  have ha : (0 : ℝ) < GVD.alpha := by unfold GVD.alpha; norm_num
  have hd : (0 : ℝ) < GVD.dMax := by unfold GVD.dMax; norm_num
  have hfa : IsFlt 24 GVD.alpha := by
    have := fl_int (p := 24) (by norm_num) (n := 20) (by norm_num); simpa [IsFlt, GVD.alpha] using this
  have hfd : IsFlt 24 GVD.dMax := by
    have := fl_int (p := 24) (by norm_num) (n := 30) (by norm_num); simpa [IsFlt, GVD.dMax] using this
  have h0 : worldDistanceF 1 2 ≠ 0 := by
    rw [Ne, worldDistanceF_eq_zero (by norm_num)]; decide
  have hn := worldDistanceF_nonneg (res := 1) (by norm_num) 2
  have hp : 0 < worldDistanceF 1 2 := lt_of_le_of_ne hn h0.symm
  refine ⟨ha, hd, hfa, hfd, worldDistanceF_isFlt _ _, hp, DistMap.fits_coe (k := 2) (by norm_num), ?_⟩
  rw [Ne, C133_zero_iff_edge_or_far ha hd hn hn (fun h => h0 h.1)]
  push Not
  refine ⟨h0, ?_⟩
  refine lt_of_le_of_lt (worldDistanceF_le (by norm_num) 2) ?_
  have : worldDistance 1 2 ≤ 2 := by
    show √(((2 : Nat) : Int) : ℝ) * 1 ≤ 2
    rw [mul_one, Real.sqrt_le_left (by norm_num)]
    norm_num
  unfold GVD.dMax
  norm_num
  linarith

end PathPlanning
