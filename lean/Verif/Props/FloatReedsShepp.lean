import Verif.Model.FloatReedsShepp
import Verif.Lemmas.Float
import Verif.Spec.ReedsShepp
import Verif.Props.FloatComposite

/-!
# C132: Reeds-Shepp paths with the arithmetic of the program
-/

namespace PathPlanning
open Flt RS

/-- The motions of a segment: those up to the first invalid one. -/
def RS.Segment.valid (s : Segment) : List Motion := s.motions.takeWhile Motion.isValid

/-- The exact length of motions, for the turning radius `R`. -/
noncomputable def driven (R : ℝ) (ms : List Motion) : ℝ := (ms.map fun m => m.length.getD 0).sum * R

/-- Motions with non-negative `double`s as lengths, in an array of five, and the length as `AddMotion` adds it up. -/
def DoubleSegment (s : Segment) : Prop :=
  (∀ m ∈ s.valid, 0 ≤ m.length.getD 0 ∧ IsFlt 53 (m.length.getD 0)) ∧ s.motions.length ≤ 5 ∧
    s.length = (s.valid.map fun m => m.length.getD 0).foldl (fun a x => fl64 (a + x)) 0

/-- The pose after driving the whole of some motions, those of length zero left out. -/
noncomputable def driveWhole {X : Type} (drive : X → Motion → ℝ → X) (init : X) (ms : List Motion) : X :=
  (ms.filter fun m => decide (m.length.getD 0 ≠ 0)).foldl (fun p m => drive p m (m.length.getD 0)) init

private theorem h53 : 1 ≤ 53 := by norm_num

private theorem fl_one : fl64 1 = 1 := by
  have := fl_int (p := 53) h53 (n := 1) (by norm_num); unfold fl64; simpa using this

private noncomputable def flSum (l : List ℝ) : ℝ := l.foldl (fun a x => fl64 (a + x)) 0

private theorem flSum_snoc (l : List ℝ) (x : ℝ) : flSum (l ++ [x]) = fl64 (flSum l + x) := by
  unfold flSum; rw [List.foldl_append]; rfl

private theorem flSum_flt (l : List ℝ) : fl64 (flSum l) = flSum l := by
  induction l using List.reverseRecOn with
  | nil => exact fl_zero 53
  | append_singleton l q => rw [flSum_snoc]; exact fl_fl 53 h53 _

private theorem flSum_nonneg (l : List ℝ) (h : ∀ x ∈ l, 0 ≤ x) : 0 ≤ flSum l := by
  induction l using List.reverseRecOn with
  | nil => exact le_rfl
  | append_singleton l q ih =>
    rw [flSum_snoc]
    exact fl_nonneg 53 (add_nonneg (ih fun x hx => h x (by simp [hx])) (h q (by simp)))

private theorem flSum_err (l : List ℝ) (h : ∀ x ∈ l, 0 ≤ x) (hn : l.length ≤ 5) :
    |flSum l - l.sum| ≤ l.length * (l.sum / 2 ^ 52) := by
  induction l using List.reverseRecOn with
  | nil => simp [flSum]
  | append_singleton l q ih =>
    rw [List.length_append, List.length_singleton] at hn
    have ih := abs_le.1 (ih (fun x hx => h x (by simp [hx])) (by omega))
    have h0 := flSum_nonneg l (fun x hx => h x (by simp [hx]))
    have hs0 : 0 ≤ l.sum := List.sum_nonneg (fun x hx => h x (by simp [hx]))
    have hq := h q (by simp)
    rw [flSum_snoc, List.sum_append, List.sum_singleton, List.length_append, List.length_singleton]
    have hr := abs_le.1 (fl_rel 53 (flSum l + q))
    rw [abs_of_nonneg (by linarith)] at hr
    change |fl 53 (flSum l + q) - _| ≤ _
    obtain ⟨y, hy⟩ : ∃ y, y = fl 53 (flSum l + q) := ⟨_, rfl⟩
    obtain ⟨a, ha⟩ : ∃ a, a = flSum l := ⟨_, rfl⟩
    obtain ⟨E, hE⟩ : ∃ E, E = l.sum := ⟨_, rfl⟩
    rw [← hy] at hr ⊢
    rw [← ha, ← hE] at ih
    rw [← ha] at h0 hr
    rw [← hE] at hs0 ⊢
    have hk : (l.length : ℝ) ≤ 4 := by
      have : l.length ≤ 4 := by omega
      exact_mod_cast this
    have h3 : (l.length : ℝ) * (E / 2 ^ 52) ≤ 4 * (E / 2 ^ 52) := mul_le_mul_of_nonneg_right hk (by positivity)
    have h4 : ((l.length + 1 : ℕ) : ℝ) * ((E + q) / 2 ^ 52) =
        l.length * (E / 2 ^ 52) + l.length * (q / 2 ^ 52) + (E + q) / 2 ^ 52 := by push_cast; ring
    have h5 : 0 ≤ (l.length : ℝ) * (q / 2 ^ 52) := by positivity
    rw [h4]
    obtain ⟨z, hz⟩ : ∃ z, z = (l.length : ℝ) * (E / 2 ^ 52) := ⟨_, rfl⟩
    rw [← hz] at ih h3 ⊢
    norm_num at hr h3 ⊢
    rw [abs_le]
    constructor <;> linarith

/-- The lengths of motions. -/
private noncomputable def lens (ms : List Motion) : List ℝ := ms.map fun m => m.length.getD 0

/-- What the loops add up. -/
private noncomputable def loopLen (R : ℝ) (ms : List Motion) : ℝ := flSum (ms.map fun m => fl64 (m.length.getD 0 * R))

private theorem loopLen_snoc (R : ℝ) (ms : List Motion) (m : Motion) :
    loopLen R (ms ++ [m]) = fl64 (loopLen R ms + fl64 (m.length.getD 0 * R)) := by
  unfold loopLen; rw [List.map_append]; exact flSum_snoc _ _

private def Lens (ms : List Motion) : Prop := ∀ m ∈ ms, 0 ≤ m.length.getD 0 ∧ IsFlt 53 (m.length.getD 0)

private theorem driven_nonneg {R : ℝ} (hR : 0 ≤ R) {ms : List Motion} (h : Lens ms) : 0 ≤ driven R ms := by
  unfold driven
  refine mul_nonneg (List.sum_nonneg ?_) hR
  intro x hx
  obtain ⟨m, hm, rfl⟩ := List.mem_map.1 hx
  exact (h m hm).1

private theorem driven_append (R : ℝ) (a b : List Motion) : driven R (a ++ b) = driven R a + driven R b := by
  unfold driven; rw [List.map_append, List.sum_append, add_mul]

private theorem rounded_sum {R : ℝ} (hR : 0 ≤ R) {ms : List Motion} (h : Lens ms) :
    |(ms.map fun m => fl64 (m.length.getD 0 * R)).sum - driven R ms| ≤ ((2 : ℝ) ^ 53)⁻¹ * driven R ms := by
  induction ms with
  | nil => simp [driven]
  | cons m ms ih =>
    have ih := ih (fun x hx => h x (by simp [hx]))
    have h1 := fl_rel 53 (m.length.getD 0 * R)
    rw [abs_of_nonneg (mul_nonneg (h m (by simp)).1 hR)] at h1
    have h2 : driven R (m :: ms) = m.length.getD 0 * R + driven R ms := by
      unfold driven; rw [List.map_cons, List.sum_cons, add_mul]
    rw [List.map_cons, List.sum_cons, h2, mul_add]
    have := abs_add_le (fl64 (m.length.getD 0 * R) - m.length.getD 0 * R)
      ((ms.map fun m => fl64 (m.length.getD 0 * R)).sum - driven R ms)
    rw [show fl64 (m.length.getD 0 * R) + (ms.map fun m => fl64 (m.length.getD 0 * R)).sum -
      (m.length.getD 0 * R + driven R ms) = (fl64 (m.length.getD 0 * R) - m.length.getD 0 * R) +
      ((ms.map fun m => fl64 (m.length.getD 0 * R)).sum - driven R ms) by ring]
    exact this.trans (add_le_add h1 ih)

private theorem rounded_nonneg {R : ℝ} (hR : 0 ≤ R) {ms : List Motion} (h : Lens ms) :
    ∀ x ∈ ms.map (fun m => fl64 (m.length.getD 0 * R)), 0 ≤ x := by
  intro x hx
  obtain ⟨m, hm, rfl⟩ := List.mem_map.1 hx
  exact fl_nonneg 53 (mul_nonneg (h m hm).1 hR)

private theorem loopLen_err {R : ℝ} (hR : 0 ≤ R) {ms : List Motion} (h : Lens ms) (hn : ms.length ≤ 5) :
    |loopLen R ms - driven R ms| ≤ 12 * (driven R ms / 2 ^ 53) := by
  have h1 := abs_le.1 (rounded_sum hR h)
  have h2 := flSum_err _ (rounded_nonneg hR h) (by rw [List.length_map]; exact hn)
  have h0 := driven_nonneg hR h
  have hs0 := List.sum_nonneg (rounded_nonneg hR h)
  rw [List.length_map] at h2
  change |loopLen R ms - _| ≤ _ at h2
  obtain ⟨y, hy⟩ : ∃ y, y = (ms.map fun m => fl64 (m.length.getD 0 * R)).sum := ⟨_, rfl⟩
  rw [← hy] at h1 h2 hs0
  have hk : (ms.length : ℝ) ≤ 5 := by exact_mod_cast hn
  have h3 : (ms.length : ℝ) * (y / 2 ^ 52) ≤ 5 * (y / 2 ^ 52) := mul_le_mul_of_nonneg_right hk (by positivity)
  have h2 := abs_le.1 (h2.trans h3)
  norm_num at h1 h2 ⊢
  rw [abs_le]
  constructor <;> linarith

private theorem total_err {R : ℝ} (hR : 0 ≤ R) {s : Segment} (h : DoubleSegment s) :
    |s.getLengthF R - driven R s.valid| ≤ 12 * (driven R s.valid / 2 ^ 53) := by
  obtain ⟨hl, h5, hlen⟩ := h
  have hn : (s.valid.map fun m => m.length.getD 0).length ≤ 5 := by
    rw [List.length_map]
    exact (List.takeWhile_prefix _).length_le.trans h5
  have hnn : ∀ x ∈ s.valid.map (fun m => m.length.getD 0), 0 ≤ x := by
    intro x hx
    obtain ⟨m, hm, rfl⟩ := List.mem_map.1 hx
    exact (hl m hm).1
  have h1 := flSum_err _ hnn hn
  have h0 := List.sum_nonneg hnn
  have hs0 := flSum_nonneg _ hnn
  change s.length = flSum _ at hlen
  unfold Segment.getLengthF driven
  rw [hlen]
  obtain ⟨y, hy⟩ : ∃ y, y = (s.valid.map fun m => m.length.getD 0).sum := ⟨_, rfl⟩
  obtain ⟨a, ha⟩ : ∃ a, a = flSum (s.valid.map fun m => m.length.getD 0) := ⟨_, rfl⟩
  rw [← ha] at h1 hs0 ⊢
  rw [← hy] at h1 h0 ⊢
  have hk : ((s.valid.map fun m => m.length.getD 0).length : ℝ) ≤ 5 := by exact_mod_cast hn
  have h3 := h1.trans (mul_le_mul_of_nonneg_right hk (by positivity : 0 ≤ y / 2 ^ 52))
  have h4 : |a * R - y * R| ≤ 5 * (y * R / 2 ^ 52) := by
    rw [← sub_mul, abs_mul, abs_of_nonneg hR]
    calc |a - y| * R ≤ 5 * (y / 2 ^ 52) * R := mul_le_mul_of_nonneg_right h3 hR
      _ = _ := by ring
  have h5 := abs_le.1 (fl_rel 53 (a * R))
  rw [abs_of_nonneg (mul_nonneg hs0 hR)] at h5
  change |fl 53 (a * R) - _| ≤ _
  obtain ⟨w, hw⟩ : ∃ w, w = fl 53 (a * R) := ⟨_, rfl⟩
  rw [← hw] at h5 ⊢
  have h6 := mul_nonneg h0 hR
  obtain ⟨v, hv⟩ : ∃ v, v = y * R := ⟨_, rfl⟩
  rw [← hv] at h4 h6 ⊢
  have h4 := abs_le.1 h4
  norm_num at h4 h5 ⊢
  rw [abs_le]
  constructor <;> linarith

private theorem fl_pos {x : ℝ} (h : 0 < x) : 0 < fl64 x := by
  have := (abs_le.1 (fl_rel 53 x)).1
  rw [abs_of_pos h] at this
  change 0 < fl 53 x
  norm_num at this
  linarith

/-- The amount of a motion that is driven: all of it if the target is beyond its end. -/
private theorem amount_full {len t l R : ℝ} (hlf : IsFlt 53 l) (ht : fl64 t = t) (hl : 0 < l) (hR : 0 < R)
    (h : fl64 (len + fl64 (l * R)) < t) :
    fl64 (l * min (fl64 (fl64 (t - len) / fl64 (l * R))) 1) = l := by
  have hml := fl_pos (mul_pos hl hR)
  obtain ⟨ml, hm⟩ : ∃ x, x = fl64 (l * R) := ⟨_, rfl⟩
  have hmf : fl64 ml = ml := by rw [hm]; exact fl_fl 53 h53 _
  rw [← hm] at h hml ⊢
  have h1 : ml ≤ t - len := by
    by_contra hc
    have := fl_mono 53 h53 (show t ≤ len + ml by linarith)
    rw [show fl 53 t = t from ht] at this
    exact absurd h (not_lt.mpr this)
  have h2 := fl_mono 53 h53 h1
  rw [show fl 53 ml = ml from hmf] at h2
  have h3 := fl_mono 53 h53 ((one_le_div hml).mpr h2)
  rw [show fl 53 1 = 1 from fl_one] at h3
  change 1 ≤ fl64 (fl64 (t - len) / ml) at h3
  rw [min_eq_right h3, mul_one]
  exact hlf

/-- The amount of the motion the target is on. -/
private theorem amount_last {len t l R : ℝ} (hlf : IsFlt 53 l) (h0 : 0 ≤ len) (hlt : len ≤ t) (hl : 0 < l) (hR : 0 < R)
    (h : t ≤ fl64 (len + fl64 (l * R))) :
    0 ≤ fl64 (l * min (fl64 (fl64 (t - len) / fl64 (l * R))) 1) ∧
    fl64 (l * min (fl64 (fl64 (t - len) / fl64 (l * R))) 1) ≤ l ∧
    |fl64 (l * min (fl64 (fl64 (t - len) / fl64 (l * R))) 1) * R - (t - len)| ≤
      6 * ((len + fl64 (l * R)) / 2 ^ 53) := by
  have hml := fl_pos (mul_pos hl hR)
  have hmr := abs_le.1 (fl_rel 53 (l * R))
  rw [abs_of_pos (mul_pos hl hR)] at hmr
  change _ ≤ fl64 (l * R) - _ ∧ fl64 (l * R) - _ ≤ _ at hmr
  obtain ⟨ml, hm⟩ : ∃ x, x = fl64 (l * R) := ⟨_, rfl⟩
  have hmf : fl64 ml = ml := by rw [hm]; exact fl_fl 53 h53 _
  rw [← hm] at h hml hmr ⊢
  have hd0 : 0 ≤ fl64 (t - len) := fl_nonneg 53 (by linarith)
  have hdr := abs_le.1 (fl_rel 53 (t - len))
  rw [abs_of_nonneg (by linarith)] at hdr
  change _ ≤ fl64 (t - len) - _ ∧ fl64 (t - len) - _ ≤ _ at hdr
  obtain ⟨d, hd⟩ : ∃ x, x = fl64 (t - len) := ⟨_, rfl⟩
  have hdm : t - len ≤ ml → d ≤ ml := by
    intro h
    have := fl_mono 53 h53 h
    rw [show fl 53 ml = ml from hmf] at this
    rw [hd]; exact this
  rw [← hd] at hd0 hdr ⊢
  have hsr := (abs_le.1 (fl_rel 53 (len + ml))).2
  rw [abs_of_nonneg (by linarith)] at hsr
  change fl64 (len + ml) - _ ≤ _ at hsr
  have hq0 : 0 ≤ fl64 (d / ml) := fl_nonneg 53 (div_nonneg hd0 hml.le)
  have hqr := fl_rel 53 (d / ml)
  rw [abs_of_nonneg (div_nonneg hd0 hml.le)] at hqr
  change |fl64 (d / ml) - _| ≤ _ at hqr
  have hqm : |fl64 (d / ml) * ml - d| ≤ ((2 : ℝ) ^ 53)⁻¹ * d := by
    have h3 : d / ml * ml = d := div_mul_cancel₀ _ hml.ne'
    have h4 : fl64 (d / ml) * ml - d = (fl64 (d / ml) - d / ml) * ml := by rw [sub_mul, h3]
    rw [h4, abs_mul, abs_of_pos hml]
    calc |fl64 (d / ml) - d / ml| * ml ≤ ((2 : ℝ) ^ 53)⁻¹ * (d / ml) * ml := mul_le_mul_of_nonneg_right hqr hml.le
      _ = _ := by rw [mul_assoc, h3]
  have hclip : 1 < fl64 (d / ml) → ml < t - len := by
    intro hq
    by_contra hc
    have h1 := hdm (not_lt.mp hc)
    have h2 := fl_mono 53 h53 ((div_le_one hml).mpr h1)
    rw [show fl 53 1 = 1 from fl_one] at h2
    exact absurd hq (not_lt.mpr h2)
  obtain ⟨q, hq⟩ : ∃ x, x = fl64 (d / ml) := ⟨_, rfl⟩
  rw [← hq] at hq0 hqm hclip ⊢
  have hqc0 : 0 ≤ min q 1 := le_min hq0 zero_le_one
  have hqc1 : min q 1 ≤ 1 := min_le_right _ _
  have hcd : |min q 1 * ml - (t - len)| ≤ 3 * ((len + ml) / 2 ^ 53) := by
    have hqm := abs_le.1 hqm
    rcases le_or_gt q 1 with h1 | h1
    · rw [min_eq_left h1]
      norm_num at hqm hdr hsr ⊢
      rw [abs_le]
      constructor <;> linarith
    · rw [min_eq_right h1.le, one_mul]
      have := hclip h1
      norm_num at hsr ⊢
      rw [abs_le]
      constructor <;> linarith
  obtain ⟨c, hc⟩ : ∃ x, x = min q 1 := ⟨_, rfl⟩
  rw [← hc] at hqc0 hqc1 hcd ⊢
  have hlc0 : 0 ≤ l * c := mul_nonneg hl.le hqc0
  have hlcl : l * c ≤ l := mul_le_of_le_one_right hl.le hqc1
  refine ⟨fl_nonneg 53 hlc0, ?_, ?_⟩
  · have := fl_mono 53 h53 hlcl
    rw [hlf] at this
    exact this
  have har := fl_rel 53 (l * c)
  rw [abs_of_nonneg hlc0] at har
  change |fl64 (l * c) - _| ≤ _ at har
  have haR : |fl64 (l * c) * R - c * (l * R)| ≤ ((2 : ℝ) ^ 53)⁻¹ * (l * R) := by
    rw [show fl64 (l * c) * R - c * (l * R) = (fl64 (l * c) - l * c) * R by ring, abs_mul, abs_of_pos hR]
    calc _ ≤ ((2 : ℝ) ^ 53)⁻¹ * (l * c) * R := mul_le_mul_of_nonneg_right har hR.le
      _ ≤ ((2 : ℝ) ^ 53)⁻¹ * l * R := by gcongr
      _ = _ := by ring
  have hcm : |c * (l * R) - c * ml| ≤ ((2 : ℝ) ^ 53)⁻¹ * (l * R) := by
    rw [← mul_sub, abs_mul, abs_of_nonneg hqc0]
    have h1 : |l * R - ml| ≤ ((2 : ℝ) ^ 53)⁻¹ * (l * R) := by rw [abs_sub_comm]; exact abs_le.2 hmr
    calc c * |l * R - ml| ≤ 1 * |l * R - ml| := mul_le_mul_of_nonneg_right hqc1 (abs_nonneg _)
      _ ≤ _ := by rw [one_mul]; exact h1
  have haR := abs_le.1 haR
  have hcm := abs_le.1 hcm
  have hcd := abs_le.1 hcd
  obtain ⟨v, hv⟩ : ∃ x, x = fl64 (l * c) * R := ⟨_, rfl⟩
  obtain ⟨w, hw⟩ : ∃ x, x = l * R := ⟨_, rfl⟩
  obtain ⟨y, hy⟩ : ∃ x, x = c * ml := ⟨_, rfl⟩
  rw [← hv, ← hw] at haR
  rw [← hw, ← hy] at hcm
  rw [← hy] at hcd
  rw [← hw] at hmr
  rw [← hv]
  obtain ⟨k, hk⟩ : ∃ x, x = c * w := ⟨_, rfl⟩
  rw [← hk] at haR hcm
  norm_num at haR hcm hcd hmr ⊢
  rw [abs_le]
  constructor <;> linarith

variable {X : Type}

private theorem interp_valid (drive : X → Motion → ℝ → X) (R t : ℝ) (ms : List Motion) (p : X) (len : ℝ) :
    PathRS.interpLoopF drive R t ms p len = PathRS.interpLoopF drive R t (ms.takeWhile Motion.isValid) p len := by
  induction ms generalizing p len with
  | nil => rfl
  | cons m ms ih =>
    rw [List.takeWhile_cons]
    by_cases hv : m.isValid
    · rw [if_pos hv, PathRS.interpLoopF, PathRS.interpLoopF]
      simp only [hv, if_true, ih]
    · rw [if_neg hv, PathRS.interpLoopF, PathRS.interpLoopF]
      simp only [hv]
      rfl

private theorem loopLen_nonneg {R : ℝ} (hR : 0 ≤ R) {ms : List Motion} (h : Lens ms) : 0 ≤ loopLen R ms :=
  flSum_nonneg _ (rounded_nonneg hR h)

theorem driveWhole_snoc (drive : X → Motion → ℝ → X) (init : X) (ms : List Motion) (m : Motion) :
    driveWhole drive init (ms ++ [m]) = if m.length.getD 0 = 0 then driveWhole drive init ms
      else drive (driveWhole drive init ms) m (m.length.getD 0) := by
  unfold driveWhole
  rw [List.filter_append, List.foldl_append]
  by_cases h : m.length.getD 0 = 0 <;> simp [h]

private theorem interp_loop (drive : X → Motion → ℝ → X) {R t : ℝ} (hR : 0 < R) (ht : fl64 t = t) (init : X)
    (todo : List Motion) : ∀ (done : List Motion), (∀ m ∈ todo, m.isValid) → Lens (done ++ todo) → loopLen R done ≤ t →
    (todo.all (fun m => decide (m.length.getD 0 = 0)) → loopLen R done < t) →
    (PathRS.interpLoopF drive R t todo (driveWhole drive init done) (loopLen R done) =
        driveWhole drive init (done ++ todo) ∧ loopLen R (done ++ todo) < t) ∨
    ∃ pre m post a, done ++ todo = pre ++ m :: post ∧
      PathRS.interpLoopF drive R t todo (driveWhole drive init done) (loopLen R done) =
        drive (driveWhole drive init pre) m a ∧ 0 ≤ a ∧ a ≤ m.length.getD 0 ∧ IsFlt 53 a ∧
      loopLen R pre ≤ t ∧ t ≤ loopLen R (pre ++ [m]) ∧
      |a * R - (t - loopLen R pre)| ≤ 6 * ((loopLen R pre + fl64 (m.length.getD 0 * R)) / 2 ^ 53) := by
  induction todo with
  | nil =>
    intro done _ _ _ h
    left
    rw [List.append_nil]
    exact ⟨rfl, h rfl⟩
  | cons m todo ih =>
    intro done hv hl hle hz
    have hvm := hv m (by simp)
    obtain ⟨hm0, hmf⟩ := hl m (by simp)
    have hdone : Lens done := fun x hx => hl x (by simp [hx])
    have hlen0 := loopLen_nonneg hR.le hdone
    have hassoc : done ++ m :: todo = (done ++ [m]) ++ todo := by simp
    rw [PathRS.interpLoopF, if_pos hvm]
    dsimp only
    by_cases h0 : m.length.getD 0 = 0
    · have hll : loopLen R (done ++ [m]) = loopLen R done := by
        rw [loopLen_snoc, h0, zero_mul, show fl64 0 = 0 from fl_zero 53, add_zero]
        exact flSum_flt _
      rw [if_pos (by rw [h0, zero_mul]; exact fl_zero 53)]
      have := ih (done ++ [m]) (fun x hx => hv x (by simp [hx])) (by rw [← hassoc]; exact hl) (by rw [hll]; exact hle)
        (by
          intro h
          rw [hll]
          apply hz
          rw [List.all_cons, h]
          simp [h0])
      rw [driveWhole_snoc, if_pos h0, hll, ← hassoc] at this
      exact this
    · have hmp : 0 < m.length.getD 0 := lt_of_le_of_ne hm0 (Ne.symm h0)
      rw [if_neg (fl_pos (mul_pos hmp hR)).ne']
      by_cases hb : fl64 (loopLen R done + fl64 (m.length.getD 0 * R)) ≥ t
      · rw [if_pos hb]
        right
        obtain ⟨ha0, hal, hae⟩ := amount_last hmf hlen0 hle hmp hR hb
        exact ⟨done, m, todo, _, rfl, rfl, ha0, hal, fl_fl 53 h53 _, hle, by rw [loopLen_snoc]; exact hb, hae⟩
      · rw [if_neg hb, amount_full hmf ht hmp hR (not_le.mp hb)]
        have hlt : loopLen R (done ++ [m]) < t := by rw [loopLen_snoc]; exact not_le.mp hb
        have := ih (done ++ [m]) (fun x hx => hv x (by simp [hx])) (by rw [← hassoc]; exact hl) hlt.le (fun _ => hlt)
        rw [driveWhole_snoc, if_neg h0, loopLen_snoc, ← hassoc] at this
        exact this

private theorem driven_le {R : ℝ} (hR : 0 ≤ R) {a b : List Motion} (h : Lens (a ++ b)) : driven R a ≤ driven R (a ++ b) := by
  rw [driven_append]
  have := driven_nonneg hR (ms := b) (fun x hx => h x (by simp [hx]))
  linarith

/-- The target of a loop. -/
private theorem target_err {R : ℝ} (hR : 0 < R) {s : Segment} (h : DoubleSegment s) {r : ℝ} (h0 : 0 ≤ r) (h1 : r ≤ 1) :
    |fl64 (r * s.getLengthF R) - r * driven R s.valid| ≤ 13 * (driven R s.valid / 2 ^ 53) + driven R s.valid / 2 ^ 60 := by
  have h2 := total_err hR.le h
  have hT := driven_nonneg hR.le h.1
  obtain ⟨T, hTT⟩ : ∃ x, x = driven R s.valid := ⟨_, rfl⟩
  obtain ⟨A, hA⟩ : ∃ x, x = s.getLengthF R := ⟨_, rfl⟩
  rw [← hTT] at h2 hT ⊢
  rw [← hA] at h2 ⊢
  have h3 : |r * A - r * T| ≤ 12 * (T / 2 ^ 53) := by
    rw [← mul_sub, abs_mul, abs_of_nonneg h0]
    calc r * |A - T| ≤ 1 * |A - T| := mul_le_mul_of_nonneg_right h1 (abs_nonneg _)
      _ ≤ _ := by rw [one_mul]; exact h2
  have h2 := abs_le.1 h2
  have h3 := abs_le.1 h3
  have hA0 : 0 ≤ A := by
    norm_num at h2
    linarith
  have h4 := abs_le.1 (fl_rel 53 (r * A))
  have h5 : r * A ≤ A := mul_le_of_le_one_left hA0 h1
  rw [abs_of_nonneg (mul_nonneg h0 hA0)] at h4
  change |fl 53 (r * A) - _| ≤ _
  obtain ⟨t, ht⟩ : ∃ x, x = fl 53 (r * A) := ⟨_, rfl⟩
  rw [← ht] at h4 ⊢
  obtain ⟨y, hy⟩ : ∃ x, x = r * A := ⟨_, rfl⟩
  rw [← hy] at h3 h4 h5
  norm_num at h2 h3 h4 ⊢
  rw [abs_le]
  constructor <;> linarith

/-- C132: the length of a Reeds-Shepp path is that of its motions, up to twelve roundings. -/
theorem C132_length (s : Segment) (hs : DoubleSegment s) (R : ℝ) (hR : 0 ≤ R) :
    |s.getLengthF R - driven R s.valid| ≤ 12 * (driven R s.valid / 2 ^ 53) := total_err hR hs

/-- C132: `Interpolate` with a ratio in [0, 1] drives the motions in order: all but the last one driven in full, none of
them backward or beyond its end, and for the distance asked for up to the roundings. What driving a motion does to a pose is
arbitrary. -/
theorem C132_interpolate (drive : X → Motion → ℝ → X) (init : X) (s : Segment) (hs : DoubleSegment s) (R : ℝ)
    (hR : 0 < R) (hT : 0 < driven R s.valid) (r : ℝ) (h0 : 0 ≤ r) (h1 : r ≤ 1) :
    (PathRS.interpolateF drive init s R (s.getLengthF R) r = driveWhole drive init s.valid ∧
      |driven R s.valid - r * driven R s.valid| ≤ driven R s.valid / 2 ^ 48) ∨
    ∃ pre m post a, s.valid = pre ++ m :: post ∧ 0 ≤ a ∧ a ≤ m.length.getD 0 ∧ IsFlt 53 a ∧
      PathRS.interpolateF drive init s R (s.getLengthF R) r = drive (driveWhole drive init pre) m a ∧
      |driven R pre + a * R - r * driven R s.valid| ≤ driven R s.valid / 2 ^ 48 := by
  have hte := abs_le.1 (target_err hR hs h0 h1)
  have htot := abs_le.1 (total_err hR.le hs)
  have h5 : s.valid.length ≤ 5 := (List.takeWhile_prefix _).length_le.trans hs.2.1
  have htot0 : s.getLengthF R ≠ 0 := by
    intro h
    rw [h] at htot
    norm_num at htot
    linarith
  unfold PathRS.interpolateF
  rw [if_neg htot0, interp_valid]
  have htf : fl64 (fl64 (r * s.getLengthF R)) = fl64 (r * s.getLengthF R) := fl_fl 53 h53 _
  have ht0 : 0 ≤ fl64 (r * s.getLengthF R) := by
    refine fl_nonneg 53 (mul_nonneg h0 ?_)
    norm_num at htot
    linarith
  have hvalid : ∀ m ∈ s.valid, m.isValid := List.all_eq_true.mp List.all_takeWhile
  have hnz : ¬ s.valid.all (fun m => decide (m.length.getD 0 = 0)) := by
    intro h
    rw [List.all_eq_true] at h
    have : driven R s.valid = 0 := by
      unfold driven
      rw [List.sum_eq_zero, zero_mul]
      intro x hx
      obtain ⟨m, hm, rfl⟩ := List.mem_map.1 hx
      simpa using h m hm
    linarith
  have key := interp_loop drive hR htf init s.valid [] hvalid hs.1 (by exact ht0)
    (fun h => absurd h hnz)
  rw [List.nil_append] at key
  obtain ⟨T, hTT⟩ : ∃ x, x = driven R s.valid := ⟨_, rfl⟩
  obtain ⟨t, htt⟩ : ∃ x, x = fl64 (r * s.getLengthF R) := ⟨_, rfl⟩
  rw [← htt] at key hte ⊢
  have hrT : r * T ≤ T := mul_le_of_le_one_left (hTT ▸ hT.le) h1
  rcases key with ⟨k1, k2⟩ | ⟨pre, m, post, a, k0, k1, k2, k3, kf, k4, k5, k6⟩
  · left
    refine ⟨k1, ?_⟩
    have h6 := abs_le.1 (loopLen_err hR.le hs.1 h5)
    rw [← hTT] at hte h6 hT ⊢
    norm_num at hte h6 ⊢
    rw [abs_le]
    constructor <;> linarith
  · right
    refine ⟨pre, m, post, a, k0, k2, k3, kf, k1, ?_⟩
    have hl := hs.1
    rw [k0] at hl
    have hpre : Lens pre := fun x hx => hl x (by simp [hx])
    have hpm : Lens (pre ++ [m]) := by
      intro x hx
      rcases List.mem_append.1 hx with hx | hx
      · exact hl x (by simp [hx])
      · exact hl x (by simp [List.mem_singleton.1 hx])
    have hlenpre : pre.length ≤ 5 := by rw [k0] at h5; simp at h5; omega
    have h6 := abs_le.1 (loopLen_err hR.le hpre hlenpre)
    have h8 : driven R (pre ++ [m]) ≤ T := by
      rw [hTT, k0, show pre ++ m :: post = (pre ++ [m]) ++ post by simp]
      exact driven_le hR.le (by rw [show (pre ++ [m]) ++ post = pre ++ m :: post by simp]; exact hl)
    have hm1 : driven R [m] = m.length.getD 0 * R := by simp [driven]
    rw [driven_append, hm1] at h8
    have hp0 := driven_nonneg hR.le hpre
    have hmm0 : 0 ≤ m.length.getD 0 * R := mul_nonneg (hl m (by simp)).1 hR.le
    have h9 := (abs_le.1 (fl_rel 53 (m.length.getD 0 * R))).2
    rw [abs_of_nonneg hmm0] at h9
    change fl64 (m.length.getD 0 * R) - _ ≤ _ at h9
    rw [← hTT] at hte hT ⊢
    have k6 := abs_le.1 k6
    obtain ⟨w, hw⟩ : ∃ x, x = m.length.getD 0 * R := ⟨_, rfl⟩
    rw [← hw] at h8 h9 k6 hmm0
    norm_num at hte h6 h9 k6 ⊢
    rw [abs_le]
    constructor <;> linarith

private theorem dir_loop {R t : ℝ} (todo : List Motion) : ∀ (done : List Motion), (done = [] ∨ loopLen R done < t) →
    (PathRS.dirLoopF R t todo (loopLen R done) = .noMotion ∧
      (done ++ todo.takeWhile Motion.isValid = [] ∨ loopLen R (done ++ todo.takeWhile Motion.isValid) < t)) ∨
    ∃ pre m post, done ++ todo.takeWhile Motion.isValid = pre ++ m :: post ∧
      PathRS.dirLoopF R t todo (loopLen R done) = m.direction ∧
      (pre = [] ∨ loopLen R pre < t) ∧ t ≤ loopLen R (pre ++ [m]) := by
  induction todo with
  | nil =>
    intro done h
    left
    refine ⟨rfl, ?_⟩
    simpa using h
  | cons m todo ih =>
    intro done h
    rw [PathRS.dirLoopF, List.takeWhile_cons]
    by_cases hv : m.isValid
    · rw [if_pos hv, if_pos hv]
      dsimp only
      rw [← loopLen_snoc]
      by_cases ht : t ≤ loopLen R (done ++ [m])
      · right
        rw [if_pos ht]
        exact ⟨done, m, _, rfl, rfl, h, ht⟩
      · rw [if_neg ht]
        have := ih (done ++ [m]) (.inr (not_le.mp ht))
        rw [List.append_assoc, List.singleton_append] at this
        exact this
    · rw [if_neg hv, if_neg hv]
      left
      refine ⟨rfl, ?_⟩
      simpa using h

private theorem valid_length {s : Segment} (hs : DoubleSegment s) : s.valid.length ≤ 5 :=
  (List.takeWhile_prefix _).length_le.trans hs.2.1

private theorem total_ne {R : ℝ} (hR : 0 < R) {s : Segment} (hs : DoubleSegment s) (hT : 0 < driven R s.valid) :
    0 < s.getLengthF R := by
  have htot := abs_le.1 (total_err hR.le hs)
  norm_num at htot
  linarith

/-- C132: the direction at a ratio in [0, 1] is that of the motion which is driven there, up to the roundings, or, within the
roundings of the end only, `NoMotion`. -/
theorem C132_direction_partial (s : Segment) (hs : DoubleSegment s) (R : ℝ)
    (hR : 0 < R) (hT : 0 < driven R s.valid) (r : ℝ) (h0 : 0 ≤ r) (h1 : r ≤ 1) :
    (PathRS.getDirectionF s R (s.getLengthF R) r = .noMotion ∧
      driven R s.valid - driven R s.valid / 2 ^ 48 < r * driven R s.valid) ∨
    ∃ pre m post, s.valid = pre ++ m :: post ∧ PathRS.getDirectionF s R (s.getLengthF R) r = m.direction ∧
      (pre ≠ [] → driven R pre - driven R s.valid / 2 ^ 48 < r * driven R s.valid) ∧
      r * driven R s.valid ≤ driven R (pre ++ [m]) + driven R s.valid / 2 ^ 48 := by
  have hte := abs_le.1 (target_err hR hs h0 h1)
  unfold PathRS.getDirectionF
  rw [if_neg (total_ne hR hs hT).ne']
  have key := dir_loop (R := R) (t := fl64 (r * s.getLengthF R)) s.motions [] (.inl rfl)
  rw [List.nil_append, show loopLen R [] = 0 from rfl] at key
  change (_ ∧ (s.valid = [] ∨ loopLen R s.valid < _)) ∨ ∃ pre m post, s.valid = _ ∧ _ at key
  have hb : ∀ (pre : List Motion), pre <+: s.valid → |loopLen R pre - driven R pre| ≤ 12 * (driven R s.valid / 2 ^ 53) := by
    intro pre hp
    obtain ⟨post, hpost⟩ := hp
    have hl := hs.1
    rw [← hpost] at hl
    have h5 := valid_length hs
    rw [← hpost, List.length_append] at h5
    refine (loopLen_err hR.le (fun x hx => hl x (by simp [hx])) (by omega)).trans ?_
    have := driven_le hR.le hl
    rw [hpost] at this
    gcongr
  rcases key with ⟨k1, k2⟩ | ⟨pre, m, post, k0, k1, k2, k3⟩
  · left
    refine ⟨k1, ?_⟩
    rcases k2 with k2 | k2
    · rw [k2] at hT; simp [driven] at hT
    · have h6 := abs_le.1 (hb _ (List.prefix_refl _))
      obtain ⟨T, hTT⟩ : ∃ x, x = driven R s.valid := ⟨_, rfl⟩
      rw [← hTT] at hte h6 hT ⊢
      norm_num at hte h6 ⊢
      linarith
  · right
    refine ⟨pre, m, post, k0, k1, ?_, ?_⟩
    · intro hne
      have k2 := k2.resolve_left hne
      have h6 := abs_le.1 (hb pre ⟨_, k0.symm⟩)
      obtain ⟨T, hTT⟩ : ∃ x, x = driven R s.valid := ⟨_, rfl⟩
      rw [← hTT] at hte h6 hT ⊢
      norm_num at hte h6 ⊢
      linarith
    · have h6 := abs_le.1 (hb (pre ++ [m]) ⟨post, by rw [k0]; simp⟩)
      obtain ⟨T, hTT⟩ : ∃ x, x = driven R s.valid := ⟨_, rfl⟩
      rw [← hTT] at hte h6 hT ⊢
      norm_num at hte h6 ⊢
      linarith

private theorem cusp_loop {R total v : ℝ} (todo : List Motion) : ∀ (done : List Motion) (b : Motion),
    (v ∈ PathRS.cuspLoopF R total todo b.direction (loopLen R (done ++ [b])) ↔
    ∃ pre a c post, done ++ b :: todo = done ++ (pre ++ a :: c :: post) ∧ a.direction ≠ c.direction ∧
      v = fl64 (loopLen R (done ++ (pre ++ [a])) / total) ∧
      ∀ (pre' : List Motion) (a' : Motion), (pre' ++ [a']) <+: (pre ++ [a]) →
        fl64 (loopLen R (done ++ (pre' ++ [a'])) / total) ≤ 1) := by
  induction todo with
  | nil =>
    intro done b
    rw [PathRS.cuspLoopF]
    constructor
    · intro h; simp at h
    · rintro ⟨pre, a, c, post, h, _⟩
      have := List.append_cancel_left h
      have := congrArg List.length this
      simp at this
      omega
  | cons m todo ih =>
    intro done b
    rw [PathRS.cuspLoopF]
    dsimp only
    by_cases h1 : fl64 (loopLen R (done ++ [b]) / total) > 1
    · rw [if_pos h1]
      constructor
      · intro h; simp at h
      · rintro ⟨pre, a, c, post, h, _, _, h4⟩
        have h5 := List.append_cancel_left h
        have : [] ++ [b] <+: pre ++ [a] := by
          cases pre with
          | nil => simp at h5; simp [h5.1]
          | cons x pre => simp at h5; simp [h5.1]
        exact absurd (h4 [] b this) (not_le.mpr h1)
    · rw [if_neg h1]
      have ih := ih (done ++ [b]) m
      rw [show done ++ [b] ++ [m] = (done ++ [b]) ++ [m] from rfl, loopLen_snoc] at ih
      have hrest : v ∈ PathRS.cuspLoopF R total todo m.direction
            (fl64 (loopLen R (done ++ [b]) + fl64 (m.length.getD 0 * R))) ↔
          ∃ pre a c post, m :: todo = pre ++ a :: c :: post ∧ a.direction ≠ c.direction ∧
            v = fl64 (loopLen R (done ++ b :: (pre ++ [a])) / total) ∧
            ∀ (pre' : List Motion) (a' : Motion), (pre' ++ [a']) <+: (b :: (pre ++ [a])) →
              fl64 (loopLen R (done ++ (pre' ++ [a'])) / total) ≤ 1 := by
        rw [ih]
        constructor
        · rintro ⟨pre, a, c, post, e1, e2, e3, e4⟩
          refine ⟨pre, a, c, post, List.append_cancel_left e1, e2, by simpa using e3, ?_⟩
          intro pre' a' hp
          cases pre' with
          | nil =>
            simp only [List.nil_append, List.cons_prefix_cons] at hp
            rw [hp.1]
            exact not_lt.mp h1
          | cons x pre' =>
            simp only [List.cons_append, List.cons_prefix_cons] at hp
            have := e4 pre' a' hp.2
            rw [hp.1]
            simpa using this
        · rintro ⟨pre, a, c, post, e1, e2, e3, e4⟩
          refine ⟨pre, a, c, post, by rw [e1], e2, by simpa using e3, ?_⟩
          intro pre' a' hp
          have := e4 (b :: pre') a' (by simpa using hp)
          simpa using this
      have hcons : (∃ pre a c post, done ++ b :: m :: todo = done ++ (pre ++ a :: c :: post) ∧ a.direction ≠ c.direction ∧
            v = fl64 (loopLen R (done ++ (pre ++ [a])) / total) ∧
            ∀ (pre' : List Motion) (a' : Motion), (pre' ++ [a']) <+: (pre ++ [a]) →
              fl64 (loopLen R (done ++ (pre' ++ [a'])) / total) ≤ 1) ↔
          (b.direction ≠ m.direction ∧ v = fl64 (loopLen R (done ++ [b]) / total)) ∨
          ∃ pre a c post, m :: todo = pre ++ a :: c :: post ∧ a.direction ≠ c.direction ∧
            v = fl64 (loopLen R (done ++ b :: (pre ++ [a])) / total) ∧
            ∀ (pre' : List Motion) (a' : Motion), (pre' ++ [a']) <+: (b :: (pre ++ [a])) →
              fl64 (loopLen R (done ++ (pre' ++ [a'])) / total) ≤ 1 := by
        constructor
        · rintro ⟨pre, a, c, post, e0, e2, e3, e4⟩
          have e1 := List.append_cancel_left e0
          clear e0
          cases pre with
          | nil =>
            simp only [List.nil_append, List.cons.injEq] at e1
            obtain ⟨rfl, rfl, _⟩ := e1
            exact .inl ⟨e2, by simpa using e3⟩
          | cons x pre =>
            simp only [List.cons_append, List.cons.injEq] at e1
            obtain ⟨rfl, e1⟩ := e1
            exact .inr ⟨pre, a, c, post, e1, e2, by simpa using e3, by simpa using e4⟩
        · rintro (⟨e2, e3⟩ | ⟨pre, a, c, post, e1, e2, e3, e4⟩)
          · refine ⟨[], b, m, todo, rfl, e2, by simpa using e3, ?_⟩
            intro pre' a' hp
            cases pre' with
            | nil =>
              simp only [List.nil_append, List.cons_prefix_cons] at hp
              rw [hp.1]
              exact not_lt.mp h1
            | cons x pre' =>
              have := hp.length_le
              simp at this
          · exact ⟨b :: pre, a, c, post, by rw [e1]; rfl, e2, by simpa using e3, by simpa using e4⟩
      rw [hcons, ← hrest]
      by_cases hd : m.direction = b.direction
      · rw [if_neg (not_not.mpr hd)]
        constructor
        · exact .inr
        · rintro (h | h)
          · exact absurd hd.symm h.1
          · exact h
      · rw [if_pos hd, List.mem_cons]
        constructor
        · rintro (h | h)
          · exact .inl ⟨fun h' => hd h'.symm, h⟩
          · exact .inr h
        · rintro (h | h)
          · exact .inl h.2
          · exact .inr h

private theorem loopLen_le {R : ℝ} (hR : 0 ≤ R) (a b : List Motion) (h : Lens (a ++ b)) :
    loopLen R a ≤ loopLen R (a ++ b) := by
  induction b using List.reverseRecOn with
  | nil => simp
  | append_singleton b m ih =>
    rw [← List.append_assoc] at h ⊢
    refine (ih fun x hx => h x (List.mem_append_left _ hx)).trans ?_
    rw [loopLen_snoc]
    conv_lhs => rw [show loopLen R (a ++ b) = fl64 (loopLen R (a ++ b)) from (flSum_flt _).symm]
    refine fl_mono 53 h53 ?_
    have : 0 ≤ fl64 (m.length.getD 0 * R) := fl_nonneg 53 (mul_nonneg (h m (by simp)).1 hR)
    linarith

private theorem numMotions_take (s : Segment) : s.motions.take s.numMotions = s.valid := by
  unfold Segment.numMotions Segment.valid
  exact (List.prefix_iff_eq_take.mp (List.takeWhile_prefix _)).symm

private theorem mem_cuspsF {R : ℝ} {s : Segment} {total v : ℝ} (h0 : total ≠ 0) :
    v ∈ PathRS.cuspsF s R total ↔ ∃ pre a c post, s.valid = pre ++ a :: c :: post ∧ a.direction ≠ c.direction ∧
      v = fl64 (loopLen R (pre ++ [a]) / total) ∧
      ∀ (pre' : List Motion) (a' : Motion), (pre' ++ [a']) <+: (pre ++ [a]) →
        fl64 (loopLen R (pre' ++ [a']) / total) ≤ 1 := by
  unfold PathRS.cuspsF
  rw [if_neg h0, numMotions_take]
  cases s.valid with
  | nil => simp
  | cons b todo =>
    dsimp only
    have := cusp_loop (R := R) (total := total) (v := v) todo [] b
    simp only [List.nil_append] at this
    rw [← this]
    have hb : loopLen R [b] = fl64 (b.length.getD 0 * R) := by
      have := loopLen_snoc R [] b
      rw [List.nil_append, show loopLen R [] = 0 from rfl, zero_add] at this
      rw [this]
      exact fl_fl 53 h53 _
    rw [hb]

/-- The ratio of a position that a loop has reached. -/
private theorem ratio_err {R : ℝ} (hR : 0 < R) {s : Segment} (hs : DoubleSegment s) (hT : 0 < driven R s.valid)
    {pre : List Motion} (hp : pre <+: s.valid) :
    0 ≤ fl64 (loopLen R pre / s.getLengthF R) ∧
    (fl64 (loopLen R pre / s.getLengthF R) ≤ 1 →
      |fl64 (loopLen R pre / s.getLengthF R) * driven R s.valid - driven R pre| ≤ driven R s.valid / 2 ^ 48) ∧
    (driven R pre ≤ driven R s.valid - driven R s.valid / 2 ^ 48 → fl64 (loopLen R pre / s.getLengthF R) ≤ 1) := by
  obtain ⟨post, hpost⟩ := hp
  have hl := hs.1
  rw [← hpost] at hl
  have hlp : Lens pre := fun x hx => hl x (by simp [hx])
  have h5 := valid_length hs
  rw [← hpost, List.length_append] at h5
  have hle := driven_le hR.le hl
  rw [hpost] at hle
  have herr := abs_le.1 (loopLen_err hR.le hlp (by omega))
  have htot := abs_le.1 (total_err hR.le hs)
  have hA := total_ne hR hs hT
  have hL := loopLen_nonneg hR.le hlp
  have hP := driven_nonneg hR.le hlp
  obtain ⟨T, hTT⟩ : ∃ x, x = driven R s.valid := ⟨_, rfl⟩
  obtain ⟨A, hAA⟩ : ∃ x, x = s.getLengthF R := ⟨_, rfl⟩
  obtain ⟨L, hLL⟩ : ∃ x, x = loopLen R pre := ⟨_, rfl⟩
  obtain ⟨P, hPP⟩ : ∃ x, x = driven R pre := ⟨_, rfl⟩
  rw [← hTT] at hT hle htot ⊢
  rw [← hAA] at htot hA ⊢
  rw [← hLL] at herr hL ⊢
  rw [← hPP] at hle herr hP ⊢
  have hr0 : 0 ≤ L / A := by positivity
  refine ⟨fl_nonneg 53 hr0, ?_, ?_⟩
  · intro hv1
    have hve := fl_rel 53 (L / A)
    rw [abs_of_nonneg hr0] at hve
    change |fl64 (L / A) - _| ≤ _ at hve
    have hv0 : 0 ≤ fl64 (L / A) := fl_nonneg 53 hr0
    obtain ⟨v, hv⟩ : ∃ x, x = fl64 (L / A) := ⟨_, rfl⟩
    rw [← hv] at hve hv0 hv1 ⊢
    have hvA : |v * A - L| ≤ ((2 : ℝ) ^ 53)⁻¹ * L := by
      have h3 : L / A * A = L := div_mul_cancel₀ _ hA.ne'
      rw [show v * A - L = (v - L / A) * A by rw [sub_mul, h3], abs_mul, abs_of_pos hA]
      calc _ ≤ ((2 : ℝ) ^ 53)⁻¹ * (L / A) * A := mul_le_mul_of_nonneg_right hve hA.le
        _ = _ := by rw [mul_assoc, h3]
    have hvT : |v * A - v * T| ≤ 12 * (T / 2 ^ 53) := by
      rw [← mul_sub, abs_mul, abs_of_nonneg hv0]
      calc v * |A - T| ≤ 1 * |A - T| := mul_le_mul_of_nonneg_right hv1 (abs_nonneg _)
        _ ≤ _ := by rw [one_mul]; exact abs_le.2 htot
    have hvA := abs_le.1 hvA
    have hvT := abs_le.1 hvT
    obtain ⟨y, hy⟩ : ∃ x, x = v * A := ⟨_, rfl⟩
    obtain ⟨z, hz⟩ : ∃ x, x = v * T := ⟨_, rfl⟩
    rw [← hy] at hvA
    rw [← hy, ← hz] at hvT
    rw [← hz]
    norm_num at hvA hvT herr ⊢
    rw [abs_le]
    constructor <;> linarith
  · intro h
    have h1 : L ≤ A := by
      norm_num at herr htot h
      linarith
    have := fl_mono 53 h53 ((div_le_one hA).mpr h1)
    rw [show fl 53 1 = 1 from fl_one] at this
    exact this

/-- C132: the ratios that `GetCuspPointRatios` reports are in [0, 1] and are those of changes of direction, up to the
roundings, and all changes of direction are reported but those within the roundings of the end. -/
theorem C132_cusps_partial (s : Segment) (hs : DoubleSegment s) (R : ℝ) (hR : 0 < R) (hT : 0 < driven R s.valid) :
    (∀ v ∈ PathRS.cuspsF s R (s.getLengthF R), 0 ≤ v ∧ v ≤ 1 ∧ ∃ pre a c post, s.valid = pre ++ a :: c :: post ∧
      a.direction ≠ c.direction ∧
      |v * driven R s.valid - driven R (pre ++ [a])| ≤ driven R s.valid / 2 ^ 48) ∧
    ∀ pre a c post, s.valid = pre ++ a :: c :: post → a.direction ≠ c.direction →
      driven R (pre ++ [a]) ≤ driven R s.valid - driven R s.valid / 2 ^ 48 →
      ∃ v ∈ PathRS.cuspsF s R (s.getLengthF R),
        |v * driven R s.valid - driven R (pre ++ [a])| ≤ driven R s.valid / 2 ^ 48 := by
  have hne := (total_ne hR hs hT).ne'
  constructor
  · intro v hv
    obtain ⟨pre, a, c, post, e1, e2, e3, e4⟩ := (mem_cuspsF hne).1 hv
    have hp : pre ++ [a] <+: s.valid := ⟨c :: post, by rw [e1]; simp⟩
    obtain ⟨r1, r2, _⟩ := ratio_err hR hs hT hp
    have h1 := e4 pre a (List.prefix_refl _)
    rw [e3]
    exact ⟨r1, h1, pre, a, c, post, e1, e2, r2 h1⟩
  · intro pre a c post e1 e2 h
    have hp : pre ++ [a] <+: s.valid := ⟨c :: post, by rw [e1]; simp⟩
    obtain ⟨r1, r2, r3⟩ := ratio_err hR hs hT hp
    refine ⟨_, (mem_cuspsF hne).2 ⟨pre, a, c, post, e1, e2, rfl, ?_⟩, r2 (r3 h)⟩
    intro pre' a' hp'
    obtain ⟨_, _, r3'⟩ := ratio_err hR hs hT (hp'.trans hp)
    apply r3'
    obtain ⟨post', hpost'⟩ := hp'
    refine le_trans ?_ h
    rw [← hpost']
    refine driven_le hR.le ?_
    rw [hpost']
    obtain ⟨q, hq⟩ := hp
    intro x hx
    exact hs.1 x (by rw [← hq]; exact List.mem_append_left _ hx)

/-- C132: with one motion, or the turning radius 1, a ratio in [0, 1] always has a direction. -/
theorem C132_direction_exists_partial (s : Segment) (hs : DoubleSegment s) (R : ℝ)
    (hR : 0 < R) (hT : 0 < driven R s.valid) (h : s.valid.length = 1 ∨ R = 1) (r : ℝ) (h0 : 0 ≤ r) (h1 : r ≤ 1) :
    PathRS.getDirectionF s R (s.getLengthF R) r ≠ .noMotion := by
  have hA := total_ne hR hs hT
  unfold PathRS.getDirectionF
  rw [if_neg hA.ne']
  have key := dir_loop (R := R) (t := fl64 (r * s.getLengthF R)) s.motions [] (.inl rfl)
  rw [List.nil_append, show loopLen R [] = 0 from rfl] at key
  change (_ ∧ (s.valid = [] ∨ loopLen R s.valid < _)) ∨ ∃ pre m post, s.valid = _ ∧ _ at key
  have hAf : fl64 (s.getLengthF R) = s.getLengthF R := fl_fl 53 h53 _
  have htA : fl64 (r * s.getLengthF R) ≤ s.getLengthF R := by
    have := fl_mono 53 h53 (mul_le_of_le_one_left hA.le h1)
    rw [show fl 53 (s.getLengthF R) = _ from hAf] at this
    exact this
  have hlen : loopLen R s.valid = s.getLengthF R := by
    obtain ⟨hl, _, hlen⟩ := hs
    unfold Segment.getLengthF
    rw [hlen]
    rcases h with h | h
    · obtain ⟨m, hm⟩ := List.length_eq_one_iff.mp h
      rw [hm] at hl ⊢
      simp only [loopLen, flSum, List.map_cons, List.map_nil, List.foldl_cons, List.foldl_nil, zero_add]
      have hmf : fl64 (m.length.getD 0) = m.length.getD 0 := (hl m (by simp)).2
      rw [hmf]
      exact fl_fl 53 h53 _
    · subst h
      rw [mul_one]
      have hf : fl64 (flSum (s.valid.map fun m => m.length.getD 0)) = flSum (s.valid.map fun m => m.length.getD 0) :=
        flSum_flt _
      change _ = fl64 (flSum _)
      rw [hf]
      unfold loopLen
      congr 1
      apply List.map_congr_left
      intro m hm
      rw [mul_one]
      exact (hl m hm).2
  rcases key with ⟨_, k2 | k2⟩ | ⟨pre, m, post, k0, k1, _, _⟩
  · rw [k2] at hT; simp [driven] at hT
  · rw [hlen] at k2
    exact absurd k2 (not_lt.mpr htA)
  · rw [k1]
    have hv : m.isValid := List.all_eq_true.mp (List.all_takeWhile (l := s.motions)) m (by
      change m ∈ s.valid
      rw [k0]; simp)
    unfold Motion.isValid at hv
    simp only [Bool.and_eq_true, decide_eq_true_eq] at hv
    exact hv.2

/-- C132: `AddMotion` with a non-negative `double` makes such segments, out of an empty one. -/
theorem C132_add_motion (s : Segment) (hs : DoubleSegment s) (steer : Steer) (dir : Direction) (l : ℝ) (hd : dir ≠ .noMotion)
    (h0 : 0 ≤ l) (hf : IsFlt 53 l) (hroom : s.valid.length < s.motions.length)
    (hrest : ∀ m ∈ s.motions.drop s.valid.length, ¬ m.isValid) :
    DoubleSegment (s.addMotionF steer dir l) ∧
    (s.addMotionF steer dir l).valid = s.valid ++ [⟨steer, dir, some l⟩] ∧
    (s.addMotionF steer dir l).motions.length = s.motions.length ∧
    ∀ m ∈ (s.addMotionF steer dir l).motions.drop (s.addMotionF steer dir l).valid.length, ¬ m.isValid := by
  have key : ∀ ms : List Motion, (ms.takeWhile Motion.isValid).length < ms.length →
      (∀ m ∈ ms.drop (ms.takeWhile Motion.isValid).length, ¬ m.isValid) →
      (setFirstInvalid ⟨steer, dir, some l⟩ ms).takeWhile Motion.isValid =
        ms.takeWhile Motion.isValid ++ [⟨steer, dir, some l⟩] ∧
      (setFirstInvalid ⟨steer, dir, some l⟩ ms).length = ms.length ∧
      ∀ m ∈ (setFirstInvalid ⟨steer, dir, some l⟩ ms).drop ((ms.takeWhile Motion.isValid).length + 1), ¬ m.isValid := by
    intro ms
    induction ms with
    | nil => intro h; simp at h
    | cons a ms ih =>
      intro h1 h2
      by_cases ha : a.isValid
      · simp only [List.takeWhile_cons, ha, if_true, List.length_cons, List.drop_succ_cons, setFirstInvalid] at h1 h2 ⊢
        obtain ⟨i1, i2, i3⟩ := ih (by omega) h2
        exact ⟨by rw [i1]; rfl, by rw [i2], i3⟩
      · have hnew : (⟨steer, dir, some l⟩ : Motion).isValid = true := by simp [Motion.isValid, hd]
        simp only [List.takeWhile_cons, ha, if_false, setFirstInvalid, hnew, if_true] at h1 h2 ⊢
        have htw : ms.takeWhile Motion.isValid = [] := by
          cases ms with
          | nil => rfl
          | cons b ms =>
            rw [List.takeWhile_cons, if_neg (h2 b (by simp))]
        refine ⟨by simp [List.takeWhile_cons, hnew, htw], by simp, ?_⟩
        intro m hm
        exact h2 m (by simpa using Or.inr hm)
  obtain ⟨k1, k2, k3⟩ := key s.motions hroom hrest
  have hv : (s.addMotionF steer dir l).valid = s.valid ++ [⟨steer, dir, some l⟩] := k1
  refine ⟨⟨?_, ?_, ?_⟩, hv, k2, ?_⟩
  · rw [hv]
    intro m hm
    rcases List.mem_append.1 hm with hm | hm
    · exact hs.1 m hm
    · rw [List.mem_singleton.1 hm]; exact ⟨h0, hf⟩
  · rw [show (s.addMotionF steer dir l).motions.length = s.motions.length from k2]; exact hs.2.1
  · rw [hv, List.map_append, List.foldl_append, ← hs.2.2]
    unfold Segment.addMotionF
    simp [abs_of_nonneg h0]
  · rw [hv, List.length_append, List.length_singleton]
    exact k3

private theorem fl_at (x : ℝ) (n e : ℤ) (h1 : (2 : ℝ) ^ (e + 52) ≤ |x|) (h2 : |x| < 2 ^ (e + 53))
    (h3 : |x - n * 2 ^ e| < 2 ^ e / 2) : fl64 x = n * 2 ^ e := by
  unfold fl64
  exact fl_eq (p := 53) (by simpa using h1) (by simpa using h2) h3

/-- The double nearest to 0.2. -/
private noncomputable def tenths2 : ℝ := 7205759403792794 / 2 ^ 55
/-- The double nearest to 2.6. -/
private noncomputable def tenths26 : ℝ := 5854679515581645 / 2 ^ 51

private noncomputable def twoForward : Segment :=
  ⟨[⟨.left, .forward, some tenths2⟩, ⟨.straight, .forward, some tenths26⟩, {}, {}, {}], fl64 (tenths2 + tenths26)⟩

private theorem twoForward_valid :
    twoForward.valid = [⟨.left, .forward, some tenths2⟩, ⟨.straight, .forward, some tenths26⟩] := by
  simp [Segment.valid, twoForward, List.takeWhile_cons, Motion.isValid]

private theorem tenths_flt : IsFlt 53 tenths2 ∧ IsFlt 53 tenths26 :=
  ⟨fl_repr h53 (n := 7205759403792794) (e := -55) (by unfold tenths2; norm_num) (by norm_num),
    fl_repr h53 (n := 5854679515581645) (e := -51) (by unfold tenths26; norm_num) (by norm_num)⟩

private theorem twoForward_double : DoubleSegment twoForward := by
  refine ⟨?_, by simp [twoForward], ?_⟩
  · rw [twoForward_valid]
    intro m hm
    rcases List.mem_pair.1 hm with rfl | rfl
    · exact ⟨by norm_num [tenths2], tenths_flt.1⟩
    · exact ⟨by norm_num [tenths26], tenths_flt.2⟩
  · rw [twoForward_valid]
    simp only [List.map_cons, List.map_nil, List.foldl_cons, List.foldl_nil, Option.getD_some, zero_add]
    rw [show fl64 tenths2 = tenths2 from tenths_flt.1]
    rfl

private theorem twoForward_driven : 0 < driven 5 twoForward.valid := by
  rw [twoForward_valid]
  norm_num [driven, tenths2, tenths26]

private theorem twoForward_total : twoForward.getLengthF 5 = 14 + 1 / 2 ^ 49 := by
  unfold Segment.getLengthF twoForward
  dsimp only
  have hsum : fl64 (tenths2 + tenths26) = 6305039478318695 / 2 ^ 51 := by
    rw [fl_at (tenths2 + tenths26) 6305039478318695 (-51)] <;> norm_num [abs_lt, tenths2, tenths26]
  rw [hsum, fl_at (6305039478318695 / 2 ^ 51 * 5) 7881299347898369 (-49)] <;> norm_num [abs_lt]

/-- Violation of C132: a path made of a turn by 0.2 rad and a straight line of 2.6 radii, both forward, with a turning
radius of 5 m, has no direction at its end: 5 m times the sum exceeds the sum of the lengths in metres by a rounding. -/
theorem C132_no_direction_at_end : ∃ (s : Segment) (R : ℝ), DoubleSegment s ∧ 0 < R ∧ 0 < driven R s.valid ∧
    (∀ m ∈ s.valid, m.direction = .forward) ∧ PathRS.getDirectionF s R (s.getLengthF R) 1 = .noMotion ∧
    PathRS.getDirectionF s R (s.getLengthF R) 0 = .forward ∧ IsFlt 53 R := by
  have f5 : fl64 5 = 5 := by
    have := fl_int (p := 53) h53 (n := 5) (by norm_num)
    unfold fl64; simpa using this
  have hl1 : fl64 (tenths2 * 5) = 1 := by
    rw [fl_at (tenths2 * 5) (2 ^ 52) (-52)] <;> norm_num [abs_lt, tenths2]
  have hl2 : fl64 (tenths26 * 5) = 13 := by
    rw [fl_at (tenths26 * 5) (13 * 2 ^ 49) (-49)] <;> norm_num [abs_lt, tenths26]
  have f14 : fl64 14 = 14 := by
    have := fl_int (p := 53) h53 (n := 14) (by norm_num)
    unfold fl64; simpa using this
  have htf : fl64 (14 + 1 / 2 ^ 49) = 14 + 1 / 2 ^ 49 := by
    rw [← twoForward_total]; exact fl_fl 53 h53 _
  refine ⟨twoForward, 5, twoForward_double, by norm_num, twoForward_driven, ?_, ?_, ?_, f5⟩
  · rw [twoForward_valid]
    intro m hm
    rcases List.mem_pair.1 hm with rfl | rfl <;> rfl
  · unfold PathRS.getDirectionF
    rw [twoForward_total, if_neg (by norm_num), one_mul, htf]
    have h13 : fl64 (1 + 13) = 14 := by norm_num [f14]
    simp only [twoForward, PathRS.dirLoopF, Motion.isValid, Option.getD_some, zero_add, hl1, hl2, fl_one, h13]
    norm_num
  · unfold PathRS.getDirectionF
    rw [twoForward_total, if_neg (by norm_num), zero_mul, show fl64 0 = 0 from fl_zero 53]
    simp only [twoForward, PathRS.dirLoopF, Motion.isValid, Option.getD_some, zero_add, hl1, hl2, fl_one]
    simp

/-- Reeds-Shepp paths with the turning radius `R` as parts of a composite path; poses are left out. -/
noncomputable def reedsSheppParts (R : ℝ) : PartOps Unit Segment ℝ where
  length s := s.getLengthF R
  init _ := ()
  final _ := ()
  interpolate _ _ := ()
  truncate s _ := s
  direction s q := PathRS.getDirectionF s R (s.getLengthF R) q
  cusps s := PathRS.cuspsF s R (s.getLengthF R)

/-- Violation of C132: a composite path of two Reeds-Shepp paths which drive forward only reports a change of direction in
its middle. -/
theorem C132_spurious_cusp : ∃ (s : Segment) (R : ℝ), DoubleSegment s ∧ 0 < R ∧ 0 < driven R s.valid ∧
    (∀ m ∈ s.valid, m.direction = .forward) ∧
    ∃ v ∈ (Composite.ofPartsF (reedsSheppParts R) () [s, s]).getCuspPointRatiosF (reedsSheppParts R),
      |v - 1 / 2| ≤ 1 / 2 ^ 48 := by
  obtain ⟨s, R, h1, h2, h3, h4, h5, h6, _⟩ := C132_no_direction_at_end
  refine ⟨s, R, h1, h2, h3, h4, ?_⟩
  have hpos := total_ne h2 h1 h3
  have hd : DoubleLengths (reedsSheppParts R) [s, s] := by
    intro p hp
    rcases List.mem_pair.1 hp with rfl | rfl <;> exact ⟨hpos.le, fl_fl 53 h53 _⟩
  have hsum : ([s, s].map (reedsSheppParts R).length).sum = 2 * s.getLengthF R := by
    simp [reedsSheppParts]; ring
  obtain ⟨v, hv, _, _, hve⟩ := (C131_cusps (reedsSheppParts R) () [s, s] hd (by norm_num) (by rw [hsum]; linarith)).2.2
    0 s s rfl rfl (by
      show PathRS.getDirectionF s R (s.getLengthF R) 0 ≠ PathRS.getDirectionF s R (s.getLengthF R) 1
      rw [h5, h6]; simp)
  refine ⟨v, hv, ?_⟩
  have hlb : lengthBefore (reedsSheppParts R) [s, s] (0 + 1) = s.getLengthF R := by
    simp [lengthBefore, reedsSheppParts]
  rw [hsum, hlb] at hve
  obtain ⟨L, hL⟩ : ∃ x, x = s.getLengthF R := ⟨_, rfl⟩
  rw [← hL] at hve hpos
  have h7 : v * (2 * L) - L = (v - 1 / 2) * (2 * L) := by ring
  rw [h7, abs_mul, abs_of_pos (by linarith : 0 < 2 * L)] at hve
  have h8 : |v - 1 / 2| * (2 * L) ≤ (3 / 2 ^ 51) * (2 * L) := by
    refine hve.trans (le_of_eq ?_)
    simp only [List.length_cons, List.length_nil]
    push_cast
    ring
  have h9 := le_of_mul_le_mul_right h8 (by linarith)
  refine h9.trans ?_
  norm_num

/-- The double nearest to 0.3. -/
private noncomputable def tenths3 : ℝ := 5404319552844595 / 2 ^ 54
/-- The double nearest to 2.4. -/
private noncomputable def tenths24 : ℝ := 5404319552844595 / 2 ^ 51

private noncomputable def tinyReverse : Segment :=
  ⟨[⟨.left, .forward, some tenths3⟩, ⟨.straight, .forward, some tenths24⟩, ⟨.left, .backward, some (1 / 2 ^ 60)⟩, {}, {}],
    fl64 (fl64 (tenths3 + tenths24) + 1 / 2 ^ 60)⟩

private theorem tinyReverse_valid : tinyReverse.valid = [⟨.left, .forward, some tenths3⟩,
    ⟨.straight, .forward, some tenths24⟩, ⟨.left, .backward, some (1 / 2 ^ 60)⟩] := by
  simp [Segment.valid, tinyReverse, List.takeWhile_cons, Motion.isValid]

/-- Violation of C132: the change of direction before a very short last motion is not reported. -/
theorem C132_cusp_missed : ∃ (s : Segment) (R : ℝ), DoubleSegment s ∧ 0 < R ∧ 0 < driven R s.valid ∧
    (∃ a b c, s.valid = [a, b, c] ∧ b.direction = .forward ∧ c.direction = .backward ∧ 0 < c.length.getD 0) ∧
    PathRS.cuspsF s R (s.getLengthF R) = [] := by
  have t3 : IsFlt 53 tenths3 :=
    fl_repr h53 (n := 5404319552844595) (e := -54) (by unfold tenths3; norm_num) (by norm_num)
  have t24 : IsFlt 53 tenths24 :=
    fl_repr h53 (n := 5404319552844595) (e := -51) (by unfold tenths24; norm_num) (by norm_num)
  have t60 : IsFlt 53 (1 / 2 ^ 60 : ℝ) := fl_repr h53 (n := 1) (e := -60) (by norm_num) (by norm_num)
  have hsum : fl64 (tenths3 + tenths24) = 6079859496950169 / 2 ^ 51 := by
    rw [fl_at (tenths3 + tenths24) 6079859496950169 (-51)] <;> norm_num [abs_lt, tenths3, tenths24]
  have hsum2 : fl64 (6079859496950169 / 2 ^ 51 + 1 / 2 ^ 60) = 6079859496950169 / 2 ^ 51 := by
    rw [fl_at (6079859496950169 / 2 ^ 51 + 1 / 2 ^ 60) 6079859496950169 (-51)] <;> norm_num [abs_lt]
  have htot : tinyReverse.getLengthF 5 = 7599824371187711 / 2 ^ 49 := by
    unfold Segment.getLengthF tinyReverse
    dsimp only
    rw [hsum, hsum2, fl_at (6079859496950169 / 2 ^ 51 * 5) 7599824371187711 (-49)] <;> norm_num [abs_lt]
  have hl1 : fl64 (tenths3 * 5) = 3 / 2 := by
    rw [fl_at (tenths3 * 5) (3 * 2 ^ 51) (-52)] <;> norm_num [abs_lt, tenths3]
  have hl2 : fl64 (tenths24 * 5) = 12 := by
    rw [fl_at (tenths24 * 5) (12 * 2 ^ 49) (-49)] <;> norm_num [abs_lt, tenths24]
  have hL : fl64 (3 / 2 + 12) = 27 / 2 := by
    have := fl_repr h53 (x := 27 / 2) (n := 27) (e := -1) (by norm_num) (by norm_num)
    rw [show (3 / 2 + 12 : ℝ) = 27 / 2 by norm_num]
    exact this
  have hr : 1 < fl64 (27 / 2 / (7599824371187711 / 2 ^ 49)) := by
    rw [fl_at (27 / 2 / (7599824371187711 / 2 ^ 49)) (2 ^ 52 + 1) (-52)] <;> norm_num [abs_lt]
  refine ⟨tinyReverse, 5, ⟨?_, by simp [tinyReverse], ?_⟩, by norm_num, ?_, ?_, ?_⟩
  · rw [tinyReverse_valid]
    intro m hm
    simp only [List.mem_cons, List.not_mem_nil, or_false] at hm
    rcases hm with rfl | rfl | rfl
    · exact ⟨by norm_num [tenths3], t3⟩
    · exact ⟨by norm_num [tenths24], t24⟩
    · exact ⟨by norm_num, t60⟩
  · rw [tinyReverse_valid]
    simp only [List.map_cons, List.map_nil, List.foldl_cons, List.foldl_nil, Option.getD_some, zero_add]
    rw [show fl64 tenths3 = tenths3 from t3]
    rfl
  · rw [tinyReverse_valid]
    norm_num [driven, tenths3, tenths24]
  · exact ⟨_, _, _, tinyReverse_valid, rfl, rfl, by norm_num⟩
  · unfold PathRS.cuspsF
    rw [htot, if_neg (by norm_num), numMotions_take, tinyReverse_valid]
    simp only [PathRS.cuspLoopF, Option.getD_some, hl1, hl2, hL]
    rw [if_pos hr]
    simp

/-- Non-vacuity of the theorems above: a segment with two motions meets their hypotheses. -/
example : DoubleSegment twoForward ∧ 0 < driven 5 twoForward.valid ∧ twoForward.valid.length = 2 :=
  ⟨twoForward_double, twoForward_driven, by rw [twoForward_valid]; rfl⟩

/-- Non-vacuity: half way along it the direction is forward. -/
example : PathRS.getDirectionF twoForward 5 (twoForward.getLengthF 5) (1 / 2) = .forward := by
  rcases C132_direction_partial twoForward twoForward_double 5 (by norm_num) twoForward_driven (1 / 2) (by norm_num)
    (by norm_num) with ⟨_, h⟩ | ⟨pre, m, post, h1, h2, _⟩
  · have := twoForward_driven
    norm_num at h
    linarith
  · rw [h2]
    have hm : m ∈ twoForward.valid := by rw [h1]; simp
    rw [twoForward_valid] at hm
    rcases List.mem_pair.1 hm with rfl | rfl <;> rfl

/-- Non-vacuity of `C132_add_motion`: the empty segment. -/
example : DoubleSegment Segment.empty ∧ Segment.empty.valid.length < Segment.empty.motions.length ∧
    ∀ m ∈ Segment.empty.motions.drop Segment.empty.valid.length, ¬ m.isValid := by
  have : Segment.empty.valid = [] := by
    simp [Segment.valid, Segment.empty, List.replicate, List.takeWhile_cons, Motion.isValid]
  refine ⟨⟨by rw [this]; simp, by simp [Segment.empty], by rw [this]; rfl⟩, by rw [this]; simp [Segment.empty], ?_⟩
  intro m hm
  have := List.eq_of_mem_replicate (List.mem_of_mem_drop hm : m ∈ List.replicate 5 ({} : Motion))
  rw [this]
  simp [Motion.isValid]

end PathPlanning
