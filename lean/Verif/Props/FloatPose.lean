import Verif.Model.FloatPose
import Verif.Lemmas.Float

/-!
# C121: `WrapTheta` with `double`
-/

namespace PathPlanning.Flt

/-- `M_PI` is the number usually given for it. -/
private theorem mPi_eq : mPi = (7074237752028440 : ℤ) * 2 ^ (-51 : ℤ) := by
  have h1 := Real.pi_gt_d20
  have h2 := Real.pi_lt_d20
  have h3 := Real.pi_pos
  unfold mPi fl64
  refine fl_eq ?_ ?_ ?_
  · rw [abs_of_pos h3]; norm_num; linarith
  · rw [abs_of_pos h3]; norm_num; linarith
  · rw [abs_lt]
    norm_num at h1 h2 ⊢
    constructor <;> linarith

private theorem mPi_lt : mPi < Real.pi := by
  have h1 := Real.pi_gt_d20
  rw [mPi_eq]
  norm_num at h1 ⊢
  linarith

theorem mPi_bounds : 3 < mPi ∧ mPi < 13 / 4 := by
  rw [mPi_eq]; norm_num

private theorem mPi_flt : IsFlt 53 mPi := isFlt_fl 53 (by norm_num) _

private theorem two_mPi : fl64 (2 * mPi) = 2 * mPi := isFlt_two_mul (by norm_num) mPi_flt

private theorem wrapDownF_gt {t : ℝ} (h : mPi < t) : wrapDownF t = wrapDownF (fl64 (t - 2 * mPi)) := by
  rw [wrapDownF, if_pos h, two_mPi]
theorem wrapDownF_le {t : ℝ} (h : t ≤ mPi) : wrapDownF t = some t := by
  rw [wrapDownF, if_neg (not_lt.2 h)]
private theorem wrapUpF_lt {t : ℝ} (h : t < -mPi) : wrapUpF t = wrapUpF (fl64 (t + 2 * mPi)) := by
  rw [wrapUpF, if_pos h, two_mPi]
theorem wrapUpF_ge {t : ℝ} (h : -mPi ≤ t) : wrapUpF t = some t := by
  rw [wrapUpF, if_neg (not_lt.2 h)]

/-- One step of the first loop. -/
private theorem step {t : ℝ} (h1 : mPi < t) (h2 : t ≤ 2 ^ 56) :
    -mPi ≤ fl64 (t - 2 * mPi) ∧ fl64 (t - 2 * mPi) ≤ t - 2 ∧
    |fl64 (t - 2 * mPi) - (t - 2 * mPi)| ≤ (2 ^ 53)⁻¹ * t := by
  obtain ⟨h3, h4⟩ := mPi_bounds
  refine ⟨?_, ?_, ?_⟩
  · have : fl64 (-mPi) = -mPi := isFlt_neg mPi_flt
    rw [← this]
    exact fl_mono 53 (by norm_num) (by linarith)
  · by_cases h0 : t - 2 * mPi = 0
    · rw [h0]; unfold fl64; rw [fl_zero]; linarith
    have h5 : lastBit 53 (t - 2 * mPi) ≤ 3 := by
      refine lastBit_le h0 ?_
      rw [abs_lt]
      norm_num at h2 ⊢
      constructor <;> linarith
    have h6 := fl_err 53 (t - 2 * mPi)
    have h7 : (2 : ℝ) ^ lastBit 53 (t - 2 * mPi) ≤ 2 ^ (3 : ℤ) := zpow_le_zpow_right₀ (by norm_num) h5
    norm_num at h7
    have h8 := (abs_le.1 h6).2
    unfold fl64
    linarith
  · refine le_trans (fl_rel 53 _) (mul_le_mul_of_nonneg_left ?_ (by positivity))
    rw [abs_le]
    constructor <;> linarith

private theorem down (n : ℕ) : ∀ t : ℝ, mPi < t → t ≤ 2 ^ 56 → t ≤ 2 * n → IsFlt 53 t →
    ∃ r, ∃ k : ℕ, wrapDownF t = some r ∧ IsFlt 53 r ∧ -mPi ≤ r ∧ r ≤ mPi ∧
      |r - (t - 2 * k * mPi)| ≤ k * ((2 ^ 53)⁻¹ * t) := by
  induction n with
  | zero =>
    intro t h1 _ h2 _
    have := mPi_bounds.1
    push_cast at h2
    linarith
  | succ n ih =>
    intro t h1 h2 h3 h4
    obtain ⟨s1, s2, s3⟩ := step h1 h2
    have hf : IsFlt 53 (fl64 (t - 2 * mPi)) := isFlt_fl 53 (by norm_num) _
    rw [wrapDownF_gt h1]
    by_cases hc : fl64 (t - 2 * mPi) ≤ mPi
    · refine ⟨_, 1, wrapDownF_le hc, hf, s1, hc, ?_⟩
      push_cast
      rw [mul_one, one_mul]
      exact s3
    · push_cast at h3
      obtain ⟨r, k, e1, e2, e3, e4, e5⟩ := ih _ (not_le.1 hc) (by linarith) (by linarith) hf
      refine ⟨r, k + 1, e1, e2, e3, e4, ?_⟩
      have : r - (t - 2 * ((k + 1 : ℕ) : ℝ) * mPi) =
          (r - (fl64 (t - 2 * mPi) - 2 * k * mPi)) + (fl64 (t - 2 * mPi) - (t - 2 * mPi)) := by
        push_cast; ring
      rw [this]
      refine le_trans (abs_add_le _ _) ?_
      have e6 : (k : ℝ) * ((2 ^ 53)⁻¹ * fl64 (t - 2 * mPi)) ≤ k * ((2 ^ 53)⁻¹ * t) :=
        mul_le_mul_of_nonneg_left (mul_le_mul_of_nonneg_left (by linarith) (by positivity)) (Nat.cast_nonneg k)
      push_cast
      linarith

/-- The two loops are mirror images. -/
private theorem up_some {t r : ℝ} (h : wrapDownF (-t) = some r) : wrapUpF t = some (-r) := by
  have key : ∀ s r, wrapDownF s = some r → wrapUpF (-s) = some (-r) := by
    refine wrapDownF.partial_correctness (fun s r => wrapUpF (-s) = some (-r)) ?_
    intro f ih s r hs
    split at hs
    · rename_i hc
      have := ih _ _ hs
      rw [wrapUpF_lt (by linarith), ← this, two_mPi]
      congr 1
      unfold fl64
      rw [← fl_neg]
      congr 1
      ring
    · rename_i hc
      cases hs
      exact wrapUpF_ge (by linarith)
  have := key _ _ h
  rwa [neg_neg] at this

private theorem down_some {t r : ℝ} (h : wrapUpF t = some r) : wrapDownF (-t) = some (-r) := by
  refine wrapUpF.partial_correctness (fun s r => wrapDownF (-s) = some (-r)) ?_ t r h
  intro f ih s r hs
  split at hs
  · rename_i hc
    have := ih _ _ hs
    rw [wrapDownF_gt (by linarith), ← this, two_mPi]
    congr 1
    unfold fl64
    rw [← fl_neg]
    congr 1
    ring
  · rename_i hc
    cases hs
    exact wrapDownF_le (by linarith)

/-- C121, partial: for every `double` of absolute value at most 2^56, `WrapTheta` ends and returns a `double` in
`[-M_PI, M_PI]`, hence strictly between -π and π, that differs from `theta` by a multiple of `2 * M_PI` up to a relative error
of 2⁻⁵³ for each of the turns. Missing: larger values, for which the loop does not end (`C121_large_angles_hang`). -/
theorem C121_wrap_returns_partial {t : ℝ} (ht : IsFlt 53 t) (hb : |t| ≤ 2 ^ 56) :
    ∃ r, ∃ k : ℤ, wrapThetaF t = some r ∧ IsFlt 53 r ∧ -mPi ≤ r ∧ r ≤ mPi ∧ -Real.pi < r ∧ r < Real.pi ∧
      |r - (t + 2 * k * mPi)| ≤ |(k : ℝ)| * ((2 ^ 53)⁻¹ * |t|) := by
  obtain ⟨b1, b2⟩ := abs_le.1 hb
  have hpi := mPi_lt
  have hpos := mPi_bounds.1
  unfold wrapThetaF
  by_cases h1 : mPi < t
  · obtain ⟨n, hn⟩ := exists_nat_ge (t / 2)
    obtain ⟨r, k, e1, e2, e3, e4, e5⟩ := down n t h1 b2 (by linarith) ht
    refine ⟨r, -k, ?_, e2, e3, e4, by linarith, by linarith, ?_⟩
    · rw [e1, Option.bind_some, wrapUpF_ge e3]
    · push_cast
      rw [abs_neg, Nat.abs_cast, abs_of_pos (by linarith : 0 < t)]
      rw [show t + 2 * -(k : ℝ) * mPi = t - 2 * k * mPi by ring]
      exact e5
  · rw [wrapDownF_le (not_lt.1 h1), Option.bind_some]
    by_cases h2 : t < -mPi
    · obtain ⟨n, hn⟩ := exists_nat_ge (-t / 2)
      obtain ⟨r, k, e1, e2, e3, e4, e5⟩ := down n (-t) (by linarith) (by linarith) (by linarith) (isFlt_neg ht)
      refine ⟨-r, k, up_some e1, isFlt_neg e2, by linarith, by linarith, by linarith, by linarith, ?_⟩
      rw [Int.cast_natCast, Nat.abs_cast, abs_of_neg (by linarith : t < 0)]
      rw [show -r - (t + 2 * (k : ℝ) * mPi) = -(r - (-t - 2 * k * mPi)) by ring, abs_neg]
      exact e5
    · refine ⟨t, 0, wrapUpF_ge (not_lt.1 h2), ht, not_lt.1 h2, not_lt.1 h1, ?_, ?_, by simp⟩
      · have := not_lt.1 h2; linarith
      · have := not_lt.1 h1; linarith

/-- The step of the loop leaves large numbers unchanged. -/
private theorem stuck {t : ℝ} (ht : IsFlt 53 t) (hb : 2 ^ 56 < t) : fl64 (t - 2 * mPi) = t := by
  obtain ⟨h3, h4⟩ := mPi_bounds
  have l1 : (4 : ℤ) ≤ lastBit 53 t := by
    refine le_lastBit ?_
    rw [abs_of_pos (by norm_num at hb; linarith)]
    norm_num at hb ⊢
    linarith
  obtain ⟨m, hm⟩ := isFlt_multiple (by norm_num) ht l1
  -- the next number after 2^56
  have hm' : (2 : ℝ) ^ 56 + 16 ≤ t := by
    have h5 : ((2 ^ 52 : ℤ) : ℝ) < (m : ℝ) := by
      norm_num at hm hb ⊢
      linarith
    have h6 : ((2 ^ 52 + 1 : ℤ) : ℝ) ≤ (m : ℝ) := Int.cast_le.2 (Int.cast_lt.1 h5)
    norm_num at hm h6 ⊢
    linarith
  have x0 : 0 < t - 2 * mPi := by norm_num at hm'; linarith
  have l2 : (4 : ℤ) ≤ lastBit 53 (t - 2 * mPi) := by
    refine le_lastBit ?_
    rw [abs_of_pos x0]
    norm_num at hm' ⊢
    linarith
  obtain ⟨n, hn⟩ := isFlt_multiple (by norm_num) ht (lastBit_mono (p := 53) x0 (by linarith))
  have hp : (0 : ℝ) < 2 ^ lastBit 53 (t - 2 * mPi) := by positivity
  have hz : (2 : ℝ) ^ (4 : ℤ) ≤ 2 ^ lastBit 53 (t - 2 * mPi) := zpow_le_zpow_right₀ (by norm_num) l2
  norm_num at hz
  unfold fl64 fl
  rw [rne_eq (n := n)]
  · exact hn.symm
  · have h5 : (t - 2 * mPi) / 2 ^ lastBit 53 (t - 2 * mPi) - n = -(2 * mPi) / 2 ^ lastBit 53 (t - 2 * mPi) := by
      rw [div_sub' hp.ne']
      congr 1
      linarith
    rw [h5, abs_div, abs_of_pos hp, div_lt_iff₀ hp, abs_neg, abs_of_pos (by linarith)]
    linarith

private theorem down_none {t : ℝ} (ht : IsFlt 53 t) (hb : 2 ^ 56 < t) : wrapDownF t = none := by
  cases h : wrapDownF t with
  | none => rfl
  | some r =>
    exfalso
    refine wrapDownF.partial_correctness (fun s _ => ¬ (IsFlt 53 s ∧ 2 ^ 56 < s)) ?_ t r h ⟨ht, hb⟩
    rintro f ih s r hs ⟨h1, h2⟩
    have h3 : s > mPi := by have := mPi_bounds.2; norm_num at h2; linarith
    rw [if_pos h3, two_mPi, stuck h1 h2] at hs
    exact ih _ _ hs ⟨h1, h2⟩

/-- C121, violation: for every `double` of absolute value above 2^56, `WrapTheta` does not end, hence neither does the
constructor of a pose with this heading. -/
theorem C121_large_angles_hang {t : ℝ} (ht : IsFlt 53 t) (hb : 2 ^ 56 < |t|) : wrapThetaF t = none := by
  unfold wrapThetaF
  rcases lt_abs.1 hb with h | h
  · rw [down_none ht h]; rfl
  · rw [wrapDownF_le (by have := mPi_bounds.1; norm_num at h; linarith), Option.bind_some]
    cases hu : wrapUpF t with
    | none => rfl
    | some r => have := down_some hu; rw [down_none (isFlt_neg ht) h] at this; cases this

private theorem exact_step {t : ℝ} (ht : IsFlt 53 t) (h1 : mPi ≤ t) (h2 : t ≤ 4 * mPi) :
    fl64 (t - 2 * mPi) = t - 2 * mPi :=
  sterbenz (by norm_num) ht (isFlt_two_mul (by norm_num) mPi_flt) (by have := mPi_bounds.1; linarith) (by linarith)
    (by linarith)

private theorem down_exact {t : ℝ} (ht : IsFlt 53 t) (h1 : mPi < t) (h2 : t ≤ 4 * mPi) :
    ∃ k : ℕ, wrapDownF t = some (t - 2 * k * mPi) ∧ -mPi ≤ t - 2 * k * mPi ∧ t - 2 * k * mPi ≤ mPi := by
  have hp := mPi_bounds.1
  have e := exact_step ht h1.le h2
  by_cases h3 : t - 2 * mPi ≤ mPi
  · refine ⟨1, ?_, by push_cast; linarith, by push_cast; linarith⟩
    rw [wrapDownF_gt h1, e, wrapDownF_le h3]
    push_cast; congr 1; ring
  · have h4 := not_le.1 h3
    have hf : IsFlt 53 (t - 2 * mPi) := by rw [← e]; exact isFlt_fl 53 (by norm_num) _
    have e' := exact_step hf h4.le (by linarith)
    refine ⟨2, ?_, by push_cast; linarith, by push_cast; linarith⟩
    rw [wrapDownF_gt h1, e, wrapDownF_gt h4, e', wrapDownF_le (by linarith)]
    push_cast; congr 1; ring

/-- C121. For angles of at most two turns (so for the sum or difference of any two wrapped angles) nothing is lost:
`WrapTheta` returns exactly `theta` plus a multiple of `2 * M_PI`. -/
theorem C121_wrap_exact_near {t : ℝ} (ht : IsFlt 53 t) (hb : |t| ≤ 4 * mPi) :
    ∃ k : ℤ, wrapThetaF t = some (t + 2 * k * mPi) ∧ -mPi ≤ t + 2 * k * mPi ∧ t + 2 * k * mPi ≤ mPi := by
  obtain ⟨b1, b2⟩ := abs_le.1 hb
  unfold wrapThetaF
  by_cases h1 : mPi < t
  · obtain ⟨k, e1, e2, e3⟩ := down_exact ht h1 b2
    refine ⟨-k, ?_, ?_, ?_⟩
    · rw [e1, Option.bind_some, wrapUpF_ge e2]; push_cast; congr 1; ring
    · push_cast; linarith
    · push_cast; linarith
  · rw [wrapDownF_le (not_lt.1 h1), Option.bind_some]
    by_cases h2 : t < -mPi
    · obtain ⟨k, e1, e2, e3⟩ := down_exact (isFlt_neg ht) (by linarith) (by linarith)
      refine ⟨k, ?_, ?_, ?_⟩
      · rw [up_some e1]; push_cast; congr 1; ring
      · push_cast; linarith
      · push_cast; linarith
    · refine ⟨0, ?_, ?_, ?_⟩
      · rw [wrapUpF_ge (not_lt.1 h2)]; push_cast; congr 1; ring
      · push_cast; linarith
      · push_cast; linarith

/-- C121. A wrapped angle is kept by `WrapTheta`: a pose copied through the constructor has the same heading. -/
theorem C121_wrap_idempotent {t r : ℝ} (h : wrapThetaF t = some r) : wrapThetaF r = some r := by
  have hd : ∀ s r, wrapDownF s = some r → r ≤ mPi := by
    refine wrapDownF.partial_correctness (fun _ r => r ≤ mPi) ?_
    intro f ih s r hs
    split at hs
    · exact ih _ _ hs
    · cases hs; linarith
  have hu : ∀ s r, wrapUpF s = some r → s ≤ mPi → -mPi ≤ r ∧ r ≤ mPi := by
    refine wrapUpF.partial_correctness (fun s r => s ≤ mPi → -mPi ≤ r ∧ r ≤ mPi) ?_
    intro f ih s r hs hle
    split at hs
    · rename_i hc
      refine ih _ _ hs ?_
      rw [two_mPi]
      refine le_trans (fl_mono 53 (by norm_num) (?_ : s + 2 * mPi ≤ mPi)) (le_of_eq mPi_flt)
      linarith
    · cases hs; exact ⟨by linarith, hle⟩
  unfold wrapThetaF at h
  cases hdt : wrapDownF t with
  | none => rw [hdt] at h; cases h
  | some s =>
    rw [hdt, Option.bind_some] at h
    obtain ⟨h1, h2⟩ := hu s r h (hd t s hdt)
    unfold wrapThetaF
    rw [wrapDownF_le h2, Option.bind_some, wrapUpF_ge h1]

/-- Concrete cases: 4 is wrapped in one step; a heading of 1000 is a `double` for which the loop ends; for 2^60 it does not. -/
example : wrapThetaF 4 = some (4 - 2 * mPi) ∧ IsFlt 53 1000 ∧ (∃ r, wrapThetaF 1000 = some r) ∧
    IsFlt 53 (2 ^ 60) ∧ wrapThetaF (2 ^ 60) = none := by
  obtain ⟨h3, h4⟩ := mPi_bounds
  have f4 : IsFlt 53 4 := by
    have : fl 53 4 = 4 := by simpa using fl_int (p := 53) (by norm_num) (n := 4) (by norm_num)
    exact this
  have f1000 : IsFlt 53 1000 := by
    have : fl 53 1000 = 1000 := by simpa using fl_int (p := 53) (by norm_num) (n := 1000) (by norm_num)
    exact this
  have fbig : IsFlt 53 (2 ^ 60) := fl_repr (by norm_num) (n := 1) (e := 60) (by norm_num) (by norm_num)
  refine ⟨?_, f1000, ?_, fbig, C121_large_angles_hang fbig (by norm_num)⟩
  · unfold wrapThetaF
    rw [wrapDownF_gt (by linarith), exact_step f4 (by linarith) (by linarith), wrapDownF_le (by linarith), Option.bind_some,
      wrapUpF_ge (by linarith)]
  · obtain ⟨r, _, h, _⟩ := C121_wrap_returns_partial f1000 (by norm_num)
    exact ⟨r, h⟩

end PathPlanning.Flt
