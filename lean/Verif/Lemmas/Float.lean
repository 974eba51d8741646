import Verif.Model.Float
import Mathlib.Tactic.Linarith
import Mathlib.Tactic.Positivity
import Mathlib.Tactic.Ring
import Mathlib.Tactic.FieldSimp
import Mathlib.Tactic.NormNum
import Mathlib.Tactic.Push
import Mathlib.Algebra.Order.Field.Power

/-! # Rounding -/

namespace PathPlanning.Flt

theorem rne_int (n : ℤ) : rne (n : ℝ) = n := by
  unfold rne
  rw [Int.floor_intCast, sub_self, if_pos (by norm_num)]

theorem rne_near (x : ℝ) : |(rne x : ℝ) - x| ≤ 1 / 2 := by
  have h1 := Int.floor_le x
  have h2 := Int.lt_floor_add_one x
  rw [abs_le]
  unfold rne
  split_ifs <;> push_cast <;> constructor <;> linarith

theorem rne_floor (x : ℝ) : rne x = ⌊x⌋ ∨ rne x = ⌊x⌋ + 1 := by
  unfold rne
  split_ifs <;> simp

theorem rne_mono {x y : ℝ} (h : x ≤ y) : rne x ≤ rne y := by
  have hf := Int.floor_mono h
  rcases lt_or_eq_of_le hf with hlt | heq
  · have : ⌊x⌋ + 1 ≤ ⌊y⌋ := hlt
    rcases rne_floor x with a | a <;> rcases rne_floor y with b | b <;> omega
  · unfold rne
    rw [← heq]
    split_ifs <;> first | omega | (exfalso; linarith)

theorem rne_neg (x : ℝ) : rne (-x) = -rne x := by
  by_cases hx : x = ⌊x⌋
  · rw [hx, rne_int, ← Int.cast_neg, rne_int]
  · have h1 := Int.floor_le x
    have h2 := Int.lt_floor_add_one x
    have h3 : (⌊x⌋ : ℝ) < x := lt_of_le_of_ne h1 (Ne.symm hx)
    have h4 : ⌊-x⌋ = -⌊x⌋ - 1 := by
      rw [Int.floor_eq_iff]
      push_cast
      constructor <;> linarith
    unfold rne
    rw [h4]
    push_cast
    have e : Even (-⌊x⌋ - 1) ↔ ¬ Even ⌊x⌋ := by
      constructor
      · rintro ⟨a, ha⟩ ⟨b, hb⟩; omega
      · intro hne
        rcases Int.even_or_odd ⌊x⌋ with h | ⟨a, ha⟩
        · exact absurd h hne
        · exact ⟨-a - 1, by omega⟩
    by_cases a1 : x - ⌊x⌋ < 1 / 2
    · rw [if_neg (by linarith), if_pos (by linarith), if_pos a1]; ring
    · by_cases a2 : 1 / 2 < x - ⌊x⌋
      · rw [if_pos (by linarith), if_neg a1, if_pos a2]; ring
      · rw [if_neg (by linarith), if_neg (by linarith), if_neg a1, if_neg a2]
        by_cases a3 : Even ⌊x⌋
        · rw [if_neg (by rw [e]; exact fun h => h a3), if_pos a3]; ring
        · rw [if_pos (e.2 a3), if_neg a3]; ring

theorem fl_zero (p : ℕ) : fl p 0 = 0 := by
  have : rne 0 = 0 := by have := rne_int 0; simpa using this
  simp [fl, this]

theorem lastBit_neg (p : ℕ) (x : ℝ) : lastBit p (-x) = lastBit p x := by simp [lastBit]

theorem fl_neg (p : ℕ) (x : ℝ) : fl p (-x) = -fl p x := by
  unfold fl
  rw [lastBit_neg, neg_div, rne_neg]
  push_cast
  ring

private theorem two_pos (k : ℤ) : (0 : ℝ) < 2 ^ k := by positivity

/-- A number other than 0 lies between consecutive powers of two. -/
theorem bounds (p : ℕ) {x : ℝ} (hx : x ≠ 0) :
    2 ^ (lastBit p x + (p - 1)) ≤ |x| ∧ |x| < 2 ^ (lastBit p x + p) := by
  have h := abs_pos.2 hx
  have h1 := Int.zpow_log_le_self (b := 2) (r := |x|) (by norm_num) h
  have h2 := Int.lt_zpow_succ_log_self (b := 2) (by norm_num) |x|
  push_cast at h1 h2
  unfold lastBit
  refine ⟨?_, ?_⟩
  · rw [show Int.log 2 |x| - ((p : ℤ) - 1) + (p - 1) = Int.log 2 |x| by ring]; exact h1
  · rw [show Int.log 2 |x| - ((p : ℤ) - 1) + p = Int.log 2 |x| + 1 by ring]; exact h2

theorem lastBit_le {p : ℕ} {x : ℝ} {e : ℤ} (hx : x ≠ 0) (h : |x| < 2 ^ (e + p)) : lastBit p x ≤ e := by
  have h1 := (bounds p hx).1
  have h2 : (2 : ℝ) ^ (lastBit p x + (p - 1)) < 2 ^ (e + p) := lt_of_le_of_lt h1 h
  have := (zpow_lt_zpow_iff_right₀ (by norm_num : (1 : ℝ) < 2)).1 h2
  omega

theorem le_lastBit {p : ℕ} {x : ℝ} {e : ℤ} (h : 2 ^ (e + (p - 1)) ≤ |x|) : e ≤ lastBit p x := by
  have hx : x ≠ 0 := by
    rintro rfl
    rw [abs_zero] at h
    exact absurd h (not_le.2 (two_pos _))
  have h1 := (bounds p hx).2
  have h2 : (2 : ℝ) ^ (e + (p - 1)) < 2 ^ (lastBit p x + p) := lt_of_le_of_lt h h1
  have := (zpow_lt_zpow_iff_right₀ (by norm_num : (1 : ℝ) < 2)).1 h2
  omega

theorem lastBit_mono {p : ℕ} {x y : ℝ} (hx : 0 < x) (h : x ≤ y) : lastBit p x ≤ lastBit p y := by
  unfold lastBit
  rw [abs_of_pos hx, abs_of_pos (lt_of_lt_of_le hx h)]
  have := Int.log_mono_right (b := 2) hx h
  omega

/-- Multiples of the last bit are not changed. -/
theorem fl_of_multiple {p : ℕ} {x : ℝ} {n e : ℤ} (h : x = n * 2 ^ e) (he : lastBit p x ≤ e) : fl p x = x := by
  unfold fl
  obtain ⟨k, hk⟩ := Int.le.dest he
  have h1 : x / 2 ^ lastBit p x = ((n * 2 ^ k : ℤ) : ℝ) := by
    rw [div_eq_iff (two_pos _).ne']
    conv_lhs => rw [h]
    rw [← hk, zpow_add₀ (by norm_num)]
    push_cast
    rw [zpow_natCast]
    ring
  rw [h1, rne_int, ← h1]
  field_simp

/-- A number `n * 2 ^ e` with `|n| ≤ 2 ^ p` is representable. -/
theorem fl_repr {p : ℕ} (hp : 1 ≤ p) {x : ℝ} {n e : ℤ} (h : x = n * 2 ^ e) (hn : |n| ≤ 2 ^ p) : fl p x = x := by
  by_cases h0 : n = 0
  · rw [h, h0]; simp [fl_zero]
  have hx : x ≠ 0 := by
    rw [h]
    exact mul_ne_zero (Int.cast_ne_zero.2 h0) (two_pos _).ne'
  have habs : |x| = |(n : ℝ)| * 2 ^ e := by rw [h, abs_mul, abs_of_pos (two_pos e)]
  rcases lt_or_eq_of_le hn with hlt | heq
  · refine fl_of_multiple h (lastBit_le hx ?_)
    rw [habs, zpow_add₀ (by norm_num), mul_comm]
    refine mul_lt_mul_of_pos_left ?_ (two_pos e)
    have : ((|n| : ℤ) : ℝ) < ((2 ^ p : ℤ) : ℝ) := Int.cast_lt.2 hlt
    rw [zpow_natCast]
    push_cast at this
    exact this
  · -- a power of two
    have hpow : (2 : ℤ) ^ p = 2 * 2 ^ (p - 1) := by
      obtain ⟨q, rfl⟩ : ∃ q, p = q + 1 := ⟨p - 1, by omega⟩
      simp [pow_succ, mul_comm]
    obtain ⟨m, hm⟩ : ∃ m, n = 2 * m := by
      rcases abs_choice n with hc | hc
      · exact ⟨2 ^ (p - 1), by rw [← hc, heq, hpow]⟩
      · exact ⟨-2 ^ (p - 1), by rw [hc] at heq; omega⟩
    have h' : x = m * 2 ^ (e + 1) := by
      rw [h, hm, zpow_add₀ (by norm_num)]
      push_cast
      ring
    refine fl_of_multiple h' (lastBit_le hx ?_)
    rw [habs, zpow_add₀ (by norm_num), zpow_add₀ (by norm_num)]
    have : ((|n| : ℤ) : ℝ) = ((2 ^ p : ℤ) : ℝ) := by rw [heq]
    push_cast at this
    rw [this, zpow_natCast]
    have h3 := two_pos e
    have h4 : (0 : ℝ) < 2 ^ p := by positivity
    nlinarith [mul_pos h3 h4]

theorem fl_int {p : ℕ} (hp : 1 ≤ p) {n : ℤ} (hn : |n| ≤ 2 ^ p) : fl p (n : ℝ) = n :=
  fl_repr hp (n := n) (e := 0) (by simp) hn

/-- Rounding gives multiples of the last bit, of at most `p` bits. -/
theorem fl_form (p : ℕ) (hp : 1 ≤ p) (x : ℝ) : ∃ n : ℤ, fl p x = n * 2 ^ lastBit p x ∧ |n| ≤ 2 ^ p := by
  refine ⟨rne (x / 2 ^ lastBit p x), rfl, ?_⟩
  by_cases hx : x = 0
  · subst hx
    have h0 : rne 0 = 0 := by have := rne_int 0; simpa using this
    rw [zero_div, h0]; simp
  have hb := (bounds p hx).2
  rw [zpow_add₀ (by norm_num)] at hb
  have h1 : |x / 2 ^ lastBit p x| < 2 ^ p := by
    rw [abs_div, abs_of_pos (two_pos _), div_lt_iff₀ (two_pos _), mul_comm]
    rw [zpow_natCast] at hb
    exact hb
  obtain ⟨h2, h3⟩ := abs_lt.1 h1
  have h4 : rne (x / 2 ^ lastBit p x) ≤ rne (((2 ^ p : ℤ)) : ℝ) := rne_mono (by push_cast; exact h3.le)
  have h5 : rne ((-(2 ^ p : ℤ) : ℤ) : ℝ) ≤ rne (x / 2 ^ lastBit p x) := rne_mono (by push_cast; exact h2.le)
  rw [rne_int] at h4 h5
  exact abs_le.2 ⟨h5, h4⟩

theorem fl_fl (p : ℕ) (hp : 1 ≤ p) (x : ℝ) : fl p (fl p x) = fl p x := by
  obtain ⟨n, h1, h2⟩ := fl_form p hp x
  exact fl_repr hp h1 h2

/-- Absolute error. -/
theorem fl_err (p : ℕ) (x : ℝ) : |fl p x - x| ≤ 2 ^ lastBit p x / 2 := by
  have h := rne_near (x / 2 ^ lastBit p x)
  have h2 := two_pos (lastBit p x)
  have : fl p x - x = ((rne (x / 2 ^ lastBit p x) : ℝ) - x / 2 ^ lastBit p x) * 2 ^ lastBit p x := by
    unfold fl; field_simp
  rw [this, abs_mul, abs_of_pos h2]
  nlinarith

/-- Relative error. -/
theorem fl_rel (p : ℕ) (x : ℝ) : |fl p x - x| ≤ (2 ^ p)⁻¹ * |x| := by
  by_cases hx : x = 0
  · subst hx; simp [fl_zero]
  refine le_trans (fl_err p x) ?_
  have h := (bounds p hx).1
  have h1 : (2 : ℝ) ^ (lastBit p x + ((p : ℤ) - 1)) = 2 ^ lastBit p x * 2 ^ p / 2 := by
    rw [zpow_add₀ (by norm_num), zpow_sub₀ (by norm_num), zpow_natCast, zpow_one]
    ring
  rw [h1] at h
  rw [inv_mul_eq_div, le_div_iff₀ (by positivity)]
  linarith

theorem fl_nonneg (p : ℕ) {x : ℝ} (hx : 0 ≤ x) : 0 ≤ fl p x := by
  have h := fl_rel p x
  rw [abs_of_nonneg hx] at h
  have h1 := (abs_le.1 h).1
  have h2 : ((2 : ℝ) ^ p)⁻¹ ≤ 1 := inv_le_one_of_one_le₀ (one_le_pow₀ (by norm_num))
  nlinarith

private theorem fl_mono_pos (p : ℕ) (hp : 1 ≤ p) {x y : ℝ} (hx : 0 < x) (h : x ≤ y) : fl p x ≤ fl p y := by
  have hy : 0 < y := lt_of_lt_of_le hx h
  rcases lt_or_eq_of_le (lastBit_mono (p := p) hx h) with hlt | heq
  · obtain ⟨n, h1, h2⟩ := fl_form p hp x
    have h3 : fl p x ≤ 2 ^ (lastBit p x + p) := by
      rw [h1, zpow_add₀ (by norm_num), mul_comm, zpow_natCast]
      refine mul_le_mul_of_nonneg_left ?_ (two_pos _).le
      have : (n : ℝ) ≤ ((2 ^ p : ℤ) : ℝ) := Int.cast_le.2 (abs_le.1 h2).2
      push_cast at this
      exact this
    have hb := (bounds p hy.ne').1
    rw [abs_of_pos hy] at hb
    have h4 : (2 : ℝ) ^ (lastBit p y + ((p : ℤ) - 1)) ≤ fl p y := by
      unfold fl
      have h5 : rne (((2 ^ (p - 1) : ℤ)) : ℝ) ≤ rne (y / 2 ^ lastBit p y) := by
        refine rne_mono ?_
        rw [le_div_iff₀ (two_pos _)]
        push_cast
        refine le_trans (le_of_eq ?_) hb
        rw [zpow_add₀ (by norm_num), mul_comm, ← zpow_natCast, Nat.cast_sub hp, Nat.cast_one]
      rw [rne_int] at h5
      rw [zpow_add₀ (by norm_num), mul_comm]
      refine mul_le_mul_of_nonneg_right ?_ (two_pos _).le
      have h6 : ((2 ^ (p - 1) : ℤ) : ℝ) ≤ (rne (y / 2 ^ lastBit p y) : ℝ) := Int.cast_le.2 h5
      push_cast at h6
      refine le_trans (le_of_eq ?_) h6
      rw [← zpow_natCast, Nat.cast_sub hp, Nat.cast_one]
    refine le_trans h3 (le_trans ?_ h4)
    exact zpow_le_zpow_right₀ (by norm_num) (by omega)
  · unfold fl
    rw [← heq]
    refine mul_le_mul_of_nonneg_right ?_ (two_pos _).le
    exact Int.cast_le.2 (rne_mono (div_le_div_of_nonneg_right h (two_pos _).le))

theorem fl_mono (p : ℕ) (hp : 1 ≤ p) {x y : ℝ} (h : x ≤ y) : fl p x ≤ fl p y := by
  rcases lt_trichotomy x 0 with hx | hx | hx
  · rcases lt_or_ge y 0 with hy | hy
    · have := fl_mono_pos p hp (x := -y) (y := -x) (by linarith) (by linarith)
      rw [fl_neg, fl_neg] at this
      linarith
    · have h1 := fl_nonneg p hy
      have h2 := fl_nonneg p (x := -x) (by linarith)
      rw [fl_neg] at h2
      linarith
  · subst hx
    rw [fl_zero]
    exact fl_nonneg p h
  · exact fl_mono_pos p hp hx h

theorem rne_eq {x : ℝ} {n : ℤ} (h : |x - n| < 1 / 2) : rne x = n := by
  have h1 := abs_le.1 (rne_near x)
  have h2 := abs_lt.1 h
  have h3 : ((rne x : ℤ) : ℝ) < ((n + 1 : ℤ) : ℝ) := by push_cast; linarith
  have h4 : ((n - 1 : ℤ) : ℝ) < ((rne x : ℤ) : ℝ) := by push_cast; linarith
  have h5 := Int.cast_lt.1 h3
  have h6 := Int.cast_lt.1 h4
  omega

theorem lastBit_eq {p : ℕ} {x : ℝ} {e : ℤ} (h1 : 2 ^ (e + (p - 1)) ≤ |x|) (h2 : |x| < 2 ^ (e + p)) :
    lastBit p x = e := by
  have hx : x ≠ 0 := by
    rintro rfl
    rw [abs_zero] at h1
    exact absurd h1 (not_le.2 (two_pos _))
  exact le_antisymm (lastBit_le hx h2) (le_lastBit h1)

/-- Rounding in a known binade to a number that is nearest. -/
theorem fl_eq {p : ℕ} {x : ℝ} {n e : ℤ} (h1 : 2 ^ (e + (p - 1)) ≤ |x|) (h2 : |x| < 2 ^ (e + p))
    (h3 : |x - n * 2 ^ e| < 2 ^ e / 2) : fl p x = n * 2 ^ e := by
  unfold fl
  rw [lastBit_eq h1 h2]
  have h4 := two_pos e
  rw [rne_eq (n := n)]
  have h5 : x / 2 ^ e - n = (x - n * 2 ^ e) / 2 ^ e := by field_simp
  rw [h5, abs_div, abs_of_pos h4, div_lt_iff₀ h4]
  linarith

/-- Numbers of `p` bits are multiples of their last bit. -/
theorem isFlt_form {p : ℕ} (hp : 1 ≤ p) {x : ℝ} (h : IsFlt p x) : ∃ n : ℤ, x = n * 2 ^ lastBit p x := by
  obtain ⟨n, h1, _⟩ := fl_form p hp x
  exact ⟨n, by rw [← h1]; exact h.symm⟩

theorem isFlt_multiple {p : ℕ} (hp : 1 ≤ p) {x : ℝ} (h : IsFlt p x) {e : ℤ} (he : e ≤ lastBit p x) :
    ∃ n : ℤ, x = n * 2 ^ e := by
  obtain ⟨n, hn⟩ := isFlt_form hp h
  obtain ⟨k, hk⟩ := Int.le.dest he
  refine ⟨n * 2 ^ k, ?_⟩
  conv_lhs => rw [hn]
  rw [← hk, zpow_add₀ (by norm_num), zpow_natCast]
  push_cast
  ring

private theorem sterbenz' {p : ℕ} (hp : 1 ≤ p) {x y : ℝ} (hx : IsFlt p x) (hy : IsFlt p y) (h0 : 0 < y) (h1 : y ≤ x)
    (h2 : x ≤ 2 * y) : fl p (x - y) = x - y := by
  by_cases he : x - y = 0
  · rw [he, fl_zero]
  obtain ⟨a, ha⟩ := isFlt_multiple hp hx (lastBit_mono (p := p) h0 h1)
  obtain ⟨b, hb⟩ := isFlt_form hp hy
  refine fl_of_multiple (n := a - b) (e := lastBit p y) ?_ (lastBit_le he ?_)
  · push_cast
    rw [sub_mul, ← ha, ← hb]
  · have := (bounds p h0.ne').2
    rw [abs_of_pos h0] at this
    rw [abs_of_nonneg (by linarith)]
    linarith

/-- The difference of two numbers within a factor of two of each other is exact. -/
theorem sterbenz {p : ℕ} (hp : 1 ≤ p) {x y : ℝ} (hx : IsFlt p x) (hy : IsFlt p y) (h0 : 0 < y) (h1 : y / 2 ≤ x)
    (h2 : x ≤ 2 * y) : fl p (x - y) = x - y := by
  rcases le_total y x with h | h
  · exact sterbenz' hp hx hy h0 h h2
  · have := sterbenz' hp hy hx (by linarith) h (by linarith)
    rw [show x - y = -(y - x) by ring, fl_neg, this]

theorem isFlt_fl (p : ℕ) (hp : 1 ≤ p) (x : ℝ) : IsFlt p (fl p x) := fl_fl p hp x

theorem isFlt_neg {p : ℕ} {x : ℝ} (h : IsFlt p x) : IsFlt p (-x) := by
  show fl p (-x) = -x
  rw [fl_neg, h]

theorem isFlt_two_mul {p : ℕ} (hp : 1 ≤ p) {x : ℝ} (h : IsFlt p x) : IsFlt p (2 * x) := by
  obtain ⟨n, h1, h2⟩ := fl_form p hp x
  have h3 : x = n * 2 ^ lastBit p x := by rw [← h1]; exact h.symm
  refine fl_repr hp (n := n) (e := lastBit p x + 1) ?_ h2
  conv_lhs => rw [h3]
  rw [zpow_add₀ (by norm_num), zpow_one]
  ring

end PathPlanning.Flt
