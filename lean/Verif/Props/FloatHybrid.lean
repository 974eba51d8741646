import Verif.Model.FloatHybrid
import Verif.Lemmas.Float
import Verif.Props.HybridSampling

/-!
# C130: the samples of the path returned by hybrid A*, with the arithmetic of the program

`h` is the interpolation distance (a `float`), `L` the length of the path.
-/

namespace PathPlanning
open HybridAStar Flt

private theorem unfoldF (h L : ℝ) (it : List ℝ) (length : ℝ) (size : Nat) :
    sampleLoopF h L it length size =
      if length ≤ L then
        match it with
        | [] => none
        | c :: rest =>
          if length ≥ fl64 (fl64 (c * L) - fl32 (h / 2)) ∧ length < fl64 (fl64 (c * L) + fl32 (h / 2)) then
            (sampleLoopF h L rest (fl64 (length + h)) (size + 1)).map fun r => (c :: r.1, size :: r.2)
          else (sampleLoopF h L (c :: rest) (fl64 (length + h)) (size + 1)).map fun r =>
            (fl64 (length / L) :: r.1, r.2)
      else some ([], []) := by
  rw [sampleLoopF.eq_def]
  split
  · split
    · rfl
    · dsimp only
      split
      · cases sampleLoopF h L _ (fl64 (length + h)) (size + 1) <;> rfl
      · cases sampleLoopF h L _ (fl64 (length + h)) (size + 1) <;> rfl
  · rfl

private theorem unfoldE (h L : ℝ) (it : List ℝ) (length : ℝ) (size : Nat) :
    sampleLoop h L it length size =
      if length ≤ L then
        match it with
        | [] => none
        | c :: rest =>
          if length ≥ c * L - h / 2 ∧ length < c * L + h / 2 then
            (sampleLoop h L rest (length + h) (size + 1)).map fun r => (c :: r.1, size :: r.2)
          else (sampleLoop h L (c :: rest) (length + h) (size + 1)).map fun r => (length / L :: r.1, r.2)
      else some ([], []) := by
  rw [sampleLoop.eq_def]
  split
  · split
    · rfl
    · dsimp only
      split
      · cases sampleLoop h L _ (length + h) (size + 1) <;> rfl
      · cases sampleLoop h L _ (length + h) (size + 1) <;> rfl
  · rfl

private theorem h53 : 1 ≤ 53 := by norm_num

/-- Halving a `float` is exact. -/
theorem half_float {h : ℝ} (hf : IsFlt 24 h) : fl32 (h / 2) = h / 2 := by
  obtain ⟨n, h1, h2⟩ := fl_form 24 (by norm_num) h
  have h3 : h = n * 2 ^ lastBit 24 h := by rw [← h1]; exact hf.symm
  refine fl_repr (by norm_num) (n := n) (e := lastBit 24 h - 1) ?_ h2
  conv_lhs => rw [h3]
  rw [zpow_sub₀ (by norm_num), zpow_one]
  ring

/-- The first 2^29 multiples of a `float` are `double`s. -/
theorem float_multiple {h : ℝ} (hf : IsFlt 24 h) {n : Nat} (hn : n ≤ 2 ^ 29) : fl64 ((n : ℝ) * h) = n * h := by
  obtain ⟨m, h1, h2⟩ := fl_form 24 (by norm_num) h
  have h3 : h = m * 2 ^ lastBit 24 h := by rw [← h1]; exact hf.symm
  refine fl_repr h53 (n := n * m) (e := lastBit 24 h) ?_ ?_
  · conv_lhs => rw [h3]
    push_cast
    ring
  · rw [abs_mul, Nat.abs_cast]
    have : ((n : ℤ)) ≤ 2 ^ 29 := by exact_mod_cast hn
    calc (n : ℤ) * |m| ≤ 2 ^ 29 * 2 ^ 24 := mul_le_mul this h2 (abs_nonneg _) (by norm_num)
      _ = 2 ^ 53 := by norm_num

private theorem step_exact {h : ℝ} (hf : IsFlt 24 h) {n : Nat} (hn : n < 2 ^ 29) :
    fl64 ((n : ℝ) * h + h) = ((n + 1 : Nat) : ℝ) * h := by
  rw [← float_multiple hf (n := n + 1) (by omega)]
  congr 1
  push_cast; ring

/-- The rounding errors of the comparisons. -/
noncomputable def slack (h L : ℝ) : ℝ := (L + h) / 2 ^ 51

/-- What the theorems below suppose: the interpolation distance is a positive `float` and the path is not longer than 2^28
of them (the ratios of a longer path would take 2 GB). -/
structure Samplable (h L : ℝ) : Prop where
  float : IsFlt 24 h
  pos : 0 < h
  nonneg : 0 ≤ L
  short : L ≤ 2 ^ 28 * h

private theorem slack_small {h L : ℝ} (s : Samplable h L) : 0 < slack h L ∧ slack h L ≤ h / 2 ^ 20 := by
  have h1 := s.pos
  have h2 := s.nonneg
  have h3 := s.short
  unfold slack
  constructor
  · positivity
  · norm_num at h3 ⊢; linarith

private theorem window {h L : ℝ} (s : Samplable h L) {c : ℝ} (h0 : 0 ≤ c) (h1 : c ≤ 1) :
    |fl64 (fl64 (c * L) - h / 2) - (c * L - h / 2)| ≤ slack h L ∧
    |fl64 (fl64 (c * L) + h / 2) - (c * L + h / 2)| ≤ slack h L := by
  have hp := s.pos
  have hL := s.nonneg
  have hcL : 0 ≤ c * L := mul_nonneg h0 hL
  have hcL' : c * L ≤ L := mul_le_of_le_one_left hL h1
  have e1 := abs_le.1 (fl_rel 53 (c * L))
  rw [abs_of_nonneg hcL] at e1
  have hn : 0 ≤ fl 53 (c * L) := fl_nonneg 53 hcL
  obtain ⟨x, hx⟩ : ∃ x, x = fl 53 (c * L) := ⟨_, rfl⟩
  rw [← hx] at e1 hn
  have hxx : fl64 (c * L) = x := hx.symm
  rw [hxx]
  have e2 := abs_le.1 (fl_rel 53 (x - h / 2))
  have e3 := abs_le.1 (fl_rel 53 (x + h / 2))
  have e4 : |x - h / 2| ≤ x + h / 2 := by rw [abs_le]; constructor <;> linarith
  rw [abs_of_nonneg (by linarith : 0 ≤ x + h / 2)] at e3
  have e5 : ((2 : ℝ) ^ 53)⁻¹ * |x - h / 2| ≤ ((2 : ℝ) ^ 53)⁻¹ * (x + h / 2) :=
    mul_le_mul_of_nonneg_left e4 (by positivity)
  unfold slack
  change |fl 53 _ - _| ≤ _ ∧ |fl 53 _ - _| ≤ _
  obtain ⟨y, hy⟩ : ∃ y, y = fl 53 (x - h / 2) := ⟨_, rfl⟩
  obtain ⟨z, hz⟩ : ∃ z, z = fl 53 (x + h / 2) := ⟨_, rfl⟩
  rw [← hy] at e2 ⊢
  rw [← hz] at e3 ⊢
  obtain ⟨w, hw⟩ : ∃ w, w = |x - h / 2| := ⟨_, rfl⟩
  rw [← hw] at e2 e5
  norm_num at e1 e2 e3 e5 ⊢
  constructor <;> rw [abs_le] <;> constructor <;> linarith

private theorem fl_one : fl 53 1 = 1 := by have := fl_int (p := 53) h53 (n := 1) (by norm_num); simpa using this

/-! ## The same samples as in exact arithmetic -/

private theorem loop_same {h L : ℝ} (s : Samplable h L) : ∀ (fuel : Nat) (it : List ℝ) (n : Nat),
    L < ((n + fuel : Nat) : ℝ) * h → (∀ c ∈ it, 0 ≤ c ∧ c ≤ 1 ∧ IsFlt 53 c) →
    (∀ c ∈ it, ∀ m : Nat, slack h L < |c * L - (m + 1 / 2) * h|) →
    sampleLoopF h L it ((n : ℝ) * h) n =
      (sampleLoop h L it ((n : ℝ) * h) n).map fun r => (r.1.map fl64, r.2) := by
  have hp := s.pos
  obtain ⟨d0, d1⟩ := slack_small s
  intro fuel
  induction fuel with
  | zero =>
    intro it n hf _ _
    rw [Nat.add_zero] at hf
    rw [unfoldF, unfoldE, if_neg (not_le.mpr hf), if_neg (not_le.mpr hf)]
    rfl
  | succ fuel ih =>
    intro it n hf hc hm
    rw [unfoldF, unfoldE]
    by_cases hle : (n : ℝ) * h ≤ L
    · rw [if_pos hle, if_pos hle]
      cases it with
      | nil => rfl
      | cons c rest =>
        dsimp only
        have hn : n < 2 ^ 29 := by
          have h1 : (n : ℝ) * h ≤ 2 ^ 28 * h := le_trans hle s.short
          have h2 : (n : ℝ) ≤ 2 ^ 28 := le_of_mul_le_mul_right h1 hp
          have h3 : n ≤ 2 ^ 28 := by exact_mod_cast h2
          have h4 : (2 : ℕ) ^ 28 < 2 ^ 29 := by norm_num
          omega
        have hf' : L < ((n + 1 + fuel : Nat) : ℝ) * h := by
          rwa [show n + 1 + fuel = n + (fuel + 1) by omega]
        rw [step_exact s.float hn, half_float s.float,
          show (n : ℝ) * h + h = ((n + 1 : Nat) : ℝ) * h by push_cast; ring]
        obtain ⟨c0, c1, c2⟩ := hc c (by simp)
        obtain ⟨w1, w2⟩ := window s c0 c1
        have w1 := abs_le.1 w1
        have w2 := abs_le.1 w2
        have hm1 := hm c (by simp) n
        have hiff : ((n : ℝ) * h ≥ fl64 (fl64 (c * L) - h / 2) ∧ (n : ℝ) * h < fl64 (fl64 (c * L) + h / 2)) ↔
            ((n : ℝ) * h ≥ c * L - h / 2 ∧ (n : ℝ) * h < c * L + h / 2) := by
          refine and_congr ?_ ?_
          · rcases lt_abs.1 hm1 with g | g
            · constructor <;> intro <;> linarith
            · constructor <;> intro <;> linarith
          · cases n with
            | zero =>
              have := mul_nonneg c0 s.nonneg
              simp only [Nat.cast_zero, zero_mul]
              have h9 : h / 2 ^ 20 < h / 2 := by norm_num; linarith
              constructor <;> intro <;> linarith
            | succ n =>
              have hm2 := hm c (by simp) n
              push_cast
              rcases lt_abs.1 hm2 with g | g
              · constructor <;> intro <;> linarith
              · constructor <;> intro <;> linarith
        by_cases hw : (n : ℝ) * h ≥ c * L - h / 2 ∧ (n : ℝ) * h < c * L + h / 2
        · rw [if_pos hw, if_pos (hiff.mpr hw), ih rest (n + 1) hf' (fun x hx => hc x (List.mem_cons_of_mem _ hx))
            (fun x hx => hm x (List.mem_cons_of_mem _ hx))]
          cases sampleLoop h L rest (((n + 1 : Nat) : ℝ) * h) (n + 1) with
          | none => rfl
          | some r => simp [show fl64 c = c from c2]
        · rw [if_neg hw, if_neg (fun g => hw (hiff.mp g)), ih (c :: rest) (n + 1) hf' hc hm]
          cases sampleLoop h L (c :: rest) (((n + 1 : Nat) : ℝ) * h) (n + 1) with
          | none => rfl
          | some r => simp
    · rw [if_neg hle, if_neg hle]; rfl

/-- C130 (partial: no direction switch, nor the end, may be within rounding errors of the middle between two multiples of
the interpolation distance). The program then takes the samples of exact arithmetic, rounded, and passes the same indices to
the smoother. -/
theorem C130_same_samples_partial (h L : ℝ) (s : Samplable h L) (cusps : List ℝ)
    (hc : ∀ c ∈ cusps, 0 ≤ c ∧ c ≤ 1 ∧ IsFlt 53 c)
    (hm : ∀ c, c = 1 ∨ c ∈ cusps → ∀ m : Nat, (L + h) / 2 ^ 51 < |c * L - (m + 1 / 2) * h|) :
    sampleRatiosF h L cusps = (sampleRatios h L cusps).map fun r => (r.1.map fl64, r.2) := by
  obtain ⟨fuel, hf⟩ := exists_nat_gt (L / h)
  rw [div_lt_iff₀ s.pos] at hf
  have hp := s.pos
  obtain ⟨d0, d1⟩ := slack_small s
  have key := loop_same s fuel (cuspRatios cusps) 0 (by simpa using hf) ?_ ?_
  · simpa [sampleRatiosF, sampleRatios] using key
  · intro c h1
    rcases (mem_cuspRatios cusps c).mp h1 with rfl | rfl | h1
    · exact ⟨le_rfl, zero_le_one, fl_zero 53⟩
    · exact ⟨zero_le_one, le_rfl, fl_one⟩
    · exact hc c h1
  · intro c h1 m
    rcases (mem_cuspRatios cusps c).mp h1 with rfl | h1
    · rw [zero_mul, zero_sub, abs_neg, abs_of_pos (by positivity)]
      have h9 : h / 2 ^ 20 < h / 2 := by norm_num; linarith
      have : 0 ≤ (m : ℝ) * h := by positivity
      linarith
    · exact hm c h1 m

/-! ## What holds for all direction switches -/

/-- What the loop appends. -/
private structure SampledF (h L : ℝ) (it : List ℝ) (n : Nat) (ratios : List ℝ) (idx : List Nat) : Prop where
  count : ∀ k, k < ratios.length ↔ ((n + k : Nat) : ℝ) * h ≤ L
  near : ∀ k r, ratios[k]? = some r → |r * L - ((n + k : Nat) : ℝ) * h| ≤ h / 2 + slack h L
  range : ∀ r ∈ ratios, 0 ≤ r ∧ r ≤ 1
  cusp : ∀ i ∈ idx, n ≤ i ∧ ∃ c ∈ it, ratios[i - n]? = some c
  other : ∀ i r, ratios[i]? = some r → n + i ∉ idx → r = fl64 (((n + i : Nat) : ℝ) * h / L)
  sorted : ratios.Pairwise (· < ·)
  above : ∀ p, p * L + h / 4 ≤ (n : ℝ) * h →
    ((∀ c ∈ it, p < c) ∨ ∃ c rest, it = c :: rest ∧ fl64 (fl64 (c * L) + h / 2) ≤ (n : ℝ) * h) →
    ∀ r ∈ ratios, p < r

private theorem sampledF_nil {h L : ℝ} (hp : 0 < h) (it : List ℝ) (n : Nat) (hle : L < (n : ℝ) * h) :
    SampledF h L it n [] [] := by
  refine ⟨fun k => ?_, by simp, by simp, by simp, by simp, by simp, by simp⟩
  have : ((n + k : Nat) : ℝ) * h ≥ (n : ℝ) * h :=
    mul_le_mul_of_nonneg_right (by push_cast; linarith [Nat.cast_nonneg (α := ℝ) k]) hp.le
  simp only [List.length_nil, not_lt_zero, false_iff, not_le]
  linarith

private theorem loopF_spec {h L : ℝ} (s : Samplable h L) : ∀ (fuel : Nat) (it : List ℝ) (n : Nat),
    L < ((n + fuel : Nat) : ℝ) * h → Remaining L ((n : ℝ) * h) it →
    ∃ ratios idx, sampleLoopF h L it ((n : ℝ) * h) n = some (ratios, idx) ∧ SampledF h L it n ratios idx := by
  have hp := s.pos
  have hL := s.nonneg
  obtain ⟨d0, d1⟩ := slack_small s
  obtain ⟨d, hd⟩ : ∃ d, d = slack h L := ⟨_, rfl⟩
  rw [← hd] at d0 d1
  have d2 : d ≤ h / 1000 := le_trans d1 (by norm_num; linarith)
  intro fuel
  induction fuel with
  | zero =>
    intro it n hf _
    rw [Nat.add_zero] at hf
    exact ⟨[], [], by rw [unfoldF, if_neg (not_le.mpr hf)], sampledF_nil hp it n hf⟩
  | succ fuel ih =>
    intro it n hf hr
    by_cases hle : (n : ℝ) * h ≤ L
    · rw [unfoldF, if_pos hle]
      have hn : n < 2 ^ 29 := by
        have h1 : (n : ℝ) * h ≤ 2 ^ 28 * h := le_trans hle s.short
        have h2 : (n : ℝ) ≤ 2 ^ 28 := le_of_mul_le_mul_right h1 hp
        have h3 : n ≤ 2 ^ 28 := by exact_mod_cast h2
        have h4 : (2 : ℕ) ^ 28 < 2 ^ 29 := by norm_num
        omega
      cases it with
      | nil => exact absurd (hr.done rfl) (not_lt.mpr hle)
      | cons c rest =>
        dsimp only
        have hf' : L < ((n + 1 + fuel : Nat) : ℝ) * h := by
          rwa [show n + 1 + fuel = n + (fuel + 1) by omega]
        obtain ⟨c0, c1⟩ := hr.range c (by simp)
        have hsort := List.pairwise_cons.mp hr.sorted
        have hone := hr.last (by simp)
        obtain ⟨w1, w2⟩ := window s c0 c1
        rw [← hd] at w1 w2
        rw [step_exact s.float hn, half_float s.float]
        obtain ⟨lo, hlo⟩ : ∃ lo, lo = fl64 (fl64 (c * L) - h / 2) := ⟨_, rfl⟩
        obtain ⟨hi, hhi⟩ : ∃ hi, hi = fl64 (fl64 (c * L) + h / 2) := ⟨_, rfl⟩
        rw [← hlo] at w1 ⊢
        rw [← hhi] at w2 ⊢
        have w1 := abs_le.1 w1
        have w2 := abs_le.1 w2
        have hnext : ((n + 1 : Nat) : ℝ) * h = (n : ℝ) * h + h := by push_cast; ring
        have hcount : ∀ ratios : List ℝ, (∀ k, k < ratios.length ↔ ((n + 1 + k : Nat) : ℝ) * h ≤ L) →
            ∀ (r : ℝ) k, k < (r :: ratios).length ↔ ((n + k : Nat) : ℝ) * h ≤ L := by
          intro ratios hc r k
          cases k with
          | zero => simpa using hle
          | succ k => simp only [List.length_cons, Nat.add_lt_add_iff_right, hc k]
                      rw [show n + 1 + k = n + (k + 1) by omega]
        by_cases hc : (n : ℝ) * h ≥ lo ∧ (n : ℝ) * h < hi
        · rw [if_pos hc]
          have hrem : Remaining L (((n + 1 : Nat) : ℝ) * h) rest := by
            refine ⟨hsort.2, fun x hx => hr.range x (List.mem_cons_of_mem _ hx), ?_, ?_⟩
            · rintro rfl
              have hc1 : c = 1 := (List.mem_singleton.mp hone).symm
              subst hc1
              rw [hnext]
              linarith
            · intro hne
              rcases List.mem_cons.mp hone with rfl | h1
              · obtain ⟨x, hx⟩ := List.exists_mem_of_ne_nil _ hne
                have := hsort.1 x hx
                have := (hr.range x (List.mem_cons_of_mem _ hx)).2
                linarith
              · exact h1
          obtain ⟨ratios, idx, he, hs⟩ := ih rest (n + 1) hf' hrem
          have habove := hs.above c (by rw [hnext]; linarith [hc.1]) (.inl hsort.1)
          refine ⟨c :: ratios, n :: idx, by rw [he]; rfl, hcount _ hs.count c, ?_, ?_, ?_, ?_, ?_, ?_⟩
          · intro k r hk
            cases k with
            | zero =>
              simp only [List.getElem?_cons_zero, Option.some.injEq] at hk
              subst hk
              rw [Nat.add_zero, ← hd, abs_le]
              constructor <;> linarith [hc.1, hc.2]
            | succ k =>
              rw [List.getElem?_cons_succ] at hk
              have := hs.near k r hk
              rwa [show n + 1 + k = n + (k + 1) by omega] at this
          · intro r hr'
            rcases List.mem_cons.mp hr' with rfl | hr'
            · exact ⟨c0, c1⟩
            · exact hs.range r hr'
          · intro i hi
            rcases List.mem_cons.mp hi with rfl | hi
            · exact ⟨le_rfl, c, by simp, by simp⟩
            · obtain ⟨h1, d, hd, he⟩ := hs.cusp i hi
              refine ⟨by omega, d, List.mem_cons_of_mem _ hd, ?_⟩
              rw [show i - n = (i - (n + 1)) + 1 by omega, List.getElem?_cons_succ]
              exact he
          · intro i r hi hni
            cases i with
            | zero => simp at hni
            | succ i =>
              rw [List.getElem?_cons_succ] at hi
              rw [show n + (i + 1) = n + 1 + i by omega] at hni ⊢
              exact hs.other i r hi (fun h => hni (List.mem_cons_of_mem _ h))
          · exact List.pairwise_cons.mpr ⟨habove, hs.sorted⟩
          · intro p h1 h2 r hr'
            have hpc : p < c := by
              rcases h2 with h2 | ⟨c', rest', h2, h3⟩
              · exact h2 c (by simp)
              · cases h2
                rw [← hhi] at h3
                exact absurd hc.2 (not_lt.mpr h3)
            rcases List.mem_cons.mp hr' with rfl | hr'
            · exact hpc
            · exact lt_trans hpc (habove r hr')
        · rw [if_neg hc]
          have hLp : 0 < L := by
            refine lt_of_le_of_ne hL fun h0 => hc ?_
            have hz : (0 : ℝ) ≤ (n : ℝ) * h := mul_nonneg (Nat.cast_nonneg _) hp.le
            have hz' : (n : ℝ) * h = 0 := le_antisymm (by linarith) hz
            rw [← h0, mul_zero] at w1 w2
            rw [hz']
            constructor <;> linarith
          obtain ⟨q, hq⟩ : ∃ q, q = fl64 ((n : ℝ) * h / L) := ⟨_, rfl⟩
          have hnh : (0 : ℝ) ≤ (n : ℝ) * h := mul_nonneg (Nat.cast_nonneg _) hp.le
          have hq0 : 0 ≤ q := by rw [hq]; exact fl_nonneg _ (div_nonneg hnh hL)
          have hq1 : q ≤ 1 := by
            rw [hq]
            have h2 := fl_mono 53 h53 ((div_le_one hLp).mpr hle)
            rwa [fl_one] at h2
          have hqL : |q * L - (n : ℝ) * h| ≤ d := by
            have h2 := abs_le.1 (fl_rel 53 ((n : ℝ) * h / L))
            rw [abs_of_nonneg (div_nonneg hnh hL), show fl 53 ((n : ℝ) * h / L) = q from hq.symm] at h2
            have h3 : (n : ℝ) * h / L * L = (n : ℝ) * h := div_mul_cancel₀ _ hLp.ne'
            have h4 : q * L - (n : ℝ) * h = (q - (n : ℝ) * h / L) * L := by rw [sub_mul, h3]
            have h5 : |q - (n : ℝ) * h / L| ≤ ((2 : ℝ) ^ 53)⁻¹ * ((n : ℝ) * h / L) := abs_le.2 h2
            rw [h4, abs_mul, abs_of_pos hLp]
            calc |q - (n : ℝ) * h / L| * L ≤ ((2 : ℝ) ^ 53)⁻¹ * ((n : ℝ) * h / L) * L :=
                  mul_le_mul_of_nonneg_right h5 hL
              _ = ((2 : ℝ) ^ 53)⁻¹ * ((n : ℝ) * h) := by rw [mul_assoc, h3]
              _ ≤ d := by
                  rw [hd]; unfold slack; norm_num; linarith
          have hqL := abs_le.1 hqL
          rw [← hq]
          obtain ⟨ratios, idx, he, hs⟩ := ih (c :: rest) (n + 1) hf' ⟨hr.sorted, hr.range, by simp, hr.last⟩
          have habove : ∀ r ∈ ratios, q < r := by
            refine hs.above q (by rw [hnext]; linarith) ?_
            rcases lt_or_ge ((n : ℝ) * h) lo with g | g
            · left
              have hqc : q < c := by
                refine lt_of_mul_lt_mul_right (a := L) ?_ hL
                linarith
              intro x hx
              rcases List.mem_cons.mp hx with rfl | hx
              · exact hqc
              · exact lt_trans hqc (hsort.1 x hx)
            · right
              refine ⟨c, rest, rfl, ?_⟩
              rw [← hhi, hnext]
              have := not_lt.mp fun g' => hc ⟨g, g'⟩
              linarith
          refine ⟨q :: ratios, idx, by rw [he]; rfl, hcount _ hs.count _, ?_, ?_, ?_, ?_, ?_, ?_⟩
          · intro k r hk
            cases k with
            | zero =>
              simp only [List.getElem?_cons_zero, Option.some.injEq] at hk
              subst hk
              rw [Nat.add_zero, ← hd, abs_le]
              constructor <;> linarith
            | succ k =>
              rw [List.getElem?_cons_succ] at hk
              have := hs.near k r hk
              rwa [show n + 1 + k = n + (k + 1) by omega] at this
          · intro r hr'
            rcases List.mem_cons.mp hr' with rfl | hr'
            · exact ⟨hq0, hq1⟩
            · exact hs.range r hr'
          · intro i hi
            obtain ⟨h1, d, hd, he⟩ := hs.cusp i hi
            refine ⟨by omega, d, hd, ?_⟩
            rw [show i - n = (i - (n + 1)) + 1 by omega, List.getElem?_cons_succ]
            exact he
          · intro i r hi hni
            cases i with
            | zero =>
              simp only [List.getElem?_cons_zero, Option.some.injEq] at hi
              rw [← hi, hq]; simp
            | succ i =>
              rw [List.getElem?_cons_succ] at hi
              rw [show n + (i + 1) = n + 1 + i by omega] at hni ⊢
              exact hs.other i r hi hni
          · exact List.pairwise_cons.mpr ⟨habove, hs.sorted⟩
          · intro p h1 h2 r hr'
            have hpq : p < q := by
              refine lt_of_mul_lt_mul_right (a := L) ?_ hL
              linarith
            rcases List.mem_cons.mp hr' with rfl | hr'
            · exact hpq
            · exact lt_trans hpq (habove r hr')
    · exact ⟨[], [], by rw [unfoldF, if_neg hle], sampledF_nil hp it n (not_le.mp hle)⟩

private theorem remaining_startF {h L : ℝ} (cusps : List ℝ) (hc : ∀ c ∈ cusps, 0 ≤ c ∧ c ≤ 1) :
    Remaining L (((0 : Nat) : ℝ) * h) (cuspRatios cusps) := by
  refine ⟨cuspRatios_sorted cusps, fun c h => ?_, fun h => ?_, fun _ => ?_⟩
  · rcases (mem_cuspRatios cusps c).mp h with rfl | rfl | h
    · exact ⟨le_rfl, zero_le_one⟩
    · exact ⟨zero_le_one, le_rfl⟩
    · exact hc c h
  · have := (mem_cuspRatios cusps 0).mpr (.inl rfl)
    rw [h] at this
    simp at this
  · exact (mem_cuspRatios cusps 1).mpr (.inr (.inl rfl))

/-- C130 (partial: as in C57, the end need not be sampled and the spacing may exceed the interpolation distance). The
sampling ends, without reading past the set of direction switches. The first sample is 0 and passed to the smoother as a
direction switch, the samples increase strictly and lie in [0, 1]. There is a sample for each multiple `k h` of the
interpolation distance on the path; it is at most `h / 2` away from it, up to rounding errors. Those passed as direction
switches are, and the others are the rounded `k h / L`. -/
theorem C130_samples_partial (h L : ℝ) (s : Samplable h L) (cusps : List ℝ) (hc : ∀ c ∈ cusps, 0 ≤ c ∧ c ≤ 1) :
    ∃ ratios idx, sampleRatiosF h L cusps = some (ratios, idx) ∧
      ratios[0]? = some 0 ∧ 0 ∈ idx ∧
      (∀ r ∈ ratios, 0 ≤ r ∧ r ≤ 1) ∧ ratios.Pairwise (· < ·) ∧
      (∀ k : Nat, k < ratios.length ↔ (k : ℝ) * h ≤ L) ∧
      (∀ (k : Nat) r, ratios[k]? = some r → |r * L - k * h| ≤ h / 2 + (L + h) / 2 ^ 51) ∧
      (∀ r, ratios[ratios.length - 1]? = some r → L - r * L < 3 * h / 2 + (L + h) / 2 ^ 51) ∧
      (∀ (k : Nat) r, ratios[k]? = some r →
        if k ∈ idx then r = 0 ∨ r = 1 ∨ r ∈ cusps else r = fl64 (k * h / L)) := by
  have hp := s.pos
  obtain ⟨fuel, hf⟩ := exists_nat_gt (L / h)
  rw [div_lt_iff₀ hp] at hf
  have hrem := remaining_startF (h := h) (L := L) cusps hc
  obtain ⟨ratios, idx, he, hs⟩ := loopF_spec s fuel (cuspRatios cusps) 0 (by simpa using hf) hrem
  have he0 : sampleRatiosF h L cusps = some (ratios, idx) := by simpa [sampleRatiosF] using he
  have hcount : ∀ k : Nat, k < ratios.length ↔ (k : ℝ) * h ≤ L := fun k => by simpa using hs.count k
  have hnear : ∀ (k : Nat) r, ratios[k]? = some r → |r * L - k * h| ≤ h / 2 + (L + h) / 2 ^ 51 :=
    fun k r hk => by simpa [slack] using hs.near k r hk
  have hfirst : ratios[0]? = some 0 ∧ 0 ∈ idx := by
    have he' := he
    rw [unfoldF, if_pos (by simpa using s.nonneg)] at he'
    cases hcr : cuspRatios cusps with
    | nil => rw [hcr] at hrem; have := hrem.done rfl; simp at this; linarith [s.nonneg]
    | cons c rest =>
      have hc0 : c = 0 := by
        have h0 := (mem_cuspRatios cusps 0).mpr (.inl rfl)
        rw [hcr] at h0 hrem
        rcases List.mem_cons.mp h0 with h0 | h0
        · exact h0.symm
        · have := (List.pairwise_cons.mp hrem.sorted).1 0 h0
          have := (hrem.range c (by simp)).1
          linarith
      subst hc0
      rw [hcr] at he'
      dsimp only at he'
      have hw := window s (c := 0) le_rfl zero_le_one
      have hsl := slack_small s
      have h9 : h / 2 ^ 20 < h / 2 := by norm_num; linarith
      have w1 := abs_le.1 hw.1
      have w2 := abs_le.1 hw.2
      rw [zero_mul] at w1 w2
      rw [half_float s.float, zero_mul, if_pos ⟨by push_cast; linarith, by push_cast; linarith⟩] at he'
      obtain ⟨r', _, heq⟩ := Option.map_eq_some_iff.mp he'
      simp only [Prod.mk.injEq] at heq
      obtain ⟨rfl, rfl⟩ := heq
      simp
  refine ⟨ratios, idx, he0, hfirst.1, hfirst.2, hs.range, hs.sorted, hcount, hnear, ?_, ?_⟩
  · intro r hr
    have hlen : 0 < ratios.length := (hcount 0).mpr (by simpa using s.nonneg)
    have h1 := abs_le.1 (hnear _ r hr)
    have h2 : ¬ ((ratios.length : Nat) : ℝ) * h ≤ L := fun h => (lt_irrefl _ ((hcount _).mpr h))
    obtain ⟨m, hm⟩ : ∃ m, ratios.length = m + 1 := ⟨ratios.length - 1, by omega⟩
    rw [hm] at h1 h2
    simp only [Nat.add_sub_cancel] at h1
    push_cast at h2
    push Not at h2
    linarith
  · intro k r hk
    split
    · rename_i hi
      obtain ⟨_, c, h1, h2⟩ := hs.cusp k hi
      rw [Nat.sub_zero, hk] at h2
      cases h2
      exact (mem_cuspRatios _ _).mp h1
    · rename_i hi
      have := hs.other k r hk (by simpa using hi)
      simpa using this

/-! ## Violations -/

private theorem missed {h L : ℝ} (s : Samplable h L) (c : ℝ) (rest : List ℝ) : ∀ (fuel n : Nat),
    L < ((n + fuel : Nat) : ℝ) * h → fl64 (fl64 (c * L) + h / 2) ≤ (n : ℝ) * h →
    ∃ ratios, sampleLoopF h L (c :: rest) ((n : ℝ) * h) n = some (ratios, []) := by
  have hp := s.pos
  intro fuel
  induction fuel with
  | zero =>
    intro n hf _
    rw [Nat.add_zero] at hf
    exact ⟨[], by rw [unfoldF, if_neg (not_le.mpr hf)]⟩
  | succ fuel ih =>
    intro n hf hm
    rw [unfoldF]
    by_cases hle : (n : ℝ) * h ≤ L
    · have hn : n < 2 ^ 29 := by
        have h1 : (n : ℝ) * h ≤ 2 ^ 28 * h := le_trans hle s.short
        have h2 : (n : ℝ) ≤ 2 ^ 28 := le_of_mul_le_mul_right h1 hp
        have h3 : n ≤ 2 ^ 28 := by exact_mod_cast h2
        have h4 : (2 : ℕ) ^ 28 < 2 ^ 29 := by norm_num
        omega
      rw [if_pos hle]
      dsimp only
      rw [half_float s.float, if_neg (fun g => absurd g.2 (not_lt.mpr hm)), step_exact s.float hn]
      obtain ⟨r, hr⟩ := ih (n + 1) (by rwa [show n + 1 + fuel = n + (fuel + 1) by omega]) (by push_cast; linarith)
      exact ⟨_, by rw [hr]; rfl⟩
    · exact ⟨[], by rw [if_neg hle]⟩

/-- C130: with direction switches at least an interpolation distance apart, those that are not near the end are sampled and
passed to the smoother (partial: none may be within rounding errors of the middle between two multiples of the
interpolation distance). -/
theorem C130_cusps_partial (h L : ℝ) (s : Samplable h L) (cusps : List ℝ)
    (hc : ∀ c ∈ cusps, 0 ≤ c ∧ c ≤ 1 ∧ IsFlt 53 c)
    (hm : ∀ c, c = 1 ∨ c ∈ cusps → ∀ m : Nat, (L + h) / 2 ^ 51 < |c * L - (m + 1 / 2) * h|)
    (hsp : ∀ a b, (a = 0 ∨ a = 1 ∨ a ∈ cusps) → (b = 0 ∨ b = 1 ∨ b ∈ cusps) → a < b → a * L + h ≤ b * L)
    (ratios : List ℝ) (idx : List Nat) (he : sampleRatiosF h L cusps = some (ratios, idx)) :
    ∀ c ∈ cusps, c * L ≤ L - h / 2 → ∃ i ∈ idx, ratios[i]? = some c := by
  rw [C130_same_samples_partial h L s cusps hc hm] at he
  obtain ⟨r, hr, heq⟩ := Option.map_eq_some_iff.mp he
  cases heq
  intro c h1 h2
  obtain ⟨i, hi, hri⟩ := (C57_cusps_partial h L cusps s.pos s.nonneg (fun c h => ⟨(hc c h).1, (hc c h).2.1⟩) hsp
    r.1 r.2 hr).1 c h1 h2
  exact ⟨i, hi, by rw [List.getElem?_map, hri, Option.map_some, show fl64 c = c from (hc c h1).2.2]⟩

private theorem cuspRatios_eq {l m : List ℝ} (hs : m.Pairwise (· < ·)) (hm : ∀ c, c ∈ m ↔ c = 0 ∨ c = 1 ∨ c ∈ l) :
    cuspRatios l = m := by
  have h1 := cuspRatios_sorted l
  have h2 : (cuspRatios l).Perm m := by
    refine (List.perm_ext_iff_of_nodup (h1.imp ne_of_lt) (hs.imp ne_of_lt)).mpr fun c => ?_
    rw [mem_cuspRatios, hm]
  exact h2.eq_of_pairwise (fun a b _ _ h h' => absurd h (lt_asymm h')) h1 hs

private theorem eighth : Samplable (1 / 8) 1 := by
  refine ⟨?_, by norm_num, by norm_num, by norm_num⟩
  exact fl_repr (by norm_num) (n := 1) (e := -3) (by norm_num) (by norm_num)

private theorem dyadic {x : ℝ} (n e : ℤ) (h : x = n * 2 ^ e) (hn : |n| ≤ 2 ^ 53) : fl64 x = x := fl_repr h53 h hn

/-- 1 / 4 + 2^-55 is in the middle of two `double`s. -/
private theorem tie : fl64 (1 / 4 + 1 / 2 ^ 55) = 1 / 4 := by
  have h1 : lastBit 53 ((1 : ℝ) / 4 + 1 / 2 ^ 55) = -54 := by
    refine lastBit_eq ?_ ?_ <;> rw [abs_of_pos (by positivity)] <;> norm_num
  unfold fl64 fl
  rw [h1]
  have h2 : ((1 : ℝ) / 4 + 1 / 2 ^ 55) / 2 ^ (-54 : ℤ) = ((2 ^ 52 : ℤ) : ℝ) + 1 / 2 := by norm_num
  have h3 : rne (((2 ^ 52 : ℤ) : ℝ) + 1 / 2) = 2 ^ 52 := by
    have h4 : ⌊((2 ^ 52 : ℤ) : ℝ) + 1 / 2⌋ = 2 ^ 52 := by
      rw [Int.floor_intCast_add]; norm_num
    unfold rne
    rw [h4, if_neg (by norm_num), if_neg (by norm_num), if_pos (by decide)]
  rw [h2, h3]
  norm_num

/-- C130 is violated by rounding: for two direction switches that are more than an interpolation distance apart, and far
from both ends, so that exact arithmetic samples them, the program samples neither and passes only the start to the
smoother. The bounds of the interval in which the first one is looked for are rounded so that no multiple of the
interpolation distance lies in it. -/
theorem C130_cusps_missed : ∃ (h L c d : ℝ) (ratios : List ℝ),
    Samplable h L ∧ IsFlt 53 L ∧ IsFlt 53 c ∧ IsFlt 53 d ∧ h ≤ c * L ∧ c * L + h ≤ d * L ∧ d * L + h ≤ L ∧
    (∃ rs idx, sampleRatios h L [c, d] = some (rs, idx) ∧ c ∈ rs ∧ d ∈ rs) ∧
    sampleRatiosF h L [c, d] = some (ratios, [0]) ∧ c ∉ ratios ∧ d ∉ ratios := by
  obtain ⟨c, hc⟩ : ∃ c : ℝ, c = 3 / 16 + 1 / 2 ^ 55 := ⟨_, rfl⟩
  obtain ⟨d, hd⟩ : ∃ d : ℝ, d = 17 / 32 := ⟨_, rfl⟩
  have hcd : 0 < c ∧ 1 / 8 ≤ c ∧ c < 1 / 4 ∧ c + 1 / 8 ≤ d ∧ d + 1 / 8 ≤ 1 := by
    subst hc hd
    norm_num
  obtain ⟨p0, p1, p2, p3, p4⟩ := hcd
  have hcr : cuspRatios [c, d] = [0, c, d, 1] := by
    refine cuspRatios_eq ?_ ?_
    · simp only [List.pairwise_cons, List.mem_cons, List.not_mem_nil, or_false, forall_eq_or_imp, forall_eq,
        List.Pairwise.nil, and_true, IsEmpty.forall_iff, implies_true]
      refine ⟨⟨?_, ?_, ?_⟩, ⟨?_, ?_⟩, ?_⟩ <;> linarith
    · intro x; simp only [List.mem_cons, List.not_mem_nil, or_false]; tauto
  have e1 : sampleRatiosF (1 / 8) 1 [c, d] =
      (sampleLoopF (1 / 8) 1 [c, d, 1] (((1 : Nat) : ℝ) * (1 / 8)) 1).map fun r => (0 :: r.1, 0 :: r.2) := by
    unfold sampleRatiosF
    rw [hcr, unfoldF, if_pos (by norm_num)]
    dsimp only
    rw [half_float eighth.float, zero_mul, show fl64 0 = 0 from fl_zero 53,
      show fl64 ((0 : ℝ) - 1 / 8 / 2) = -(1 / 16) by
        rw [show (0 : ℝ) - 1 / 8 / 2 = -(1 / 16) by norm_num]
        exact dyadic (-1) (-4) (by norm_num) (by norm_num),
      show fl64 ((0 : ℝ) + 1 / 8 / 2) = 1 / 16 by
        rw [show (0 : ℝ) + 1 / 8 / 2 = 1 / 16 by norm_num]
        exact dyadic 1 (-4) (by norm_num) (by norm_num),
      if_pos ⟨by norm_num, by norm_num⟩]
    have := step_exact eighth.float (n := 0) (by norm_num)
    simp only [Nat.cast_zero, zero_mul] at this
    rw [this]
  have hcc : fl64 (c * 1) = c := by
    rw [mul_one]
    exact dyadic (3 * 2 ^ 51 + 1) (-55) (by rw [hc]; norm_num) (by norm_num)
  have hlo : fl64 (c - 1 / 8 / 2) = 1 / 8 + 1 / 2 ^ 55 := by
    rw [show c - 1 / 8 / 2 = 1 / 8 + 1 / 2 ^ 55 by rw [hc]; norm_num]
    exact dyadic (2 ^ 52 + 1) (-55) (by norm_num) (by norm_num)
  have hhi : fl64 (c + 1 / 8 / 2) = 1 / 4 := by
    rw [show c + 1 / 8 / 2 = 1 / 4 + 1 / 2 ^ 55 by rw [hc]; norm_num]
    exact tie
  have e2 : sampleLoopF (1 / 8) 1 [c, d, 1] (((1 : Nat) : ℝ) * (1 / 8)) 1 =
      (sampleLoopF (1 / 8) 1 [c, d, 1] (((2 : Nat) : ℝ) * (1 / 8)) 2).map fun r =>
        (fl64 (((1 : Nat) : ℝ) * (1 / 8) / 1) :: r.1, r.2) := by
    rw [unfoldF, if_pos (by norm_num)]
    dsimp only
    rw [half_float eighth.float, hcc, hlo, if_neg (by norm_num), step_exact eighth.float (n := 1) (by norm_num)]
  obtain ⟨r, hr⟩ := missed eighth c [d, 1] 7 2 (by norm_num) (by rw [hcc, hhi]; norm_num)
  rw [hr] at e2
  rw [e2] at e1
  obtain ⟨ratios, hratios⟩ : ∃ l, l = 0 :: fl64 (((1 : Nat) : ℝ) * (1 / 8) / 1) :: r := ⟨_, rfl⟩
  have e3 : sampleRatiosF (1 / 8) 1 [c, d] = some (ratios, [0]) := by rw [e1, hratios]; rfl
  have hno : ∀ x ∈ ratios, ∃ k : Nat, x = k / 8 := by
    obtain ⟨rs, idx, g1, g2, _, _, _, g3, _, _, g4⟩ := C130_samples_partial (1 / 8) 1 eighth [c, d] (by
      intro x hx
      simp only [List.mem_cons, List.not_mem_nil, or_false] at hx
      rcases hx with rfl | rfl <;> constructor <;> linarith)
    rw [e3] at g1
    cases g1
    intro x hx
    obtain ⟨k, hk, rfl⟩ := List.mem_iff_getElem.mp hx
    have hk' := g4 k _ (List.getElem?_eq_getElem hk)
    by_cases h0 : k = 0
    · subst h0
      rw [List.getElem?_eq_getElem hk] at g2
      exact ⟨0, by simpa using g2⟩
    · rw [if_neg (by simpa using h0)] at hk'
      have h9 := (g3 k).mp hk
      have h10 : (k : ℝ) ≤ 8 := by linarith
      have h11 : k ≤ 8 := by exact_mod_cast h10
      refine ⟨k, ?_⟩
      rw [hk', div_one, float_multiple eighth.float (by omega)]
      ring
  refine ⟨1 / 8, 1, c, d, ratios, eighth, fl_one, by rw [IsFlt]; rw [mul_one] at hcc; exact hcc, ?_, by linarith,
    by linarith, by linarith, ?_, e3, ?_, ?_⟩
  · exact dyadic 17 (-5) (by rw [hd]; norm_num) (by norm_num)
  · have hr01 : ∀ x ∈ [c, d], 0 ≤ x ∧ x ≤ 1 := by
      intro x hx
      simp only [List.mem_cons, List.not_mem_nil, or_false] at hx
      rcases hx with rfl | rfl <;> constructor <;> linarith
    obtain ⟨rs, idx, g1, -⟩ := C57_samples_partial (1 / 8 : ℝ) 1 [c, d] (by norm_num) (by norm_num) hr01
    have g2 := (C57_cusps_partial (1 / 8 : ℝ) 1 [c, d] (by norm_num) (by norm_num) hr01 (by
      intro a b ha hb hab
      simp only [List.mem_cons, List.not_mem_nil, or_false] at ha hb
      rcases ha with rfl | rfl | rfl | rfl <;> rcases hb with rfl | rfl | rfl | rfl <;> linarith) rs idx g1).1
    obtain ⟨i, _, hi⟩ := g2 c (by simp) (by linarith)
    obtain ⟨j, _, hj⟩ := g2 d (by simp) (by linarith)
    exact ⟨rs, idx, g1, List.mem_of_getElem? hi, List.mem_of_getElem? hj⟩
  · intro hx
    obtain ⟨k, hk⟩ := hno _ hx
    have h1 : (1 : ℝ) < k := by rw [hc] at hk; norm_num at hk; linarith
    have h2 : (k : ℝ) < 2 := by rw [hc] at hk; norm_num at hk; linarith
    have h1 : 1 < k := by exact_mod_cast h1
    have h2 : k < 2 := by exact_mod_cast h2
    omega
  · intro hx
    obtain ⟨k, hk⟩ := hno _ hx
    have h1 : (4 : ℝ) < k := by rw [hd] at hk; linarith
    have h2 : (k : ℝ) < 5 := by rw [hd] at hk; linarith
    have h1 : 4 < k := by exact_mod_cast h1
    have h2 : k < 5 := by exact_mod_cast h2
    omega

/-- C130: the sampling of a path of at least 2^54 interpolation distances does not end, or reads past the set of direction
switches: from some length on, adding the interpolation distance changes nothing. -/
theorem C130_long_path_undefined (h L : ℝ) (hp : 0 < h) (hL : 2 ^ 54 * h ≤ L) (cusps : List ℝ) :
    sampleRatiosF h L cusps = none := by
  -- the next power of two from 2^53 `h` on
  obtain ⟨t, ht1, ht2⟩ : ∃ t : ℤ, (2 : ℝ) ^ t ≤ 2 * h ∧ h < 2 ^ t := by
    have hb := bounds 53 hp.ne'
    rw [abs_of_pos hp] at hb
    refine ⟨lastBit 53 h + 53, ?_, by exact_mod_cast hb.2⟩
    have h1 := hb.1
    have h2 : (2 : ℝ) ^ (lastBit 53 h + 53) = 2 * 2 ^ (lastBit 53 h + ((53 : ℕ) - 1 : ℤ)) := by
      rw [← zpow_one_add₀ (by norm_num)]; congr 1; push_cast; ring
    rw [h2]
    linarith
  have hpow : (2 : ℝ) ^ (t + 53) = 2 ^ t * 2 ^ 53 := by
    rw [zpow_add₀ (by norm_num)]; norm_cast
  have hBL : (2 : ℝ) ^ (t + 53) ≤ L := by
    rw [hpow]; norm_num at hL ⊢; linarith
  have hstay : fl64 ((2 : ℝ) ^ (t + 53) + h) = 2 ^ (t + 53) := by
    have htp : (0 : ℝ) < 2 ^ t := by positivity
    have e1 : (2 : ℝ) ^ (t + 53) = ((2 ^ 52 : ℤ) : ℝ) * 2 ^ (t + 1) := by
      rw [hpow, zpow_add₀ (by norm_num), zpow_one]; push_cast; ring
    conv_rhs => rw [e1]
    refine fl_eq ?_ ?_ ?_
    · rw [abs_of_pos (by positivity), show t + 1 + ((53 : ℕ) - 1 : ℤ) = t + 53 by push_cast; ring]
      linarith
    · rw [abs_of_pos (by positivity), show t + 1 + ((53 : ℕ) : ℤ) = t + 54 by push_cast; ring,
        show (2 : ℝ) ^ (t + 54) = 2 ^ t * 2 ^ 54 by rw [zpow_add₀ (by norm_num)]; norm_cast, hpow]
      norm_num
      linarith
    · rw [← e1, add_sub_cancel_left, abs_of_pos hp, zpow_add₀ (by norm_num), zpow_one]
      linarith
  have key : ∀ it length size r, sampleLoopF h L it length size = some r → length ≤ 2 ^ (t + 53) → False := by
    refine sampleLoopF.partial_correctness h L (fun _ length _ _ => length ≤ 2 ^ (t + 53) → False) ?_
    intro f hf it length size r hr hle
    have hnext : fl64 (length + h) ≤ 2 ^ (t + 53) := by
      rw [← hstay]; exact fl_mono 53 h53 (by linarith)
    rw [if_pos (le_trans hle hBL)] at hr
    cases it with
    | nil => cases hr
    | cons c rest =>
      dsimp only at hr
      split at hr
      · obtain ⟨x, hx, -⟩ := Option.bind_eq_some_iff.mp hr
        exact hf _ _ _ _ hx hnext
      · obtain ⟨x, hx, -⟩ := Option.bind_eq_some_iff.mp hr
        exact hf _ _ _ _ hx hnext
  cases he : sampleRatiosF h L cusps with
  | none => rfl
  | some r => exact (key _ _ _ _ he (by positivity)).elim

/-! ## Instances -/

/-- The default interpolation distance 0.1f. -/
private theorem tenth : Samplable (13421773 / 2 ^ 27) 25 := by
  refine ⟨?_, by norm_num, by norm_num, by norm_num⟩
  exact fl_repr (by norm_num) (n := 13421773) (e := -27) (by norm_num) (by norm_num)

example : ∃ ratios idx, sampleRatiosF (13421773 / 2 ^ 27) 25 [1 / 2, 3 / 4] = some (ratios, idx) ∧
    249 < ratios.length ∧ ratios.Pairwise (· < ·) := by
  obtain ⟨r, i, h1, _, _, _, h2, h3, _⟩ := C130_samples_partial _ _ tenth [1 / 2, 3 / 4] (by
    intro x hx
    simp only [List.mem_cons, List.not_mem_nil, or_false] at hx
    rcases hx with rfl | rfl <;> norm_num)
  exact ⟨r, i, h1, (h3 249).mpr (by norm_num), h2⟩

/-- A direction switch in the middle of a path of length 1 that is sampled every 1 / 8. -/
example : sampleRatiosF (1 / 8) 1 [1 / 2] = (sampleRatios (1 / 8) 1 [1 / 2]).map fun r => (r.1.map fl64, r.2) := by
  refine C130_same_samples_partial _ _ eighth _ ?_ ?_
  · intro c hc
    rw [List.mem_singleton] at hc
    subst hc
    exact ⟨by norm_num, by norm_num, dyadic 1 (-1) (by norm_num) (by norm_num)⟩
  · intro c hc m
    have hint : ∀ z : ℤ, z ≠ 0 → (1 : ℝ) ≤ |(z : ℝ)| := fun z hz => by exact_mod_cast Int.one_le_abs hz
    rcases hc with rfl | hc
    · have e : (1 : ℝ) * 1 - (m + 1 / 2) * (1 / 8) = ((15 - 2 * m : ℤ) : ℝ) / 16 := by push_cast; ring
      rw [e, abs_div, show |(16 : ℝ)| = 16 by norm_num]
      have := hint (15 - 2 * m) (by omega)
      norm_num
      norm_num at this
      linarith
    · rw [List.mem_singleton] at hc
      subst hc
      have e : (1 / 2 : ℝ) * 1 - (m + 1 / 2) * (1 / 8) = ((7 - 2 * m : ℤ) : ℝ) / 16 := by push_cast; ring
      rw [e, abs_div, show |(16 : ℝ)| = 16 by norm_num]
      have := hint (7 - 2 * m) (by omega)
      norm_num
      norm_num at this
      linarith

example : sampleRatiosF (13421773 / 2 ^ 27) (2 ^ 54) [] = none :=
  C130_long_path_undefined _ _ (by norm_num) (by norm_num) _

end PathPlanning
