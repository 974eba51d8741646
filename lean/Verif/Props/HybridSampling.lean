import Verif.Model.HybridAStar
import Mathlib.Algebra.Order.Archimedean.Basic
import Mathlib.Algebra.Order.Ring.Rat

/-!
# C57: the samples of the path returned by hybrid A*

`h` is the interpolation distance, `L` the length of the path. The theorems hold in every Archimedean
ordered field, so for real and for rational numbers.
-/

namespace PathPlanning
open HybridAStar

variable {K : Type} [LinearOrder K] [Field K]

theorem mem_cuspRatios (cusps : List K) (c : K) : c ∈ cuspRatios cusps ↔ c = 0 ∨ c = 1 ∨ c ∈ cusps := by
  unfold cuspRatios
  rw [List.mem_insertionSort, List.mem_dedup, List.mem_cons, List.mem_cons]

theorem cuspRatios_sorted (cusps : List K) : (cuspRatios cusps).Pairwise (· < ·) := by
  unfold cuspRatios
  have h1 := List.pairwise_insertionSort (α := K) (· ≤ ·) (0 :: 1 :: cusps).dedup
  have h2 : ((0 :: 1 :: cusps).dedup.insertionSort (α := K) (· ≤ ·)).Nodup :=
    (List.perm_insertionSort _ _).nodup_iff.mpr (List.nodup_dedup _)
  exact (h1.and h2).imp fun ⟨a, b⟩ => lt_of_le_of_ne a b

/-- What is left of the cusp ratios at some point of the loop. -/
structure Remaining (L : K) (length : K) (it : List K) : Prop where
  sorted : it.Pairwise (· < ·)
  range : ∀ c ∈ it, 0 ≤ c ∧ c ≤ 1
  done : it = [] → L < length
  last : it ≠ [] → (1 : K) ∈ it

variable [IsStrictOrderedRing K]

private theorem step_eq (h : K) (n : Nat) : (n : K) * h + h = ((n + 1 : Nat) : K) * h := by
  push_cast; ring

private theorem Remaining.next {L h : K} {n : Nat} {c : K} {rest : List K}
    (r : Remaining L ((n : K) * h) (c :: rest)) (hh : 0 < h) (hc : (n : K) * h ≥ c * L - h / 2) :
    Remaining L (((n + 1 : Nat) : K) * h) rest := by
  have hs := List.pairwise_cons.mp r.sorted
  have h1 := r.last (by simp)
  refine ⟨hs.2, fun d hd => r.range d (List.mem_cons_of_mem _ hd), ?_, ?_⟩
  · rintro rfl
    have hc1 : c = 1 := (List.mem_singleton.mp h1).symm
    subst hc1
    push_cast
    linarith
  · intro hne
    rcases List.mem_cons.mp h1 with rfl | h1
    · obtain ⟨d, hd⟩ := List.exists_mem_of_ne_nil _ hne
      have := hs.1 d hd
      have := (r.range d (List.mem_cons_of_mem _ hd)).2
      linarith
    · exact h1

private theorem Remaining.same {L h : K} {n : Nat} {c : K} {rest : List K}
    (r : Remaining L ((n : K) * h) (c :: rest)) :
    Remaining L (((n + 1 : Nat) : K) * h) (c :: rest) :=
  ⟨r.sorted, r.range, by simp, r.last⟩

/-- What the loop appends. -/
structure Sampled (h L : K) (it : List K) (n : Nat) (ratios : List K) (idx : List Nat) : Prop where
  count : ∀ k, k < ratios.length ↔ ((n + k : Nat) : K) * h ≤ L
  near : ∀ k r, ratios[k]? = some r →
    ((n + k : Nat) : K) * h - h / 2 < r * L ∧ r * L ≤ ((n + k : Nat) : K) * h + h / 2
  range : ∀ r ∈ ratios, 0 ≤ r ∧ r ≤ 1
  cusp : ∀ i ∈ idx, n ≤ i ∧ ∃ c ∈ it, ratios[i - n]? = some c
  idxSorted : idx.Pairwise (· < ·)

theorem sampleLoop_spec {h L : K} (hh : 0 < h) (hL : 0 ≤ L) : ∀ (fuel : Nat) (it : List K) (n : Nat),
    L < ((n + fuel : Nat) : K) * h → Remaining L ((n : K) * h) it →
    ∃ ratios idx, sampleLoop h L it ((n : K) * h) n = some (ratios, idx) ∧ Sampled h L it n ratios idx := by
  intro fuel
  induction fuel with
  | zero =>
    intro it n hf _
    rw [Nat.add_zero] at hf
    refine ⟨[], [], ?_, ⟨fun k => ?_, by simp, by simp, by simp, by simp⟩⟩
    · rw [sampleLoop.eq_def, if_neg (not_le.mpr hf)]
    · have : ((n + k : Nat) : K) * h ≥ (n : K) * h :=
        mul_le_mul_of_nonneg_right (by push_cast; linarith [Nat.cast_nonneg (α := K) k]) hh.le
      simp only [List.length_nil, not_lt_zero, false_iff, not_le]
      linarith
  | succ fuel ih =>
    intro it n hf hr
    by_cases hle : (n : K) * h ≤ L
    · rw [sampleLoop.eq_def, if_pos hle]
      cases it with
      | nil => exact absurd (hr.done rfl) (not_lt.mpr hle)
      | cons c rest =>
        dsimp only
        have hf' : L < ((n + 1 + fuel : Nat) : K) * h := by
          rwa [show n + 1 + fuel = n + (fuel + 1) by omega]
        have hcount : ∀ ratios : List K, (∀ k, k < ratios.length ↔ ((n + 1 + k : Nat) : K) * h ≤ L) →
            ∀ (r : K) k, k < (r :: ratios).length ↔ ((n + k : Nat) : K) * h ≤ L := by
          intro ratios hc r k
          cases k with
          | zero => simpa using hle
          | succ k => simp only [List.length_cons, Nat.add_lt_add_iff_right, hc k]
                      rw [show n + 1 + k = n + (k + 1) by omega]
        by_cases hc : (n : K) * h ≥ c * L - h / 2 ∧ (n : K) * h < c * L + h / 2
        · rw [if_pos hc, step_eq]
          obtain ⟨ratios, idx, he, hs⟩ := ih rest (n + 1) hf' (hr.next hh hc.1)
          refine ⟨c :: ratios, n :: idx, by rw [he]; rfl, hcount _ hs.count c, ?_, ?_, ?_, ?_⟩
          · intro k r hk
            cases k with
            | zero =>
              simp only [List.getElem?_cons_zero, Option.some.injEq] at hk
              subst hk
              exact ⟨by simp only [Nat.add_zero]; linarith [hc.2], by simp only [Nat.add_zero]; linarith [hc.1]⟩
            | succ k =>
              rw [List.getElem?_cons_succ] at hk
              have := hs.near k r hk
              rwa [show n + 1 + k = n + (k + 1) by omega] at this
          · intro r hr'
            rcases List.mem_cons.mp hr' with rfl | hr'
            · exact hr.range _ (by simp)
            · exact hs.range r hr'
          · intro i hi
            rcases List.mem_cons.mp hi with rfl | hi
            · exact ⟨le_rfl, c, by simp, by simp⟩
            · obtain ⟨h1, d, hd, he⟩ := hs.cusp i hi
              refine ⟨by omega, d, List.mem_cons_of_mem _ hd, ?_⟩
              rw [show i - n = (i - (n + 1)) + 1 by omega, List.getElem?_cons_succ]
              exact he
          · exact List.pairwise_cons.mpr ⟨fun i hi => by have := (hs.cusp i hi).1; omega, hs.idxSorted⟩
        · rw [if_neg hc, step_eq]
          have hL0 : L ≠ 0 := by
            rintro rfl
            have h0 : (0 : K) ≤ (n : K) * h := mul_nonneg (Nat.cast_nonneg _) hh.le
            have : (n : K) * h = 0 := le_antisymm hle h0
            exact hc ⟨by rw [this]; linarith, by rw [this]; linarith⟩
          have hLp : 0 < L := lt_of_le_of_ne hL (Ne.symm hL0)
          obtain ⟨ratios, idx, he, hs⟩ := ih (c :: rest) (n + 1) hf' hr.same
          refine ⟨_ :: ratios, idx, by rw [he]; rfl, hcount _ hs.count _, ?_, ?_, ?_, hs.idxSorted⟩
          · intro k r hk
            cases k with
            | zero =>
              simp only [List.getElem?_cons_zero, Option.some.injEq] at hk
              subst hk
              rw [div_mul_cancel₀ _ hL0]
              simp only [Nat.add_zero]
              exact ⟨by linarith, by linarith⟩
            | succ k =>
              rw [List.getElem?_cons_succ] at hk
              have := hs.near k r hk
              rwa [show n + 1 + k = n + (k + 1) by omega] at this
          · intro r hr'
            rcases List.mem_cons.mp hr' with rfl | hr'
            · exact ⟨div_nonneg (mul_nonneg (Nat.cast_nonneg _) hh.le) hL, (div_le_one hLp).mpr hle⟩
            · exact hs.range r hr'
          · intro i hi
            obtain ⟨h1, d, hd, he⟩ := hs.cusp i hi
            refine ⟨by omega, d, hd, ?_⟩
            rw [show i - n = (i - (n + 1)) + 1 by omega, List.getElem?_cons_succ]
            exact he
    · refine ⟨[], [], by rw [sampleLoop.eq_def, if_neg hle], ⟨fun k => ?_, by simp, by simp, by simp, by simp⟩⟩
      have : ((n + k : Nat) : K) * h ≥ (n : K) * h :=
        mul_le_mul_of_nonneg_right (by push_cast; linarith [Nat.cast_nonneg (α := K) k]) hh.le
      push Not at hle
      simp only [List.length_nil, not_lt_zero, false_iff, not_le]
      linarith

/-- The cusp ratios that are at least `h` apart are all sampled, if the loop gets that far. -/
theorem sampleLoop_cusps {h L : K} (hh : 0 < h) : ∀ (fuel : Nat) (it : List K) (n : Nat)
    (ratios : List K) (idx : List Nat),
    L < ((n + fuel : Nat) : K) * h →
    it.Pairwise (fun a b => a * L + h ≤ b * L) → (∀ c ∈ it, (n : K) * h < c * L + h / 2) →
    sampleLoop h L it ((n : K) * h) n = some (ratios, idx) →
    ∀ c ∈ it, (∃ m : Nat, c * L - h / 2 ≤ (m : K) * h ∧ (m : K) * h < c * L + h / 2 ∧ (m : K) * h ≤ L) →
      ∃ i ∈ idx, ratios[i - n]? = some c ∧ n ≤ i := by
  intro fuel
  induction fuel with
  | zero =>
    rintro it n ratios idx hf _ hj he c hc ⟨m, h1, h2, h3⟩
    exfalso
    have h4 : (m : K) < n := by
      have hf : L < (n : K) * h := hf
      exact lt_of_mul_lt_mul_right (lt_of_le_of_lt h3 hf) hh.le
    have h5 : m + 1 ≤ n := by exact_mod_cast h4
    have h6 : ((m + 1 : Nat) : K) * h ≤ (n : K) * h :=
      mul_le_mul_of_nonneg_right (by exact_mod_cast h5) hh.le
    push_cast at h6
    linarith [hj c hc]
  | succ fuel ih =>
    rintro it n ratios idx hf hsp hj he c hc ⟨m, h1, h2, h3⟩
    by_cases hle : (n : K) * h ≤ L
    · rw [sampleLoop.eq_def, if_pos hle] at he
      cases it with
      | nil => simp at hc
      | cons d rest =>
        dsimp only at he
        have hsp' := List.pairwise_cons.mp hsp
        have hf' : L < ((n + 1 + fuel : Nat) : K) * h := by
          rwa [show n + 1 + fuel = n + (fuel + 1) by omega]
        by_cases hd : (n : K) * h ≥ d * L - h / 2 ∧ (n : K) * h < d * L + h / 2
        · rw [if_pos hd, step_eq] at he
          simp only [Option.bind_eq_bind, Option.bind_eq_some_iff] at he
          obtain ⟨⟨ratios', idx'⟩, he, heq⟩ := he
          simp only [Option.some.injEq, Prod.mk.injEq] at heq
          obtain ⟨rfl, rfl⟩ := heq
          rcases List.mem_cons.mp hc with rfl | hc
          · exact ⟨n, by simp, by simp, le_rfl⟩
          · obtain ⟨i, hi, h5, h6⟩ := ih rest (n + 1) ratios' idx' hf' hsp'.2
              (fun b hb => by
                have := hsp'.1 b hb
                push_cast
                linarith [hd.2]) he c hc ⟨m, h1, h2, h3⟩
            refine ⟨i, List.mem_cons_of_mem _ hi, ?_, by omega⟩
            rw [show i - n = (i - (n + 1)) + 1 by omega, List.getElem?_cons_succ]
            exact h5
        · rw [if_neg hd, step_eq] at he
          simp only [Option.bind_eq_bind, Option.bind_eq_some_iff] at he
          obtain ⟨⟨ratios', idx'⟩, he, heq⟩ := he
          simp only [Option.some.injEq, Prod.mk.injEq] at heq
          obtain ⟨rfl, rfl⟩ := heq
          have hd' : (n : K) * h < d * L - h / 2 := by
            by_contra hcon
            push Not at hcon
            exact hd ⟨hcon, hj d (by simp)⟩
          obtain ⟨i, hi, h5, h6⟩ := ih (d :: rest) (n + 1) ratios' idx' hf' hsp
            (fun b hb => by
              push_cast
              rcases List.mem_cons.mp hb with rfl | hb
              · linarith
              · have := hsp'.1 b hb
                linarith) he c hc ⟨m, h1, h2, h3⟩
          refine ⟨i, hi, ?_, by omega⟩
          rw [show i - n = (i - (n + 1)) + 1 by omega, List.getElem?_cons_succ]
          exact h5
    · exfalso
      have h4 : (m : K) < n := lt_of_mul_lt_mul_right (lt_of_le_of_lt h3 (not_le.mp hle)) hh.le
      have h5 : m + 1 ≤ n := by exact_mod_cast h4
      have h6 : ((m + 1 : Nat) : K) * h ≤ (n : K) * h :=
        mul_le_mul_of_nonneg_right (by exact_mod_cast h5) hh.le
      push_cast at h6
      linarith [hj c hc]

variable [Archimedean K]

private theorem fuel_exists {h : K} (hh : 0 < h) (L : K) : ∃ fuel : Nat, L < (fuel : K) * h := by
  obtain ⟨n, hn⟩ := exists_nat_gt (L / h)
  exact ⟨n, by rwa [div_lt_iff₀ hh] at hn⟩

private theorem remaining_start {h L : K} (cusps : List K) (hc : ∀ c ∈ cusps, 0 ≤ c ∧ c ≤ 1) :
    Remaining L (((0 : Nat) : K) * h) (cuspRatios cusps) := by
  refine ⟨cuspRatios_sorted cusps, fun c h => ?_, fun h => ?_, fun _ => ?_⟩
  · rcases (mem_cuspRatios cusps c).mp h with rfl | rfl | h
    · exact ⟨le_rfl, zero_le_one⟩
    · exact ⟨zero_le_one, le_rfl⟩
    · exact hc c h
  · have := (mem_cuspRatios cusps 0).mpr (.inl rfl)
    rw [h] at this
    simp at this
  · exact (mem_cuspRatios cusps 1).mpr (.inr (.inl rfl))

/-- C57 (partial: the last sample and the spacing are weaker than stated). For every length, positive
interpolation distance and set of cusps, the sampling ends and never reads past the set of cusps. The
first sample is 0 and is recorded as a cusp, the samples increase and lie in [0, 1], the `k`-th is within
half an interpolation distance of the distance `k h`, two neighbours are less than twice the interpolation
distance apart, and less than 3/2 of it is left after the last. -/
theorem C57_samples_partial (h L : K) (cusps : List K) (hh : 0 < h) (hL : 0 ≤ L)
    (hc : ∀ c ∈ cusps, 0 ≤ c ∧ c ≤ 1) :
    ∃ ratios idx, sampleRatios h L cusps = some (ratios, idx) ∧
      ratios[0]? = some 0 ∧ 0 ∈ idx ∧
      (∀ r ∈ ratios, 0 ≤ r ∧ r ≤ 1) ∧
      (∀ (k : Nat) r, ratios[k]? = some r → (k : K) * h - h / 2 < r * L ∧ r * L ≤ (k : K) * h + h / 2) ∧
      (∀ k r s, ratios[k]? = some r → ratios[k + 1]? = some s → r < s ∧ s * L - r * L < 2 * h) ∧
      (∀ r, ratios[ratios.length - 1]? = some r → L - r * L < 3 * h / 2) ∧
      (∀ k : Nat, k < ratios.length ↔ (k : K) * h ≤ L) := by
  obtain ⟨fuel, hf⟩ := fuel_exists hh L
  have hrem := remaining_start (h := h) (L := L) cusps hc
  obtain ⟨ratios, idx, he, hs⟩ := sampleLoop_spec hh hL fuel (cuspRatios cusps) 0 (by simpa using hf) hrem
  simp only [Nat.cast_zero, zero_mul] at he
  have hcount : ∀ k : Nat, k < ratios.length ↔ (k : K) * h ≤ L := fun k => by
    simpa using hs.count k
  have hnear : ∀ (k : Nat) r, ratios[k]? = some r →
      (k : K) * h - h / 2 < r * L ∧ r * L ≤ (k : K) * h + h / 2 := fun k r hk => by
    simpa using hs.near k r hk
  -- the first sample
  have hfirst : ratios[0]? = some 0 ∧ 0 ∈ idx := by
    have he' := he
    rw [sampleLoop.eq_def, if_pos hL] at he'
    cases hcr : cuspRatios cusps with
    | nil => rw [hcr] at hrem; have := hrem.done rfl; simp at this; linarith
    | cons c rest =>
      have hc0 : c = 0 := by
        have h0 := (mem_cuspRatios cusps 0).mpr (.inl rfl)
        rw [hcr] at h0 hrem
        rcases List.mem_cons.mp h0 with h0 | h0
        · exact h0.symm
        · have := (List.pairwise_cons.mp hrem.sorted).1 0 h0
          have := (hrem.range c (by simp)).1
          linarith
      subst hc0
      rw [hcr] at he'
      dsimp only at he'
      rw [if_pos ⟨by linarith, by linarith⟩] at he'
      simp only [Option.bind_eq_bind, Option.bind_eq_some_iff] at he'
      obtain ⟨r', _, heq⟩ := he'
      simp only [Option.some.injEq, Prod.mk.injEq] at heq
      obtain ⟨rfl, rfl⟩ := heq
      simp
  refine ⟨ratios, idx, he, hfirst.1, hfirst.2, hs.range, hnear, ?_, ?_, hcount⟩
  · intro k r s hr hs'
    have h1 := hnear k r hr
    have h2 := hnear (k + 1) s hs'
    push_cast at h2
    have h3 : r * L < s * L := by linarith
    exact ⟨lt_of_mul_lt_mul_right h3 hL, by linarith⟩
  · intro r hr
    have hlen : 0 < ratios.length := (hcount 0).mpr (by simpa using hL)
    have h1 := hnear _ r hr
    have h2 : ¬ ((ratios.length : Nat) : K) * h ≤ L := fun h => (lt_irrefl _ ((hcount _).mpr h))
    obtain ⟨m, hm⟩ : ∃ m, ratios.length = m + 1 := ⟨ratios.length - 1, by omega⟩
    rw [hm] at h1 h2
    push_cast at h1 h2

    push Not at h2
    linarith

example : ∃ ratios idx, sampleRatios (1 / 10 : ℚ) 3 [1 / 2] = some (ratios, idx) ∧ ratios[0]? = some 0 ∧
    30 < ratios.length := by
  obtain ⟨r, i, h, h0, _, _, _, _, _, hc⟩ := C57_samples_partial (1 / 10 : ℚ) 3 [1 / 2] (by norm_num)
    (by norm_num) (by norm_num)
  exact ⟨r, i, h, h0, (hc 30).mpr (by norm_num)⟩

/-- C57 (partial: for cusps at least an interpolation distance apart). Every direction switch that is not
within half an interpolation distance of the end is sampled, and its index is passed to the smoother. -/
theorem C57_cusps_partial (h L : K) (cusps : List K) (hh : 0 < h) (hL : 0 ≤ L)
    (hc : ∀ c ∈ cusps, 0 ≤ c ∧ c ≤ 1)
    (hsp : ∀ a b, (a = 0 ∨ a = 1 ∨ a ∈ cusps) → (b = 0 ∨ b = 1 ∨ b ∈ cusps) → a < b → a * L + h ≤ b * L)
    (ratios : List K) (idx : List Nat) (he : sampleRatios h L cusps = some (ratios, idx)) :
    (∀ c ∈ cusps, c * L ≤ L - h / 2 → ∃ i ∈ idx, ratios[i]? = some c) ∧
    (∀ i ∈ idx, ∃ c, (c = 0 ∨ c = 1 ∨ c ∈ cusps) ∧ ratios[i]? = some c) := by
  obtain ⟨fuel, hf⟩ := fuel_exists hh L
  have hrem := remaining_start (h := h) (L := L) cusps hc
  have he0 : sampleLoop h L (cuspRatios cusps) (((0 : Nat) : K) * h) 0 = some (ratios, idx) := by
    simpa [sampleRatios] using he
  constructor
  · intro c hcc hend
    have hpos := (hc c hcc).1
    obtain ⟨i, hi, h1, -⟩ := sampleLoop_cusps hh fuel (cuspRatios cusps) 0 ratios idx (by simpa using hf)
      ((cuspRatios_sorted cusps).imp_of_mem fun ha hb hab =>
        hsp _ _ ((mem_cuspRatios _ _).mp ha) ((mem_cuspRatios _ _).mp hb) hab)
      (fun b hb => by
        have := mul_nonneg (hrem.range b hb).1 hL
        simp only [Nat.cast_zero, zero_mul]
        linarith) he0 c ((mem_cuspRatios _ _).mpr (.inr (.inr hcc)))
      (by
        -- the first multiple of `h` from `c L - h / 2` on
        have hex : ∃ m : Nat, c * L - h / 2 ≤ (m : K) * h := by
          obtain ⟨m, hm⟩ := fuel_exists hh (c * L - h / 2)
          exact ⟨m, hm.le⟩
        classical
        refine ⟨Nat.find hex, Nat.find_spec hex, ?_, ?_⟩ <;>
        · have hmul := mul_nonneg hpos hL
          rcases Nat.eq_zero_or_pos (Nat.find hex) with h0 | h0
          · rw [h0]; simp; linarith
          · have := Nat.find_min hex (Nat.sub_lt h0 Nat.one_pos)
            rw [Nat.cast_sub h0, Nat.cast_one] at this
            push Not at this
            linarith)
    exact ⟨i, hi, h1⟩
  · obtain ⟨r, j, he', hs⟩ := sampleLoop_spec hh hL fuel (cuspRatios cusps) 0 (by simpa using hf) hrem
    rw [he0] at he'
    simp only [Option.some.injEq, Prod.mk.injEq] at he'
    obtain ⟨rfl, rfl⟩ := he'
    intro i hi
    obtain ⟨_, c, h1, h2⟩ := hs.cusp i hi
    exact ⟨c, (mem_cuspRatios _ _).mp h1, h2⟩

/-- C57: when the end of the path is sampled (cusps at least an interpolation distance apart, path at
least as long): exactly if a multiple of the interpolation distance lies in the last half interpolation
distance of the path. -/
theorem C57_end_sampled_iff (h L : K) (cusps : List K) (hh : 0 < h) (hL : h ≤ L)
    (hc : ∀ c ∈ cusps, 0 ≤ c ∧ c ≤ 1)
    (hsp : ∀ a b, (a = 0 ∨ a = 1 ∨ a ∈ cusps) → (b = 0 ∨ b = 1 ∨ b ∈ cusps) → a < b → a * L + h ≤ b * L)
    (ratios : List K) (idx : List Nat) (he : sampleRatios h L cusps = some (ratios, idx)) :
    1 ∈ ratios ↔ ∃ m : Nat, L - h / 2 ≤ (m : K) * h ∧ (m : K) * h ≤ L := by
  have hL0 : 0 ≤ L := by linarith
  obtain ⟨fuel, hf⟩ := fuel_exists hh L
  have hrem := remaining_start (h := h) (L := L) cusps hc
  have he0 : sampleLoop h L (cuspRatios cusps) (((0 : Nat) : K) * h) 0 = some (ratios, idx) := by
    simpa [sampleRatios] using he
  constructor
  · intro h1
    obtain ⟨r, j, he', _, _, _, hnear, _, _, hcount⟩ := C57_samples_partial h L cusps hh hL0 hc
    rw [he] at he'
    simp only [Option.some.injEq, Prod.mk.injEq] at he'
    obtain ⟨rfl, rfl⟩ := he'
    obtain ⟨k, hk, hk1⟩ := List.mem_iff_getElem.mp h1
    have := hnear k 1 (by rw [List.getElem?_eq_getElem hk, hk1])
    exact ⟨k, by linarith [this.2], (hcount k).mp hk⟩
  · rintro ⟨m, h1, h2⟩
    obtain ⟨i, hi, h3, -⟩ := sampleLoop_cusps hh fuel (cuspRatios cusps) 0 ratios idx (by simpa using hf)
      ((cuspRatios_sorted cusps).imp_of_mem fun ha hb hab =>
        hsp _ _ ((mem_cuspRatios _ _).mp ha) ((mem_cuspRatios _ _).mp hb) hab)
      (fun b hb => by
        have := mul_nonneg (hrem.range b hb).1 hL0
        simp only [Nat.cast_zero, zero_mul]
        linarith) he0 1 ((mem_cuspRatios _ _).mpr (.inr (.inl rfl))) ⟨m, by linarith, by linarith, h2⟩
    exact List.mem_of_getElem? h3

/-! ## Violations -/

omit [IsStrictOrderedRing K] [Archimedean K] in
private theorem sampleLoop_unfold (h L : K) (it : List K) (length : K) (size : Nat) :
    sampleLoop h L it length size =
      if length ≤ L then
        match it with
        | [] => none
        | c :: rest =>
          if length ≥ c * L - h / 2 ∧ length < c * L + h / 2 then
            (sampleLoop h L rest (length + h) (size + 1)).map fun r => (c :: r.1, size :: r.2)
          else (sampleLoop h L (c :: rest) (length + h) (size + 1)).map fun r => (length / L :: r.1, r.2)
      else some ([], []) := by
  rw [sampleLoop.eq_def]
  split
  · split
    · rfl
    · dsimp only
      split
      · cases sampleLoop h L _ (length + h) (size + 1) <;> rfl
      · cases sampleLoop h L _ (length + h) (size + 1) <;> rfl
  · rfl

/-- The loop with a bound on the number of iterations. -/
private def fuelLoop (h L : ℚ) : Nat → List ℚ → ℚ → Nat → Option (List ℚ × List Nat)
  | 0, _, _, _ => none
  | fuel + 1, it, length, size =>
    if length ≤ L then
      match it with
      | [] => none
      | c :: rest =>
        if length ≥ c * L - h / 2 ∧ length < c * L + h / 2 then
          (fuelLoop h L fuel rest (length + h) (size + 1)).map fun r => (c :: r.1, size :: r.2)
        else (fuelLoop h L fuel (c :: rest) (length + h) (size + 1)).map fun r => (length / L :: r.1, r.2)
    else some ([], [])

private theorem loop_of_fuel (h L : ℚ) : ∀ (fuel : Nat) (it : List ℚ) (length : ℚ) (size : Nat)
    (r : List ℚ × List Nat), fuelLoop h L fuel it length size = some r →
    sampleLoop h L it length size = some r := by
  intro fuel
  induction fuel with
  | zero => intro it length size r he; simp [fuelLoop] at he
  | succ fuel ih =>
    intro it length size r he
    rw [sampleLoop_unfold]
    unfold fuelLoop at he
    split at he
    · rename_i hle
      rw [if_pos hle]
      cases it with
      | nil => simp at he
      | cons c rest =>
        dsimp only at he ⊢
        split at he
        · rename_i hc
          rw [if_pos hc]
          obtain ⟨r', h1, h2⟩ := Option.map_eq_some_iff.mp he
          rw [ih _ _ _ _ h1, Option.map_some, h2]
        · rename_i hc
          rw [if_neg hc]
          obtain ⟨r', h1, h2⟩ := Option.map_eq_some_iff.mp he
          rw [ih _ _ _ _ h1, Option.map_some, h2]
    · rename_i hle
      rw [if_neg hle]; exact he

/-- C57 is violated: the end of the path need not be sampled. A path of length 0.17 sampled every 0.1 ends
with the sample at 0.1. -/
theorem C57_end_missing :
    sampleRatios (1 / 10 : ℚ) (17 / 100) [] = some ([0, 10 / 17], [0]) :=
  loop_of_fuel _ _ 5 _ _ _ _ (by decide +kernel)

/-- C57 is violated: two neighbouring samples can be more than the interpolation distance apart. A path of
length 1 sampled every 0.4 has the samples 0, 0.4 and 1. -/
theorem C57_spacing_exceeded :
    sampleRatios (2 / 5 : ℚ) 1 [] = some ([0, 2 / 5, 1], [0, 2]) :=
  loop_of_fuel _ _ 5 _ _ _ _ (by decide +kernel)

/-- C57 is violated: a direction switch that follows another one by less than half of the interpolation
distance is not sampled, and no later one is either: here those at 0.53 and 0.75. -/
theorem C57_cusps_missed :
    sampleRatios (1 / 10 : ℚ) 1 [1 / 2, 53 / 100, 3 / 4] =
      some ([0, 1 / 10, 1 / 5, 3 / 10, 2 / 5, 1 / 2, 3 / 5, 7 / 10, 4 / 5, 9 / 10, 1], [0, 5]) :=
  loop_of_fuel _ _ 15 _ _ _ _ (by decide +kernel)

end PathPlanning
