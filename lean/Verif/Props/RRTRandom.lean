import Verif.Props.RRTCorridor
import Verif.Model.RRTStream
import Mathlib.Probability.Independence.InfinitePi
import Mathlib.MeasureTheory.Measure.Lebesgue.Basic
import Mathlib.Analysis.SpecificLimits.Basic

/-!
# C113: RRT and RRT* find a path with probability one
-/

namespace PathPlanning
open Spec Tree Real Validator MeasureTheory ProbabilityTheory RRTPlanner

/-- A curve from `a` to `b` inside the bounds of the space, around each point of which, up to the distance `c`, the validator
accepts every straight motion. -/
structure Spec.ClearCurve (space : SpaceR2) (valid : PathR2 → Bool) (c : ℝ) (a b : Pt) (γ : ℝ → Pt) : Prop where
  start : γ 0 = a
  finish : γ 1 = b
  contX : ContinuousOn (fun t => (γ t).x) (Set.Icc 0 1)
  contY : ContinuousOn (fun t => (γ t).y) (Set.Icc 0 1)
  inside : ∀ t ∈ Set.Icc (0 : ℝ) 1, space.lb.x ≤ (γ t).x ∧ (γ t).x ≤ space.ub.x ∧ space.lb.y ≤ (γ t).y ∧ (γ t).y ≤ space.ub.y
  clear : ∀ t ∈ Set.Icc (0 : ℝ) 1, ∀ p q, euclid p (γ t) ≤ c → euclid q (γ t) ≤ c → valid (PathR2.connect p q) = true

/-- Random numbers as the documentation of the generator promises them: independent and uniform on [0, 1]. -/
structure Spec.UniformStream {Ω : Type} [MeasurableSpace Ω] (μ : Measure Ω) (U : Nat → Ω → ℝ) : Prop where
  meas : ∀ n, Measurable (U n)
  law : ∀ n, μ.map (U n) = volume.restrict (Set.Icc 0 1)
  indep : iIndepFun U μ

/-! ## Independent blocks of the stream -/

section Blocks
variable {Ω : Type} [MeasurableSpace Ω] {μ : Measure Ω} {U : Nat → Ω → ℝ}

/-- The numbers of the block `b` of length `l` are in the sets `B`. -/
private def block (U : Nat → Ω → ℝ) (l : Nat) (B : Nat → Set ℝ) (b : Nat) : Set Ω :=
  {ω | ∀ j < l, U (b * l + j) ω ∈ B j}

private theorem block_measurable (h : UniformStream μ U) {l : Nat} {B : Nat → Set ℝ} (hB : ∀ j, MeasurableSet (B j)) (b : Nat) :
    MeasurableSet (block U l B b) := by
  have : block U l B b = ⋂ j, ⋂ (_ : j < l), (U (b * l + j)) ⁻¹' B j := by
    ext ω; simp [block]
  rw [this]
  exact MeasurableSet.iInter fun j => MeasurableSet.iInter fun _ => h.meas _ (hB j)

private theorem block_inter (h : UniformStream μ U) {l : Nat} {B : Nat → Set ℝ} (hB : ∀ j, MeasurableSet (B j)) (S : Finset Nat) :
    μ (⋂ b ∈ S, block U l B b) = ∏ _b ∈ S, ∏ j ∈ Finset.range l, volume.restrict (Set.Icc 0 1) (B j) := by
  rcases Nat.eq_zero_or_pos l with hl | hl
  · subst hl
    have : IsProbabilityMeasure μ := h.indep.isProbabilityMeasure
    have e : ∀ b, block U 0 B b = Set.univ := fun b => by ext; simp [block]
    simp [e]
  have e : (⋂ b ∈ S, block U l B b) =
      ⋂ n ∈ (S ×ˢ Finset.range l).image (fun q => q.1 * l + q.2), (U n) ⁻¹' B (n % l) := by
    ext ω
    simp only [Set.mem_iInter, block, Set.mem_setOf_eq, Finset.mem_image, Finset.mem_product, Finset.mem_range,
      Set.mem_preimage, Prod.exists]
    constructor
    · rintro h1 n ⟨b, j, ⟨hb, hj⟩, rfl⟩
      rw [Nat.mul_add_mod_of_lt hj]
      exact h1 b hb j hj
    · intro h1 b hb j hj
      have := h1 _ ⟨b, j, ⟨hb, hj⟩, rfl⟩
      rwa [Nat.mul_add_mod_of_lt hj] at this
  rw [e, h.indep.measure_inter_preimage_eq_mul _ (fun n _ => hB (n % l)), Finset.prod_image, Finset.prod_product]
  · refine Finset.prod_congr rfl fun b _ => Finset.prod_congr rfl fun j hj => ?_
    rw [Nat.mul_add_mod_of_lt (Finset.mem_range.mp hj), ← h.law (b * l + j), Measure.map_apply (h.meas _) (hB j)]
  · rintro ⟨b, j⟩ hq ⟨b', j'⟩ hq' heq
    simp only [Finset.coe_product, Finset.coe_range, Set.mem_prod, Finset.mem_coe, Set.mem_Iio] at hq hq' heq
    have h1 : b = b' := by
      have := congrArg (· / l) heq
      simp only [Nat.mul_comm _ l, Nat.mul_add_div hl, Nat.div_eq_of_lt hq.2, Nat.div_eq_of_lt hq'.2] at this
      simpa using this
    subst h1
    simp only [Prod.mk.injEq, true_and]
    omega

private theorem block_none (h : UniformStream μ U) {l : Nat} {B : Nat → Set ℝ} (hB : ∀ j, MeasurableSet (B j)) (m : Nat) :
    μ (⋂ b ∈ Finset.range m, (block U l B b)ᶜ) =
      (1 - ∏ j ∈ Finset.range l, volume.restrict (Set.Icc 0 1) (B j)) ^ m := by
  have hP : IsProbabilityMeasure μ := h.indep.isProbabilityMeasure
  have h1 : ∀ b, μ (block U l B b) = ∏ j ∈ Finset.range l, volume.restrict (Set.Icc 0 1) (B j) := fun b => by
    simpa using block_inter h hB {b}
  have hi : iIndepSet (block U l B) μ := by
    rw [iIndepSet_iff_meas_biInter (fun b => block_measurable h hB b)]
    intro S
    rw [block_inter h hB S]
    exact Finset.prod_congr rfl fun b _ => (h1 b).symm
  have h2 := iIndep.meas_biInter (S := Finset.range m) (s := fun b => (block U l B b)ᶜ) hi
    (fun b _ => (MeasurableSpace.measurableSet_generateFrom (Set.mem_singleton _)).compl)
  rw [h2, Finset.prod_congr rfl (fun b _ => prob_compl_eq_one_sub (block_measurable h hB b))]
  simp [h1]

end Blocks

/-! ## The iterations of a block -/

theorem drawPos_ge (β : ℝ) (u : Nat → ℝ) (i : Nat) : i ≤ drawPos β u i := by
  induction i with
  | zero => exact Nat.zero_le _
  | succ i ih => rw [drawPos]; split <;> omega

/-- After two numbers below the goal bias an iteration begins, wherever the iterations before began. -/
theorem drawPos_sync (β : ℝ) (u : Nat → ℝ) (n : Nat) (h0 : u n < β) (h1 : u (n + 1) < β) : ∃ i, drawPos β u i = n + 2 := by
  have hs : ∀ v, sampleUniform 0 1 v = v := fun v => by unfold sampleUniform; ring
  -- the last iteration that begins before `n + 2`
  have hex : ∃ i, n + 2 ≤ drawPos β u i := ⟨n + 2, drawPos_ge β u _⟩
  classical
  obtain ⟨i, hi⟩ : ∃ i, i = Nat.find hex := ⟨_, rfl⟩
  have h2 : n + 2 ≤ drawPos β u i := hi ▸ Nat.find_spec hex
  have h3 : ∀ k, k < i → drawPos β u k < n + 2 := fun k hk => not_le.mp (Nat.find_min hex (hi ▸ hk))
  refine ⟨i, ?_⟩
  cases i with
  | zero => simp [drawPos] at h2
  | succ i =>
    have h4 := h3 i (Nat.lt_succ_self i)
    rw [drawPos, hs] at h2 ⊢
    obtain ⟨q, hq⟩ : ∃ q, q = drawPos β u i := ⟨_, rfl⟩
    rw [← hq] at h2 h4 ⊢
    split at h2
    · rename_i hlt
      rw [if_pos hlt]; omega
    · rename_i hlt
      rw [if_neg hlt]
      have : q ≠ n := fun h => hlt (h ▸ h0)
      have : q ≠ n + 1 := fun h => hlt (h ▸ h1)
      omega

/-- The numbers that make the planner draw the places `w 1, …, w (k - 1)` up to `e`, then the goal. -/
private def places (space : SpaceR2) (β e : ℝ) (w : Nat → Pt) (k j : Nat) : Set ℝ :=
  if j < 2 ∨ j = 3 * (k - 1) + 2 then Set.Iio β
  else if (j - 2) % 3 = 0 then Set.Ici β
  else if (j - 2) % 3 = 1 then {v | |sampleUniform space.lb.x space.ub.x v - (w ((j - 2) / 3 + 1)).x| ≤ e / 2}
  else {v | |sampleUniform space.lb.y space.ub.y v - (w ((j - 2) / 3 + 1)).y| ≤ e / 2}

private theorem euclid_le_of_abs {p q : Pt} {e : ℝ} (hx : |p.x - q.x| ≤ e / 2) (hy : |p.y - q.y| ≤ e / 2) : euclid p q ≤ e := by
  have he : 0 ≤ e := by have := abs_nonneg (p.x - q.x); linarith
  unfold euclid
  refine Real.sqrt_le_iff.mpr ⟨he, ?_⟩
  have h1 : (p.x - q.x) ^ 2 ≤ (e / 2) ^ 2 := sq_le_sq' (by linarith [(abs_le.mp hx).1]) (abs_le.mp hx).2
  have h2 : (p.y - q.y) ^ 2 ≤ (e / 2) ^ 2 := sq_le_sq' (by linarith [(abs_le.mp hy).1]) (abs_le.mp hy).2
  nlinarith [sq_nonneg e]

private theorem places_visit [DecidableEq Pt] (s : RRTPlanner Pt ℝ) (space : SpaceR2) {e : ℝ} (he : 0 ≤ e) (w : Nat → Pt) {k : Nat}
    (hk : 0 < k) (hw : w k = s.goal) (u : Nat → ℝ) (n : Nat)
    (h : ∀ j < 3 * k, u (n + j) ∈ places space s.params.goalBias e w k j) :
    ∃ i0 ≤ n + 2, Visits (s.draw (streamCoin s.params.goalBias u) (streamUniform space s.params.goalBias u)) e w k (fun i => i0 + i) ∧
      s.draw (streamCoin s.params.goalBias u) (streamUniform space s.params.goalBias u) (i0 + (k - 1)) = s.goal := by
  have hs : ∀ v, sampleUniform 0 1 v = v := fun v => by unfold sampleUniform; ring
  obtain ⟨β, hβ⟩ : ∃ β, β = s.params.goalBias := ⟨_, rfl⟩
  rw [← hβ] at h ⊢
  have h0 : u n < β := by simpa [places] using h 0 (by omega)
  have h1 : u (n + 1) < β := by simpa [places] using h 1 (by omega)
  obtain ⟨i0, hi0⟩ := drawPos_sync β u n h0 h1
  have hc : ∀ i, i < k - 1 → ¬ u (n + 2 + 3 * i) < β := by
    intro i hi
    have := h (2 + 3 * i) (by omega)
    unfold places at this
    rw [if_neg (by omega), if_pos (by omega), Set.mem_Ici] at this
    rw [Nat.add_assoc]
    exact not_lt.mpr this
  have hp : ∀ i, i ≤ k - 1 → drawPos β u (i0 + i) = n + 2 + 3 * i := by
    intro i
    induction i with
    | zero => intro _; simpa using hi0
    | succ i ih =>
      intro hi
      rw [← Nat.add_assoc, drawPos, ih (by omega), hs, if_neg (hc i (by omega))]
      omega
  have hlast : s.draw (streamCoin β u) (streamUniform space β u) (i0 + (k - 1)) = s.goal := by
    have := h (3 * (k - 1) + 2) (by omega)
    unfold places at this
    rw [if_pos (Or.inr rfl), Set.mem_Iio] at this
    unfold draw streamCoin
    rw [hp _ (le_refl _), hs, if_pos]
    rw [← hβ, show n + 2 + 3 * (k - 1) = n + (3 * (k - 1) + 2) by omega]
    exact this
  refine ⟨i0, hi0 ▸ drawPos_ge β u i0, ⟨fun i _ => by omega, fun i hi => ?_⟩, hlast⟩
  rcases Nat.lt_or_ge i (k - 1) with hlt | hge
  · have hx := h (3 + 3 * i) (by omega)
    have hy := h (4 + 3 * i) (by omega)
    unfold places at hx hy
    rw [if_neg (by omega), if_neg (by omega), if_pos (by omega), show (3 + 3 * i - 2) / 3 = i by omega] at hx
    rw [if_neg (by omega), if_neg (by omega), if_neg (by omega), show (4 + 3 * i - 2) / 3 = i by omega] at hy
    unfold draw streamCoin
    rw [hp _ hlt.le, hs, if_neg (by rw [← hβ]; exact hc i hlt)]
    unfold streamUniform SpaceR2.sampleUniform
    rw [hp _ hlt.le]
    refine euclid_le_of_abs ?_ ?_
    · rw [show n + 2 + 3 * i + 1 = n + (3 + 3 * i) by omega]; exact hx
    · rw [show n + 2 + 3 * i + 2 = n + (4 + 3 * i) by omega]; exact hy
  · have : i = k - 1 := by omega
    subst this
    rw [hlast, Nat.sub_add_cancel hk, hw]
    simpa [euclid] using he

private theorem places_measurable (space : SpaceR2) (β e : ℝ) (w : Nat → Pt) (k j : Nat) : MeasurableSet (places space β e w k j) := by
  unfold places sampleUniform
  split
  · exact measurableSet_Iio
  split
  · exact measurableSet_Ici
  split
  · exact (isClosed_le (by fun_prop) continuous_const).measurableSet
  · exact (isClosed_le (by fun_prop) continuous_const).measurableSet

private theorem interval_pos {lb ub x e : ℝ} (h : lb < ub) (h1 : lb ≤ x) (h2 : x ≤ ub) (he : 0 < e) :
    0 < volume.restrict (Set.Icc 0 1) {v | |sampleUniform lb ub v - x| ≤ e / 2} := by
  obtain ⟨a, ha⟩ : ∃ a, a = (x - lb) / (ub - lb) := ⟨_, rfl⟩
  have hd : 0 < ub - lb := by linarith
  have ha0 : 0 ≤ a := by rw [ha]; exact div_nonneg (by linarith) hd.le
  have ha1 : a ≤ 1 := by rw [ha, div_le_one hd]; linarith
  have hax : (ub - lb) * a = x - lb := by rw [ha]; field_simp
  obtain ⟨r, hr⟩ : ∃ r, r = e / (2 * (ub - lb)) := ⟨_, rfl⟩
  have hr0 : 0 < r := by rw [hr]; positivity
  have hrx : (ub - lb) * r = e / 2 := by rw [hr]; field_simp
  have hsub : Set.Icc (max 0 (a - r)) (min 1 (a + r)) ⊆ {v | |sampleUniform lb ub v - x| ≤ e / 2} ∩ Set.Icc 0 1 := by
    intro v hv
    obtain ⟨⟨h3, h4⟩, h5, h6⟩ : (0 ≤ v ∧ a - r ≤ v) ∧ v ≤ 1 ∧ v ≤ a + r := by
      simpa only [Set.mem_Icc, max_le_iff, le_min_iff] using hv
    refine ⟨?_, h3, h5⟩
    show |sampleUniform lb ub v - x| ≤ e / 2
    unfold sampleUniform
    rw [abs_le]
    constructor <;> nlinarith
  have hlt : max 0 (a - r) < min 1 (a + r) := by
    rw [max_lt_iff, lt_min_iff, lt_min_iff]
    exact ⟨⟨by norm_num, by linarith⟩, by linarith, by linarith⟩
  rw [Measure.restrict_apply (isClosed_le (by unfold sampleUniform; fun_prop) continuous_const).measurableSet]
  refine lt_of_lt_of_le ?_ (measure_mono hsub)
  rw [Real.volume_Icc, ENNReal.ofReal_pos]
  linarith

private theorem places_pos {space : SpaceR2} {β e : ℝ} {w : Nat → Pt} {k : Nat} (hx : space.lb.x < space.ub.x)
    (hy : space.lb.y < space.ub.y) (he : 0 < e) (h0 : 0 < β) (h1 : β < 1)
    (hw : ∀ i ≤ k, space.lb.x ≤ (w i).x ∧ (w i).x ≤ space.ub.x ∧ space.lb.y ≤ (w i).y ∧ (w i).y ≤ space.ub.y) {j : Nat}
    (hj : j < 3 * k) : 0 < volume.restrict (Set.Icc 0 1) (places space β e w k j) := by
  unfold places
  split
  · rw [Measure.restrict_apply measurableSet_Iio]
    refine lt_of_lt_of_le ?_ (measure_mono (show Set.Ico 0 β ⊆ _ from fun v hv => ⟨hv.2, hv.1, hv.2.le.trans h1.le⟩))
    rw [Real.volume_Ico, ENNReal.ofReal_pos]
    linarith
  split
  · rw [Measure.restrict_apply measurableSet_Ici]
    refine lt_of_lt_of_le ?_ (measure_mono (show Set.Icc β 1 ⊆ _ from fun v hv => ⟨hv.1, h0.le.trans hv.1, hv.2⟩))
    rw [Real.volume_Icc, ENNReal.ofReal_pos]
    linarith
  obtain ⟨a1, a2, a3, a4⟩ := hw ((j - 2) / 3 + 1) (by omega)
  split
  · exact interval_pos hx a1 a2 he
  · exact interval_pos hy a3 a4 he

/-! ## The corridor of a curve -/

private theorem corridor_of_curve {space : SpaceR2} {valid : PathR2 → Bool} {c d : ℝ} {a b : Pt} {γ : ℝ → Pt}
    (hc : 0 < c) (hd : 0 < d) (h : ClearCurve space valid c a b γ) :
    ∃ (e : ℝ) (w : Nat → Pt) (k : Nat), 0 < e ∧ 0 < k ∧ w 0 = a ∧ w k = b ∧ Corridor valid d e w k ∧
      ∀ i ≤ k, space.lb.x ≤ (w i).x ∧ (w i).x ≤ space.ub.x ∧ space.lb.y ≤ (w i).y ∧ (w i).y ≤ space.ub.y := by
  obtain ⟨e, hE⟩ : ∃ e, e = min c d / 8 := ⟨_, rfl⟩
  have he : 0 < e := by rw [hE]; have := lt_min hc hd; linarith
  have hec : 8 * e ≤ c := by rw [hE]; have := min_le_left c d; linarith
  have hed : 8 * e ≤ d := by rw [hE]; have := min_le_right c d; linarith
  have ux := isCompact_Icc.uniformContinuousOn_of_continuous h.contX
  have uy := isCompact_Icc.uniformContinuousOn_of_continuous h.contY
  rw [Metric.uniformContinuousOn_iff] at ux uy
  obtain ⟨δ1, hδ1, H1⟩ := ux (e / 2) (by linarith)
  obtain ⟨δ2, hδ2, H2⟩ := uy (e / 2) (by linarith)
  obtain ⟨k, hk⟩ := exists_nat_one_div_lt (lt_min hδ1 hδ2)
  have hk0 : (0 : ℝ) < (k : ℝ) + 1 := by positivity
  have hin : ∀ i : Nat, i ≤ k + 1 → (i : ℝ) / ((k : ℝ) + 1) ∈ Set.Icc (0 : ℝ) 1 := by
    intro i hi
    refine ⟨by positivity, ?_⟩
    rw [div_le_one hk0]
    exact_mod_cast hi
  have hstep : ∀ i : Nat, i < k + 1 → euclid (γ ((i : ℝ) / ((k : ℝ) + 1))) (γ (((i + 1 : Nat) : ℝ) / ((k : ℝ) + 1))) ≤ e := by
    intro i hi
    have hdist : dist ((i : ℝ) / ((k : ℝ) + 1)) (((i + 1 : Nat) : ℝ) / ((k : ℝ) + 1)) = 1 / ((k : ℝ) + 1) := by
      rw [Real.dist_eq, ← sub_div]
      push_cast
      rw [show (i : ℝ) - (i + 1) = -1 by ring, neg_div, abs_neg, abs_of_pos (by positivity)]
    have b1 := H1 _ (hin i hi.le) _ (hin (i + 1) hi) (by rw [hdist]; exact hk.trans_le (min_le_left _ _))
    have b2 := H2 _ (hin i hi.le) _ (hin (i + 1) hi) (by rw [hdist]; exact hk.trans_le (min_le_right _ _))
    rw [Real.dist_eq] at b1 b2
    exact euclid_le_of_abs b1.le b2.le
  refine ⟨e, fun i => γ ((i : ℝ) / ((k : ℝ) + 1)), k + 1, he, Nat.succ_pos k, by simp [h.start], ?_, ⟨?_, ?_⟩, ?_⟩
  · push_cast
    rw [div_self hk0.ne', h.finish]
  · intro i hi
    have := hstep i hi
    linarith
  · intro i hi p q hp hq
    have := hstep i hi
    exact h.clear _ (hin (i + 1) hi) p q (by linarith) (by linarith)
  · intro i hi
    exact h.inside _ (hin i hi)

/-! ## The theorems -/

/-- Outside of a set of probability at most `q ^ m`, every search with `m * l` iterations succeeds. -/
private theorem search_bound [DecidableEq Pt] [Inhabited Pt] {Ω : Type} [MeasurableSpace Ω] {μ : Measure Ω} {U : Nat → Ω → ℝ}
    (hU : UniformStream μ U) (w : RRTWorld Pt PathR2 ℝ) (hw : w.steering = r2Steering) (hreached : ∀ g, w.reached g g = true)
    (L : NearestLaws w.knn (fun v p : Pt => (v.x - p.x) ^ 2 + (v.y - p.y) ^ 2)) (space : SpaceR2)
    (hx : space.lb.x < space.ub.x) (hy : space.lb.y < space.ub.y) (init goal : Pt) (d β : ℝ) (hd : 0 < d) (h0 : 0 < β) (h1 : β < 1)
    (c : ℝ) (hc : 0 < c) (γ : ℝ → Pt) (hγ : ClearCurve space w.valid c init goal γ) :
    ∃ (q : ENNReal) (l : Nat) (N : Nat → Set Ω), q < 1 ∧ 0 < l ∧ ∀ m, μ (N m) ≤ q ^ m ∧ ∀ ω, ω ∉ N m → ∀ s : RRTPlanner Pt ℝ,
      TreeReachable w.knn s.tree → s.init = init → s.goal = goal → s.params.maxConnectionDistance = d → s.params.goalBias = β →
      m * l ≤ s.params.maxIteration → m * l ≤ s.params.maxNumberTreeNode →
      (∃ s', s.searchR2 w space (fun n => U n ω) = some (true, s')) ∧
      ∀ nn, ∃ s', s.searchStarR2 w nn space (fun n => U n ω) = some (true, s') := by
  obtain ⟨e, pl, k, he, hk, hs, hf, C, hin⟩ := corridor_of_curve hc hd hγ
  have hP : IsProbabilityMeasure μ := hU.indep.isProbabilityMeasure
  refine ⟨1 - ∏ j ∈ Finset.range (3 * k), volume.restrict (Set.Icc 0 1) (places space β e pl k j), 3 * k,
    fun m => ⋂ b ∈ Finset.range m, (block U (3 * k) (places space β e pl k) b)ᶜ, ?_, by omega, fun m => ⟨?_, ?_⟩⟩
  · refine ENNReal.sub_lt_self ENNReal.one_ne_top one_ne_zero ?_
    rw [Finset.prod_ne_zero_iff]
    intro j hj
    exact (places_pos hx hy he h0 h1 hin (Finset.mem_range.mp hj)).ne'
  · exact (block_none hU (places_measurable space β e pl k) m).le
  · intro ω hω s ht hi hg hsd hsb hm1 hm2
    subst hsd
    simp only [Set.mem_iInter, Finset.mem_range, not_forall, Set.mem_compl_iff, not_not] at hω
    obtain ⟨b, hb, hblock⟩ := hω
    obtain ⟨i0, hi0, V, hV⟩ := places_visit s space he.le pl hk (by rw [hf, hg]) (fun n => U n ω) (b * (3 * k))
      (by rw [hsb]; exact hblock)
    have hlt : i0 + (k - 1) < m * (3 * k) := by
      have : (b + 1) * (3 * k) ≤ m * (3 * k) := Nat.mul_le_mul_right _ hb
      rw [Nat.add_mul] at this
      omega
    have hsol : w.reached (s.draw (streamCoin s.params.goalBias (fun n => U n ω))
        (streamUniform space s.params.goalBias (fun n => U n ω)) (i0 + (k - 1))) s.goal = true := by rw [hV]; exact hreached _
    constructor
    · obtain ⟨r, hr, hsucc, -⟩ := C113_corridor_rrt (s.setup w (streamCoin s.params.goalBias (fun n => U n ω))
          (streamUniform space s.params.goalBias (fun n => U n ω))) hw hd L s.tree ht e he.le pl k hk C _ V hsol
        (by show i0 + (k - 1) ≤ s.params.maxIteration; omega) (by show i0 + (k - 1) < s.params.maxNumberTreeNode; omega)
      exact ⟨{ s with tree := r.tree, solution := r.solution }, by
        rw [searchR2, RRTPlanner.search, hi, ← hs, hr, Option.map_some, hsucc]⟩
    · intro nn
      obtain ⟨r, hr, hsucc, -⟩ := C113_corridor_rrtStar (s.setup w (streamCoin s.params.goalBias (fun n => U n ω))
          (streamUniform space s.params.goalBias (fun n => U n ω))) hw hd L nn s.tree ht e he.le pl k hk C _ V hsol
        (by show i0 + (k - 1) ≤ s.params.maxIteration; omega) (by show i0 + (k - 1) < s.params.maxNumberTreeNode; omega)
      exact ⟨{ s with tree := r.state.tree, solution := r.solution }, by
        rw [searchStarR2, RRTPlanner.searchStar, hi, ← hs, hr, Option.map_some, hsucc]⟩

/-- A planner with other limits. -/
def Spec.withLimits {V K : Type} (s : RRTPlanner V K) (iterations nodes : Nat) : RRTPlanner V K :=
  { s with params := { s.params with maxIteration := iterations, maxNumberTreeNode := nodes } }

section
variable [DecidableEq Pt] [Inhabited Pt] {Ω : Type} [MeasurableSpace Ω] {μ : Measure Ω} {U : Nat → Ω → ℝ}

/-- C113 for RRT: if a curve leads from the start to the goal with some clearance, the probability that a search fails
decreases exponentially with the number of iterations it is allowed. -/
theorem C113_rrt (hU : UniformStream μ U) (w : RRTWorld Pt PathR2 ℝ) (hw : w.steering = r2Steering)
    (hreached : ∀ g, w.reached g g = true)
    (L : NearestLaws w.knn (fun v p : Pt => (v.x - p.x) ^ 2 + (v.y - p.y) ^ 2)) (space : SpaceR2)
    (hx : space.lb.x < space.ub.x) (hy : space.lb.y < space.ub.y) (s : RRTPlanner Pt ℝ) (ht : TreeReachable w.knn s.tree)
    (hd : 0 < s.params.maxConnectionDistance) (h0 : 0 < s.params.goalBias) (h1 : s.params.goalBias < 1)
    (c : ℝ) (hc : 0 < c) (γ : ℝ → Pt) (hγ : ClearCurve space w.valid c s.init s.goal γ) :
    ∃ (q : ENNReal) (l : Nat), q < 1 ∧ ∀ m iterations nodes, m * l ≤ iterations → m * l ≤ nodes →
      μ {ω | ¬ ∃ s', (withLimits s iterations nodes).searchR2 w space (fun n => U n ω) = some (true, s')} ≤ q ^ m := by
  obtain ⟨q, l, N, hq, -, h⟩ := search_bound hU w hw hreached L space hx hy s.init s.goal _ _ hd h0 h1 c hc γ hγ
  refine ⟨q, l, hq, fun m i n hi hn => le_trans (measure_mono fun ω hω => ?_) (h m).1⟩
  by_contra hN
  exact hω ((h m).2 ω hN (withLimits s i n) ht rfl rfl rfl rfl hi hn).1

/-- C113 for RRT*. -/
theorem C113_rrtStar (hU : UniformStream μ U) (w : RRTWorld Pt PathR2 ℝ) (hw : w.steering = r2Steering)
    (hreached : ∀ g, w.reached g g = true)
    (L : NearestLaws w.knn (fun v p : Pt => (v.x - p.x) ^ 2 + (v.y - p.y) ^ 2)) (nn : Nat → Nat) (space : SpaceR2)
    (hx : space.lb.x < space.ub.x) (hy : space.lb.y < space.ub.y) (s : RRTPlanner Pt ℝ) (ht : TreeReachable w.knn s.tree)
    (hd : 0 < s.params.maxConnectionDistance) (h0 : 0 < s.params.goalBias) (h1 : s.params.goalBias < 1)
    (c : ℝ) (hc : 0 < c) (γ : ℝ → Pt) (hγ : ClearCurve space w.valid c s.init s.goal γ) :
    ∃ (q : ENNReal) (l : Nat), q < 1 ∧ ∀ m iterations nodes, m * l ≤ iterations → m * l ≤ nodes →
      μ {ω | ¬ ∃ s', (withLimits s iterations nodes).searchStarR2 w nn space (fun n => U n ω) = some (true, s')} ≤ q ^ m := by
  obtain ⟨q, l, N, hq, -, h⟩ := search_bound hU w hw hreached L space hx hy s.init s.goal _ _ hd h0 h1 c hc γ hγ
  refine ⟨q, l, hq, fun m i n hi hn => le_trans (measure_mono fun ω hω => ?_) (h m).1⟩
  by_contra hN
  exact hω (((h m).2 ω hN (withLimits s i n) ht rfl rfl rfl rfl hi hn).2 nn)

/-- C113: with probability one, the numbers of a stream make every search succeed whose limits are large enough. -/
theorem C113_almost_surely (hU : UniformStream μ U) (w : RRTWorld Pt PathR2 ℝ) (hw : w.steering = r2Steering)
    (hreached : ∀ g, w.reached g g = true)
    (L : NearestLaws w.knn (fun v p : Pt => (v.x - p.x) ^ 2 + (v.y - p.y) ^ 2)) (nn : Nat → Nat) (space : SpaceR2)
    (hx : space.lb.x < space.ub.x) (hy : space.lb.y < space.ub.y) (s : RRTPlanner Pt ℝ) (ht : TreeReachable w.knn s.tree)
    (hd : 0 < s.params.maxConnectionDistance) (h0 : 0 < s.params.goalBias) (h1 : s.params.goalBias < 1)
    (c : ℝ) (hc : 0 < c) (γ : ℝ → Pt) (hγ : ClearCurve space w.valid c s.init s.goal γ) :
    ∀ᵐ ω ∂μ, ∃ limit, ∀ iterations nodes, limit ≤ iterations → limit ≤ nodes →
      (∃ s', (withLimits s iterations nodes).searchR2 w space (fun n => U n ω) = some (true, s')) ∧
      ∃ s', (withLimits s iterations nodes).searchStarR2 w nn space (fun n => U n ω) = some (true, s') := by
  obtain ⟨q, l, N, hq, -, h⟩ := search_bound hU w hw hreached L space hx hy s.init s.goal _ _ hd h0 h1 c hc γ hγ
  have hz : μ (⋂ m, N m) = 0 := by
    refine le_antisymm (ge_of_tendsto' (ENNReal.tendsto_pow_atTop_nhds_zero_of_lt_one hq) fun m => ?_) zero_le
    exact le_trans (measure_mono (Set.iInter_subset _ m)) (h m).1
  refine measure_mono_null (fun ω hω => ?_) hz
  rw [Set.mem_iInter]
  intro m
  by_contra hN
  refine hω ⟨m * l, fun i n hi hn => ?_⟩
  have := (h m).2 ω hN (withLimits s i n) ht rfl rfl rfl rfl hi hn
  exact ⟨this.1, this.2 nn⟩

/-- C113: the probability that RRT succeeds tends to one as its limits grow. -/
theorem C113_success_tends_to_one (hU : UniformStream μ U) (w : RRTWorld Pt PathR2 ℝ) (hw : w.steering = r2Steering)
    (hreached : ∀ g, w.reached g g = true)
    (L : NearestLaws w.knn (fun v p : Pt => (v.x - p.x) ^ 2 + (v.y - p.y) ^ 2)) (space : SpaceR2)
    (hx : space.lb.x < space.ub.x) (hy : space.lb.y < space.ub.y) (s : RRTPlanner Pt ℝ) (ht : TreeReachable w.knn s.tree)
    (hd : 0 < s.params.maxConnectionDistance) (h0 : 0 < s.params.goalBias) (h1 : s.params.goalBias < 1)
    (c : ℝ) (hc : 0 < c) (γ : ℝ → Pt) (hγ : ClearCurve space w.valid c s.init s.goal γ) :
    Filter.Tendsto (fun n => μ {ω | ∃ s', (withLimits s n n).searchR2 w space (fun n => U n ω) = some (true, s')}) Filter.atTop
      (nhds 1) := by
  have hP : IsProbabilityMeasure μ := hU.indep.isProbabilityMeasure
  obtain ⟨q, l, N, hq, hl, h⟩ := search_bound hU w hw hreached L space hx hy s.init s.goal _ _ hd h0 h1 c hc γ hγ
  have hlow : Filter.Tendsto (fun n : Nat => 1 - q ^ (n / l)) Filter.atTop (nhds (1 : ENNReal)) := by
    have h2 := (ENNReal.tendsto_pow_atTop_nhds_zero_of_lt_one hq).comp (Nat.tendsto_div_const_atTop hl.ne')
    have h3 := ENNReal.Tendsto.sub (tendsto_const_nhds (x := (1 : ENNReal))) h2 (Or.inl ENNReal.one_ne_top)
    simpa using h3
  refine tendsto_of_tendsto_of_tendsto_of_le_of_le hlow tendsto_const_nhds (fun n => ?_) (fun n => prob_le_one)
  rw [tsub_le_iff_right]
  have hcover : (1 : ENNReal) ≤ μ {ω | ∃ s', (withLimits s n n).searchR2 w space (fun n => U n ω) = some (true, s')} +
      μ (N (n / l)) := by
    rw [← measure_univ (μ := μ)]
    refine le_trans (measure_mono fun ω _ => ?_) (measure_union_le _ _)
    by_cases hN : ω ∈ N (n / l)
    · exact Or.inr hN
    · exact Or.inl ((h (n / l)).2 ω hN (withLimits s n n) ht rfl rfl rfl rfl (Nat.div_mul_le_self n l) (Nat.div_mul_le_self n l)).1
  exact le_trans hcover (add_le_add_right (h (n / l)).1 _)

end

/-! ## Example -/

/-- Independent uniform numbers exist. -/
theorem uniformStream_infinitePi : UniformStream
    (Measure.infinitePi fun _ : Nat => (volume.restrict (Set.Icc (0 : ℝ) 1) : Measure ℝ)) (fun n u => u n) := by
  have hp : IsProbabilityMeasure (volume.restrict (Set.Icc (0 : ℝ) 1)) := ⟨by simp⟩
  refine ⟨fun n => measurable_pi_apply n, fun n => ?_, ?_⟩
  · exact Measure.infinitePi_map_eval _ n
  · exact iIndepFun_infinitePi (X := fun _ x => x) (fun _ => measurable_id)

/-- A wall below the height 0, open space above, with a planner whose parameters are the default ones. -/
noncomputable def exWallWorld : RRTWorld Pt PathR2 ℝ where
  steering := r2Steering
  valid p := open Classical in decide (0 ≤ p.init.y ∧ 0 ≤ p.final.y)
  knn := r2KNN
  reached a b := open Classical in decide (a = b)

noncomputable def exWallPlanner [Inhabited Pt] : RRTPlanner Pt ℝ := ⟨.default, ⟨-2, 1⟩, ⟨2, 1⟩, Tree.new, none⟩

theorem exWall_curve : ClearCurve ⟨⟨-3, -3⟩, ⟨3, 3⟩⟩ exWallWorld.valid 1 ⟨-2, 1⟩ ⟨2, 1⟩ (fun t => ⟨4 * t - 2, 1⟩) := by
  refine ⟨by norm_num, by norm_num, by fun_prop, by fun_prop, fun t ht => ?_, fun t ht p q hp hq => ?_⟩
  · have := ht.1; have := ht.2
    refine ⟨?_, ?_, ?_, ?_⟩ <;> norm_num <;> linarith
  · have key : ∀ r : Pt, euclid r ⟨4 * t - 2, 1⟩ ≤ 1 → 0 ≤ r.y := by
      intro r hr
      unfold euclid at hr
      have := (Real.sqrt_le_iff.mp hr).2
      have hn := sq_nonneg (r.x - (4 * t - 2))
      dsimp only at this
      nlinarith
    have := And.intro (key p hp) (key q hq)
    simpa [exWallWorld, PathR2.connect] using this

/-- The planner finds its way along the wall with a probability that tends to one. -/
example [DecidableEq Pt] [Inhabited Pt] :
    Filter.Tendsto (fun n => (Measure.infinitePi fun _ : Nat => (volume.restrict (Set.Icc (0 : ℝ) 1) : Measure ℝ))
      {u | ∃ s', (withLimits exWallPlanner n n).searchR2 exWallWorld ⟨⟨-3, -3⟩, ⟨3, 3⟩⟩ u = some (true, s')}) Filter.atTop (nhds 1) :=
  C113_success_tends_to_one uniformStream_infinitePi exWallWorld rfl
    (fun g => @decide_eq_true _ (Classical.propDecidable _) rfl) r2KNN_laws ⟨⟨-3, -3⟩, ⟨3, 3⟩⟩ (by norm_num) (by norm_num)
    exWallPlanner .start (by norm_num [exWallPlanner, RRTParams.default]) (by norm_num [exWallPlanner, RRTParams.default])
    (by norm_num [exWallPlanner, RRTParams.default]) 1 one_pos _ exWall_curve

end PathPlanning
