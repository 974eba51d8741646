import Verif.Props.RRTRandom
import Mathlib.Probability.ConditionalProbability
import Mathlib.MeasureTheory.Measure.Lebesgue.Basic

/-!
# C114: the distribution of the samples and of the draws of RRT
-/

namespace PathPlanning
open Spec MeasureTheory ProbabilityTheory RRTPlanner

/-- The uniform distribution on [0, 1]. -/
private noncomputable abbrev ν : Measure ℝ := volume.restrict (Set.Icc (0 : ℝ) 1)

private instance ν_prob : IsProbabilityMeasure ν := ⟨by simp [ν]⟩

/-! ## One coordinate -/

theorem map_sampleUniform {lb ub : ℝ} (h : lb < ub) : ν.map (sampleUniform lb ub) = volume[|Set.Icc lb ub] := by
  have hd : 0 < ub - lb := by linarith
  have hf : sampleUniform lb ub = (fun y => lb + y) ∘ fun x => (ub - lb) * x := rfl
  have hm : Measurable (sampleUniform lb ub) := by unfold sampleUniform; fun_prop
  have hpre : sampleUniform lb ub ⁻¹' Set.Icc lb ub = Set.Icc 0 1 := by
    ext v
    simp only [Set.mem_preimage, Set.mem_Icc, sampleUniform]
    constructor
    · rintro ⟨h1, h2⟩
      constructor
      · by_contra hv
        nlinarith
      · by_contra hv
        nlinarith
    · rintro ⟨h1, h2⟩
      constructor <;> nlinarith
  have hvol : (volume : Measure ℝ).map (sampleUniform lb ub) = ENNReal.ofReal (ub - lb)⁻¹ • volume := by
    rw [hf, ← Measure.map_map (by fun_prop) (by fun_prop), Real.map_volume_mul_left hd.ne', Measure.map_smul,
      (measurePreserving_add_left volume lb).map_eq, abs_of_pos (inv_pos.mpr hd)]
  rw [ν, ← hpre, ← Measure.restrict_map hm measurableSet_Icc, hvol, ProbabilityTheory.cond, Real.volume_Icc,
    Measure.restrict_smul, ENNReal.ofReal_inv_of_pos hd]

/-! ## Streams -/

/-- The stream of independent uniform numbers. -/
private noncomputable abbrev stream : Measure (Nat → ℝ) := Measure.infinitePi fun _ : Nat => ν

/-- A number in front of a stream. -/
private def cons (q : ℝ × (Nat → ℝ)) : Nat → ℝ
  | 0 => q.1
  | n + 1 => q.2 n

private theorem cons_measurable : Measurable cons := by
  refine measurable_pi_iff.mpr fun n => ?_
  cases n with
  | zero => exact measurable_fst
  | succ n => exact (measurable_pi_apply n).comp measurable_snd

private theorem map_cons : (ν.prod stream).map cons = stream := by
  refine Measure.eq_infinitePi _ fun s t ht => ?_
  classical
  have hm : MeasurableSet (Set.pi (s : Set Nat) t) := MeasurableSet.pi s.countable_toSet fun i _ => ht i
  have hpre : cons ⁻¹' Set.pi (s : Set Nat) t =
      (if 0 ∈ s then t 0 else Set.univ) ×ˢ Set.pi ((s.filter (· ≠ 0)).image Nat.pred : Finset Nat) (fun i => t (i + 1)) := by
    ext ⟨a, v⟩
    simp only [Set.mem_preimage, Set.mem_pi, Finset.mem_coe, Set.mem_prod, Finset.mem_image, Finset.mem_filter]
    constructor
    · intro h
      refine ⟨?_, ?_⟩
      · split
        · exact h 0 ‹_›
        · trivial
      · rintro i ⟨j, ⟨hj, hj0⟩, rfl⟩
        have := h j hj
        cases j with
        | zero => exact absurd rfl hj0
        | succ j => exact this
    · rintro ⟨h1, h2⟩ i hi
      cases i with
      | zero => rw [if_pos hi] at h1; exact h1
      | succ i => exact h2 i ⟨i + 1, ⟨hi, by omega⟩, rfl⟩
  rw [Measure.map_apply cons_measurable hm, hpre, Measure.prod_prod, Measure.infinitePi_pi _ (fun i _ => ht (i + 1)),
    Finset.prod_image]
  · have h1 : ∏ x ∈ s.filter (· ≠ 0), ν (t (x.pred + 1)) = ∏ x ∈ s.filter (· ≠ 0), ν (t x) := by
      refine Finset.prod_congr rfl fun x hx => ?_
      rw [Nat.pred_eq_sub_one, Nat.sub_add_cancel (Nat.one_le_iff_ne_zero.mpr (Finset.mem_filter.mp hx).2)]
    rw [h1]
    by_cases h0 : 0 ∈ s
    · rw [if_pos h0, ← Finset.mul_prod_erase s _ h0]
      congr 2
      ext x
      simp [and_comm]
    · rw [if_neg h0, measure_univ, one_mul, Finset.filter_true_of_mem]
      intro x hx hx0
      exact h0 (hx0 ▸ hx)
  · intro a ha b hb hab
    have := (Finset.mem_filter.mp ha).2
    have := (Finset.mem_filter.mp hb).2
    simp only [Nat.pred_eq_sub_one] at hab
    omega

private theorem stream_cons {E : Set (Nat → ℝ)} (hE : MeasurableSet E) : stream E = (ν.prod stream) (cons ⁻¹' E) := by
  conv_lhs => rw [← map_cons]
  exact Measure.map_apply cons_measurable hE

/-- The first number and the rest are independent. -/
private theorem stream_head {A : Set ℝ} {E : Set (Nat → ℝ)} (hA : MeasurableSet A) (hE : MeasurableSet E) :
    stream {u | u 0 ∈ A ∧ (fun n => u (n + 1)) ∈ E} = ν A * stream E := by
  have hs : Measurable fun u : Nat → ℝ => fun n => u (n + 1) := measurable_pi_iff.mpr fun n => measurable_pi_apply (n + 1)
  have hm : MeasurableSet {u : Nat → ℝ | u 0 ∈ A ∧ (fun n => u (n + 1)) ∈ E} :=
    (measurable_pi_apply (0 : Nat) hA).inter (hs hE)
  rw [stream_cons hm, show cons ⁻¹' _ = A ×ˢ E from rfl, Measure.prod_prod]

/-- The first two numbers and the rest are independent. -/
private theorem stream_two {S : Set (ℝ × ℝ)} {E : Set (Nat → ℝ)} (hS : MeasurableSet S) (hE : MeasurableSet E) :
    stream {u | (u 0, u 1) ∈ S ∧ (fun n => u (n + 2)) ∈ E} = (ν.prod ν) S * stream E := by
  have hs : Measurable fun u : Nat → ℝ => fun n => u (n + 2) := measurable_pi_iff.mpr fun n => measurable_pi_apply (n + 2)
  have hm : MeasurableSet {u : Nat → ℝ | (u 0, u 1) ∈ S ∧ (fun n => u (n + 2)) ∈ E} :=
    (((measurable_pi_apply (0 : Nat)).prodMk (measurable_pi_apply (1 : Nat))) hS).inter (hs hE)
  rw [stream_cons hm]
  have h1 : (ν.prod stream) = (ν.prod (ν.prod stream)).map (Prod.map id cons) := by
    rw [← Measure.map_prod_map _ _ measurable_id cons_measurable, map_cons, Measure.map_id]
  have hp : MeasurableSet (cons ⁻¹' {u : Nat → ℝ | (u 0, u 1) ∈ S ∧ (fun n => u (n + 2)) ∈ E}) := cons_measurable hm
  rw [h1, Measure.map_apply (measurable_id.prodMap cons_measurable) hp]
  have h2 : (ν.prod (ν.prod stream)) = ((ν.prod ν).prod stream).map MeasurableEquiv.prodAssoc := Measure.prodAssoc_prod.symm
  rw [h2, Measure.map_apply MeasurableEquiv.prodAssoc.measurable ((measurable_id.prodMap cons_measurable) hp)]
  exact Measure.prod_prod S E

/-! ## The draws of a search -/

/-- The state drawn in iteration `i` of a search with the numbers `u`. -/
noncomputable def Spec.drawn (s : RRTPlanner Pt ℝ) (space : SpaceR2) (u : Nat → ℝ) (i : Nat) : ℝ × ℝ :=
  ((s.draw (streamCoin s.params.goalBias u) (streamUniform space s.params.goalBias u) i).x,
    (s.draw (streamCoin s.params.goalBias u) (streamUniform space s.params.goalBias u) i).y)

/-- What a draw should be: the goal with probability `β`, otherwise uniform on the rectangle of the bounds. -/
noncomputable def Spec.drawLaw (space : SpaceR2) (goal : Pt) (β : ℝ) : Measure (ℝ × ℝ) :=
  ENNReal.ofReal β • Measure.dirac (goal.x, goal.y) +
    ENNReal.ofReal (1 - β) • (volume[|Set.Icc space.lb.x space.ub.x]).prod (volume[|Set.Icc space.lb.y space.ub.y])

private noncomputable def rest (β : ℝ) (u : Nat → ℝ) : Nat → ℝ := fun n => u (n + if u 0 < β then 1 else 3)

private theorem drawPos_rest (β : ℝ) (u : Nat → ℝ) (i : Nat) :
    drawPos β u (i + 1) = drawPos β (rest β u) i + if u 0 < β then 1 else 3 := by
  have hs : ∀ v, sampleUniform 0 1 v = v := fun v => by unfold sampleUniform; ring
  induction i with
  | zero => simp [drawPos, hs]
  | succ i ih =>
    rw [drawPos, ih, drawPos, hs, hs]
    have : rest β u (drawPos β (rest β u) i) = u (drawPos β (rest β u) i + if u 0 < β then 1 else 3) := rfl
    rw [this]
    omega

private theorem drawn_rest (s : RRTPlanner Pt ℝ) (space : SpaceR2) (u : Nat → ℝ) (i : Nat) :
    drawn s space u (i + 1) = drawn s space (rest s.params.goalBias u) i := by
  have h1 : streamCoin s.params.goalBias u (i + 1) = streamCoin s.params.goalBias (rest s.params.goalBias u) i := by
    unfold streamCoin; rw [drawPos_rest]; rfl
  have h2 : streamUniform space s.params.goalBias u (i + 1) =
      streamUniform space s.params.goalBias (rest s.params.goalBias u) i := by
    unfold streamUniform
    rw [drawPos_rest]
    unfold rest
    rw [Nat.add_right_comm, Nat.add_right_comm _ _ 2]
  unfold drawn draw
  rw [h1, h2]

private theorem drawn_zero (s : RRTPlanner Pt ℝ) (space : SpaceR2) (u : Nat → ℝ) :
    drawn s space u 0 = if u 0 < s.params.goalBias then (s.goal.x, s.goal.y)
      else (sampleUniform space.lb.x space.ub.x (u 1), sampleUniform space.lb.y space.ub.y (u 2)) := by
  have hs : ∀ v, sampleUniform 0 1 v = v := fun v => by unfold sampleUniform; ring
  unfold drawn draw streamCoin streamUniform SpaceR2.sampleUniform
  simp only [drawPos, hs]
  split <;> rfl

private theorem rest_measurable (β : ℝ) : Measurable (rest β) := by
  refine measurable_pi_iff.mpr fun n => ?_
  have : (fun u : Nat → ℝ => rest β u n) = fun u => if u 0 < β then u (n + 1) else u (n + 3) := by
    funext u; unfold rest; split <;> rfl
  rw [this]
  exact Measurable.ite (measurable_pi_apply 0 measurableSet_Iio) (measurable_pi_apply _) (measurable_pi_apply _)

private theorem drawn_measurable (s : RRTPlanner Pt ℝ) (space : SpaceR2) (i : Nat) :
    Measurable fun u => drawn s space u i := by
  induction i with
  | zero =>
    simp only [drawn_zero]
    refine Measurable.ite (measurable_pi_apply 0 measurableSet_Iio) measurable_const ?_
    unfold sampleUniform
    fun_prop
  | succ i ih =>
    simp only [drawn_rest]
    exact ih.comp (rest_measurable _)

private theorem ν_Iio {β : ℝ} (h0 : 0 ≤ β) (h1 : β ≤ 1) : ν (Set.Iio β) = ENNReal.ofReal β := by
  rw [ν, Measure.restrict_apply measurableSet_Iio, show Set.Iio β ∩ Set.Icc 0 1 = Set.Ico 0 β from ?_, Real.volume_Ico, sub_zero]
  ext v
  simp only [Set.mem_inter_iff, Set.mem_Iio, Set.mem_Icc, Set.mem_Ico]
  exact ⟨fun h => ⟨h.2.1, h.1⟩, fun h => ⟨h.2, h.1, h.2.le.trans h1⟩⟩

private theorem ν_Ici {β : ℝ} (h0 : 0 ≤ β) (h1 : β ≤ 1) : ν (Set.Ici β) = ENNReal.ofReal (1 - β) := by
  rw [ν, Measure.restrict_apply measurableSet_Ici, show Set.Ici β ∩ Set.Icc 0 1 = Set.Icc β 1 from ?_, Real.volume_Icc]
  ext v
  simp only [Set.mem_inter_iff, Set.mem_Ici, Set.mem_Icc]
  exact ⟨fun h => ⟨h.1, h.2.2⟩, fun h => ⟨h.1, h0.trans h.1, h.2⟩⟩

/-- The first draw has the law it should have, and is independent of the rest of the stream. -/
private theorem stream_draw (s : RRTPlanner Pt ℝ) (space : SpaceR2) (hx : space.lb.x < space.ub.x) (hy : space.lb.y < space.ub.y)
    (h0 : 0 ≤ s.params.goalBias) (h1 : s.params.goalBias ≤ 1) {S : Set (ℝ × ℝ)} {E : Set (Nat → ℝ)} (hS : MeasurableSet S)
    (hE : MeasurableSet E) :
    stream {u | drawn s space u 0 ∈ S ∧ rest s.params.goalBias u ∈ E} = drawLaw space s.goal s.params.goalBias S * stream E := by
  obtain ⟨β, hβ⟩ : ∃ β, β = s.params.goalBias := ⟨_, rfl⟩
  rw [← hβ] at h0 h1 ⊢
  obtain ⟨T, hT⟩ : ∃ T : ℝ × ℝ → ℝ × ℝ, T = Prod.map (sampleUniform space.lb.x space.ub.x) (sampleUniform space.lb.y space.ub.y) :=
    ⟨_, rfl⟩
  have hTm : Measurable T := by rw [hT]; unfold sampleUniform; fun_prop
  have hs1 : Measurable fun u : Nat → ℝ => fun n => u (n + 1) := measurable_pi_iff.mpr fun n => measurable_pi_apply (n + 1)
  have hs2 : Measurable fun u : Nat → ℝ => fun n => u (n + 2) := measurable_pi_iff.mpr fun n => measurable_pi_apply (n + 2)
  -- the two kinds of draws
  have hsplit : {u | drawn s space u 0 ∈ S ∧ rest β u ∈ E} =
      {u | u 0 ∈ Set.Iio β ∩ {_v | (s.goal.x, s.goal.y) ∈ S} ∧ (fun n => u (n + 1)) ∈ E} ∪
      {u | u 0 ∈ Set.Ici β ∧ (fun n => u (n + 1)) ∈ {v | (v 0, v 1) ∈ T ⁻¹' S ∧ (fun n => v (n + 2)) ∈ E}} := by
    ext u
    simp only [Set.mem_setOf_eq, Set.mem_union, Set.mem_inter_iff, Set.mem_Iio, Set.mem_Ici, Set.mem_preimage, drawn_zero, ← hβ]
    by_cases hu : u 0 < β
    · have hr : rest β u = fun n => u (n + 1) := by unfold rest; rw [if_pos hu]
      rw [if_pos hu, hr]
      simp [hu, not_le.mpr hu]
    · have hr : rest β u = fun n => u (n + 3) := by unfold rest; rw [if_neg hu]
      rw [if_neg hu, hr, hT]
      simp [hu, not_lt.mp hu, Prod.map]
  have hG : MeasurableSet {v : Nat → ℝ | (v 0, v 1) ∈ T ⁻¹' S ∧ (fun n => v (n + 2)) ∈ E} :=
    MeasurableSet.inter (((measurable_pi_apply (0 : Nat)).prodMk (measurable_pi_apply (1 : Nat))) (hTm hS) :
      MeasurableSet ((fun v : Nat → ℝ => (v 0, v 1)) ⁻¹' (T ⁻¹' S))) (hs2 hE)
  have hG' : MeasurableSet {u : Nat → ℝ | u 0 ∈ Set.Ici β ∧
      (fun n => u (n + 1)) ∈ {v : Nat → ℝ | (v 0, v 1) ∈ T ⁻¹' S ∧ (fun n => v (n + 2)) ∈ E}} :=
    MeasurableSet.inter (measurable_pi_apply (0 : Nat) measurableSet_Ici) (hs1 hG)
  have hC : MeasurableSet {_v : ℝ | (s.goal.x, s.goal.y) ∈ S} := MeasurableSet.const _
  rw [hsplit, measure_union ?_ hG',
    stream_head (measurableSet_Iio.inter hC) hE, stream_head measurableSet_Ici hG, stream_two (hTm hS) hE,
    ← Measure.map_apply hTm hS, hT, ← Measure.map_prod_map _ _ (by unfold sampleUniform; fun_prop) (by unfold sampleUniform; fun_prop),
    map_sampleUniform hx, map_sampleUniform hy, ν_Ici h0 h1, drawLaw, Measure.add_apply, Measure.smul_apply, Measure.smul_apply,
    Measure.dirac_apply' _ hS, smul_eq_mul, smul_eq_mul, add_mul, mul_assoc]
  · congr 1
    by_cases hg : (s.goal.x, s.goal.y) ∈ S
    · simp [hg, ν_Iio h0 h1]
    · simp [hg]
    · rw [mul_assoc]
  · rw [Set.disjoint_left]
    rintro u ⟨⟨h2, -⟩, -⟩ ⟨h3, -⟩
    exact absurd (Set.mem_Iio.mp h2) (not_lt.mpr (Set.mem_Ici.mp h3))

private theorem drawn_stream (s : RRTPlanner Pt ℝ) (space : SpaceR2) (hx : space.lb.x < space.ub.x) (hy : space.lb.y < space.ub.y)
    (h0 : 0 ≤ s.params.goalBias) (h1 : s.params.goalBias ≤ 1) (n : Nat) : ∀ (t : Nat → Set (ℝ × ℝ)), (∀ i, MeasurableSet (t i)) →
    stream {u | ∀ i < n, drawn s space u i ∈ t i} = ∏ i ∈ Finset.range n, drawLaw space s.goal s.params.goalBias (t i) := by
  induction n with
  | zero => intro t _; simp
  | succ n ih =>
    intro t ht
    have hm : MeasurableSet {u | ∀ i < n, drawn s space u i ∈ t (i + 1)} := by
      have : {u | ∀ i < n, drawn s space u i ∈ t (i + 1)} = ⋂ i, ⋂ (_ : i < n), (fun u => drawn s space u i) ⁻¹' t (i + 1) := by
        ext; simp
      rw [this]
      exact MeasurableSet.iInter fun i => MeasurableSet.iInter fun _ => drawn_measurable s space i (ht _)
    have hset : {u | ∀ i < n + 1, drawn s space u i ∈ t i} =
        {u | drawn s space u 0 ∈ t 0 ∧ rest s.params.goalBias u ∈ {u | ∀ i < n, drawn s space u i ∈ t (i + 1)}} := by
      ext u
      simp only [Set.mem_setOf_eq]
      constructor
      · intro h
        exact ⟨h 0 (by omega), fun i hi => by rw [← drawn_rest]; exact h (i + 1) (by omega)⟩
      · rintro ⟨h2, h3⟩ i hi
        cases i with
        | zero => exact h2
        | succ i => rw [drawn_rest]; exact h3 i (by omega)
    rw [hset, stream_draw s space hx hy h0 h1 (ht 0) hm, ih _ (fun i => ht (i + 1)), Finset.prod_range_succ']
    ring

private theorem drawLaw_prob (space : SpaceR2) (goal : Pt) (β : ℝ) (hx : space.lb.x < space.ub.x) (hy : space.lb.y < space.ub.y)
    (h0 : 0 ≤ β) (h1 : β ≤ 1) : IsProbabilityMeasure (drawLaw space goal β) := by
  have p1 : IsProbabilityMeasure (volume[|Set.Icc space.lb.x space.ub.x]) := cond_isProbabilityMeasure_of_finite
    (by rw [Real.volume_Icc]; simpa using hx) (by simp)
  have p2 : IsProbabilityMeasure (volume[|Set.Icc space.lb.y space.ub.y]) := cond_isProbabilityMeasure_of_finite
    (by rw [Real.volume_Icc]; simpa using hy) (by simp)
  constructor
  rw [drawLaw, Measure.add_apply, Measure.smul_apply, Measure.smul_apply, measure_univ, measure_univ, smul_eq_mul, smul_eq_mul,
    mul_one, mul_one, ← ENNReal.ofReal_add h0 (by linarith)]
  simp

private theorem drawn_law_stream (s : RRTPlanner Pt ℝ) (space : SpaceR2) (hx : space.lb.x < space.ub.x)
    (hy : space.lb.y < space.ub.y) (h0 : 0 ≤ s.params.goalBias) (h1 : s.params.goalBias ≤ 1) :
    have := drawLaw_prob space s.goal s.params.goalBias hx hy h0 h1
    stream.map (fun u i => drawn s space u i) = Measure.infinitePi fun _ : Nat => drawLaw space s.goal s.params.goalBias := by
  intro hP
  have hm : Measurable fun u i => drawn s space u i := measurable_pi_iff.mpr fun i => drawn_measurable s space i
  refine Measure.eq_infinitePi _ fun S t ht => ?_
  classical
  rw [Measure.map_apply hm (MeasurableSet.pi S.countable_toSet fun i _ => ht i)]
  obtain ⟨n, hn⟩ := S.exists_nat_subset_range
  have hset : (fun u i => drawn s space u i) ⁻¹' Set.pi (S : Set Nat) t =
      {u | ∀ i < n, drawn s space u i ∈ if i ∈ S then t i else Set.univ} := by
    ext u
    simp only [Set.mem_preimage, Set.mem_pi, Finset.mem_coe, Set.mem_setOf_eq]
    constructor
    · intro h i _
      split
      · exact h i ‹_›
      · trivial
    · intro h i hi
      have := h i (Finset.mem_range.mp (hn hi))
      rwa [if_pos hi] at this
  rw [hset, drawn_stream s space hx hy h0 h1 n _ (fun i => by split; exact ht i; exact MeasurableSet.univ)]
  rw [← Finset.prod_subset hn]
  · exact Finset.prod_congr rfl fun i hi => by rw [if_pos hi]
  · intro i _ hi
    rw [if_neg hi, measure_univ]

/-! ## The theorems -/

section
variable {Ω : Type} [MeasurableSpace Ω] {μ : Measure Ω} {U : Nat → Ω → ℝ}

private theorem stream_of (hU : UniformStream μ U) : μ.map (fun ω n => U n ω) = stream := by
  rw [hU.indep.map_fun_eq_infinitePi_map hU.meas]
  have : (fun i => μ.map (U i)) = fun _ : Nat => ν := funext fun i => hU.law i
  congr 1

/-- C114: the states drawn by a search are independent, and each is the goal with probability `goalBias`, otherwise uniform on the
rectangle of the bounds. -/
theorem C114_draws (hU : UniformStream μ U) (s : RRTPlanner Pt ℝ) (space : SpaceR2) (hx : space.lb.x < space.ub.x)
    (hy : space.lb.y < space.ub.y) (h0 : 0 ≤ s.params.goalBias) (h1 : s.params.goalBias ≤ 1) :
    iIndepFun (fun i ω => drawn s space (fun n => U n ω) i) μ ∧
    ∀ i, μ.map (fun ω => drawn s space (fun n => U n ω) i) = drawLaw space s.goal s.params.goalBias := by
  have hP : IsProbabilityMeasure μ := hU.indep.isProbabilityMeasure
  have hL := drawLaw_prob space s.goal s.params.goalBias hx hy h0 h1
  have hUm : Measurable fun ω n => U n ω := measurable_pi_iff.mpr hU.meas
  have hmi : ∀ i, Measurable fun ω => drawn s space (fun n => U n ω) i := fun i => (drawn_measurable s space i).comp hUm
  have hm : Measurable fun u i => drawn s space u i := measurable_pi_iff.mpr fun i => drawn_measurable s space i
  have hjoint : μ.map (fun ω i => drawn s space (fun n => U n ω) i) =
      Measure.infinitePi fun _ : Nat => drawLaw space s.goal s.params.goalBias := by
    rw [← drawn_law_stream s space hx hy h0 h1, ← stream_of hU, Measure.map_map hm hUm]
    rfl
  have hlaw : ∀ i, μ.map (fun ω => drawn s space (fun n => U n ω) i) = drawLaw space s.goal s.params.goalBias := by
    intro i
    rw [← Measure.infinitePi_map_eval (fun _ : Nat => drawLaw space s.goal s.params.goalBias) i, ← hjoint,
      Measure.map_map (measurable_pi_apply i) (measurable_pi_iff.mpr hmi)]
    rfl
  refine ⟨?_, hlaw⟩
  rw [iIndepFun_iff_map_fun_eq_infinitePi_map hmi, hjoint]
  congr 1
  funext i
  exact (hlaw i).symm

/-- C114: the samples of the plane are uniform on the rectangle of the bounds. -/
theorem C114_uniform_r2 (hU : UniformStream μ U) (space : SpaceR2) (hx : space.lb.x < space.ub.x)
    (hy : space.lb.y < space.ub.y) (m n : Nat) (hmn : m ≠ n) :
    μ.map (fun ω => ((space.sampleUniform (U m ω) (U n ω)).x, (space.sampleUniform (U m ω) (U n ω)).y)) =
      (volume[|Set.Icc space.lb.x space.ub.x]).prod (volume[|Set.Icc space.lb.y space.ub.y]) := by
  have hP : IsProbabilityMeasure μ := hU.indep.isProbabilityMeasure
  have h2 := hU.indep.indepFun hmn
  rw [indepFun_iff_map_prod_eq_prod_map_map (hU.meas m).aemeasurable (hU.meas n).aemeasurable, hU.law, hU.law] at h2
  rw [← map_sampleUniform hx, ← map_sampleUniform hy, Measure.map_prod_map _ _ (by unfold sampleUniform; fun_prop)
    (by unfold sampleUniform; fun_prop), ← h2, Measure.map_map (by unfold sampleUniform; fun_prop) ((hU.meas m).prodMk (hU.meas n))]
  rfl

/-- C114: the samples of poses are uniform on the box of the bounds. -/
theorem C114_uniform_se2 (hU : UniformStream μ U) (space : SpaceSE2) (hx : space.lb.position.x < space.ub.position.x)
    (hy : space.lb.position.y < space.ub.position.y) (ht : space.lb.theta < space.ub.theta) (l m n : Nat) (hlm : l ≠ m)
    (hln : l ≠ n) (hmn : m ≠ n) :
    μ.map (fun ω => (((space.sampleUniform (U l ω) (U m ω) (U n ω)).position.x, (space.sampleUniform (U l ω) (U m ω) (U n ω)).position.y),
      (space.sampleUniform (U l ω) (U m ω) (U n ω)).theta)) =
      ((volume[|Set.Icc space.lb.position.x space.ub.position.x]).prod
        (volume[|Set.Icc space.lb.position.y space.ub.position.y])).prod (volume[|Set.Icc space.lb.theta space.ub.theta]) := by
  have hP : IsProbabilityMeasure μ := hU.indep.isProbabilityMeasure
  have hsm : ∀ a b, Measurable (sampleUniform a b) := fun a b => by unfold sampleUniform; fun_prop
  have h2 := hU.indep.indepFun hlm
  rw [indepFun_iff_map_prod_eq_prod_map_map (hU.meas l).aemeasurable (hU.meas m).aemeasurable, hU.law, hU.law] at h2
  have h3 := hU.indep.indepFun_prodMk hU.meas l m n hln hmn
  rw [indepFun_iff_map_prod_eq_prod_map_map ((hU.meas l).prodMk (hU.meas m)).aemeasurable (hU.meas n).aemeasurable, h2, hU.law] at h3
  rw [← map_sampleUniform hx, ← map_sampleUniform hy, ← map_sampleUniform ht, Measure.map_prod_map _ _ (hsm _ _) (hsm _ _),
    Measure.map_prod_map _ _ ((hsm _ _).prodMap (hsm _ _)) (hsm _ _), ← h3,
    Measure.map_map (((hsm _ _).prodMap (hsm _ _)).prodMap (hsm _ _)) (((hU.meas l).prodMk (hU.meas m)).prodMk (hU.meas n))]
  rfl

/-- C114: each iteration draws the goal with probability `goalBias`. -/
theorem C114_goal_probability (hU : UniformStream μ U) (s : RRTPlanner Pt ℝ) (space : SpaceR2) (hx : space.lb.x < space.ub.x)
    (hy : space.lb.y < space.ub.y) (h0 : 0 ≤ s.params.goalBias) (h1 : s.params.goalBias ≤ 1) (i : Nat) :
    μ {ω | drawn s space (fun n => U n ω) i = (s.goal.x, s.goal.y)} = ENNReal.ofReal s.params.goalBias := by
  have hUm : Measurable fun ω n => U n ω := measurable_pi_iff.mpr hU.meas
  have hmi : Measurable fun ω => drawn s space (fun n => U n ω) i := (drawn_measurable s space i).comp hUm
  have hz : ∀ (a b x : ℝ), (volume[|Set.Icc a b]) {x} = 0 := fun a b x => by
    rw [ProbabilityTheory.cond_apply measurableSet_Icc]
    have : (volume : Measure ℝ) (Set.Icc a b ∩ {x}) = 0 := measure_mono_null Set.inter_subset_right (by simp)
    rw [this, mul_zero]
  have h := (C114_draws hU s space hx hy h0 h1).2 i
  have h2 : μ {ω | drawn s space (fun n => U n ω) i = (s.goal.x, s.goal.y)} =
      (μ.map fun ω => drawn s space (fun n => U n ω) i) {(s.goal.x, s.goal.y)} :=
    (Measure.map_apply hmi (measurableSet_singleton _)).symm
  rw [h2, h, drawLaw, Measure.add_apply, Measure.smul_apply, Measure.smul_apply, Measure.dirac_apply' _ (measurableSet_singleton _),
    ← Set.singleton_prod_singleton, Measure.prod_prod, hz]
  simp

end

/-! ## Example -/

/-- Every iteration of a search with the default parameters draws the goal with probability 1 / 20. -/
example [Inhabited Pt] (i : Nat) : (Measure.infinitePi fun _ : Nat => (volume.restrict (Set.Icc (0 : ℝ) 1) : Measure ℝ))
    {u | drawn exWallPlanner ⟨⟨-3, -3⟩, ⟨3, 3⟩⟩ u i = (2, 1)} = ENNReal.ofReal (1 / 20) :=
  C114_goal_probability uniformStream_infinitePi exWallPlanner ⟨⟨-3, -3⟩, ⟨3, 3⟩⟩ (by norm_num) (by norm_num)
    (by norm_num [exWallPlanner, RRTParams.default]) (by norm_num [exWallPlanner, RRTParams.default]) i

end PathPlanning
