import Verif.Model.FloatCost
import Verif.Lemmas.FloatRel
import Verif.Props.FloatHybrid
import Verif.Props.FloatReedsShepp
import Verif.Props.ReedsShepp

/-!
# C134: the costs of motions with the arithmetic of the program
-/

namespace PathPlanning
open Spec Flt RS HybridAStar

private theorem abs_of_rel {δ x y : ℝ} (h : Rel δ x y) : |y - x| ≤ δ * x := by
  rw [abs_le]; constructor <;> linarith [h.1, h.2]

private theorem rel_of_abs {δ x y : ℝ} (h : |y - x| ≤ δ * x) : Rel δ x y := by
  have := abs_le.1 h; constructor <;> linarith [this.1, this.2]

/-! ## The cost of a Reeds-Shepp path -/

private theorem costLoop_nonneg {R rev fwd sw : ℝ} (hR : 0 ≤ R) (hr : 0 ≤ rev) (hf : 0 ≤ fwd) (hs : 0 ≤ sw) :
    ∀ (ms : List Motion) (prev : Direction) (cost : ℝ), (∀ m ∈ ms.takeWhile Motion.isValid, 0 ≤ m.length.getD 0) → 0 ≤ cost →
      0 ≤ RS.costLoop R rev fwd sw ms prev cost := by
  intro ms
  induction ms with
  | nil => intro prev cost _ h; exact h
  | cons m l ih =>
    intro prev cost hl hc
    unfold RS.costLoop
    by_cases hv : m.isValid = true
    · rw [List.takeWhile_cons, if_pos hv] at hl
      have h0 := hl m (List.mem_cons_self ..)
      rw [if_pos hv]
      refine ih _ _ (fun m' hm' => hl m' (List.mem_cons_of_mem _ hm')) ?_
      have h1 := mul_nonneg h0 hR
      have h2 : 0 ≤ (if m.direction = .forward then m.length.getD 0 * R * fwd
          else if m.direction = .backward then m.length.getD 0 * R * rev else m.length.getD 0 * R) := by
        split
        · exact mul_nonneg h1 hf
        · split
          · exact mul_nonneg h1 hr
          · exact h1
      split <;> linarith
    · rw [if_neg hv]; exact hc

/-- The loop adds up the costs with a relative error of `δ`, and 2⁻²³ for each motion. -/
private theorem loop_rel {R rev fwd sw rev' fwd' sw' : ℝ} (hR : 0 ≤ R) (hr : 0 ≤ rev) (hf : 0 ≤ fwd) (hs : 0 ≤ sw)
    (rr : Rel (2 ^ 24)⁻¹ rev rev') (rf : Rel (2 ^ 24)⁻¹ fwd fwd') (rs : Rel (2 ^ 24)⁻¹ sw sw') :
    ∀ (ms : List Motion) (prev : Direction) (x y δ : ℝ), (∀ m ∈ ms.takeWhile Motion.isValid, 0 ≤ m.length.getD 0) →
      0 ≤ x → Rel δ x y → 6 / 2 ^ 24 ≤ δ → δ + ms.length * (2 / 2 ^ 24) ≤ 1 / 2 →
      Rel (δ + ms.length * (2 / 2 ^ 24)) (RS.costLoop R rev fwd sw ms prev x) (RS.costLoopF R rev' fwd' sw' ms prev y) := by
  intro ms
  induction ms with
  | nil =>
    intro prev x y δ _ hx h h6 hδ
    unfold RS.costLoop RS.costLoopF
    exact h.mono hx (by simp)
  | cons m l ih =>
    intro prev x y δ hl hx h h6 hδ
    unfold RS.costLoop RS.costLoopF
    by_cases hv : m.isValid = true
    · rw [List.takeWhile_cons, if_pos hv] at hl
      have h0 := hl m (List.mem_cons_self ..)
      rw [if_pos hv, if_pos hv]
      dsimp only
      have h1 := mul_nonneg h0 hR
      have r1 : Rel (3 / 2 * (2 ^ 24)⁻¹) (m.length.getD 0 * R) (fl32 (fl64 (m.length.getD 0 * R))) := by
        have a := Rel.fl 53 h1
        exact (a.trans h1 (Rel.fl 24 (a.nonneg h1 (by norm_num))) (by positivity) (by norm_num) (by positivity)
          (by norm_num)).mono h1 (by norm_num)
      obtain ⟨c, hc⟩ : ∃ c, c = (if m.direction = .forward then m.length.getD 0 * R * fwd
          else if m.direction = .backward then m.length.getD 0 * R * rev else m.length.getD 0 * R) := ⟨_, rfl⟩
      obtain ⟨c', hc'⟩ : ∃ c', c' = (if m.direction = .forward then fl32 (fl32 (fl64 (m.length.getD 0 * R)) * fwd')
          else if m.direction = .backward then fl32 (fl32 (fl64 (m.length.getD 0 * R)) * rev')
          else fl32 (fl64 (m.length.getD 0 * R))) := ⟨_, rfl⟩
      rw [← hc, ← hc']
      have scaled : ∀ k k' : ℝ, 0 ≤ k → Rel (2 ^ 24)⁻¹ k k' →
          0 ≤ m.length.getD 0 * R * k ∧ Rel (4 * (2 ^ 24)⁻¹) (m.length.getD 0 * R * k)
            (fl32 (fl32 (fl64 (m.length.getD 0 * R)) * k')) := by
        intro k k' hk rk
        have n := mul_nonneg h1 hk
        have a := Rel.mul h1 hk r1 rk (by positivity) (by norm_num) (by positivity) (by norm_num)
        exact ⟨n, (a.trans n (Rel.fl 24 (a.nonneg n (by norm_num))) (by positivity) (by norm_num) (by positivity)
          (by norm_num)).mono n (by norm_num)⟩
      have r2 : 0 ≤ c ∧ Rel (4 * (2 ^ 24)⁻¹) c c' := by
        rw [hc, hc']
        split
        · exact scaled _ _ hf rf
        · split
          · exact scaled _ _ hr rr
          · exact ⟨h1, r1.mono h1 (by norm_num)⟩
      obtain ⟨d, hd⟩ : ∃ d, d = (if m.direction ≠ prev then c + sw else c) := ⟨_, rfl⟩
      obtain ⟨d', hd'⟩ : ∃ d', d' = (if m.direction ≠ prev then fl32 (c' + sw') else c') := ⟨_, rfl⟩
      rw [← hd, ← hd']
      have r3 : 0 ≤ d ∧ Rel (6 / 2 ^ 24) d d' := by
        rw [hd, hd']
        split
        · have n : 0 ≤ c + sw := add_nonneg r2.1 hs
          have a := r2.2.add (rs.mono hs (by norm_num : ((2 : ℝ) ^ 24)⁻¹ ≤ 4 * (2 ^ 24)⁻¹))
          exact ⟨n, (a.trans n (Rel.fl 24 (a.nonneg n (by norm_num))) (by positivity) (by norm_num) (by positivity)
            (by norm_num)).mono n (by norm_num)⟩
        · exact ⟨r2.1, r2.2.mono r2.1 (by norm_num)⟩
      have n : 0 ≤ x + d := add_nonneg hx r3.1
      have hlen : ((m :: l).length : ℝ) = l.length + 1 := by simp
      rw [hlen] at hδ ⊢
      have hl0 : (0 : ℝ) ≤ l.length * (2 / 2 ^ 24) := by positivity
      have hδ0 : 0 ≤ δ := le_trans (by norm_num) h6
      have hδ1 : δ ≤ 1 := by
        have : δ + (l.length + 1) * (2 / 2 ^ 24) = δ + l.length * (2 / 2 ^ 24) + 2 / 2 ^ 24 := by ring
        rw [this] at hδ
        norm_num at hδ
        norm_num at hl0
        linarith
      have a := h.add (r3.2.mono r3.1 h6)
      have b : Rel (δ + 2 / 2 ^ 24) (x + d) (fl32 (y + d')) := by
        refine (a.trans n (Rel.fl 24 (a.nonneg n hδ1)) hδ0 hδ1 (by positivity) (by norm_num)).mono n ?_
        norm_num
        linarith
      have e : δ + (↑l.length + 1) * (2 / 2 ^ 24) = δ + 2 / 2 ^ 24 + ↑l.length * (2 / 2 ^ 24) := by ring
      rw [e] at hδ ⊢
      exact ih m.direction (x + d) (fl32 (y + d')) (δ + 2 / 2 ^ 24) (fun m' hm' => hl m' (List.mem_cons_of_mem _ hm')) n b
        (by linarith [show (0 : ℝ) ≤ 2 / 2 ^ 24 by positivity]) hδ
    · rw [if_neg hv, if_neg hv]
      exact h.mono hx (by linarith [show (0 : ℝ) ≤ ((m :: l).length : ℝ) * (2 / 2 ^ 24) by positivity])

private theorem isFlt_sw {x : ℝ} (h : fl32 x = 0) : x = 0 := by
  have h1 := abs_le.1 (fl_rel 24 x)
  rw [show fl 24 x = 0 from h] at h1
  rcases le_total 0 x with h0 | h0
  · rw [abs_of_nonneg h0] at h1; norm_num at h1; linarith [h1.1]
  · rw [abs_of_nonpos h0] at h1; norm_num at h1; linarith [h1.2]

/-- The exact cost of the motions is the result of the exact loop. -/
private theorem weighted_loop (s : Segment) (hs : DoubleSegment s) (m : Motion) (l : List Motion) (hm : s.motions = m :: l)
    (hv : m.isValid = true) (R rev fwd sw : ℝ) :
    RS.costLoop R rev fwd sw s.motions m.direction 0 = weightedCost R rev fwd sw s.valid := by
  have key : ∀ rev : ℝ, ¬ (rev = 1 ∧ sw = 0) →
      RS.costLoop R rev fwd sw s.motions m.direction 0 = weightedCost R rev fwd sw s.valid := by
    intro rev h
    have w : WellFormed ⟨s.motions, totalLength (stretches 1 s.motions)⟩ := ⟨fun x hx => (hs.1 x hx).1, rfl⟩
    have hne : (⟨s.motions, totalLength (stretches 1 s.motions)⟩ : Segment).motions.takeWhile Motion.isValid ≠ [] := by
      show s.motions.takeWhile Motion.isValid ≠ []
      rw [hm, List.takeWhile_cons, if_pos hv]; simp
    have := C51_cost_partial _ w R rev fwd sw hne (.inl h)
    unfold RS.Segment.computeCost at this
    dsimp only at this
    rw [hm] at this
    dsimp only at this
    rw [if_pos hv, if_neg h] at this
    have := Option.some.inj this
    rw [hm, this, Segment.valid, hm]
  by_cases h : rev = 1 ∧ sw = 0
  · -- both sides are affine in `rev`: take the mean of two other values
    have k2 := key 2 (by rw [h.2]; norm_num)
    have k0 := key 0 (by rw [h.2]; norm_num)
    have affine : ∀ (ms : List Motion) (prev : Direction) (a b : ℝ),
        2 * RS.costLoop R 1 fwd sw ms prev ((a + b) / 2) =
          RS.costLoop R 2 fwd sw ms prev a + RS.costLoop R 0 fwd sw ms prev b := by
      intro ms
      induction ms with
      | nil => intro prev a b; simp only [RS.costLoop]; ring
      | cons m l ih =>
        intro prev a b
        simp only [RS.costLoop]
        split
        · rw [← ih]
          congr 2
          split <;> split <;> (try split) <;> ring
        · ring
    have affine' : ∀ ms : List Motion,
        2 * (ms.map (motionCost R 1 fwd)).sum = (ms.map (motionCost R 2 fwd)).sum + (ms.map (motionCost R 0 fwd)).sum := by
      intro ms
      induction ms with
      | nil => simp
      | cons m l ih =>
        simp only [List.map_cons, List.sum_cons, mul_add, ih, motionCost]
        split <;> ring
    have a1 := affine s.motions m.direction 0 0
    have a2 := affine' s.valid
    rw [show ((0 : ℝ) + 0) / 2 = 0 by norm_num, k2, k0] at a1
    rw [h.1]
    unfold weightedCost at a1 ⊢
    linarith
  · exact key rev h

private theorem weighted_nonneg {R rev fwd sw : ℝ} (hR : 0 ≤ R) (hr : 0 ≤ rev) (hf : 0 ≤ fwd) (hsw : 0 ≤ sw) (ms : List Motion)
    (h : ∀ m ∈ ms, 0 ≤ m.length.getD 0) : 0 ≤ weightedCost R rev fwd sw ms := by
  unfold weightedCost
  refine add_nonneg (List.sum_nonneg fun x hx => ?_) (mul_nonneg hsw (Nat.cast_nonneg _))
  obtain ⟨m, hm, rfl⟩ := List.mem_map.1 hx
  unfold motionCost
  refine mul_nonneg (mul_nonneg hR (h m hm)) ?_
  split
  · exact hf
  · exact hr

/-- With multipliers that are rounded to 1 and no switching cost, the cost is the length. -/
private theorem weighted_one {R rev fwd : ℝ} (hR : 0 ≤ R) (hr : 0 ≤ rev) (hf : 0 ≤ fwd) (rr : Rel (2 ^ 24)⁻¹ rev 1)
    (rf : Rel (2 ^ 24)⁻¹ fwd 1) (ms : List Motion) (h : ∀ m ∈ ms, 0 ≤ m.length.getD 0) :
    Rel (2 ^ 23)⁻¹ (weightedCost R rev fwd 0 ms) (driven R ms) := by
  unfold weightedCost driven
  rw [zero_mul, add_zero]
  induction ms with
  | nil => simp only [List.map_nil, List.sum_nil, zero_mul]; constructor <;> simp
  | cons m l ih =>
    have ih := ih fun x hx => h x (List.mem_cons_of_mem _ hx)
    have h0 := mul_nonneg hR (h m (List.mem_cons_self ..))
    simp only [List.map_cons, List.sum_cons, add_mul]
    refine Rel.add ?_ ih
    have e : m.length.getD 0 * R = R * m.length.getD 0 * 1 := by ring
    rw [e]
    unfold motionCost
    split
    · exact (Rel.mul h0 hf (Rel.refl _) rf (by norm_num) (by norm_num) (by positivity) (by norm_num)).mono
        (mul_nonneg h0 hf) (by norm_num)
    · exact (Rel.mul h0 hr (Rel.refl _) rr (by norm_num) (by norm_num) (by positivity) (by norm_num)).mono
        (mul_nonneg h0 hr) (by norm_num)

/-- C134: the cost of a Reeds-Shepp path is the weighted length of its motions and the switching cost of each change of
direction, up to a relative error of 2^-20. Excepted, as in exact arithmetic (C51): a reverse multiplier that is rounded to
1 without switching costs, unless the forward multiplier is rounded to 1, too. -/
theorem C134_reeds_shepp_cost_partial (s : Segment) (hs : DoubleSegment s) (hne : s.valid ≠ []) (R rev fwd sw : ℝ) (hR : 0 ≤ R)
    (hr : 0 ≤ rev) (hf : 0 ≤ fwd) (hsw : 0 ≤ sw) (h : ¬ (fl32 rev = 1 ∧ sw = 0) ∨ fl32 fwd = 1) :
    ∃ c, pathCostF s R sw rev fwd = some c ∧ 0 ≤ c ∧
      |c - weightedCost R rev fwd sw s.valid| ≤ (2 ^ 20)⁻¹ * weightedCost R rev fwd sw s.valid := by
  have hlen : ∀ m ∈ s.valid, 0 ≤ m.length.getD 0 := fun m hm => (hs.1 m hm).1
  have n := weighted_nonneg hR hr hf hsw s.valid hlen
  suffices key : ∃ c, pathCostF s R sw rev fwd = some c ∧ Rel (2 ^ 20)⁻¹ (weightedCost R rev fwd sw s.valid) c by
    obtain ⟨c, h1, h2⟩ := key
    exact ⟨c, h1, h2.nonneg n (by norm_num), abs_of_rel h2⟩
  unfold pathCostF RS.Segment.computeCostF
  cases hm : s.motions with
  | nil => exact absurd (by rw [Segment.valid, hm]; rfl) hne
  | cons m l =>
    have hv : m.isValid = true := by
      by_contra hv
      apply hne
      rw [Segment.valid, hm, List.takeWhile_cons, if_neg hv]
    dsimp only
    rw [if_pos hv]
    have rr := Rel.fl 24 hr
    have rf := Rel.fl 24 hf
    have rs := Rel.fl 24 hsw
    split
    · rename_i h1
      refine ⟨_, rfl, ?_⟩
      have hsw0 := isFlt_sw h1.2
      have hfw : fl32 fwd = 1 := h.resolve_left (not_not.mpr ⟨h1.1, hsw0⟩)
      rw [show fl 24 rev = 1 from h1.1] at rr
      rw [show fl 24 fwd = 1 from hfw] at rf
      have w := weighted_one hR hr hf rr rf s.valid hlen
      rw [hsw0] at n ⊢
      have d0 := w.nonneg n (by norm_num)
      have e : Rel (2 ^ 40)⁻¹ (driven R s.valid) (fl64 (s.length * R)) := by
        apply rel_of_abs
        refine le_trans (C132_length s hs R hR) ?_
        norm_num
        linarith
      have a := w.trans n e (by positivity) (by norm_num) (by positivity) (by norm_num)
      exact (a.trans n (Rel.fl 24 (a.nonneg n (by norm_num))) (by positivity) (by norm_num) (by positivity)
        (by norm_num)).mono n (by norm_num)
    · refine ⟨_, rfl, ?_⟩
      have five : ((m :: l).length : ℝ) ≤ 5 := by
        have := hs.2.1
        rw [hm] at this
        exact_mod_cast this
      have hx := loop_rel hR hr hf hsw rr rf rs (m :: l) m.direction 0 0 (6 / 2 ^ 24)
        (by rw [← hm]; exact hlen) le_rfl (by constructor <;> simp) le_rfl (by
          norm_num at five ⊢; linarith)
      rw [← hm, weighted_loop s hs m l hm hv] at hx
      rw [← hm] at five
      rw [← hm]
      refine hx.mono n ?_
      norm_num
      linarith

/-- C134: a path without motions costs infinity. -/
theorem C134_no_motion (s : Segment) (hne : s.valid = []) (R rev fwd sw : ℝ) : pathCostF s R sw rev fwd = none := by
  unfold pathCostF RS.Segment.computeCostF
  unfold Segment.valid at hne
  split
  · rfl
  · rename_i m l hm
    rw [hm, List.takeWhile_cons] at hne
    split at hne
    · cases hne
    · rename_i hv; rw [if_neg hv]

/-! ## The choice of a word -/

private theorem fold_best (paths : Nat → Option Segment) (R rev fwd sw : ℝ) : ∀ (l : List Nat) (b : BestCost),
    (∀ x, b = some x → ∃ w, paths w = some x.2.2 ∧ (x.2.2).computeCostF R rev fwd sw = some x.1) →
    (∀ x, l.foldl (optimalStepF paths R rev fwd sw) b = some x →
      (b = some x ∨ x.2.1 ∈ l ∧ paths x.2.1 = some x.2.2) ∧ (x.2.2).computeCostF R rev fwd sw = some x.1) ∧
    (∀ y, b = some y → ∃ x, l.foldl (optimalStepF paths R rev fwd sw) b = some x ∧ x.1 ≤ y.1) ∧
    (∀ w ∈ l, ∀ p c, paths w = some p → p.computeCostF R rev fwd sw = some c →
      ∃ x, l.foldl (optimalStepF paths R rev fwd sw) b = some x ∧ x.1 ≤ c) := by
  intro l
  induction l with
  | nil =>
    intro b hb
    refine ⟨fun x hx => ?_, fun y hy => ⟨y, hy, le_rfl⟩, fun w hw => absurd hw List.not_mem_nil⟩
    obtain ⟨w, -, h⟩ := hb x hx
    exact ⟨.inl hx, h⟩
  | cons v l ih =>
    intro b hb
    rw [List.foldl_cons]
    obtain ⟨b', hb'⟩ : ∃ b', b' = optimalStepF paths R rev fwd sw b v := ⟨_, rfl⟩
    rw [← hb']
    -- what one iteration does
    have step : b' = b ∧ (∀ p, paths v = some p → ∀ c, p.computeCostF R rev fwd sw = some c → ∃ y, b = some y ∧ y.1 ≤ c) ∨
        ∃ p c, paths v = some p ∧ p.computeCostF R rev fwd sw = some c ∧ b' = some (c, v, p) ∧ ∀ y, b = some y → c ≤ y.1 := by
      rw [hb']
      unfold optimalStepF
      cases hp : paths v with
      | none => left; simp
      | some p =>
        dsimp only
        cases hc : p.computeCostF R rev fwd sw with
        | none => left; refine ⟨rfl, ?_⟩; rintro q hq c hc'; cases hq; rw [hc] at hc'; cases hc'
        | some c =>
          cases b with
          | none => right; exact ⟨p, c, rfl, hc, rfl, by simp⟩
          | some y =>
            dsimp only
            split
            · rename_i hlt
              right; exact ⟨p, c, rfl, hc, rfl, by rintro z hz; cases hz; exact hlt.le⟩
            · rename_i hlt
              left
              refine ⟨rfl, ?_⟩
              rintro q hq c' hc'
              cases hq
              rw [hc] at hc'
              cases hc'
              exact ⟨y, rfl, not_lt.mp hlt⟩
    rcases step with ⟨h1, h2⟩ | ⟨p, c, hp, hc, h1, h2⟩
    · rw [h1]
      obtain ⟨i1, i2, i3⟩ := ih b hb
      refine ⟨fun x hx => ?_, i2, ?_⟩
      · obtain ⟨j, j'⟩ := i1 x hx
        exact ⟨j.imp_right fun k => ⟨List.mem_cons_of_mem _ k.1, k.2⟩, j'⟩
      · intro w hw q c hq hc
        rcases List.mem_cons.1 hw with rfl | hw
        · obtain ⟨y, hy, hyc⟩ := h2 q hq c hc
          obtain ⟨x, hx, hxy⟩ := i2 y hy
          exact ⟨x, hx, le_trans hxy hyc⟩
        · exact i3 w hw q c hq hc
    · rw [h1]
      obtain ⟨i1, i2, i3⟩ := ih (some (c, v, p)) (by rintro x hx; cases hx; exact ⟨v, hp, hc⟩)
      refine ⟨fun x hx => ?_, fun y hy => ?_, ?_⟩
      · obtain ⟨j, j'⟩ := i1 x hx
        refine ⟨.inr ?_, j'⟩
        rcases j with j | j
        · cases j; exact ⟨List.mem_cons_self .., hp⟩
        · exact ⟨List.mem_cons_of_mem _ j.1, j.2⟩
      · obtain ⟨x, hx, hxc⟩ := i2 _ rfl
        exact ⟨x, hx, le_trans hxc (h2 y hy)⟩
      · intro w hw q c' hq hc'
        rcases List.mem_cons.1 hw with rfl | hw
        · rw [hp] at hq; cases hq
          rw [hc] at hc'; cases hc'
          exact i2 _ rfl
        · exact i3 w hw q c' hq hc'

/-- C134: `GetOptimalPath` returns the path of one of the 48 words, if one of them has a path, and no path of a word costs
less, up to a relative error of 2^-18. The paths of the words are those of the program: `paths w` is arbitrary. -/
theorem C134_optimal_partial (paths : Nat → Option Segment) (hp : ∀ w < 48, ∀ p, paths w = some p → DoubleSegment p ∧ p.valid ≠ [])
    (hex : ∃ w < 48, ∃ p, paths w = some p) (R rev fwd sw : ℝ) (hR : 0 ≤ R)
    (hr : 0 ≤ rev) (hf : 0 ≤ fwd) (hsw : 0 ≤ sw) (h : ¬ (fl32 rev = 1 ∧ sw = 0) ∨ fl32 fwd = 1) :
    ∃ w < 48, ∃ p, paths w = some p ∧ optimalPathF paths R (fl32 rev) (fl32 fwd) (fl32 sw) = p ∧
      ∀ w' < 48, ∀ p', paths w' = some p' →
        weightedCost R rev fwd sw p.valid ≤ (1 + (2 ^ 18)⁻¹) * weightedCost R rev fwd sw p'.valid := by
  obtain ⟨i1, -, i3⟩ := fold_best paths R (fl32 rev) (fl32 fwd) (fl32 sw) (List.range 48) none (by simp)
  obtain ⟨w0, hw0, p0, hp0⟩ := hex
  obtain ⟨d0, n0⟩ := hp w0 hw0 p0 hp0
  obtain ⟨c0, hc0, -⟩ := C134_reeds_shepp_cost_partial p0 d0 n0 R rev fwd sw hR hr hf hsw h
  obtain ⟨x, hx, -⟩ := i3 w0 (List.mem_range.2 hw0) p0 c0 hp0 hc0
  obtain ⟨j, jc⟩ := i1 x hx
  obtain ⟨hw, hpw⟩ := j.resolve_left (by simp)
  have hw := List.mem_range.1 hw
  refine ⟨x.2.1, hw, x.2.2, hpw, ?_, ?_⟩
  · unfold optimalPathF
    rw [hx]
  · intro w' hw' p' hp'
    obtain ⟨d1, n1⟩ := hp _ hw _ hpw
    obtain ⟨d2, n2⟩ := hp w' hw' p' hp'
    obtain ⟨c1, hc1, -, e1⟩ := C134_reeds_shepp_cost_partial _ d1 n1 R rev fwd sw hR hr hf hsw h
    obtain ⟨c2, hc2, -, e2⟩ := C134_reeds_shepp_cost_partial _ d2 n2 R rev fwd sw hR hr hf hsw h
    obtain ⟨y, hy, hyc⟩ := i3 w' (List.mem_range.2 hw') p' c2 hp' hc2
    rw [hx] at hy
    cases hy
    have hc1' : c1 = x.1 := by
      have : (x.2.2).computeCostF R (fl32 rev) (fl32 fwd) (fl32 sw) = some c1 := hc1
      rw [jc] at this
      exact (Option.some.inj this).symm
    rw [← hc1'] at hyc
    have e1 := abs_le.1 e1
    have e2 := abs_le.1 e2
    have m1 := weighted_nonneg hR hr hf hsw x.2.2.valid fun m hm => (d1.1 m hm).1
    have m2 := weighted_nonneg hR hr hf hsw p'.valid fun m hm => (d2.1 m hm).1
    norm_num at e1 e2 ⊢
    linarith [e1.1, e2.2]

/-! ## The Voronoi term -/

private theorem loopV (field : ℝ → Option ℝ) (h L length v : ℝ) :
    voronoiLoopF field h L length v =
      if length < L then (field (fl64 (length / L))).bind fun c => voronoiLoopF field h L (fl64 (length + h)) c
      else some v := by
  rw [voronoiLoopF]
  rfl

private theorem stepV {h : ℝ} (hf : IsFlt 24 h) {n : Nat} (hn : n < 2 ^ 29) : fl64 ((n : ℝ) * h + h) = ((n + 1 : Nat) : ℝ) * h := by
  rw [← float_multiple hf (Nat.succ_le_of_lt hn)]
  congr 1
  push_cast
  ring

private theorem below {h L : ℝ} (hp : 0 < h) (hL : L ≤ 2 ^ 28 * h) {n : Nat} (hn : (n : ℝ) * h < L) : n < 2 ^ 29 := by
  have : (n : ℝ) * h < 2 ^ 28 * h := lt_of_lt_of_le hn hL
  have : (n : ℝ) < 2 ^ 28 := lt_of_mul_lt_mul_right this hp.le
  have : n < 2 ^ 28 := by exact_mod_cast this
  omega

/-- The loop that reaches the sample `m` returns the potential there. -/
private theorem loop_last {field : ℝ → Option ℝ} {h L : ℝ} (hp : 0 < h) (hf : IsFlt 24 h) (hL : L ≤ 2 ^ 28 * h) {m : Nat}
    (hm : (m : ℝ) * h < L) (hm' : L ≤ (m + 1) * h)
    (hd : ∀ k : Nat, (k : ℝ) * h < L → ∃ c, field (fl64 ((k : ℝ) * h / L)) = some c) :
    ∀ (j n : Nat) (v : ℝ), n + j = m → voronoiLoopF field h L ((n : ℝ) * h) v = field (fl64 ((m : ℝ) * h / L)) := by
  intro j
  induction j with
  | zero =>
    intro n v hn
    obtain rfl : n = m := by omega
    rw [loopV, if_pos hm]
    obtain ⟨c, hc⟩ := hd n hm
    rw [hc, Option.bind_some, stepV hf (below hp hL hm), loopV, if_neg (by push_cast; linarith)]
  | succ j ih =>
    intro n v hn
    have hlt : (n : ℝ) * h < L := by
      refine lt_of_le_of_lt (mul_le_mul_of_nonneg_right ?_ hp.le) hm
      exact_mod_cast (by omega : n ≤ m)
    rw [loopV, if_pos hlt]
    obtain ⟨c, hc⟩ := hd n hlt
    rw [hc, Option.bind_some, stepV hf (below hp hL hlt)]
    exact ih (n + 1) c (by omega)

private theorem loop_undefined {field : ℝ → Option ℝ} {h L : ℝ} (hp : 0 < h) (hf : IsFlt 24 h) (hL : L ≤ 2 ^ 28 * h) {m : Nat}
    (hm : (m : ℝ) * h < L) (hd : field (fl64 ((m : ℝ) * h / L)) = none) :
    ∀ (j n : Nat) (v : ℝ), n + j = m → voronoiLoopF field h L ((n : ℝ) * h) v = none := by
  intro j
  induction j with
  | zero =>
    intro n v hn
    obtain rfl : n = m := by omega
    rw [loopV, if_pos hm, hd, Option.bind_none]
  | succ j ih =>
    intro n v hn
    have hlt : (n : ℝ) * h < L := by
      refine lt_of_le_of_lt (mul_le_mul_of_nonneg_right ?_ hp.le) hm
      exact_mod_cast (by omega : n ≤ m)
    rw [loopV, if_pos hlt]
    cases hc : field (fl64 ((n : ℝ) * h / L)) with
    | none => rfl
    | some c =>
      rw [Option.bind_some, stepV hf (below hp hL hlt)]
      exact ih (n + 1) c (by omega)

private theorem last_sample {h L : ℝ} (hp : 0 < h) (hL : 0 < L) : ∃ m : Nat, (m : ℝ) * h < L ∧ L ≤ (m + 1) * h := by
  have hc : 0 < ⌈L / h⌉₊ := Nat.ceil_pos.2 (div_pos hL hp)
  refine ⟨⌈L / h⌉₊ - 1, ?_, ?_⟩
  · have := Nat.lt_ceil.1 (Nat.sub_lt hc Nat.one_pos)
    rwa [lt_div_iff₀ hp] at this
  · have := Nat.le_ceil (L / h)
    rw [div_le_iff₀ hp] at this
    rw [Nat.cast_sub hc]
    simpa using this

/-- C134: the distance between two samples of the potential is the diagonal of a cell, up to a relative error of 2^-23. -/
theorem C134_sampling_step (resolution : ℝ) (hres : 0 < resolution) :
    |interpLengthF resolution - √2 * resolution| ≤ (2 ^ 23)⁻¹ * (√2 * resolution) ∧ 0 < interpLengthF resolution := by
  have h2 : 0 ≤ √2 := Real.sqrt_nonneg 2
  have n : 0 ≤ resolution * √2 := mul_nonneg hres.le h2
  have a := Rel.mul hres.le h2 (Rel.refl _) (Rel.fl 53 h2) (by norm_num) (by norm_num) (by positivity) (by norm_num)
  have b := a.trans n (Rel.fl 53 (a.nonneg n (by norm_num))) (by positivity) (by norm_num) (by positivity) (by norm_num)
  have c := (b.trans n (Rel.fl 24 (b.nonneg n (by norm_num))) (by positivity) (by norm_num) (by positivity)
    (by norm_num)).mono n (show _ ≤ (2 ^ 23 : ℝ)⁻¹ by norm_num)
  rw [mul_comm (√2)]
  refine ⟨abs_of_rel c, lt_of_lt_of_le ?_ c.1⟩
  have : 0 < resolution * √2 := mul_pos hres (by positivity)
  norm_num
  positivity

private theorem long {resolution L : ℝ} (hres : 0 < resolution) (hlong : L ≤ 2 ^ 28 * resolution) :
    L ≤ 2 ^ 28 * interpLengthF resolution := by
  have h := (abs_le.1 (C134_sampling_step resolution hres).1).1
  have h2 : (1.4 : ℝ) ≤ √2 := Real.le_sqrt_of_sq_le (by norm_num)
  have h3 : 1.4 * resolution ≤ √2 * resolution := mul_le_mul_of_nonneg_right h2 hres.le
  norm_num at h h3 hlong ⊢
  linarith

private theorem voronoi_eq (field : ℝ → Option ℝ) (resolution multiplier L : ℝ) :
    voronoiCostF field resolution multiplier L = (voronoiLoopF field (interpLengthF resolution) L 0 0).bind fun v =>
      some (fl64 (multiplier * fl32 (v * interpLengthF resolution))) := rfl

/-- C134: the Voronoi term of a path is undefined exactly if the potential of one of its samples is, i.e. if the sample is
outside the map: the loop always ends. -/
theorem C134_voronoi_undefined (field : ℝ → Option ℝ) (resolution multiplier L : ℝ) (hres : 0 < resolution)
    (hlong : L ≤ 2 ^ 28 * resolution) :
    voronoiCostF field resolution multiplier L = none ↔
      ∃ n : Nat, n * interpLengthF resolution < L ∧ field (fl64 (n * interpLengthF resolution / L)) = none := by
  have hp := (C134_sampling_step resolution hres).2
  have hL := long hres hlong
  have hf : IsFlt 24 (interpLengthF resolution) := isFlt_fl 24 (by norm_num) _
  obtain ⟨h, hh⟩ : ∃ h, h = interpLengthF resolution := ⟨_, rfl⟩
  rw [voronoi_eq]
  rw [← hh] at hp hL hf ⊢
  constructor
  · intro hn
    by_contra hcon
    push Not at hcon
    rcases le_or_gt L 0 with h0 | h0
    · rw [loopV, if_neg (by linarith)] at hn
      cases hn
    · obtain ⟨m, hm, hm'⟩ := last_sample hp h0
      have hd : ∀ k : Nat, (k : ℝ) * h < L → ∃ c, field (fl64 ((k : ℝ) * h / L)) = some c := by
        intro k hk
        exact Option.ne_none_iff_exists'.1 (hcon k hk)
      have := loop_last hp hf hL hm hm' hd m 0 0 (by omega)
      rw [Nat.cast_zero, zero_mul] at this
      obtain ⟨c, hc⟩ := hd m hm
      rw [this, hc] at hn
      cases hn
  · rintro ⟨n, hn, hd⟩
    have := loop_undefined hp hf hL hn hd n 0 0 (by omega)
    rw [Nat.cast_zero, zero_mul] at this
    rw [this]
    rfl

/-- C134: a path of length 0 has no Voronoi term. -/
theorem C134_voronoi_of_nothing (field : ℝ → Option ℝ) (resolution multiplier : ℝ) :
    voronoiCostF field resolution multiplier 0 = some 0 := by
  rw [voronoi_eq, loopV, if_neg (lt_irrefl _), Option.bind_some, zero_mul]
  have h1 : fl32 0 = 0 := fl_zero 24
  have h2 : fl64 0 = 0 := fl_zero 53
  rw [h1, mul_zero, h2]

/-- The potential `c` of a path is read at the distance `d`: on the path, at most the diagonal of a cell before the end. -/
def LastSample (field : ℝ → Option ℝ) (resolution L d c : ℝ) : Prop :=
  0 ≤ d ∧ d < L ∧ L ≤ d + (1 + (2 ^ 23)⁻¹) * (√2 * resolution) ∧ field (fl64 (d / L)) = some c

private theorem voronoi_rel (field : ℝ → Option ℝ) (resolution multiplier L : ℝ) (hres : 0 < resolution) (hL : 0 < L)
    (hlong : L ≤ 2 ^ 28 * resolution) (hm : 0 ≤ multiplier)
    (hfield : ∀ r, 0 ≤ r → r ≤ 1 → ∃ c, field r = some c ∧ 0 ≤ c) :
    ∃ d c v, LastSample field resolution L d c ∧ 0 ≤ c ∧ voronoiCostF field resolution multiplier L = some v ∧
      Rel (2 ^ 22)⁻¹ (multiplier * c * (√2 * resolution)) v := by
  obtain ⟨hs, hp⟩ := C134_sampling_step resolution hres
  have hL' := long hres hlong
  have hf : IsFlt 24 (interpLengthF resolution) := isFlt_fl 24 (by norm_num) _
  have hx := rel_of_abs hs
  rw [voronoi_eq]
  obtain ⟨h, hh⟩ : ∃ h, h = interpLengthF resolution := ⟨_, rfl⟩
  rw [← hh] at hp hL' hf hx ⊢
  obtain ⟨k, hk, hk'⟩ := last_sample hp hL
  have ratio : ∀ n : Nat, (n : ℝ) * h < L → 0 ≤ fl64 ((n : ℝ) * h / L) ∧ fl64 ((n : ℝ) * h / L) ≤ 1 := by
    intro n hn
    have h0 : 0 ≤ (n : ℝ) * h / L := div_nonneg (mul_nonneg (Nat.cast_nonneg _) hp.le) hL.le
    have h1 : (n : ℝ) * h / L ≤ 1 := (div_le_one hL).2 hn.le
    refine ⟨fl_nonneg 53 h0, ?_⟩
    have := fl_mono 53 (by norm_num) h1
    have one : fl 53 1 = 1 := by have := fl_int (p := 53) (by norm_num) (n := 1) (by norm_num); simpa using this
    rw [one] at this
    exact this
  have hd : ∀ n : Nat, (n : ℝ) * h < L → ∃ c, field (fl64 ((n : ℝ) * h / L)) = some c := by
    intro n hn
    obtain ⟨c, hc, -⟩ := hfield _ (ratio n hn).1 (ratio n hn).2
    exact ⟨c, hc⟩
  obtain ⟨c, hc, c0⟩ := hfield _ (ratio k hk).1 (ratio k hk).2
  have hl := loop_last hp hf hL' hk hk' hd k 0 0 (by omega)
  rw [Nat.cast_zero, zero_mul, hc] at hl
  have n0 : 0 ≤ √2 * resolution := mul_nonneg (Real.sqrt_nonneg 2) hres.le
  refine ⟨k * h, c, fl64 (multiplier * fl32 (c * h)), ⟨mul_nonneg (Nat.cast_nonneg _) hp.le, hk, ?_, hc⟩, c0,
    by rw [hl, Option.bind_some], ?_⟩
  · have := hx.2
    linarith
  · have n1 := mul_nonneg c0 n0
    have a := Rel.mul c0 n0 (Rel.refl _) hx (by norm_num) (by norm_num) (by positivity) (by norm_num)
    have b := a.trans n1 (Rel.fl 24 (a.nonneg n1 (by norm_num))) (by positivity) (by norm_num) (by positivity) (by norm_num)
    have n2 := mul_nonneg hm n1
    have e := Rel.mul hm n1 (Rel.refl _) b (by norm_num) (by norm_num) (by positivity) (by norm_num)
    rw [mul_assoc]
    exact (e.trans n2 (Rel.fl 53 (e.nonneg n2 (by norm_num))) (by positivity) (by norm_num) (by positivity)
      (by norm_num)).mono n2 (by norm_num)

/-- C134: the Voronoi term of a path is the multiplier times the potential of its last sample times the diagonal of a cell,
up to a relative error of 2^-22. -/
theorem C134_voronoi_cost (field : ℝ → Option ℝ) (resolution multiplier L : ℝ) (hres : 0 < resolution) (hL : 0 < L)
    (hlong : L ≤ 2 ^ 28 * resolution) (hm : 0 ≤ multiplier)
    (hfield : ∀ r, 0 ≤ r → r ≤ 1 → ∃ c, field r = some c ∧ 0 ≤ c) :
    ∃ d c v, LastSample field resolution L d c ∧ voronoiCostF field resolution multiplier L = some v ∧ 0 ≤ v ∧
      |v - multiplier * c * (√2 * resolution)| ≤ (2 ^ 22)⁻¹ * (multiplier * c * (√2 * resolution)) := by
  obtain ⟨d, c, v, h1, h2, h3, h4⟩ := voronoi_rel field resolution multiplier L hres hL hlong hm hfield
  exact ⟨d, c, v, h1, h3, h4.nonneg (mul_nonneg (mul_nonneg hm h2) (mul_nonneg (Real.sqrt_nonneg 2) hres.le)) (by norm_num),
    abs_of_rel h4⟩

/-! ## The costs of the motions of hybrid A* -/

/-- C134: the cost of a motion with constant steering is its length, weighted, plus the Voronoi term, up to a relative
error of 2^-21. -/
theorem C134_steer_cost (field : ℝ → Option ℝ) (resolution voronoi weight L : ℝ) (hres : 0 < resolution) (hL : 0 < L)
    (hlong : L ≤ 2 ^ 28 * resolution) (hv : 0 ≤ voronoi) (hw : 0 ≤ weight)
    (hfield : ∀ r, 0 ≤ r → r ≤ 1 → ∃ c, field r = some c ∧ 0 ≤ c) :
    ∃ d c cost, LastSample field resolution L d c ∧ steerCostF field resolution voronoi weight L = some cost ∧ 0 ≤ cost ∧
      |cost - (weight * L + voronoi * c * (√2 * resolution))| ≤
        (2 ^ 21)⁻¹ * (weight * L + voronoi * c * (√2 * resolution)) := by
  obtain ⟨d, c, v, h1, h2, h3, h4⟩ := voronoi_rel field resolution voronoi L hres hL hlong hv hfield
  have n1 : 0 ≤ voronoi * c * (√2 * resolution) := mul_nonneg (mul_nonneg hv h2) (mul_nonneg (Real.sqrt_nonneg 2) hres.le)
  have n2 : 0 ≤ weight * L := mul_nonneg hw hL.le
  have n := add_nonneg n2 n1
  refine ⟨d, c, fl64 (fl64 (fl64 (weight * L) + 0) + v), h1, ?_, ?_⟩
  · unfold steerCostF
    rw [h3]
    rfl
  have a : Rel (2 ^ 22)⁻¹ (weight * L) (fl64 (fl64 (weight * L) + 0)) := by
    rw [add_zero, show fl64 (fl64 (weight * L)) = fl64 (weight * L) from fl_fl 53 (by norm_num) _]
    exact (Rel.fl 53 n2).mono n2 (by norm_num)
  have b := Rel.add a h4
  have e := (b.trans n (Rel.fl 53 (b.nonneg n (by norm_num))) (by positivity) (by norm_num) (by positivity)
      (by norm_num)).mono n (show _ ≤ (2 ^ 21 : ℝ)⁻¹ by norm_num)
  exact ⟨e.nonneg n (by norm_num), abs_of_rel e⟩

/-- C134: the cost of a Reeds-Shepp path to the goal is the weighted length of its motions, the switching cost of each
change of direction and the Voronoi term, up to a relative error of 2^-19. -/
theorem C134_goal_cost_partial (field : ℝ → Option ℝ) (resolution voronoi : ℝ) (s : Segment) (hs : DoubleSegment s)
    (hne : s.valid ≠ []) (R sw rev fwd : ℝ) (hres : 0 < resolution) (hL : 0 < s.getLengthF R)
    (hlong : s.getLengthF R ≤ 2 ^ 28 * resolution) (hv : 0 ≤ voronoi) (hR : 0 ≤ R) (hr : 0 ≤ rev) (hf : 0 ≤ fwd)
    (hsw : 0 ≤ sw) (h : ¬ (fl32 rev = 1 ∧ sw = 0) ∨ fl32 fwd = 1)
    (hfield : ∀ r, 0 ≤ r → r ≤ 1 → ∃ c, field r = some c ∧ 0 ≤ c) :
    ∃ d c cost, LastSample field resolution (s.getLengthF R) d c ∧
      reedsSheppCostF field resolution voronoi s R sw rev fwd = some cost ∧ 0 ≤ cost ∧
      |cost - (weightedCost R rev fwd sw s.valid + voronoi * c * (√2 * resolution))| ≤
        (2 ^ 19)⁻¹ * (weightedCost R rev fwd sw s.valid + voronoi * c * (√2 * resolution)) := by
  obtain ⟨d, c, v, h1, h2, h3, h4⟩ := voronoi_rel field resolution voronoi _ hres hL hlong hv hfield
  obtain ⟨p, hp, -, hpe⟩ := C134_reeds_shepp_cost_partial s hs hne R rev fwd sw hR hr hf hsw h
  have n1 : 0 ≤ voronoi * c * (√2 * resolution) := mul_nonneg (mul_nonneg hv h2) (mul_nonneg (Real.sqrt_nonneg 2) hres.le)
  have n2 := weighted_nonneg hR hr hf hsw s.valid fun m hm => (hs.1 m hm).1
  have n := add_nonneg n2 n1
  refine ⟨d, c, fl64 (p + v), h1, ?_, ?_⟩
  · unfold reedsSheppCostF
    rw [hp, h3]
    rfl
  have b := Rel.add (rel_of_abs hpe) (h4.mono n1 (show _ ≤ (2 ^ 20 : ℝ)⁻¹ by norm_num))
  have e := (b.trans n (Rel.fl 53 (b.nonneg n (by norm_num))) (by positivity) (by norm_num) (by positivity)
      (by norm_num)).mono n (show _ ≤ (2 ^ 19 : ℝ)⁻¹ by norm_num)
  exact ⟨e.nonneg n (by norm_num), abs_of_rel e⟩

/-! ## Non-vacuity, and the exception -/

private noncomputable def fwdBack : Segment :=
  ⟨[⟨.straight, .forward, some 1⟩, ⟨.left, .backward, some 1⟩, {}, {}, {}], 2⟩

private theorem one64 : fl64 1 = 1 := by
  have := fl_int (p := 53) (by norm_num) (n := 1) (by norm_num); simpa [fl64] using this

private theorem one32 : fl32 1 = 1 := by
  have := fl_int (p := 24) (by norm_num) (n := 1) (by norm_num); simpa [fl32] using this

private theorem two64 : fl64 2 = 2 := by
  have := fl_int (p := 53) (by norm_num) (n := 2) (by norm_num); simpa [fl64] using this

private theorem zero32 : fl32 0 = 0 := fl_zero 24

private theorem fwdBack_valid : fwdBack.valid = [⟨.straight, .forward, some 1⟩, ⟨.left, .backward, some 1⟩] := by
  simp [Segment.valid, fwdBack, List.takeWhile_cons, Motion.isValid]

private theorem fwdBack_double : DoubleSegment fwdBack := by
  refine ⟨?_, by simp [fwdBack], ?_⟩
  · rw [fwdBack_valid]
    intro m hm
    rcases List.mem_pair.1 hm with rfl | rfl <;> exact ⟨by norm_num, one64⟩
  · rw [fwdBack_valid]
    simp only [List.map_cons, List.map_nil, List.foldl_cons, List.foldl_nil, Option.getD_some, zero_add]
    rw [one64, show (1 : ℝ) + 1 = 2 by norm_num, two64]
    rfl

private theorem fwdBack_cost : weightedCost 1 2 1 3 fwdBack.valid = 6 := by
  rw [fwdBack_valid]
  simp [weightedCost, motionCost, switches]
  norm_num

private theorem fwdBack_length : fwdBack.getLengthF 1 = 2 := by
  unfold Segment.getLengthF fwdBack
  dsimp only
  rw [mul_one, two64]

/-- Non-vacuity: a motion forward and one backward, with a switching cost of 3. -/
example : ∃ c, pathCostF fwdBack 1 3 2 1 = some c ∧ 5.9 < c ∧ c < 6.1 := by
  obtain ⟨c, h, -, e⟩ := C134_reeds_shepp_cost_partial fwdBack fwdBack_double (by rw [fwdBack_valid]; simp) 1 2 1 3
    (by norm_num) (by norm_num) (by norm_num) (by norm_num) (.inl (by norm_num))
  rw [fwdBack_cost] at e
  have := abs_le.1 e
  refine ⟨c, h, ?_, ?_⟩ <;> norm_num at this ⊢ <;> linarith [this.1, this.2]

/-- Non-vacuity: one word has a path, so that it is the best. -/
example : optimalPathF (fun w => if w = 7 then some fwdBack else none) 1 (fl32 2) (fl32 1) (fl32 3) = fwdBack := by
  obtain ⟨w, -, p, hp, h, -⟩ := C134_optimal_partial (fun w => if w = 7 then some fwdBack else none)
    (by
      intro w _ p hp
      split at hp
      · cases hp
        exact ⟨fwdBack_double, by rw [fwdBack_valid]; simp⟩
      · cases hp)
    ⟨7, by norm_num, fwdBack, rfl⟩ 1 2 1 3 (by norm_num) (by norm_num) (by norm_num) (by norm_num) (.inl (by norm_num))
  rw [h]
  split at hp
  · exact (Option.some.inj hp).symm
  · cases hp

/-- Non-vacuity: the potential 1/2 everywhere, cells of size 1. -/
example : ∃ cost, reedsSheppCostF (fun _ => some (1 / 2)) 1 4 fwdBack 1 3 2 1 = some cost ∧ 8.7 < cost ∧ cost < 8.9 := by
  obtain ⟨d, c, cost, ⟨-, -, -, hc⟩, h, -, e⟩ := C134_goal_cost_partial (fun _ => some (1 / 2)) 1 4 fwdBack fwdBack_double
    (by rw [fwdBack_valid]; simp) 1 3 2 1 (by norm_num) (by rw [fwdBack_length]; norm_num)
    (by rw [fwdBack_length]; norm_num) (by norm_num) (by norm_num) (by norm_num) (by norm_num) (by norm_num)
    (.inl (by norm_num)) (fun r _ _ => ⟨_, rfl, by norm_num⟩)
  have hc : 1 / 2 = c := Option.some.inj hc
  subst hc
  rw [fwdBack_cost] at e
  have l : (1.414 : ℝ) ≤ √2 := Real.le_sqrt_of_sq_le (by norm_num)
  have u : √2 ≤ (1.415 : ℝ) := Real.sqrt_le_iff.2 (by norm_num)
  have := abs_le.1 e
  refine ⟨cost, h, ?_, ?_⟩ <;> norm_num at this l u ⊢ <;> linarith [this.1, this.2]

/-- Non-vacuity: a forward motion of length 3 in the same field. -/
example : ∃ cost, steerCostF (fun _ => some (1 / 2)) 1 4 1 3 = some cost ∧ 5.8 < cost ∧ cost < 5.9 := by
  obtain ⟨d, c, cost, ⟨-, -, -, hc⟩, h, -, e⟩ := C134_steer_cost (fun _ => some (1 / 2)) 1 4 1 3 (by norm_num)
    (by norm_num) (by norm_num) (by norm_num) (by norm_num) (fun r _ _ => ⟨_, rfl, by norm_num⟩)
  have hc : 1 / 2 = c := Option.some.inj hc
  subst hc
  have l : (1.414 : ℝ) ≤ √2 := Real.le_sqrt_of_sq_le (by norm_num)
  have u : √2 ≤ (1.415 : ℝ) := Real.sqrt_le_iff.2 (by norm_num)
  have := abs_le.1 e
  refine ⟨cost, h, ?_, ?_⟩ <;> norm_num at this l u ⊢ <;> linarith [this.1, this.2]

/-- C134, the exception, violated by the program: a reverse multiplier slightly larger than 1 is rounded to 1 and, without
a switching cost, the forward multiplier is then ignored. The path, one motion forward of length 1, costs 1 instead of 2. -/
theorem C134_forward_multiplier_ignored : ∃ (s : Segment) (rev : ℝ), DoubleSegment s ∧ 1 < rev ∧
    s.valid = [⟨.straight, .forward, some 1⟩] ∧ weightedCost 1 rev 2 0 s.valid = 2 ∧ pathCostF s 1 0 rev 2 = some 1 := by
  have hv : (⟨[⟨.straight, .forward, some 1⟩, {}, {}, {}, {}], 1⟩ : Segment).valid = [⟨.straight, .forward, some 1⟩] := by
    simp [Segment.valid, List.takeWhile_cons, Motion.isValid]
  have hr : fl32 (1 + 1 / 2 ^ 30) = 1 := by
    have := fl_eq (p := 24) (x := 1 + 1 / 2 ^ 30) (n := 2 ^ 23) (e := -23) (by norm_num) (by norm_num) (by norm_num [abs_lt])
    rw [fl32, this]
    norm_num
  refine ⟨⟨[⟨.straight, .forward, some 1⟩, {}, {}, {}, {}], 1⟩, 1 + 1 / 2 ^ 30, ⟨?_, by simp, ?_⟩, by norm_num, hv, ?_, ?_⟩
  · rw [hv]
    intro m hm
    rw [List.mem_singleton.1 hm]
    exact ⟨by norm_num, one64⟩
  · rw [hv]
    simp only [List.map_cons, List.map_nil, List.foldl_cons, List.foldl_nil, Option.getD_some, zero_add]
    rw [one64]
  · rw [hv]
    simp [weightedCost, motionCost, switches]
  · unfold pathCostF RS.Segment.computeCostF
    dsimp only
    rw [if_pos (by simp [Motion.isValid]), if_pos ⟨hr, zero32⟩, mul_one, one64, one32]

end PathPlanning
