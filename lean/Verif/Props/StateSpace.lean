import Verif.Model.StateSpace
import Mathlib.Tactic.Linarith
import Mathlib.Tactic.NormNum

/-!
# C43, C44, C65: bounds and sampling of the state spaces
-/

namespace PathPlanning

private theorem clampR_spec {v lo hi : ℝ} (h : lo ≤ hi) :
    lo ≤ clampR v lo hi ∧ clampR v lo hi ≤ hi ∧ (lo ≤ v → v ≤ hi → clampR v lo hi = v) ∧
    ∀ w, lo ≤ w → w ≤ hi → |v - clampR v lo hi| ≤ |v - w| := by
  unfold clampR
  split
  · rename_i h1
    refine ⟨le_rfl, h, fun h2 => absurd h1 (not_lt.mpr h2), fun w h2 h3 => ?_⟩
    rw [abs_of_neg (by linarith), abs_of_neg (by linarith)]; linarith
  · rename_i h1
    split
    · rename_i h2
      refine ⟨h, le_rfl, fun _ h3 => absurd h2 (not_lt.mpr h3), fun w h3 h4 => ?_⟩
      rw [abs_of_pos (by linarith), abs_of_pos (by linarith)]; linarith
    · rename_i h2
      refine ⟨not_lt.mp h1, not_lt.mp h2, fun _ _ => rfl, fun w _ _ => ?_⟩
      rw [sub_self, abs_zero]; exact abs_nonneg _

/-- C43, C44: what `ValidateBounds` means. -/
theorem C43_r2_validate (s : SpaceR2) (p : Pt) : s.validateBounds p = true ↔
    (s.lb.x ≤ p.x ∧ p.x ≤ s.ub.x) ∧ (s.lb.y ≤ p.y ∧ p.y ≤ s.ub.y) := by
  unfold SpaceR2.validateBounds
  split
  · rename_i h; constructor
    · intro h'; cases h'
    · rintro ⟨⟨h1, h2⟩, _⟩
      rcases h with h | h <;> linarith
  · rename_i h
    obtain ⟨h1, h2⟩ := not_or.mp h
    split
    · rename_i h'; constructor
      · intro h'; cases h'
      · rintro ⟨_, ⟨h3, h4⟩⟩
        rcases h' with h | h <;> linarith
    · rename_i h'
      obtain ⟨h3, h4⟩ := not_or.mp h'
      exact ⟨fun _ => ⟨⟨not_lt.mp h1, not_lt.mp h2⟩, not_lt.mp h3, not_lt.mp h4⟩, fun _ => rfl⟩

theorem C43_se2_validate (s : SpaceSE2) (p : PoseR) : s.validateBounds p = true ↔
    (s.lb.position.x ≤ p.position.x ∧ p.position.x ≤ s.ub.position.x) ∧
    (s.lb.position.y ≤ p.position.y ∧ p.position.y ≤ s.ub.position.y) ∧
    (s.lb.theta ≤ p.theta ∧ p.theta ≤ s.ub.theta) := by
  unfold SpaceSE2.validateBounds
  split
  · rename_i h; constructor
    · intro h'; cases h'
    · rintro ⟨⟨h1, h2⟩, _⟩
      rcases h with h | h <;> linarith
  · rename_i h
    obtain ⟨h1, h2⟩ := not_or.mp h
    split
    · rename_i h'; constructor
      · intro h'; cases h'
      · rintro ⟨_, ⟨h3, h4⟩, _⟩
        rcases h' with h | h <;> linarith
    · rename_i h'
      obtain ⟨h3, h4⟩ := not_or.mp h'
      split
      · rename_i h''; constructor
        · intro h'; cases h'
        · rintro ⟨_, _, ⟨h3, h4⟩⟩
          rcases h'' with h | h <;> linarith
      · rename_i h''
        obtain ⟨h5, h6⟩ := not_or.mp h''
        exact ⟨fun _ => ⟨⟨not_lt.mp h1, not_lt.mp h2⟩, ⟨not_lt.mp h3, not_lt.mp h4⟩,
          not_lt.mp h5, not_lt.mp h6⟩, fun _ => rfl⟩

/-- Bounds in order. -/
def SpaceR2.Ordered (s : SpaceR2) : Prop := s.lb.x ≤ s.ub.x ∧ s.lb.y ≤ s.ub.y
def SpaceSE2.Ordered (s : SpaceSE2) : Prop :=
  s.lb.position.x ≤ s.ub.position.x ∧ s.lb.position.y ≤ s.ub.position.y ∧ s.lb.theta ≤ s.ub.theta

/-- C43. `EnforceBounds` gives a valid state, leaves valid states alone, is idempotent, and moves
each coordinate to the nearest allowed value. -/
theorem C43_r2 (s : SpaceR2) (h : s.Ordered) (p : Pt) :
    s.validateBounds (s.enforceBounds p) = true ∧
    (s.validateBounds p = true → s.enforceBounds p = p) ∧
    s.enforceBounds (s.enforceBounds p) = s.enforceBounds p ∧
    ∀ q, s.validateBounds q = true →
      |p.x - (s.enforceBounds p).x| ≤ |p.x - q.x| ∧ |p.y - (s.enforceBounds p).y| ≤ |p.y - q.y| := by
  obtain ⟨x1, x2, x3, x4⟩ := clampR_spec (v := p.x) h.1
  obtain ⟨y1, y2, y3, y4⟩ := clampR_spec (v := p.y) h.2
  have hv : s.validateBounds (s.enforceBounds p) = true :=
    (C43_r2_validate s _).mpr ⟨⟨x1, x2⟩, y1, y2⟩
  have hid : ∀ p : Pt, s.validateBounds p = true → s.enforceBounds p = p := by
    intro p hp
    obtain ⟨⟨h1, h2⟩, h3, h4⟩ := (C43_r2_validate s p).mp hp
    ext
    · exact (clampR_spec h.1).2.2.1 h1 h2
    · exact (clampR_spec h.2).2.2.1 h3 h4
  refine ⟨hv, hid p, hid _ hv, fun q hq => ?_⟩
  obtain ⟨⟨h1, h2⟩, h3, h4⟩ := (C43_r2_validate s q).mp hq
  exact ⟨x4 _ h1 h2, y4 _ h3 h4⟩

theorem C43_se2 (s : SpaceSE2) (h : s.Ordered) (p : PoseR) :
    s.validateBounds (s.enforceBounds p) = true ∧
    (s.validateBounds p = true → s.enforceBounds p = p) ∧
    s.enforceBounds (s.enforceBounds p) = s.enforceBounds p ∧
    ∀ q, s.validateBounds q = true →
      |p.position.x - (s.enforceBounds p).position.x| ≤ |p.position.x - q.position.x| ∧
      |p.position.y - (s.enforceBounds p).position.y| ≤ |p.position.y - q.position.y| ∧
      |p.theta - (s.enforceBounds p).theta| ≤ |p.theta - q.theta| := by
  obtain ⟨x1, x2, x3, x4⟩ := clampR_spec (v := p.position.x) h.1
  obtain ⟨y1, y2, y3, y4⟩ := clampR_spec (v := p.position.y) h.2.1
  obtain ⟨t1, t2, t3, t4⟩ := clampR_spec (v := p.theta) h.2.2
  have hv : s.validateBounds (s.enforceBounds p) = true :=
    (C43_se2_validate s _).mpr ⟨⟨x1, x2⟩, ⟨y1, y2⟩, t1, t2⟩
  have hid : ∀ p : PoseR, s.validateBounds p = true → s.enforceBounds p = p := by
    rintro ⟨⟨x, y⟩, θ⟩ hp
    obtain ⟨⟨h1, h2⟩, ⟨h3, h4⟩, h5, h6⟩ := (C43_se2_validate s _).mp hp
    unfold SpaceSE2.enforceBounds
    rw [(clampR_spec h.1).2.2.1 h1 h2, (clampR_spec h.2.1).2.2.1 h3 h4, (clampR_spec h.2.2).2.2.1 h5 h6]
  refine ⟨hv, hid p, hid _ hv, fun q hq => ?_⟩
  obtain ⟨⟨h1, h2⟩, ⟨h3, h4⟩, h5, h6⟩ := (C43_se2_validate s q).mp hq
  exact ⟨x4 _ h1 h2, y4 _ h3 h4, t4 _ h5 h6⟩

private theorem uniform_mem {lb ub u : ℝ} (h : lb ≤ ub) (h0 : 0 ≤ u) (h1 : u ≤ 1) :
    lb ≤ sampleUniform lb ub u ∧ sampleUniform lb ub u ≤ ub := by
  unfold sampleUniform
  have h2 := mul_nonneg (sub_nonneg.mpr h) h0
  have h3 := mul_nonneg (sub_nonneg.mpr h) (sub_nonneg.mpr h1)
  constructor <;> nlinarith

/-- C44. Samples are within the bounds, whatever the random numbers. -/
theorem C44_r2 (s : SpaceR2) (h : s.Ordered) :
    (∀ ux uy : ℝ, 0 ≤ ux → ux ≤ 1 → 0 ≤ uy → uy ≤ 1 →
      s.validateBounds (s.sampleUniform ux uy) = true) ∧
    ∀ mean stdDev gx gy, s.validateBounds (s.sampleGaussian mean stdDev gx gy) = true := by
  refine ⟨fun ux uy h1 h2 h3 h4 => (C43_r2_validate s _).mpr ⟨uniform_mem h.1 h1 h2,
    uniform_mem h.2 h3 h4⟩, fun mean stdDev gx gy => (C43_r2 s h _).1⟩

theorem C44_se2 (s : SpaceSE2) (h : s.Ordered) :
    (∀ ux uy ut : ℝ, 0 ≤ ux → ux ≤ 1 → 0 ≤ uy → uy ≤ 1 → 0 ≤ ut → ut ≤ 1 →
      s.validateBounds (s.sampleUniform ux uy ut) = true) ∧
    ∀ mean stdDev gx gy gt, s.validateBounds (s.sampleGaussian mean stdDev gx gy gt) = true := by
  refine ⟨fun ux uy ut h1 h2 h3 h4 h5 h6 => (C43_se2_validate s _).mpr ⟨uniform_mem h.1 h1 h2,
    uniform_mem h.2.1 h3 h4, uniform_mem h.2.2 h5 h6⟩, fun mean stdDev gx gy gt => (C43_se2 s h _).1⟩

/-- C44. Every in-bounds state can be drawn: the sampler covers the whole box. -/
theorem C44_r2_covers (s : SpaceR2) (h : s.lb.x < s.ub.x ∧ s.lb.y < s.ub.y) (p : Pt)
    (hp : s.validateBounds p = true) :
    ∃ ux uy : ℝ, 0 ≤ ux ∧ ux ≤ 1 ∧ 0 ≤ uy ∧ uy ≤ 1 ∧ s.sampleUniform ux uy = p := by
  obtain ⟨⟨h1, h2⟩, h3, h4⟩ := (C43_r2_validate s p).mp hp
  have hx : 0 < s.ub.x - s.lb.x := by linarith [h.1]
  have hy : 0 < s.ub.y - s.lb.y := by linarith [h.2]
  refine ⟨(p.x - s.lb.x) / (s.ub.x - s.lb.x), (p.y - s.lb.y) / (s.ub.y - s.lb.y),
    div_nonneg (by linarith) hx.le, (div_le_one hx).mpr (by linarith),
    div_nonneg (by linarith) hy.le, (div_le_one hy).mpr (by linarith), ?_⟩
  ext
  · show s.lb.x + (s.ub.x - s.lb.x) * _ = _
    rw [mul_div_cancel₀ _ hx.ne']; ring
  · show s.lb.y + (s.ub.y - s.lb.y) * _ = _
    rw [mul_div_cancel₀ _ hy.ne']; ring

theorem C44_se2_covers (s : SpaceSE2) (hx : s.lb.position.x < s.ub.position.x) (hy : s.lb.position.y < s.ub.position.y)
    (ht : s.lb.theta < s.ub.theta) (p : PoseR) (hp : s.validateBounds p = true) :
    ∃ ux uy ut : ℝ, 0 ≤ ux ∧ ux ≤ 1 ∧ 0 ≤ uy ∧ uy ≤ 1 ∧ 0 ≤ ut ∧ ut ≤ 1 ∧ s.sampleUniform ux uy ut = p := by
  obtain ⟨⟨h1, h2⟩, ⟨h3, h4⟩, h5, h6⟩ := (C43_se2_validate s p).mp hp
  have key : ∀ lo hi v : ℝ, lo < hi → lo ≤ v → v ≤ hi → ∃ u, 0 ≤ u ∧ u ≤ 1 ∧ sampleUniform lo hi u = v := by
    intro lo hi v h h1 h2
    have hd : 0 < hi - lo := by linarith
    refine ⟨(v - lo) / (hi - lo), div_nonneg (by linarith) hd.le, (div_le_one hd).mpr (by linarith), ?_⟩
    show lo + (hi - lo) * _ = _
    rw [mul_div_cancel₀ _ hd.ne']; ring
  obtain ⟨ux, a1, a2, a3⟩ := key _ _ _ hx h1 h2
  obtain ⟨uy, b1, b2, b3⟩ := key _ _ _ hy h3 h4
  obtain ⟨ut, c1, c2, c3⟩ := key _ _ _ ht h5 h6
  refine ⟨ux, uy, ut, a1, a2, b1, b2, c1, c2, ?_⟩
  unfold SpaceSE2.sampleUniform
  rw [a3, b3, c3]

private theorem gaussian_at {m d v : ℝ} (h : d ≠ 0) : sampleGaussian m d ((v - m) / d) = v := by
  unfold sampleGaussian
  rw [mul_div_cancel₀ _ h]; ring

/-- C44. A Gaussian sample is the state within the bounds that lies as many deviations from the mean as was drawn, in each
coordinate. -/
theorem C44_gaussian_r2 (s : SpaceR2) (h : s.Ordered) (mean stdDev p : Pt) (hp : s.validateBounds p = true)
    (hx : stdDev.x ≠ 0) (hy : stdDev.y ≠ 0) :
    s.sampleGaussian mean stdDev ((p.x - mean.x) / stdDev.x) ((p.y - mean.y) / stdDev.y) = p := by
  unfold SpaceR2.sampleGaussian
  rw [gaussian_at hx, gaussian_at hy]
  exact (C43_r2 s h p).2.1 hp

theorem C44_gaussian_se2 (s : SpaceSE2) (h : s.Ordered) (mean stdDev p : PoseR) (hp : s.validateBounds p = true)
    (hx : stdDev.position.x ≠ 0) (hy : stdDev.position.y ≠ 0) (ht : stdDev.theta ≠ 0) :
    s.sampleGaussian mean stdDev ((p.position.x - mean.position.x) / stdDev.position.x)
      ((p.position.y - mean.position.y) / stdDev.position.y) ((p.theta - mean.theta) / stdDev.theta) = p := by
  unfold SpaceSE2.sampleGaussian
  rw [gaussian_at hx, gaussian_at hy, gaussian_at ht]
  exact (C43_se2 s h p).2.1 hp

example : (⟨⟨0, 0⟩, ⟨2, 3⟩⟩ : SpaceR2).Ordered := by constructor <;> norm_num
example : (⟨⟨0, 0⟩, ⟨2, 3⟩⟩ : SpaceR2).validateBounds ⟨1, 2⟩ = true :=
  (C43_r2_validate _ _).mpr ⟨⟨by norm_num, by norm_num⟩, by norm_num, by norm_num⟩
example : (⟨⟨0, 0⟩, ⟨2, 3⟩⟩ : SpaceR2).enforceBounds ⟨5, 1⟩ = ⟨2, 1⟩ := by
  ext <;> norm_num [SpaceR2.enforceBounds, clampR]

/-- C65 (violated). Every batch of at least one sample writes outside the vector. -/
theorem C65_batch_writes_out_of_range {V : Type} (sample : Nat → V) (n : Nat) (h : 0 < n) :
    sampleBatch sample n = none := by
  obtain ⟨m, rfl⟩ : ∃ m, n = m + 1 := ⟨n - 1, by omega⟩
  unfold sampleBatch
  rw [List.range_succ_eq_map, List.foldlM_cons]
  rfl

/-- C65 (partial): only the empty batch is defined. -/
theorem C65_empty_batch_partial {V : Type} (sample : Nat → V) : sampleBatch sample 0 = some [] := rfl

end PathPlanning
