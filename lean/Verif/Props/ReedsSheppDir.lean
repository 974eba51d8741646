import Verif.Props.ReedsShepp

/-!
# C66: direction and cusps of Reeds-Shepp paths; C46: truncation inside the last entry
-/

namespace PathPlanning
open Real Spec

private theorem total_append (l l' : List Stretch) : totalLength (l ++ l') = totalLength l + totalLength l' := by
  simp [totalLength]

private theorem dirLoop_spec {R : ℝ} (target : ℝ) (ms : List RS.Motion) (len : ℝ)
    (h : target ≤ len + totalLength ((ms.takeWhile RS.Motion.isValid).map (stretch R)))
    (hne : ms.takeWhile RS.Motion.isValid ≠ []) :
    ∃ pre m post, ms.takeWhile RS.Motion.isValid = pre ++ m :: post ∧
      PathRS.dirLoop R target ms len = m.direction ∧
      (pre ≠ [] → len + totalLength (pre.map (stretch R)) < target) ∧
      target ≤ len + totalLength ((pre ++ [m]).map (stretch R)) := by
  induction ms generalizing len with
  | nil => simp at hne
  | cons m ms ih =>
    unfold PathRS.dirLoop
    by_cases hv : m.isValid = true
    · rw [if_pos hv]
      dsimp only
      rw [List.takeWhile_cons, if_pos hv] at h ⊢
      have hst : totalLength ([m].map (stretch R)) = m.length.getD 0 * R := by
        simp [totalLength, stretch]
      by_cases ht : target ≤ len + m.length.getD 0 * R
      · rw [if_pos ht]
        refine ⟨[], m, _, rfl, rfl, fun h => absurd rfl h, ?_⟩
        rw [List.nil_append, hst]; exact ht
      · rw [if_neg ht]
        rw [List.map_cons, totalLength_cons] at h
        have h' : target ≤ len + m.length.getD 0 * R +
            totalLength ((ms.takeWhile RS.Motion.isValid).map (stretch R)) := by
          have : (stretch R m).length = m.length.getD 0 * R := rfl
          rw [this] at h; linarith
        have hne' : ms.takeWhile RS.Motion.isValid ≠ [] := by
          intro h0
          rw [h0] at h'
          simp [totalLength] at h'
          exact ht h'
        obtain ⟨pre, m', post, e, hd, hp, hu⟩ := ih (len + m.length.getD 0 * R) h' hne'
        refine ⟨m :: pre, m', post, by rw [e]; rfl, hd, fun _ => ?_, ?_⟩
        · rw [List.map_cons, totalLength_cons, ← add_assoc]
          by_cases hpre : pre = []
          · subst hpre
            simp only [List.map_nil, totalLength, List.sum_nil, add_zero]
            exact not_le.mp ht
          · exact hp hpre
        · rw [List.cons_append, List.map_cons, totalLength_cons, ← add_assoc]
          exact hu
    · rw [List.takeWhile_cons, if_neg hv] at hne
      exact absurd rfl hne

/-- C66. The direction at a ratio is that of the motion reached after driving this part of the
length: motions before it end strictly earlier, and it ends there or later. -/
theorem C66_direction (init : PoseR) (s : RS.Segment) (hs : WellFormed s) (R : ℝ)
    (h0 : (PathRS.new init s R).length ≠ 0) (ratio : ℝ)
    (hr : ratio * (PathRS.new init s R).length ≤ (PathRS.new init s R).length) :
    ∃ pre m post, s.motions.takeWhile RS.Motion.isValid = pre ++ m :: post ∧
      (PathRS.new init s R).getDirection ratio = m.direction ∧
      (pre ≠ [] → totalLength (pre.map (stretch R)) < ratio * (PathRS.new init s R).length) ∧
      ratio * (PathRS.new init s R).length ≤ totalLength ((pre ++ [m]).map (stretch R)) := by
  have hlen : (PathRS.new init s R).length = totalLength (stretches R s.motions) := segment_length hs R
  have hne : s.motions.takeWhile RS.Motion.isValid ≠ [] := by
    intro h
    apply h0
    rw [hlen, stretches, h]
    simp [totalLength]
  obtain ⟨pre, m, post, e, hd, hp, hu⟩ := dirLoop_spec (R := R) (ratio * (PathRS.new init s R).length)
    s.motions 0 (by rw [zero_add]; exact hr.trans hlen.le) hne
  refine ⟨pre, m, post, e, ?_, fun h => by simpa using hp h, by simpa using hu⟩
  unfold PathRS.getDirection
  rw [if_neg h0]
  exact hd

/-- C66. A path of length 0 has no direction. -/
theorem C66_direction_zero (q : PathRS) (h : q.length = 0) (ratio : ℝ) : q.getDirection ratio = .noMotion := by
  unfold PathRS.getDirection
  rw [if_pos h]

private theorem cuspLoop_spec {R total : ℝ} (hR : 0 ≤ R) (htot : 0 < total) (l : List RS.Motion)
    (hl : ∀ m ∈ l, 0 ≤ m.length.getD 0) (a : RS.Motion) (len : ℝ)
    (h : len + totalLength (l.map (stretch R)) ≤ total) (x : ℝ) :
    x ∈ PathRS.cuspLoop R total l a.direction len ↔
    ∃ pre b c post, a :: l = pre ++ b :: c :: post ∧ b.direction ≠ c.direction ∧
      x = (len + totalLength (((pre ++ [b]).tail).map (stretch R))) / total := by
  induction l generalizing a len with
  | nil =>
    constructor
    · intro h; simp [PathRS.cuspLoop] at h
    · rintro ⟨pre, b, c, post, e, _⟩
      have := congrArg List.length e
      simp at this
      omega
  | cons m l ih =>
    have hm := hl m (by simp)
    have hl' : ∀ m ∈ l, 0 ≤ m.length.getD 0 := fun b hb => hl b (List.mem_cons_of_mem _ hb)
    rw [List.map_cons, totalLength_cons] at h
    have hml : (stretch R m).length = m.length.getD 0 * R := rfl
    rw [hml] at h
    have hrest : 0 ≤ totalLength (l.map (stretch R)) := by
      refine totalLength_nonneg fun a ha => ?_
      obtain ⟨b, hb, rfl⟩ := List.mem_map.mp ha
      exact mul_nonneg (hl' b hb) hR
    have hm0 : 0 ≤ m.length.getD 0 * R := mul_nonneg hm hR
    have ih' := ih hl' m (len + m.length.getD 0 * R) (by linarith)
    unfold PathRS.cuspLoop
    dsimp only
    rw [if_neg (by rw [gt_iff_lt, not_lt, div_le_one htot]; linarith)]
    have hmem : x ∈ (if m.direction ≠ a.direction then
        len / total :: PathRS.cuspLoop R total l m.direction (len + m.length.getD 0 * R)
        else PathRS.cuspLoop R total l m.direction (len + m.length.getD 0 * R)) ↔
        (m.direction ≠ a.direction ∧ x = len / total) ∨
        x ∈ PathRS.cuspLoop R total l m.direction (len + m.length.getD 0 * R) := by
      split
      · rename_i hd; simp [hd]
      · rename_i hd; simp [hd]
    rw [hmem, ih']
    constructor
    · rintro (⟨hd, hx⟩ | ⟨pre, b, c, post, e, hd, hx⟩)
      · exact ⟨[], a, m, l, rfl, Ne.symm hd, by simp [hx, totalLength]⟩
      · refine ⟨a :: pre, b, c, post, by rw [e]; rfl, hd, ?_⟩
        rw [hx]
        congr 1
        cases pre with
        | nil =>
          have : m = b := by injection e
          subst this
          simp [totalLength, stretch]
        | cons p pre =>
          have : m = p := by injection e
          subst this
          simp [totalLength, stretch]
          ring
    · rintro ⟨pre, b, c, post, e, hd, hx⟩
      cases pre with
      | nil =>
        simp only [List.nil_append, List.cons.injEq] at e
        obtain ⟨rfl, rfl, rfl⟩ := e
        exact Or.inl ⟨Ne.symm hd, by rw [hx]; simp [totalLength]⟩
      | cons p pre =>
        simp only [List.cons_append, List.cons.injEq] at e
        obtain ⟨rfl, e⟩ := e
        refine Or.inr ⟨pre, b, c, post, e, hd, ?_⟩
        rw [hx]
        congr 1
        cases pre with
        | nil =>
          have : m = b := by injection e
          subst this
          simp [totalLength, stretch]
        | cons p' pre =>
          have : m = p' := by injection e
          subst this
          simp [totalLength, stretch]
          ring

/-- C66. The cusps are exactly the ratios of length at which the direction of the motions changes. -/
theorem C66_cusps (init : PoseR) (s : RS.Segment) (hs : WellFormed s) (R : ℝ) (hR : 0 < R)
    (h0 : (PathRS.new init s R).length ≠ 0) (x : ℝ) :
    x ∈ (PathRS.new init s R).cusps ↔
    ∃ pre b c post, s.motions.takeWhile RS.Motion.isValid = pre ++ b :: c :: post ∧
      b.direction ≠ c.direction ∧
      x = totalLength ((pre ++ [b]).map (stretch R)) / (PathRS.new init s R).length := by
  have hlen : (PathRS.new init s R).length = totalLength (stretches R s.motions) := segment_length hs R
  have hnn := stretches_length_nonneg hs hR.le
  have hpos : 0 < (PathRS.new init s R).length :=
    lt_of_le_of_ne (hlen ▸ totalLength_nonneg hnn) (Ne.symm h0)
  unfold PathRS.cusps
  rw [if_neg h0]
  have htake : (PathRS.new init s R).segment.motions.take (PathRS.new init s R).segment.numMotions =
      s.motions.takeWhile RS.Motion.isValid := by
    show s.motions.take (s.motions.takeWhile RS.Motion.isValid).length = _
    exact (List.prefix_iff_eq_take.mp (List.takeWhile_prefix RS.Motion.isValid)).symm
  rw [htake]
  show x ∈ (match s.motions.takeWhile RS.Motion.isValid with
    | [] => []
    | m :: l => PathRS.cuspLoop R (PathRS.new init s R).length l m.direction (m.length.getD 0 * R)) ↔ _
  cases hms : s.motions.takeWhile RS.Motion.isValid with
  | nil =>
    constructor
    · intro h; simp at h
    · rintro ⟨pre, b, c, post, e, _⟩
      have := congrArg List.length e
      simp at this
  | cons m l =>
    have hsl : stretches R s.motions = stretch R m :: l.map (stretch R) := by rw [stretches, hms]; rfl
    have hll : ∀ m ∈ l, 0 ≤ m.length.getD 0 := fun b hb => hs.1 b (by rw [hms]; exact List.mem_cons_of_mem _ hb)
    dsimp only
    rw [cuspLoop_spec hR.le hpos l hll m (m.length.getD 0 * R)
      (by rw [hlen, hsl, totalLength_cons]; exact le_rfl)]
    have key : ∀ pre b c post, m :: l = pre ++ b :: c :: post →
        m.length.getD 0 * R + totalLength (((pre ++ [b]).tail).map (stretch R)) =
        totalLength ((pre ++ [b]).map (stretch R)) := by
      intro pre b c post e
      cases pre with
      | nil =>
        have : m = b := by injection e
        subst this
        simp [totalLength, stretch]
      | cons p pre =>
        have : m = p := by injection e
        subst this
        simp [totalLength, stretch]
    constructor
    · rintro ⟨pre, b, c, post, e, hd, hx⟩
      exact ⟨pre, b, c, post, e, hd, by rw [hx, key pre b c post e]⟩
    · rintro ⟨pre, b, c, post, e, hd, hx⟩
      exact ⟨pre, b, c, post, e, hd, by rw [hx, key pre b c post e]⟩

private theorem seg3 : (RS.getPath 12 1 1 2).motions.takeWhile RS.Motion.isValid =
    [⟨.left, .forward, some 1⟩, ⟨.right, .backward, some 1⟩, ⟨.left, .backward, some 2⟩] := by
  simp [RS.getPath, RS.basePath, RS.Segment.addMotion, RS.Segment.empty, List.replicate,
    RS.setFirstInvalid, RS.Motion.isValid, List.takeWhile]

example : (1 / 4 : ℝ) ∈ (PathRS.new ⟨⟨0, 0⟩, 0⟩ (RS.getPath 12 1 1 2) 1).cusps := by
  have hl : (PathRS.new ⟨⟨0, 0⟩, 0⟩ (RS.getPath 12 1 1 2) 1).length = 4 := by
    show (RS.getPath 12 1 1 2).length * 1 = 4
    simp [RS.getPath, RS.basePath, RS.Segment.addMotion, RS.Segment.empty]
    norm_num
  rw [C66_cusps _ _ (getPath_wellFormed (by norm_num) (by norm_num) (by norm_num) (by norm_num)) 1 one_pos
    (by rw [hl]; norm_num)]
  refine ⟨[], _, _, _, seg3, by simp, ?_⟩
  rw [hl]
  simp [totalLength, stretch]

/-- The first quarter of that path is driven forward. -/
example : (PathRS.new ⟨⟨0, 0⟩, 0⟩ (RS.getPath 12 1 1 2) 1).getDirection (1 / 8) = .forward := by
  have hl : (PathRS.new ⟨⟨0, 0⟩, 0⟩ (RS.getPath 12 1 1 2) 1).length = 4 := by
    show (RS.getPath 12 1 1 2).length * 1 = 4
    simp [RS.getPath, RS.basePath, RS.Segment.addMotion, RS.Segment.empty]
    norm_num
  obtain ⟨pre, m, post, e, hd, hp, -⟩ := C66_direction ⟨⟨0, 0⟩, 0⟩ (RS.getPath 12 1 1 2)
    (getPath_wellFormed (by norm_num) (by norm_num) (by norm_num) (by norm_num)) 1
    (by rw [hl]; norm_num) (1 / 8) (by rw [hl]; norm_num)
  rw [hl] at hp
  rw [seg3] at e
  cases pre with
  | nil =>
    simp only [List.nil_append, List.cons.injEq] at e
    rw [hd, ← e.1]
  | cons a pre =>
    exfalso
    have h := hp (by simp)
    simp only [List.cons_append, List.cons.injEq] at e
    obtain ⟨rfl, e⟩ := e
    rw [List.map_cons, totalLength_cons] at h
    have : 0 ≤ totalLength (pre.map (stretch 1)) := by
      refine totalLength_nonneg fun y hy => ?_
      obtain ⟨b, hb, rfl⟩ := List.mem_map.mp hy
      have hb' : b ∈ pre ++ m :: post := List.mem_append_left _ hb
      rw [← e] at hb'
      simp only [List.mem_cons, List.not_mem_nil, or_false] at hb'
      rcases hb' with rfl | rfl <;> simp [stretch]
    simp [stretch] at h
    linarith

/-! ## C46, when the last entry of the array is cut -/

private theorem truncLoop_last {R : ℝ} (hR : 0 < R) (target : ℝ) (ms : List RS.Motion) (m : RS.Motion)
    (hv : ∀ a ∈ ms, a.isValid = true) (hm : m.isValid = true)
    (hnn : ∀ a ∈ ms, 0 ≤ a.length.getD 0) (p : PoseR) (len : ℝ)
    (hlo : len + totalLength (ms.map (stretch R)) < target)
    (hhi : target ≤ len + totalLength (ms.map (stretch R)) + m.length.getD 0 * R) :
    (PathRS.truncLoop R target (ms ++ [m]) p len).1 =
      ms ++ [{ m with length := m.length.map fun l =>
        l * ((target - (len + totalLength (ms.map (stretch R)))) / (m.length.getD 0 * R)) }] := by
  induction ms generalizing p len with
  | nil =>
    simp only [List.map_nil, totalLength, List.sum_nil, add_zero] at hlo hhi ⊢
    rw [List.nil_append, List.nil_append]
    unfold PathRS.truncLoop
    have hpos : 0 < m.length.getD 0 * R := by linarith
    rw [if_pos hm]
    dsimp only
    rw [if_neg hpos.ne', if_pos hhi, min_eq_left (by rw [div_le_one hpos]; linarith)]
    rfl
  | cons a ms ih =>
    rw [List.map_cons, totalLength_cons, ← add_assoc] at hlo hhi ⊢
    have hal : (stretch R a).length = a.length.getD 0 * R := rfl
    rw [hal] at hlo hhi ⊢
    have hv' : ∀ b ∈ ms, b.isValid = true := fun b hb => hv b (List.mem_cons_of_mem _ hb)
    have hnn' : ∀ b ∈ ms, 0 ≤ b.length.getD 0 := fun b hb => hnn b (List.mem_cons_of_mem _ hb)
    have hrest : 0 ≤ totalLength (ms.map (stretch R)) := by
      refine totalLength_nonneg fun x hx => ?_
      obtain ⟨b, hb, rfl⟩ := List.mem_map.mp hx
      exact mul_nonneg (hnn' b hb) hR.le
    rw [List.cons_append, List.cons_append]
    unfold PathRS.truncLoop
    rw [if_pos (hv a (by simp))]
    dsimp only
    by_cases hz : a.length.getD 0 * R = 0
    · rw [if_pos hz]
      dsimp only
      rw [hz, add_zero] at hlo hhi ⊢
      rw [ih hv' hnn' p len hlo hhi]
    · rw [if_neg hz, if_neg (by linarith)]
      dsimp only
      rw [ih hv' hnn' _ _ hlo hhi]

private theorem driveDist_append (l : List Stretch) (a b : Stretch) (hc : a.curvature = b.curvature)
    (hs : a.sense = b.sense) (p : PoseR) (d : ℝ) (h1 : d ≤ totalLength l + a.length)
    (h2 : d ≤ totalLength l + b.length) :
    driveDist p d (l ++ [a]) = driveDist p d (l ++ [b]) := by
  induction l generalizing p d with
  | nil =>
    simp only [totalLength, List.map_nil, List.sum_nil, zero_add] at h1 h2
    simp only [List.nil_append, driveDist, h1, h2, if_true, hc, hs]
  | cons c l ih =>
    rw [totalLength_cons] at h1 h2
    simp only [List.cons_append, driveDist]
    split
    · rfl
    · exact ih _ _ (by linarith) (by linarith)

/-- C46 for Reeds-Shepp paths, when all the entries of the array are used and the cut falls inside the
last one: the truncated path is the prefix. (For every other cut the motion is erased.) -/
theorem C46_reeds_shepp_last_partial (init : PoseR) (ms : List RS.Motion) (m : RS.Motion) (L R : ℝ)
    (hR : 0 < R) (hv : ∀ a ∈ ms, a.isValid = true) (hm : m.isValid = true)
    (hs : WellFormed ⟨ms ++ [m], L⟩) (r : ℝ)
    (hlo : totalLength (ms.map (stretch R)) < r * (L * R)) (hr : r ≤ 1) (x : ℝ) (hx : 0 ≤ x) (hx1 : x ≤ 1) :
    SamePose (((PathRS.new init ⟨ms ++ [m], L⟩ R).truncate r).interpolate x)
      ((PathRS.new init ⟨ms ++ [m], L⟩ R).interpolate (r * x)) := by
  have hall : ∀ a ∈ ms ++ [m], a.isValid = true := by
    intro a ha
    rcases List.mem_append.mp ha with h | h
    · exact hv a h
    · rw [List.mem_singleton.mp h]; exact hm
  have htw : (ms ++ [m]).takeWhile RS.Motion.isValid = ms ++ [m] := List.takeWhile_eq_self_iff.mpr hall
  obtain ⟨q, hq⟩ : ∃ q, q = PathRS.new init ⟨ms ++ [m], L⟩ R := ⟨_, rfl⟩
  have hlen : q.length = L * R := by rw [hq]; rfl
  have htot : L * R = totalLength (ms.map (stretch R)) + m.length.getD 0 * R := by
    have := segment_length hs R
    rw [stretches, htw, List.map_append, total_append] at this
    rw [this]
    simp [totalLength, stretch]
  have hnn := hs.1
  rw [htw] at hnn
  have hnn' : ∀ a ∈ ms, 0 ≤ a.length.getD 0 := fun a ha => hnn a (List.mem_append_left _ ha)
  have hms0 : 0 ≤ totalLength (ms.map (stretch R)) := by
    refine totalLength_nonneg fun y hy => ?_
    obtain ⟨b, hb, rfl⟩ := List.mem_map.mp hy
    exact mul_nonneg (hnn' b hb) hR.le
  have hm0 : 0 ≤ m.length.getD 0 := hnn m (by simp)
  have hL0 : 0 ≤ L * R := by rw [htot]; have := mul_nonneg hm0 hR.le; linarith
  have hLne : L * R ≠ 0 := by
    intro h0; rw [h0, mul_zero] at hlo; linarith
  have hLpos : 0 < L * R := lt_of_le_of_ne hL0 (Ne.symm hLne)
  have hr0 : 0 < r := by
    by_contra hc
    have : r * (L * R) ≤ 0 := mul_nonpos_of_nonpos_of_nonneg (not_lt.mp hc) hL0
    linarith
  have hrL : r * (L * R) ≤ L * R := mul_le_of_le_one_left hL0 hr
  have hmpos : 0 < m.length.getD 0 * R := by linarith
  have hne : m.length.getD 0 ≠ 0 := fun h => by rw [h, zero_mul] at hmpos; exact lt_irrefl _ hmpos
  obtain ⟨c, hc⟩ : ∃ c, c = (r * (L * R) - totalLength (ms.map (stretch R))) / (m.length.getD 0 * R) := ⟨_, rfl⟩
  have hc0 : 0 ≤ c := by rw [hc]; exact div_nonneg (by linarith) hmpos.le
  obtain ⟨m', hm'⟩ : ∃ m' : RS.Motion, m' = { m with length := m.length.map (· * c) } := ⟨_, rfl⟩
  have hmv' : m'.isValid = true := by
    rw [hm']
    unfold RS.Motion.isValid at hm ⊢
    simpa using hm
  have hlm' : m'.length.getD 0 = m.length.getD 0 * c := by
    rw [hm']
    cases m.length <;> simp
  have hseg : (q.truncate r).segment.motions = ms ++ [m'] := by
    unfold PathRS.truncate
    rw [hlen, if_neg hLne]
    have hqr : q.radius = R := by rw [hq]; rfl
    have hqs : q.segment.motions = ms ++ [m] := by rw [hq]; rfl
    dsimp only
    rw [hqr, hqs, truncLoop_last hR (r * (L * R)) ms m hv hm hnn' _ 0 (by linarith) (by linarith), hm', hc]
    simp
  have hlenT : (q.truncate r).length = r * (L * R) := by rw [(C46_reeds_shepp_partial q r).2.1, hlen]
  have hinitT : (q.truncate r).init = init := by rw [(C46_reeds_shepp_partial q r).1, hq]; rfl
  have hradT : (q.truncate r).radius = R := by
    unfold PathRS.truncate; split <;> (rw [hq]; rfl)
  have hall' : ∀ a ∈ ms ++ [m'], a.isValid = true := by
    intro a ha
    rcases List.mem_append.mp ha with h | h
    · exact hv a h
    · rw [List.mem_singleton.mp h]; exact hmv'
  have htw' : (ms ++ [m']).takeWhile RS.Motion.isValid = ms ++ [m'] := List.takeWhile_eq_self_iff.mpr hall'
  have hst : stretches R (ms ++ [m]) = ms.map (stretch R) ++ [stretch R m] := by rw [stretches, htw]; simp
  have hst' : stretches R (ms ++ [m']) = ms.map (stretch R) ++ [stretch R m'] := by rw [stretches, htw']; simp
  have hnnT : ∀ a ∈ stretches R (ms ++ [m']), 0 ≤ a.length := by
    rw [hst']
    intro a ha
    rcases List.mem_append.mp ha with h | h
    · obtain ⟨b, hb, rfl⟩ := List.mem_map.mp h
      exact mul_nonneg (hnn' b hb) hR.le
    · rw [List.mem_singleton.mp h]
      show 0 ≤ m'.length.getD 0 * R
      rw [hlm']
      exact mul_nonneg (mul_nonneg hm0 hc0) hR.le
  have h1 : SamePose ((q.truncate r).interpolate x)
      (driveDist init (x * (r * (L * R))) (stretches R (ms ++ [m']))) := by
    unfold PathRS.interpolate
    rw [hlenT, if_neg (mul_pos hr0 hLpos).ne', hseg, hradT, hinitT]
    have := interpLoop_same hR (x * (r * (L * R))) (ms ++ [m']) hnnT (.refl init) 0
      (mul_nonneg hx (mul_nonneg hr0.le hL0))
    rwa [sub_zero] at this
  have h2 := (C45_reeds_shepp init _ hs R hR).2.2.2.2.2 (r * x) (mul_nonneg hr0.le hx)
  rw [← hq, hlen] at h2
  rw [← hq]
  refine h1.trans (SamePose.trans ?_ h2.symm)
  have hd : x * (r * (L * R)) = r * x * (L * R) := by ring
  have hxr : x * (r * (L * R)) ≤ r * (L * R) := mul_le_of_le_one_left (mul_nonneg hr0.le hL0) hx1
  rw [hst', hst, ← hd, driveDist_append (ms.map (stretch R)) (stretch R m') (stretch R m)]
  · exact .refl _
  · rw [hm']; rfl
  · rw [hm']; rfl
  · show _ ≤ _ + m'.length.getD 0 * R
    have : m.length.getD 0 * c * R = r * (L * R) - totalLength (ms.map (stretch R)) := by
      rw [hc]; field_simp
    rw [hlm', this]
    linarith
  · show _ ≤ _ + m.length.getD 0 * R
    linarith

/-- Half a left turn of length 1. -/
example : SamePose
    (((PathRS.new ⟨⟨0, 0⟩, 0⟩ ⟨[] ++ [⟨.left, .forward, some 1⟩], 1⟩ 1).truncate (1 / 2)).interpolate 1)
    ((PathRS.new ⟨⟨0, 0⟩, 0⟩ ⟨[] ++ [⟨.left, .forward, some 1⟩], 1⟩ 1).interpolate (1 / 2 * 1)) :=
  C46_reeds_shepp_last_partial _ [] _ 1 1 one_pos (by simp) rfl
    ⟨by simp [RS.Motion.isValid], by simp [totalLength, stretches, stretch, RS.Motion.isValid]⟩ (1 / 2)
    (by simp [totalLength]) (by norm_num) 1 (by norm_num) le_rfl

end PathPlanning
