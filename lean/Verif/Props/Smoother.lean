import Verif.Lemmas.Smoother
import Mathlib.Analysis.Real.Pi.Bounds

/-!
# C59, C60: what the smoother may change and what its status means

The first theorems hold for every arithmetic of the gradients (`Terms`), in particular for the one of the
code: `T` is arbitrary, and only "subtracting the zero gradient changes nothing" is used.
-/

namespace PathPlanning
open Smoother

variable {P H : Type}

/-- C59: the points that get a gradient of their own are exactly those at least two samples from both ends
with no cusp within two samples. -/
theorem C59_optimised_points (cusp : Nat → Bool) (num j : Nat) :
    j ∈ indexLoop cusp num 0 ↔
      2 ≤ j ∧ j + 2 < num ∧ ∀ d, cusp d = true → j + 2 < d ∨ d + 2 < j := by
  rw [mem_indexLoop]
  constructor
  · rintro ⟨h1, h2, h3⟩
    exact ⟨by omega, h2, fun d hd => by have := h3 d hd; omega⟩
  · rintro ⟨h1, h2, h3⟩
    exact ⟨by omega, h2, fun d hd => by have := h3 d hd; omega⟩

example : indexLoop (fun i => i == 4) 12 0 = [7, 8, 9] := by decide +kernel

theorem smooth_run (T : Terms P) (maxIterations : Int) (valid : P × H → Option Bool) (cusp : Nat → Bool)
    (path : List (P × H)) (s : SmoothStatus) (r : List (P × H)) (n : Nat)
    (h : smooth T maxIterations valid cusp path = some (s, r, n)) :
    (path.length < 5 ∧ r = path ∧ n = 0 ∧ (s = .pathSize ∨ s = .failure) ∧
        (s = .pathSize ↔ isPathSafe valid path = some true)) ∨
      (5 ≤ path.length ∧ ∃ s', loop T (path.map Prod.fst) (indexLoop cusp path.length 0)
        maxIterations.toNat false path 0 = some (s', r, n) ∧
        ((s = s' ∧ isPathSafe valid r = some true) ∨ (s = .failure ∧ isPathSafe valid r = some false))) := by
  unfold smooth at h
  by_cases hl : path.length < 5
  · rw [if_pos hl] at h
    left
    cases hs : isPathSafe valid path with
    | none => rw [hs] at h; simp at h
    | some b =>
      rw [hs] at h
      cases b
      · simp at h
        obtain ⟨rfl, rfl, rfl⟩ := h
        exact ⟨hl, rfl, rfl, Or.inr rfl, by simp⟩
      · simp at h
        obtain ⟨rfl, rfl, rfl⟩ := h
        exact ⟨hl, rfl, rfl, Or.inl rfl, by simp⟩
  · rw [if_neg hl] at h
    right
    refine ⟨by omega, ?_⟩
    simp only [Option.bind_eq_bind, Option.bind_eq_some_iff] at h
    obtain ⟨⟨s', r', n'⟩, hloop, h⟩ := h
    dsimp only at h
    cases hs : isPathSafe valid r' with
    | none => rw [hs] at h; simp at h
    | some b =>
      rw [hs] at h
      cases b
      · simp at h
        obtain ⟨rfl, rfl, rfl⟩ := h
        exact ⟨s', hloop, Or.inr ⟨rfl, hs⟩⟩
      · simp at h
        obtain ⟨rfl, rfl, rfl⟩ := h
        exact ⟨s', hloop, Or.inl ⟨rfl, hs⟩⟩

theorem indices_inside (cusp : Nat → Bool) (path : List (P × H)) :
    ∀ i ∈ indexLoop cusp path.length 0, 2 ≤ i ∧ i + 2 < (path.map Prod.fst).length := by
  intro i hi
  have := (C59_optimised_points _ _ _).mp hi
  simp only [List.length_map]
  exact ⟨this.1, this.2.1⟩

/-- C59: for every path, cusp set and parameters the smoother never reads or writes outside its vectors:
if the validator answers for every pose, `Smooth` returns. -/
theorem C59_defined (T : Terms P) (maxIterations : Int) (valid : P × H → Option Bool) (cusp : Nat → Bool)
    (path : List (P × H)) (hv : ∀ p, (valid p).isSome) :
    ∃ s r n, smooth T maxIterations valid cusp path = some (s, r, n) := by
  unfold smooth
  by_cases hl : path.length < 5
  · obtain ⟨b, hb⟩ := isPathSafe_total valid path (fun p _ => hv p)
    rw [if_pos hl, hb]
    cases b
    · exact ⟨_, _, _, rfl⟩
    · exact ⟨_, _, _, rfl⟩
  · rw [if_neg hl]
    obtain ⟨s, r, m, hloop, _⟩ := loop_spec T (path.map Prod.fst) (indexLoop cusp path.length 0)
      (indices_inside cusp path) maxIterations.toNat false path 0 (by simp)
    rw [hloop]
    obtain ⟨b, hb⟩ := isPathSafe_total valid r (fun p _ => hv p)
    simp only [Option.bind_eq_bind, Option.bind_some]
    rw [hb]
    cases b
    · exact ⟨_, _, _, rfl⟩
    · exact ⟨_, _, _, rfl⟩

/-- C59: the result has as many states as the given path, with the same headings; the first and the last
state, every cusp and the neighbours of a cusp are where they were. The theorem does not say that only
points with no cusp within two samples move: this is false (`C59_point_near_cusp_moves`). -/
theorem C59_kept_partial (T : Terms P) (hT : ∀ p, T.move p T.zero = p) (maxIterations : Int)
    (valid : P × H → Option Bool) (cusp : Nat → Bool) (path : List (P × H)) (s : SmoothStatus)
    (r : List (P × H)) (n : Nat) (h : smooth T maxIterations valid cusp path = some (s, r, n)) :
    r.length = path.length ∧ r.map Prod.snd = path.map Prod.snd ∧
      ∀ j, (j = 0 ∨ j + 1 = path.length ∨ ∃ c, cusp c = true ∧ c ≤ j + 1 ∧ j ≤ c + 1) →
        r[j]? = path[j]? := by
  rcases smooth_run T maxIterations valid cusp path s r n h with ⟨_, rfl, _⟩ | ⟨_, s', hloop, _⟩
  · exact ⟨rfl, rfl, fun _ _ => rfl⟩
  · obtain ⟨s2, r2, m2, h1, h2, h3, _, _, h6⟩ := loop_spec T (path.map Prod.fst)
      (indexLoop cusp path.length 0) (indices_inside cusp path) maxIterations.toNat false path 0 (by simp)
    rw [hloop] at h1
    simp only [Option.some.injEq, Prod.mk.injEq] at h1
    obtain ⟨rfl, rfl, rfl⟩ := h1
    refine ⟨h2, h3, fun j hj => (h6 hT).1 j (fun i hi => ?_)⟩
    obtain ⟨a1, a2, a3⟩ := (C59_optimised_points _ _ _).mp hi
    rcases hj with rfl | hj | ⟨c, hc, hj⟩
    · omega
    · omega
    · have := a3 c hc
      omega

/-- C59: when the curvature term has no effect, the moved points are among those at least two samples from
both ends with no cusp within two samples. (Without the restriction on the curvature term this is false,
`C59_point_near_cusp_moves`.) -/
theorem C59_moved_partial (T : Terms P) (hT : ∀ p, T.move p T.zero = p)
    (hc : ∀ a b c x y z, T.curvature a b c x y z = (x, y, z)) (maxIterations : Int)
    (valid : P × H → Option Bool) (cusp : Nat → Bool) (path : List (P × H)) (s : SmoothStatus)
    (r : List (P × H)) (n : Nat) (h : smooth T maxIterations valid cusp path = some (s, r, n))
    (j : Nat) (hj : r[j]? ≠ path[j]?) :
    2 ≤ j ∧ j + 2 < path.length ∧ ∀ d, cusp d = true → j + 2 < d ∨ d + 2 < j := by
  rcases smooth_run T maxIterations valid cusp path s r n h with ⟨_, rfl, _⟩ | ⟨_, s', hloop, _⟩
  · exact absurd rfl hj
  · obtain ⟨s2, r2, m2, h1, h2, h3, _, _, h6⟩ := loop_spec T (path.map Prod.fst)
      (indexLoop cusp path.length 0) (indices_inside cusp path) maxIterations.toNat false path 0 (by simp)
    rw [hloop] at h1
    simp only [Option.some.injEq, Prod.mk.injEq] at h1
    obtain ⟨rfl, rfl, rfl⟩ := h1
    refine (C59_optimised_points _ _ _).mp ?_
    by_contra hn
    exact hj ((h6 hT).2 hc j hn)

/-- The terms of the code meet the hypothesis on the zero gradient. -/
theorem terms_move_zero (q : SmoothParam) (map : OccMap) (ob ed : Cell → Cell) (p : Pt) :
    (q.terms map ob ed).move p (q.terms map ob ed).zero = p := by
  ext <;> simp [SmoothParam.terms, Pt.scale]

/-- C59: the part of the statement that is false. The path goes right for three steps of length one, then
up, and the first sample is a cusp. The point two samples after the cusp is moved by one iteration,
whatever the map, for all positive weights: the curvature term of its neighbour moves it. -/
theorem C59_point_near_cusp_moves (q : SmoothParam) (map : OccMap) (ob ed : Cell → Cell)
    (hr : q.learningRate ≠ 0) (hw : q.curvatureWeight ≠ 0) (hk : q.maxCurvature = 1) :
    ∃ s r n, smooth (H := Unit) (q.terms map ob ed) 1 (fun _ => some true) (fun i => i == 0)
        [(⟨0, 0⟩, ()), (⟨1, 0⟩, ()), (⟨2, 0⟩, ()), (⟨3, 0⟩, ()), (⟨3, 1⟩, ()), (⟨3, 2⟩, ())]
          = some (s, r, n) ∧ r[2]? ≠ some (⟨2, 0⟩, ()) := by
  have hidx : indexLoop (fun i => i == 0) 6 0 = [3] := by decide +kernel
  have hphi : SmoothParam.deltaPhi ((⟨3, 0⟩ : Pt) - ⟨2, 0⟩) ((⟨3, 1⟩ : Pt) - ⟨3, 0⟩) = Real.pi / 2 := by
    simp [SmoothParam.deltaPhi, Pt.normalized, Pt.dot, Pt.scale]
  have hnorm : ((⟨3, 0⟩ : Pt) - ⟨2, 0⟩).norm = 1 := by
    simp only [Pt.norm, Pt.sub_x, Pt.sub_y]; norm_num
  have hnorm' : ((⟨3, 1⟩ : Pt) - ⟨3, 0⟩).norm = 1 := by
    simp only [Pt.norm, Pt.sub_x, Pt.sub_y]; norm_num
  have hkap : SmoothParam.kappa ((⟨3, 0⟩ : Pt) - ⟨2, 0⟩) ((⟨3, 1⟩ : Pt) - ⟨3, 0⟩) = Real.pi / 2 := by
    rw [SmoothParam.kappa, hphi, hnorm, div_one]
  have hpi := Real.pi_gt_three
  have hkey : ∀ a b c : Pt, (q.curvatureTerm ⟨2, 0⟩ ⟨3, 0⟩ ⟨3, 1⟩ a b c).1 =
      ⟨a.x + q.curvatureWeight * (Real.pi / 2 - 1) * (Real.pi / 2),
       a.y + q.curvatureWeight * (Real.pi / 2 - 1)⟩ := by
    intro a b c
    unfold SmoothParam.curvatureTerm
    dsimp only
    rw [hkap, hk, if_neg (by linarith)]
    simp only [SmoothParam.dKappa, hphi, hnorm, hnorm', SmoothParam.orthogonalComplement, Real.cos_pi_div_two]
    ext
    · simp [Pt.scale, Pt.dot, Pt.normalized, hnorm]; left; norm_num
    · simp [Pt.scale, Pt.dot, Pt.normalized, hnorm]
  obtain ⟨s, r, n, hrun⟩ := C59_defined (H := Unit) (q.terms map ob ed) 1 (fun _ => some true)
    (fun i => i == 0)
    [(⟨0, 0⟩, ()), (⟨1, 0⟩, ()), (⟨2, 0⟩, ()), (⟨3, 0⟩, ()), (⟨3, 1⟩, ()), (⟨3, 2⟩, ())] (fun _ => rfl)
  refine ⟨s, r, n, hrun, ?_⟩
  rcases smooth_run _ _ _ _ _ s r n hrun with ⟨hbad, _⟩ | ⟨_, s', hloop, _⟩
  · exact absurd hbad (by decide)
  · rw [show ([((⟨0, 0⟩ : Pt), ()), (⟨1, 0⟩, ()), (⟨2, 0⟩, ()), (⟨3, 0⟩, ()), (⟨3, 1⟩, ()), (⟨3, 2⟩, ())]).length
      = 6 from rfl, hidx] at hloop
    obtain ⟨it, gs, h0, h1, _, h3, h4⟩ := loop_iterates _ _ _ _ _ _ _ _ _ _ hloop
    have hn : n - 0 = 1 := by
      rcases h4 with ⟨_, h⟩ | ⟨_, h, hz, _⟩
      · exact h
      · have : n = 0 := by
          have : (1 : Int).toNat = 1 := rfl
          omega
        simp at hz
        exact absurd this hz
    rw [hn] at h1
    obtain ⟨_, hg, hit, _⟩ := h3 0 (by omega)
    rw [h0] at hg hit
    rw [← h1, hit]
    simp only [gradients, gradientAt, List.foldlM_cons, List.foldlM_nil, List.map_cons, List.map_nil,
      List.length_cons, List.length_nil] at hg
    simp [List.replicate] at hg
    rw [← hg]
    simp only [applyGradients, List.zipWith_cons_cons, List.getElem?_cons_succ, List.getElem?_cons_zero]
    intro hcontra
    have hp := congrArg (fun z : Option (Pt × Unit) => (z.map (fun w => w.1.y)).getD 0) hcontra
    have hc1 : ∀ a b c d e f, (q.terms map ob ed).curvature a b c d e f = q.curvatureTerm a b c d e f :=
      fun _ _ _ _ _ _ => rfl
    simp only [hc1, hkey, Option.map_some, Option.getD_some] at hp
    simp [SmoothParam.terms, Pt.scale] at hp
    rcases hp with h | h | h
    · exact hr h
    · exact hw h
    · linarith

/-- C60: `Smooth` performs at most `maxIterations` iterations, and if the status is not a failure then every
state of the result passed the validator. -/
theorem C60_status (T : Terms P) (maxIterations : Int) (valid : P × H → Option Bool) (cusp : Nat → Bool)
    (path : List (P × H)) (s : SmoothStatus) (r : List (P × H)) (n : Nat)
    (h : smooth T maxIterations valid cusp path = some (s, r, n)) :
    (n : Int) ≤ max 0 maxIterations ∧ (0 ≤ s.toInt ↔ ∀ p ∈ r, valid p = some true) := by
  rcases smooth_run T maxIterations valid cusp path s r n h with
    ⟨_, rfl, rfl, hs, hiff⟩ | ⟨_, s', hloop, hs⟩
  · refine ⟨by simp, ?_⟩
    rw [← isPathSafe_true, ← hiff]
    rcases hs with rfl | rfl <;> simp [SmoothStatus.toInt]
  · obtain ⟨_, _, _, _, _, _, h4⟩ := loop_iterates _ _ _ _ _ _ _ _ _ _ hloop
    have hle : n ≤ maxIterations.toNat := by
      rcases h4 with ⟨_, h⟩ | ⟨_, h, _⟩ <;> omega
    refine ⟨by omega, ?_⟩
    rw [← isPathSafe_true]
    rcases hs with ⟨rfl, hsafe⟩ | ⟨rfl, hsafe⟩
    · rcases h4 with ⟨rfl, _⟩ | ⟨rfl, _⟩ <;> simp [SmoothStatus.toInt, hsafe]
    · simp [SmoothStatus.toInt, hsafe]

/-- C60: a path of at least five states is descended step by step: the result is the given path after
exactly the reported number of gradient steps, the first one always taken (if any iteration is allowed);
the status `MaxIteration` means that all the iterations were used and none but the last had a step below
the tolerance, `StepTolerance` that the last step, and no earlier one, was below it. -/
theorem C60_iterations (T : Terms P) (maxIterations : Int) (valid : P × H → Option Bool)
    (cusp : Nat → Bool) (path : List (P × H)) (s : SmoothStatus) (r : List (P × H)) (n : Nat)
    (h5 : 5 ≤ path.length) (h : smooth T maxIterations valid cusp path = some (s, r, n)) :
    ∃ (it : Nat → List (P × H)) (gs : Nat → List P), it 0 = path ∧ it n = r ∧
      (∀ k < n, gradients T (path.map Prod.fst) ((it k).map Prod.fst) (indexLoop cusp path.length 0)
          = some (gs k) ∧
        it (k + 1) = (it k).zipWith (fun p g => (T.move p.1 g, p.2)) (gs k) ∧
        (k + 1 < n → T.small (gs k) = false)) ∧
      (s = .maxIteration → n = maxIterations.toNat) ∧
      (s = .stepTolerance → 0 < n ∧ n < maxIterations.toNat ∧ T.small (gs (n - 1)) = true) ∧
      (s ≠ .pathSize) := by
  rcases smooth_run T maxIterations valid cusp path s r n h with ⟨hl, _⟩ | ⟨_, s', hloop, hs⟩
  · omega
  · obtain ⟨it, gs, h0, h1, _, h3, h4⟩ := loop_iterates _ _ _ _ _ _ _ _ _ _ hloop
    simp only [Nat.sub_zero] at h1 h3 h4
    refine ⟨it, gs, h0, h1, fun k hk => ⟨(h3 k hk).2.1, (h3 k hk).2.2.1, (h3 k hk).2.2.2⟩, ?_, ?_, ?_⟩
    · rintro rfl
      rcases hs with ⟨rfl, _⟩ | ⟨hh, _⟩
      · rcases h4 with ⟨_, h⟩ | ⟨hh, _⟩
        · exact h
        · cases hh
      · cases hh
    · rintro rfl
      rcases hs with ⟨rfl, _⟩ | ⟨hh, _⟩
      · rcases h4 with ⟨hh, _⟩ | ⟨_, hlt, hz, hsm⟩
        · cases hh
        · have : 0 < n := by
            rcases Nat.eq_zero_or_pos n with h | h
            · exact absurd (hz h) (by simp)
            · exact h
          exact ⟨this, hlt, hsm this⟩
      · cases hh
    · rintro rfl
      rcases hs with ⟨rfl, _⟩ | ⟨hh, _⟩
      · rcases h4 with ⟨hh, _⟩ | ⟨hh, _⟩ <;> cases hh
      · cases hh

/-- C60: a path of fewer than five states is returned as it is. -/
theorem C60_short (T : Terms P) (maxIterations : Int) (valid : P × H → Option Bool) (cusp : Nat → Bool)
    (path : List (P × H)) (s : SmoothStatus) (r : List (P × H)) (n : Nat) (h5 : path.length < 5)
    (h : smooth T maxIterations valid cusp path = some (s, r, n)) :
    r = path ∧ (s = .pathSize ∨ s = .failure) := by
  rcases smooth_run T maxIterations valid cusp path s r n h with ⟨_, hr, _, hs, _⟩ | ⟨hl, _⟩
  · exact ⟨hr, hs⟩
  · omega

/-- C60: with the terms of the code, a step is below the tolerance when every gradient is shorter than it. -/
theorem C60_step_tolerance (q : SmoothParam) (map : OccMap) (ob ed : Cell → Cell) (htol : 0 < q.stepTolerance)
    (gs : List Pt) :
    (q.terms map ob ed).small gs = true ↔ ∀ g ∈ gs, √(g.x ^ 2 + g.y ^ 2) < q.stepTolerance := by
  have key : ∀ (l : List ℝ) (a : ℝ), l.foldl max a < q.stepTolerance ↔
      a < q.stepTolerance ∧ ∀ x ∈ l, x < q.stepTolerance := by
    intro l
    induction l with
    | nil => intro a; simp
    | cons x l ih =>
      intro a
      rw [List.foldl_cons, ih, max_lt_iff, List.forall_mem_cons, and_assoc]
  simp only [SmoothParam.terms, decide_eq_true_eq]
  rw [key]
  simp only [htol, true_and, List.mem_map, forall_exists_index, and_imp, forall_apply_eq_imp_iff₂]
  rfl

/-- A concrete arithmetic and run: on the line, every gradient is the smoothing term; the middle point of
five moves, and the result is accepted. -/
example : smooth (P := ℤ) (H := Unit)
    ⟨0, fun _ a b c d e g => g + (a - 4 * b + 6 * c - 4 * d + e), fun _ _ _ x y z => (x, y, z),
      fun p g => p - g, fun gs => gs.all (· == 0)⟩ 1 (fun _ => some true) (fun _ => false)
    [(0, ()), (0, ()), (1, ()), (0, ()), (0, ())] =
      some (.maxIteration, [(0, ()), (0, ()), (-5, ()), (0, ()), (0, ())], 1) := by
  decide +kernel

end PathPlanning
