import Verif.Model.Smoother
import Mathlib.Tactic.SplitIfs
import Mathlib.Data.List.Basic

/-! # Lemmas about the smoother -/

namespace PathPlanning.Smoother

variable {P H : Type}

theorem mem_indexLoop (cusp : Nat → Bool) (num i j : Nat) :
    j ∈ indexLoop cusp num i ↔
      i + 2 ≤ j ∧ j + 2 < num ∧ ∀ d, cusp d = true → d ≤ j + 2 → ¬ j ≤ d + 2 := by
  fun_induction indexLoop cusp num i with
  | case1 i h hc ih =>
    rw [ih]
    constructor
    · rintro ⟨h1, h2, h3⟩; exact ⟨by omega, h2, h3⟩
    · rintro ⟨h1, h2, h3⟩
      have := h3 _ hc
      exact ⟨by omega, h2, h3⟩
  | case2 i h _ hc ih =>
    rw [ih]
    constructor
    · rintro ⟨h1, h2, h3⟩; exact ⟨by omega, h2, h3⟩
    · rintro ⟨h1, h2, h3⟩
      have := h3 _ hc
      exact ⟨by omega, h2, h3⟩
  | case3 i h _ _ hc ih =>
    rw [ih]
    constructor
    · rintro ⟨h1, h2, h3⟩; exact ⟨by omega, h2, h3⟩
    · rintro ⟨h1, h2, h3⟩
      have := h3 _ hc
      exact ⟨by omega, h2, h3⟩
  | case4 i h _ _ _ hc ih =>
    rw [ih]
    constructor
    · rintro ⟨h1, h2, h3⟩; exact ⟨by omega, h2, h3⟩
    · rintro ⟨h1, h2, h3⟩
      have := h3 _ hc
      exact ⟨by omega, h2, h3⟩
  | case5 i h _ _ _ _ hc ih =>
    rw [ih]
    constructor
    · rintro ⟨h1, h2, h3⟩; exact ⟨by omega, h2, h3⟩
    · rintro ⟨h1, h2, h3⟩
      have := h3 _ hc
      exact ⟨by omega, h2, h3⟩
  | case6 i h c4 c3 c2 c1 c0 ih =>
    rw [List.mem_cons, ih]
    constructor
    · rintro (rfl | ⟨h1, h2, h3⟩)
      · refine ⟨le_rfl, by omega, fun d hd h1 h2 => ?_⟩
        have : d = i ∨ d = i + 1 ∨ d = i + 2 ∨ d = i + 3 ∨ d = i + 4 := by omega
        rcases this with rfl | rfl | rfl | rfl | rfl <;> contradiction
      · exact ⟨by omega, h2, h3⟩
    · rintro ⟨h1, h2, h3⟩
      by_cases hj : j = i + 2
      · exact Or.inl hj
      · exact Or.inr ⟨by omega, h2, h3⟩
  | case7 i h =>
    simp only [List.not_mem_nil, false_iff]
    rintro ⟨h1, h2, _⟩
    omega

theorem indexLoop_sorted (cusp : Nat → Bool) (num i : Nat) : (indexLoop cusp num i).Pairwise (· < ·) := by
  fun_induction indexLoop cusp num i with
  | case6 i h c4 c3 c2 c1 c0 ih =>
    refine List.pairwise_cons.mpr ⟨fun j hj => ?_, ih⟩
    have := ((mem_indexLoop _ _ _ _).mp hj).1
    omega
  | case7 => exact List.Pairwise.nil
  | _ => assumption

/-- One point: it is read and written in range, and only the gradients of its neighbours change. -/
theorem gradientAt_spec (T : Terms P) (requested current g : List P) (i : Nat)
    (h2 : 2 ≤ i) (hr : i < requested.length) (hc : i + 2 < current.length)
    (hg : g.length = current.length) :
    ∃ g', gradientAt T requested current g i = some g' ∧ g'.length = g.length ∧
      ∀ j, ¬ (i ≤ j + 1 ∧ j ≤ i + 1) → g'[j]? = g[j]? := by
  have e2 : current[i - 2]? = some (current[i - 2]'(by omega)) := List.getElem?_eq_getElem _
  have e1 : current[i - 1]? = some (current[i - 1]'(by omega)) := List.getElem?_eq_getElem _
  have e0 : current[i]? = some (current[i]'(by omega)) := List.getElem?_eq_getElem _
  have f1 : current[i + 1]? = some (current[i + 1]'(by omega)) := List.getElem?_eq_getElem _
  have f2 : current[i + 2]? = some (current[i + 2]'(by omega)) := List.getElem?_eq_getElem _
  have er : requested[i]? = some (requested[i]'(by omega)) := List.getElem?_eq_getElem _
  have eg : g[i]? = some (g[i]'(by omega)) := List.getElem?_eq_getElem _
  unfold gradientAt
  rw [if_neg (by omega), e2, e1, e0, f1, f2, er, eg]
  simp only [Option.bind_eq_bind, Option.pure_def, Option.bind_some]
  obtain ⟨v, hv⟩ : ∃ v, v = T.point requested[i] current[i - 2] current[i - 1] current[i] current[i + 1]
    current[i + 2] g[i] := ⟨_, rfl⟩
  rw [← hv]
  have l : (g.set i v).length = g.length := List.length_set
  rw [List.getElem?_eq_getElem (i := i - 1) (by omega), List.getElem?_eq_getElem (i := i) (by omega),
    List.getElem?_eq_getElem (i := i + 1) (by omega)]
  simp only [Option.bind_some]
  refine ⟨_, rfl, by simp, fun j hj => ?_⟩
  rw [List.getElem?_set_ne (by omega), List.getElem?_set_ne (by omega), List.getElem?_set_ne (by omega),
    List.getElem?_set_ne (by omega)]

/-- Without an effect of the curvature term, only the gradient of the point itself changes. -/
theorem gradientAt_local (T : Terms P) (hT : ∀ a b c x y z, T.curvature a b c x y z = (x, y, z))
    (requested current g g' : List P) (i : Nat) (h2 : 2 ≤ i)
    (h : gradientAt T requested current g i = some g') :
    ∀ j, i ≠ j → g'[j]? = g[j]? := by
  unfold gradientAt at h
  rw [if_neg (by omega)] at h
  simp only [Option.bind_eq_bind, Option.pure_def, Option.bind_eq_some_iff, hT, Option.some.injEq] at h
  obtain ⟨r, _, m2, _, m1, _, c, _, p1, _, p2, _, gi, hgi, gm, hgm, gc, hgc, gp, hgp, rfl⟩ := h
  intro j hj
  have k1 : i ≠ i - 1 := by omega
  have k2 : i ≠ i + 1 := by omega
  rw [List.getElem?_set_ne k1] at hgm
  rw [List.getElem?_set_ne k2] at hgp
  by_cases e1 : j = i + 1
  · subst e1
    have : i + 1 < g.length := by
      by_contra hh
      rw [List.getElem?_eq_none (by omega)] at hgp
      cases hgp
    rw [List.getElem?_set_self (by simpa using this), hgp]
  · rw [List.getElem?_set_ne (by omega), List.getElem?_set_ne hj]
    by_cases e2 : j = i - 1
    · subst e2
      have : i - 1 < g.length := by
        by_contra hh
        rw [List.getElem?_eq_none (by omega)] at hgm
        cases hgm
      rw [List.getElem?_set_self (by simpa using this), hgm]
    · rw [List.getElem?_set_ne (by omega), List.getElem?_set_ne hj]

theorem foldGradient_spec (T : Terms P) (requested current : List P)
    (hl : current.length = requested.length) :
    ∀ (indices : List Nat) (g : List P), (∀ i ∈ indices, 2 ≤ i ∧ i + 2 < current.length) →
      g.length = current.length →
      ∃ g', indices.foldlM (gradientAt T requested current) g = some g' ∧ g'.length = g.length ∧
        (∀ j, (∀ i ∈ indices, ¬ (i ≤ j + 1 ∧ j ≤ i + 1)) → g'[j]? = g[j]?) ∧
        ((∀ a b c x y z, T.curvature a b c x y z = (x, y, z)) →
          ∀ j, j ∉ indices → g'[j]? = g[j]?) := by
  intro indices
  induction indices with
  | nil => intro g _ _; exact ⟨g, rfl, rfl, fun _ _ => rfl, fun _ _ _ => rfl⟩
  | cons i l ih =>
    intro g hi hg
    obtain ⟨a1, a2⟩ := hi i (by simp)
    obtain ⟨g1, h1, hl1, hu1⟩ := gradientAt_spec T requested current g i a1 (by omega) a2 hg
    obtain ⟨g2, h2, hl2, hu2, hv2⟩ := ih g1 (fun k hk => hi k (List.mem_cons_of_mem _ hk)) (by omega)
    refine ⟨g2, by rw [List.foldlM_cons, h1]; exact h2, by omega, fun j hj => ?_, fun hT j hj => ?_⟩
    · rw [hu2 j (fun k hk => hj k (List.mem_cons_of_mem _ hk)), hu1 j (hj i (by simp))]
    · rw [List.mem_cons, not_or] at hj
      rw [hv2 hT j hj.2, gradientAt_local T hT requested current g g1 i a1 h1 j (Ne.symm hj.1)]

theorem applyGradients_length (T : Terms P) (path : List (P × H)) (gs : List P)
    (h : gs.length = path.length) : (applyGradients T path gs).length = path.length := by
  simp [applyGradients, h]

theorem applyGradients_headings (T : Terms P) : ∀ (path : List (P × H)) (gs : List P),
    gs.length = path.length → (applyGradients T path gs).map Prod.snd = path.map Prod.snd
  | [], [], _ => rfl
  | p :: path, g :: gs, h => by
    have := applyGradients_headings T path gs (by simpa using h)
    unfold applyGradients at this ⊢
    rw [List.zipWith_cons_cons, List.map_cons, List.map_cons, this]

theorem applyGradients_get (T : Terms P) (hT : ∀ p, T.move p T.zero = p) (path : List (P × H))
    (gs : List P) (h : gs.length = path.length) (j : Nat)
    (hj : j < path.length → gs[j]? = some T.zero) : (applyGradients T path gs)[j]? = path[j]? := by
  unfold applyGradients
  rw [List.getElem?_zipWith]
  by_cases hl : j < path.length
  · rw [hj hl, List.getElem?_eq_getElem hl]
    simp [hT]
  · rw [List.getElem?_eq_none (by omega)]

/-- What a run of the main loop does. -/
theorem loop_spec (T : Terms P) (requested : List P) (indices : List Nat)
    (hi : ∀ i ∈ indices, 2 ≤ i ∧ i + 2 < requested.length) :
    ∀ (left : Nat) (small : Bool) (path : List (P × H)) (n : Nat), path.length = requested.length →
      ∃ s r m, loop T requested indices left small path n = some (s, r, m) ∧
        r.length = path.length ∧ r.map Prod.snd = path.map Prod.snd ∧ n ≤ m ∧ m ≤ n + left ∧
        ((∀ p, T.move p T.zero = p) →
          (∀ j, (∀ i ∈ indices, ¬ (i ≤ j + 1 ∧ j ≤ i + 1)) → r[j]? = path[j]?) ∧
          ((∀ a b c x y z, T.curvature a b c x y z = (x, y, z)) → ∀ j, j ∉ indices → r[j]? = path[j]?)) := by
  intro left
  induction left with
  | zero =>
    intro small path n _
    exact ⟨_, _, _, rfl, rfl, rfl, le_rfl, by omega, fun _ => ⟨fun _ _ => rfl, fun _ _ _ => rfl⟩⟩
  | succ left ih =>
    intro small path n hl
    unfold loop
    by_cases hs : small = true
    · rw [if_pos hs]
      exact ⟨_, _, _, rfl, rfl, rfl, le_rfl, by omega, fun _ => ⟨fun _ _ => rfl, fun _ _ _ => rfl⟩⟩
    · rw [if_neg hs]
      obtain ⟨gs, hg, hgl, hgu, hgv⟩ := foldGradient_spec T requested (path.map Prod.fst) (by simpa using hl)
        indices (List.replicate requested.length T.zero) (by simpa [hl] using hi) (by simp [hl])
      have hgr : gradients T requested (path.map Prod.fst) indices = some gs := hg
      rw [hgr]
      have hlen : gs.length = path.length := by rw [hgl]; simp [hl]
      have hap := applyGradients_length T path gs hlen
      obtain ⟨s, r, m, h1, h2, h3, h4, h5, h6⟩ := ih (T.small gs) (applyGradients T path gs) (n + 1)
        (by omega)
      refine ⟨s, r, m, h1, by omega, by rw [h3, applyGradients_headings T path gs hlen], by omega, by omega,
        fun hz => ⟨fun j hj => ?_, fun hT j hj => ?_⟩⟩
      · rw [(h6 hz).1 j hj, applyGradients_get T hz path gs hlen j (fun hjl => ?_)]
        rw [hgu j hj]
        simp [← hl, hjl]
      · rw [(h6 hz).2 hT j hj, applyGradients_get T hz path gs hlen j (fun hjl => ?_)]
        rw [hgv hT j hj]
        simp [← hl, hjl]

/-- The iterates of the main loop. -/
theorem loop_iterates (T : Terms P) (requested : List P) (indices : List Nat) :
    ∀ (left : Nat) (small : Bool) (path : List (P × H)) (n : Nat) (s : SmoothStatus) (r : List (P × H))
      (m : Nat), loop T requested indices left small path n = some (s, r, m) →
      ∃ (it : Nat → List (P × H)) (gs : Nat → List P), it 0 = path ∧ it (m - n) = r ∧ n ≤ m ∧
        (∀ k < m - n, small = false ∧ gradients T requested ((it k).map Prod.fst) indices = some (gs k) ∧
          it (k + 1) = applyGradients T (it k) (gs k) ∧ (k + 1 < m - n → T.small (gs k) = false)) ∧
        ((s = .maxIteration ∧ m - n = left) ∨
          (s = .stepTolerance ∧ m - n < left ∧ (m = n → small = true) ∧
            (n < m → T.small (gs (m - n - 1)) = true))) := by
  intro left
  induction left with
  | zero =>
    intro small path n s r m h
    simp only [loop, Option.some.injEq, Prod.mk.injEq] at h
    obtain ⟨rfl, rfl, rfl⟩ := h
    refine ⟨fun _ => path, fun _ => [], rfl, rfl, le_rfl, fun k hk => by omega, Or.inl ⟨rfl, by omega⟩⟩
  | succ left ih =>
    intro small path n s r m h
    unfold loop at h
    by_cases hs : small = true
    · rw [if_pos hs] at h
      simp only [Option.some.injEq, Prod.mk.injEq] at h
      obtain ⟨rfl, rfl, rfl⟩ := h
      refine ⟨fun _ => path, fun _ => [], rfl, rfl, le_rfl, fun k hk => by omega,
        Or.inr ⟨rfl, by omega, fun _ => hs, fun hh => by omega⟩⟩
    · rw [if_neg hs] at h
      simp only [Option.bind_eq_bind, Option.bind_eq_some_iff] at h
      obtain ⟨g, hg, h⟩ := h
      obtain ⟨it, gs, h0, h1, h2, h3, h4⟩ := ih _ _ _ _ _ _ h
      have hsf : small = false := by simpa using hs
      have e : m - n = (m - (n + 1)) + 1 := by omega
      refine ⟨fun k => Nat.casesOn k path it, fun k => Nat.casesOn k g gs, rfl, ?_, by omega,
        fun k hk => ?_, ?_⟩
      · rw [e]; exact h1
      · cases k with
        | zero =>
          refine ⟨hsf, hg, h0, fun hk1 => ?_⟩
          exact (h3 0 (by omega)).1
        | succ k =>
          obtain ⟨_, a2, a3, a4⟩ := h3 k (by omega)
          exact ⟨hsf, a2, a3, fun hk1 => a4 (by omega)⟩
      · rcases h4 with ⟨rfl, hl⟩ | ⟨rfl, hl, hz, hsm⟩
        · exact Or.inl ⟨rfl, by omega⟩
        · refine Or.inr ⟨rfl, by omega, fun hh => by omega, fun hh => ?_⟩
          by_cases hmn : m = n + 1
          · have hz' := hz hmn
            subst hmn
            have : n + 1 - n - 1 = 0 := by omega
            rw [this]
            exact hz'
          · have e2 : m - n - 1 = (m - (n + 1) - 1) + 1 := by omega
            rw [e2]
            exact hsm (by omega)

theorem isPathSafe_true (valid : P × H → Option Bool) : ∀ path,
    isPathSafe valid path = some true ↔ ∀ p ∈ path, valid p = some true
  | [] => by simp [isPathSafe]
  | p :: l => by
    have ih := isPathSafe_true valid l
    unfold isPathSafe
    rw [List.forall_mem_cons, ← ih]
    cases hp : valid p with
    | none => simp
    | some b => cases b <;> simp

theorem isPathSafe_total (valid : P × H → Option Bool) : ∀ path, (∀ p ∈ path, (valid p).isSome) →
    ∃ b, isPathSafe valid path = some b
  | [], _ => ⟨true, rfl⟩
  | p :: l, h => by
    obtain ⟨b, hb⟩ := isPathSafe_total valid l (fun q hq => h q (List.mem_cons_of_mem _ hq))
    have hp := h p (by simp)
    unfold isPathSafe
    cases hv : valid p with
    | none => rw [hv] at hp; simp at hp
    | some c => cases c <;> simp [hb]

end PathPlanning.Smoother
