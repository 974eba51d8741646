import Verif.Model.RRTInterrupt
import Verif.Spec.RRTInterrupt
import Verif.Props.RRTPlanner

/-!
# C152: what an exception in a search of RRT or RRT* leaves behind
-/

namespace PathPlanning
open Spec
open PathPlanning.Tree
variable {V P K : Type} [DecidableEq V] [LinearOrder K] [Field K]

/-! ## RRT -/

private theorem samples_ge (s : RRTSetup V P K) : ∀ (k count : Nat) (t : Tree V) (r : RRTResult V),
    s.maxIteration + 1 - count = k → rrtLoop s count t = some r → count ≤ r.samples := by
  intro k
  induction k with
  | zero =>
    intro count t r hk h
    rw [rrtLoop, if_pos (by omega)] at h
    cases h; exact Nat.le_refl _
  | succ k ih =>
    intro count t r hk h
    rw [rrtLoop, if_neg (by omega)] at h
    split at h
    · cases h; exact Nat.le_refl _
    · cases hn : t.getNearestNode s.knn (s.sample count) with
      | none => rw [hn] at h; have := ih _ _ _ (by omega) h; omega
      | some n =>
        rw [hn] at h
        dsimp only at h
        split at h
        · have := ih _ _ _ (by omega) h; omega
        · split at h
          · cases h
          · split at h
            · cases h; exact Nat.le_succ _
            · have := ih _ _ _ (by omega) h; omega

/-- How `rrtLoopX` ends, in terms of searches that are not interrupted. -/
private def CutRRT (s : RRTSetup V P K) (fault : Nat → Fault) (count : Nat) (t : Tree V) (l : RRTLeft V) : Prop :=
  (∃ b, l.status = some b ∧ rrtLoop s count t = some ⟨b, l.tree, l.solution, l.samples⟩ ∧
    (∀ i, count ≤ i → i < l.samples → fault i ≠ .early) ∧ (b = true → fault (l.samples - 1) ≠ .late)) ∨
  (l.status = none ∧ l.solution = none ∧ ∃ i, count ≤ i ∧ l.samples = i + 1 ∧ i ≤ s.maxIteration ∧
    (∀ r, rrtLoop s count t = some r → i < r.samples) ∧
    (fault i = .early ∧ (i = count ∧ l.tree = t ∨ count < i ∧
        rrtLoop { s with isSolution := fun _ => false, maxIteration := i - 1 } count t = some ⟨false, l.tree, none, i⟩) ∨
      fault i = .late ∧
        rrtLoop { s with isSolution := fun _ => false, maxIteration := i } count t = some ⟨false, l.tree, none, i + 1⟩))

private theorem loopX_cut (s : RRTSetup V P K) (fault : Nat → Fault) : ∀ (k count : Nat) (t : Tree V) (l : RRTLeft V),
    s.maxIteration + 1 - count = k → rrtLoopX s fault count t = some l → CutRRT s fault count t l := by
  intro k
  induction k with
  | zero =>
    intro count t l hk h
    rw [rrtLoopX, if_pos (by omega)] at h
    cases h
    refine .inl ⟨false, rfl, by rw [rrtLoop, if_pos (by omega)], fun i h1 h2 => absurd h2 (by dsimp only; omega), by simp⟩
  | succ k ih =>
    intro count t l hk h
    rw [rrtLoopX, if_neg (by omega)] at h
    -- the iteration goes on with the tree `u`
    have next : ∀ u : Tree V, rrtLoopX s fault (count + 1) u = some l → ¬ t.size > s.maxNumberTreeNode →
        fault count ≠ .early →
        (rrtLoop s count t = rrtLoop s (count + 1) u) →
        (∀ m, count ≤ m → rrtLoop { s with isSolution := fun _ => false, maxIteration := m } count t =
          rrtLoop { s with isSolution := fun _ => false, maxIteration := m } (count + 1) u) → CutRRT s fault count t l :=
      fun u hu hsz hf e1 e2 => by
        rcases ih (count + 1) u l (by omega) hu with ⟨b, a1, a2, a3, a4⟩ | ⟨a1, a2, i, a3, a4, a5, a6, a7⟩
        · refine Or.inl ⟨b, a1, e1.trans a2, fun i h1 h2 => ?_, a4⟩
          rcases Nat.eq_or_lt_of_le h1 with h1 | h1
          · rw [← h1]; exact hf
          · exact a3 i h1 h2
        · refine Or.inr ⟨a1, a2, i, by omega, a4, a5, fun r hr => a6 r (e1 ▸ hr), ?_⟩
          rcases a7 with ⟨b1, b2⟩ | ⟨b1, b2⟩
          · refine Or.inl ⟨b1, Or.inr ⟨by omega, ?_⟩⟩
            rw [e2 _ (by omega)]
            rcases b2 with ⟨c1, c2⟩ | ⟨c1, c2⟩
            · rw [c1, ← c2]
              rw [rrtLoop, if_pos (by dsimp only; omega)]
            · exact c2
          · exact Or.inr ⟨b1, by rw [e2 _ (by omega)]; exact b2⟩
    split at h
    · rename_i hsz
      cases h
      refine .inl ⟨false, rfl, by rw [rrtLoop, if_neg (by omega), if_pos hsz],
        fun i h1 h2 => absurd h2 (by dsimp only; omega), by simp⟩
    · rename_i hsz
      split at h
      · rename_i hf
        cases h
        refine .inr ⟨rfl, rfl, count, Nat.le_refl _, rfl, by omega, ?_, .inl ⟨hf, .inl ⟨rfl, rfl⟩⟩⟩
        intro r hr
        rw [rrtLoop, if_neg (by omega), if_neg hsz] at hr
        cases hn : t.getNearestNode s.knn (s.sample count) with
        | none => rw [hn] at hr; exact samples_ge s _ _ _ _ rfl hr
        | some n =>
          rw [hn] at hr
          dsimp only at hr
          split at hr
          · exact samples_ge s _ _ _ _ rfl hr
          · split at hr
            · cases hr
            · split at hr
              · cases hr; exact Nat.lt_succ_self _
              · exact samples_ge s _ _ _ _ rfl hr
      · rename_i hf
        cases hn : t.getNearestNode s.knn (s.sample count) with
        | none =>
          rw [hn] at h
          refine next t h hsz hf ?_ ?_
          · rw [rrtLoop, if_neg (by omega), if_neg hsz, hn]
          · intro m hm
            rw [rrtLoop, if_neg (by dsimp only; omega), if_neg hsz]
            simp only [hn]
        | some n =>
          rw [hn] at h
          dsimp only at h
          split at h
          · rename_i hv
            refine next t h hsz hf ?_ ?_
            · rw [rrtLoop, if_neg (by omega), if_neg hsz, hn]
              simp only [hv, if_true]
            · intro m hm
              rw [rrtLoop, if_neg (by dsimp only; omega), if_neg hsz]
              simp only [hn, hv, if_true]
          · rename_i hv
            obtain ⟨v, hvv⟩ : ∃ v, v = s.steering.final (s.steering.steerTowards (t.state n) (s.sample count)
              s.maxConnectionDistance) := ⟨_, rfl⟩
            rw [← hvv] at h
            rcases he : t.extend s.knn v (some n) with ⟨t', _ | m⟩
            · rw [he] at h; cases h
            · rw [he] at h
              dsimp only at h
              have e2 : ∀ m, count ≤ m → rrtLoop { s with isSolution := fun _ => false, maxIteration := m } count t =
                  rrtLoop { s with isSolution := fun _ => false, maxIteration := m } (count + 1) t' := by
                intro m hm
                rw [rrtLoop, if_neg (by dsimp only; omega), if_neg hsz]
                simp only [hn, hv]
                simp only [← hvv, he]
                simp
              split at h
              · rename_i hl
                cases h
                refine .inr ⟨rfl, rfl, count, Nat.le_refl _, rfl, by omega, ?_, .inr ⟨hl, ?_⟩⟩
                · intro r hr
                  rw [rrtLoop, if_neg (by omega), if_neg hsz, hn] at hr
                  dsimp only at hr
                  rw [if_neg hv, ← hvv, he] at hr
                  dsimp only at hr
                  split at hr
                  · cases hr; exact Nat.lt_succ_self _
                  · exact samples_ge s _ _ _ _ rfl hr
                · rw [e2 _ (Nat.le_refl _), rrtLoop, if_pos (by dsimp only; omega)]
              · rename_i hl
                have e1 : rrtLoop s count t = if s.isSolution v then some ⟨true, t', some m, count + 1⟩
                    else rrtLoop s (count + 1) t' := by
                  rw [rrtLoop, if_neg (by omega), if_neg hsz, hn]
                  dsimp only
                  rw [if_neg hv, ← hvv, he]
                split at h
                · rename_i hs
                  cases h
                  refine .inl ⟨true, rfl, by rw [e1, if_pos hs], ?_, ?_⟩
                  · intro i h1 h2
                    dsimp only at h2
                    rw [show i = count by omega]; exact hf
                  · intro _
                    exact hl
                · rename_i hs
                  exact next t' h hsz hf (by rw [e1, if_neg hs]) e2

private theorem loopX_none (s : RRTSetup V P K) (fault : Nat → Fault) : ∀ (k count : Nat) (t : Tree V),
    s.maxIteration + 1 - count = k → rrtLoopX s fault count t = none →
    rrtLoop { s with isSolution := fun _ => false } count t = none := by
  intro k
  induction k with
  | zero =>
    intro count t hk h
    rw [rrtLoopX, if_pos (by omega)] at h
    cases h
  | succ k ih =>
    intro count t hk h
    rw [rrtLoopX, if_neg (by omega)] at h
    rw [rrtLoop, if_neg (by dsimp only; omega)]
    split at h
    · cases h
    · rename_i hsz
      rw [if_neg hsz]
      split at h
      · cases h
      · dsimp only
        split at h
        · rename_i hn
          simp only [hn]
          exact ih _ _ (by omega) h
        · rename_i n hn
          simp only [hn]
          dsimp only at h
          split at h
          · rename_i hv
            rw [if_pos hv]
            exact ih _ _ (by omega) h
          · rename_i hv
            rw [if_neg hv]
            split at h
            · rename_i he
              simp only [he]
            · rename_i he
              simp only [he]
              split at h
              · cases h
              · split at h
                · cases h
                · simpa using ih _ _ (by omega) h

omit [DecidableEq V] [LinearOrder K] [Field K] in
private theorem first_succ (s : RRTSetup V P K) (i : Nat) :
    firstIterations s (i + 1) = { s with isSolution := fun _ => false, maxIteration := i } := by
  simp [firstIterations]

private theorem size_root (t : Tree V) (init : V) : (t.clear.createRootNode init).1.size = 1 := rfl

/-- C152 for RRT: `SearchPath` always ends, by returning or by an exception. -/
theorem C152_rrt_ends [Inhabited V] {D : Type} [LE D] {dist : V → V → D} (s : RRTSetup V P K)
    (L : NearestLaws s.knn dist) (t : Tree V) (ht : TreeReachable s.knn t) (init : V) (fault : Nat → Fault) :
    ∃ l, rrtSearchPathX s fault t init = some l := by
  cases h : rrtSearchPathX s fault t init with
  | some l => exact ⟨l, rfl⟩
  | none =>
    obtain ⟨r, hr, -⟩ := C26_rrt_bounded { s with isSolution := fun _ => false } L t ht init
    rw [rrtSearchPath, loopX_none s fault _ 0 _ rfl h] at hr
    cases hr

/-- C152 for RRT: if no call throws in the iterations of the search, it is the usual one. -/
theorem C152_rrt_returned [Inhabited V] {D : Type} [LE D] {dist : V → V → D} (s : RRTSetup V P K)
    (L : NearestLaws s.knn dist) (t : Tree V) (ht : TreeReachable s.knn t) (init : V) (fault : Nat → Fault)
    (r : RRTResult V) (hr : rrtSearchPath s t init = some r) (hf : ∀ i < r.samples, fault i = .no) :
    rrtSearchPathX s fault t init = some ⟨some r.success, r.tree, r.solution, r.samples⟩ := by
  obtain ⟨l, hl⟩ := C152_rrt_ends s L t ht init fault
  rcases loopX_cut s fault _ 0 _ l rfl hl with ⟨b, a1, a2, -⟩ | ⟨-, -, i, -, -, -, a6, a7⟩
  · rw [rrtSearchPath, a2] at hr
    cases hr
    rw [hl, ← a1]
  · have := hf i (a6 r hr)
    rcases a7 with ⟨h, -⟩ | ⟨h, -⟩ <;> rw [this] at h <;> cases h

/-- C152 for RRT: an exception thrown before the tree is extended, in any iteration that the search reaches, or in the call
of `IsSolution` that would have ended it, leaves the search. -/
theorem C152_rrt_thrown_if [Inhabited V] {D : Type} [LE D] {dist : V → V → D} (s : RRTSetup V P K)
    (L : NearestLaws s.knn dist) (t : Tree V) (ht : TreeReachable s.knn t) (init : V) (fault : Nat → Fault)
    (r : RRTResult V) (hr : rrtSearchPath s t init = some r)
    (hf : (∃ i < r.samples, fault i = .early) ∨ r.success = true ∧ fault (r.samples - 1) = .late) :
    ∃ l, rrtSearchPathX s fault t init = some l ∧ l.status = none := by
  obtain ⟨l, hl⟩ := C152_rrt_ends s L t ht init fault
  refine ⟨l, hl, ?_⟩
  rcases loopX_cut s fault _ 0 _ l rfl hl with ⟨b, a1, a2, a3, a4⟩ | ⟨a1, -⟩
  · rw [rrtSearchPath, a2] at hr
    cases hr
    rcases hf with ⟨i, h1, h2⟩ | ⟨h1, h2⟩
    · exact absurd h2 (a3 i (Nat.zero_le _) h1)
    · exact absurd h2 (a4 h1)
  · exact a1

/-- C152 for RRT. A search left by an exception reports no path, and its tree is one that calls of the tree's methods make,
not larger than allowed. It was left in an iteration `i` that the search without exceptions reaches, and the tree is the one
of the iterations before it, and with iteration `i` if it was `IsSolution` that threw. -/
theorem C152_rrt_thrown [Inhabited V] {D : Type} [LE D] {dist : V → V → D} (s : RRTSetup V P K)
    (L : NearestLaws s.knn dist) (t : Tree V) (ht : TreeReachable s.knn t) (init : V) (fault : Nat → Fault)
    (l : RRTLeft V) (hl : rrtSearchPathX s fault t init = some l) (hst : l.status = none) :
    treeGetPath l.tree l.solution = some [] ∧ TreeReachable s.knn l.tree ∧ l.tree.size ≤ s.maxNumberTreeNode + 1 ∧
    ∃ i n, (fault i = .early ∧ n = i ∨ fault i = .late ∧ n = i + 1) ∧ l.samples = i + 1 ∧
      (∀ r, rrtSearchPath s t init = some r → i < r.samples) ∧
      rrtSearchPath (firstIterations s n) t init = some ⟨false, l.tree, none, n⟩ := by
  rcases loopX_cut s fault _ 0 _ l rfl hl with ⟨b, a1, -⟩ | ⟨a1, a2, i, a3, a4, a5, a6, a7⟩
  · rw [hst] at a1; cases a1
  · have key : ∃ n, (fault i = .early ∧ n = i ∨ fault i = .late ∧ n = i + 1) ∧
        rrtSearchPath (firstIterations s n) t init = some ⟨false, l.tree, none, n⟩ := by
      rcases a7 with ⟨h, ⟨h1, h2⟩ | ⟨h1, h2⟩⟩ | ⟨h, h1⟩
      · subst h1
        refine ⟨0, .inl ⟨h, rfl⟩, ?_⟩
        rw [rrtSearchPath, rrtLoop, if_neg (by simp), if_pos (by rw [size_root]; simp [firstIterations]), h2]
      · obtain ⟨j, rfl⟩ : ∃ j, i = j + 1 := ⟨i - 1, by omega⟩
        refine ⟨j + 1, .inl ⟨h, rfl⟩, ?_⟩
        rw [first_succ]
        exact h2
      · refine ⟨i + 1, .inr ⟨h, rfl⟩, ?_⟩
        rw [first_succ]
        exact h1
    obtain ⟨n, hn, hs⟩ := key
    refine ⟨by rw [a2]; rfl, ?_, ?_, i, n, hn, a4, a6, hs⟩
    · exact rrtLoop_reachable (firstIterations s n) L _ _ _ _ rfl (reachable_start ht init) hs
    · obtain ⟨r, hr, -, hsz⟩ := C26_rrt_bounded (firstIterations s n) L t ht init
      rw [hs] at hr
      cases hr
      refine hsz.trans ?_
      simp only [firstIterations]
      split <;> omega

/-! ## RRT* -/

private theorem star_samples_ge (s : RRTSetup V P K) (nn : Nat → Nat) : ∀ (k count : Nat) (st : RRTStarState V K)
    (r : RRTStarResult V K), s.maxIteration + 1 - count = k → rrtStarLoop s nn count st = some r → count ≤ r.samples := by
  intro k
  induction k with
  | zero =>
    intro count st r hk h
    rw [rrtStarLoop, if_pos (by omega)] at h
    cases h; exact Nat.le_refl _
  | succ k ih =>
    intro count st r hk h
    rw [rrtStarLoop, if_neg (by omega)] at h
    split at h
    · cases h; exact Nat.le_refl _
    · split at h
      · cases h
      · have := ih _ _ _ (by omega) h; omega
      · split at h
        · cases h; exact Nat.le_succ _
        · have := ih _ _ _ (by omega) h; omega

/-- How `rrtStarLoopX` ends, in terms of searches that are not interrupted. -/
private def CutStar (s : RRTSetup V P K) (nn : Nat → Nat) (fault : Nat → Fault) (count : Nat) (st : RRTStarState V K)
    (l : RRTStarLeft V K) : Prop :=
  (∃ b, l.status = some b ∧ rrtStarLoop s nn count st = some ⟨b, l.state, l.solution, l.samples⟩ ∧
    (∀ i, count ≤ i → i < l.samples → fault i ≠ .early) ∧ (b = true → fault (l.samples - 1) ≠ .late)) ∨
  (l.status = none ∧ l.solution = none ∧ ∃ i, count ≤ i ∧ l.samples = i + 1 ∧ i ≤ s.maxIteration ∧
    (∀ r, rrtStarLoop s nn count st = some r → i < r.samples) ∧
    (fault i = .early ∧ (i = count ∧ l.state = st ∨ count < i ∧
        rrtStarLoop { s with isSolution := fun _ => false, maxIteration := i - 1 } nn count st =
          some ⟨false, l.state, none, i⟩) ∨
      fault i = .late ∧
        rrtStarLoop { s with isSolution := fun _ => false, maxIteration := i } nn count st =
          some ⟨false, l.state, none, i + 1⟩))

private theorem star_step_eq (s : RRTSetup V P K) (nn : Nat → Nat) (target : V) (st : RRTStarState V K) (f : V → Bool)
    (m : Nat) : rrtStarStep { s with isSolution := f, maxIteration := m } nn target st = rrtStarStep s nn target st := rfl

private theorem starX_cut (s : RRTSetup V P K) (nn : Nat → Nat) (fault : Nat → Fault) : ∀ (k count : Nat)
    (st : RRTStarState V K) (l : RRTStarLeft V K), s.maxIteration + 1 - count = k →
    rrtStarLoopX s nn fault count st = some l → CutStar s nn fault count st l := by
  intro k
  induction k with
  | zero =>
    intro count st l hk h
    rw [rrtStarLoopX, if_pos (by omega)] at h
    cases h
    refine .inl ⟨false, rfl, by rw [rrtStarLoop, if_pos (by omega)], fun i h1 h2 => absurd h2 (by dsimp only; omega), by simp⟩
  | succ k ih =>
    intro count st l hk h
    rw [rrtStarLoopX, if_neg (by omega)] at h
    -- the iteration goes on with `u`
    have next : ∀ u : RRTStarState V K, rrtStarLoopX s nn fault (count + 1) u = some l → fault count ≠ .early →
        (rrtStarLoop s nn count st = rrtStarLoop s nn (count + 1) u) →
        (∀ m, count ≤ m → rrtStarLoop { s with isSolution := fun _ => false, maxIteration := m } nn count st =
          rrtStarLoop { s with isSolution := fun _ => false, maxIteration := m } nn (count + 1) u) →
        CutStar s nn fault count st l :=
      fun u hu hf e1 e2 => by
        rcases ih (count + 1) u l (by omega) hu with ⟨b, a1, a2, a3, a4⟩ | ⟨a1, a2, i, a3, a4, a5, a6, a7⟩
        · refine Or.inl ⟨b, a1, e1.trans a2, fun i h1 h2 => ?_, a4⟩
          rcases Nat.eq_or_lt_of_le h1 with h1 | h1
          · rw [← h1]; exact hf
          · exact a3 i h1 h2
        · refine Or.inr ⟨a1, a2, i, by omega, a4, a5, fun r hr => a6 r (e1 ▸ hr), ?_⟩
          rcases a7 with ⟨b1, b2⟩ | ⟨b1, b2⟩
          · refine Or.inl ⟨b1, Or.inr ⟨by omega, ?_⟩⟩
            rw [e2 _ (by omega)]
            rcases b2 with ⟨c1, c2⟩ | ⟨c1, c2⟩
            · rw [c1, ← c2]
              rw [rrtStarLoop, if_pos (by dsimp only; omega)]
            · exact c2
          · exact Or.inr ⟨b1, by rw [e2 _ (by omega)]; exact b2⟩
    split at h
    · rename_i hsz
      cases h
      refine .inl ⟨false, rfl, by rw [rrtStarLoop, if_neg (by omega), if_pos hsz],
        fun i h1 h2 => absurd h2 (by dsimp only; omega), by simp⟩
    · rename_i hsz
      have hge : ∀ r, rrtStarLoop s nn count st = some r → count < r.samples := by
        intro r hr
        rw [rrtStarLoop, if_neg (by omega), if_neg hsz] at hr
        split at hr
        · cases hr
        · exact star_samples_ge s nn _ _ _ _ rfl hr
        · split at hr
          · cases hr; exact Nat.lt_succ_self _
          · exact star_samples_ge s nn _ _ _ _ rfl hr
      split at h
      · rename_i hf
        cases h
        exact .inr ⟨rfl, rfl, count, Nat.le_refl _, rfl, by omega, hge, .inl ⟨hf, .inl ⟨rfl, rfl⟩⟩⟩
      · rename_i hf
        rcases hs : rrtStarStep s nn (s.sample count) st with _ | ⟨u, _ | ⟨m, v⟩⟩
        · rw [hs] at h; cases h
        · rw [hs] at h
          refine next u h hf ?_ ?_
          · rw [rrtStarLoop, if_neg (by omega), if_neg hsz, hs]
          · intro m hm
            rw [rrtStarLoop, if_neg (by dsimp only; omega), if_neg hsz, star_step_eq]
            simp only [hs]
        · rw [hs] at h
          dsimp only at h
          have e2 : ∀ m, count ≤ m → rrtStarLoop { s with isSolution := fun _ => false, maxIteration := m } nn count st =
              rrtStarLoop { s with isSolution := fun _ => false, maxIteration := m } nn (count + 1) u := by
            intro m hm
            rw [rrtStarLoop, if_neg (by dsimp only; omega), if_neg hsz, star_step_eq]
            simp [hs]
          split at h
          · rename_i hl
            cases h
            refine .inr ⟨rfl, rfl, count, Nat.le_refl _, rfl, by omega, hge, .inr ⟨hl, ?_⟩⟩
            rw [e2 _ (Nat.le_refl _), rrtStarLoop, if_pos (by dsimp only; omega)]
          · rename_i hl
            have e1 : rrtStarLoop s nn count st = if s.isSolution v then some ⟨true, u, some m, count + 1⟩
                else rrtStarLoop s nn (count + 1) u := by
              rw [rrtStarLoop, if_neg (by omega), if_neg hsz, hs]
            split at h
            · rename_i hv
              cases h
              refine .inl ⟨true, rfl, by rw [e1, if_pos hv], ?_, fun _ => hl⟩
              intro i h1 h2
              dsimp only at h2
              rw [show i = count by omega]; exact hf
            · rename_i hv
              exact next u h hf (by rw [e1, if_neg hv]) e2

private theorem starX_none (s : RRTSetup V P K) (nn : Nat → Nat) (fault : Nat → Fault) : ∀ (k count : Nat)
    (st : RRTStarState V K), s.maxIteration + 1 - count = k → rrtStarLoopX s nn fault count st = none →
    rrtStarLoop { s with isSolution := fun _ => false } nn count st = none := by
  intro k
  induction k with
  | zero =>
    intro count st hk h
    rw [rrtStarLoopX, if_pos (by omega)] at h
    cases h
  | succ k ih =>
    intro count st hk h
    rw [rrtStarLoopX, if_neg (by omega)] at h
    rw [rrtStarLoop, if_neg (by dsimp only; omega), star_step_eq]
    split at h
    · cases h
    · rename_i hsz
      rw [if_neg hsz]
      split at h
      · cases h
      · dsimp only
        split at h
        · rename_i hs
          simp only [hs]
        · rename_i hs
          simp only [hs]
          exact ih _ _ (by omega) h
        · rename_i hs
          simp only [hs]
          split at h
          · cases h
          · split at h
            · cases h
            · simpa using ih _ _ (by omega) h

/-- C152 for RRT*: `SearchPath` always ends, by returning or by an exception. -/
theorem C152_rrtStar_ends [Inhabited V] {D : Type} [LE D] {dist : V → V → D} (s : RRTSetup V P K)
    (L : NearestLaws s.knn dist) (nn : Nat → Nat) (t : Tree V) (ht : TreeReachable s.knn t) (init : V)
    (fault : Nat → Fault) : ∃ l, rrtStarSearchPathX s nn fault t init = some l := by
  cases h : rrtStarSearchPathX s nn fault t init with
  | some l => exact ⟨l, rfl⟩
  | none =>
    obtain ⟨r, hr, -⟩ := C26_rrtStar_bounded { s with isSolution := fun _ => false } L nn t ht init
    rw [rrtStarSearchPath, starX_none s nn fault _ 0 _ rfl h] at hr
    cases hr

/-- C152 for RRT*: if no call throws in the iterations of the search, it is the usual one. -/
theorem C152_rrtStar_returned [Inhabited V] {D : Type} [LE D] {dist : V → V → D} (s : RRTSetup V P K)
    (L : NearestLaws s.knn dist) (nn : Nat → Nat) (t : Tree V) (ht : TreeReachable s.knn t) (init : V)
    (fault : Nat → Fault) (r : RRTStarResult V K) (hr : rrtStarSearchPath s nn t init = some r)
    (hf : ∀ i < r.samples, fault i = .no) :
    rrtStarSearchPathX s nn fault t init = some ⟨some r.success, r.state, r.solution, r.samples⟩ := by
  obtain ⟨l, hl⟩ := C152_rrtStar_ends s L nn t ht init fault
  rcases starX_cut s nn fault _ 0 _ l rfl hl with ⟨b, a1, a2, -⟩ | ⟨-, -, i, -, -, -, a6, a7⟩
  · rw [rrtStarSearchPath, a2] at hr
    cases hr
    rw [hl, ← a1]
  · have := hf i (a6 r hr)
    rcases a7 with ⟨h, -⟩ | ⟨h, -⟩ <;> rw [this] at h <;> cases h

/-- C152 for RRT*: an exception thrown before the tree is extended, in any iteration that the search reaches, or in the call
of `IsSolution` that would have ended it, leaves the search. -/
theorem C152_rrtStar_thrown_if [Inhabited V] {D : Type} [LE D] {dist : V → V → D} (s : RRTSetup V P K)
    (L : NearestLaws s.knn dist) (nn : Nat → Nat) (t : Tree V) (ht : TreeReachable s.knn t) (init : V)
    (fault : Nat → Fault) (r : RRTStarResult V K) (hr : rrtStarSearchPath s nn t init = some r)
    (hf : (∃ i < r.samples, fault i = .early) ∨ r.success = true ∧ fault (r.samples - 1) = .late) :
    ∃ l, rrtStarSearchPathX s nn fault t init = some l ∧ l.status = none := by
  obtain ⟨l, hl⟩ := C152_rrtStar_ends s L nn t ht init fault
  refine ⟨l, hl, ?_⟩
  rcases starX_cut s nn fault _ 0 _ l rfl hl with ⟨b, a1, a2, a3, a4⟩ | ⟨a1, -⟩
  · rw [rrtStarSearchPath, a2] at hr
    cases hr
    rcases hf with ⟨i, h1, h2⟩ | ⟨h1, h2⟩
    · exact absurd h2 (a3 i (Nat.zero_le _) h1)
    · exact absurd h2 (a4 h1)
  · exact a1

/-- C152 for RRT*. A search left by an exception reports no path, and its tree is one that calls of the tree's methods make,
not larger than allowed. It was left in an iteration `i` that the search without exceptions reaches, and the tree and the
costs are those of the iterations before it, and with iteration `i` if it was `IsSolution` that threw. -/
theorem C152_rrtStar_thrown [Inhabited V] {D : Type} [LE D] {dist : V → V → D} (s : RRTSetup V P K)
    (L : NearestLaws s.knn dist) (nn : Nat → Nat) (t : Tree V) (ht : TreeReachable s.knn t) (init : V)
    (fault : Nat → Fault) (l : RRTStarLeft V K) (hl : rrtStarSearchPathX s nn fault t init = some l)
    (hst : l.status = none) :
    treeGetPath l.state.tree l.solution = some [] ∧ TreeReachable s.knn l.state.tree ∧
    l.state.tree.size ≤ s.maxNumberTreeNode + 1 ∧
    ∃ i n, (fault i = .early ∧ n = i ∨ fault i = .late ∧ n = i + 1) ∧ l.samples = i + 1 ∧
      (∀ r : RRTStarResult V K, rrtStarSearchPath s nn t init = some r → i < r.samples) ∧
      rrtStarSearchPath (firstIterations s n) nn t init = some ⟨false, l.state, none, n⟩ := by
  rcases starX_cut s nn fault _ 0 _ l rfl hl with ⟨b, a1, -⟩ | ⟨a1, a2, i, a3, a4, a5, a6, a7⟩
  · rw [hst] at a1; cases a1
  · have key : ∃ n, (fault i = .early ∧ n = i ∨ fault i = .late ∧ n = i + 1) ∧
        rrtStarSearchPath (firstIterations s n) nn t init = some ⟨false, l.state, none, n⟩ := by
      rcases a7 with ⟨h, ⟨h1, h2⟩ | ⟨h1, h2⟩⟩ | ⟨h, h1⟩
      · subst h1
        refine ⟨0, .inl ⟨h, rfl⟩, ?_⟩
        rw [rrtStarSearchPath, rrtStarLoop, if_neg (by simp), if_pos (by dsimp only; rw [size_root]; simp [firstIterations]), h2]
      · obtain ⟨j, rfl⟩ : ∃ j, i = j + 1 := ⟨i - 1, by omega⟩
        refine ⟨j + 1, .inl ⟨h, rfl⟩, ?_⟩
        rw [first_succ]
        exact h2
      · refine ⟨i + 1, .inr ⟨h, rfl⟩, ?_⟩
        rw [first_succ]
        exact h1
    obtain ⟨n, hn, hs⟩ := key
    refine ⟨by rw [a2]; rfl, ?_, ?_, i, n, hn, a4, a6, hs⟩
    · refine rrtStarLoop_reachable (firstIterations s n) L nn _ _ _ _ rfl ?_ hs
      exact reachable_start ht init
    · obtain ⟨r, hr, -, hsz⟩ := C26_rrtStar_bounded (firstIterations s n) L nn t ht init
      rw [hs] at hr
      cases hr
      refine hsz.trans ?_
      simp only [firstIterations]
      split <;> omega

/-! ## Histories -/

namespace RRTPlanner

/-- What one needs of a `SearchPath`, left by an exception or not. -/
private structure GoodSearchX [Inhabited V] (o : KNN V)
    (search : (Nat → Fault) → RRTPlanner V K → (Nat → K) → (Nat → V) → Option (Option Bool × RRTPlanner V K)) : Prop where
  total : ∀ f s c u, TreeReachable o s.tree → ∃ r, search f s c u = some r
  keep : ∀ f s c u b s', TreeReachable o s.tree → search f s c u = some (b, s') → TreeReachable o s'.tree ∧
    s'.init = s.init ∧ s'.goal = s.goal ∧ s'.params = s.params

private theorem goodX_rrt [Inhabited V] {D : Type} [LE D] {dist : V → V → D} (w : RRTWorld V P K)
    (L : NearestLaws w.knn dist) : GoodSearchX (K := K) w.knn (searchX w) where
  total f s c u ht := by
    obtain ⟨l, h⟩ := C152_rrt_ends (s.setup w c u) L s.tree ht s.init f
    exact ⟨_, by rw [searchX, h]; rfl⟩
  keep f s c u b s' ht h := by
    obtain ⟨l, h1, h2⟩ := Option.map_eq_some_iff.mp h
    cases h2
    refine ⟨?_, rfl, rfl, rfl⟩
    rcases hst : l.status with _ | b
    · exact (C152_rrt_thrown (s.setup w c u) L s.tree ht s.init f l h1 hst).2.1
    · rcases loopX_cut (s.setup w c u) f _ 0 _ l rfl h1 with ⟨b', -, a2, -⟩ | ⟨a1, -⟩
      · exact rrtLoop_reachable (s.setup w c u) L _ _ _ _ rfl (reachable_start ht _) a2
      · rw [hst] at a1; cases a1

private theorem goodX_star [Inhabited V] {D : Type} [LE D] {dist : V → V → D} (w : RRTWorld V P K)
    (L : NearestLaws w.knn dist) (nn : Nat → Nat) : GoodSearchX (K := K) w.knn (searchStarX w nn) where
  total f s c u ht := by
    obtain ⟨l, h⟩ := C152_rrtStar_ends (s.setup w c u) L nn s.tree ht s.init f
    exact ⟨_, by rw [searchStarX, h]; rfl⟩
  keep f s c u b s' ht h := by
    obtain ⟨l, h1, h2⟩ := Option.map_eq_some_iff.mp h
    cases h2
    refine ⟨?_, rfl, rfl, rfl⟩
    rcases hst : l.status with _ | b
    · exact (C152_rrtStar_thrown (s.setup w c u) L nn s.tree ht s.init f l h1 hst).2.1
    · rcases starX_cut (s.setup w c u) nn f _ 0 _ l rfl h1 with ⟨b', -, a2, -⟩ | ⟨a1, -⟩
      · refine rrtStarLoop_reachable (s.setup w c u) L nn _ _ _ _ rfl ?_ a2
        exact reachable_start ht _
      · rw [hst] at a1; cases a1

omit [DecidableEq V] [LinearOrder K] [Field K] in
private theorem callsX_append
    (search : (Nat → Fault) → RRTPlanner V K → (Nat → K) → (Nat → V) → Option (Option Bool × RRTPlanner V K))
    (l l' : List (Call V K × (Nat → Fault))) (s : RRTPlanner V K) :
    callsX search s (l ++ l') = (callsX search s l).bind fun s' => callsX search s' l' := by
  induction l generalizing s with
  | nil => rfl
  | cons c l ih =>
    obtain ⟨c, f⟩ := c
    cases c with
    | setInitState v => exact ih _
    | setGoalState v => exact ih _
    | setParameters p => exact ih _
    | searchPath c u =>
      rw [List.cons_append, callsX, callsX, Option.bind_assoc]
      congr 1
      funext r
      exact ih r.2

omit [LinearOrder K] [Field K] in
private theorem callsX_good [Inhabited V] {o : KNN V}
    {search : (Nat → Fault) → RRTPlanner V K → (Nat → K) → (Nat → V) → Option (Option Bool × RRTPlanner V K)}
    (G : GoodSearchX o search) (s0 : RRTPlanner V K) (h0 : s0.tree = Tree.new)
    (l : List (Call V K × (Nat → Fault))) : ∃ s, callsX search s0 l = some s ∧ TreeReachable o s.tree ∧
      (∀ v, lastInit (l.map Prod.fst) = some v → s.init = v) ∧ (∀ v, lastGoal (l.map Prod.fst) = some v → s.goal = v) ∧
      s.params = (lastParams (l.map Prod.fst)).getD s0.params := by
  induction l using List.reverseRecOn with
  | nil => exact ⟨s0, rfl, h0 ▸ .start, by simp [lastInit], by simp [lastGoal], rfl⟩
  | append_singleton l c ih =>
    obtain ⟨s, h1, h2, h3, h4, h5⟩ := ih
    obtain ⟨c, f⟩ := c
    have hl : ∀ s', callsX search s [(c, f)] = some s' → callsX search s0 (l ++ [(c, f)]) = some s' := by
      intro s' hs'
      rw [callsX_append, h1, Option.bind_some, hs']
    cases c with
    | setInitState v =>
      exact ⟨_, hl _ rfl, h2, by simp [lastInit], fun v' hv' => h4 v' (by simpa [lastGoal] using hv'),
        by simpa [lastParams] using h5⟩
    | setGoalState v =>
      exact ⟨_, hl _ rfl, h2, fun v' hv' => h3 v' (by simpa [lastInit] using hv'), by simp [lastGoal],
        by simpa [lastParams] using h5⟩
    | setParameters p =>
      exact ⟨_, hl _ rfl, h2, fun v' hv' => h3 v' (by simpa [lastInit] using hv'),
        fun v' hv' => h4 v' (by simpa [lastGoal] using hv'), by simp [lastParams]⟩
    | searchPath c u =>
      obtain ⟨⟨b, s'⟩, hs'⟩ := G.total f s c u h2
      obtain ⟨k1, k2, k3, k4⟩ := G.keep f s c u b s' h2 hs'
      refine ⟨s', hl s' (by rw [callsX, hs']; rfl), k1, fun v' hv' => ?_, fun v' hv' => ?_, ?_⟩
      · rw [k2]; exact h3 v' (by simpa [lastInit] using hv')
      · rw [k3]; exact h4 v' (by simpa [lastGoal] using hv')
      · rw [k4]; simpa [lastParams] using h5

/-- C152 for RRT: the planner can be used on. After any calls `before` that set both states, whatever exceptions left the
searches among them, `SearchPath` returns if nothing throws; on `Success` the path starts at the last initial state, goes
through motions accepted by the validator for the parameters in force and ends in a state that reaches the last goal;
otherwise it is empty. -/
theorem C152_rrt_reusable [Inhabited V] {D : Type} [LE D] {dist : V → V → D} (w : RRTWorld V P K)
    (L : NearestLaws w.knn dist) (before : List (Call V K × (Nat → Fault))) (init goal : V)
    (hi : lastInit (before.map Prod.fst) = some init) (hg : lastGoal (before.map Prod.fst) = some goal)
    (coin : Nat → K) (uniform : Nat → V) :
    ∃ s ok s' path, callsX (searchX w) new before = some s ∧ searchX w (fun _ => .no) s coin uniform = some (some ok, s') ∧
      s'.getPath = some path ∧ (ok = false → path = []) ∧
      (ok = true → path.head? = some init ∧ (∃ g, path.getLast? = some g ∧ w.reached g goal = true) ∧
        path.IsChain fun a b => ∃ target,
          w.valid (w.steering.steerTowards a target
            ((lastParams (before.map Prod.fst)).getD .default).maxConnectionDistance) = true ∧
          w.steering.final (w.steering.steerTowards a target
            ((lastParams (before.map Prod.fst)).getD .default).maxConnectionDistance) = b) := by
  obtain ⟨s, h1, h2, h3, h4, h5⟩ := callsX_good (goodX_rrt (K := K) w L) new rfl before
  obtain ⟨r, hr, hsz⟩ := C26_rrt_bounded (s.setup w coin uniform) L s.tree h2 s.init
  have hx := C152_rrt_returned (s.setup w coin uniform) L s.tree h2 s.init (fun _ => .no) r hr (fun _ _ => rfl)
  have hs' : searchX w (fun _ => .no) s coin uniform =
      some (some r.success, { s with tree := r.tree, solution := r.solution }) := by
    rw [searchX, hx]; rfl
  cases hok : r.success with
  | false =>
    refine ⟨s, false, _, [], h1, hs'.trans (by rw [hok]), ?_, fun _ => rfl, fun h => by cases h⟩
    exact C25_failure_empty (s.setup w coin uniform) L s.tree h2 s.init r hr hok
  | true =>
    obtain ⟨path, k1, k2, k3, g, k4, k5⟩ := C25_rrt_path (s.setup w coin uniform) L s.tree h2 s.init r hr hok
    refine ⟨s, true, { s with tree := r.tree, solution := r.solution }, path, h1, hs'.trans (by rw [hok]), k1, fun h => (by cases h),
      fun _ => ⟨by rw [k2, h3 init hi], ⟨g, k4, ?_⟩, ?_⟩⟩
    · have : w.reached g s.goal = true := k5
      rwa [h4 goal hg] at this
    · have h5' : s.params = (lastParams (before.map Prod.fst)).getD .default := h5
      rw [← h5']; exact k3

private theorem starX_history [Inhabited V] {D : Type} [LE D] {dist : V → V → D} (w : RRTWorld V P K)
    (L : NearestLaws w.knn dist) (nn : Nat → Nat) (before : List (Call V K × (Nat → Fault))) (init goal : V)
    (hi : lastInit (before.map Prod.fst) = some init) (hg : lastGoal (before.map Prod.fst) = some goal)
    (coin : Nat → K) (uniform : Nat → V) (Q : V → V → Prop)
    (hQ : ∀ (s : RRTPlanner V K) r, s.params = (lastParams (before.map Prod.fst)).getD .defaultStar →
      TreeReachable w.knn s.tree → rrtStarSearchPath (s.setup w coin uniform) nn s.tree s.init = some r → r.success = true →
      ∃ path : List V, treeGetPath r.state.tree r.solution = some path ∧ path.head? = some s.init ∧
        path.IsChain Q ∧ ∃ g, path.getLast? = some g ∧ w.reached g s.goal = true) :
    ∃ s ok s' path, callsX (searchStarX w nn) newStar before = some s ∧
      searchStarX w nn (fun _ => .no) s coin uniform = some (some ok, s') ∧
      s'.getPath = some path ∧ (ok = false → path = []) ∧
      (ok = true → path.head? = some init ∧ (∃ g, path.getLast? = some g ∧ w.reached g goal = true) ∧ path.IsChain Q) := by
  obtain ⟨s, h1, h2, h3, h4, h5⟩ := callsX_good (goodX_star (K := K) w L nn) newStar rfl before
  obtain ⟨r, hr, hsz⟩ := C26_rrtStar_bounded (s.setup w coin uniform) L nn s.tree h2 s.init
  have hx := C152_rrtStar_returned (s.setup w coin uniform) L nn s.tree h2 s.init (fun _ => .no) r hr (fun _ _ => rfl)
  have hs' : searchStarX w nn (fun _ => .no) s coin uniform =
      some (some r.success, { s with tree := r.state.tree, solution := r.solution }) := by
    rw [searchStarX, hx]; rfl
  cases hok : r.success with
  | false =>
    refine ⟨s, false, _, [], h1, hs'.trans (by rw [hok]), ?_, fun _ => rfl, fun h => by cases h⟩
    show treeGetPath r.state.tree r.solution = some []
    rw [rrtStarLoop_failure (s.setup w coin uniform) nn _ _ _ _ rfl hr hok]
    rfl
  | true =>
    obtain ⟨path, k1, k2, k3, g, k4, k5⟩ := hQ s r h5 h2 hr hok
    refine ⟨s, true, { s with tree := r.state.tree, solution := r.solution }, path, h1, hs'.trans (by rw [hok]), k1, fun h => (by cases h),
      fun _ => ⟨by rw [k2, h3 init hi], ⟨g, k4, ?_⟩, k3⟩⟩
    rwa [h4 goal hg] at k5

/-- C152 for RRT*: as for RRT, where each pair of consecutive states is a connection accepted by the validator or the first
state was the nearest one of the tree (see C27). -/
theorem C152_rrtStar_reusable [Inhabited V] {D : Type} [LE D] {dist : V → V → D} (w : RRTWorld V P K)
    (L : NearestLaws w.knn dist) (nn : Nat → Nat) (before : List (Call V K × (Nat → Fault))) (init goal : V)
    (hi : lastInit (before.map Prod.fst) = some init) (hg : lastGoal (before.map Prod.fst) = some goal)
    (coin : Nat → K) (uniform : Nat → V) :
    ∃ s ok s' path, callsX (searchStarX w nn) newStar before = some s ∧
      searchStarX w nn (fun _ => .no) s coin uniform = some (some ok, s') ∧
      s'.getPath = some path ∧ (ok = false → path = []) ∧
      (ok = true → path.head? = some init ∧ (∃ g, path.getLast? = some g ∧ w.reached g goal = true) ∧
        path.IsChain fun a b => w.valid (w.steering.connect a b) = true ∨ ∃ pts, w.knn.nearest pts b = some a) :=
  starX_history w L nn before init goal hi hg coin uniform _ fun s r _ ht hr hok =>
    C27_edges_partial (s.setup w coin uniform) L nn s.tree ht s.init r hr hok

/-- C152 for RRT* in the plane, with straight connections and neighbour queries that return the nearest point: after any calls
that set both states, whatever exceptions left the searches among them, `SearchPath` returns if nothing throws; on `Success`
the path goes from the last initial state to the last goal through segments that the validator accepted; otherwise it is
empty. -/
theorem C152_rrtStar_r2_reusable [DecidableEq Pt] [Inhabited Pt] (w : RRTWorld Pt PathR2 ℝ) (hw : w.steering = r2Steering)
    (hgoal : w.reached = fun v g => decide (v = g))
    (L : NearestLaws w.knn (fun v p : Pt => (v.x - p.x) ^ 2 + (v.y - p.y) ^ 2)) (nn : Nat → Nat)
    (hnn : ∀ pts v k p, w.knn.nearest pts v = some p → p ∈ w.knn.knn pts v (nn k))
    (before : List (Call Pt ℝ × (Nat → Fault))) (init goal : Pt) (hi : lastInit (before.map Prod.fst) = some init)
    (hg : lastGoal (before.map Prod.fst) = some goal)
    (hd : ∀ p, lastParams (before.map Prod.fst) = some p → 0 ≤ p.maxConnectionDistance)
    (coin : Nat → ℝ) (uniform : Nat → Pt) :
    ∃ s ok s' path, callsX (searchStarX w nn) newStar before = some s ∧
      searchStarX w nn (fun _ => .no) s coin uniform = some (some ok, s') ∧
      s'.getPath = some path ∧ (ok = false → path = []) ∧
      (ok = true → path.head? = some init ∧ path.getLast? = some goal ∧
        path.IsChain fun a b => w.valid (PathR2.connect a b) = true) := by
  obtain ⟨s, ok, s', path, h1, h2, h3, h4, h5⟩ := starX_history w L nn before init goal hi hg coin uniform
    (fun a b => w.valid (PathR2.connect a b) = true) (fun s r hp ht hr hok => by
      refine C27_rrtStar_r2 (s.setup w coin uniform) hw ?_ L nn hnn s.tree ht s.init r hr hok
      show 0 ≤ s.params.maxConnectionDistance
      rw [hp]
      cases hl : lastParams (before.map Prod.fst) with
      | none => show (0 : ℝ) ≤ 1 / 10; norm_num
      | some p => exact hd p hl)
  refine ⟨s, ok, s', path, h1, h2, h3, h4, fun hok => ?_⟩
  obtain ⟨k1, ⟨g, k2, k3⟩, k4⟩ := h5 hok
  rw [hgoal] at k3
  rw [← of_decide_eq_true k3]
  exact ⟨k1, k2, k4⟩

/-! ## Examples -/

/-- An exception of the state validator in the third iteration, and one of `IsSolution` in it: no path, and three or four
nodes are left. -/
example : ((rrtSearchPathX (exRRT fun _ => true) (fun i => if i = 2 then .early else .no) Tree.new 0).map fun l =>
      (l.status, treeGetPath l.tree l.solution, l.tree.size, l.samples)) = some (none, some [], 3, 3) ∧
    ((rrtSearchPathX (exRRT fun _ => true) (fun i => if i = 2 then .late else .no) Tree.new 0).map fun l =>
      (l.status, treeGetPath l.tree l.solution, l.tree.size, l.samples)) = some (none, some [], 4, 3) ∧
    ((rrtStarSearchPathX (exRRT fun _ => true) (fun _ => 1) (fun i => if i = 2 then .late else .no) Tree.new 0).map fun l =>
      (l.status, treeGetPath l.state.tree l.solution, l.state.tree.size, l.samples)) = some (none, some [], 4, 3) := by
  refine ⟨by decide +kernel, by decide +kernel, by decide +kernel⟩

/-- A search that succeeds, one that is left by an exception, and one that succeeds again. -/
example : let ok : Nat → Fault := fun _ => .no
    let l : List (Call Int ℚ × (Nat → Fault)) := [(.setInitState 0, ok), (.setGoalState 10, ok),
      (.setParameters ⟨20, 20, 3, 1⟩, ok), (.searchPath (fun _ => 0) (fun _ => 0), ok)]
    let l' := l ++ [(.setInitState 5, ok), (.searchPath (fun _ => 0) (fun _ => 0), fun i => if i = 1 then .late else .no)]
    (callsX (searchX exWorld) new l).bind getPath = some [0, 3, 6, 9, 10] ∧
    (callsX (searchX exWorld) new l').bind getPath = some [] ∧
    (callsX (searchX exWorld) new (l' ++ [(.searchPath (fun _ => 0) (fun _ => 0), ok)])).bind getPath = some [5, 8, 10] ∧
    (callsX (searchStarX exWorld fun _ => 1) newStar l').bind getPath = some [] := by decide +kernel

end RRTPlanner
end PathPlanning
