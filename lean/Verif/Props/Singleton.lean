import Verif.Lemmas.Singleton

/-! # Properties of the thread-safe singleton -/

namespace PathPlanning.SingletonTS

/-- C61: whatever the threads and the schedule, the constructor runs at most once, and all calls of
`Get` return the same instance (none of them dereferences a null pointer). -/
theorem C61_single_instance (sched : List (Nat × Fn)) (hg : ∀ e ∈ sched, e.2 = Fn.get) :
    (exec init sched).constructed ≤ 1 ∧
    ∃ i, ∀ r ∈ (exec init sched).returned, r.2 = some i := by
  have h := inv_exec sched hg init inv_init
  obtain ⟨s, hs⟩ : ∃ s, s = exec init sched := ⟨_, rfl⟩
  rw [← hs] at h ⊢
  cases hi : s.inst with
  | none =>
    obtain ⟨a, _, _, d⟩ := h.none_case hi
    refine ⟨?_, 0, by rw [a]; intro r hr; cases hr⟩
    rcases d with ⟨d, _⟩ | ⟨d, _⟩ <;> omega
  | some i =>
    obtain ⟨_, b, _, _, e⟩ := h.some_case i hi
    exact ⟨by omega, 0, e⟩

/-- C61: nor is an instance used before it exists: when a call has returned, the constructor has run. -/
theorem C61_returned_instance_exists (sched : List (Nat × Fn)) (hg : ∀ e ∈ sched, e.2 = Fn.get)
    (r : Nat × Option Nat) (hr : r ∈ (exec init sched).returned) :
    (exec init sched).constructed = 1 ∧ (exec init sched).inst = r.2 := by
  have h := inv_exec sched hg init inv_init
  obtain ⟨s, hs⟩ : ∃ s, s = exec init sched := ⟨_, rfl⟩
  rw [← hs] at h hr ⊢
  cases hi : s.inst with
  | none => rw [(h.none_case hi).1] at hr; cases hr
  | some i =>
    obtain ⟨a, b, _, _, e⟩ := h.some_case i hi
    exact ⟨b, by rw [e r hr, a]⟩

/-- C61: no deadlock: as long as a thread is inside `Get`, some thread inside `Get` is not blocked. -/
theorem C61_no_deadlock (sched : List (Nat × Fn)) (hg : ∀ e ∈ sched, e.2 = Fn.get) (t : Nat)
    (ht : (exec init sched).pc t ≠ .idle) :
    ∃ u, (exec init sched).pc u ≠ .idle ∧ (step (exec init sched) u .get).isSome = true := by
  have h := inv_exec sched hg init inv_init
  obtain ⟨s, hs⟩ : ∃ s, s = exec init sched := ⟨_, rfl⟩
  rw [← hs] at h ht ⊢
  cases hm : s.mutex with
  | some u =>
    have hu := (h.crit u).mpr hm
    refine ⟨u, ?_, ?_⟩
    · intro hc; rw [hc] at hu; cases hu
    · unfold step
      cases hp : s.pc u <;> rw [hp] at hu <;> first | cases hu; done | rfl
  | none =>
    refine ⟨t, ht, ?_⟩
    unfold step
    have := h.noRelease t
    cases hp : s.pc t <;> rw [hp] at ht this <;> first | rfl | cases this; done | skip
    · simp [hm]

/-- Two threads race; the second one tests the pointer before the first one stores it. -/
example : (exec init ([0, 1, 0, 1, 0, 0, 0, 0, 0, 0, 1, 1, 1, 1].map fun t => (t, Fn.get))).returned =
    [(1, some 0), (0, some 0)] := by decide

/-- C61 does not extend to `Release`: a call of `Get` that found the instance can dereference a null
pointer if another thread releases the instance meanwhile. -/
theorem C61_release_can_break_get :
    ∃ sched, (1, none) ∈ (exec init sched).returned :=
  ⟨[(0, .get), (0, .get), (0, .get), (0, .get), (0, .get), (0, .get), (0, .get), (0, .get),
    (1, .get), (1, .get), (0, .release), (0, .get), (0, .get), (0, .get), (1, .get)], by decide⟩

end PathPlanning.SingletonTS
