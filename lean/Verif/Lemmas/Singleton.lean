import Verif.Model.Singleton
import Mathlib.Tactic.Common

/-! # Invariant of the thread-safe singleton -/

namespace PathPlanning.SingletonTS

/-- Is the thread between lock and unlock? -/
def PC.critical : PC → Bool
  | .retest | .construct | .store _ | .unlock => true
  | _ => false

/-- Is the thread in `Release`? -/
def PC.releasing : PC → Bool
  | .relLock | .relReset | .relUnlock => true
  | _ => false

/-- The invariant of executions without `Release`. -/
structure Inv (s : State) : Prop where
  noRelease : ∀ t, (s.pc t).releasing = false
  crit : ∀ t, (s.pc t).critical = true ↔ s.mutex = some t
  /-- before the instance is stored -/
  none_case : s.inst = none → s.returned = [] ∧ (∀ t, s.pc t ≠ .ret) ∧ (∀ t, s.pc t ≠ .unlock) ∧
    ((s.constructed = 0 ∧ ∀ t i, s.pc t ≠ .store i) ∨
     (s.constructed = 1 ∧ ∃ t, s.pc t = .store 0))
  some_case : ∀ i, s.inst = some i → i = 0 ∧ s.constructed = 1 ∧ (∀ t, s.pc t ≠ .construct) ∧
    (∀ t j, s.pc t ≠ .store j) ∧ ∀ r ∈ s.returned, r.2 = some 0

theorem inv_init : Inv init :=
  ⟨fun _ => rfl, fun t => by simp [init, PC.critical],
    fun _ => ⟨rfl, fun _ => by simp [init], fun _ => by simp [init], Or.inl ⟨rfl, fun _ _ => by simp [init]⟩⟩,
    fun i h => by simp [init] at h⟩

theorem Inv.step {s s' : State} {t : Nat} (h : Inv s) (hs : step s t .get = some s') : Inv s' := by
  obtain ⟨h1, h2, h3, h4⟩ := h
  obtain ⟨inst, constructed, mutex, pc, returned⟩ := s
  dsimp only at h1 h2 h3 h4
  unfold SingletonTS.step at hs
  dsimp only at hs
  have ht1 := h1 t
  have ht2 := h2 t
  cases hp : pc t <;> rw [hp] at hs ht1 ht2 <;> dsimp only at hs <;>
    (try (exfalso; simp [PC.releasing] at ht1; done))
  case idle =>
    injection hs with hs; subst hs
    refine ⟨fun u => ?_, fun u => ?_, fun hi => ?_, fun i hi => ?_⟩
    · by_cases hu : u = t <;> first | (simp [State.goto, hu, h1]; done) | simp [State.goto, hu, PC.releasing]
    · by_cases hu : u = t
      · subst hu; simpa [State.goto, PC.critical] using ht2
      · simp [State.goto, hu, h2]
    · obtain ⟨a, b, c, d⟩ := h3 hi
      refine ⟨a, fun u => ?_, fun u => ?_, ?_⟩
      · by_cases hu : u = t <;> simp [State.goto, hu, b]
      · by_cases hu : u = t <;> simp [State.goto, hu, c]
      · rcases d with ⟨d1, d2⟩ | ⟨d1, u, d2⟩
        · left; refine ⟨d1, fun u i => ?_⟩
          by_cases hu : u = t <;> simp [State.goto, hu, d2]
        · right; refine ⟨d1, u, ?_⟩
          by_cases hu : u = t
          · subst hu; rw [hp] at d2; cases d2
          · simp [State.goto, hu, d2]
    · obtain ⟨a, b, c, d, e⟩ := h4 i hi
      refine ⟨a, b, fun u => ?_, fun u j => ?_, e⟩
      · by_cases hu : u = t <;> simp [State.goto, hu, c]
      · by_cases hu : u = t <;> simp [State.goto, hu, d]
  case test =>
    injection hs with hs; subst hs
    refine ⟨fun u => ?_, fun u => ?_, fun hi => ?_, fun i hi => ?_⟩
    · by_cases hu : u = t
      · subst hu; cases inst <;> simp [State.goto, PC.releasing]
      · simp [State.goto, hu, h1]
    · by_cases hu : u = t
      · subst hu; cases inst <;> simpa [State.goto, PC.critical] using ht2
      · simp [State.goto, hu, h2]
    · have hi : inst = none := hi
      obtain ⟨a, b, c, d⟩ := h3 hi
      subst hi
      refine ⟨a, fun u => ?_, fun u => ?_, ?_⟩
      · by_cases hu : u = t <;> simp [State.goto, hu, b]
      · by_cases hu : u = t <;> simp [State.goto, hu, c]
      · rcases d with ⟨d1, d2⟩ | ⟨d1, u, d2⟩
        · left; refine ⟨d1, fun u i => ?_⟩
          by_cases hu : u = t <;> simp [State.goto, hu, d2]
        · right; refine ⟨d1, u, ?_⟩
          by_cases hu : u = t
          · subst hu; rw [hp] at d2; cases d2
          · simp [State.goto, hu, d2]
    · have hi : inst = some i := hi
      obtain ⟨a, b, c, d, e⟩ := h4 i hi
      subst hi
      refine ⟨a, b, fun u => ?_, fun u j => ?_, e⟩
      · by_cases hu : u = t <;> simp [State.goto, hu, c]
      · by_cases hu : u = t <;> simp [State.goto, hu, d]
  case lock =>
    split at hs
    · rename_i hm
      injection hs with hs; subst hs
      have hm : mutex = none := by simpa using hm
      subst hm
      have hnc : ∀ u, (pc u).critical = false := fun u => by
        have := h2 u; cases hc : (pc u).critical with
        | false => rfl
        | true => rw [hc] at this; simp at this
      refine ⟨fun u => ?_, fun u => ?_, fun hi => ?_, fun i hi => ?_⟩
      · by_cases hu : u = t <;> first | (simp [State.goto, hu, h1]; done) | simp [State.goto, hu, PC.releasing]
      · by_cases hu : u = t
        · subst hu; simp [State.goto, PC.critical]
        · simp [State.goto, hu, hnc]; exact fun h => hu h.symm
      · obtain ⟨a, b, c, d⟩ := h3 hi
        refine ⟨a, fun u => ?_, fun u => ?_, ?_⟩
        · by_cases hu : u = t <;> simp [State.goto, hu, b]
        · by_cases hu : u = t <;> simp [State.goto, hu, c]
        · rcases d with ⟨d1, d2⟩ | ⟨d1, u, d2⟩
          · left; refine ⟨d1, fun u i => ?_⟩
            by_cases hu : u = t <;> simp [State.goto, hu, d2]
          · have := hnc u; rw [d2] at this; cases this
      · obtain ⟨a, b, c, d, e⟩ := h4 i hi
        refine ⟨a, b, fun u => ?_, fun u j => ?_, e⟩
        · by_cases hu : u = t <;> simp [State.goto, hu, c]
        · by_cases hu : u = t <;> simp [State.goto, hu, d]
    · cases hs
  case retest =>
    injection hs with hs; subst hs
    have hm : mutex = some t := ht2.mp rfl
    have hnc : ∀ u, u ≠ t → (pc u).critical = false := fun u hu => by
      cases hc : (pc u).critical with
      | false => rfl
      | true => exact absurd (Option.some.inj (((h2 u).mp hc).symm.trans hm)) hu
    refine ⟨fun u => ?_, fun u => ?_, fun hi => ?_, fun i hi => ?_⟩
    · by_cases hu : u = t
      · subst hu; cases inst <;> simp [State.goto, PC.releasing]
      · simp [State.goto, hu, h1]
    · by_cases hu : u = t
      · subst hu; cases inst <;> simpa [State.goto, PC.critical] using hm
      · simp [State.goto, hu, h2]
    · have hi : inst = none := hi
      obtain ⟨a, b, c, d⟩ := h3 hi
      subst hi
      refine ⟨a, fun u => ?_, fun u => ?_, ?_⟩
      · by_cases hu : u = t <;> simp [State.goto, hu, b]
      · by_cases hu : u = t <;> simp [State.goto, hu, c]
      · rcases d with ⟨d1, d2⟩ | ⟨d1, u, d2⟩
        · left; refine ⟨d1, fun u i => ?_⟩
          by_cases hu : u = t <;> simp [State.goto, hu, d2]
        · right; refine ⟨d1, u, ?_⟩
          by_cases hu : u = t
          · subst hu; rw [hp] at d2; cases d2
          · simp [State.goto, hu, d2]
    · have hi : inst = some i := hi
      obtain ⟨a, b, c, d, e⟩ := h4 i hi
      subst hi
      refine ⟨a, b, fun u => ?_, fun u j => ?_, e⟩
      · by_cases hu : u = t <;> simp [State.goto, hu, c]
      · by_cases hu : u = t <;> simp [State.goto, hu, d]
  case construct =>
    injection hs with hs; subst hs
    have hm : mutex = some t := ht2.mp rfl
    have hnc : ∀ u, u ≠ t → (pc u).critical = false := fun u hu => by
      cases hc : (pc u).critical with
      | false => rfl
      | true => exact absurd (Option.some.inj (((h2 u).mp hc).symm.trans hm)) hu
    have hn : inst = none := by
      cases hi : inst with
      | none => rfl
      | some i => exact absurd hp ((h4 i hi).2.2.1 t)
    obtain ⟨a, b, c, d⟩ := h3 hn
    have d : constructed = 0 := by
      rcases d with ⟨d1, _⟩ | ⟨d1, u, d2⟩
      · exact d1
      · have hut : u ≠ t := by rintro rfl; rw [hp] at d2; cases d2
        have := hnc u hut; rw [d2] at this; cases this
    subst d
    refine ⟨fun u => ?_, fun u => ?_, fun hi => ?_, fun i hi => ?_⟩
    · by_cases hu : u = t <;> first | (simp [State.goto, hu, h1]; done) | simp [State.goto, hu, PC.releasing]
    · by_cases hu : u = t
      · subst hu; simpa [State.goto, PC.critical] using hm
      · simp [State.goto, hu, h2]
    · refine ⟨a, fun u => ?_, fun u => ?_, Or.inr ⟨rfl, t, by simp [State.goto]⟩⟩
      · by_cases hu : u = t <;> simp [State.goto, hu, b]
      · by_cases hu : u = t <;> simp [State.goto, hu, c]
    · have hi : inst = some i := hi
      rw [hn] at hi; cases hi
  case store k =>
    injection hs with hs; subst hs
    have hm : mutex = some t := ht2.mp rfl
    have hnc : ∀ u, u ≠ t → (pc u).critical = false := fun u hu => by
      cases hc : (pc u).critical with
      | false => rfl
      | true => exact absurd (Option.some.inj (((h2 u).mp hc).symm.trans hm)) hu
    have hn : inst = none := by
      cases hi : inst with
      | none => rfl
      | some i => exact absurd hp ((h4 i hi).2.2.2.1 t k)
    obtain ⟨a, b, c, d⟩ := h3 hn
    have d : constructed = 1 ∧ k = 0 := by
      rcases d with ⟨_, d2⟩ | ⟨d1, u, d2⟩
      · exact absurd hp (d2 t k)
      · by_cases hut : u = t
        · subst hut; rw [hp] at d2; injection d2 with d2; exact ⟨d1, d2⟩
        · have := hnc u hut; rw [d2] at this; cases this
    obtain ⟨d1, rfl⟩ := d
    refine ⟨fun u => ?_, fun u => ?_, fun hi => ?_, fun i hi => ?_⟩
    · by_cases hu : u = t <;> first | (simp [State.goto, hu, h1]; done) | simp [State.goto, hu, PC.releasing]
    · by_cases hu : u = t
      · subst hu; simpa [State.goto, PC.critical] using hm
      · simp [State.goto, hu, h2]
    · simp [State.goto] at hi
    · refine ⟨by simpa [State.goto] using hi.symm, d1, fun u => ?_, fun u j => ?_, ?_⟩
      · by_cases hu : u = t
        · simp [State.goto, hu]
        · intro hc; have := hnc u hu; simp [State.goto, hu] at hc; rw [hc] at this; cases this
      · by_cases hu : u = t
        · simp [State.goto, hu]
        · intro hc; have := hnc u hu; simp [State.goto, hu] at hc; rw [hc] at this; cases this
      · intro r hr
        have hr : r ∈ returned := hr
        rw [a] at hr; cases hr
  case unlock =>
    injection hs with hs; subst hs
    have hm : mutex = some t := ht2.mp rfl
    have hnc : ∀ u, u ≠ t → (pc u).critical = false := fun u hu => by
      cases hc : (pc u).critical with
      | false => rfl
      | true => exact absurd (Option.some.inj (((h2 u).mp hc).symm.trans hm)) hu
    refine ⟨fun u => ?_, fun u => ?_, fun hi => ?_, fun i hi => ?_⟩
    · by_cases hu : u = t <;> first | (simp [State.goto, hu, h1]; done) | simp [State.goto, hu, PC.releasing]
    · by_cases hu : u = t
      · subst hu; simp [State.goto, PC.critical]
      · simp [State.goto, hu, hnc]
    · exact absurd hp ((h3 hi).2.2.1 t)
    · obtain ⟨a, b, c, d, e⟩ := h4 i hi
      refine ⟨a, b, fun u => ?_, fun u j => ?_, e⟩
      · by_cases hu : u = t <;> simp [State.goto, hu, c]
      · by_cases hu : u = t <;> simp [State.goto, hu, d]
  case ret =>
    injection hs with hs; subst hs
    refine ⟨fun u => ?_, fun u => ?_, fun hi => ?_, fun i hi => ?_⟩
    · by_cases hu : u = t <;> first | (simp [State.goto, hu, h1]; done) | simp [State.goto, hu, PC.releasing]
    · by_cases hu : u = t
      · subst hu; simpa [State.goto, PC.critical] using ht2
      · simp [State.goto, hu, h2]
    · exact absurd hp ((h3 hi).2.1 t)
    · have hi : inst = some i := hi
      obtain ⟨a, b, c, d, e⟩ := h4 i hi
      refine ⟨a, b, fun u => ?_, fun u j => ?_, ?_⟩
      · by_cases hu : u = t <;> simp [State.goto, hu, c]
      · by_cases hu : u = t <;> simp [State.goto, hu, d]
      · intro r hr
        rcases List.mem_cons.mp hr with rfl | hr
        · show inst = some 0
          rw [hi, a]
        · exact e r hr

theorem inv_exec (sched : List (Nat × Fn)) (hg : ∀ e ∈ sched, e.2 = Fn.get) :
    ∀ s, Inv s → Inv (exec s sched) := by
  induction sched with
  | nil => intro s h; exact h
  | cons e es ih =>
    intro s h
    obtain ⟨t, f⟩ := e
    have hf : f = .get := hg (t, f) (List.mem_cons_self ..)
    subst hf
    refine ih (fun e he => hg e (List.mem_cons_of_mem _ he)) _ ?_
    cases hst : step s t .get with
    | none => exact h
    | some s' => exact h.step hst

theorem exec_append (s : State) (a b : List (Nat × Fn)) : exec s (a ++ b) = exec (exec s a) b := by
  induction a generalizing s with
  | nil => rfl
  | cons e es ih => obtain ⟨t, f⟩ := e; exact ih _

end PathPlanning.SingletonTS
