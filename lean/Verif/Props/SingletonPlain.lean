import Verif.Model.SingletonPlain
import Mathlib.Tactic.Common

/-! # C117: the instance of the logger and of the profiler -/

namespace PathPlanning.SingletonPlain

private theorem exec_append (s : State) (a b : List (Nat × Fn)) : exec s (a ++ b) = exec (exec s a) b := by
  simp [exec, List.foldl_append]

private theorem exec_induction {P : State → Prop} {ok : Nat × Fn → Prop}
    (hstep : ∀ s e, ok e → P s → P (step s e.1 e.2)) :
    ∀ (sched : List (Nat × Fn)) (s : State), (∀ e ∈ sched, ok e) → P s → P (exec s sched) := by
  intro sched
  induction sched with
  | nil => intro s _ h; exact h
  | cons e es ih =>
    intro s ho h
    exact ih _ (fun e' he' => ho e' (List.mem_cons_of_mem _ he')) (hstep s e (ho e List.mem_cons_self) h)

/-- Exactly the last constructed instance exists. -/
private def Full (s : State) : Prop := ∃ i, s.inst = some i ∧ s.constructed = i + 1 ∧ ∀ j, j ∈ s.destroyed ↔ j < i

/-- No instance exists. -/
private def Empty (s : State) : Prop := s.inst = none ∧ ∀ j, j ∈ s.destroyed ↔ j < s.constructed

private def Ok (s : State) : PC → Prop
  | .ret | .relReset => Full s
  | .construct _ => Empty s
  | .store i _ => s.inst = none ∧ s.constructed = i + 1 ∧ ∀ j, j ∈ s.destroyed ↔ j < i
  | _ => Full s ∨ Empty s

private theorem some_of_full {s : State} (h : Full s ∨ Empty s) (hi : s.inst ≠ none) : Full s := by
  rcases h with h | h
  · exact h
  · exact absurd h.1 hi

private theorem none_of_empty {s : State} (h : Full s ∨ Empty s) (hi : s.inst = none) : Empty s := by
  rcases h with ⟨i, h, _⟩ | h
  · rw [hi] at h; cases h
  · exact h

private theorem seq_step (t : Nat) (s : State) (f : Fn) (h : Ok s (s.pc t) ∧ ∀ r ∈ s.returned, r.2 ≠ none) :
    Ok (step s t f) ((step s t f).pc t) ∧ ∀ r ∈ (step s t f).returned, r.2 ≠ none := by
  obtain ⟨h, hr⟩ := h
  unfold step
  cases hp : s.pc t <;> rw [hp] at h <;> dsimp only [Ok] at h <;> dsimp only <;>
    simp only [State.goto, if_true]
  case idle => cases f <;> exact ⟨h, hr⟩
  case test =>
    refine ⟨?_, hr⟩
    by_cases hi : s.inst = none
    · rw [if_pos (by simp [hi])]; exact h
    · rw [if_neg (by simpa using hi)]; exact some_of_full h hi
  case initTest g =>
    refine ⟨?_, hr⟩
    by_cases hi : s.inst = none
    · rw [if_pos (by simp [hi])]; exact none_of_empty h hi
    · rw [if_neg (by simpa using hi)]
      have := some_of_full h hi
      cases g
      · exact Or.inl this
      · exact this
  case construct g => exact ⟨⟨h.1, rfl, h.2⟩, hr⟩
  case store i g =>
    refine ⟨?_, hr⟩
    have : Full (s.assign (some i)) := ⟨i, rfl, h.2.1, by simpa [State.assign, h.1] using h.2.2⟩
    cases g
    · exact Or.inl this
    · exact this
  case ret =>
    refine ⟨Or.inl h, ?_⟩
    obtain ⟨i, hi, _⟩ := h
    intro r hm
    rcases List.mem_cons.1 hm with rfl | hm
    · simp [hi]
    · exact hr r hm
  case relTest =>
    refine ⟨?_, hr⟩
    by_cases hi : s.inst = none
    · rw [if_neg (by simp [hi])]; exact h
    · rw [if_pos (by simpa [Option.isSome_iff_ne_none] using hi)]; exact some_of_full h hi
  case relReset =>
    refine ⟨Or.inr ⟨rfl, ?_⟩, hr⟩
    obtain ⟨i, hi, hc, hd⟩ := h
    intro j
    simp only [State.assign, hi, Option.toList_some, List.cons_append, List.nil_append, List.mem_cons, hd, hc]
    omega

/-- C117, partial: if one thread makes all calls, no call of `Get` dereferences a null pointer; at every moment all
constructed instances but at most the last one are destroyed; the instance of the pointer is not; and when `Get` is about
to return there is one. Missing: calls from several threads (`C117_race`). -/
theorem C117_one_thread_partial (t : Nat) (calls : List Fn) :
    let s := exec init (calls.map fun f => (t, f))
    (∀ r ∈ s.returned, r.2 ≠ none) ∧
    (∀ i, i + 1 < s.constructed → i ∈ s.destroyed) ∧
    (∀ i, s.inst = some i → i < s.constructed ∧ i ∉ s.destroyed) ∧
    (s.pc t = .ret → s.inst ≠ none) := by
  have h := exec_induction (P := fun s => Ok s (s.pc t) ∧ ∀ r ∈ s.returned, r.2 ≠ none) (ok := fun e => e.1 = t)
    (by rintro s ⟨t', f⟩ rfl h; exact seq_step t' s f h) (calls.map fun f => (t, f)) init
    (by simp) ⟨Or.inr ⟨rfl, by simp [init]⟩, by simp [init]⟩
  obtain ⟨s, hs⟩ : ∃ s, s = exec init (calls.map fun f => (t, f)) := ⟨_, rfl⟩
  rw [← hs] at h ⊢
  obtain ⟨h, hr⟩ := h
  have key : (Full s ∨ Empty s) ∨ ∃ i, s.inst = none ∧ s.constructed = i + 1 ∧ ∀ j, j ∈ s.destroyed ↔ j < i := by
    cases hp : s.pc t <;> rw [hp] at h <;> dsimp only [Ok] at h
    all_goals first | exact Or.inl h | exact Or.inl (Or.inl h) | exact Or.inl (Or.inr h) | exact Or.inr ⟨_, h⟩
  refine ⟨hr, ?_, ?_, ?_⟩
  · intro i hi
    rcases key with (⟨j, _, h2, h3⟩ | ⟨_, h3⟩) | ⟨j, _, h2, h3⟩ <;> rw [h3] <;> omega
  · intro i hi
    rcases key with (⟨j, h1, h2, h3⟩ | ⟨h1, h3⟩) | ⟨j, h1, h2, h3⟩ <;> rw [hi] at h1 <;> cases h1
    rw [h3]; omega
  · intro hp
    rw [hp] at h
    obtain ⟨i, hi, _⟩ := h
    simp [hi]

/-- What holds once the instance exists and nobody releases it. -/
private structure Shared (i n : Nat) (d : List Nat) (s : State) : Prop where
  inst : s.inst = some i
  constructed : s.constructed = n
  destroyed : s.destroyed = d
  pc : ∀ t, s.pc t = .idle ∨ s.pc t = .test ∨ s.pc t = .initTest false ∨ s.pc t = .ret
  returned : ∀ r ∈ s.returned, r.2 = some i

private theorem shared_step {i n : Nat} {d : List Nat} (s : State) (t : Nat) (f : Fn) (hf : f ≠ .release)
    (h : Shared i n d s) : Shared i n d (step s t f) := by
  obtain ⟨h1, h2, h3, h4, h5⟩ := h
  unfold step
  have goto_pc : ∀ (s' : State) (p : PC), s'.pc = s.pc →
      (p = .idle ∨ p = .test ∨ p = .initTest false ∨ p = .ret) →
      ∀ u, (s'.goto t p).pc u = .idle ∨ (s'.goto t p).pc u = .test ∨ (s'.goto t p).pc u = .initTest false ∨
        (s'.goto t p).pc u = .ret := by
    intro s' p hs hp u
    by_cases hu : u = t
    · simpa [State.goto, hu] using hp
    · simpa [State.goto, hu, hs] using h4 u
  rcases h4 t with hp | hp | hp | hp <;> rw [hp] <;> dsimp only
  · refine ⟨h1, h2, h3, goto_pc s _ rfl ?_, h5⟩
    cases f
    · exact Or.inr (Or.inl rfl)
    · exact Or.inr (Or.inr (Or.inl rfl))
    · exact absurd rfl hf
  · exact ⟨h1, h2, h3, goto_pc s _ rfl (by simp [h1]), h5⟩
  · exact ⟨h1, h2, h3, goto_pc s _ rfl (by simp [h1, after]), h5⟩
  · refine ⟨h1, h2, h3, goto_pc { s with returned := _ } _ rfl (Or.inl rfl), ?_⟩
    intro r hr
    rcases List.mem_cons.1 hr with rfl | hr
    · exact h1
    · exact h5 r hr

/-- C117, partial: if the instance has been created, by a call of `Init` that has returned, before the other threads start,
and nobody calls `Release`, then for every number of threads and every schedule every call of `Get` returns that instance,
which is never destroyed, and the constructor runs only once. Missing: a first call that is not made in advance
(`C117_race`). -/
theorem C117_initialised_first_partial (t : Nat) (sched : List (Nat × Fn)) (hr : ∀ e ∈ sched, e.2 ≠ Fn.release) :
    let s := exec init (List.replicate 4 (t, Fn.init) ++ sched)
    s.constructed = 1 ∧ s.destroyed = [] ∧ ∀ r ∈ s.returned, r.2 = some 0 := by
  have h0 : Shared 0 1 [] (exec init (List.replicate 4 (t, Fn.init))) := by
    have : exec init (List.replicate 4 (t, Fn.init)) = ⟨some 0, 1, [], fun _ => .idle, []⟩ := by
      simp only [exec, List.replicate, List.foldl]
      simp [step, init, State.goto, Fn.entry, State.assign, after]
      funext u
      by_cases hu : u = t <;> simp [hu]
    rw [this]
    exact ⟨rfl, rfl, rfl, fun _ => Or.inl rfl, by simp⟩
  have h := exec_induction (P := Shared 0 1 []) (ok := fun e => e.2 ≠ Fn.release)
    (fun s e he hs => shared_step s e.1 e.2 he hs) sched _ hr h0
  rw [← exec_append] at h
  exact ⟨h.constructed, h.destroyed, h.returned⟩

/-- After the four steps the call of `Init` has returned; two threads then use the instance. -/
example : (exec init (List.replicate 4 (0, Fn.init))).pc 0 = .idle ∧
    (exec init (List.replicate 4 (0, Fn.init) ++ [(1, .get), (2, .get), (2, .get), (1, .get), (1, .get), (2, .get)])).returned =
      [(2, some 0), (1, some 0)] := by decide

/-- One thread creates, uses, releases and creates the instance again. -/
example : (exec init ([Fn.get, .get, .get, .get, .get, .get, .release, .release, .release, .get, .get, .get, .get, .get, .get].map
    fun f => (0, f))).returned = [(0, some 1), (0, some 0)] := by decide

/-- C117 fails: two threads make the first call of `Get` at the same time. Both construct an instance, and the instance
that one of them was given is destroyed when the other one stores its own. -/
theorem C117_race : ∃ sched : List (Nat × Fn), (∀ e ∈ sched, e.2 = Fn.get) ∧
    (exec init sched).constructed = 2 ∧
    ∃ i, (0, some i) ∈ (exec init sched).returned ∧ i ∈ (exec init sched).destroyed :=
  ⟨[(0, .get), (1, .get), (0, .get), (1, .get), (0, .get), (1, .get), (0, .get), (1, .get), (0, .get), (0, .get),
    (1, .get), (1, .get)], by decide, by decide, 0, by decide, by decide⟩

end PathPlanning.SingletonPlain
