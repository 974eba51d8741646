import Verif.Model.ProfilerThreads
import Verif.Props.Profiler

/-! # C118: the profile file with any number of threads and wherever the program stops -/

namespace PathPlanning.Prof.Threads
open Spec

/-- The text of events, in order. -/
def _root_.PathPlanning.Spec.eventsText (l : List (Nat × Result)) : Text := (l.map fun e => e.2.json).flatten

private theorem eventsText_snoc (l : List (Nat × Result)) (t : Nat) (r : Result) :
    eventsText (l ++ [(t, r)]) = eventsText l ++ r.json := by simp [eventsText]

/-- What is written in the file and the buffer, depending on where the thread with the mutex is. -/
private def Written (s : State) : PC → Prop
  | .write _ => s.buffer = [] ∧ s.disk = header ++ eventsText s.finished
  | .flush r => ∃ p, s.disk = header ++ eventsText s.finished ++ p ∧ p ++ s.buffer = r.json
  | .unlock r => s.buffer = [] ∧ s.disk = header ++ eventsText s.finished ++ r.json
  | _ => True

/-- Is the thread between lock and unlock? -/
private def PC.critical : PC → Bool
  | .write _ | .flush _ | .unlock _ => true
  | _ => false

private structure Inv (s : State) : Prop where
  crit : ∀ t, (s.pc t).critical = true ↔ s.mutex = some t
  free : s.mutex = none → s.buffer = [] ∧ s.disk = header ++ eventsText s.finished
  held : ∀ t, s.mutex = some t → Written s (s.pc t)
  order : ∀ t, (s.finished.filter (·.1 = t)).map (·.2) ++ (s.pc t).event.toList =
    (s.started.filter (·.1 = t)).map (·.2)

private theorem inv_opened : Inv opened :=
  ⟨fun t => by simp [opened, PC.critical], fun _ => by simp [opened, eventsText], fun t h => by simp [opened] at h,
    fun t => by simp [opened, PC.event]⟩

private theorem inv_step {s s' : State} {t : Nat} {r : Result} (h : Inv s) (hs : step s t r = some s') : Inv s' := by
  obtain ⟨h1, h2, h3, h4⟩ := h
  unfold step at hs
  have ht := h1 t
  have hw := h3 t
  cases hp : s.pc t with
  | idle =>
    rw [hp] at hs ht; injection hs with hs; subst hs
    have hm : s.mutex ≠ some t := fun e => by simpa [PC.critical] using ht.2 e
    refine ⟨fun u => ?_, h2, fun u hu => ?_, fun u => ?_⟩
    · by_cases hu : u = t
      · subst hu; simpa [State.goto, PC.critical] using hm
      · simpa [State.goto, hu] using h1 u
    · have hut : u ≠ t := fun e => hm (e ▸ hu)
      simpa [State.goto, hut, Written] using h3 u hu
    · by_cases hu : u = t
      · subst hu; have := h4 u; rw [hp] at this; simpa [State.goto, PC.event] using this
      · have hu' : t ≠ u := fun e => hu e.symm
        simpa [State.goto, hu, hu'] using h4 u
  | lock r' =>
    rw [hp] at hs ht
    dsimp only at hs
    by_cases hm : s.mutex = none
    · rw [if_pos (by simp [hm])] at hs; injection hs with hs; subst hs
      refine ⟨fun u => ?_, fun e => (by cases e), fun u hu => ?_, fun u => ?_⟩
      · by_cases hu : u = t
        · subst hu; simp [State.goto, PC.critical]
        · have := h1 u
          rw [hm] at this
          have hu' : t ≠ u := fun e => hu e.symm
          simpa [State.goto, hu, hu'] using this
      · have : t = u := by simpa [State.goto] using hu
        subst this
        simpa [State.goto, Written] using h2 hm
      · by_cases hu : u = t
        · subst hu; have := h4 u; rw [hp] at this; simpa [State.goto, PC.event] using this
        · simpa [State.goto, hu] using h4 u
    · rw [if_neg (by simpa using hm)] at hs; cases hs
  | write r' =>
    rw [hp] at hs ht hw; injection hs with hs; subst hs
    have hm : s.mutex = some t := ht.1 rfl
    obtain ⟨hb, hd⟩ := hw hm
    refine ⟨fun u => ?_, fun e => ?_, fun u hu => ?_, fun u => ?_⟩
    · by_cases hu : u = t
      · subst hu; simpa [State.goto, PC.critical] using hm
      · simpa [State.goto, hu] using h1 u
    · exact absurd (show s.mutex = none from e) (by simp [hm])
    · have : t = u := by
        have : s.mutex = some u := hu
        rw [hm] at this; exact Option.some.inj this
      subst this
      refine (show Written _ (if t = t then PC.flush r' else _) from ?_)
      rw [if_pos rfl]
      exact ⟨[], by simpa [State.goto] using hd, by simp [State.goto, hb]⟩
    · by_cases hu : u = t
      · subst hu; have := h4 u; rw [hp] at this; simpa [State.goto, PC.event] using this
      · simpa [State.goto, hu] using h4 u
  | flush r' =>
    rw [hp] at hs ht hw; injection hs with hs; subst hs
    have hm : s.mutex = some t := ht.1 rfl
    obtain ⟨p, hd, hb⟩ := hw hm
    refine ⟨fun u => ?_, fun e => ?_, fun u hu => ?_, fun u => ?_⟩
    · by_cases hu : u = t
      · subst hu; simpa [State.goto, PC.critical] using hm
      · simpa [State.goto, hu] using h1 u
    · exact absurd (show s.mutex = none from e) (by simp [hm])
    · have : t = u := by
        have : s.mutex = some u := hu
        rw [hm] at this; exact Option.some.inj this
      subst this
      refine (show Written _ (if t = t then PC.unlock r' else _) from ?_)
      rw [if_pos rfl]
      exact ⟨rfl, by simp [State.goto, hd, ← hb]⟩
    · by_cases hu : u = t
      · subst hu; have := h4 u; rw [hp] at this; simpa [State.goto, PC.event] using this
      · simpa [State.goto, hu] using h4 u
  | unlock r' =>
    rw [hp] at hs ht hw; injection hs with hs; subst hs
    have hm : s.mutex = some t := ht.1 rfl
    obtain ⟨hb, hd⟩ := hw hm
    refine ⟨fun u => ?_, fun _ => ?_, fun u hu => ?_, fun u => ?_⟩
    · by_cases hu : u = t
      · subst hu; simp [State.goto, PC.critical]
      · have := h1 u
        rw [hm] at this
        have hu' : t ≠ u := fun e => hu e.symm
        simpa [State.goto, hu, hu'] using this
    · exact ⟨hb, by simp [State.goto, hd, eventsText_snoc]⟩
    · cases hu
    · by_cases hu : u = t
      · subst hu; have := h4 u; rw [hp] at this; simpa [State.goto, PC.event] using this
      · have hu' : t ≠ u := fun e => hu e.symm
        simpa [State.goto, hu, hu'] using h4 u

private theorem inv_next {s : State} (e : Event) (h : Inv s) : Inv (next s e) := by
  cases e with
  | thread t r =>
    show Inv ((step s t r).getD s)
    cases hs : step s t r with
    | none => exact h
    | some s' => exact inv_step h hs
  | spill k =>
    refine ⟨h.crit, fun e => ?_, fun t ht => ?_, h.order⟩
    · obtain ⟨a, b⟩ := h.free e
      exact ⟨by simp [next, a], by simp [next, a, b]⟩
    · have hw := h.held t ht
      have hc := (h.crit t).2 ht
      show Written _ (s.pc t)
      cases hp : s.pc t <;> rw [hp] at hw hc
      · trivial
      · trivial
      · exact ⟨by simp [next, hw.1], by simp [next, hw.1, hw.2]⟩
      · obtain ⟨p, h1, h2⟩ := hw
        exact ⟨p ++ s.buffer.take k, by simp [next, h1], by simp [next, h2]⟩
      · exact ⟨by simp [next, hw.1], by simp [next, hw.1, hw.2]⟩

private theorem inv_exec (sched : List Event) : ∀ s, Inv s → Inv (exec s sched) := by
  induction sched with
  | nil => exact fun _ h => h
  | cons e es ih => exact fun s h => ih _ (inv_next e h)

/-- C118: whatever the threads, the schedule and the point where the program stops, the file holds the header, then the
events of all calls of `WriteProfile` that have returned, complete and in the order of their return, and then at most a
first part of one event whose call has not returned. -/
theorem C118_file (sched : List Event) :
    ∃ p, (exec opened sched).disk = header ++ eventsText (exec opened sched).finished ++ p ∧
      (p = [] ∨ ∃ t r, ((exec opened sched).pc t).event = some r ∧ p <+: r.json) := by
  have h := inv_exec sched opened inv_opened
  obtain ⟨s, hs⟩ : ∃ s, s = exec opened sched := ⟨_, rfl⟩
  rw [← hs] at h ⊢
  cases hm : s.mutex with
  | none => exact ⟨[], by simp [(h.free hm).2], Or.inl rfl⟩
  | some t =>
    have hw := h.held t hm
    have hc := (h.crit t).2 hm
    cases hp : s.pc t <;> rw [hp] at hw hc
    · cases hc
    · cases hc
    · exact ⟨[], by simp [hw.2], Or.inl rfl⟩
    · obtain ⟨p, h1, h2⟩ := hw
      exact ⟨p, h1, Or.inr ⟨t, _, by rw [hp]; rfl, ⟨_, h2⟩⟩⟩
    · exact ⟨_, hw.2, Or.inr ⟨t, _, by rw [hp]; rfl, List.prefix_rfl⟩⟩

/-- C118: no event is lost, doubled or reordered within a thread: the events of a thread whose calls have returned, and
the one of the call it is in, are those it has recorded, in order. -/
theorem C118_order (sched : List Event) (t : Nat) :
    ((exec opened sched).finished.filter (·.1 = t)).map (·.2) ++ ((exec opened sched).pc t).event.toList =
      ((exec opened sched).started.filter (·.1 = t)).map (·.2) :=
  (inv_exec sched opened inv_opened).order t

/-- C118: no deadlock: as long as a thread is in a call, some thread that is in a call is not blocked. -/
theorem C118_no_deadlock (sched : List Event) (t : Nat) (r : Result) (ht : (exec opened sched).pc t ≠ .idle) :
    ∃ u, (exec opened sched).pc u ≠ .idle ∧ (step (exec opened sched) u r).isSome := by
  have h := inv_exec sched opened inv_opened
  obtain ⟨s, hs⟩ : ∃ s, s = exec opened sched := ⟨_, rfl⟩
  rw [← hs] at h ht ⊢
  cases hm : s.mutex with
  | some u =>
    have hu := (h.crit u).2 hm
    refine ⟨u, ?_, ?_⟩
    · intro hc; rw [hc] at hu; cases hu
    · unfold step
      cases hp : s.pc u <;> rw [hp] at hu <;> first | (cases hu; done) | rfl
  | none =>
    refine ⟨t, ht, ?_⟩
    unfold step
    cases hp : s.pc t <;> rw [hp] at ht <;> first | (exact absurd rfl ht) | rfl | simp [hm]

/-- C118: when the program stops while no thread is in a call, and the names of the events contain no quote, backslash or
control character, the file with the two closing brackets added is a JSON text. -/
theorem C118_json (sched : List Event) (hidle : ∀ t, (exec opened sched).pc t = .idle)
    (hn : ∀ e ∈ (exec opened sched).started, ∀ c ∈ e.2.name, PlainChar c) :
    Json ((exec opened sched).disk ++ footer) := by
  have h := inv_exec sched opened inv_opened
  obtain ⟨p, h1, h2⟩ := C118_file sched
  obtain ⟨s, hs⟩ : ∃ s, s = exec opened sched := ⟨_, rfl⟩
  rw [← hs] at h h1 h2 hidle hn ⊢
  have hp : p = [] := by
    rcases h2 with h2 | ⟨t, r, h2, _⟩
    · exact h2
    · rw [hidle t] at h2; cases h2
  have hf : ∀ e ∈ s.finished, e ∈ s.started := by
    intro e he
    have := h.order e.1
    rw [hidle e.1] at this
    have h3 : e.2 ∈ (s.finished.filter (·.1 = e.1)).map (·.2) :=
      List.mem_map.2 ⟨e, List.mem_filter.2 ⟨he, by simp⟩, rfl⟩
    have h4 : e.2 ∈ (s.started.filter (·.1 = e.1)).map (·.2) := by
      rw [← this]; exact List.mem_append_left _ h3
    obtain ⟨e', h5, h6⟩ := List.mem_map.1 h4
    obtain ⟨h7, h8⟩ := List.mem_filter.1 h5
    have : e' = e := Prod.ext (by simpa using h8) h6
    exact this ▸ h7
  have hj := C62_json ⟨none, fun _ => []⟩ [] 0 (s.finished.map (·.2)) (by
    intro e he
    obtain ⟨x, hx, rfl⟩ := List.mem_map.1 he
    exact hn x (hf x hx))
  rw [C62_session_file ⟨none, fun _ => []⟩ [] 0 _ .endSession (Or.inl rfl)] at hj
  rw [h1, hp, List.append_nil]
  simpa [eventsText, List.map_map, Function.comp_def] using hj

/-- Two threads record an event each; the program stops while the second one has written 10 characters of its event. -/
example :
    let a : Result := ⟨"a".toList, 0, 1, 0⟩
    let b : Result := ⟨"b".toList, 0, 2, 1⟩
    let s := exec opened [.thread 0 a, .thread 1 b, .thread 0 a, .thread 1 b, .thread 0 a, .thread 0 a, .thread 1 b, .thread 0 a,
      .thread 1 b, .thread 1 b, .spill 10]
    s.disk = header ++ a.json ++ b.json.take 10 ∧ s.finished.length = 1 := by
  decide

end PathPlanning.Prof.Threads
