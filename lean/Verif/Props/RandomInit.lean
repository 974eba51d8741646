import Verif.Spec.RandomInit
import Mathlib.Tactic.IntervalCases

/-!
# C154: the random generators
-/

namespace PathPlanning.Rng
open Spec

variable {E N : Type}

private theorem exec_append (next : E → N × E) : ∀ (l l' : List (Nat × Outcome E)) (σ : Sys E N),
    σ.exec next (l ++ l') = (σ.exec next l).bind fun σ' => σ'.exec next l'
  | [], _, _ => rfl
  | (i, o) :: l, l', σ => by
    simp only [List.cons_append, Sys.exec]
    cases σ.step next i o with
    | none => rfl
    | some σ' => exact exec_append next l l' σ'

/-! ## Numbers -/

private theorem numbers_cons (t u : Ty) (n : N) (σ σ' : Sys E N) (h : σ'.log = (u, n) :: σ.log) :
    numbers t σ' = if u = t then numbers t σ ++ [n] else numbers t σ := by
  unfold numbers
  rw [h, List.reverse_cons, List.filterMap_append]
  by_cases hu : u = t
  · simp [hu]
  · simp [hu]

private theorem numbers_congr (t : Ty) (σ σ' : Sys E N) (h : σ'.log = σ.log) : numbers t σ' = numbers t σ := by
  unfold numbers; rw [h]

private theorem stream_succ (next : E → N × E) (e : E) (k : Nat) :
    stream next e (k + 1) = stream next e k ++ [(next ((fun e => (next e).2)^[k] e)).1] := by
  unfold stream
  rw [List.range_succ, List.map_append]
  rfl

@[simp] private theorem stream_length (next : E → N × E) (e : E) (k : Nat) : (stream next e k).length = k := by
  simp [stream]

/-- The state of the engine after the numbers `l`. -/
private def After (next : E → N × E) (l : List N) (e : E) : Prop :=
  ∃ s k, l = stream next s k ∧ e = (fun e => (next e).2)^[k] s

private theorem After.draw {next : E → N × E} {l : List N} {e : E} (h : After next l e) :
    After next (l ++ [(next e).1]) (next e).2 := by
  obtain ⟨s, k, rfl, rfl⟩ := h
  exact ⟨s, k + 1, (stream_succ next s k).symm, by rw [Function.iterate_succ_apply']⟩

private theorem After.nil (next : E → N × E) (e : E) : After next [] e := ⟨e, 0, rfl, rfl⟩

/-! ## One thread -/

/-- Every draw comes after an `Init`, or its type has an engine. -/
private def Cov (r : Ty → Prop) (p : List Cmd) : Prop :=
  ∀ pre t post, p = pre ++ .draw t :: post → r t ∨ .init t ∈ pre

private theorem Cov.tail {r r' : Ty → Prop} {c : Cmd} {p : List Cmd} (h : Cov r (c :: p))
    (h1 : ∀ t, r t → r' t) (h2 : ∀ t, c = .init t → r' t) : Cov r' p := by
  intro pre t post hp
  rcases h (c :: pre) t post (by rw [hp]; rfl) with h | h
  · exact .inl (h1 t h)
  · rcases List.mem_cons.mp h with h | h
    · exact .inl (h2 t h.symm)
    · exact .inr h

private theorem Cov.mono {r r' : Ty → Prop} {p : List Cmd} (h : Cov r p) (h1 : ∀ t, r t → r' t) : Cov r' p :=
  fun pre t post hp => (h pre t post hp).imp (h1 t) id

/-- The engine of type `u` as the next draw will find it. -/
private def Cur (next : E → N × E) (σ : Sys E N) (u : Ty) : Prop :=
  ((σ.gen u).device = true ∧ ∃ e, (σ.gen u).engine = some e ∧ After next (numbers u σ) e) ∨
    ((σ.gen u).device = false ∧ (σ.gen u).engine = none ∧ numbers u σ = [])

private def Has (σ : Sys E N) (u : Ty) : Prop := (σ.gen u).engine.isSome = true

/-- Invariant of a program with one thread. -/
private def One (next : E → N × E) (σ : Sys E N) : Prop :=
  match (σ.thread 0).pc with
  | .ready => (∀ u, Cur next σ u) ∧ Cov (Has σ) (σ.thread 0).prog
  | .makeDevice t => (∀ u, Cur next σ u) ∧ Cov (fun u => Has σ u ∨ u = t) (σ.thread 0).prog ∧ (σ.gen t).device = false
  | .makeEngine t => (∀ u, u ≠ t → Cur next σ u) ∧ Cov (fun u => Has σ u ∨ u = t) (σ.thread 0).prog ∧
      (σ.gen t).device = true ∧ numbers t σ = []
  | .putBack t e => (∀ u, u ≠ t → Cur next σ u) ∧ Cov (Has σ) (σ.thread 0).prog ∧
      (σ.gen t).device = true ∧ (σ.gen t).engine.isSome = true ∧ After next (numbers t σ) e

/-- An outcome without exception. -/
def Outcome.isOk : Outcome E → Bool
  | .ok _ => true
  | .throw _ => false

private theorem one_step {next : E → N × E} {σ : Sys E N} (h : One next σ) (o : Outcome E) (ho : o.isOk = true) :
    ∃ σ', σ.step next 0 o = some σ' ∧ One next σ' := by
  obtain ⟨p, hp⟩ : ∃ p, p = σ.thread 0 := ⟨_, rfl⟩
  obtain ⟨seed, rfl⟩ : ∃ s, o = .ok s := by
    cases o with
    | ok s => exact ⟨s, rfl⟩
    | throw _ => cases ho
  unfold One at h
  unfold Sys.step
  rw [← hp] at h ⊢
  obtain ⟨pc, prog⟩ := p
  cases pc with
  | ready =>
    obtain ⟨hc, hv⟩ := h
    dsimp only at hv
    cases prog with
    | nil =>
      refine ⟨σ, rfl, ?_⟩
      unfold One
      rw [← hp]
      exact ⟨hc, hv⟩
    | cons c prog =>
      cases c with
      | init t =>
        dsimp only
        split
        · rename_i hd
          refine ⟨_, rfl, ?_⟩
          refine ⟨hc, ?_⟩
          simp only [Sys.put, if_true]
          refine hv.tail (fun _ h => h) ?_
          rintro u ⟨⟩
          rcases hc t with ⟨-, e, he, -⟩ | ⟨h, -⟩
          · show ((σ.gen t).engine).isSome = true
            rw [he]; rfl
          · rw [hd] at h; cases h
        · rename_i hd
          refine ⟨_, rfl, ?_⟩
          refine ⟨hc, ?_, by simpa [Sys.put] using hd⟩
          simp only [Sys.put, if_true]
          refine hv.tail (fun _ h => .inl h) ?_
          rintro u ⟨⟩
          exact .inr rfl
      | draw t =>
        dsimp only
        have hh : Has σ t := by
          rcases hv [] t prog rfl with h | h
          · exact h
          · cases h
        rcases hc t with ⟨hd, e, he, ha⟩ | ⟨-, h, -⟩
        · rw [he]
          refine ⟨_, rfl, ?_⟩
          unfold One
          simp only [Sys.put, if_true]
          refine ⟨?_, hv.tail (fun _ h => h) (by rintro u ⟨⟩), hd, hh, ?_⟩
          · intro u hu
            have hn : numbers u ({ gen := σ.gen, thread := fun j => if j = 0 then ⟨.putBack t (next e).2, prog⟩ else σ.thread j, log := (t, (next e).1) :: σ.log } : Sys E N) = numbers u σ := by
              rw [numbers_cons u t (next e).1 σ _ rfl, if_neg (Ne.symm hu)]
            rcases hc u with ⟨h1, e', h2, h3⟩ | ⟨h1, h2, h3⟩
            · exact .inl ⟨h1, e', h2, by rw [hn]; exact h3⟩
            · exact .inr ⟨h1, h2, by rw [hn]; exact h3⟩
          · rw [numbers_cons t t (next e).1 σ _ rfl, if_pos rfl]
            exact ha.draw
        · unfold Has at hh; rw [h] at hh; cases hh
  | makeDevice t =>
    obtain ⟨hc, hv, hd⟩ := h
    refine ⟨_, rfl, ?_⟩
    unfold One
    simp only [Sys.put, if_true]
    refine ⟨?_, ?_, by simp [Sys.setGen], ?_⟩
    · intro u hu
      have := hc u
      simpa [Cur, Sys.setGen, if_neg hu, numbers] using this
    · refine Cov.mono hv ?_
      rintro u (h | h)
      · refine .inl ?_
        unfold Has at h ⊢
        by_cases hu : u = t
        · subst hu; simpa [Sys.setGen] using h
        · simpa [Sys.setGen, if_neg hu] using h
      · exact .inr h
    · rcases hc t with ⟨h, -⟩ | ⟨-, -, h⟩
      · rw [hd] at h; cases h
      · exact h
  | makeEngine t =>
    obtain ⟨hc, hv, hd, hn⟩ := h
    refine ⟨_, rfl, ?_⟩
    unfold One
    simp only [Sys.put, if_true]
    refine ⟨?_, ?_⟩
    · intro u
      by_cases hu : u = t
      · subst hu
        refine .inl ⟨by simpa [Sys.setGen] using hd, seed, by simp [Sys.setGen], ?_⟩
        have hn' : numbers u σ = [] := hn
        show After next (numbers u σ) seed
        rw [hn']
        exact After.nil next seed
      · have := hc u hu
        simpa [Cur, Sys.setGen, if_neg hu, numbers] using this
    · refine Cov.mono hv ?_
      rintro u h
      unfold Has at h ⊢
      by_cases hu : u = t
      · subst hu; simp [Sys.setGen]
      · simpa [Sys.setGen, if_neg hu, hu] using h
  | putBack t e =>
    obtain ⟨hc, hv, hd, hs, ha⟩ := h
    refine ⟨_, rfl, ?_⟩
    unfold One
    simp only [Sys.put, if_true]
    refine ⟨?_, ?_⟩
    · intro u
      by_cases hu : u = t
      · subst hu
        exact .inl ⟨by simpa [Sys.setGen] using hd, e, by simp [Sys.setGen], ha⟩
      · have := hc u hu
        simpa [Cur, Sys.setGen, if_neg hu, numbers] using this
    · refine Cov.mono hv ?_
      rintro u h
      unfold Has at h ⊢
      by_cases hu : u = t
      · subst hu; simp [Sys.setGen]
      · simpa [Sys.setGen, if_neg hu] using h

private theorem one_exec {next : E → N × E} : ∀ (l : List (Nat × Outcome E)) (σ : Sys E N), One next σ →
    (∀ x ∈ l, x.1 = 0 ∧ x.2.isOk = true) → ∃ σ', σ.exec next l = some σ' ∧ One next σ'
  | [], σ, h, _ => ⟨σ, rfl, h⟩
  | (i, o) :: l, σ, h, hl => by
    obtain ⟨rfl, ho⟩ : i = 0 ∧ o.isOk = true := hl (i, o) (List.mem_cons_self ..)
    obtain ⟨σ', h1, h2⟩ := one_step h o ho
    obtain ⟨σ'', h3, h4⟩ := one_exec l σ' h2 (fun x hx => hl x (List.mem_cons_of_mem _ hx))
    exact ⟨σ'', by simp only [Sys.exec, h1, h3], h4⟩

private theorem one_numbers {next : E → N × E} {σ : Sys E N} (h : One next σ) (t : Ty) :
    numbers t σ = [] ∨ ∃ s, numbers t σ = stream next s (numbers t σ).length := by
  have key : ∀ e, After next (numbers t σ) e → ∃ s, numbers t σ = stream next s (numbers t σ).length := by
    rintro e ⟨s, k, h1, -⟩
    exact ⟨s, by rw [h1, stream_length]⟩
  have cur : Cur next σ t → numbers t σ = [] ∨ ∃ s, numbers t σ = stream next s (numbers t σ).length := by
    rintro (⟨-, e, -, h⟩ | ⟨-, -, h⟩)
    · exact .inr (key e h)
    · exact .inl h
  unfold One at h
  split at h
  · exact cur (h.1 t)
  · exact cur (h.1 t)
  · rename_i u _
    by_cases hu : t = u
    · subst hu; exact .inl h.2.2.2
    · exact cur (h.1 t hu)
  · rename_i u e _
    by_cases hu : t = u
    · subst hu; exact .inr (key e h.2.2.2.2)
    · exact cur (h.1 t hu)

/-- Splitting the calls of actions at a draw. -/
private theorem split_draw {t : Ty} : ∀ (l : List Act) (pre post : List Cmd), l.flatMap Act.cmds = pre ++ .draw t :: post →
    ∃ l1 a l2, l = l1 ++ a :: l2 ∧ .draw t ∈ a.cmds ∧ ∀ c ∈ l1.flatMap Act.cmds, c ∈ pre := by
  intro l
  induction l with
  | nil => intro pre post h; simp at h
  | cons a l ih =>
    intro pre post h
    rw [List.flatMap_cons, List.append_eq_append_iff] at h
    rcases h with ⟨m, hm, h⟩ | ⟨m, hm, h⟩
    · obtain ⟨l1, b, l2, rfl, hb, hc⟩ := ih m post h
      refine ⟨a :: l1, b, l2, rfl, hb, fun c hc' => ?_⟩
      rw [List.flatMap_cons, List.mem_append] at hc'
      rw [hm, List.mem_append]
      exact hc'.imp id (hc c)
    · cases m with
      | nil =>
        rw [List.nil_append] at h
        obtain ⟨l1, b, l2, rfl, hb, hc⟩ := ih [] post h.symm
        refine ⟨a :: l1, b, l2, rfl, hb, fun c hc' => ?_⟩
        rw [List.flatMap_cons, List.mem_append] at hc'
        rw [List.append_nil] at hm
        rcases hc' with h | h
        · rw [← hm]; exact h
        · cases hc c h
      | cons c m =>
        rw [List.cons_append, List.cons.injEq] at h
        obtain ⟨rfl, -⟩ := h
        exact ⟨[], a, l, rfl, by rw [hm]; simp, by simp⟩

/-- C154 for one thread: whatever objects a user constructs and uses, in whichever order, the generators are constructed
when they are used, and the numbers of each type are successive numbers of one engine: constructing further objects does not
start it again. Missing: several threads, exceptions, and RRT* planners on `float` spaces, for which the claim is false
(`C154_race`, `C154_exception`, `C154_rrtStar_float`). -/
theorem C154_one_thread_partial (next : E → N × E) (l : List Act) (hl : PossibleActs l)
    (hf : .newRRTStar .float ∉ l) (sched : List (Nat × Outcome E)) (hs : ∀ x ∈ sched, x.1 = 0 ∧ x.2.isOk = true) :
    ∃ σ, (Sys.start fun _ => l.flatMap Act.cmds).exec next sched = some σ ∧
      ∀ t, numbers t σ = [] ∨ ∃ seed, numbers t σ = stream next seed (numbers t σ).length := by
  have hinit : One next (Sys.start (E := E) (N := N) fun _ => l.flatMap Act.cmds) := by
    refine ⟨fun u => .inr ⟨rfl, rfl, rfl⟩, ?_⟩
    intro pre t post h
    right
    obtain ⟨l1, a, l2, rfl, ha, hc⟩ := split_draw l pre post h
    have hp := hl l1 a l2 rfl
    have space : ∀ u, .newSpace u ∈ l1 → .init u ∈ pre := fun u hu =>
      hc _ (List.mem_flatMap.mpr ⟨_, hu, by simp [Act.cmds]⟩)
    have rrt : ∀ u, .newRRT u ∈ l1 → .init .double ∈ pre := fun u hu =>
      hc _ (List.mem_flatMap.mpr ⟨_, hu, by simp [Act.cmds]⟩)
    cases a with
    | newSpace u => simp [Act.cmds] at ha
    | newRRT u => simp [Act.cmds] at ha
    | newRRTStar u => simp [Act.cmds] at ha
    | sampleSpace u =>
      simp only [Act.cmds, List.mem_singleton, Cmd.draw.injEq] at ha
      subst ha
      exact space _ hp
    | iterateRRT u =>
      simp only [Act.cmds, List.mem_cons, Cmd.draw.injEq, List.not_mem_nil, or_false] at ha
      rcases ha with rfl | rfl
      · exact rrt _ hp.2
      · exact space _ hp.1
    | iterateRRTStar u =>
      have hu : u = .double := by
        cases u with
        | double => rfl
        | float => exact absurd (List.mem_append_left _ hp.2) hf
      subst hu
      simp only [Act.cmds, List.mem_cons, Cmd.draw.injEq, List.not_mem_nil, or_false, or_self] at ha
      subst ha
      exact space _ hp.1
  obtain ⟨σ, h1, h2⟩ := one_exec sched _ hinit hs
  exact ⟨σ, h1, one_numbers h2⟩

/-! ## Several threads -/

/-- The type that a command is about. -/
def Cmd.ty : Cmd → Ty
  | .init t => t
  | .draw t => t

/-- Invariant of threads that only use the type `t`, whose engine was seeded with `s`. -/
private def Many (next : E → N × E) (t : Ty) (s : E) (σ : Sys E N) : Prop :=
  (σ.gen t).device = true ∧
  (∃ k, k ≤ (numbers t σ).length ∧ (σ.gen t).engine = some ((fun e => (next e).2)^[k] s)) ∧
  (∀ n ∈ numbers t σ, ∃ k < (numbers t σ).length, n = (next ((fun e => (next e).2)^[k] s)).1) ∧
  ∀ i, (∀ c ∈ (σ.thread i).prog, c.ty = t) ∧
    ((σ.thread i).pc = .ready ∨
      ∃ k, k ≤ (numbers t σ).length ∧ (σ.thread i).pc = .putBack t ((fun e => (next e).2)^[k] s))

private theorem many_put {next : E → N × E} {t : Ty} {s : E} {σ : Sys E N} (h : Many next t s σ) (i : Nat) (p : Thread E)
    (hp : ∀ c ∈ p.prog, c.ty = t) (hpc : p.pc = .ready) : Many next t s (σ.put i p) := by
  obtain ⟨h1, h2, h3, h4⟩ := h
  refine ⟨h1, h2, h3, fun j => ?_⟩
  simp only [Sys.put]
  split
  · exact ⟨hp, .inl hpc⟩
  · exact h4 j

private theorem many_step {next : E → N × E} {t : Ty} {s : E} {σ : Sys E N} (h : Many next t s σ) (i : Nat) (o : Outcome E) :
    ∃ σ', σ.step next i o = some σ' ∧ Many next t s σ' := by
  obtain ⟨p, hp⟩ : ∃ p, p = σ.thread i := ⟨_, rfl⟩
  have hi := h.2.2.2 i
  unfold Sys.step
  rw [← hp] at hi ⊢
  obtain ⟨pc, prog⟩ := p
  obtain ⟨hty, hpc⟩ := hi
  dsimp only at hty hpc
  rcases hpc with rfl | ⟨k, hk, rfl⟩
  · cases prog with
    | nil => exact ⟨σ, rfl, h⟩
    | cons c prog =>
      have hty' : ∀ c ∈ prog, c.ty = t := fun c hc => hty c (List.mem_cons_of_mem _ hc)
      have hc := hty c (List.mem_cons_self ..)
      cases c with
      | init u =>
        obtain rfl : u = t := hc
        dsimp only
        rw [if_pos h.1]
        exact ⟨_, rfl, many_put h i _ hty' rfl⟩
      | draw u =>
        obtain rfl : u = t := hc
        obtain ⟨h1, ⟨k, hk, hk'⟩, h3, h4⟩ := h
        dsimp only
        rw [hk']
        refine ⟨_, rfl, ?_⟩
        obtain ⟨σ', hσ'⟩ : ∃ σ' : Sys E N, σ' = { σ.put i ⟨.putBack u (next ((fun e => (next e).2)^[k] s)).2, prog⟩ with
          log := (u, (next ((fun e => (next e).2)^[k] s)).1) :: σ.log } := ⟨_, rfl⟩
        have hn : numbers u σ' = numbers u σ ++ [(next ((fun e => (next e).2)^[k] s)).1] := by
          rw [numbers_cons u u _ σ σ' (by rw [hσ']), if_pos rfl]
        have hlen : (numbers u σ').length = (numbers u σ).length + 1 := by rw [hn]; simp
        rw [← hσ']
        have hg : σ'.gen = σ.gen := by rw [hσ']; rfl
        refine ⟨by rw [hg]; exact h1, ⟨k, by omega, by rw [hg]; exact hk'⟩, ?_, ?_⟩
        · intro n hn'
          rw [hlen]
          rw [hn, List.mem_append, List.mem_singleton] at hn'
          rcases hn' with hn' | rfl
          · obtain ⟨j, hj, e⟩ := h3 n hn'
            exact ⟨j, by omega, e⟩
          · exact ⟨k, by omega, rfl⟩
        · intro j
          rw [hlen, hσ']
          simp only [Sys.put]
          split
          · exact ⟨hty', .inr ⟨k + 1, by omega, by rw [Function.iterate_succ_apply']⟩⟩
          · obtain ⟨a, b⟩ := h4 j
            exact ⟨a, b.imp id fun ⟨m, hm, e⟩ => ⟨m, by omega, e⟩⟩
  · refine ⟨_, rfl, many_put ?_ i _ hty rfl⟩
    obtain ⟨h1, -, h3, h4⟩ := h
    exact ⟨by simpa [Sys.setGen] using h1, ⟨k, hk, by simp [Sys.setGen]⟩, h3, h4⟩

private theorem many_exec {next : E → N × E} {t : Ty} {s : E} : ∀ (l : List (Nat × Outcome E)) (σ : Sys E N),
    Many next t s σ → ∃ σ', σ.exec next l = some σ' ∧ Many next t s σ'
  | [], σ, h => ⟨σ, rfl, h⟩
  | (i, o) :: l, σ, h => by
    obtain ⟨σ', h1, h2⟩ := many_step h i o
    obtain ⟨σ'', h3, h4⟩ := many_exec l σ' h2
    exact ⟨σ'', by simp only [Sys.exec, h1, h3], h4⟩

/-- The steps in which thread 0 constructs its first object alone. -/
private theorem many_first (next : E → N × E) (t : Ty) (progs : Nat → List Cmd) (p : List Cmd)
    (h0 : progs 0 = .init t :: p) (ht : ∀ i, ∀ c ∈ progs i, c.ty = t) (o : Outcome E) (s' s : E) :
    ∃ σ, (Sys.start (N := N) progs).exec next [(0, o), (0, .ok s'), (0, .ok s)] = some σ ∧ Many next t s σ ∧ σ.log = [] ∧
      ∀ i, (σ.thread i).pc = .ready := by
  refine ⟨((((Sys.start (N := N) progs).put 0 ⟨.makeDevice t, p⟩).setGen t ⟨true, none⟩).put 0 ⟨.makeEngine t, p⟩
      |>.setGen t ⟨true, some s⟩).put 0 ⟨.ready, p⟩, ?_, ?_, ?_, ?_⟩
  · simp [Sys.exec, Sys.step, Sys.start, h0, Sys.put, Sys.setGen]
  · simp only [Many, Sys.put, Sys.setGen, Sys.start, numbers]
    refine ⟨by simp, ⟨0, by simp⟩, by simp, fun i => ?_⟩
    by_cases hi : i = 0
    · subst hi
      refine ⟨?_, .inl (by simp)⟩
      simp only [if_true]
      intro c hc
      exact ht 0 c (by rw [h0]; exact List.mem_cons_of_mem _ hc)
    · simp only [if_neg hi]
      exact ⟨ht i, .inl trivial⟩
  · rfl
  · intro i
    by_cases hi : i = 0 <;> simp [Sys.put, Sys.setGen, Sys.start, hi]

/-- C154 for several threads, if the first object is constructed before they are started: for every schedule the generator
is constructed whenever it is used, and every number that is drawn is one of the engine's first numbers, of which there are
as many as draws. Missing: that no number is drawn twice, which is false (`C154_same_number_twice`). -/
theorem C154_constructed_first_partial (next : E → N × E) (t : Ty) (progs : Nat → List Cmd) (p : List Cmd)
    (h0 : progs 0 = .init t :: p) (ht : ∀ i, ∀ c ∈ progs i, c.ty = t) (o : Outcome E) (s' s : E)
    (sched : List (Nat × Outcome E)) :
    ∃ σ, (Sys.start progs).exec next ((0, o) :: (0, .ok s') :: (0, .ok s) :: sched) = some σ ∧
      ∀ n ∈ numbers t σ, n ∈ stream next s (numbers t σ).length := by
  obtain ⟨σ, h1, h2, -⟩ := many_first (N := N) next t progs p h0 ht o s' s
  obtain ⟨σ', h3, h4⟩ := many_exec sched σ h2
  refine ⟨σ', ?_, fun n hn => ?_⟩
  · have := exec_append next [(0, o), (0, .ok s'), (0, .ok s)] sched (Sys.start (N := N) progs)
    rw [h1] at this
    rw [← h3]
    exact this
  · obtain ⟨k, hk, rfl⟩ := h4.2.2.1 n hn
    exact List.mem_map.mpr ⟨k, List.mem_range.mpr hk, rfl⟩

/-- A thread is between reading the engine and storing its next state. -/
def Thread.drawing (p : Thread E) : Prop := ∃ t e, p.pc = .putBack t e

/-- Invariant of threads that take turns in drawing. -/
private def Turns (next : E → N × E) (t : Ty) (s : E) (σ : Sys E N) : Prop :=
  Many next t s σ ∧ numbers t σ = stream next s (numbers t σ).length ∧
  ((∀ i, (σ.thread i).pc = .ready) ∧ (σ.gen t).engine = some ((fun e => (next e).2)^[(numbers t σ).length] s) ∨
    ∃ i, (σ.thread i).pc = .putBack t ((fun e => (next e).2)^[(numbers t σ).length] s) ∧ ∀ j, j ≠ i → (σ.thread j).pc = .ready)

private theorem turns_step {next : E → N × E} {t : Ty} {s : E} {σ σ' : Sys E N} (h : Turns next t s σ) (i : Nat) (o : Outcome E)
    (he : σ.step next i o = some σ') (hx : ∀ i j, (σ'.thread i).drawing → (σ'.thread j).drawing → i = j) :
    Turns next t s σ' := by
  obtain ⟨hm, hn, hd⟩ := h
  obtain ⟨σ'', h1, hm'⟩ := many_step hm i o
  rw [he] at h1
  obtain rfl : σ' = σ'' := Option.some.inj h1
  refine ⟨hm', ?_⟩
  obtain ⟨p, hp⟩ : ∃ p, p = σ.thread i := ⟨_, rfl⟩
  have hi := hm.2.2.2 i
  unfold Sys.step at he
  rw [← hp] at hi he
  obtain ⟨pc, prog⟩ := p
  obtain ⟨hty, hpc⟩ := hi
  dsimp only at hty hpc
  rcases hpc with rfl | ⟨k, hk, rfl⟩
  · cases prog with
    | nil =>
      obtain rfl : σ = σ' := Option.some.inj he
      exact ⟨hn, hd⟩
    | cons c prog =>
      have hc := hty c (List.mem_cons_self ..)
      cases c with
      | init u =>
        obtain rfl : u = t := hc
        dsimp only at he
        rw [if_pos hm.1] at he
        obtain rfl := Option.some.inj he
        refine ⟨hn, hd.imp ?_ ?_⟩
        · rintro ⟨a, b⟩
          refine ⟨fun j => ?_, b⟩
          simp only [Sys.put]
          split
          · rfl
          · exact a j
        · rintro ⟨j, a, b⟩
          have hij : j ≠ i := by rintro rfl; rw [← hp] at a; cases a
          refine ⟨j, by simp only [Sys.put, if_neg hij]; exact a, fun l hl => ?_⟩
          simp only [Sys.put]
          split
          · rfl
          · exact b l hl
      | draw u =>
        obtain rfl : u = t := hc
        obtain ⟨h1, ⟨k, hk, hk'⟩, h3, h4⟩ := hm
        dsimp only at he
        rw [hk'] at he
        have he := (Option.some.inj he).symm
        have hth : (σ'.thread i).drawing := by rw [he]; exact ⟨u, _, by simp only [Sys.put, if_true]; rfl⟩
        rcases hd with ⟨a, b⟩ | ⟨j, a, b⟩
        · rw [hk'] at b
          have hb := Option.some.inj b
          rw [hb] at he
          have hn' : numbers u σ' = numbers u σ ++ [(next ((fun e => (next e).2)^[(numbers u σ).length] s)).1] := by
            rw [numbers_cons u u _ σ σ' (by rw [he]), if_pos rfl]
          have hlen : (numbers u σ').length = (numbers u σ).length + 1 := by rw [hn']; simp
          refine ⟨by rw [hlen, hn', stream_succ, ← hn], .inr ⟨i, ?_, fun j hj => ?_⟩⟩
          · rw [hlen, he, Function.iterate_succ_apply']
            simp only [Sys.put, if_true]
          · rw [he]
            simp only [Sys.put, if_neg hj]
            exact a j
        · have hij : j ≠ i := by rintro rfl; rw [← hp] at a; cases a
          refine absurd (hx i j hth ?_) (Ne.symm hij)
          rw [he]
          exact ⟨u, _, by simp only [Sys.put, if_neg hij]; exact a⟩
  · obtain rfl := Option.some.inj he
    refine ⟨hn, .inl ?_⟩
    rcases hd with ⟨a, -⟩ | ⟨j, a, b⟩
    · have := a i; rw [← hp] at this; cases this
    · have hij : i = j := by
        by_contra hij
        have := b i hij; rw [← hp] at this; cases this
      subst hij
      rw [← hp] at a
      refine ⟨fun j => ?_, ?_⟩
      · simp only [Sys.put]
        split
        · rfl
        · rename_i hj; exact b j hj
      · simp only [Pc.putBack.injEq] at a
        simp only [Sys.put, Sys.setGen, if_true, a.2]
        rfl

private theorem turns_exec {next : E → N × E} {t : Ty} {s : E} : ∀ (l : List (Nat × Outcome E)) (σ σ' : Sys E N),
    Turns next t s σ → σ.exec next l = some σ' →
    (∀ l1 l2 τ, l = l1 ++ l2 → σ.exec next l1 = some τ → ∀ i j, (τ.thread i).drawing → (τ.thread j).drawing → i = j) →
    Turns next t s σ'
  | [], σ, σ', h, he, _ => by
    obtain rfl : σ = σ' := Option.some.inj he
    exact h
  | (i, o) :: l, σ, σ', h, he, hx => by
    simp only [Sys.exec] at he
    cases hs : σ.step next i o with
    | none => rw [hs] at he; cases he
    | some τ =>
      rw [hs] at he
      refine turns_exec l τ σ' (turns_step h i o hs (hx [(i, o)] l τ rfl (by simp [Sys.exec, hs]))) he ?_
      intro l1 l2 τ' hl hτ
      exact hx ((i, o) :: l1) l2 τ' (by rw [hl]; rfl) (by simp only [Sys.exec, hs]; exact hτ)

/-- C154 for several threads that take turns: if the first object is constructed before the threads are started and no two
threads draw at the same time (for instance because a mutex is held around all searches), the numbers that are drawn are
those of the engine, each once and in order. -/
theorem C154_taking_turns_partial (next : E → N × E) (t : Ty) (progs : Nat → List Cmd) (p : List Cmd)
    (h0 : progs 0 = .init t :: p) (ht : ∀ i, ∀ c ∈ progs i, c.ty = t) (o : Outcome E) (s' s : E)
    (sched : List (Nat × Outcome E))
    (hx : ∀ l1 l2 τ, sched = l1 ++ l2 → (Sys.start progs).exec next ((0, o) :: (0, .ok s') :: (0, .ok s) :: l1) = some τ →
      ∀ i j, (τ.thread i).drawing → (τ.thread j).drawing → i = j) :
    ∃ σ, (Sys.start progs).exec next ((0, o) :: (0, .ok s') :: (0, .ok s) :: sched) = some σ ∧
      numbers t σ = stream next s (numbers t σ).length := by
  obtain ⟨σ, h1, h2, h3, h4⟩ := many_first (N := N) next t progs p h0 ht o s' s
  have happ : ∀ l, (Sys.start progs).exec next ((0, o) :: (0, .ok s') :: (0, .ok s) :: l) = σ.exec next l := by
    intro l
    have := exec_append next [(0, o), (0, .ok s'), (0, .ok s)] l (Sys.start (N := N) progs)
    rw [h1] at this
    exact this
  obtain ⟨σ', h5, h6⟩ := many_exec sched σ h2
  have hnum : numbers t σ = [] := by unfold numbers; rw [h3]; rfl
  have hturn : Turns next t s σ := by
    refine ⟨h2, by rw [hnum]; rfl, .inl ⟨h4, ?_⟩⟩
    obtain ⟨-, ⟨k, hk, e⟩, -⟩ := h2
    rw [hnum] at hk ⊢
    obtain rfl : k = 0 := Nat.le_zero.mp hk
    exact e
  refine ⟨σ', by rw [happ]; exact h5, (turns_exec sched σ σ' hturn h5 ?_).2.1⟩
  intro l1 l2 τ hl hτ
  exact hx l1 l2 τ hl (by rw [happ]; exact hτ)

/-! ## Examples and violations -/

/-- An engine that counts. -/
private def count (e : Nat) : Nat × Nat := (e, e + 1)

private def exActs : List Act :=
  [.newSpace .double, .sampleSpace .double, .newRRT .double, .iterateRRT .double, .newSpace .float, .newRRT .float,
    .iterateRRT .float, .newRRTStar .double, .iterateRRTStar .double]

private def steps (n : Nat) : List (Nat × Outcome Nat) := List.replicate n (0, .ok 7)

/-- The hypotheses of `C154_one_thread_partial` are met; all objects draw from one sequence for each type. -/
example : .newRRTStar .float ∉ exActs ∧ (∀ x ∈ steps 40, x.1 = 0 ∧ x.2.isOk = true) ∧
    (((Sys.start fun _ => exActs.flatMap Act.cmds).exec count (steps 40)).map fun σ =>
      (numbers .double σ, numbers .float σ)) = some ([7, 8, 9, 10, 11, 12], [7]) := by
  refine ⟨by simp [exActs], ?_, by decide +kernel⟩
  intro x hx
  obtain ⟨-, rfl⟩ := List.mem_replicate.mp hx
  exact ⟨rfl, rfl⟩

example : PossibleActs exActs := by
  intro before a after h
  have hlen := congrArg List.length h
  simp [exActs] at hlen
  have hb : before = exActs.take before.length := by rw [h]; simp
  have ha : exActs[before.length]? = some a := by rw [h]; simp
  have hlt : before.length < 9 := by omega
  obtain ⟨n, hn⟩ : ∃ n, n = before.length := ⟨_, rfl⟩
  rw [← hn] at hb ha hlt
  interval_cases n <;> (simp only [exActs, List.getElem?_cons_succ, List.getElem?_cons_zero, Option.some.injEq] at ha; subst ha; rw [hb]; simp [Act.possible, exActs])

/-- C154, violation: two threads construct a state space each and sample it. When the second constructor finds the device
of the first one it returns, although there is no engine yet; the sample then dereferences a null pointer. -/
theorem C154_race (next : E → N × E) (s : E) :
    ∃ sched : List (Nat × Outcome E), (∀ x ∈ sched, x.2.isOk = true) ∧
      (Sys.start fun _ => [Act.newSpace .double, .sampleSpace .double].flatMap Act.cmds).exec next sched = none :=
  ⟨[(0, .ok s), (0, .ok s), (1, .ok s), (1, .ok s)], by simp [Outcome.isOk], rfl⟩

/-- C154, violation: the device throws when the seed is drawn. The user catches the exception and constructs the state space
again; the device is there, so that the engine is not constructed, and sampling dereferences a null pointer. -/
theorem C154_exception (next : E → N × E) (s : E) :
    (Sys.start fun _ => Act.cmds (.newSpace .double)).exec next
      [(0, .ok s), (0, .ok s), (0, .throw ([Act.newSpace .double, .sampleSpace .double].flatMap Act.cmds)), (0, .ok s),
        (0, .ok s)] = none := rfl

/-- C154, violation: the constructor of RRT*, unlike that of RRT, does not construct the generator of doubles, so that the
first iteration on a space of floats dereferences a null pointer; the objects are constructed before they are used. -/
theorem C154_rrtStar_float (next : E → N × E) (s : E) :
    PossibleActs [.newSpace .float, .newRRTStar .float, .iterateRRTStar .float] ∧
    (Sys.start fun _ => [Act.newSpace .float, .newRRTStar .float, .iterateRRTStar .float].flatMap Act.cmds).exec next
      [(0, .ok s), (0, .ok s), (0, .ok s), (0, .ok s)] = none := by
  refine ⟨?_, rfl⟩
  intro before a after h
  match before, h with
  | [], h => cases h; trivial
  | [_], h => cases h; simp [Act.possible]
  | [_, _], h => cases h; simp [Act.possible]
  | _ :: _ :: _ :: l, h =>
    have := congrArg List.length h
    simp at this

/-- C154, violation: two threads that sample at the same time get the same number, though the engine is constructed. -/
theorem C154_same_number_twice (next : E → N × E) (s : E) :
    ∃ (sched : List (Nat × Outcome E)) (σ : Sys E N),
      (Sys.start fun i => if i = 0 then [.init .double, .draw .double] else [.draw .double]).exec next
        ((0, .ok s) :: (0, .ok s) :: (0, .ok s) :: sched) = some σ ∧
      numbers .double σ = [(next s).1, (next s).1] :=
  ⟨[(0, .ok s), (1, .ok s), (0, .ok s), (1, .ok s)], _, rfl, rfl⟩

/-- The hypotheses of `C154_constructed_first_partial` are met by the threads of `C154_same_number_twice`. -/
example : ∀ i, ∀ c ∈ (fun i : Nat => if i = 0 then [Cmd.init .double, .draw .double] else [.draw .double]) i, c.ty = .double := by
  intro i c hc
  dsimp only at hc
  split at hc <;> simp at hc
  · rcases hc with rfl | rfl <;> rfl
  · subst hc; rfl

/-- The hypotheses of `C154_taking_turns_partial` are met: the threads draw one after the other. -/
example : ∀ l1 l2 τ, ([(1, .ok 0), (1, .ok 0), (0, .ok 0), (0, .ok 0)] : List (Nat × Outcome Nat)) = l1 ++ l2 →
    (Sys.start fun i => if i = 0 then [.init .double, .draw .double] else [.draw .double]).exec count
      ((0, .ok 0) :: (0, .ok 0) :: (0, .ok 0) :: l1) = some τ →
    ∀ i j, (τ.thread i).drawing → (τ.thread j).drawing → i = j := by
  have key : ∀ τ : Sys Nat Nat, (∃ a, ∀ i, i ≠ a → (τ.thread i).pc = .ready) →
      ∀ i j, (τ.thread i).drawing → (τ.thread j).drawing → i = j := by
    rintro τ ⟨a, ha⟩ i j ⟨t, e, h⟩ ⟨t', e', h'⟩
    have hi : i = a := by by_contra hi; rw [ha i hi] at h; cases h
    have hj : j = a := by by_contra hj; rw [ha j hj] at h'; cases h'
    rw [hi, hj]
  intro l1 l2 τ hl hτ
  match l1, hl with
  | [], _ => cases hτ; exact key _ ⟨0, fun i hi => by simp [hi, Sys.put, Sys.setGen, Sys.start]⟩
  | [_], hl => cases hl; cases hτ; exact key _ ⟨1, fun i hi => by by_cases h0 : i = 0 <;> simp [hi, h0, Sys.put, Sys.setGen, Sys.start]⟩
  | [_, _], hl => cases hl; cases hτ; exact key _ ⟨1, fun i hi => by by_cases h0 : i = 0 <;> simp [hi, h0, Sys.put, Sys.setGen, Sys.start]⟩
  | [_, _, _], hl =>
    cases hl; cases hτ
    exact key _ ⟨0, fun i hi => by by_cases h1 : i = 1 <;> simp [hi, h1, Sys.put, Sys.setGen, Sys.start]⟩
  | [_, _, _, _], hl =>
    cases hl; cases hτ
    exact key _ ⟨0, fun i hi => by by_cases h1 : i = 1 <;> simp [hi, h1, Sys.put, Sys.setGen, Sys.start]⟩
  | _ :: _ :: _ :: _ :: _ :: l, hl =>
    have := congrArg List.length hl
    simp at this

end PathPlanning.Rng
