import Verif.Model.SingletonInit
import Mathlib.Tactic.Common
import Mathlib.Data.List.Induction

/-! # C150: singletons whose constructor has arguments -/

namespace PathPlanning.SingletonInit

variable {A : Type}

/-- What is in force after some calls: the arguments of the last `Init`, unless `Release` was called since. -/
def inForce : List (Op A) → Option A :=
  List.foldl (fun r o => match o with
    | .init args => some args
    | .get => r
    | .release => none) none

/-- The calls respect the protocol: `Init` only when nothing is in force, `Get` only when something is. -/
def Protocol (ops : List (Op A)) : Prop :=
  ∀ pre o post, ops = pre ++ o :: post →
    (∀ args, o = .init args → inForce pre = none) ∧ (o = .get → inForce pre ≠ none)

private theorem inForce_snoc (pre : List (Op A)) (o : Op A) : inForce (pre ++ [o]) =
    match o with
    | .init args => some args
    | .get => inForce pre
    | .release => none := by
  unfold inForce
  rw [List.foldl_append]
  rfl

private theorem run_snoc (b : Bool) (s : State A) (pre : List (Op A)) (o : Op A) :
    run b s (pre ++ [o]) = (run b s pre).bind fun s' => step b s' o := by
  induction pre generalizing s with
  | nil => simp [run]
  | cons a as ih =>
    simp only [List.cons_append, run, Option.bind_assoc]
    congr 1
    funext s'
    exact ih s'

private structure Inv (ops : List (Op A)) (s : State A) : Prop where
  args : s.inst.map Prod.snd = inForce ops
  num : ∀ i a, s.inst = some (i, a) → i + 1 = s.constructed
  dead : ∀ j, j ∈ s.destroyed ↔ j < s.constructed ∧ s.inst.map Prod.fst ≠ some j
  nodup : s.destroyed.Nodup

private theorem inv (b : Bool) : ∀ (ops : List (Op A)) (s : State A), run b new ops = some s → Inv ops s := by
  intro ops
  induction ops using List.reverseRecOn with
  | nil =>
    intro s h
    cases h
    exact ⟨rfl, by simp [new], by simp [new], by simp [new]⟩
  | append_singleton pre o ih =>
    intro s h
    rw [run_snoc] at h
    obtain ⟨s₁, h1, h2⟩ := Option.bind_eq_some_iff.1 h
    have I := ih s₁ h1
    cases o with
    | get =>
      simp only [step, get] at h2
      split at h2
      · cases h2
      · cases h2
        exact ⟨by rw [inForce_snoc]; exact I.args, I.num, I.dead, I.nodup⟩
    | release =>
      simp only [step, release, Option.some.injEq] at h2
      cases hi : s₁.inst with
      | none =>
        rw [hi] at h2
        simp only [Option.isSome_none, Bool.false_eq_true, if_false] at h2
        subst h2
        exact ⟨by rw [inForce_snoc, hi]; rfl, I.num, I.dead, I.nodup⟩
      | some x =>
        obtain ⟨i, a⟩ := x
        rw [hi] at h2
        simp only [Option.isSome_some, if_true] at h2
        subst h2
        have hn := I.num i a hi
        have hd := I.dead
        rw [hi] at hd
        simp only [Option.map_some, ne_eq, Option.some.injEq] at hd
        refine ⟨by rw [inForce_snoc]; rfl, by simp [State.assign], ?_, ?_⟩
        · intro j
          simp only [State.assign, hi, Option.map_some, Option.toList_some, List.singleton_append, List.mem_cons, hd,
            Option.map_none, ne_eq, not_false_eq_true, and_true, reduceCtorEq]
          omega
        · simp only [State.assign, hi, Option.map_some, Option.toList_some, List.singleton_append, List.nodup_cons]
          exact ⟨by rw [hd]; omega, I.nodup⟩
    | init args =>
      simp only [step, initOp] at h2
      split at h2
      · cases h2
      · cases h2
        cases hi : s₁.inst with
        | none =>
          have hd := I.dead
          rw [hi] at hd
          simp only [Option.map_none, ne_eq, reduceCtorEq, not_false_eq_true, and_true] at hd
          refine ⟨by rw [inForce_snoc]; rfl, ?_, ?_, ?_⟩
          · simp only [State.assign, Option.some.injEq, Prod.mk.injEq]
            rintro i a ⟨rfl, -⟩; rfl
          · intro j
            simp only [State.assign, hi, Option.map_none, Option.toList_none, List.nil_append, hd, Option.map_some, ne_eq,
              Option.some.injEq]
            omega
          · simpa [State.assign, hi] using I.nodup
        | some x =>
          obtain ⟨i, a⟩ := x
          have hn := I.num i a hi
          have hd := I.dead
          rw [hi] at hd
          simp only [Option.map_some, ne_eq, Option.some.injEq] at hd
          refine ⟨by rw [inForce_snoc]; rfl, ?_, ?_, ?_⟩
          · simp only [State.assign, Option.some.injEq, Prod.mk.injEq]
            rintro i a ⟨rfl, -⟩; rfl
          · intro j
            simp only [State.assign, hi, Option.map_some, Option.toList_some, List.singleton_append, List.mem_cons, hd,
              ne_eq, Option.some.injEq]
            omega
          · simp only [State.assign, hi, Option.map_some, Option.toList_some, List.singleton_append, List.nodup_cons]
            exact ⟨by rw [hd]; omega, I.nodup⟩

/-- C150. After any calls, `Get` returns the instance made last, with the arguments of the last `Init`, if it was not
released since; otherwise it does not return. -/
theorem C150_get (asserts : Bool) (ops : List (Op A)) (s : State A) (h : run asserts new ops = some s) :
    (inForce ops = none → get s = none) ∧
    ∀ args, inForce ops = some args → ∃ i s', i + 1 = s.constructed ∧ i ∉ s.destroyed ∧ get s = some s' ∧
      s'.returned = (i, args) :: s.returned := by
  have I := inv asserts ops s h
  constructor
  · intro hn
    have := I.args
    rw [hn, Option.map_eq_none_iff] at this
    simp [get, this]
  · intro args ha
    have := I.args
    rw [ha, Option.map_eq_some_iff] at this
    obtain ⟨⟨i, a⟩, hi, rfl⟩ := this
    refine ⟨i, _, I.num i a hi, ?_, by rw [get, hi], rfl⟩
    rw [I.dead, hi]
    simp

/-- C150. At every moment all constructed instances but the last one are destroyed, none of them twice; the last one is
destroyed exactly if nothing is in force. -/
theorem C150_instances (asserts : Bool) (ops : List (Op A)) (s : State A) (h : run asserts new ops = some s) :
    s.destroyed.Nodup ∧
    ∀ j, j ∈ s.destroyed ↔ j + 1 < s.constructed ∨ (j + 1 = s.constructed ∧ inForce ops = none) := by
  have I := inv asserts ops s h
  refine ⟨I.nodup, fun j => ?_⟩
  rw [I.dead, ← I.args]
  cases hi : s.inst with
  | none => simp; omega
  | some x =>
    obtain ⟨i, a⟩ := x
    have := I.num i a hi
    simp
    omega

/-- C150. With assertions exactly the sequences of calls that respect the protocol return. -/
theorem C150_assertions (ops : List (Op A)) : (run true new ops).isSome = true ↔ Protocol ops := by
  induction ops using List.reverseRecOn with
  | nil =>
    simp only [run, Option.isSome_some, true_iff]
    intro pre o post h
    simp at h
  | append_singleton pre o ih =>
    have split : Protocol (pre ++ [o]) ↔ Protocol pre ∧
        ((∀ args, o = .init args → inForce pre = none) ∧ (o = .get → inForce pre ≠ none)) := by
      constructor
      · intro h
        refine ⟨fun p o' q e => h p o' (q ++ [o]) (by rw [e]; simp), h pre o [] rfl⟩
      · rintro ⟨h1, h2⟩ p o' q e
        rcases List.eq_nil_or_concat q with rfl | ⟨q', x, rfl⟩
        · have := List.append_inj' e rfl
          obtain ⟨rfl, e2⟩ := this
          cases e2
          exact h2
        · have e' : pre ++ [o] = (p ++ o' :: q') ++ [x] := by rw [e]; simp
          have := List.append_inj' e' rfl
          exact h1 p o' q' this.1
    rw [split, ← ih, run_snoc]
    cases hr : run true new pre with
    | none => simp
    | some s =>
      have I := inv true pre s hr
      simp only [Option.bind_some, Option.isSome_some, true_and]
      cases o with
      | init args =>
        rw [← I.args]
        cases hi : s.inst <;> simp [step, initOp, hi]
      | get =>
        rw [← I.args]
        cases hi : s.inst <;> simp [step, get, hi]
      | release => simp [step]

/-- C150. For these sequences the program without assertions does the same. -/
theorem C150_without_assertions (ops : List (Op A)) (hp : Protocol ops) : run false new ops = run true (new : State A) ops := by
  obtain ⟨s, hs⟩ := Option.isSome_iff_exists.1 ((C150_assertions ops).2 hp)
  rw [hs]
  have key : ∀ (ops : List (Op A)) (s s' : State A), run true s ops = some s' → run false s ops = some s' := by
    intro ops
    induction ops with
    | nil => intro s s' h; exact h
    | cons o os ih =>
      intro s s' h
      obtain ⟨s₁, h1, h2⟩ := Option.bind_eq_some_iff.1 h
      show (step false s o).bind _ = _
      have : step false s o = some s₁ := by
        cases o with
        | init args =>
          simp only [step, initOp] at h1 ⊢
          split at h1
          · cases h1
          · exact h1
        | get => exact h1
        | release => exact h1
      rw [this]
      exact ih _ _ h2
  exact key ops _ _ hs

/-- Without assertions a second `Init` destroys the instance that `Get` has returned. -/
theorem C150_second_init_without_assertions (a b : A) : ∃ s, run false new [.init a, .get, .init b] = some s ∧
    (0, a) ∈ s.returned ∧ 0 ∈ s.destroyed := ⟨_, rfl, by simp [State.assign, new], by simp [State.assign, new]⟩

example : ∃ s : State Nat, run true new [.init 5, .get, .release, .init 7, .get, .get] = some s ∧
    s.returned = [(1, 7), (1, 7), (0, 5)] ∧ s.destroyed = [0] := ⟨_, rfl, rfl, rfl⟩

example : Protocol [Op.init 5, .get, .release, .init 7, .get] := (C150_assertions _).1 rfl

end PathPlanning.SingletonInit
