import Verif.Lemmas.Frontier

/-!
# C01, C02, C03: the keyed priority list `Frontier`
-/

namespace PathPlanning
open Spec

variable {T : Type} {cmp eqv : T → T → Bool}

namespace Frontier

/-- One call on a `Frontier` object, dispatching to the modelled member functions
(frontier.h:23-101). -/
def call (cmp eqv : T → T → Bool) (f : Frontier T) : Op T → Frontier T × Out T
  | .push x => let r := f.push cmp eqv x; (r.1, .pushed r.2.1 r.2.2)
  | .remove x => let r := f.remove cmp eqv x; (r.1, .removed r.2)
  | .pop => match f.pop eqv with
    | some (f', e) => (f', .elem e)
    | none => (f, .ub)
  | .top => match f.top with
    | some e => (f, .elem e)
    | none => (f, .ub)
  | .find x => (f, .found (f.find eqv x))
  | .size => (f, .size f.size)
  | .clear => (f.clear, .unit)

/-- What a caller observes during a history of calls. -/
def observe (cmp eqv : T → T → Bool) : Frontier T → List (Op T) → List (Out T)
  | _, [] => []
  | f, o :: os => (f.call cmp eqv o).2 :: observe cmp eqv (f.call cmp eqv o).1 os

/-- The container after a history of calls. -/
def after (cmp eqv : T → T → Bool) : Frontier T → List (Op T) → Frontier T
  | f, [] => f
  | f, o :: os => after cmp eqv (f.call cmp eqv o).1 os

theorem call_refines (h : StrictWeakOrder cmp) (he : KeyEquiv eqv) {f : Frontier T}
    {live : List T} (r : Repr cmp eqv f live) (o : Op T) :
    Repr cmp eqv (f.call cmp eqv o).1 (step cmp eqv live o).1 ∧
      (f.call cmp eqv o).2 = (step cmp eqv live o).2 := by
  cases o with
  | push x =>
    simp only [call, step]
    cases hl : live.find? (fun y => eqv y x) with
    | none =>
      obtain ⟨h1, h2⟩ := r.push_new h he hl
      exact ⟨h1, by rw [h2]⟩
    | some y =>
      rw [r.push_old he hl]
      exact ⟨r, rfl⟩
  | remove x =>
    obtain ⟨h1, h2⟩ := r.remove h he x
    exact ⟨h1, by simp only [call, step]; rw [h2]⟩
  | pop =>
    simp only [call, step]
    cases hb : best cmp live with
    | none => rw [r.pop_none h hb]; exact ⟨r, rfl⟩
    | some b =>
      obtain ⟨f', h1, h2⟩ := r.pop_some h he hb
      rw [h1]; exact ⟨h2, rfl⟩
  | top =>
    simp only [call, step]
    rw [r.top_eq h]
    cases hb : best cmp live <;> exact ⟨r, rfl⟩
  | find x =>
    refine ⟨r, ?_⟩
    simp only [call, step]
    rw [r.find_eq he]
  | size =>
    refine ⟨r, ?_⟩
    simp only [call, step, size]
    rw [r.vec_perm.length_eq]
  | clear => exact ⟨repr_empty, rfl⟩

theorem after_refines (h : StrictWeakOrder cmp) (he : KeyEquiv eqv) (ops : List (Op T)) :
    ∀ {f : Frontier T} {live : List T}, Repr cmp eqv f live →
      Repr cmp eqv (after cmp eqv f ops) (liveAfter cmp eqv live ops) ∧
      observe cmp eqv f ops = run cmp eqv live ops := by
  induction ops with
  | nil => intro f live r; exact ⟨r, rfl⟩
  | cons o os ih =>
    intro f live r
    obtain ⟨h1, h2⟩ := call_refines h he r o
    obtain ⟨h3, h4⟩ := ih h1
    exact ⟨h3, by simp only [observe, run]; rw [h2, h4]⟩

end Frontier

open Frontier

/-- C01. For every history of calls on a fresh `Frontier`, every observable result (the flag and
element of `Push`, the count of `Remove`, the elements of `Pop`/`Top`, `Find`, `Size`, undefined
behaviour on empty) is the one of the reference list of live elements. -/
theorem C01_frontier_refines_reference (h : StrictWeakOrder cmp) (he : KeyEquiv eqv)
    (ops : List (Op T)) :
    observe cmp eqv Frontier.empty ops = run cmp eqv [] ops :=
  (after_refines h he ops repr_empty).2

/-- C01. After any history the iterated elements have pairwise different keys, are exactly the
live elements, and `Find` succeeds exactly for keys of iterated elements. -/
theorem C01_frontier_one_element_per_key (h : StrictWeakOrder cmp) (he : KeyEquiv eqv)
    (ops : List (Op T)) :
    let f := after cmp eqv Frontier.empty ops
    f.vec.Pairwise (fun a b => eqv a b = false) ∧
    f.vec.Perm (liveAfter cmp eqv [] ops) ∧
    f.size = (liveAfter cmp eqv [] ops).length ∧
    ∀ x y, f.find eqv x = some y ↔ (y ∈ f.vec ∧ eqv y x = true) := by
  have r := (after_refines h he ops (f := Frontier.empty) repr_empty).1
  refine ⟨r.distinct.perm he r.vec_perm.symm, r.vec_perm, r.vec_perm.length_eq, ?_⟩
  intro x y
  rw [r.find_eq he]
  constructor
  · intro hf
    exact ⟨r.vec_perm.mem_iff.2 (List.mem_of_find?_eq_some hf), by simpa using List.find?_some hf⟩
  · rintro ⟨hy, hyx⟩
    have hy' := r.vec_perm.mem_iff.1 hy
    cases hf : (liveAfter cmp eqv [] ops).find? (fun z => eqv z x) with
    | none =>
      rw [List.find?_eq_none] at hf
      exact absurd hyx (by simpa using hf y hy')
    | some z =>
      have hz := List.mem_of_find?_eq_some hf
      have hzx : eqv z x = true := by simpa using List.find?_some hf
      rw [r.distinct.eq_of_mem he hz hy' (he.trans _ _ _ hzx (he.symm _ _ hyx))]

/-- The reference choice is a best element, and among equally ranked elements the most recently
inserted one. -/
theorem C02_best_is_last_inserted_best (h : StrictWeakOrder cmp) {live : List T} {b : T}
    (hb : best cmp live = some b) :
    ∃ older newer, live = older ++ b :: newer ∧ (∀ y ∈ live, cmp b y = false) ∧
      (∀ y ∈ newer, cmp y b = true) := by
  induction live using List.reverseRecOn generalizing b with
  | nil => cases hb
  | append_singleton l x ih =>
    rw [best_append] at hb
    cases hl : best cmp l with
    | none =>
      rw [hl] at hb
      simp only [Option.some.injEq] at hb
      subst hb
      have : l = [] := by
        cases l with
        | nil => rfl
        | cons a as => cases hl
      subst this
      exact ⟨[], [], rfl, by simp [h.irrefl], by simp⟩
    | some c =>
      rw [hl] at hb
      simp only at hb
      obtain ⟨o, n, h1, h2, h3⟩ := ih hl
      split at hb
      · rename_i hc
        cases hb
        refine ⟨o, n ++ [x], by rw [h1]; simp, ?_, ?_⟩
        · intro y hy
          rcases List.mem_append.1 hy with hy | hy
          · exact h2 y hy
          · simp at hy; subst hy; exact h.asymm hc
        · intro y hy
          rcases List.mem_append.1 hy with hy | hy
          · exact h3 y hy
          · simp at hy; subst hy; exact hc
      · rename_i hc
        cases hb
        refine ⟨l, [], rfl, ?_, by simp⟩
        intro y hy
        rcases List.mem_append.1 hy with hy | hy
        · exact h.negtrans (by simpa using hc) (h2 y hy)
        · simp at hy; subst hy; exact h.irrefl _

/-- C02. After any history, iteration order is sorted by `Compare`; `Top` and `Pop` return the same
element, a best live element and the most recently inserted one among ties; `Pop` removes exactly
that element and keeps the order of the others; both are undefined exactly when the container is
empty. -/
theorem C02_frontier_pop_best_lifo (h : StrictWeakOrder cmp) (he : KeyEquiv eqv)
    (ops : List (Op T)) :
    let f := after cmp eqv Frontier.empty ops
    let live := liveAfter cmp eqv [] ops
    f.vec.Pairwise (fun a b => cmp b a = false) ∧
    (f.pop eqv = none ↔ f.size = 0) ∧
    (∀ f' e, f.pop eqv = some (f', e) →
      f.top = some e ∧ f.vec = f'.vec ++ [e] ∧ (∀ y ∈ f.vec, cmp e y = false) ∧
      ∃ older newer, live = older ++ e :: newer ∧ ∀ y ∈ newer, cmp y e = true) := by
  have r := (after_refines h he ops (f := Frontier.empty) repr_empty).1
  refine ⟨r.sorted h, ?_, ?_⟩
  · unfold pop size
    cases hv : (after cmp eqv Frontier.empty ops).vec with
    | nil => simp
    | cons a as => simp [List.getLast?_cons]
  · intro f' e hp
    have htop : (after cmp eqv Frontier.empty ops).vec.getLast? = some e := by
      unfold pop at hp
      cases hl : (after cmp eqv Frontier.empty ops).vec.getLast? with
      | none => rw [hl] at hp; cases hp
      | some x => rw [hl] at hp; cases hp; rfl
    have hb : best cmp (liveAfter cmp eqv [] ops) = some e := by
      rw [← r.top_eq h]; exact htop
    obtain ⟨o, n, h1, h2, h3⟩ := C02_best_is_last_inserted_best h hb
    refine ⟨htop, ?_, ?_, o, n, h1, h3⟩
    · unfold pop at hp
      rw [htop] at hp
      cases hp
      exact (List.dropLast_append_getLast? e htop).symm
    · intro y hy
      exact h2 y (r.vec_perm.mem_iff.1 hy)

/-- C03. After any history, `Remove x` takes out exactly the iterated element whose key equals that
of `x`, whatever the rank of `x` is, keeping the others in order, and reports how many elements
were taken out (0 or 1). -/
theorem C03_frontier_remove_exact (h : StrictWeakOrder cmp) (he : KeyEquiv eqv)
    (ops : List (Op T)) (x : T) :
    let f := after cmp eqv Frontier.empty ops
    let r := f.remove cmp eqv x
    r.1.vec = f.vec.filter (fun y => !eqv y x) ∧
    r.1.set.Perm r.1.vec ∧
    (r.2 = 1 ∧ (∃ y ∈ f.vec, eqv y x = true) ∨ r.2 = 0 ∧ ¬ ∃ y ∈ f.vec, eqv y x = true) := by
  intro f rr
  have r := (after_refines h he ops (f := Frontier.empty) repr_empty).1
  obtain ⟨h1, h2⟩ := r.remove h he x
  refine ⟨?_, h1.set_perm.trans h1.vec_perm.symm, ?_⟩
  · show (Frontier.remove _ _ _ _).1.vec = _
    rw [h1.vec_eq, ← filter_sortStable h, ← r.vec_eq]
  · have h2' : rr.2 = _ := h2
    rw [h2', countP_distinct he r.distinct]
    cases hl : (liveAfter cmp eqv [] ops).find? (fun y => eqv y x) with
    | none =>
      right
      refine ⟨by simp, ?_⟩
      rintro ⟨y, hy, hyx⟩
      rw [List.find?_eq_none] at hl
      exact absurd hyx (by simpa using hl y (r.vec_perm.mem_iff.1 hy))
    | some y =>
      left
      exact ⟨by simp, y, r.vec_perm.mem_iff.2 (List.mem_of_find?_eq_some hl),
        by simpa using List.find?_some hl⟩

/-! ### Non-vacuity: elements are (key, cost) pairs, larger cost ranks lower, as in A*. -/

section Example

private def exCmp (a b : Nat × Nat) : Bool := decide (b.2 < a.2)
private def exEqv (a b : Nat × Nat) : Bool := decide (a.1 = b.1)

example : StrictWeakOrder exCmp :=
  ⟨by intro a; simp [exCmp], by intro a b c; simp [exCmp]; omega, by intro a b c; simp [exCmp]; omega⟩

example : KeyEquiv exEqv :=
  ⟨by intro a; simp [exEqv], by intro a b; simp [exEqv]; omega, by intro a b c; simp [exEqv]; omega⟩

/-- A history with a refused push, a removal through a different rank and a tie. -/
example : (after exCmp exEqv Frontier.empty
    [.push (1, 5), .push (2, 3), .push (1, 0), .push (3, 3), .remove (1, 9), .push (4, 7)]).vec
    = [(4, 7), (2, 3), (3, 3)] := by
  simp +decide [after, call, push, remove, eraseFrom, findFirstCompareIsFalse,
    findLastCompareIsTrue, ffLoop, flLoop, exEqv, Frontier.empty]

end Example

end PathPlanning
