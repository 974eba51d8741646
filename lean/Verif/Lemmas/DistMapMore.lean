import Verif.Lemmas.ObstDistMap
import Mathlib.Analysis.Complex.Norm
import Mathlib.Analysis.Real.Sqrt
import Mathlib.Tactic.Linarith

/-!
# Consequences of the invariant of distance maps
-/

namespace PathPlanning
open Spec

namespace DistMap

theorem Run.split {m m' : DistMap} {os os' : List Op} (r : Run m (os ++ os') m') :
    ∃ m1, Run m os m1 ∧ Run m1 os' m' := by
  induction os generalizing m with
  | nil => exact ⟨m, .nil, r⟩
  | cons o os ih =>
    cases r with
    | cons c r =>
      obtain ⟨m1, r1, r2⟩ := ih r
      exact ⟨m1, .cons c r1, r2⟩

theorem Run.last {m m' : DistMap} {os : List Op} (r : Run m (os ++ [.update]) m') :
    ∃ m1, Run m os m1 ∧ Update m1 m' := by
  obtain ⟨m1, r1, r2⟩ := r.split
  cases r2 with
  | cons c r2 =>
    cases r2
    cases c with
    | update u => exact ⟨m1, r1, u⟩

/-- A grid in which nothing is pending. -/
structure Settled (m : DistMap) (S : Set Cell) : Prop extends m.Inv S where
  empty : m.queue = []

theorem Run.settled {rows columns : Int} {os : List Op} {m : DistMap}
    (r : Run (.new rows columns) (os ++ [.update]) m) : m.Settled (obstacles os) := by
  obtain ⟨m1, r1, u⟩ := r.last
  have h := ((run_inv r1).1.update u).1
  exact ⟨h, u.2⟩

theorem Settled.local {m : DistMap} {S : Set Cell} (h : m.Settled S) {s n : Cell} (hs : m.inside s = true)
    (hn : m.inside n = true) (hadj : chebyshev s n = 1) (hv : (m.obst s).isValid = true) :
    m.dist n ≤ (squaredDistance (m.obst s) n : Nat) := by
  have hp : ∀ c, ¬ m.Pend c := by
    intro c hc
    have := hc.2
    rw [h.empty] at this
    simp [cnt] at this
  have hr : m.toRaise n = false := by
    cases hr : m.toRaise n with
    | false => rfl
    | true => exact absurd (h.raise n hn hr) (hp n)
  exact (h.loc s n hs ((mem_nbrs hs n).mpr ⟨hn, hadj⟩) hv hr).resolve_right (hp s)

/-- One step of a king from `c` towards `o`. -/
def toward (o c : Cell) : Cell := ⟨c.row + (o.row - c.row).sign, c.col + (o.col - c.col).sign⟩

theorem sign_cases (x : Int) : (x < 0 ∧ x.sign = -1) ∨ (x = 0 ∧ x.sign = 0) ∨ (0 < x ∧ x.sign = 1) := by
  rcases lt_trichotomy x 0 with h | h | h
  · exact Or.inl ⟨h, Int.sign_eq_neg_one_of_neg h⟩
  · exact Or.inr (Or.inl ⟨h, by rw [h]; rfl⟩)
  · exact Or.inr (Or.inr ⟨h, Int.sign_eq_one_of_pos h⟩)

theorem toward_inside {m : DistMap} {o c : Cell} (ho : m.inside o = true) (hc : m.inside c = true) :
    m.inside (toward o c) = true := by
  rw [inside_iff] at *
  unfold InRect toward at *
  dsimp only
  rcases sign_cases (o.row - c.row) with ⟨h1, h2⟩ | ⟨h1, h2⟩ | ⟨h1, h2⟩ <;>
    rcases sign_cases (o.col - c.col) with ⟨h3, h4⟩ | ⟨h3, h4⟩ | ⟨h3, h4⟩ <;>
    (rw [h2, h4]; omega)

theorem toward_adjacent {o c : Cell} (h : o ≠ c) : chebyshev (toward o c) c = 1 := by
  rw [chebyshev_eq_one]
  have : ¬ (o.row = c.row ∧ o.col = c.col) := fun h' => h (Cell.ext_iff.mpr h')
  unfold toward
  dsimp only
  rcases sign_cases (o.row - c.row) with ⟨h1, h2⟩ | ⟨h1, h2⟩ | ⟨h1, h2⟩ <;>
    rcases sign_cases (o.col - c.col) with ⟨h3, h4⟩ | ⟨h3, h4⟩ | ⟨h3, h4⟩ <;>
    (rw [h2, h4]; omega)

theorem toward_nearer {o c : Cell} (h : o ≠ c) : chebyshev o (toward o c) < chebyshev o c := by
  have hne : ¬ (o.row = c.row ∧ o.col = c.col) := fun h' => h (Cell.ext_iff.mpr h')
  unfold chebyshev toward
  dsimp only
  have e1 := abs_eq_max_neg (a := o.row - c.row)
  have e2 := abs_eq_max_neg (a := o.col - c.col)
  rcases sign_cases (o.row - c.row) with ⟨h1, h2⟩ | ⟨h1, h2⟩ | ⟨h1, h2⟩ <;>
    rcases sign_cases (o.col - c.col) with ⟨h3, h4⟩ | ⟨h3, h4⟩ | ⟨h3, h4⟩ <;>
    (rw [h2, h4]
     have e3 := abs_eq_max_neg (a := o.row - (c.row + (o.row - c.row).sign))
     have e4 := abs_eq_max_neg (a := o.col - (c.col + (o.col - c.col).sign))
     rw [h2] at e3; rw [h4] at e4
     omega)

theorem Settled.finite {m : DistMap} {S : Set Cell} (h : m.Settled S) {o c : Cell} (ho : o ∈ S)
    (hc : m.inside c = true) : m.dist c ≠ ⊤ := by
  have hoin := h.sub o ho
  obtain ⟨k, hk⟩ : ∃ k : Nat, (chebyshev o c).toNat = k := ⟨_, rfl⟩
  induction k using Nat.strong_induction_on generalizing c with
  | _ k ih =>
    by_cases hoc : o = c
    · subst hoc
      rw [h.dist_self hc ((h.self o hc).mpr ho)]
      exact WithTop.coe_ne_top (a := 0)
    · have hin := toward_inside hoin hc
      have hlt := toward_nearer hoc
      have h0 : 0 ≤ chebyshev o (toward o c) := le_max_of_le_left (abs_nonneg _)
      have hf := ih _ (by omega) hin rfl
      have hv : (m.obst (toward o c)).isValid = true := by
        rcases h.exact _ hin with ⟨_, h2⟩ | ⟨h2, _⟩
        · exact absurd h2 hf
        · exact inside_valid h2
      have := h.local hin hc (toward_adjacent hoc) hv
      intro htop
      rw [htop, top_le_iff] at this
      exact WithTop.coe_ne_top this

/-! ## The octile bound -/

/-- The length of a shortest king walk. -/
noncomputable def octile (a b : Cell) : ℝ :=
  (√2 - 1) * (min |a.row - b.row| |a.col - b.col| : Int) + (max |a.row - b.row| |a.col - b.col| : Int)

/-- A cell as a complex number. -/
noncomputable def toC (c : Cell) : ℂ := ⟨(c.row : ℝ), (c.col : ℝ)⟩

theorem norm_toC (a b : Cell) : ‖toC a - toC b‖ = √((squaredDistance a b : Nat) : ℝ) := by
  have h := sq_cast a b
  rw [Complex.norm_def, Complex.normSq_apply]
  congr 1
  have h2 : ((squaredDistance a b : Nat) : ℝ) = ((sqDist a b : Int) : ℝ) := by
    rw [← h]; push_cast; rfl
  rw [h2]
  unfold sqDist toC
  simp only [Complex.sub_re, Complex.sub_im]
  push_cast
  ring

theorem sqrt_triangle (a b c : Cell) : √((squaredDistance a c : Nat) : ℝ) ≤
    √((squaredDistance a b : Nat) : ℝ) + √((squaredDistance b c : Nat) : ℝ) := by
  rw [← norm_toC, ← norm_toC, ← norm_toC]
  exact norm_sub_le_norm_sub_add_norm_sub _ _ _

theorem octile_step {o c : Cell} (h : o ≠ c) :
    octile o (toward o c) + √((squaredDistance (toward o c) c : Nat) : ℝ) ≤ octile o c := by
  have hne : ¬ (o.row = c.row ∧ o.col = c.col) := fun h' => h (Cell.ext_iff.mpr h')
  have hsq : (squaredDistance (toward o c) c = 1 ∧
      min |o.row - (toward o c).row| |o.col - (toward o c).col| = min |o.row - c.row| |o.col - c.col|) ∨
      (squaredDistance (toward o c) c = 2 ∧
      min |o.row - (toward o c).row| |o.col - (toward o c).col| + 1 = min |o.row - c.row| |o.col - c.col|) := by
    have hc : ((squaredDistance (toward o c) c : Nat) : Int) =
        (o.row - c.row).sign ^ 2 + (o.col - c.col).sign ^ 2 := by
      rw [sq_cast]; unfold sqDist toward; ring
    generalize squaredDistance (toward o c) c = q at hc ⊢
    unfold toward
    dsimp only
    have e1 := abs_eq_max_neg (a := o.row - c.row)
    have e2 := abs_eq_max_neg (a := o.col - c.col)
    rcases sign_cases (o.row - c.row) with ⟨h1, h2⟩ | ⟨h1, h2⟩ | ⟨h1, h2⟩ <;>
      rcases sign_cases (o.col - c.col) with ⟨h3, h4⟩ | ⟨h3, h4⟩ | ⟨h3, h4⟩ <;>
      (rw [h2, h4] at hc ⊢
       have e3 := abs_eq_max_neg (a := o.row - (c.row + (o.row - c.row).sign))
       have e4 := abs_eq_max_neg (a := o.col - (c.col + (o.col - c.col).sign))
       rw [h2] at e3; rw [h4] at e4
       first
         | (exfalso; omega)
         | (left; constructor <;> omega)
         | (right; constructor <;> omega))
  have hmax : max |o.row - (toward o c).row| |o.col - (toward o c).col| + 1 = max |o.row - c.row| |o.col - c.col| := by
    have hlt := toward_nearer h
    have hadj := toward_adjacent h
    rw [chebyshev_eq_one] at hadj
    unfold chebyshev at hlt
    have e1 := abs_eq_max_neg (a := o.row - c.row)
    have e2 := abs_eq_max_neg (a := o.col - c.col)
    have e3 := abs_eq_max_neg (a := o.row - (toward o c).row)
    have e4 := abs_eq_max_neg (a := o.col - (toward o c).col)
    omega
  unfold octile
  rw [← hmax]
  rcases hsq with ⟨h1, h2⟩ | ⟨h1, h2⟩
  · rw [h1, h2]
    push_cast
    rw [Real.sqrt_one]
    linarith
  · rw [h1, ← h2]
    push_cast
    have : √2 = √(2 : ℝ) := rfl
    linarith

theorem Settled.octile {m : DistMap} {S : Set Cell} (h : m.Settled S) {o c : Cell} (ho : o ∈ S)
    (hc : m.inside c = true) : ∃ d : Nat, m.dist c = d ∧ √(d : ℝ) ≤ octile o c := by
  have hoin := h.sub o ho
  obtain ⟨k, hk⟩ : ∃ k : Nat, (chebyshev o c).toNat = k := ⟨_, rfl⟩
  induction k using Nat.strong_induction_on generalizing c with
  | _ k ih =>
    by_cases hoc : o = c
    · subst hoc
      refine ⟨0, ?_, ?_⟩
      · rw [h.dist_self hc ((h.self o hc).mpr ho)]; rfl
      · simp [DistMap.octile]
    · have hin := toward_inside hoin hc
      have hlt := toward_nearer hoc
      have h0 : 0 ≤ chebyshev o (toward o c) := le_max_of_le_left (abs_nonneg _)
      obtain ⟨d', hd', hle'⟩ := ih _ (by omega) hin rfl
      have hfin := h.finite ho hc
      rcases h.exact _ hin with ⟨_, h2⟩ | ⟨h2, h3⟩
      · rw [h2] at hd'; exact absurd hd'.symm WithTop.coe_ne_top
      · have hloc := h.local hin hc (toward_adjacent hoc) (inside_valid h2)
        obtain ⟨d, hd⟩ := WithTop.ne_top_iff_exists.mp hfin
        refine ⟨d, hd.symm, ?_⟩
        rw [← hd] at hloc
        have hloc : d ≤ squaredDistance (m.obst (toward o c)) c := WithTop.coe_le_coe.mp hloc
        have hd2 : squaredDistance (m.obst (toward o c)) (toward o c) = d' :=
          WithTop.coe_injective (h3.symm.trans hd')
        have t := sqrt_triangle (m.obst (toward o c)) (toward o c) c
        rw [hd2] at t
        have : √(d : ℝ) ≤ √((squaredDistance (m.obst (toward o c)) c : Nat) : ℝ) :=
          Real.sqrt_le_sqrt (by exact_mod_cast hloc)
        have := octile_step hoc
        linarith

theorem octile_sq_le (o c : Cell) : octile o c ^ 2 ≤ (4 - 2 * √2) * ((sqDist o c : Int) : ℝ) := by
  have hs : √2 ^ 2 = (2 : ℝ) := Real.sq_sqrt (by norm_num)
  obtain ⟨a, ha⟩ : ∃ a : ℝ, a = ((min |o.row - c.row| |o.col - c.col| : Int) : ℝ) := ⟨_, rfl⟩
  obtain ⟨b, hb⟩ : ∃ b : ℝ, b = ((max |o.row - c.row| |o.col - c.col| : Int) : ℝ) := ⟨_, rfl⟩
  have hab : ((sqDist o c : Int) : ℝ) = a ^ 2 + b ^ 2 := by
    rw [ha, hb]
    have : sqDist o c = (min |o.row - c.row| |o.col - c.col|) ^ 2 + (max |o.row - c.row| |o.col - c.col|) ^ 2 := by
      unfold sqDist
      rcases le_total |o.row - c.row| |o.col - c.col| with h | h
      · rw [min_eq_left h, max_eq_right h, sq_abs, sq_abs]
      · rw [min_eq_right h, max_eq_left h, sq_abs, sq_abs]; ring
    rw [this]; push_cast; ring
  unfold octile
  rw [hab, ← ha, ← hb]
  have h := sq_nonneg (a - (√2 - 1) * b)
  have e1 : ((√2 - 1) * a + b) ^ 2 + (a - (√2 - 1) * b) ^ 2 = ((√2) ^ 2 - 2 * √2 + 2) * (a ^ 2 + b ^ 2) := by ring
  rw [hs] at e1
  nlinarith [e1, h]

/-! ## Histories without removal -/

/-- Every reported obstacle is one, and nothing is being raised. -/
structure Fresh (m : DistMap) (S : Set Cell) : Prop where
  real : ∀ c, m.inside c = true → (m.obst c).isValid = true → m.obst c ∈ S
  quiet : ∀ c, m.toRaise c = false

theorem Fresh.effect {m : DistMap} {S : Set Cell} (h : m.Fresh S) {s : Cell} (hs : m.inside s = true) {m' : DistMap}
    (ef : Effect m s m') : m'.Fresh S := by
  cases ef with
  | idle => exact h
  | stale => exact h
  | raise _ hr => rw [h.quiet] at hr; cases hr
  | lower hp hr ho sp =>
    refine ⟨?_, ?_⟩
    · intro c hc hv
      rw [inside_congr sp.rows sp.columns] at hc
      by_cases hi : Improved { m with toProcess := setAt m.toProcess s false } (m.obst s) (m.nbrs s) c
      · rw [(sp.imp c hi).2.1] at hv ⊢
        exact h.real s hs hv
      · rw [(sp.keep c hi).2.1] at hv ⊢
        exact h.real c hc hv
    · intro c; rw [sp.toRaise]; exact h.quiet c

theorem Fresh.steps {m m' : DistMap} {S : Set Cell} (hi : m.Inv S) (h : m.Fresh S)
    (st : Relation.ReflTransGen Step m m') : m'.Fresh S := by
  induction st with
  | refl => exact h
  | tail st1 st ih =>
    have hi1 := hi.steps st1
    obtain ⟨e, he, ef⟩ := hi1.step st
    have h1 : DistMap.Fresh _ S := ih
    exact Fresh.effect (m := DistMap.pop _ e) ⟨h1.real, h1.quiet⟩ (hi1.qin e he) ef

theorem fresh_run {rows columns : Int} {os : List Op} {m : DistMap} (r : Run (.new rows columns) os m)
    (hn : NoUnset os) : m.Fresh (obstacles os) := by
  induction os using List.reverseRecOn generalizing m with
  | nil =>
    cases r
    refine ⟨?_, fun _ => rfl⟩
    intro c _ hv; cases hv
  | append_singleton os o ih =>
    obtain ⟨m1, r1, r2⟩ := r.split
    have hn1 : NoUnset os := fun s hs => hn s (List.mem_append_left _ hs)
    have h1 := ih r1 hn1
    rw [ObstDistMap.obstacles_append]
    cases r2 with
    | cons c r2 =>
      cases r2
      cases c with
      | set hs =>
        rename_i s
        unfold DistMap.set at hs
        split at hs
        · cases hs
          refine ⟨?_, h1.quiet⟩
          intro c hc hv
          by_cases hcs : c = s
          · right; show setAt m1.obst s s c = s; rw [hcs, setAt_same]
          · left
            have e : setAt m1.obst s s c = m1.obst c := setAt_ne _ _ hcs
            show setAt m1.obst s s c ∈ obstacles os
            have hv : (setAt m1.obst s s c).isValid = true := hv
            rw [e] at hv ⊢
            exact h1.real c hc hv
        · cases hs
      | unset hs => exact absurd (List.mem_append_right _ (List.mem_singleton.mpr rfl)) (hn _)
      | update u => exact h1.steps (run_inv r1).1 u.1

/-! ## Existence of executions -/

theorem exists_run {rows columns : Int} (os : List Op) (h : ∀ o ∈ os, OpIn rows columns o) :
    ∃ m, Run (.new rows columns) os m := by
  induction os using List.reverseRecOn with
  | nil => exact ⟨_, .nil⟩
  | append_singleton os o ih =>
    obtain ⟨m, r⟩ := ih (fun o ho => h o (List.mem_append_left _ ho))
    have hz := run_size r
    have ho := h o (List.mem_append_right _ (List.mem_singleton.mpr rfl))
    have hin : ∀ s, InRect rows columns s → m.inside s = true := by
      intro s hs; rw [inside_iff, hz.1, hz.2]; exact hs
    cases o with
    | set s => obtain ⟨m', h', -⟩ := set_in (hin s ho); exact ⟨m', r.append (.cons (.set h') .nil)⟩
    | unset s => obtain ⟨m', h', -⟩ := unset_in (hin s ho); exact ⟨m', r.append (.cons (.unset h') .nil)⟩
    | update => obtain ⟨m', u⟩ := (run_inv r).1.exists_update; exact ⟨m', r.append (.cons (.update u) .nil)⟩

/-! ## Cells that report an obstacle next to them -/

/-- Cells next to a removed obstacle do not report it, unless it waits to be raised. -/
structure NearOk (m : DistMap) (S : Set Cell) : Prop where
  near : ∀ c, m.inside c = true → m.inside (m.obst c) = true → m.obst c ∉ S → chebyshev (m.obst c) c = 1 →
    m.toRaise (m.obst c) = true
  own : ∀ c, m.inside c = true → m.toRaise c = true → m.obst c = Cell.invalid ∨ m.obst c = c

theorem NearOk.effect {m : DistMap} {S : Set Cell} (hi : ∀ c, m.inside c = true → (m.Occ c ↔ c ∈ S)) (hb : m.Bd)
    (h : m.NearOk S) {s : Cell} (hs : m.inside s = true) {m' : DistMap} (ef : Effect m s m') : m'.NearOk S := by
  cases ef with
  | idle => exact h
  | stale => exact h
  | raise hp hr sp =>
    rename_i m1
    have hin : ∀ c, m1.inside c = m.inside c := inside_congr sp.rows sp.columns
    refine ⟨?_, ?_⟩
    · intro c hc hoc hS hadj
      have hc : m.inside c = true := by rw [← hin]; exact hc
      have hoc : m1.inside (m1.obst c) = true := hoc
      have hS : m1.obst c ∉ S := hS
      have hadj : chebyshev (m1.obst c) c = 1 := hadj
      show setAt m1.toRaise s false (m1.obst c) = true
      rw [hin] at hoc
      have hncl : ¬ m.Cleared (m.nbrs s) c := by
        intro hcl
        have := (sp.clr c hcl).2.1
        rw [this] at hoc
        have := inside_valid hoc
        cases this
      obtain ⟨k1, k2, k3⟩ := sp.keep c hncl
      rw [k2] at hoc hS hadj ⊢
      have hrz := h.near c hc hoc hS hadj
      have hnocc : ¬ m.Occ (m.obst c) := fun h' => hS ((hi _ hoc).mp h')
      have hos : m.obst c ≠ s := by
        intro hos
        apply hncl
        refine ⟨⟨?_, inside_valid hoc, ?_⟩, hnocc⟩
        · rw [← hos]; exact (mem_nbrs hoc c).mpr ⟨hc, hadj⟩
        · cases hrc : m.toRaise c with
          | false => rfl
          | true =>
            rcases h.own c hc hrc with h1 | h1
            · rw [h1] at hoc; have := inside_valid hoc; cases this
            · exact absurd ⟨by rw [h1]; exact inside_valid hc, by rw [h1]; exact h1⟩ hnocc
      rw [setAt_ne _ _ hos]
      by_cases hcl : m.Cleared (m.nbrs s) (m.obst c)
      · exact (sp.clr _ hcl).2.2
      · rw [(sp.keep _ hcl).2.2]; exact hrz
    · intro c hc hrc
      have hc : m.inside c = true := by rw [← hin]; exact hc
      have hrc : setAt m1.toRaise s false c = true := hrc
      show m1.obst c = _ ∨ m1.obst c = c
      by_cases hcl : m.Cleared (m.nbrs s) c
      · exact Or.inl (sp.clr c hcl).2.1
      · obtain ⟨k1, k2, k3⟩ := sp.keep c hcl
        rw [k2]
        apply h.own c hc
        rw [← k3]
        by_cases hcs : c = s
        · rw [hcs, setAt_same] at hrc; cases hrc
        · rwa [setAt_ne _ _ hcs] at hrc
  | lower hp hr ho sp =>
    have hin : ∀ c, m'.inside c = m.inside c := inside_congr sp.rows sp.columns
    have hos : m.inside (m.obst s) = true := hb s hs ho.1
    refine ⟨?_, ?_⟩
    · intro c hc hoc hS hadj
      rw [hin] at hc hoc
      rw [sp.toRaise]
      by_cases him : Improved { m with toProcess := setAt m.toProcess s false } (m.obst s) (m.nbrs s) c
      · rw [(sp.imp c him).2.1] at hS
        exact absurd ((hi _ hos).mp ho) hS
      · have hk : m'.obst c = m.obst c := (sp.keep c him).2.1
        rw [hk] at hoc hS hadj ⊢
        exact h.near c hc hoc hS hadj
    · intro c hc hrc
      rw [hin] at hc
      rw [sp.toRaise] at hrc
      by_cases him : Improved { m with toProcess := setAt m.toProcess s false } (m.obst s) (m.nbrs s) c
      · have : m.toRaise c = false := him.2.1
        have hrc : m.toRaise c = true := hrc
        rw [this] at hrc; cases hrc
      · have hk : m'.obst c = m.obst c := (sp.keep c him).2.1
        rw [hk]
        exact h.own c hc hrc

theorem nearOk_run {rows columns : Int} {os : List Op} {m : DistMap} (r : Run (.new rows columns) os m) :
    m.NearOk (obstacles os) := by
  induction os using List.reverseRecOn generalizing m with
  | nil =>
    cases r
    refine ⟨?_, ?_⟩
    · intro c hc hoc; have := inside_valid hoc; cases this
    · intro c hc hr; cases hr
  | append_singleton os o ih =>
    obtain ⟨m1, r1, r2⟩ := r.split
    have h1 := ih r1
    have hi1 := (run_inv r1).1
    rw [ObstDistMap.obstacles_append]
    cases r2 with
    | cons c r2 =>
      cases r2
      cases c with
      | set hs =>
        rename_i s
        unfold DistMap.set at hs
        split at hs
        · cases hs
          refine ⟨?_, ?_⟩
          · intro c hc hoc hS hadj
            have hoc : m1.inside (setAt m1.obst s s c) = true := hoc
            have hS : ¬ (setAt m1.obst s s c ∈ obstacles os ∨ setAt m1.obst s s c = s) := hS
            have hadj : chebyshev (setAt m1.obst s s c) c = 1 := hadj
            show m1.toRaise (setAt m1.obst s s c) = true
            by_cases hcs : c = s
            · rw [hcs, setAt_same] at hS; exact absurd (Or.inr rfl) hS
            · rw [setAt_ne _ _ hcs] at hoc hS hadj ⊢
              exact h1.near c hc hoc (fun h => hS (Or.inl h)) hadj
          · intro c hc hrc
            show setAt m1.obst s s c = _ ∨ setAt m1.obst s s c = c
            by_cases hcs : c = s
            · right; rw [hcs, setAt_same]
            · rw [setAt_ne _ _ hcs]; exact h1.own c hc hrc
        · cases hs
      | unset hs =>
        rename_i s
        unfold DistMap.unset at hs
        split at hs
        · cases hs
          refine ⟨?_, ?_⟩
          · intro c hc hoc hS hadj
            have hoc : m1.inside (setAt m1.obst s Cell.invalid c) = true := hoc
            have hS : ¬ (setAt m1.obst s Cell.invalid c ∈ obstacles os ∧ setAt m1.obst s Cell.invalid c ≠ s) := hS
            have hadj : chebyshev (setAt m1.obst s Cell.invalid c) c = 1 := hadj
            show setAt m1.toRaise s true (setAt m1.obst s Cell.invalid c) = true
            by_cases hcs : c = s
            · rw [hcs, setAt_same] at hoc; have := inside_valid hoc; cases this
            · rw [setAt_ne _ _ hcs] at hoc hS hadj ⊢
              by_cases hos : m1.obst c = s
              · rw [hos, setAt_same]
              · rw [setAt_ne _ _ hos]
                exact h1.near c hc hoc (fun h => hS ⟨h, hos⟩) hadj
          · intro c hc hrc
            have hrc : setAt m1.toRaise s true c = true := hrc
            show setAt m1.obst s Cell.invalid c = _ ∨ setAt m1.obst s Cell.invalid c = c
            by_cases hcs : c = s
            · left; rw [hcs, setAt_same]
            · rw [setAt_ne _ _ hcs]
              rw [setAt_ne _ _ hcs] at hrc
              exact h1.own c hc hrc
        · cases hs
      | update u =>
        obtain ⟨st, -⟩ := u
        clear r
        induction st with
        | refl => exact h1
        | tail st1 st ih2 =>
          have hi2 := hi1.steps st1
          obtain ⟨e, he, ef⟩ := hi2.step st
          have h2 : DistMap.NearOk _ (obstacles os) := ih2
          refine NearOk.effect (m := DistMap.pop _ e) ?_ hi2.bd ⟨h2.near, h2.own⟩ (hi2.qin e he) ef
          intro c hc
          exact hi2.occ hc

end DistMap
end PathPlanning
