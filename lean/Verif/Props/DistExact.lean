import Verif.Props.DistMap
import Verif.Props.ValidatorMore
import Mathlib.Data.Int.Lemmas

/-!
# C38, C70: obstacles around which the reported distances are exact

The propagation hands an obstacle from a cell to the cells next to it. It is therefore exact as soon as, from
every cell, a step of a king towards a nearest obstacle leads to a cell where that obstacle is nearer than all
others.
-/

namespace PathPlanning
open Spec

/-- From every free cell of the map there is a step that comes closer to a nearest obstacle, to a cell where
this obstacle is the only nearest one. -/
def Spec.Handed (rows columns : Int) (S : Set Cell) : Prop :=
  ∀ c, InRect rows columns c → c ∉ S →
    ∃ o ∈ S, (∀ q ∈ S, sqDist o c ≤ sqDist q c) ∧
      ∃ n, InRect rows columns n ∧ |n.row - c.row| ≤ 1 ∧ |n.col - c.col| ≤ 1 ∧ sqDist o n < sqDist o c ∧
        ∀ q ∈ S, q ≠ o → sqDist o n < sqDist q n

/-- The cells on the sides of the rectangle with the corners `a` and `b`. -/
def Spec.OnSides (a b : Cell) (c : Cell) : Prop :=
  a.row ≤ c.row ∧ c.row ≤ b.row ∧ a.col ≤ c.col ∧ c.col ≤ b.col ∧
    (c.row = a.row ∨ c.row = b.row ∨ c.col = a.col ∨ c.col = b.col)

private theorem sqDist_nonneg (a b : Cell) : 0 ≤ sqDist a b := by unfold sqDist; positivity

private theorem sqDist_self (a : Cell) : sqDist a a = 0 := by unfold sqDist; ring

private theorem ne_of_closer {o n c : Cell} (h : sqDist o n < sqDist o c) : n ≠ c := by
  rintro rfl; exact lt_irrefl _ h

private theorem adjacent {n c : Cell} (h1 : |n.row - c.row| ≤ 1) (h2 : |n.col - c.col| ≤ 1) (h : n ≠ c) :
    chebyshev n c = 1 := by
  rw [chebyshev_eq_one]
  have : ¬ (n.row = c.row ∧ n.col = c.col) := fun h' => h (Cell.ext_iff.mpr h')
  rw [abs_le] at h1 h2
  omega

/-- Where the obstacle is the only nearest one, it is reported. -/
private theorem handed_label {rows columns : Int} {m : DistMap} {S : Set Cell} (hr : m.rows = rows)
    (hc : m.columns = columns) (h : m.Settled S)
    (real : ∀ c, m.inside c = true → (m.obst c).isValid = true → m.obst c ∈ S)
    (hS : Handed rows columns S) {o : Cell} (ho : o ∈ S) :
    ∀ (k : Nat) (c : Cell), (sqDist o c).toNat = k → m.inside c = true →
      (∀ q ∈ S, q ≠ o → sqDist o c < sqDist q c) → m.obst c = o := by
  intro k
  induction k using Nat.strong_induction_on with
  | _ k ih =>
    intro c hk hin hnear
    by_cases hcS : c ∈ S
    · have : c = o := by
        by_contra hne
        have := hnear c hcS hne
        rw [sqDist_self] at this
        exact absurd this (not_lt.mpr (sqDist_nonneg _ _))
      subst this
      exact (h.self c hin).mpr hcS
    · obtain ⟨o', ho', hmin, n, hn, h1, h2, hlt, hnn⟩ := hS c (by rw [← hr, ← hc]; exact DistMap.inside_iff.mp hin) hcS
      have : o' = o := by
        by_contra hne
        exact absurd (hnear o' ho' hne) (not_lt.mpr (hmin o ho))
      subst this
      have hnin : m.inside n = true := by rw [DistMap.inside_iff, hr, hc]; exact hn
      have hob : m.obst n = o' := ih _ (by have := sqDist_nonneg o' n; omega) n rfl hnin hnn
      have hle := h.local hnin hin (adjacent h1 h2 (ne_of_closer hlt))
        (by rw [hob]; exact DistMap.inside_valid (h.sub o' ho'))
      rw [hob] at hle
      rcases h.exact c hin with ⟨_, h2⟩ | ⟨h1, h2⟩
      · rw [h2, top_le_iff] at hle; exact absurd hle WithTop.coe_ne_top
      · by_contra hne
        have hq := real c hin (DistMap.inside_valid h1)
        have h3 := hnear _ hq hne
        rw [h2] at hle
        have hle : squaredDistance (m.obst c) c ≤ squaredDistance o' c := WithTop.coe_le_coe.mp hle
        rw [← sq_cast, ← sq_cast] at h3
        omega

/-- C38 for the obstacles the propagation hands on from cell to cell: the distance reported is that to a
nearest obstacle. Missing: other obstacles, for which it need not be (`C38_not_the_nearest`), and removals. -/
theorem C38_handed_partial {rows columns : Int} {ops : List DistMap.Op} {m : DistMap}
    (r : DistMap.Run (.new rows columns) (ops ++ [.update]) m) (hn : NoUnset ops)
    (hS : Handed rows columns (obstacles ops)) (c : Cell) (hc : InRect rows columns c) :
    ∃ o ∈ obstacles ops, m.dist c = ((sqDist o c).toNat : Nat) ∧ ∀ q ∈ obstacles ops, sqDist o c ≤ sqDist q c := by
  obtain ⟨e1, e2⟩ := DistMap.run_size r
  have h := r.settled
  have hn' : NoUnset (ops ++ [.update]) := by
    intro s hs
    rcases List.mem_append.mp hs with h | h
    · exact hn s h
    · simp at h
  have real := (DistMap.fresh_run r hn').real
  rw [ObstDistMap.obstacles_append] at real
  have hin : m.inside c = true := by rw [DistMap.inside_iff, e1, e2]; exact hc
  by_cases hcS : c ∈ obstacles ops
  · refine ⟨c, hcS, ?_, fun q _ => by rw [sqDist_self]; exact sqDist_nonneg _ _⟩
    rw [sqDist_self, h.dist_self hin ((h.self c hin).mpr hcS)]
    rfl
  · obtain ⟨o, ho, hmin, n, hnr, h1, h2, hlt, hnn⟩ := hS c hc hcS
    refine ⟨o, ho, ?_, hmin⟩
    have hnin : m.inside n = true := by rw [DistMap.inside_iff, e1, e2]; exact hnr
    have hob := handed_label e1 e2 h real hS ho _ n rfl hnin hnn
    have hle := h.local hnin hin (adjacent h1 h2 (ne_of_closer hlt))
      (by rw [hob]; exact DistMap.inside_valid (h.sub o ho))
    rw [hob] at hle
    rcases h.exact c hin with ⟨_, h2⟩ | ⟨h1, h2⟩
    · rw [h2, top_le_iff] at hle; exact absurd hle WithTop.coe_ne_top
    · have hq := hmin _ (real c hin (DistMap.inside_valid h1))
      rw [h2] at hle ⊢
      have hle : squaredDistance (m.obst c) c ≤ squaredDistance o c := WithTop.coe_le_coe.mp hle
      rw [← sq_cast] at hq ⊢
      rw [← sq_cast (m.obst c)] at hq
      have : squaredDistance (m.obst c) c = squaredDistance o c := by omega
      rw [this]
      simp

/-! ## The sides of a rectangle -/

/-- A step along an axis towards an interval. -/
private theorem interval_step {a b x k : Int} (hab : a ≤ b) (hk : k = max a (min b x)) :
    let y := x + (k - x).sign
    (a ≤ k ∧ k ≤ b) ∧ |y - x| ≤ 1 ∧ (k - y) ^ 2 ≤ (k - x) ^ 2 ∧ (x ≠ k → (k - y) ^ 2 < (k - x) ^ 2) ∧
      (∀ q, a ≤ q → q ≤ b → (k - y) ^ 2 + (k - q) ^ 2 ≤ (q - y) ^ 2) ∧
      ∀ q, a ≤ q → q ≤ b → (k - x) ^ 2 ≤ (q - x) ^ 2 := by
  rcases DistMap.sign_cases (k - x) with ⟨h1, h2⟩ | ⟨h1, h2⟩ | ⟨h1, h2⟩
  · have hb : k = b := by omega
    rw [h2]
    subst hb
    refine ⟨by omega, by rw [abs_le]; omega, by nlinarith, fun _ => by nlinarith, fun q _ hq => ?_, fun q _ hq => ?_⟩
    · nlinarith [mul_nonneg (sub_nonneg.mpr hq) (by omega : 0 ≤ x + -1 - k)]
    · nlinarith
  · have : k = x := by omega
    subst this
    rw [h2]
    refine ⟨by omega, by rw [abs_le]; omega, by simp, fun h => absurd rfl h, fun q _ _ => le_of_eq (by ring),
      fun q _ _ => by nlinarith [sq_nonneg (q - k)]⟩
  · have ha : k = a := by omega
    rw [h2]
    subst ha
    refine ⟨by omega, by rw [abs_le]; omega, by nlinarith, fun _ => by nlinarith, fun q hq _ => ?_, fun q hq _ => ?_⟩
    · nlinarith [mul_nonneg (sub_nonneg.mpr hq) (by omega : 0 ≤ k - (x + 1))]
    · nlinarith

private theorem sum_le {x z v w : Int} (h : x.natAbs ≤ v.natAbs ∧ z = 0 ∨ x.natAbs ≤ w.natAbs ∧ z = 0) :
    x ^ 2 + z ^ 2 ≤ v ^ 2 + w ^ 2 ∧ z ^ 2 + x ^ 2 ≤ v ^ 2 + w ^ 2 := by
  rcases h with ⟨h, rfl⟩ | ⟨h, rfl⟩ <;> have := Int.natAbs_le_iff_sq_le.mp h <;>
    constructor <;> linarith [sq_nonneg v, sq_nonneg w]

private theorem sum_lt {x z v w : Int}
    (h : z = 0 ∧ (x.natAbs < v.natAbs ∨ x.natAbs < w.natAbs ∨ x = v ∧ w ≠ 0 ∨ x = w ∧ v ≠ 0)) :
    x ^ 2 + z ^ 2 < v ^ 2 + w ^ 2 ∧ z ^ 2 + x ^ 2 < v ^ 2 + w ^ 2 := by
  obtain ⟨rfl, h | h | ⟨rfl, h⟩ | ⟨rfl, h⟩⟩ := h
  · have := Int.natAbs_lt_iff_sq_lt.mp h
    constructor <;> linarith [sq_nonneg v, sq_nonneg w]
  · have := Int.natAbs_lt_iff_sq_lt.mp h
    constructor <;> linarith [sq_nonneg v, sq_nonneg w]
  all_goals
    have := pow_pos (abs_pos.mpr h) 2
    rw [sq_abs] at this
    constructor <;> linarith

private theorem sides_handed {rows columns : Int} {a b : Cell} (ha : InRect rows columns a)
    (hb : InRect rows columns b) (h1 : a.row ≤ b.row) (h2 : a.col ≤ b.col) :
    Handed rows columns {c | OnSides a b c} := by
  intro c hc hcS
  simp only [Set.mem_ofPred_eq] at hcS ⊢
  by_cases hout : c.row < a.row ∨ b.row < c.row ∨ c.col < a.col ∨ b.col < c.col
  · obtain ⟨k, hk⟩ : ∃ k, k = max a.row (min b.row c.row) := ⟨_, rfl⟩
    obtain ⟨l, hl⟩ : ∃ l, l = max a.col (min b.col c.col) := ⟨_, rfl⟩
    obtain ⟨⟨r1, r2⟩, r3, r4, r5, r6, r7⟩ := interval_step h1 hk
    obtain ⟨⟨c1, c2⟩, c3, c4, c5, c6, c7⟩ := interval_step h2 hl
    have hin := DistMap.toward_inside (m := .new rows columns) (o := ⟨k, l⟩) (c := c)
      (by rw [DistMap.inside_iff]; unfold InRect at *; dsimp only [DistMap.new]; omega)
      (by rw [DistMap.inside_iff]; exact hc)
    rw [DistMap.inside_iff] at hin
    refine ⟨⟨k, l⟩, ⟨r1, r2, c1, c2, ?_⟩, ?_, DistMap.toward ⟨k, l⟩ c, hin, r3, c3, ?_, ?_⟩
    · dsimp only; omega
    · rintro q ⟨q1, q2, q3, q4, -⟩
      exact add_le_add (r7 _ q1 q2) (c7 _ q3 q4)
    · by_cases hr : c.row = k
      · exact add_lt_add_of_le_of_lt r4 (c5 (by omega))
      · exact add_lt_add_of_lt_of_le (r5 hr) c4
    · rintro q ⟨q1, q2, q3, q4, -⟩ hne
      have e1 := r6 _ q1 q2
      have e2 := c6 _ q3 q4
      have hne : ¬ (q.row = k ∧ q.col = l) := fun h' => hne (Cell.ext_iff.mpr h')
      have : 0 < (k - q.row) ^ 2 + (l - q.col) ^ 2 := by
        by_cases h : q.row = k
        · have : l - q.col ≠ 0 := by omega
          positivity
        · have : k - q.row ≠ 0 := by omega
          positivity
      unfold sqDist DistMap.toward
      dsimp only
      linarith
  · push Not at hout
    obtain ⟨i1, i2, i3, i4⟩ := hout
    have hS : a.row < c.row ∧ c.row < b.row ∧ a.col < c.col ∧ c.col < b.col := by
      unfold OnSides at hcS; omega
    obtain ⟨j1, j2, j3, j4⟩ := hS
    unfold InRect at *
    have hcase : (c.row - a.row ≤ b.row - c.row ∧ c.row - a.row ≤ c.col - a.col ∧ c.row - a.row ≤ b.col - c.col) ∨
        (b.row - c.row ≤ c.row - a.row ∧ b.row - c.row ≤ c.col - a.col ∧ b.row - c.row ≤ b.col - c.col) ∨
        (c.col - a.col ≤ b.col - c.col ∧ c.col - a.col ≤ c.row - a.row ∧ c.col - a.col ≤ b.row - c.row) ∨
        (b.col - c.col ≤ c.col - a.col ∧ b.col - c.col ≤ c.row - a.row ∧ b.col - c.col ≤ b.row - c.row) := by
      omega
    rcases hcase with ⟨d1, d2, d3⟩ | ⟨d1, d2, d3⟩ | ⟨d1, d2, d3⟩ | ⟨d1, d2, d3⟩
    · refine ⟨⟨a.row, c.col⟩, ⟨by dsimp only; omega, by dsimp only; omega, by dsimp only; omega, by dsimp only; omega,
        Or.inl rfl⟩, ?_, ⟨c.row - 1, c.col⟩, by dsimp only; omega, by simp, by simp, ?_, ?_⟩
      · rintro q ⟨q1, q2, q3, q4, hq⟩
        exact (sum_le (by dsimp only; omega)).1
      · exact (sum_lt (by dsimp only; omega)).1
      · rintro q ⟨q1, q2, q3, q4, hq⟩ hne
        have hne : ¬ (q.row = a.row ∧ q.col = c.col) := fun h' => hne (Cell.ext_iff.mpr h')
        exact (sum_lt (by dsimp only; omega)).1
    · refine ⟨⟨b.row, c.col⟩, ⟨by dsimp only; omega, by dsimp only; omega, by dsimp only; omega, by dsimp only; omega,
        Or.inr (Or.inl rfl)⟩, ?_, ⟨c.row + 1, c.col⟩, by dsimp only; omega, by simp, by simp, ?_, ?_⟩
      · rintro q ⟨q1, q2, q3, q4, hq⟩
        exact (sum_le (by dsimp only; omega)).1
      · exact (sum_lt (by dsimp only; omega)).1
      · rintro q ⟨q1, q2, q3, q4, hq⟩ hne
        have hne : ¬ (q.row = b.row ∧ q.col = c.col) := fun h' => hne (Cell.ext_iff.mpr h')
        exact (sum_lt (by dsimp only; omega)).1
    · refine ⟨⟨c.row, a.col⟩, ⟨by dsimp only; omega, by dsimp only; omega, by dsimp only; omega, by dsimp only; omega,
        Or.inr (Or.inr (Or.inl rfl))⟩, ?_, ⟨c.row, c.col - 1⟩, by dsimp only; omega, by simp, by simp, ?_, ?_⟩
      · rintro q ⟨q1, q2, q3, q4, hq⟩
        exact (sum_le (by dsimp only; omega)).2
      · exact (sum_lt (by dsimp only; omega)).2
      · rintro q ⟨q1, q2, q3, q4, hq⟩ hne
        have hne : ¬ (q.row = c.row ∧ q.col = a.col) := fun h' => hne (Cell.ext_iff.mpr h')
        exact (sum_lt (by dsimp only; omega)).2
    · refine ⟨⟨c.row, b.col⟩, ⟨by dsimp only; omega, by dsimp only; omega, by dsimp only; omega, by dsimp only; omega,
        Or.inr (Or.inr (Or.inr rfl))⟩, ?_, ⟨c.row, c.col + 1⟩, by dsimp only; omega, by simp, by simp, ?_, ?_⟩
      · rintro q ⟨q1, q2, q3, q4, hq⟩
        exact (sum_le (by dsimp only; omega)).2
      · exact (sum_lt (by dsimp only; omega)).2
      · rintro q ⟨q1, q2, q3, q4, hq⟩ hne
        have hne : ¬ (q.row = c.row ∧ q.col = b.col) := fun h' => hne (Cell.ext_iff.mpr h')
        exact (sum_lt (by dsimp only; omega)).2

/-- C38 for a map whose obstacle cells are the sides of one rectangle parallel to the axes (a wall of one cell
width, or a single cell, if the corners coincide in a coordinate): every distance is exact, inside the
rectangle and outside. Missing: other obstacles. -/
theorem C38_rectangle_partial {rows columns : Int} {ops : List DistMap.Op} {m : DistMap}
    (r : DistMap.Run (.new rows columns) (ops ++ [.update]) m) (hn : NoUnset ops) (a b : Cell)
    (ha : InRect rows columns a) (hb : InRect rows columns b) (h1 : a.row ≤ b.row) (h2 : a.col ≤ b.col)
    (hS : ∀ c, c ∈ obstacles ops ↔ OnSides a b c) (c : Cell) (hc : InRect rows columns c) :
    ∃ o, OnSides a b o ∧ m.dist c = ((sqDist o c).toNat : Nat) ∧ ∀ q, OnSides a b q → sqDist o c ≤ sqDist q c := by
  have e : obstacles ops = {c | OnSides a b c} := Set.ext hS
  obtain ⟨o, ho, hd, hmin⟩ := C38_handed_partial r hn (by rw [e]; exact sides_handed ha hb h1 h2) c hc
  exact ⟨o, (hS o).mp ho, hd, fun q hq => hmin q ((hS q).mpr hq)⟩

/-! ## Two cells -/

private theorem two_axis {x y u v : Int} (hx : x ≠ 0) (hyx : y.natAbs ≤ x.natAbs)
    (hg : x ^ 2 + y ^ 2 ≤ u ^ 2 + v ^ 2) (hne : 0 < (u - x) ^ 2 + (v - y) ^ 2) :
    ∃ j, (j = y.sign ∨ j = 0) ∧ (x - x.sign) ^ 2 + (y - j) ^ 2 < x ^ 2 + y ^ 2 ∧
      (x - x.sign) ^ 2 + (y - j) ^ 2 < (u - x.sign) ^ 2 + (v - j) ^ 2 := by
  by_cases h0 : (x - x.sign) ^ 2 + y ^ 2 < (u - x.sign) ^ 2 + v ^ 2
  · refine ⟨0, Or.inr rfl, ?_, by simpa using h0⟩
    rcases DistMap.sign_cases x with ⟨h1, h2⟩ | ⟨h1, -⟩ | ⟨h1, h2⟩
    · rw [h2]; nlinarith
    · exact absurd h1 hx
    · rw [h2]; nlinarith
  · push Not at h0
    have hsx := Int.sign_mul_natAbs x
    have hsy := Int.sign_mul_natAbs y
    obtain ⟨X, hX⟩ : ∃ X : Int, X = x.natAbs := ⟨_, rfl⟩
    obtain ⟨Y, hY⟩ : ∃ Y : Int, Y = y.natAbs := ⟨_, rfl⟩
    have hXp : 1 ≤ X := by omega
    have hYX : Y ≤ X := by omega
    have hY0 : 0 ≤ Y := by omega
    rw [← hX] at hsx
    rw [← hY] at hsy
    have hs : x.sign * x.sign = 1 := by
      rcases DistMap.sign_cases x with ⟨-, h2⟩ | ⟨h1, -⟩ | ⟨-, h2⟩
      · rw [h2]; rfl
      · exact absurd h1 hx
      · rw [h2]; rfl
    generalize x.sign = s at *
    by_cases hy : y = 0
    · exfalso
      subst hy
      have : 0 < (u ^ 2 + v ^ 2 - x ^ 2) + X * (2 * X - 2 * s * u) := by
        rw [← hsx] at hne ⊢
        nlinarith
      have : (u ^ 2 + v ^ 2 - x ^ 2) + (2 * X - 2 * s * u) ≤ 0 := by
        rw [← hsx] at h0 ⊢
        nlinarith
      nlinarith
    · have ht : y.sign * y.sign = 1 := by
        rcases DistMap.sign_cases y with ⟨-, h2⟩ | ⟨h1, -⟩ | ⟨-, h2⟩
        · rw [h2]; rfl
        · exact absurd h1 hy
        · rw [h2]; rfl
      have hYp : 1 ≤ Y := by omega
      refine ⟨y.sign, Or.inl rfl, ?_, ?_⟩
      · generalize y.sign = t at *
        have e : (x - s) ^ 2 + (y - t) ^ 2 = x ^ 2 + y ^ 2 - 2 * X * (s * s) - 2 * Y * (t * t) + s * s + t * t := by
          rw [← hsx, ← hsy]; ring
        rw [e, hs, ht]
        linarith
      · generalize y.sign = t at *
        by_contra hcon
        push Not at hcon
        obtain ⟨g, hgd⟩ : ∃ g, g = u ^ 2 + v ^ 2 - x ^ 2 - y ^ 2 := ⟨_, rfl⟩
        obtain ⟨A, hA⟩ : ∃ A, A = 2 * X - 2 * s * u := ⟨_, rfl⟩
        obtain ⟨B, hB⟩ : ∃ B, B = 2 * Y - 2 * t * v := ⟨_, rfl⟩
        have e0 : (u - x) ^ 2 + (v - y) ^ 2 = g + X * A + Y * B := by
          have ex : x ^ 2 = X ^ 2 := by rw [← hsx, mul_pow, pow_two s, hs, one_mul]
          have ey : y ^ 2 = Y ^ 2 := by rw [← hsy, mul_pow, pow_two t, ht, one_mul]
          have : (u - x) ^ 2 + (v - y) ^ 2 = u ^ 2 + v ^ 2 + x ^ 2 + y ^ 2 - 2 * u * (s * X) - 2 * v * (t * Y) := by
            rw [hsx, hsy]; ring
          rw [this, hgd, hA, hB, ex, ey]; ring
        have e1 : (u - s) ^ 2 + v ^ 2 - ((x - s) ^ 2 + y ^ 2) = g + A := by
          have : (u - s) ^ 2 + v ^ 2 - ((x - s) ^ 2 + y ^ 2) = u ^ 2 + v ^ 2 - x ^ 2 - y ^ 2 - 2 * s * u + 2 * (s * s) * X := by
            rw [← hsx]; ring
          rw [this, hs, hgd, hA]; ring
        have e2 : (u - s) ^ 2 + (v - t) ^ 2 - ((x - s) ^ 2 + (y - t) ^ 2) = g + A + B := by
          have : (u - s) ^ 2 + (v - t) ^ 2 - ((x - s) ^ 2 + (y - t) ^ 2) =
              u ^ 2 + v ^ 2 - x ^ 2 - y ^ 2 - 2 * s * u + 2 * (s * s) * X - 2 * t * v + 2 * (t * t) * Y := by
            rw [← hsx, ← hsy]; ring
          rw [this, hs, ht, hgd, hA, hB]; ring
        have f1 : g + A ≤ 0 := by linarith
        have f2 : g + A + B ≤ 0 := by linarith
        have f0 : 0 ≤ g := by linarith
        have p1 := mul_nonneg (sub_nonneg.mpr hYX) (neg_nonneg.mpr f1)
        have p2 := mul_nonneg hY0 (neg_nonneg.mpr f2)
        have p3 := mul_nonneg (sub_nonneg.mpr hXp) f0
        rw [e0] at hne
        nlinarith

private theorem two_step {o p c : Cell} (hoc : o ≠ c) (hop : o ≠ p) (hg : sqDist o c ≤ sqDist p c) :
    ∃ n : Cell, (n.row = c.row + (o.row - c.row).sign ∨ n.row = c.row) ∧
      (n.col = c.col + (o.col - c.col).sign ∨ n.col = c.col) ∧ sqDist o n < sqDist o c ∧
      sqDist o n < sqDist p n := by
  have hoc : ¬ (o.row = c.row ∧ o.col = c.col) := fun h' => hoc (Cell.ext_iff.mpr h')
  have hop : ¬ (o.row = p.row ∧ o.col = p.col) := fun h' => hop (Cell.ext_iff.mpr h')
  have hne : 0 < (p.row - c.row - (o.row - c.row)) ^ 2 + (p.col - c.col - (o.col - c.col)) ^ 2 := by
    by_cases h : p.row = o.row
    · have : p.col - c.col - (o.col - c.col) ≠ 0 := by omega
      positivity
    · have : p.row - c.row - (o.row - c.row) ≠ 0 := by omega
      positivity
  unfold sqDist at hg ⊢
  rcases le_total (o.col - c.col).natAbs (o.row - c.row).natAbs with h | h
  · obtain ⟨j, hj, h1, h2⟩ := two_axis (by omega) h hg hne
    refine ⟨⟨c.row + (o.row - c.row).sign, c.col + j⟩, Or.inl rfl, ?_, ?_, ?_⟩
    · dsimp only; rcases hj with rfl | rfl
      · exact Or.inl rfl
      · right; ring
    · dsimp only; simpa only [sub_sub] using h1
    · dsimp only; simpa only [sub_sub] using h2
  · obtain ⟨j, hj, h1, h2⟩ := two_axis (by omega) h (u := p.col - c.col) (v := p.row - c.row) (by linarith)
      (by linarith)
    refine ⟨⟨c.row + j, c.col + (o.col - c.col).sign⟩, ?_, Or.inl rfl, ?_, ?_⟩
    · dsimp only; rcases hj with rfl | rfl
      · exact Or.inl rfl
      · right; ring
    · dsimp only; simp only [sub_sub] at h1; linarith
    · dsimp only; simp only [sub_sub] at h2; linarith

theorem two_handed {rows columns : Int} {o p : Cell} (ho : InRect rows columns o) (hp : InRect rows columns p) :
    Handed rows columns {c | c = o ∨ c = p} := by
  have key : ∀ o p c : Cell, InRect rows columns o → InRect rows columns p → InRect rows columns c →
      o ≠ c → sqDist o c ≤ sqDist p c →
      ∃ n, InRect rows columns n ∧ |n.row - c.row| ≤ 1 ∧ |n.col - c.col| ≤ 1 ∧ sqDist o n < sqDist o c ∧
        (p ≠ o → sqDist o n < sqDist p n) := by
    intro o p c ho hp hc hoc hg
    obtain ⟨n, hr, hcol, h1, h2⟩ : ∃ n : Cell, (n.row = c.row + (o.row - c.row).sign ∨ n.row = c.row) ∧
        (n.col = c.col + (o.col - c.col).sign ∨ n.col = c.col) ∧ sqDist o n < sqDist o c ∧
        (p ≠ o → sqDist o n < sqDist p n) := by
      by_cases hop : o = p
      · obtain ⟨n, h1, h2, h3, -⟩ := two_step (o := o) (c := c) (p := ⟨o.row + (o.row - c.row), o.col + (o.col - c.col)⟩) hoc
          (by
            have : ¬ (o.row = c.row ∧ o.col = c.col) := fun h' => hoc (Cell.ext_iff.mpr h')
            intro h
            rw [Cell.ext_iff] at h
            dsimp only at h
            omega)
          (by
            unfold sqDist; dsimp only
            have e : (o.row + (o.row - c.row) - c.row) ^ 2 + (o.col + (o.col - c.col) - c.col) ^ 2 =
              4 * ((o.row - c.row) ^ 2 + (o.col - c.col) ^ 2) := by ring
            rw [e]
            nlinarith [sq_nonneg (o.row - c.row), sq_nonneg (o.col - c.col)])
        exact ⟨n, h1, h2, h3, fun h => absurd hop.symm h⟩
      · obtain ⟨n, h1, h2, h3, h4⟩ := two_step hoc hop hg
        exact ⟨n, h1, h2, h3, fun _ => h4⟩
    refine ⟨n, ?_, ?_, ?_, h1, h2⟩
    · unfold InRect at *
      rcases DistMap.sign_cases (o.row - c.row) with ⟨a1, a2⟩ | ⟨a1, a2⟩ | ⟨a1, a2⟩ <;>
        rcases DistMap.sign_cases (o.col - c.col) with ⟨b1, b2⟩ | ⟨b1, b2⟩ | ⟨b1, b2⟩ <;>
        (rw [a2] at hr; rw [b2] at hcol; omega)
    · rcases DistMap.sign_cases (o.row - c.row) with ⟨a1, a2⟩ | ⟨a1, a2⟩ | ⟨a1, a2⟩ <;>
        (rw [a2] at hr; rw [abs_le]; omega)
    · rcases DistMap.sign_cases (o.col - c.col) with ⟨a1, a2⟩ | ⟨a1, a2⟩ | ⟨a1, a2⟩ <;>
        (rw [a2] at hcol; rw [abs_le]; omega)
  intro c hc hcS
  simp only [Set.mem_ofPred_eq, not_or] at hcS
  rcases le_total (sqDist o c) (sqDist p c) with h | h
  · obtain ⟨n, h1, h2, h3, h4, h5⟩ := key o p c ho hp hc (Ne.symm hcS.1) h
    refine ⟨o, Or.inl rfl, ?_, n, h1, h2, h3, h4, ?_⟩
    · rintro q (rfl | rfl)
      · exact le_refl _
      · exact h
    · rintro q (rfl | rfl) hne
      · exact absurd rfl hne
      · exact h5 hne
  · obtain ⟨n, h1, h2, h3, h4, h5⟩ := key p o c hp ho hc (Ne.symm hcS.2) h
    refine ⟨p, Or.inr rfl, ?_, n, h1, h2, h3, h4, ?_⟩
    · rintro q (rfl | rfl)
      · exact h
      · exact le_refl _
    · rintro q (rfl | rfl) hne
      · exact h5 hne
      · exact absurd rfl hne

/-- C38 for a map with one or two obstacle cells: every distance is exact. Missing: three obstacle cells, for
which it need not be (`C38_not_the_nearest`). -/
theorem C38_two_obstacles_partial {rows columns : Int} {ops : List DistMap.Op} {m : DistMap}
    (r : DistMap.Run (.new rows columns) (ops ++ [.update]) m) (hn : NoUnset ops) (o p : Cell)
    (ho : InRect rows columns o) (hp : InRect rows columns p)
    (hS : ∀ c, c ∈ obstacles ops ↔ c = o ∨ c = p) (c : Cell) (hc : InRect rows columns c) :
    ∃ d : Nat, m.dist c = d ∧ (d : Int) = min (sqDist o c) (sqDist p c) := by
  have e : obstacles ops = {c | c = o ∨ c = p} := Set.ext hS
  obtain ⟨o', ho', hd, hmin⟩ := C38_handed_partial r hn (by rw [e]; exact two_handed ho hp) c hc
  refine ⟨_, hd, ?_⟩
  rw [Int.toNat_of_nonneg (sqDist_nonneg _ _)]
  have h1 := hmin o ((hS o).mpr (Or.inl rfl))
  have h2 := hmin p ((hS p).mpr (Or.inr rfl))
  rcases (hS o').mp ho' with rfl | rfl
  · rw [min_eq_left h2]
  · rw [min_eq_right h1]

/-- Non-vacuity: the ten cells on the sides of a 3 × 4 rectangle in a 6 × 8 map; the distances from a cell inside it and
from one beyond its corner. -/
example : ∃ (ops : List DistMap.Op) (m : DistMap), DistMap.Run (.new 6 8) (ops ++ [.update]) m ∧ NoUnset ops ∧
    (∀ c, c ∈ obstacles ops ↔ OnSides ⟨1, 2⟩ ⟨3, 5⟩ c) ∧ m.dist ⟨2, 3⟩ = (1 : Nat) ∧ m.dist ⟨5, 7⟩ = (8 : Nat) := by
  obtain ⟨ops, hops⟩ : ∃ ops : List DistMap.Op, ops = [.set ⟨1, 2⟩, .set ⟨1, 3⟩, .set ⟨1, 4⟩, .set ⟨1, 5⟩,
    .set ⟨2, 5⟩, .set ⟨3, 5⟩, .set ⟨3, 4⟩, .set ⟨3, 3⟩, .set ⟨3, 2⟩, .set ⟨2, 2⟩] := ⟨_, rfl⟩
  obtain ⟨m, hm⟩ := DistMap.exists_run (rows := 6) (columns := 8) (ops ++ [.update]) (by
    intro o ho
    rw [hops] at ho
    simp only [List.cons_append, List.nil_append, List.mem_cons, List.not_mem_nil, or_false] at ho
    rcases ho with rfl | rfl | rfl | rfl | rfl | rfl | rfl | rfl | rfl | rfl | rfl <;> simp [OpIn, InRect])
  have hn : NoUnset ops := by intro s hs; rw [hops] at hs; simp at hs
  have hS : ∀ c, c ∈ obstacles ops ↔ OnSides ⟨1, 2⟩ ⟨3, 5⟩ c := by
    intro c
    rw [hops]
    show (((((((((((False ∨ c = _) ∨ c = _) ∨ c = _) ∨ c = _) ∨ c = _) ∨ c = _) ∨ c = _) ∨ c = _) ∨ c = _) ∨ c = _)) ↔ _
    unfold OnSides
    simp only [Cell.ext_iff]
    constructor
    · intro h
      rcases h with (((((((((h | h) | h) | h) | h) | h) | h) | h) | h) | h) | h
      · exact h.elim
      all_goals omega
    · rintro ⟨h1, h2, h3, h4, h5⟩
      have h6 : c.row = 1 ∨ c.row = 2 ∨ c.row = 3 := by omega
      have h7 : c.col = 2 ∨ c.col = 3 ∨ c.col = 4 ∨ c.col = 5 := by omega
      rcases h6 with h6 | h6 | h6 <;> rcases h7 with h7 | h7 | h7 | h7 <;>
        first | (simp only [h6, h7]; simp; done) | (exfalso; omega)
  refine ⟨ops, m, hm, hn, hS, ?_, ?_⟩
  · obtain ⟨o, ho, hd, hmin⟩ := C38_rectangle_partial hm hn ⟨1, 2⟩ ⟨3, 5⟩ (by simp [InRect]) (by simp [InRect])
      (by simp) (by simp) hS ⟨2, 3⟩ (by simp [InRect])
    have h1 := hmin ⟨1, 3⟩ (by simp [OnSides])
    have h2 : 0 < sqDist o ⟨2, 3⟩ := by
      unfold OnSides at ho
      unfold sqDist
      dsimp only at ho ⊢
      by_cases h : o.row = 2
      · have : o.col - 3 ≠ 0 := by omega
        positivity
      · have : o.row - 2 ≠ 0 := by omega
        positivity
    have h3 : sqDist ⟨1, 3⟩ ⟨2, 3⟩ = 1 := rfl
    rw [hd, show sqDist o ⟨2, 3⟩ = 1 by omega]
    rfl
  · obtain ⟨o, ho, hd, hmin⟩ := C38_rectangle_partial hm hn ⟨1, 2⟩ ⟨3, 5⟩ (by simp [InRect]) (by simp [InRect])
      (by simp) (by simp) hS ⟨5, 7⟩ (by simp [InRect])
    have h1 := hmin ⟨3, 5⟩ (by simp [OnSides])
    have h3 : sqDist ⟨3, 5⟩ ⟨5, 7⟩ = 8 := rfl
    have h2 : 8 ≤ sqDist o ⟨5, 7⟩ := by
      unfold OnSides at ho
      unfold sqDist
      dsimp only at ho ⊢
      nlinarith
    rw [hd, show sqDist o ⟨5, 7⟩ = 8 by omega]
    rfl

/-! ## C70 -/

namespace Validator

/-- C70, with several obstacles the propagation hands on from cell to cell (one or two cells, the sides of a
rectangle): every state of an accepted path is at least the safe radius, less the interpolation step and the
diagonal of a cell, away from every obstacle. Missing: obstacles around which the reported distances are not
exact. -/
theorem C70_constant_clearance_handed_partial (v : Validator) (ops : List DistMap.Op)
    (hrun : DistMap.Run (.new v.map.rows v.map.columns) (ops ++ [.update]) v.dist)
    (hres : 0 < v.map.resolution) (hstep : 0 < v.minStep) (q : AnyPath) (hq : 0 < q.length)
    (hu : UnitSpeed q) (r : ℝ) (ha : v.isPathValid q = some (true, r))
    (hS : Handed v.map.rows v.map.columns (obstacles ops)) (hn : NoUnset ops) (o : Cell) (ho : o ∈ obstacles ops)
    (t : ℝ) (ht : 0 ≤ t) (ht1 : t ≤ 1) :
    v.minSafe - v.minStep - √2 * v.map.resolution
      ≤ euclid (q.interpolate t).position (v.map.gridCellToWorldPosition o) := by
  refine constant_clearance (DistMap.run_size hrun) hres hstep hq hu ha o ?_ t ht ht1
  intro p hp
  obtain ⟨o', -, hd, hmin⟩ := C38_handed_partial hrun hn hS _ (inRect_of_inside hp)
  unfold reportedDistance worldDistance
  rw [hd]
  have h := hmin o ho
  have h0 := sqDist_nonneg o' (v.map.worldPositionToGridCell p true)
  gcongr
  show (((sqDist o' (v.map.worldPositionToGridCell p true)).toNat : Nat) : Int) ≤ _
  omega

/-- Non-vacuity: two obstacles in the corners of a side of the 10 × 10 map, and a path of length 2 away from
them. -/
example : ∃ (v : Validator) (q : AnyPath) (ops : List DistMap.Op),
    v.map.rows = 10 ∧ v.map.columns = 10 ∧
    DistMap.Run (.new v.map.rows v.map.columns) (ops ++ [.update]) v.dist ∧
    0 < v.map.resolution ∧ 0 < v.minStep ∧ q.length = 2 ∧ UnitSpeed q ∧
    v.isPathValid q = some (true, 1) ∧ (∀ o, o ∈ obstacles ops ↔ o = ⟨0, 0⟩ ∨ o = ⟨0, 9⟩) ∧
    Handed v.map.rows v.map.columns (obstacles ops) ∧ NoUnset ops := by
  obtain ⟨ops, hops⟩ : ∃ ops : List DistMap.Op, ops = [.set ⟨0, 0⟩, .set ⟨0, 9⟩] := ⟨_, rfl⟩
  obtain ⟨d, hd⟩ := DistMap.exists_run (rows := 10) (columns := 10) (ops ++ [.update]) (by
    intro o ho
    rw [hops] at ho
    simp only [List.cons_append, List.nil_append, List.mem_cons, List.not_mem_nil, or_false] at ho
    rcases ho with rfl | rfl | rfl <;> simp [OpIn, InRect])
  have hob : ∀ o, o ∈ obstacles ops ↔ o = ⟨0, 0⟩ ∨ o = ⟨0, 9⟩ := by
    intro o
    rw [hops]
    show ((False ∨ o = ⟨0, 0⟩) ∨ o = ⟨0, 9⟩) ↔ _
    simp
  have hno : NoUnset ops := by intro s hs; rw [hops] at hs; simp at hs
  have hh : Handed 10 10 (obstacles ops) := by
    rw [show obstacles ops = {c | c = ⟨0, 0⟩ ∨ c = ⟨0, 9⟩} from Set.ext hob]
    exact two_handed (by simp [InRect]) (by simp [InRect])
  obtain ⟨q, hq⟩ : ∃ q : AnyPath, q = ⟨⟨⟨2, 2⟩, 0⟩, 2, fun r => ⟨⟨2 + 2 * r, 2⟩, 0⟩⟩ := ⟨_, rfl⟩
  refine ⟨exValidator d, q, ops, rfl, rfl, hd, by norm_num [exValidator, exMap],
    by norm_num [exValidator], by rw [hq], ?_, ?_, hob, hh, hno⟩
  · intro a b h0 h1 h2
    rw [hq]
    simp only [euclid]
    rw [show (2 + 2 * a - (2 + 2 * b)) ^ 2 + ((2 : ℝ) - 2) ^ 2 = ((b - a) * 2) ^ 2 by ring,
      Real.sqrt_sq (by linarith)]
  · refine not_rejected (DistMap.run_size hd) (by norm_num [exValidator]) (by rw [hq]; norm_num) ?_
    intro r h0 h1
    have hx : (q.interpolate r).position = ⟨2 + 2 * r, 2⟩ := by rw [hq]
    have hin : (exMap).isInsidePos ⟨2 + 2 * r, 2⟩ = true := by
      refine (C29_inside_exact exMap (by norm_num [exMap]) (by simp [exMap]) (by simp [exMap]) _).mpr ?_
      norm_num [exMap]
      constructor <;> linarith
    refine ex_acceptable _ _ (by rw [hx]; constructor <;> dsimp only <;> linarith)
      (by rw [hx]; norm_num) ?_
    rw [hx]
    have hc : InRect 10 10 (exMap.worldPositionToGridCell ⟨2 + 2 * r, 2⟩ true) := by
      exact inRect_of_inside (m := exMap) hin
    obtain ⟨o', ho', e, he, hle⟩ := C38_never_below_partial hd hno _ hc ⟨_, (hob _).mpr (Or.inl rfl)⟩
    have h3 := near_corner (m := exMap) (by norm_num [exMap]) _ hin
    have h4 := euclid_corners exMap (by norm_num [exMap]) o'
      (exMap.worldPositionToGridCell ⟨2 + 2 * r, 2⟩ true)
    have h5 := euclid_triangle ⟨2 + 2 * r, 2⟩
      (exMap.gridCellToWorldPosition (exMap.worldPositionToGridCell ⟨2 + 2 * r, 2⟩ true))
      (exMap.gridCellToWorldPosition o')
    have h6 : 7 ≤ euclid ⟨2 + 2 * r, 2⟩ (exMap.gridCellToWorldPosition o') := by
      have : o'.row = 0 := by rcases (hob o').mp ho' with rfl | rfl <;> rfl
      unfold euclid
      apply Real.le_sqrt_of_sq_le
      simp only [OccMap.gridCellToWorldPosition, OccMap.gridCellToGridPosition, Pt.add_x, Pt.add_y, exMap, this]
      push_cast
      nlinarith [sq_nonneg (2 - ((o'.col : ℝ) * 1 + -5))]
    have h7 : √2 < 2 := by
      rw [Real.sqrt_lt' (by norm_num)]; norm_num
    have h8 : exMap.resolution = 1 := rfl
    show 1 ≤ worldDistance exMap.resolution (d.dist (exMap.worldPositionToGridCell ⟨2 + 2 * r, 2⟩ true))
    unfold worldDistance
    rw [he]
    show 1 ≤ √((e : Int) : ℝ) * _
    rw [hle, ← h4]
    rw [h8] at h3
    linarith

end Validator
end PathPlanning
