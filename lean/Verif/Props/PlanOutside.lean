import Verif.Props.PlanClearExample
import Verif.Props.ShapeGeom
import Mathlib.Topology.Order.IntermediateValue
import Mathlib.Topology.Order.Lattice
import Mathlib.Topology.MetricSpace.Lipschitz

/-!
# C93: the planned path never enters an obstacle
-/

namespace PathPlanning
open Real Spec HybridAStar HybridAStar.Propagator Validator

/-- Every corner of the closed polygon is a left turn (as in a convex polygon run through counterclockwise). -/
def Spec.TurnsLeft (vs : List Pt) : Prop :=
  ∀ (i : Nat) a b c, vs[i]? = some a → vs[(i + 1) % vs.length]? = some b → vs[(i + 2) % vs.length]? = some c →
    0 < leftOf a b c

/-- A point inside such a polygon and on the line of a side is on that side. -/
theorem on_side {vs : List Pt} (ht : TurnsLeft vs) {p : Pt} (hp : InsideConvex vs p) {a b : Pt}
    (he : IsEdge vs a b) (h0 : leftOf a b p = 0) :
    ∃ t, 0 ≤ t ∧ t ≤ 1 ∧ p = ⟨a.x + t * (b.x - a.x), a.y + t * (b.y - a.y)⟩ := by
  obtain ⟨i, ha, hb⟩ := he
  have hi : i < vs.length := by
    by_contra hc
    rw [List.getElem?_eq_none (by omega)] at ha
    cases ha
  have hn : 0 < vs.length := by omega
  have some_of : ∀ k : Nat, ∃ c, vs[k % vs.length]? = some c := fun k =>
    ⟨_, List.getElem?_eq_getElem (Nat.mod_lt k hn)⟩
  obtain ⟨c, hc⟩ := some_of (i + 2)
  obtain ⟨z, hz⟩ := some_of (i + (vs.length - 1))
  have hmod : ((i + (vs.length - 1)) % vs.length + 1) % vs.length = i := by
    rw [Nat.mod_add_mod, show i + (vs.length - 1) + 1 = i + vs.length by omega, Nat.add_mod_right,
      Nat.mod_eq_of_lt hi]
  have hmod2 : ((i + (vs.length - 1)) % vs.length + 2) % vs.length = (i + 1) % vs.length := by
    rw [Nat.mod_add_mod, show i + (vs.length - 1) + 2 = i + 1 + vs.length by omega, Nat.add_mod_right]
  have h1 := ht i a b c ha hb hc
  have h2 := ht _ z a b hz (by rw [hmod]; exact ha) (by rw [hmod2]; exact hb)
  have h3 : 0 ≤ leftOf b c p := hp b c ⟨_, hb, by
    rw [Nat.mod_add_mod]; exact hc⟩
  have h4 : 0 ≤ leftOf z a p := hp z a ⟨_, hz, by rw [hmod]; exact ha⟩
  have hL : 0 < (b.x - a.x) ^ 2 + (b.y - a.y) ^ 2 := by
    by_contra hcon
    push Not at hcon
    have e1 : b.x - a.x = 0 := by nlinarith [sq_nonneg (b.x - a.x), sq_nonneg (b.y - a.y)]
    have e2 : b.y - a.y = 0 := by nlinarith [sq_nonneg (b.x - a.x), sq_nonneg (b.y - a.y)]
    unfold leftOf at h1
    rw [e1, e2] at h1
    simp at h1
  obtain ⟨L, hLe⟩ : ∃ L, L = (b.x - a.x) ^ 2 + (b.y - a.y) ^ 2 := ⟨_, rfl⟩
  rw [← hLe] at hL
  obtain ⟨t, ht'⟩ : ∃ t, t = ((p.x - a.x) * (b.x - a.x) + (p.y - a.y) * (b.y - a.y)) / L := ⟨_, rfl⟩
  have hpx : p.x = a.x + t * (b.x - a.x) := by
    have : (p.x - a.x) * L = t * L * (b.x - a.x) := by
      rw [ht', div_mul_cancel₀ _ hL.ne', hLe]
      unfold leftOf at h0
      linear_combination (-(b.y - a.y)) * h0
    have := mul_right_cancel₀ hL.ne' (show (p.x - a.x) * L = (t * (b.x - a.x)) * L by rw [this]; ring)
    linarith
  have hpy : p.y = a.y + t * (b.y - a.y) := by
    have : (p.y - a.y) * L = t * L * (b.y - a.y) := by
      rw [ht', div_mul_cancel₀ _ hL.ne', hLe]
      unfold leftOf at h0
      linear_combination (b.x - a.x) * h0
    have := mul_right_cancel₀ hL.ne' (show (p.y - a.y) * L = (t * (b.y - a.y)) * L by rw [this]; ring)
    linarith
  refine ⟨t, ?_, ?_, by ext; exacts [hpx, hpy]⟩
  · have e : leftOf z a p = t * leftOf z a b := by
      unfold leftOf; rw [hpx, hpy]; ring
    rw [e] at h4
    exact (mul_nonneg_iff_left_nonneg_of_pos h2).mp h4
  · have e : leftOf b c p = (1 - t) * leftOf a b c := by
      unfold leftOf; rw [hpx, hpy]; ring
    rw [e] at h3
    have := (mul_nonneg_iff_left_nonneg_of_pos h1).mp h3
    linarith

/-- A continuous curve that starts outside such a polygon and never meets its sides stays outside. -/
theorem stays_outside {vs : List Pt} (ht : TurnsLeft vs) (pos : ℝ → Pt)
    (hx : ContinuousOn (fun t => (pos t).x) (Set.Icc 0 1)) (hy : ContinuousOn (fun t => (pos t).y) (Set.Icc 0 1))
    (havoid : ∀ t, 0 ≤ t → t ≤ 1 → ∀ a b s, IsEdge vs a b → 0 ≤ s → s ≤ 1 →
      pos t ≠ ⟨a.x + s * (b.x - a.x), a.y + s * (b.y - a.y)⟩)
    (h0 : ¬ InsideConvex vs (pos 0)) (t : ℝ) (t0 : 0 ≤ t) (t1 : t ≤ 1) : ¬ InsideConvex vs (pos t) := by
  intro hin
  have hne : (Finset.univ : Finset (Fin vs.length)).Nonempty := by
    by_contra hc
    rw [Finset.not_nonempty_iff_eq_empty, Finset.univ_eq_empty_iff] at hc
    refine h0 fun a b ⟨i, hi, _⟩ => ?_
    have : i < vs.length := by
      by_contra hcc
      rw [List.getElem?_eq_none (by omega)] at hi
      cases hi
    exact (hc.false ⟨i, this⟩).elim
  have hn : 0 < vs.length := by
    obtain ⟨i, -⟩ := hne
    exact i.pos
  let nxt : Fin vs.length → Pt := fun i => vs[(i.1 + 1) % vs.length]'(Nat.mod_lt _ hn)
  let f : Fin vs.length → ℝ → ℝ := fun i t => leftOf vs[i] (nxt i) (pos t)
  let g : ℝ → ℝ := fun t => Finset.univ.inf' hne fun i => f i t
  have hedge : ∀ i : Fin vs.length, IsEdge vs vs[i] (nxt i) := fun i =>
    ⟨i.1, List.getElem?_eq_getElem i.2, List.getElem?_eq_getElem _⟩
  have hg : ∀ t, InsideConvex vs (pos t) ↔ 0 ≤ g t := by
    intro t
    rw [Finset.le_inf'_iff]
    constructor
    · exact fun h i _ => h _ _ (hedge i)
    · rintro h a b ⟨i, ha, hb⟩
      have hi : i < vs.length := by
        by_contra hcc
        rw [List.getElem?_eq_none (by omega)] at ha
        cases ha
      rw [List.getElem?_eq_getElem hi] at ha
      rw [List.getElem?_eq_getElem (Nat.mod_lt _ hn)] at hb
      have := h ⟨i, hi⟩ (Finset.mem_univ _)
      injection ha with ha
      injection hb with hb
      rw [← ha, ← hb]
      exact this
  have hcont : ContinuousOn g (Set.Icc 0 1) := by
    refine ContinuousOn.finset_inf'_apply hne fun i _ => ?_
    show ContinuousOn (fun t => leftOf vs[i] (nxt i) (pos t)) _
    unfold leftOf
    exact (continuousOn_const.mul (hy.sub continuousOn_const)).sub
      (continuousOn_const.mul (hx.sub continuousOn_const))
  have hlt : g 0 < 0 := by
    by_contra hc
    exact h0 ((hg 0).mpr (not_lt.mp hc))
  have hge : 0 ≤ g t := (hg t).mp hin
  obtain ⟨s, ⟨s0, s1⟩, hs⟩ := intermediate_value_Icc t0 (hcont.mono (Set.Icc_subset_Icc_right t1))
    (show (0 : ℝ) ∈ Set.Icc (g 0) (g t) from ⟨hlt.le, hge⟩)
  have hins : InsideConvex vs (pos s) := (hg s).mpr hs.ge
  obtain ⟨i, -, hi⟩ := Finset.exists_mem_eq_inf' hne fun i => f i s
  have hzero : leftOf vs[i] (nxt i) (pos s) = 0 := by
    show f i s = 0
    rw [← hi]; exact hs
  obtain ⟨r, r0, r1, hr⟩ := on_side ht hins (hedge i) hzero
  exact havoid s s0 (s1.trans t1) _ _ r (hedge i) r0 r1 hr

theorem unit_speed_continuous {q : AnyPath} (h : UnitSpeed q) :
    ContinuousOn (fun t => (q.interpolate t).position.x) (Set.Icc 0 1) ∧
    ContinuousOn (fun t => (q.interpolate t).position.y) (Set.Icc 0 1) := by
  have key : ∀ a b, a ∈ Set.Icc (0 : ℝ) 1 → b ∈ Set.Icc (0 : ℝ) 1 →
      euclid (q.interpolate a).position (q.interpolate b).position ≤ |q.length| * |a - b| := by
    intro a b ha hb
    have hle : ∀ a b, 0 ≤ a → a ≤ b → b ≤ 1 →
        euclid (q.interpolate a).position (q.interpolate b).position ≤ |q.length| * |a - b| := by
      intro a b h0 h1 h2
      refine (h a b h0 h1 h2).trans ?_
      rw [mul_comm, abs_sub_comm, abs_of_nonneg (sub_nonneg.mpr h1)]
      exact mul_le_mul_of_nonneg_right (le_abs_self _) (sub_nonneg.mpr h1)
    rcases le_total a b with hab | hab
    · exact hle a b ha.1 hab hb.2
    · rw [euclid_comm, abs_sub_comm]
      exact hle b a hb.1 hab ha.2
  constructor
  · refine (LipschitzOnWith.of_dist_le_mul (K := ⟨|q.length|, abs_nonneg _⟩) ?_).continuousOn
    intro a ha b hb
    rw [Real.dist_eq, Real.dist_eq, abs_sub_comm]
    exact ((abs_le_euclid _ _).1).trans (key a b ha hb)
  · refine (LipschitzOnWith.of_dist_le_mul (K := ⟨|q.length|, abs_nonneg _⟩) ?_).continuousOn
    intro a ha b hb
    rw [Real.dist_eq, Real.dist_eq, abs_sub_comm]
    exact ((abs_le_euclid _ _).2).trans (key a b ha hb)

/-- The clearance that the path check guarantees between its samples, when no reported distance exceeds `D`:
the safe radius less 7.6 % of `D`, or less 7.6 % of itself and the interpolation step; less four cells. -/
noncomputable def Spec.guaranteedClearance (v : Validator) (D : ℝ) : ℝ :=
  min (v.minSafe - (1 - 1 / √(4 - 2 * √2)) * D) (v.minSafe / √(4 - 2 * √2) - v.minStep)
    - (√2 + 5 / 2) * v.map.resolution

/-- C93: after Update, a motion that passed the path check and starts outside a registered polygon never enters it. -/
theorem C93_checked_motion_stays_outside (v : Validator) (ops : List MapState.Op)
    (hv : SeesMap v (ops ++ [.update])) (ht : Tidy ops) (hres : 0 < v.map.resolution) (o : Nat)
    (ho : registered (obstacleOps ops) o = true) (pose : PoseR) (shape : Shape)
    (hcells : Shape.gridCells v.map pose shape = some (covers (obstacleOps ops) o))
    (hin : ∀ u, IsCorner pose shape u → Inside v.map.size (v.map.worldPositionToGridCell u false))
    (hturn : TurnsLeft (placedCorners pose shape))
    (D : ℝ) (hD : ∀ p, v.map.isInsidePos p = true → reportedDistance v p ≤ D)
    (hclear : 0 < guaranteedClearance v D)
    (a : Action) (hspeed : UnitSpeed a.any) (hck : Checked v a) (hl : 0 ≤ a.length)
    (hstart : ¬ InsideConvex (placedCorners pose shape) (a.interpolate 0).position)
    (t : ℝ) (h0 : 0 ≤ t) (h1 : t ≤ 1) : ¬ InsideConvex (placedCorners pose shape) (a.interpolate t).position := by
  rcases hl.lt_or_eq with hl | hl
  · obtain ⟨cx, cy⟩ := unit_speed_continuous hspeed
    refine stays_outside hturn (fun t => (a.interpolate t).position) cx cy ?_ hstart t h0 h1
    intro t h0 h1 p q s he s0 s1 heq
    have hon : OnOutline pose shape (a.interpolate t).position := by
      rw [heq]
      cases shape with
      | polygon vs => exact .side he s0 s1
      | composite children =>
        obtain ⟨i, hi, -⟩ := he
        simp [placedCorners] at hi
    have := C92_checked_motion_keeps_clear v ops hv ht hres o ho pose shape hcells hin D hD a hspeed hck hl t h0 h1
      _ hon
    rw [euclid_self] at this
    unfold guaranteedClearance at hclear
    linarith
  · have hle := hspeed 0 t le_rfl h0 h1
    have hz : euclid (a.interpolate 0).position (a.interpolate t).position ≤ 0 := by
      have e : a.any.length = 0 := hl.symm
      rw [e, mul_zero] at hle
      exact hle
    have hxy := abs_le_euclid (a.interpolate 0).position (a.interpolate t).position
    have e1 : (a.interpolate t).position = (a.interpolate 0).position := by
      ext
      · have := abs_nonpos_iff.mp (hxy.1.trans hz); linarith
      · have := abs_nonpos_iff.mp (hxy.2.trans hz); linarith
    rw [e1]
    exact hstart

/-- The same for motions that follow each other. -/
theorem joined_outside {R : Pt → Prop} :
    ∀ (l : List Action) (p q : PoseR), Joined p l q → (∀ a ∈ l, Good a) →
      (∀ a ∈ l, ¬ R (a.interpolate 0).position → ∀ t, 0 ≤ t → t ≤ 1 → ¬ R (a.interpolate t).position) →
      ¬ R p.position → ∀ a ∈ l, ∀ t, 0 ≤ t → t ≤ 1 → ¬ R (a.interpolate t).position
  | [], _, _, _, _, _, _, _, h => by cases h
  | b :: l, p, q, hj, hg, hs, hp, a, ha => by
    have hb : ¬ R (b.interpolate 0).position := by
      rw [(hg b (List.mem_cons_self ..)).first.1, hj.1]
      exact hp
    have hall := hs b (List.mem_cons_self ..) hb
    rcases List.mem_cons.mp ha with rfl | ha
    · exact hall
    · refine joined_outside l b.final q hj.2 (fun a h => hg a (List.mem_cons_of_mem _ h))
        (fun a h => hs a (List.mem_cons_of_mem _ h)) ?_ a ha
      rw [← (hg b (List.mem_cons_self ..)).last]
      exact hall 1 zero_le_one le_rfl

/-- C93: when `SearchPath` of hybrid A* succeeds after an update of the map, there are motions of the vehicle from the
start that never enter a registered polygon that does not contain the start, and the returned path consists of samples
of these motions unless it is the result of the smoother. -/
theorem C93_planned_path_stays_outside (e : Propagator) (hc : Configured e) (random : Nat → ℝ)
    (nbrs : Nat → State → List (State × Action × WithTop ℝ)) (h : e.Answers random nbrs)
    (d : ℝ) (hd : 0 < d) (dflt : PoseR) (sp : SmoothParam) (ob ed : Cell → Cell) (maxIterations : Int)
    (old : List PoseR) (fuel : Nat) (init : PoseR) (path : List PoseR)
    (hs : searchPath e nbrs d dflt
      (smoothPoses (sp.terms e.validator.map ob ed) maxIterations e.validator.isStateValid) old fuel init
        = some (.success, path))
    (ops : List MapState.Op) (hv : SeesMap e.validator (ops ++ [.update])) (ht : Tidy ops)
    (hres : 0 < e.validator.map.resolution) (pose : Nat → PoseR) (shape : Nat → Shape)
    (hcells : ∀ o, registered (obstacleOps ops) o = true →
      Shape.gridCells e.validator.map (pose o) (shape o) = some (covers (obstacleOps ops) o) ∧
      ∀ u, IsCorner (pose o) (shape o) u →
        Inside e.validator.map.size (e.validator.map.worldPositionToGridCell u false))
    (D : ℝ) (hD : ∀ p, e.validator.map.isInsidePos p = true → reportedDistance e.validator p ≤ D)
    (hclear : 0 < guaranteedClearance e.validator D) :
    ∃ actions q states, Joined init actions q ∧
      ((q.position - e.goal.position).norm < 1e-3 ∧ |q.theta - e.goal.theta| < 1e-3 * π / 180) ∧
      SampledPath actions init q d states ∧ (path = states ∨ ∀ s ∈ path, Acceptable e.validator s) ∧
      ∀ o, registered (obstacleOps ops) o = true → TurnsLeft (placedCorners (pose o) (shape o)) →
        ¬ InsideConvex (placedCorners (pose o) (shape o)) init.position →
        (∀ a ∈ actions, ∀ t, 0 ≤ t → t ≤ 1 →
          ¬ InsideConvex (placedCorners (pose o) (shape o)) (a.interpolate t).position) ∧
        ∀ s ∈ states, ¬ InsideConvex (placedCorners (pose o) (shape o)) s.position := by
  obtain ⟨actions, q, states, h1, h2, h3, h4, -, h5⟩ := (C86_result e hc random nbrs h d hd dflt sp ob ed maxIterations old
    fuel init .success path hs).2 rfl
  refine ⟨actions, q, states, h1, h2, h4, h5, fun o ho hturn hout => ?_⟩
  have hall := joined_outside (R := InsideConvex (placedCorners (pose o) (shape o))) actions init q h1
    (fun a ha => motion_good hc.radius (h3 a ha).1 (h3 a ha).2.1)
    (fun a ha hs t t0 t1 => C93_checked_motion_stays_outside e.validator ops hv ht hres o ho (pose o) (shape o)
      (hcells o ho).1 (hcells o ho).2 hturn D hD hclear a (motion_unit_speed hc.radius (h3 a ha).1) (h3 a ha).2.2
      (h3 a ha).2.1 hs t t0 t1) hout
  refine ⟨hall, fun s hs => ?_⟩
  obtain ⟨k, hk⟩ := List.mem_iff_getElem?.mp hs
  obtain ⟨x, ⟨pre, a, post, r, hl, r0, r1, -, rfl⟩, -⟩ := h4.on k s hk
  exact hall a (by rw [hl]; simp) r r0 r1

/-- C93: the shapes of the library turn left at every corner, wherever they are placed. -/
theorem C93_library_shapes (pose : PoseR) :
    (∀ dx dy, 0 < dx → 0 < dy → TurnsLeft (placedCorners pose (Shape.rectangle dx dy))) ∧
    (∀ radius count, 0 < radius → 3 ≤ count → TurnsLeft (placedCorners pose (Shape.regularPolygon radius count))) ∧
    (∀ radius count, 0 < radius → 3 ≤ count → TurnsLeft (placedCorners pose (Shape.circle radius count))) := by
  have hplace : ∀ vs : List Pt, TurnsLeft vs → TurnsLeft (vs.map (Shape.place pose)) := by
    intro vs h i a b c ha hb hc
    rw [List.length_map] at hb hc
    rw [List.getElem?_map, Option.map_eq_some_iff] at ha hb hc
    obtain ⟨a', ha, rfl⟩ := ha
    obtain ⟨b', hb, rfl⟩ := hb
    obtain ⟨c', hc, rfl⟩ := hc
    rw [leftOf_place]
    exact h i a' b' c' ha hb hc
  have hreg : ∀ radius count, 0 < radius → 3 ≤ count →
      TurnsLeft (placedCorners pose (Shape.regularPolygon radius count)) := by
    intro R n hR hn
    refine hplace _ fun i a b c ha hb hc => ?_
    have hlen : ((List.range n).map fun (i : Nat) => (⟨R * cos (2 * π * (i : ℝ) / (n : ℝ)),
      R * sin (2 * π * (i : ℝ) / (n : ℝ))⟩ : Pt)).length = n := by simp
    rw [hlen] at hb hc
    have hi : i < n := by
      by_contra hcon
      rw [List.getElem?_eq_none (by simp; omega)] at ha
      simp at ha
    have hn0 : (n : ℝ) ≠ 0 := by
      have : 0 < n := by omega
      positivity
    have wrap : ∀ j : Nat, j < 2 * n → cos (2 * π * ((j % n : Nat) : ℝ) / n) = cos (2 * π * (j : ℝ) / n) ∧
        sin (2 * π * ((j % n : Nat) : ℝ) / n) = sin (2 * π * (j : ℝ) / n) := by
      intro j hj
      by_cases hlt : j < n
      · rw [Nat.mod_eq_of_lt hlt]; exact ⟨rfl, rfl⟩
      · obtain ⟨k, rfl⟩ : ∃ k, j = k + n := ⟨j - n, by omega⟩
        rw [Nat.add_mod_right, Nat.mod_eq_of_lt (by omega)]
        have e : 2 * π * ((k + n : Nat) : ℝ) / n = 2 * π * (k : ℝ) / n + 2 * π := by
          push_cast; field_simp
        rw [e, cos_add_two_pi, sin_add_two_pi]
        exact ⟨rfl, rfl⟩
    rw [List.getElem?_map, List.getElem?_range hi] at ha
    rw [List.getElem?_map, List.getElem?_range (Nat.mod_lt _ (by omega))] at hb hc
    simp only [Option.map_some, Option.some.injEq] at ha hb hc
    obtain ⟨w1, w2⟩ := wrap (i + 1) (by omega)
    obtain ⟨w3, w4⟩ := wrap (i + 2) (by omega)
    rw [w1, w2] at hb
    rw [w3, w4] at hc
    obtain ⟨m, hm⟩ : ∃ m, m = 2 * π * (i : ℝ) / n + π / n := ⟨_, rfl⟩
    have e0 : 2 * π * (i : ℝ) / n = m - π / n := by rw [hm]; ring
    have e1 : 2 * π * ((i + 1 : Nat) : ℝ) / n = m + π / n := by rw [hm]; push_cast; ring
    have e2 : 2 * π * ((i + 2 : Nat) : ℝ) / n = m + 3 * (π / n) := by rw [hm]; push_cast; ring
    rw [e0] at ha
    rw [e1] at hb
    rw [e2] at hc
    rw [← ha, ← hb, leftOf_edge, ← hc]
    obtain ⟨hs, hcos⟩ := half_angle hn
    have key : R * cos (m + 3 * (π / n)) * cos m + R * sin (m + 3 * (π / n)) * sin m = R * cos (3 * (π / n)) := by
      have : cos (3 * (π / n)) = cos (m + 3 * (π / n) - m) := by ring_nf
      rw [this, cos_sub]; ring
    dsimp only
    rw [key, cos_three_mul]
    have h1 : 0 < R * cos (π / n) - R * (4 * cos (π / n) ^ 3 - 3 * cos (π / n)) := by
      have : R * cos (π / n) - R * (4 * cos (π / n) ^ 3 - 3 * cos (π / n)) = 4 * R * cos (π / n) * sin (π / n) ^ 2 := by
        rw [sin_sq]; ring
      rw [this]
      positivity
    positivity
  refine ⟨?_, hreg, ?_⟩
  · intro dx dy hx hy
    refine hplace _ fun i a b c ha hb hc => ?_
    have hxy := mul_pos hx hy
    match i, ha, hb, hc with
    | 0, ha, hb, hc =>
      simp at ha hb hc; subst ha; subst hb; subst hc; simp only [leftOf]; nlinarith
    | 1, ha, hb, hc =>
      simp at ha hb hc; subst ha; subst hb; subst hc; simp only [leftOf]; nlinarith
    | 2, ha, hb, hc =>
      simp at ha hb hc; subst ha; subst hb; subst hc; simp only [leftOf]; nlinarith
    | 3, ha, hb, hc =>
      simp at ha hb hc; subst ha; subst hb; subst hc; simp only [leftOf]; nlinarith
    | i + 4, ha, _, _ => simp at ha
  · intro radius count hr hn
    exact hreg _ count (mul_pos hr (by have := (half_angle hn).2; positivity)) hn

end PathPlanning
