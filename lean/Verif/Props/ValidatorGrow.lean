import Verif.Props.DistExact
import Verif.Props.FloatValidator
import Verif.Props.DistMapInt

/-! # C164: what more obstacles change for the distances, the states and the paths -/

namespace PathPlanning
open Spec Flt

namespace DistMap

/-- Nothing inside the map is being raised, and no distance is greater than before. -/
private structure Lower (d : Cell → WithTop Nat) (m : DistMap) : Prop where
  quiet : ∀ c, m.inside c = true → m.toRaise c = false
  le : ∀ c, m.inside c = true → m.dist c ≤ d c

private theorem Lower.effect {d : Cell → WithTop Nat} {m : DistMap} (h : m.Lower d) {s : Cell}
    (hs : m.inside s = true) {m' : DistMap} (ef : Effect m s m') : m'.Lower d := by
  cases ef with
  | idle => exact h
  | stale => exact h
  | raise _ hr => rw [h.quiet s hs] at hr; cases hr
  | lower hp hr ho sp =>
    refine ⟨?_, ?_⟩
    · intro c hc
      rw [inside_congr sp.rows sp.columns] at hc
      rw [sp.toRaise]; exact h.quiet c hc
    · intro c hc
      rw [inside_congr sp.rows sp.columns] at hc
      by_cases hi : Improved { m with toProcess := setAt m.toProcess s false } (m.obst s) (m.nbrs s) c
      · rw [(sp.imp c hi).1]
        exact hi.2.2.le.trans (h.le c hc)
      · rw [(sp.keep c hi).1]
        exact h.le c hc

private theorem Lower.steps {d : Cell → WithTop Nat} {m m' : DistMap} {S : Set Cell} (hi : m.Inv S) (h : m.Lower d)
    (st : Relation.ReflTransGen Step m m') : m'.Lower d := by
  induction st with
  | refl => exact h
  | tail st1 st ih =>
    have hi1 := hi.steps st1
    obtain ⟨e, he, ef⟩ := hi1.step st
    have h1 : DistMap.Lower d _ := ih
    exact Lower.effect (m := DistMap.pop _ e) ⟨h1.quiet, h1.le⟩ (hi1.qin e he) ef

private theorem Lower.run {d : Cell → WithTop Nat} {rows columns : Int} {ops more : List Op} {m m' : DistMap}
    (r : Run (.new rows columns) ops m) (h : m.Lower d) (r' : Run m more m') (hn : NoUnset more) : m'.Lower d := by
  induction r' generalizing ops with
  | nil => exact h
  | cons c r' ih =>
    refine ih (r.append (.cons c .nil)) ?_ (fun s hs => hn s (List.mem_cons_of_mem _ hs))
    cases c with
    | set hs =>
      rename_i s
      unfold DistMap.set at hs
      split at hs
      · cases hs
        refine ⟨h.quiet, ?_⟩
        intro c hc
        by_cases hcs : c = s
        · rw [hcs]
          show setAt _ s (0 : WithTop Nat) s ≤ _
          rw [setAt_same]
          exact bot_le
        · show setAt _ s (0 : WithTop Nat) c ≤ _
          rw [setAt_ne _ _ hcs]
          exact h.le c hc
      · cases hs
    | unset hs => exact absurd (List.mem_cons_self ..) (hn _)
    | update u => exact h.steps (run_inv r).1 u.1

private theorem lower_start {rows columns : Int} {ops : List Op} {m : DistMap}
    (r : Run (.new rows columns) (ops ++ [.update]) m) : m.Lower m.dist := by
  have h := r.settled
  refine ⟨?_, fun c _ => le_rfl⟩
  intro c hc
  cases hr : m.toRaise c with
  | false => rfl
  | true =>
    have := (h.raise c hc hr).2
    rw [h.empty] at this
    simp [cnt] at this

end DistMap

/-- C164: once a map is up to date, adding obstacles never raises a distance it reports, whatever happened before
(removals too) and before, between and after the following calls of `Update`. Missing: maps made
from scratch, for which it is false (`C164_fresh_map_reports_more`). -/
theorem C164_distances_fall_partial {rows columns : Int} {ops more : List DistMap.Op} {m m' : DistMap}
    (r : DistMap.Run (.new rows columns) (ops ++ [.update]) m) (r' : DistMap.Run m more m') (hn : NoUnset more)
    (c : Cell) (hc : InRect rows columns c) : m'.dist c ≤ m.dist c := by
  have hsz := DistMap.run_size (r.append r')
  refine ((DistMap.lower_start r).run r r' hn).le c ?_
  unfold DistMap.inside
  rw [hsz.1, hsz.2]
  obtain ⟨h1, h2, h3, h4⟩ := hc
  simp [h1, h2, h3, h4]

/-- Non-vacuity: an obstacle is added to a map from which one was removed. -/
example : ∃ m m', DistMap.Run (.new 4 5) ([.set ⟨0, 0⟩, .set ⟨3, 3⟩, .update, .unset ⟨0, 0⟩] ++ [.update]) m ∧
    DistMap.Run m [.set ⟨1, 1⟩, .update] m' ∧ NoUnset [.set ⟨1, 1⟩, .update] ∧ m'.dist ⟨1, 1⟩ = 0 ∧
    m'.dist ⟨1, 1⟩ < m.dist ⟨1, 1⟩ := by
  obtain ⟨m', R⟩ := DistMap.exists_run (rows := 4) (columns := 5)
    (([.set ⟨0, 0⟩, .set ⟨3, 3⟩, .update, .unset ⟨0, 0⟩] ++ [.update]) ++ ([.set ⟨1, 1⟩] ++ [.update])) (by
      intro o ho
      simp only [List.cons_append, List.nil_append, List.mem_cons, List.not_mem_nil, or_false] at ho
      rcases ho with rfl | rfl | rfl | rfl | rfl | rfl | rfl <;> simp [OpIn, InRect])
  obtain ⟨m, R1, R2⟩ := R.split
  have h1 := (DistMap.run_inv R1).1
  have h2 := (DistMap.run_inv R).1
  have z1 := DistMap.run_size R1
  have z2 := DistMap.run_size R
  have i1 : m.inside ⟨1, 1⟩ = true := by unfold DistMap.inside; rw [z1.1, z1.2]; decide
  have i2 : m'.inside ⟨1, 1⟩ = true := by unfold DistMap.inside; rw [z2.1, z2.2]; decide
  have e2 : m'.dist ⟨1, 1⟩ = 0 := h2.dist_self i2 ((h2.self _ i2).mpr (Or.inr rfl))
  refine ⟨m, m', R1, R2, by intro s hs; simp at hs, e2, ?_⟩
  rw [e2]
  rcases h1.exact _ i1 with ⟨-, h⟩ | ⟨-, h⟩
  · rw [h]; exact WithTop.coe_lt_top 0
  · rw [h]
    have hn : m.obst ⟨1, 1⟩ ≠ ⟨1, 1⟩ := by
      intro hc
      have hS : ((False ∨ (⟨1, 1⟩ : Cell) = ⟨0, 0⟩) ∨ (⟨1, 1⟩ : Cell) = ⟨3, 3⟩) ∧ (⟨1, 1⟩ : Cell) ≠ ⟨0, 0⟩ :=
        (h1.self _ i1).mp hc
      revert hS; decide
    have hpos : 0 < squaredDistance (m.obst ⟨1, 1⟩) ⟨1, 1⟩ := by
      rcases Nat.eq_zero_or_pos (squaredDistance (m.obst ⟨1, 1⟩) ⟨1, 1⟩) with h0 | h0
      · exact absurd (sq_eq_zero.mp h0) hn
      · exact h0
    exact_mod_cast hpos

private theorem toInt_mono {rows columns : Int} (hf : DiagonalFits rows columns) {ops : List DistMap.Op}
    {m : DistMap} (r : DistMap.Run (.new rows columns) ops m) {c : Cell} (hin : m.inside c = true)
    {d : WithTop Nat} (h : m.dist c ≤ d) : ObstDistMap.toInt (m.dist c) ≤ ObstDistMap.toInt d := by
  have hsz := DistMap.run_size r
  have hin' := hin
  unfold DistMap.inside at hin'
  rw [hsz.1, hsz.2] at hin'
  rcases (DistMap.run_inv r).1.exact c hin with ⟨-, h1⟩ | ⟨h0, h1⟩
  · rw [h1] at h ⊢
    rw [top_le_iff.mp h]
  · unfold DistMap.inside at h0
    rw [hsz.1, hsz.2] at h0
    rw [h1] at h ⊢
    cases d with
    | top =>
      show ((squaredDistance (m.obst c) c : Nat) : Int) ≤ 2147483647
      unfold squaredDistance DiagonalFits at *
      simp only [Bool.and_eq_true, decide_eq_true_eq] at h0 hin'
      obtain ⟨x, hx⟩ : ∃ x, x = (m.obst c).row - c.row := ⟨_, rfl⟩
      obtain ⟨y, hy⟩ : ∃ y, y = (m.obst c).col - c.col := ⟨_, rfl⟩
      dsimp only
      rw [← hx, ← hy, Int.toNat_of_nonneg (add_nonneg (mul_self_nonneg _) (mul_self_nonneg _))]
      have h2 : x ^ 2 ≤ (rows - 1) ^ 2 := sq_le_sq' (by omega) (by omega)
      have h3 : y ^ 2 ≤ (columns - 1) ^ 2 := sq_le_sq' (by omega) (by omega)
      nlinarith
    | coe n =>
      show ((squaredDistance (m.obst c) c : Nat) : Int) ≤ (n : Int)
      exact_mod_cast WithTop.coe_le_coe.mp h

namespace Validator

private theorem same_inside {v : Validator} {ops : List DistMap.Op} {d : DistMap}
    (r : DistMap.Run (.new v.map.rows v.map.columns) ops d) (c : Cell) : d.inside c = v.map.isInsideCell c := by
  have hsz := DistMap.run_size r
  unfold DistMap.inside OccMap.isInsideCell
  rw [hsz.1, hsz.2]

/-- C164: a state that the validator rejects is still rejected after obstacles are added to its map (if it was up to
date), for maps whose diagonal fits an `int`. Missing: paths, for which it is false
(`C164_path_accepted_with_more_obstacles`). -/
theorem C164_state_stays_rejected_partial (v : Validator) (hres : 0 < v.map.resolution)
    (hf : DiagonalFits v.map.rows v.map.columns) {ops more : List DistMap.Op} {d' : DistMap}
    (r : DistMap.Run (.new v.map.rows v.map.columns) (ops ++ [.update]) v.dist) (r' : DistMap.Run v.dist more d')
    (hn : NoUnset more) (s : PoseR) (h : v.isStateValid s = some false) :
    { v with dist := d' }.isStateValid s = some false := by
  have hsz : SameSize v := DistMap.run_size r
  have hsz' : SameSize { v with dist := d' } := DistMap.run_size (r.append r')
  obtain ⟨b, hb, hb'⟩ := C53_state_valid_iff v hsz s
  obtain ⟨b2, hb2, hb2'⟩ := C53_state_valid_iff { v with dist := d' } hsz' s
  rw [hb2]
  cases b2 with
  | false => rfl
  | true =>
    exfalso
    have ha := hb2'.mp rfl
    rw [hb] at h
    cases h
    refine absurd (hb'.mpr ⟨ha.x_ge, ha.x_le, ha.y_ge, ha.y_le, ha.theta_ge, ha.theta_le, ha.inside, ?_⟩) (by simp)
    refine ha.clear.trans ?_
    have hin : v.map.isInsideCell (v.map.worldPositionToGridCell s.position true) = true := ha.inside
    have hd := C164_distances_fall_partial r r' hn (v.map.worldPositionToGridCell s.position true) (inRect_of_inside ha.inside)
    have ht := toInt_mono hf (r.append r') ((same_inside (r.append r') _).trans hin) hd
    unfold reportedDistance worldDistance
    have ht' : ((ObstDistMap.toInt (d'.dist (v.map.worldPositionToGridCell s.position true)) : Int) : ℝ) ≤
      ((ObstDistMap.toInt (v.dist.dist (v.map.worldPositionToGridCell s.position true)) : Int) : ℝ) := by exact_mod_cast ht
    exact mul_le_mul_of_nonneg_right (Real.sqrt_le_sqrt ht') hres.le

/-- C164 with rounding: a state that the program rejects is still rejected after obstacles are added.
Missing: paths. -/
theorem C164_state_stays_rejected_double_partial (v : Validator) (hres : 0 < v.map.resolution)
    (hf : DiagonalFits v.map.rows v.map.columns) {ops more : List DistMap.Op} {d' : DistMap}
    (r : DistMap.Run (.new v.map.rows v.map.columns) (ops ++ [.update]) v.dist) (r' : DistMap.Run v.dist more d')
    (hn : NoUnset more) (s : PoseR) (h : v.isStateValidF s = some false) :
    { v with dist := d' }.isStateValidF s = some false := by
  unfold isStateValidF at h ⊢
  cases ht : wrapThetaF s.theta with
  | none => rw [ht] at h; cases h
  | some theta =>
    rw [ht] at h
    simp only [Option.bind_some] at h ⊢
    split at h
    · rename_i hc
      rw [if_pos hc]
    · rename_i hc
      rw [if_neg hc]
      obtain ⟨c, hcell⟩ : ∃ c, c = v.map.worldPositionToGridCellF s.position true := ⟨_, rfl⟩
      rw [← hcell] at h hc ⊢
      have hin : v.map.isInsideCell c = true := by
        simp only [Bool.or_eq_true, not_or] at hc
        simpa using hc.2
      have hi1 := (same_inside r c).trans hin
      have hi2 := (same_inside (r.append r') c).trans hin
      unfold obstacleDistanceF at h ⊢
      rw [DistMap.read_in _ hi1] at h
      show Option.map _ ((d'.read d'.dist c).map (worldDistanceF v.map.resolution)) = _
      rw [DistMap.read_in _ hi2]
      simp only [Option.map_some, Option.some.injEq, decide_eq_false_iff_not, not_le, ge_iff_le] at h ⊢
      refine lt_of_le_of_lt ?_ h
      have hd := C164_distances_fall_partial r r' hn c (by
        unfold OccMap.isInsideCell at hin
        simp only [Bool.and_eq_true, decide_eq_true_eq] at hin
        exact ⟨by omega, by omega, by omega, by omega⟩)
      have ht := toInt_mono hf (r.append r') hi2 hd
      unfold worldDistanceF
      have ht' : ((ObstDistMap.toInt (d'.dist c) : Int) : ℝ) ≤ ((ObstDistMap.toInt (v.dist.dist c) : Int) : ℝ) := by
        exact_mod_cast ht
      exact fl_mono _ (by norm_num) (fl_mono _ (by norm_num) (mul_le_mul_of_nonneg_right
        (fl_mono _ (by norm_num) (Real.sqrt_le_sqrt ht')) hres.le))

/-! ## An additional obstacle makes the validator accept a path -/

/-- The cell of a position in the map of the examples. -/
private theorem ex_cell {p : Pt} (r k : Int) (hr : 0 ≤ r ∧ r < 10) (hk : 0 ≤ k ∧ k < 10)
    (hx : (r : ℝ) ≤ p.x + 5 ∧ p.x + 5 < r + 1) (hy : (k : ℝ) ≤ p.y + 5 ∧ p.y + 5 < k + 1) :
    exMap.worldPositionToGridCell p true = ⟨r, k⟩ := by
  have h1 : truncInt ((p.x - exMap.worldGridOrigin.x) / exMap.resolution) = r := by
    have : (0 : ℝ) ≤ r := by exact_mod_cast hr.1
    show truncInt ((p.x - -5) / 1) = r
    unfold truncInt
    rw [div_one, sub_neg_eq_add, if_pos (this.trans hx.1), Int.floor_eq_iff]
    exact hx
  have h2 : truncInt ((p.y - exMap.worldGridOrigin.y) / exMap.resolution) = k := by
    have : (0 : ℝ) ≤ k := by exact_mod_cast hk.1
    show truncInt ((p.y - -5) / 1) = k
    unfold truncInt
    rw [div_one, sub_neg_eq_add, if_pos (this.trans hy.1), Int.floor_eq_iff]
    exact hy
  unfold OccMap.worldPositionToGridCell OccMap.gridPositionToGridCell
  dsimp only
  rw [h1, h2, if_neg (by simp), if_pos]
  simp [OccMap.isInsideCell, exMap, hr, hk]

theorem step_path {v : Validator} (h : SameSize v) {q : AnyPath} {l last : ℝ} (hl : l < q.length)
    (ha : Acceptable v (q.interpolate (l / q.length))) :
    v.pathLoop q l last = v.pathLoop q (l + max (freeDistance v (q.interpolate (l / q.length))) v.minStep) l := by
  obtain ⟨b, hb, hb'⟩ := C53_state_valid_iff v h (q.interpolate (l / q.length))
  rw [hb'.mpr ha] at hb
  rw [pathLoop, if_pos hl]
  dsimp only
  rw [hb]
  simp only [Option.bind_eq_bind, Option.bind_some, if_true, increment_eq h ha]

theorem stop_path {v : Validator} (h : SameSize v) {q : AnyPath} {l last : ℝ} (hl : l < q.length)
    (ha : ¬ Acceptable v (q.interpolate (l / q.length))) :
    v.pathLoop q l last = some (false, last / q.length) := by
  obtain ⟨b, hb, hb'⟩ := C53_state_valid_iff v h (q.interpolate (l / q.length))
  rw [pathLoop, if_pos hl]
  dsimp only
  rw [hb]
  cases b with
  | true => exact (ha (hb'.mp rfl)).elim
  | false => rfl

/-- The straight path of the witness, past the corner of an obstacle. -/
noncomputable def growPath : PathSE2 :=
  PathSE2.connect ⟨⟨-66 / 65, 1 / 250 + 11 / 26⟩, 0⟩ ⟨⟨3 / 65, 1 / 250 - 1 / 52⟩, 0⟩

theorem growPath_length : growPath.toAny.length = 23 / 20 := by
  show √_ = _
  rw [Real.sqrt_eq_iff_mul_self_eq (by positivity) (by norm_num)]
  norm_num

theorem growPath_at (l : ℝ) : (growPath.toAny.interpolate (l / growPath.toAny.length)).position =
    ⟨-66 / 65 + 12 / 13 * l, 1 / 250 + 11 / 26 - 5 / 13 * l⟩ := by
  rw [growPath_length]
  show Pt.lerp _ _ _ = _
  simp only [growPath, PathSE2.connect, Pt.lerp]
  ext <;> simp <;> ring

theorem grow_reported {d : DistMap} {l : ℝ} (r k : Int) (hr : 0 ≤ r ∧ r < 10) (hk : 0 ≤ k ∧ k < 10)
    (hx : (r : ℝ) ≤ -66 / 65 + 12 / 13 * l + 5 ∧ -66 / 65 + 12 / 13 * l + 5 < r + 1)
    (hy : (k : ℝ) ≤ 1 / 250 + 11 / 26 - 5 / 13 * l + 5 ∧ 1 / 250 + 11 / 26 - 5 / 13 * l + 5 < k + 1)
    {D : Nat} (hD : d.dist ⟨r, k⟩ = D) :
    reportedDistance (exValidator d) (growPath.toAny.interpolate (l / growPath.toAny.length)).position = √(D : ℝ) := by
  unfold reportedDistance
  rw [growPath_at]
  show worldDistance 1 (d.dist (exMap.worldPositionToGridCell _ true)) = _
  rw [ex_cell r k hr hk hx hy, hD]
  show √(((D : Int) : ℝ)) * 1 = _
  rw [mul_one, Int.cast_natCast]

/-- One iteration of the loop of `IsPathValid` along the path of the witness. -/
private theorem grow_step {d : DistMap} (hsz : d.rows = 10 ∧ d.columns = 10) {l last : ℝ} (hl : 0 ≤ l ∧ l < 23 / 20)
    (r k : Int) (hr : 0 ≤ r ∧ r < 10) (hk : 0 ≤ k ∧ k < 10)
    (hx : (r : ℝ) ≤ -66 / 65 + 12 / 13 * l + 5 ∧ -66 / 65 + 12 / 13 * l + 5 < r + 1)
    (hy : (k : ℝ) ≤ 1 / 250 + 11 / 26 - 5 / 13 * l + 5 ∧ 1 / 250 + 11 / 26 - 5 / 13 * l + 5 < k + 1)
    (D : Nat) (hD : d.dist ⟨r, k⟩ = D) (h1 : 1 ≤ D) (h4 : D ≤ 4) :
    (exValidator d).pathLoop growPath.toAny l last =
      (exValidator d).pathLoop growPath.toAny (l + max (√(D : ℝ) - 1) (1 / 10)) l := by
  have hrep := grow_reported (d := d) r k hr hk hx hy hD
  have hs1 : 1 ≤ √(D : ℝ) := Real.one_le_sqrt.mpr (by exact_mod_cast h1)
  have hs2 : √(D : ℝ) ≤ 2 := by
    rw [Real.sqrt_le_left (by norm_num)]
    have : (D : ℝ) ≤ 4 := by exact_mod_cast h4
    linarith
  have hp := growPath_at l
  have hpx : (growPath.toAny.interpolate (l / growPath.toAny.length)).position.x = -66 / 65 + 12 / 13 * l := by rw [hp]
  have hpy : (growPath.toAny.interpolate (l / growPath.toAny.length)).position.y = 1 / 250 + 11 / 26 - 5 / 13 * l := by
    rw [hp]
  rw [step_path (v := exValidator d) hsz (by rw [growPath_length]; exact hl.2) (ex_acceptable d _
    (by rw [hpx]; constructor <;> linarith [hl.1, hl.2]) (by rw [hpy]; constructor <;> linarith [hl.1, hl.2])
    (by rw [hrep]; exact hs1))]
  have hf : freeDistance (exValidator d) (growPath.toAny.interpolate (l / growPath.toAny.length)) = √(D : ℝ) - 1 := by
    unfold freeDistance
    rw [hrep, hpx, hpy]
    show min (_ - 1) (min (min (_ - -5) (5 - _)) (min (_ - -5) (5 - _))) = _
    refine min_eq_left (le_min (le_min ?_ ?_) (le_min ?_ ?_)) <;> linarith [hl.1, hl.2]
  rw [hf]
  rfl

/-- C164: a path that is rejected because of an obstacle is accepted once there is another obstacle (with the default
parameters of the validator, a resolution of 1 and an up to date map). The additional obstacle makes the validator
take other steps, and these miss the first one. -/
theorem C164_path_accepted_with_more_obstacles :
    ∃ (d d' : DistMap) (o p : Cell), o = ⟨5, 5⟩ ∧ p = ⟨2, 6⟩ ∧
      DistMap.Run (.new 10 10) [.set o, .update] d ∧ DistMap.Run d [.set p, .update] d' ∧
      (exValidator d).isPathValid growPath.toAny = some (false, 20 / 23) ∧
      (exValidator d').isPathValid growPath.toAny = some (true, 1) ∧
      ∃ ratio, 0 < ratio ∧ ratio < 1 ∧ (exValidator d).isStateValid (growPath.interpolate ratio) = some false ∧
        (exValidator d').isStateValid (growPath.interpolate ratio) = some false := by
  obtain ⟨d', R⟩ := DistMap.exists_run (rows := 10) (columns := 10)
    [.set ⟨5, 5⟩, .update, .set ⟨2, 6⟩, .update] (by
      intro o ho
      simp only [List.mem_cons, List.not_mem_nil, or_false] at ho
      rcases ho with rfl | rfl | rfl | rfl <;> simp [OpIn, InRect])
  obtain ⟨d, R1, R2⟩ := DistMap.Run.split (os := [.set ⟨5, 5⟩, .update]) (os' := [.set ⟨2, 6⟩, .update]) R
  have D1 : ∀ c, InRect 10 10 c → ∃ n : Nat, d.dist c = n ∧ (n : Int) = min (sqDist ⟨5, 5⟩ c) (sqDist ⟨5, 5⟩ c) :=
    C38_two_obstacles_partial (ops := [.set ⟨5, 5⟩]) R1 (by intro s hs; simp at hs) ⟨5, 5⟩ ⟨5, 5⟩ (by simp [InRect])
      (by simp [InRect]) (by intro c; show (False ∨ _) ↔ _; simp)
  have D2 : ∀ c, InRect 10 10 c → ∃ n : Nat, d'.dist c = n ∧ (n : Int) = min (sqDist ⟨5, 5⟩ c) (sqDist ⟨2, 6⟩ c) :=
    C38_two_obstacles_partial (ops := [.set ⟨5, 5⟩, .update, .set ⟨2, 6⟩]) R (by intro s hs; simp at hs) ⟨5, 5⟩ ⟨2, 6⟩
      (by simp [InRect]) (by simp [InRect]) (by intro c; show ((False ∨ _) ∨ _) ↔ _; simp)
  have E1 : ∀ (c : Cell) (n : Nat), InRect 10 10 c → min (sqDist ⟨5, 5⟩ c) (sqDist ⟨5, 5⟩ c) = n → d.dist c = n := by
    intro c n hc hn
    obtain ⟨n', h1, h2⟩ := D1 c hc
    rw [h1]
    have : n' = n := by omega
    rw [this]
  have E2 : ∀ (c : Cell) (n : Nat), InRect 10 10 c → min (sqDist ⟨5, 5⟩ c) (sqDist ⟨2, 6⟩ c) = n → d'.dist c = n := by
    intro c n hc hn
    obtain ⟨n', h1, h2⟩ := D2 c hc
    rw [h1]
    have : n' = n := by omega
    rw [this]
  have hz := DistMap.run_size R1
  have hz' := DistMap.run_size R
  have s4 : √((4 : Nat) : ℝ) = 2 := by
    rw [Real.sqrt_eq_iff_mul_self_eq (by positivity) (by norm_num)]; norm_num
  have s1 : max (√((1 : Nat) : ℝ) - 1) (1 / 10) = 1 / 10 := by norm_num
  have hb : ∀ {l last : ℝ}, 1 / 60 ≤ l → l < 11 / 10 → (exValidator d').pathLoop growPath.toAny l last =
      (exValidator d').pathLoop growPath.toAny (l + 1 / 10) l := by
    intro l last h1 h2
    rw [grow_step hz' ⟨by linarith, by linarith⟩ 4 5 (by norm_num) (by norm_num)
      (by push_cast; constructor <;> linarith) (by push_cast; constructor <;> linarith) 1
      (E2 _ _ (by simp [InRect]) (by decide)) le_rfl (by norm_num), s1]
  have q1 : (1.4142 : ℝ) < √((2 : Nat) : ℝ) := by
    rw [Real.lt_sqrt (by norm_num)]; norm_num
  have q2 : √((2 : Nat) : ℝ) < 1.4143 := by
    rw [Real.sqrt_lt' (by norm_num)]; norm_num
  norm_num at q1 q2
  have hrej : ∀ e : DistMap, e.dist ⟨5, 5⟩ = (0 : Nat) →
      ¬ Acceptable (exValidator e) (growPath.toAny.interpolate ((11 / 10) / growPath.toAny.length)) := by
    intro e he ha
    have hc := ha.clear
    rw [grow_reported 5 5 (by norm_num) (by norm_num) (by norm_num) (by norm_num) he] at hc
    have : (1 : ℝ) ≤ √((0 : Nat) : ℝ) := hc
    norm_num at this
  refine ⟨d, d', ⟨5, 5⟩, ⟨2, 6⟩, rfl, rfl, R1, R2, ?_, ?_, (11 / 10) / growPath.toAny.length, ?_, ?_, ?_, ?_⟩
  · unfold isPathValid
    rw [if_neg (by rw [growPath_length]; norm_num),
      grow_step hz ⟨le_rfl, by norm_num⟩ 3 5 (by norm_num) (by norm_num)
      (by push_cast; constructor <;> linarith) (by push_cast; constructor <;> linarith) 4
      (E1 _ _ (by simp [InRect]) (by decide)) (by norm_num) le_rfl, s4,
      show (0 : ℝ) + max (2 - 1) (1 / 10) = 1 by norm_num,
      grow_step hz ⟨by norm_num, by norm_num⟩ 4 5 (by norm_num) (by norm_num)
      (by push_cast; constructor <;> linarith) (by push_cast; constructor <;> linarith) 1
      (E1 _ _ (by simp [InRect]) (by decide)) le_rfl (by norm_num), s1,
      show (1 : ℝ) + 1 / 10 = 11 / 10 by norm_num, stop_path (v := exValidator d) hz (by rw [growPath_length]; norm_num)
        (hrej d (E1 _ _ (by simp [InRect]) (by decide))), growPath_length]
    norm_num
  · unfold isPathValid
    rw [if_neg (by rw [growPath_length]; norm_num),
      grow_step hz' ⟨le_rfl, by norm_num⟩ 3 5 (by norm_num) (by norm_num)
      (by push_cast; constructor <;> linarith) (by push_cast; constructor <;> linarith) 2
      (E2 _ _ (by simp [InRect]) (by decide)) (by norm_num) (by norm_num)]
    norm_num only [Nat.cast_ofNat, zero_add]
    rw [max_eq_left (by linarith)]
    rw [hb (by linarith) (by linarith), hb (by linarith) (by linarith), hb (by linarith) (by linarith),
      hb (by linarith) (by linarith), hb (by linarith) (by linarith), hb (by linarith) (by linarith),
      hb (by linarith) (by linarith)]
    rw [grow_step hz' ⟨by linarith, by linarith⟩ 5 4 (by norm_num) (by norm_num)
      (by push_cast; constructor <;> linarith) (by push_cast; constructor <;> linarith) 1
      (E2 _ _ (by simp [InRect]) (by decide)) le_rfl (by norm_num), s1, pathLoop, if_neg]
    rw [growPath_length]
    linarith
  · rw [growPath_length]; norm_num
  · rw [growPath_length]; norm_num
  · obtain ⟨b, hb, hb'⟩ := C53_state_valid_iff (exValidator d) hz
      (growPath.toAny.interpolate ((11 / 10) / growPath.toAny.length))
    cases b with
    | false => exact hb
    | true => exact (hrej d (E1 _ _ (by simp [InRect]) (by decide)) (hb'.mp rfl)).elim
  · obtain ⟨b, hb, hb'⟩ := C53_state_valid_iff (exValidator d') hz'
      (growPath.toAny.interpolate ((11 / 10) / growPath.toAny.length))
    cases b with
    | false => exact hb
    | true => exact (hrej d' (E2 _ _ (by simp [InRect]) (by decide)) (hb'.mp rfl)).elim

/-- Non-vacuity of `C164_state_stays_rejected_partial`: a state of a map with an obstacle, and a second obstacle. -/
example : ∃ (d d' : DistMap) (s : PoseR), 0 < (exValidator d).map.resolution ∧
    DiagonalFits (exValidator d).map.rows (exValidator d).map.columns ∧
    DistMap.Run (.new (exValidator d).map.rows (exValidator d).map.columns) ([.set ⟨5, 5⟩] ++ [.update])
      (exValidator d).dist ∧ DistMap.Run (exValidator d).dist [.set ⟨2, 6⟩, .update] d' ∧
    (exValidator d).isStateValid s = some false := by
  obtain ⟨d, d', o, p, ho, hp, R1, R2, -, -, ratio, -, -, h, -⟩ := C164_path_accepted_with_more_obstacles
  subst ho hp
  exact ⟨d, d', _, one_pos, (by norm_num [DiagonalFits, exValidator, exMap]), R1, R2, h⟩

/-- Non-vacuity of `C164_state_stays_rejected_double_partial`: a state on an obstacle, and a second obstacle. -/
theorem grow_rejectedF : ∃ d d' : DistMap, DistMap.Run (.new 10 10) ([.set ⟨5, 5⟩] ++ [.update]) (exValidator d).dist ∧
    DistMap.Run (exValidator d).dist [.set ⟨2, 6⟩, .update] d' ∧
    (exValidator d).isStateValidF ⟨⟨0, 0⟩, 0⟩ = some false := by
  obtain ⟨d, d', o, p, ho, hp, R1, R2, -⟩ := C164_path_accepted_with_more_obstacles
  subst ho hp
  refine ⟨d, d', R1, R2, ?_⟩
  have hsz := DistMap.run_size R1
  have hi := (DistMap.run_inv R1).1
  have hin : d.inside ⟨5, 5⟩ = true := by unfold DistMap.inside; rw [hsz.1, hsz.2]; decide
  have h0 : d.dist ⟨5, 5⟩ = 0 := hi.dist_self hin ((hi.self _ hin).mpr (Or.inr rfl))
  obtain ⟨b, hb, hb'⟩ := C127_state_valid_iff (exValidator d) hsz ⟨⟨0, 0⟩, 0⟩ (fl_zero 53) (by norm_num)
  cases b with
  | false => exact hb
  | true =>
    exfalso
    have hc := (hb'.mp rfl).clear
    have f5 : fl64 (0 - -5) = 5 := by
      rw [show (0 : ℝ) - -5 = ((5 : ℤ) : ℝ) by norm_num]
      exact fl_int (by norm_num) (by norm_num)
    have f51 : fl64 (5 / 1) = 5 := by
      rw [show (5 : ℝ) / 1 = ((5 : ℤ) : ℝ) by norm_num]
      exact fl_int (by norm_num) (by norm_num)
    have t5 : truncInt (fl64 (fl64 (0 - exMap.worldGridOrigin.x) / exMap.resolution)) = 5 := by
      show truncInt (fl64 (fl64 (0 - -5) / 1)) = 5
      rw [f5, f51, truncInt, if_pos (by norm_num)]
      norm_num
    have t5' : truncInt (fl64 (fl64 (0 - exMap.worldGridOrigin.y) / exMap.resolution)) = 5 := t5
    have hcell : exMap.worldPositionToGridCellF ⟨0, 0⟩ true = ⟨5, 5⟩ := by
      unfold OccMap.worldPositionToGridCellF OccMap.gridPositionToGridCellF
      dsimp only
      rw [t5, t5', if_neg (by simp), if_pos]
      simp [OccMap.isInsideCell, exMap]
    have hc : (1 : ℝ) ≤ worldDistanceF 1 (d.dist (exMap.worldPositionToGridCellF ⟨0, 0⟩ true)) := hc
    rw [hcell, h0] at hc
    unfold worldDistanceF at hc
    norm_num [show ObstDistMap.toInt 0 = 0 from rfl, fl64, fl32, fl_zero] at hc

end Validator

/-- C164: on maps made from scratch, more obstacles may give a greater reported distance. -/
theorem C164_fresh_map_reports_more :
    ∃ ops ops' : List DistMap.Op, NoUnset ops ∧ NoUnset ops' ∧ obstacles ops ⊆ obstacles ops' ∧
      (∃ m, DistMap.Run (.new 14 9) (ops ++ [.update]) m) ∧ (∃ m, DistMap.Run (.new 14 9) (ops' ++ [.update]) m) ∧
      ∀ m m', DistMap.Run (.new 14 9) (ops ++ [.update]) m → DistMap.Run (.new 14 9) (ops' ++ [.update]) m' →
        m.dist ⟨13, 7⟩ = (169 : Nat) ∧ m'.dist ⟨13, 7⟩ = (170 : Nat) := by
  refine ⟨[.set ⟨1, 2⟩], [.set ⟨0, 8⟩, .set ⟨2, 0⟩, .update, .set ⟨1, 2⟩], by intro s hs; simp at hs,
    by intro s hs; simp at hs, ?_, DistMap.exists_run _ ?_, DistMap.exists_run _ ?_, ?_⟩
  · intro c hc
    have hc : False ∨ c = ⟨1, 2⟩ := hc
    exact Or.inr (hc.resolve_left id)
  · intro o ho
    simp only [List.cons_append, List.nil_append, List.mem_cons, List.not_mem_nil, or_false] at ho
    rcases ho with rfl | rfl <;> simp [OpIn, InRect]
  · intro o ho
    simp only [List.cons_append, List.nil_append, List.mem_cons, List.not_mem_nil, or_false] at ho
    rcases ho with rfl | rfl | rfl | rfl | rfl <;> simp [OpIn, InRect]
  · intro m m' r r'
    refine ⟨?_, DistMap.Witness.wrong38 r'⟩
    obtain ⟨n, h1, h2⟩ := C38_two_obstacles_partial r (by intro s hs; simp at hs) ⟨1, 2⟩ ⟨1, 2⟩ (by simp [InRect])
      (by simp [InRect]) (by intro c; show (False ∨ _) ↔ _; simp) ⟨13, 7⟩ (by simp [InRect])
    rw [h1]
    have : n = 169 := by
      have h3 : sqDist ⟨1, 2⟩ ⟨13, 7⟩ = 169 := by decide
      rw [h3] at h2
      omega
    rw [this]

end PathPlanning
