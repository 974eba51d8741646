import Verif.Props.RRT
import Verif.Props.RRTR2
import Verif.Props.DriveWalk

/-!
# C184: RRT with the occupancy-map validator keeps clear of the obstacles

RRT over poses with straight connections (`PathConnectionSE2`) and `StateValidatorOccupancyMap`.
-/

namespace PathPlanning
open Real Spec HybridAStar HybridAStar.Propagator Validator DriveWalk

/-- paths/path_se2.h and path_se2.cpp: what the planners see of `PathSE2`. -/
noncomputable def se2Steering : Steering PoseR PathSE2 ℝ where
  connect := PathSE2.connect
  length p := p.length
  truncate := PathSE2.truncate
  final p := p.final

/-- A steered path is straight, starts at the state, and is as long as the distance it covers. -/
private theorem se2_steer (a t : PoseR) (d : ℝ) (hd : 0 ≤ d) (p : PathSE2) (hp : p = se2Steering.steerTowards a t d) :
    p.init = a ∧ p.length = euclid a.position p.final.position := by
  have hconn : (t.position - a.position).norm = euclid a.position t.position := by
    unfold Pt.norm euclid
    congr 1
    simp only [Pt.sub_x, Pt.sub_y]
    ring
  subst hp
  unfold Steering.steerTowards
  dsimp only
  split
  · rename_i hl
    obtain ⟨r, h0, hr⟩ : ∃ r, 0 ≤ r ∧ clampK (d / se2Steering.length (se2Steering.connect a t)) 0 1 = r := by
      have hdiv : 0 ≤ d / se2Steering.length (se2Steering.connect a t) := div_nonneg hd (le_of_lt hl)
      unfold clampK
      rw [if_neg (not_lt.mpr hdiv)]
      split
      · exact ⟨1, zero_le_one, rfl⟩
      · exact ⟨_, hdiv, rfl⟩
    rw [hr]
    refine ⟨rfl, ?_⟩
    show (t.position - a.position).norm * r = euclid a.position (Pt.lerp a.position t.position r)
    rw [hconn]
    unfold euclid
    rw [show (a.position.x - (Pt.lerp a.position t.position r).x) ^ 2 + (a.position.y - (Pt.lerp a.position t.position r).y) ^ 2
      = ((a.position.x - t.position.x) ^ 2 + (a.position.y - t.position.y) ^ 2) * r ^ 2 by simp only [Pt.lerp]; ring,
      Real.sqrt_mul (by positivity), Real.sqrt_sq h0]
  · exact ⟨rfl, hconn⟩

private theorem lerp_speed (a b : Pt) (x y : ℝ) (h : x ≤ y) :
    euclid (Pt.lerp a b x) (Pt.lerp a b y) = (y - x) * euclid a b := by
  unfold euclid
  rw [show ((Pt.lerp a b x).x - (Pt.lerp a b y).x) ^ 2 + ((Pt.lerp a b x).y - (Pt.lerp a b y).y) ^ 2
      = ((a.x - b.x) ^ 2 + (a.y - b.y) ^ 2) * (y - x) ^ 2 by simp only [Pt.lerp]; ring,
    Real.sqrt_mul (by positivity), Real.sqrt_sq (by linarith), mul_comm]

/-- An accepted straight path is within reach of acceptable states. -/
private theorem straight_reached {v : Validator} (hsize : SameSize v) (hstep : 0 < v.minStep) {p : PathSE2} {r : ℝ}
    (hlen : p.length = euclid p.init.position p.final.position) (ha : v.isPathValid p.toAny = some (true, r))
    {ε : ℝ} (hε : 0 < ε) (t : ℝ) (h0 : 0 ≤ t) (h1 : t ≤ 1) :
    Reached v ε (Pt.lerp p.init.position p.final.position t) := by
  have hn : 0 ≤ p.length := by rw [hlen]; exact Real.sqrt_nonneg _
  rcases hn.lt_or_eq with hl | hl
  · obtain ⟨-, -, hc⟩ := C53_accepted_partial v hsize hstep p.toAny hl r ha
    have hu : UnitSpeed p.toAny := by
      intro a b h0 h1 h2
      show euclid (Pt.lerp p.init.position p.final.position a) (Pt.lerp p.init.position p.final.position b) ≤ (b - a) * p.length
      rw [lerp_speed _ _ _ _ h1, hlen]
    exact path_reached (a := p.toAny) hu hl hc hε t h0 h1
  · have hv : v.isPathValid p.toAny = (v.isStateValid p.init).map fun b => (b, 1) := by
      unfold isPathValid
      rw [if_pos (show p.toAny.length = 0 from hl.symm)]
      rfl
    rw [hv, Option.map_eq_some_iff] at ha
    obtain ⟨b, hb, hb2⟩ := ha
    obtain ⟨b', hb', hacc⟩ := C53_state_valid_iff v hsize p.init
    rw [hb] at hb'
    have hacc := hacc.mp (by rw [← Option.some.inj hb']; exact (Prod.mk.inj hb2).1)
    refine ⟨p.init, hacc, ?_⟩
    have e := lerp_speed p.init.position p.final.position 0 t h0
    rw [← hlen, ← hl, mul_zero] at e
    have e0 : Pt.lerp p.init.position p.final.position 0 = p.init.position := by
      ext <;> simp [Pt.lerp]
    rw [e0] at e
    rw [e]
    have := le_max_right (reportedDistance v p.init.position - v.minSafe) v.minStep
    linarith

/-- A position on the straight lines that join the states of a path. -/
def Spec.OnPolyline (path : List PoseR) (x : Pt) : Prop :=
  ∃ (i : Nat) (a b : PoseR) (t : ℝ), path[i]? = some a ∧ path[i + 1]? = some b ∧ 0 ≤ t ∧ t ≤ 1 ∧
    x = Pt.lerp a.position b.position t

/-- The validator accepted a straight path from `a` to `b`. -/
private def Straight (v : Validator) (a b : PoseR) : Prop :=
  ∃ (p : PathSE2) (r : ℝ), p.init = a ∧ p.final = b ∧ p.length = euclid a.position b.position ∧
    v.isPathValid p.toAny = some (true, r)

/-- What is within reach keeps the guaranteed clearance. -/
private theorem reached_outline {v : Validator} {ops : List MapState.Op} (hv : SeesMap v (ops ++ [.update])) (ht : Tidy ops)
    (hres : 0 < v.map.resolution) {o : Nat} (ho : registered (obstacleOps ops) o = true) {pose : PoseR} {shape : Shape}
    (hcells : Shape.gridCells v.map pose shape = some (covers (obstacleOps ops) o))
    (hin : ∀ u, IsCorner pose shape u → Inside v.map.size (v.map.worldPositionToGridCell u false))
    {D : ℝ} (hD : ∀ p, v.map.isInsidePos p = true → reportedDistance v p ≤ D) {x : Pt}
    (hx : ∀ ε, 0 < ε → Reached v ε x) {p : Pt} (hp : OnOutline pose shape p) :
    guaranteedClearance v D ≤ euclid x p := by
  obtain ⟨c, hc, hd⟩ := C91_outline_near_cells v.map hres pose shape hin _ hcells p hp
  obtain ⟨st, hr, hdist⟩ := hv
  have hops : obstacleOps (ops ++ [.update]) = obstacleOps ops := by
    rw [MapState.obstacleOps_snoc]; simp
  obtain ⟨dops, hrun, hob, hlast, -⟩ :=
    MapState.tidy hr ⟨by rw [hops]; exact ht.still, by rw [hops]; exact ht.apart⟩
  obtain ⟨d, rfl⟩ := hlast ops rfl
  rw [← hdist] at hrun
  have hoo : c ∈ obstacles d := by
    have : c ∈ obstacles (d ++ [.update]) := by
      rw [hob]; unfold Covered; rw [hops]; exact ⟨o, ho, hc⟩
    rwa [MapState.obstacles_snoc] at this
  have h8 : √2 < 1.5 := by
    rw [Real.sqrt_lt' (by norm_num)]; norm_num
  have hk1 : 1 ≤ √(4 - 2 * √2) := by
    rw [Real.one_le_sqrt]; linarith
  refine le_of_forall_pos_le_add fun ε hε => ?_
  obtain ⟨s, hs, hle⟩ := hx ε hε
  have h1 := reported_le hres hrun c hoo _ hs.inside
  have h2 := check_loss (step := v.minStep) hk1 hs.clear (hD _ hs.inside)
  have h3 := near_corner hres s.position hs.inside
  rw [← euclid_corners v.map hres] at h1
  have h4 := euclid_triangle (v.map.gridCellToWorldPosition (v.map.worldPositionToGridCell s.position true)) s.position
    (v.map.gridCellToWorldPosition c)
  rw [euclid_comm (v.map.gridCellToWorldPosition (v.map.worldPositionToGridCell s.position true)) s.position] at h4
  have h5 : reportedDistance v s.position / √(4 - 2 * √2) ≤
      euclid (v.map.gridCellToWorldPosition (v.map.worldPositionToGridCell s.position true))
        (v.map.gridCellToWorldPosition c) := by
    rw [div_le_iff₀ (by linarith), mul_comm]
    exact h1
  have h6 := euclid_triangle s.position x (v.map.gridCellToWorldPosition c)
  have h7 := euclid_triangle x p (v.map.gridCellToWorldPosition c)
  unfold guaranteedClearance
  linarith

section
variable {v : Validator} (hsize : SameSize v) (hstep : 0 < v.minStep)
include hsize hstep

private theorem poly_reached {path : List PoseR} (hch : path.IsChain (Straight v)) {x : Pt} (hx : OnPolyline path x)
    {ε : ℝ} (hε : 0 < ε) : Reached v ε x := by
  obtain ⟨i, a, b, t, ha, hb, h0, h1, rfl⟩ := hx
  have hab : Straight v a b := by
    rw [List.isChain_iff_getElem] at hch
    have hlt : i + 1 < path.length := by
      by_contra hc
      rw [List.getElem?_eq_none (by omega)] at hb
      cases hb
    have := hch i hlt
    rw [List.getElem?_eq_getElem (by omega)] at ha hb
    rwa [Option.some.inj ha, Option.some.inj hb] at this
  obtain ⟨p, r, rfl, rfl, hl, hv⟩ := hab
  exact straight_reached hsize hstep hl hv hε t h0 h1

private theorem poly_walk {ops : List MapState.Op} (hv : SeesMap v (ops ++ [.update])) (ht : Tidy ops)
    (hres : 0 < v.map.resolution) {D : ℝ} (hD : ∀ p, v.map.isInsidePos p = true → reportedDistance v p ≤ D)
    (hclear : 0 < guaranteedClearance v D) {occ : Cell → Bool} (hocc : ∀ c, occ c = true → Covered ops c) :
    ∀ (path : List PoseR), path.IsChain (Straight v) → ∀ a b, path.head? = some a → path.getLast? = some b →
      ∃ l, Walk ⟨v.map.rows, v.map.columns, occ⟩ (cellOf v.map a.position) l (cellOf v.map b.position)
  | [], _, _, _, h, _ => by cases h
  | [a], _, x, y, h, h' => by
    obtain rfl : a = x := Option.some.inj h
    obtain rfl : a = y := Option.some.inj h'
    exact ⟨_, .stop _⟩
  | a :: b :: rest, hch, x, y, h, h' => by
    obtain rfl : a = x := Option.some.inj h
    rw [List.isChain_cons_cons] at hch
    obtain ⟨⟨p, r, rfl, rfl, hl, hp⟩, hch⟩ := hch
    obtain ⟨l, hw, -⟩ := curve_walk hv ht hres hD hclear hocc (fun t => Pt.lerp p.init.position p.final.position t) p.length
      (by rw [hl]; exact Real.sqrt_nonneg _) (fun a b _ h _ => by rw [lerp_speed _ _ _ _ h, hl])
      (fun t h0 h1 => straight_reached hsize hstep hl hp hres t h0 h1)
    have e0 : Pt.lerp p.init.position p.final.position 0 = p.init.position := by ext <;> simp [Pt.lerp]
    have e1 : Pt.lerp p.init.position p.final.position 1 = p.final.position := by ext <;> simp [Pt.lerp]
    rw [e0, e1] at hw
    obtain ⟨k, hk⟩ := poly_walk hv ht hres hD hclear hocc (p.final :: rest) hch _ _ rfl
      (by rw [List.getLast?_cons_cons] at h'; exact h')
    exact ⟨_, walkAppend hw hk⟩

end

private theorem poly_outside {vs : List Pt} (hturn : TurnsLeft vs) :
    ∀ (path : List PoseR), (∀ x, OnPolyline path x → ∀ a b s, IsEdge vs a b → 0 ≤ s → s ≤ 1 →
      x ≠ ⟨a.x + s * (b.x - a.x), a.y + s * (b.y - a.y)⟩) → ∀ init, path.head? = some init →
      ¬ InsideConvex vs init.position → ∀ x, OnPolyline path x → ¬ InsideConvex vs x
  | [], _, _, h, _, _, _ => by cases h
  | [a], _, _, _, _, _, ⟨i, _, _, _, _, hb, _⟩ => by simp at hb
  | a :: b :: rest, hav, init, hi, hout, x, hx => by
    obtain rfl : a = init := Option.some.inj hi
    have cont : ∀ p q : ℝ, ContinuousOn (fun t : ℝ => p + t * (q - p)) (Set.Icc 0 1) := fun p q => by fun_prop
    have e : ∀ t, Pt.lerp a.position b.position t =
        ⟨a.position.x + t * (b.position.x - a.position.x), a.position.y + t * (b.position.y - a.position.y)⟩ := by
      intro t; ext <;> simp only [Pt.lerp] <;> ring
    have first : ∀ t, 0 ≤ t → t ≤ 1 → ¬ InsideConvex vs (Pt.lerp a.position b.position t) := by
      intro t h0 h1
      refine stays_outside hturn (fun t => Pt.lerp a.position b.position t) ?_ ?_ ?_ ?_ t h0 h1
      · simp only [e]; exact cont _ _
      · simp only [e]; exact cont _ _
      · exact fun t h0 h1 => hav _ ⟨0, a, b, t, rfl, rfl, h0, h1, rfl⟩
      · rw [e]; simpa using hout
    obtain ⟨i, c, d, t, hc, hd, h0, h1, rfl⟩ := hx
    cases i with
    | zero =>
      obtain rfl : a = c := Option.some.inj hc
      obtain rfl : b = d := Option.some.inj hd
      exact first t h0 h1
    | succ i =>
      refine poly_outside hturn (b :: rest) ?_ b rfl ?_ _ ⟨i, c, d, t, hc, hd, h0, h1, rfl⟩
      · rintro x ⟨j, c, d, t, hc, hd, h0, h1, hx⟩
        exact hav x ⟨j + 1, c, d, t, hc, hd, h0, h1, hx⟩
      · have := first 1 zero_le_one le_rfl
        rw [e] at this
        simpa using this

/-- RRT over poses with straight connections, whose paths are checked by `v`. -/
structure Spec.ChecksWith [DecidableEq PoseR] (s : RRTSetup PoseR PathSE2 ℝ) (v : Validator) : Prop where
  steering : s.steering = se2Steering
  distance : 0 ≤ s.maxConnectionDistance
  valid : ∀ p, s.valid p = true → ∃ r, v.isPathValid p.toAny = some (true, r)
  size : SameSize v
  step : 0 < v.minStep

private theorem straight_of_accepted [DecidableEq PoseR] {s : RRTSetup PoseR PathSE2 ℝ} {v : Validator} (h : ChecksWith s v)
    {a b : PoseR} (hm : AcceptedMotion s a b) : Straight v a b := by
  obtain ⟨t, h1, h2⟩ := hm
  rw [h.steering] at h1 h2
  obtain ⟨k1, k2⟩ := se2_steer a t _ h.distance _ rfl
  obtain ⟨r, hr⟩ := h.valid _ h1
  refine ⟨_, r, k1, h2, ?_, hr⟩
  rw [k2]
  congr 2

/-- A chain of accepted straight paths keeps clear. -/
private theorem chain_clear {v : Validator} (hsize : SameSize v) (hstep : 0 < v.minStep) {path : List PoseR}
    (hch : path.IsChain (Straight v)) {init : PoseR} (h2 : path.head? = some init)
    {ops : List MapState.Op} (hv : SeesMap v (ops ++ [.update])) (ht : Tidy ops)
    (hres : 0 < v.map.resolution) {pose : Nat → PoseR} {shape : Nat → Shape}
    (hcells : ∀ o, registered (obstacleOps ops) o = true →
      Shape.gridCells v.map (pose o) (shape o) = some (covers (obstacleOps ops) o) ∧
      ∀ u, IsCorner (pose o) (shape o) u → Inside v.map.size (v.map.worldPositionToGridCell u false))
    {D : ℝ} (hD : ∀ p, v.map.isInsidePos p = true → reportedDistance v p ≤ D) :
    ∀ x, OnPolyline path x → ∀ o, registered (obstacleOps ops) o = true →
      (∀ p, OnOutline (pose o) (shape o) p → guaranteedClearance v D ≤ euclid x p) ∧
      (0 < guaranteedClearance v D → TurnsLeft (placedCorners (pose o) (shape o)) →
        ¬ InsideConvex (placedCorners (pose o) (shape o)) init.position →
        ¬ InsideConvex (placedCorners (pose o) (shape o)) x) := by
  have key : ∀ x, OnPolyline path x → ∀ o, registered (obstacleOps ops) o = true →
      ∀ p, OnOutline (pose o) (shape o) p → guaranteedClearance v D ≤ euclid x p :=
    fun x hx o ho p hp => reached_outline hv ht hres ho (hcells o ho).1 (hcells o ho).2 hD
      (fun ε hε => poly_reached hsize hstep hch hx hε) hp
  refine fun x hx o ho => ⟨key x hx o ho, fun hpos hturn hout => ?_⟩
  refine poly_outside hturn path ?_ init h2 hout x hx
  intro y hy a b w he w0 w1 heq
  have hon : OnOutline (pose o) (shape o) y := by
    rw [heq]
    cases hsh : shape o with
    | polygon vs => rw [hsh] at he; exact .side he w0 w1
    | composite children =>
      rw [hsh] at he
      obtain ⟨i, hi, -⟩ := he
      simp [placedCorners] at hi
  have := key y hy o ho y hon
  rw [euclid_self] at this
  linarith

/-- C184: what RRT returns after an update of the map. The straight lines that join the states of the path start at the
initial state, end at a state that passes the goal test, keep the guaranteed clearance from the outline of every registered
obstacle, and never enter a registered convex polygon that does not contain the initial state. -/
theorem C184_rrt_keeps_clear [DecidableEq PoseR] [Inhabited PoseR] {E : Type} [LE E] {dist : PoseR → PoseR → E}
    (s : RRTSetup PoseR PathSE2 ℝ) (v : Validator) (hc : ChecksWith s v)
    (L : NearestLaws s.knn dist) (t : Tree PoseR) (htr : TreeReachable s.knn t) (init : PoseR) (r : RRTResult PoseR)
    (h : rrtSearchPath s t init = some r) (hs : r.success = true)
    (ops : List MapState.Op) (hv : SeesMap v (ops ++ [.update])) (ht : Tidy ops)
    (hres : 0 < v.map.resolution) (pose : Nat → PoseR) (shape : Nat → Shape)
    (hcells : ∀ o, registered (obstacleOps ops) o = true →
      Shape.gridCells v.map (pose o) (shape o) = some (covers (obstacleOps ops) o) ∧
      ∀ u, IsCorner (pose o) (shape o) u → Inside v.map.size (v.map.worldPositionToGridCell u false))
    (D : ℝ) (hD : ∀ p, v.map.isInsidePos p = true → reportedDistance v p ≤ D) :
    ∃ path : List PoseR, treeGetPath r.tree r.solution = some path ∧ path.head? = some init ∧
      (∃ g, path.getLast? = some g ∧ s.isSolution g = true) ∧
      ∀ x, OnPolyline path x → ∀ o, registered (obstacleOps ops) o = true →
        (∀ p, OnOutline (pose o) (shape o) p → guaranteedClearance v D ≤ euclid x p) ∧
        (0 < guaranteedClearance v D → TurnsLeft (placedCorners (pose o) (shape o)) →
          ¬ InsideConvex (placedCorners (pose o) (shape o)) init.position →
          ¬ InsideConvex (placedCorners (pose o) (shape o)) x) := by
  obtain ⟨path, h1, h2, h3, h4⟩ := C25_rrt_path s L t htr init r h hs
  exact ⟨path, h1, h2, h4, chain_clear hc.size hc.step (h3.imp fun _ _ hm => straight_of_accepted hc hm) h2 hv ht hres
    hcells hD⟩

/-- Over poses with straight connections, the direct connection to a steered state is the steered path. -/
private theorem direct_is_steered {a t : PoseR} {d : ℝ} (hd : 0 ≤ d) :
    se2Steering.connect a (se2Steering.final (se2Steering.steerTowards a t d)) = se2Steering.steerTowards a t d := by
  obtain ⟨p, hp⟩ : ∃ p, p = se2Steering.steerTowards a t d := ⟨_, rfl⟩
  obtain ⟨k1, k2⟩ := se2_steer a t d hd p hp
  rw [← hp]
  show (⟨a, p.final, (p.final.position - a.position).norm⟩ : PathSE2) = p
  have : (p.final.position - a.position).norm = p.length := by
    rw [k2]
    unfold Pt.norm euclid
    congr 1
    simp only [Pt.sub_x, Pt.sub_y]
    ring
  rw [this, ← k1]

/-- The path of RRT* consists of accepted straight connections. -/
private theorem star_path [DecidableEq PoseR] [Inhabited PoseR] {E : Type} [LE E] {dist : PoseR → PoseR → E}
    (s : RRTSetup PoseR PathSE2 ℝ) (v : Validator) (hc : ChecksWith s v)
    (L : NearestLaws s.knn dist) (nn : Nat → Nat)
    (hnn : ∀ pts target a k, s.knn.nearest pts target = some a →
      s.valid (s.steering.steerTowards a target s.maxConnectionDistance) = true →
      a ∈ s.knn.knn pts (s.steering.final (s.steering.steerTowards a target s.maxConnectionDistance)) (nn k))
    (t : Tree PoseR) (htr : TreeReachable s.knn t) (init : PoseR) (r : RRTStarResult PoseR ℝ)
    (h : rrtStarSearchPath s nn t init = some r) (hs : r.success = true) :
    ∃ path : List PoseR, treeGetPath r.state.tree r.solution = some path ∧ path.head? = some init ∧
      path.IsChain (Straight v) ∧ ∃ g, path.getLast? = some g ∧ s.isSolution g = true := by
  obtain ⟨path, h1, h2, h3, h4⟩ := C27_rrtStar_path_partial s L nn t htr init hnn (fun a target hval => by
    unfold AcceptedConnection
    rw [hc.steering] at hval ⊢
    rw [direct_is_steered hc.distance]
    exact hval) r h hs
  refine ⟨path, h1, h2, h3.imp fun a b hm => ?_, h4⟩
  have hm : s.valid (s.steering.connect a b) = true := hm
  rw [hc.steering] at hm
  obtain ⟨x, hx⟩ := hc.valid _ hm
  refine ⟨_, x, rfl, rfl, ?_, hx⟩
  show (b.position - a.position).norm = _
  unfold Pt.norm euclid
  congr 1
  simp only [Pt.sub_x, Pt.sub_y]
  ring

/-- C184: the same for RRT*, when the neighbours of a new state that are looked up include the node that it was steered
from. -/
theorem C184_rrtStar_keeps_clear [DecidableEq PoseR] [Inhabited PoseR] {E : Type} [LE E] {dist : PoseR → PoseR → E}
    (s : RRTSetup PoseR PathSE2 ℝ) (v : Validator) (hc : ChecksWith s v)
    (L : NearestLaws s.knn dist) (nn : Nat → Nat)
    (hnn : ∀ pts target a k, s.knn.nearest pts target = some a →
      s.valid (s.steering.steerTowards a target s.maxConnectionDistance) = true →
      a ∈ s.knn.knn pts (s.steering.final (s.steering.steerTowards a target s.maxConnectionDistance)) (nn k))
    (t : Tree PoseR) (htr : TreeReachable s.knn t) (init : PoseR) (r : RRTStarResult PoseR ℝ)
    (h : rrtStarSearchPath s nn t init = some r) (hs : r.success = true)
    (ops : List MapState.Op) (hv : SeesMap v (ops ++ [.update])) (ht : Tidy ops)
    (hres : 0 < v.map.resolution) (pose : Nat → PoseR) (shape : Nat → Shape)
    (hcells : ∀ o, registered (obstacleOps ops) o = true →
      Shape.gridCells v.map (pose o) (shape o) = some (covers (obstacleOps ops) o) ∧
      ∀ u, IsCorner (pose o) (shape o) u → Inside v.map.size (v.map.worldPositionToGridCell u false))
    (D : ℝ) (hD : ∀ p, v.map.isInsidePos p = true → reportedDistance v p ≤ D) :
    ∃ path : List PoseR, treeGetPath r.state.tree r.solution = some path ∧ path.head? = some init ∧
      (∃ g, path.getLast? = some g ∧ s.isSolution g = true) ∧
      ∀ x, OnPolyline path x → ∀ o, registered (obstacleOps ops) o = true →
        (∀ p, OnOutline (pose o) (shape o) p → guaranteedClearance v D ≤ euclid x p) ∧
        (0 < guaranteedClearance v D → TurnsLeft (placedCorners (pose o) (shape o)) →
          ¬ InsideConvex (placedCorners (pose o) (shape o)) init.position →
          ¬ InsideConvex (placedCorners (pose o) (shape o)) x) := by
  obtain ⟨path, h1, h2, h3, h4⟩ := star_path s v hc L nn hnn t htr init r h hs
  exact ⟨path, h1, h2, h4, chain_clear hc.size hc.step h3 h2 hv ht hres hcells hD⟩

/-- C184: where RRT finds a path there is a walk over free cells, from the cell of the initial state to the cell of the
last state of the path. -/
theorem C184_rrt_gives_walk [DecidableEq PoseR] [Inhabited PoseR] {E : Type} [LE E] {dist : PoseR → PoseR → E}
    (s : RRTSetup PoseR PathSE2 ℝ) (v : Validator) (hc : ChecksWith s v)
    (L : NearestLaws s.knn dist) (t : Tree PoseR) (htr : TreeReachable s.knn t) (init : PoseR) (r : RRTResult PoseR)
    (h : rrtSearchPath s t init = some r) (hs : r.success = true)
    (ops : List MapState.Op) (hv : SeesMap v (ops ++ [.update])) (ht : Tidy ops) (hres : 0 < v.map.resolution)
    (D : ℝ) (hD : ∀ p, v.map.isInsidePos p = true → reportedDistance v p ≤ D) (hclear : 0 < guaranteedClearance v D)
    (occ : Cell → Bool) (hocc : ∀ c, occ c = true → Covered ops c) (hi : v.map.isInsidePos init.position = true) :
    ∃ (path : List PoseR) (g : PoseR), treeGetPath r.tree r.solution = some path ∧ path.getLast? = some g ∧
      s.isSolution g = true ∧ (v.map.isInsidePos g.position = true →
        ∃ cells, Walk ⟨v.map.rows, v.map.columns, occ⟩ (v.map.worldPositionToGridCell init.position true) cells
          (v.map.worldPositionToGridCell g.position true)) := by
  obtain ⟨path, h1, h2, h3, g, h4, h5⟩ := C25_rrt_path s L t htr init r h hs
  have hch : path.IsChain (Straight v) := h3.imp fun _ _ hm => straight_of_accepted hc hm
  refine ⟨path, g, h1, h4, h5, fun hg => ?_⟩
  obtain ⟨l, hl⟩ := poly_walk hc.size hc.step hv ht hres hD hclear hocc path hch init g h2 h4
  rw [cellOf_inside hi, cellOf_inside hg] at hl
  exact ⟨l, hl⟩

/-- C184: the same for RRT*, when the neighbours of a new state that are looked up include the node that it was steered
from. -/
theorem C184_rrtStar_gives_walk [DecidableEq PoseR] [Inhabited PoseR] {E : Type} [LE E] {dist : PoseR → PoseR → E}
    (s : RRTSetup PoseR PathSE2 ℝ) (v : Validator) (hc : ChecksWith s v)
    (L : NearestLaws s.knn dist) (nn : Nat → Nat)
    (hnn : ∀ pts target a k, s.knn.nearest pts target = some a →
      s.valid (s.steering.steerTowards a target s.maxConnectionDistance) = true →
      a ∈ s.knn.knn pts (s.steering.final (s.steering.steerTowards a target s.maxConnectionDistance)) (nn k))
    (t : Tree PoseR) (htr : TreeReachable s.knn t) (init : PoseR) (r : RRTStarResult PoseR ℝ)
    (h : rrtStarSearchPath s nn t init = some r) (hs : r.success = true)
    (ops : List MapState.Op) (hv : SeesMap v (ops ++ [.update])) (ht : Tidy ops) (hres : 0 < v.map.resolution)
    (D : ℝ) (hD : ∀ p, v.map.isInsidePos p = true → reportedDistance v p ≤ D) (hclear : 0 < guaranteedClearance v D)
    (occ : Cell → Bool) (hocc : ∀ c, occ c = true → Covered ops c) (hi : v.map.isInsidePos init.position = true) :
    ∃ (path : List PoseR) (g : PoseR), treeGetPath r.state.tree r.solution = some path ∧ path.getLast? = some g ∧
      s.isSolution g = true ∧ (v.map.isInsidePos g.position = true →
        ∃ cells, Walk ⟨v.map.rows, v.map.columns, occ⟩ (v.map.worldPositionToGridCell init.position true) cells
          (v.map.worldPositionToGridCell g.position true)) := by
  obtain ⟨path, h1, h2, h3, g, h4, h5⟩ := star_path s v hc L nn hnn t htr init r h hs
  refine ⟨path, g, h1, h4, h5, fun hg => ?_⟩
  obtain ⟨l, hl⟩ := poly_walk hc.size hc.step hv ht hres hD hclear hocc path h3 init g h2 h4
  rw [cellOf_inside hi, cellOf_inside hg] at hl
  exact ⟨l, hl⟩

/-- C184: where RRT finds a path, the grid planner succeeds between the cells of its ends, for any costs and heuristic. -/
theorem C184_grid_search_succeeds [DecidableEq PoseR] [Inhabited PoseR] {E : Type} [LE E] {dist : PoseR → PoseR → E}
    (s : RRTSetup PoseR PathSE2 ℝ) (v : Validator) (hc : ChecksWith s v)
    (L : NearestLaws s.knn dist) (t : Tree PoseR) (htr : TreeReachable s.knn t) (init : PoseR) (r : RRTResult PoseR)
    (h : rrtSearchPath s t init = some r) (hs : r.success = true)
    (ops : List MapState.Op) (hv : SeesMap v (ops ++ [.update])) (ht : Tidy ops) (hres : 0 < v.map.resolution)
    (D : ℝ) (hD : ∀ p, v.map.isInsidePos p = true → reportedDistance v p ≤ D) (hclear : 0 < guaranteedClearance v D)
    (occ : Cell → Bool) (hocc : ∀ c, occ c = true → Covered ops c) (hi : v.map.isInsidePos init.position = true) :
    let m : GridMap := ⟨v.map.rows, v.map.columns, occ⟩
    ∃ (path : List PoseR) (g : PoseR), treeGetPath r.tree r.solution = some path ∧ path.getLast? = some g ∧
      s.isSolution g = true ∧ (v.map.isInsidePos g.position = true → ∀ pathCost heur : Cell → Cell → ℝ,
        ∃ q, AStar.searchPath (N2.problem m pathCost heur (v.map.worldPositionToGridCell g.position true)) true
          (m.rows.toNat * m.columns.toNat + 1) (v.map.worldPositionToGridCell init.position true) = some (.success, q)) := by
  obtain ⟨path, g, h1, h2, h3, h4⟩ := C184_rrt_gives_walk s v hc L t htr init r h hs ops hv ht hres D hD hclear occ hocc hi
  refine ⟨path, g, h1, h2, h3, fun hg pathCost heur => ?_⟩
  obtain ⟨cells, hw⟩ := h4 hg
  have f1 : Inside ⟨v.map.rows, v.map.columns, occ⟩ (v.map.worldPositionToGridCell init.position true) := inRect_of_inside hi
  obtain ⟨⟨st, q⟩, hq⟩ := Option.isSome_iff_exists.1 (C20_grid_search_terminates _ pathCost heur _
    (v.map.worldPositionToGridCell g.position true) f1)
  cases st with
  | success => exact ⟨q, hq⟩
  | failure => exact absurd ⟨cells, hw⟩ (C20_grid_failure_no_path _ pathCost heur _ _ f1 hq).1

end PathPlanning
