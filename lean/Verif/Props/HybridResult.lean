import Verif.Props.HybridGoalExample
import Verif.Props.Composite
import Verif.Props.ReedsSheppDir
import Verif.Props.Smoother

/-!
# C86: the path that hybrid A* returns
-/

namespace PathPlanning
open Real Spec HybridAStar HybridAStar.Propagator Validator

/-! ## Distances along the motions -/

/-- What is used of the motions. -/
structure Good (a : Action) : Prop where
  nonneg : 0 ≤ a.length
  speed : UnitSpeed a.any
  first : SamePose (a.interpolate 0) a.init
  last : a.interpolate 1 = a.final
  still : a.length = 0 → ∀ r, a.interpolate r = a.init
  cusps : ∀ c ∈ a.cusps, 0 ≤ c ∧ c ≤ 1

theorem motionsLength_nonneg {l : List Action} (hg : ∀ a ∈ l, Good a) : 0 ≤ motionsLength l := by
  refine List.sum_nonneg fun x hx => ?_
  obtain ⟨a, ha, rfl⟩ := List.mem_map.mp hx
  exact (hg a ha).nonneg

theorem onPath_cons {a : Action} {l : List Action} {x : ℝ} {p : PoseR} : OnPath (a :: l) x p ↔
    (∃ r, 0 ≤ r ∧ r ≤ 1 ∧ x = r * a.length ∧ p = a.interpolate r) ∨ OnPath l (x - a.length) p := by
  constructor
  · rintro ⟨pre, b, post, r, h, h0, h1, hx, hp⟩
    cases pre with
    | nil =>
      simp only [List.nil_append, List.cons.injEq] at h
      obtain ⟨rfl, rfl⟩ := h
      exact .inl ⟨r, h0, h1, by rw [hx]; simp [motionsLength], hp⟩
    | cons c pre =>
      simp only [List.cons_append, List.cons.injEq] at h
      obtain ⟨rfl, rfl⟩ := h
      exact .inr ⟨pre, b, post, r, rfl, h0, h1, by rw [hx]; simp [motionsLength]; ring, hp⟩
  · rintro (⟨r, h0, h1, hx, hp⟩ | ⟨pre, b, post, r, rfl, h0, h1, hx, hp⟩)
    · exact ⟨[], a, l, r, rfl, h0, h1, by rw [hx]; simp [motionsLength], hp⟩
    · refine ⟨a :: pre, b, post, r, rfl, h0, h1, ?_, hp⟩
      simp only [motionsLength, List.map_cons, List.sum_cons] at hx ⊢
      linarith

theorem not_onPath_nil {x : ℝ} {p : PoseR} : ¬ OnPath [] x p := by
  rintro ⟨pre, a, post, r, h, -⟩
  cases pre <;> simp at h

theorem euclid_self (p : Pt) : euclid p p = 0 := by simp [euclid]

theorem euclid_comm (p q : Pt) : euclid p q = euclid q p := by
  unfold euclid; congr 1; ring

theorem Good.speed_abs {a : Action} (h : Good a) {r s : ℝ} (h0 : 0 ≤ r) (h1 : r ≤ 1) (h2 : 0 ≤ s) (h3 : s ≤ 1) :
    euclid (a.interpolate r).position (a.interpolate s).position ≤ |s * a.length - r * a.length| := by
  rcases le_total r s with hrs | hrs
  · refine (h.speed r s h0 hrs h3).trans (le_trans (le_of_eq ?_) (le_abs_self _))
    show (s - r) * a.length = _
    ring
  · rw [euclid_comm]
    refine (h.speed s r h2 hrs h1).trans (le_trans (le_of_eq ?_) (neg_le_abs _))
    show (r - s) * a.length = _
    ring

theorem Good.from_init {a : Action} (h : Good a) {r : ℝ} (h0 : 0 ≤ r) (h1 : r ≤ 1) :
    euclid a.init.position (a.interpolate r).position ≤ r * a.length := by
  have := h.speed_abs le_rfl zero_le_one h0 h1
  rw [h.first.1, zero_mul, sub_zero, abs_of_nonneg (mul_nonneg h0 h.nonneg)] at this
  exact this

theorem Good.to_final {a : Action} (h : Good a) {r : ℝ} (h0 : 0 ≤ r) (h1 : r ≤ 1) :
    euclid (a.interpolate r).position a.final.position ≤ a.length - r * a.length := by
  have := h.speed_abs h0 h1 zero_le_one le_rfl
  rw [h.last, one_mul, abs_of_nonneg (by nlinarith [h.nonneg])] at this
  exact this

theorem ends_dist : ∀ {l : List Action} {p q : PoseR}, Joined p l q → (∀ a ∈ l, Good a) →
    0 ≤ motionsLength l ∧ euclid p.position q.position ≤ motionsLength l
  | [], p, q, h, _ => by
    have h : p = q := h
    rw [h, euclid_self]; simp [motionsLength]
  | a :: l, p, q, h, hg => by
    obtain ⟨rfl, h⟩ := h
    have ha := hg a List.mem_cons_self
    obtain ⟨h1, h2⟩ := ends_dist h fun b hb => hg b (List.mem_cons_of_mem _ hb)
    have h3 := ha.from_init zero_le_one le_rfl
    rw [ha.last] at h3
    have := euclid_tri a.init.position a.final.position q.position
    have hn := ha.nonneg
    simp only [motionsLength, List.map_cons, List.sum_cons] at h1 h2 ⊢
    constructor <;> linarith

/-- The distances of a pose on the path to the two ends. -/
theorem onPath_ends : ∀ {l : List Action} {p q : PoseR}, Joined p l q → (∀ a ∈ l, Good a) →
    ∀ {x : ℝ} {s : PoseR}, OnPath l x s → 0 ≤ x ∧ x ≤ motionsLength l ∧
      euclid p.position s.position ≤ x ∧ euclid s.position q.position ≤ motionsLength l - x
  | [], _, _, _, _, _, _, h => (not_onPath_nil h).elim
  | a :: l, p, q, h, hg, x, s, hs => by
    obtain ⟨rfl, h⟩ := h
    have ha := hg a List.mem_cons_self
    have hg' : ∀ b ∈ l, Good b := fun b hb => hg b (List.mem_cons_of_mem _ hb)
    obtain ⟨h1, h2⟩ := ends_dist h hg'
    have hn := ha.nonneg
    have hsum : motionsLength (a :: l) = a.length + motionsLength l := by simp [motionsLength]
    rw [hsum]
    rcases onPath_cons.mp hs with ⟨r, h3, h4, rfl, rfl⟩ | hs
    · have h5 := ha.from_init h3 h4
      have h6 := ha.to_final h3 h4
      have h7 := euclid_tri (a.interpolate r).position a.final.position q.position
      refine ⟨by positivity, by nlinarith, h5, by linarith⟩
    · obtain ⟨h3, h4, h5, h6⟩ := onPath_ends h hg' hs
      have h7 := ha.from_init zero_le_one le_rfl
      rw [ha.last] at h7
      have h8 := euclid_tri a.init.position a.final.position s.position
      refine ⟨by linarith, by linarith, by linarith, by linarith⟩

/-- Two poses on the path are not farther apart than their distances along it. -/
theorem onPath_dist : ∀ {l : List Action} {p q : PoseR}, Joined p l q → (∀ a ∈ l, Good a) →
    ∀ {x y : ℝ} {s t : PoseR}, OnPath l x s → OnPath l y t → euclid s.position t.position ≤ |y - x|
  | [], _, _, _, _, _, _, _, _, h, _ => (not_onPath_nil h).elim
  | a :: l, p, q, h, hg, x, y, s, t, hs, ht => by
    obtain ⟨rfl, h⟩ := h
    have ha := hg a List.mem_cons_self
    have hg' : ∀ b ∈ l, Good b := fun b hb => hg b (List.mem_cons_of_mem _ hb)
    have cross : ∀ {r z : ℝ} {u : PoseR}, 0 ≤ r → r ≤ 1 → OnPath l (z - a.length) u →
        euclid (a.interpolate r).position u.position ≤ z - r * a.length := by
      intro r z u h0 h1 hu
      have h2 := ha.to_final h0 h1
      obtain ⟨-, -, h3, -⟩ := onPath_ends h hg' hu
      have h4 := euclid_tri (a.interpolate r).position a.final.position u.position
      linarith
    rcases onPath_cons.mp hs with ⟨r, h3, h4, rfl, rfl⟩ | hs' <;>
      rcases onPath_cons.mp ht with ⟨r', h3', h4', rfl, rfl⟩ | ht'
    · exact ha.speed_abs h3 h4 h3' h4'
    · exact (cross h3 h4 ht').trans (le_abs_self _)
    · rw [euclid_comm, abs_sub_comm]
      exact (cross h3' h4' hs').trans (le_abs_self _)
    · have := onPath_dist h hg' hs' ht'
      rwa [show y - a.length - (x - a.length) = y - x by ring] at this

/-! ## The composite path -/

theorem compositePath_eq (dflt : PoseR) (l : List Action) :
    compositePath dflt l = Composite.ofParts Action.ops dflt l := rfl

/-- Interpolation of the composite path. -/
theorem composite_onPath (dflt : PoseR) {l : List Action} (hne : l ≠ []) (hg : ∀ a ∈ l, Good a) (r : ℝ)
    (h0 : 0 ≤ r) (h1 : r ≤ 1) :
    ∃ p, (compositePath dflt l).interpolate Action.ops r = some p ∧ OnPath l (r * motionsLength l) p := by
  rw [compositePath_eq]
  have hn : ∀ p ∈ l, 0 ≤ Action.ops.length p := fun p hp => (hg p hp).nonneg
  have hnn : 0 ≤ motionsLength l := motionsLength_nonneg hg
  have hsum : (l.map Action.ops.length).sum = motionsLength l := rfl
  by_cases hlt : r * motionsLength l < motionsLength l
  · obtain ⟨i, a, hi, h2, h3⟩ := C47_ratio_cases Action.ops l r (by rw [hsum]; positivity) hlt
    refine ⟨_, C47_interpolate Action.ops dflt l hn i a hi r h2 h3, ?_⟩
    have hil := (List.getElem?_eq_some_iff.mp hi).1
    have hsplit : l = l.take i ++ a :: l.drop (i + 1) := by
      have := (List.getElem?_eq_some_iff.mp hi).2
      rw [← this, List.cons_getElem_drop_succ, List.take_append_drop]
    have hpos : 0 < a.length := by
      have h4 : Action.ops.length a = a.length := rfl
      rw [← h4]; linarith
    refine ⟨_, a, _, _, hsplit, ?_, ?_, ?_, rfl⟩
    · exact div_nonneg (by linarith) hpos.le
    · rw [div_le_one (by exact hpos)]; linarith
    · have h4 : lengthBefore Action.ops l i = motionsLength (l.take i) := rfl
      have h5 : Action.ops.length a = a.length := rfl
      rw [h4, h5, hsum, div_mul_cancel₀ _ hpos.ne']
      ring
  · have heq : r * motionsLength l = motionsLength l := le_antisymm (by nlinarith) (not_lt.mp hlt)
    obtain ⟨a, ha⟩ : ∃ a, l.getLast? = some a := by
      cases h : l.getLast? with
      | none => exact absurd (List.getLast?_eq_none_iff.mp h) hne
      | some a => exact ⟨a, rfl⟩
    refine ⟨_, C47_interpolate_end Action.ops dflt l hn a ha r (by rw [hsum, heq]), ?_⟩
    refine ⟨l.dropLast, a, [], 1, (List.dropLast_append_getLast? a ha).symm, zero_le_one, le_rfl, ?_, rfl⟩
    rw [heq]
    have := (List.dropLast_append_getLast? a ha).symm
    conv_lhs => rw [this]
    simp [motionsLength]

/-! ## The motions of hybrid A* -/

theorem cusps_range (init : PoseR) {s : RS.Segment} (hs : WellFormed s) {R : ℝ} (hR : 0 < R) {c : ℝ}
    (hc : c ∈ (PathRS.new init s R).cusps) : 0 ≤ c ∧ c ≤ 1 := by
  by_cases h0 : (PathRS.new init s R).length = 0
  · unfold PathRS.cusps at hc
    rw [if_pos h0] at hc
    cases hc
  · obtain ⟨pre, b, d, post, h1, -, rfl⟩ := (C66_cusps init s hs R hR h0 c).mp hc
    have hlen : (PathRS.new init s R).length = totalLength (stretches R s.motions) :=
      (C45_reeds_shepp init s hs R hR).2.1
    have hnn := stretches_length_nonneg hs hR.le
    have hsplit : stretches R s.motions = (pre ++ [b]).map (stretch R) ++ (d :: post).map (stretch R) := by
      unfold stretches
      rw [h1, ← List.map_append]; simp
    rw [hsplit] at hnn hlen
    have h2 := totalLength_nonneg (fun x hx => hnn x (List.mem_append_left _ hx))
    have h3 := totalLength_nonneg (fun x hx => hnn x (List.mem_append_right _ hx))
    have h4 : (PathRS.new init s R).length =
        totalLength ((pre ++ [b]).map (stretch R)) + totalLength ((d :: post).map (stretch R)) := by
      rw [hlen]; simp only [totalLength, List.map_append, List.sum_append]
    have hpos : 0 < (PathRS.new init s R).length :=
      lt_of_le_of_ne (by rw [h4]; exact add_nonneg h2 h3) (Ne.symm h0)
    exact ⟨div_nonneg h2 hpos.le, by rw [div_le_one hpos]; linarith⟩

theorem motion_good {p : HybridParam} (hR : 0 < p.minTurningRadius) {goal : PoseR} {a : Action}
    (hm : Spec.Motion p goal a) (h0 : 0 ≤ a.length) : Good a := by
  refine ⟨h0, motion_unit_speed hR hm, ?_, ?_, ?_, ?_⟩
  · rcases hm with ⟨δ, -, dir, -, len, hl, -, ha⟩ | ha
    · rw [ha]
      have := (C45_constant_steer (model p) a.init δ len dir).1
      show SamePose ((PathSteer.new (model p) a.init δ len dir).interpolate 0) _
      rw [this]; exact .refl _
    · have := (C49_connect a.init goal p.minTurningRadius p.reverseCostMultiplier p.forwardCostMultiplier
        p.directionSwitchingCost hR)
      rw [ha]
      exact this.2.2.1
  · rcases hm with ⟨δ, -, dir, -, len, hl, -, ha⟩ | ha
    · rw [ha]; exact (C45_constant_steer (model p) a.init δ len dir).2.2
    · rw [ha]; rfl
  · intro hz r
    rcases hm with ⟨δ, -, dir, -, len, hl, -, ha⟩ | ha
    · have hlen : len = 0 := by rw [ha] at hz; exact hz
      rw [ha, hlen]
      have := (C45_constant_steer (model p) a.init δ 0 dir).1
      show (model p).constantSteer a.init δ (0 * r) dir = _
      rw [zero_mul]
      rwa [show (PathSteer.new (model p) a.init δ 0 dir).interpolate 0 =
        (model p).constantSteer a.init δ (0 * 0) dir from rfl, zero_mul] at this
    · rw [ha] at hz ⊢
      exact if_pos hz
  · rcases hm with ⟨δ, -, dir, -, len, hl, -, ha⟩ | ha
    · rw [ha]; intro c hc; cases hc
    · rw [ha]
      intro c hc
      obtain ⟨w, hw, t, u, v, len, k, hmm, hp, -, -⟩ := C50_optimal a.init goal p.minTurningRadius
        p.reverseCostMultiplier p.forwardCostMultiplier p.directionSwitchingCost
      obtain ⟨hb, ht, hu, hv, _, _⟩ := word_ends hR hmm
      have hwf := getPath_wellFormed hb ht hu hv
      have hc : c ∈ (PathRS.connect a.init goal p.minTurningRadius p.reverseCostMultiplier
        p.forwardCostMultiplier p.directionSwitchingCost).cusps := hc
      unfold PathRS.connect at hc
      rw [hp] at hc
      exact cusps_range _ hwf hR hc

/-- The ratios of the direction switches of a composite path. -/
theorem composite_cusps_range (dflt : PoseR) {l : List Action} (hg : ∀ a ∈ l, Good a)
    (hpos : 0 < motionsLength l) :
    ∀ c ∈ (compositePath dflt l).getCuspPointRatios Action.ops, 0 ≤ c ∧ c ≤ 1 := by
  have hloop : ∀ (es : List (ℝ × ℝ × Action)) (len : ℝ) (d : Direction), 0 ≤ len → (∀ e ∈ es, Good e.2.2) →
      len + motionsLength (es.map fun e => e.2.2) ≤ motionsLength l →
      ∀ c ∈ Composite.cuspLoop Action.ops (motionsLength l) es len d, 0 ≤ c ∧ c ≤ 1 := by
    intro es
    induction es with
    | nil => intro len d _ _ _ c hc; cases hc
    | cons e es ih =>
      intro len d h0 hes hsum c hc
      have hge := hes e List.mem_cons_self
      have hes' : ∀ x ∈ es, Good x.2.2 := fun x hx => hes x (List.mem_cons_of_mem _ hx)
      have hnn : 0 ≤ motionsLength (es.map fun e => e.2.2) :=
        motionsLength_nonneg (by
          intro a ha
          obtain ⟨x, hx, rfl⟩ := List.mem_map.mp ha
          exact hes' x hx)
      have hcons : motionsLength ((e :: es).map fun e => e.2.2) =
          e.2.2.length + motionsLength (es.map fun e => e.2.2) := by simp [motionsLength]
      rw [hcons] at hsum
      have := hge.nonneg
      unfold Composite.cuspLoop at hc
      rcases List.mem_append.mp hc with hc | hc
      · rcases List.mem_append.mp hc with hc | hc
        · split at hc
          · rw [List.mem_singleton.mp hc]
            exact ⟨by positivity, by rw [div_le_one hpos]; linarith⟩
          · cases hc
        · exact hge.cusps c hc
      · exact ih _ _ (by show 0 ≤ len + e.2.2.length; linarith) hes'
          (by show len + e.2.2.length + _ ≤ _; linarith) c hc
  have hlen : (compositePath dflt l).length = motionsLength l :=
    (C47_length_and_final Action.ops dflt l).1
  have hparts : (compositePath dflt l).paths.map (fun e => e.2.2) = l := by
    have : ∀ (l : List Action) (c : Composite PoseR Action ℝ),
        (l.foldl (Composite.pushBack Action.ops) c).paths.map (fun e => e.2.2) =
          c.paths.map (fun e => e.2.2) ++ l := by
      intro l
      induction l with
      | nil => intro c; simp
      | cons a l ih => intro c; rw [List.foldl_cons, ih]; simp [Composite.pushBack]
    exact this l _
  intro c hc
  unfold Composite.getCuspPointRatios at hc
  rw [hlen] at hc
  cases hp : (compositePath dflt l).paths with
  | nil => rw [hp] at hc; cases hc
  | cons e es =>
    rw [hp] at hc
    dsimp only at hc
    rw [hp] at hparts
    refine hloop _ 0 _ le_rfl (fun x hx => hg _ ?_) ?_ c hc
    · rw [← hparts]; exact List.mem_map_of_mem hx
    · rw [hparts, zero_add]

theorem onPath_zero : ∀ {l : List Action} {p q : PoseR}, Joined p l q → (∀ a ∈ l, Good a) →
    ∀ {s : PoseR}, OnPath l 0 s → SamePose s p
  | [], _, _, _, _, _, h => (not_onPath_nil h).elim
  | a :: l, p, q, h, hg, s, hs => by
    obtain ⟨rfl, h⟩ := h
    have ha := hg a List.mem_cons_self
    have hg' : ∀ b ∈ l, Good b := fun b hb => hg b (List.mem_cons_of_mem _ hb)
    rcases onPath_cons.mp hs with ⟨r, h3, h4, hx, rfl⟩ | hs
    · by_cases hz : a.length = 0
      · rw [ha.still hz]; exact .refl _
      · rcases mul_eq_zero.mp hx.symm with h5 | h5
        · rw [h5]; exact ha.first
        · exact absurd h5 hz
    · have h1 := (onPath_ends h hg' hs).1
      have hz : a.length = 0 := le_antisymm (by linarith) ha.nonneg
      rw [hz, sub_zero] at hs
      have h2 := onPath_zero h hg' hs
      rwa [← ha.last, ha.still hz] at h2

theorem length_zero_ends : ∀ {l : List Action} {p q : PoseR}, Joined p l q → (∀ a ∈ l, Good a) →
    motionsLength l ≤ 0 → p = q
  | [], _, _, h, _, _ => h
  | a :: l, p, q, h, hg, hz => by
    obtain ⟨rfl, h⟩ := h
    have ha := hg a List.mem_cons_self
    have hg' : ∀ b ∈ l, Good b := fun b hb => hg b (List.mem_cons_of_mem _ hb)
    have h1 := (ends_dist h hg').1
    have hsum : motionsLength (a :: l) = a.length + motionsLength l := by simp [motionsLength]
    have h2 := ha.nonneg
    have hz' : a.length = 0 := by linarith
    have := length_zero_ends h hg' (by linarith)
    rwa [← ha.last, ha.still hz'] at this

/-! ## C86 -/

private theorem mapM_option {α β : Type} (f : α → Option β) : ∀ (l : List α), (∀ a ∈ l, (f a).isSome) →
    ∃ r, l.mapM f = some r ∧ r.length = l.length ∧ ∀ (k : Nat) a, l[k]? = some a → ∃ b, r[k]? = some b ∧ f a = some b
  | [], _ => ⟨[], rfl, rfl, by simp⟩
  | a :: l, h => by
    obtain ⟨r, h1, h2, h3⟩ := mapM_option f l fun x hx => h x (List.mem_cons_of_mem _ hx)
    obtain ⟨b, hb⟩ := Option.isSome_iff_exists.mp (h a List.mem_cons_self)
    refine ⟨b :: r, ?_, by simp [h2], ?_⟩
    · rw [List.mapM_cons, hb, h1]; rfl
    · intro k x hx
      cases k with
      | zero => simp only [List.getElem?_cons_zero, Option.some.injEq] at hx ⊢; subst hx; exact ⟨b, rfl, hb⟩
      | succ k => simpa using h3 k x (by simpa using hx)

theorem processed (d : ℝ) (hd : 0 < d) (dflt : PoseR) {l : List Action} {p q : PoseR} (hj : Joined p l q)
    (hg : ∀ a ∈ l, Good a) (hpos : 0 < motionsLength l) :
    ∃ states idx, processPath d dflt l = some (states, idx) ∧ SampledPath l p q d states := by
  have hne : l ≠ [] := by rintro rfl; simp [motionsLength] at hpos
  have hlen : (compositePath dflt l).length = motionsLength l := (C47_length_and_final Action.ops dflt l).1
  obtain ⟨ratios, idx, h1, h2, -, h4, h5, h6, h7, h8⟩ := C57_samples_partial d (motionsLength l)
    ((compositePath dflt l).getCuspPointRatios Action.ops) hd hpos.le (composite_cusps_range dflt hg hpos)
  obtain ⟨states, g1, g2, g3⟩ := mapM_option ((compositePath dflt l).interpolate Action.ops) ratios (by
    intro r hr
    obtain ⟨x, hx, -⟩ := composite_onPath dflt hne hg r (h4 r hr).1 (h4 r hr).2
    rw [hx]; rfl)
  have hk : ∀ (k : Nat) s, states[k]? = some s → ∃ r, ratios[k]? = some r ∧ OnPath l (r * motionsLength l) s := by
    intro k s hs
    have hlt := (List.getElem?_eq_some_iff.mp hs).1
    rw [g2] at hlt
    have hr := List.getElem?_eq_getElem hlt
    obtain ⟨b, hb, hf⟩ := g3 k _ hr
    rw [hs] at hb
    obtain ⟨h9, h10⟩ := h4 _ (List.getElem_mem hlt)
    obtain ⟨x, hx, hon⟩ := composite_onPath dflt hne hg _ h9 h10
    refine ⟨_, hr, ?_⟩
    rw [hf] at hx
    simp only [Option.some.injEq] at hb hx
    rw [hb, hx]; exact hon
  refine ⟨states, idx, ?_, ?_, ?_, ?_, ?_, ?_⟩
  · unfold processPath
    dsimp only
    rw [hlen, h1]
    simp only [Option.bind_eq_bind, Option.bind_some, g1]
  · have h0 : 0 < states.length := by
      rw [g2]; exact (List.getElem?_eq_some_iff.mp h2).1
    refine ⟨_, List.getElem?_eq_getElem h0, ?_⟩
    obtain ⟨r, hr, hon⟩ := hk 0 _ (List.getElem?_eq_getElem h0)
    rw [h2] at hr
    simp only [Option.some.injEq] at hr
    rw [← hr, zero_mul] at hon
    exact onPath_zero hj hg hon
  · intro k s hs
    obtain ⟨r, hr, hon⟩ := hk k s hs
    exact ⟨_, hon, h5 k r hr⟩
  · intro k s t hs ht
    obtain ⟨r, hr, hon⟩ := hk k s hs
    obtain ⟨r', hr', hon'⟩ := hk (k + 1) t ht
    obtain ⟨h9, h10⟩ := h6 k r r' hr hr'
    refine lt_of_le_of_lt (onPath_dist hj hg hon hon') ?_
    rw [abs_of_nonneg (by nlinarith)]
    exact h10
  · intro s hs
    obtain ⟨r, hr, hon⟩ := hk _ s hs
    rw [g2] at hr
    have := h7 r hr
    have h9 := (onPath_ends hj hg hon).2.2.2
    linarith
  · intro k
    rw [g2]; exact h8 k

theorem smoothPoses_spec (T : Smoother.Terms Pt) (hT : ∀ p, T.move p T.zero = p) (maxIterations : Int)
    (valid : PoseR → Option Bool) (path : List PoseR) (idx : List Nat) {st : SmoothStatus} {r : List PoseR}
    (h : smoothPoses T maxIterations valid path idx = some (st, r)) :
    Reshaped path r ∧ (0 ≤ st.toInt ↔ ∀ p ∈ r, valid p = some true) ∧ ∀ i ∈ idx, r[i]? = path[i]? := by
  unfold smoothPoses at h
  simp only [Option.map_eq_some_iff] at h
  obtain ⟨⟨s, r', n⟩, h, he⟩ := h
  simp only [Prod.mk.injEq] at he
  obtain ⟨rfl, rfl⟩ := he
  obtain ⟨h1, h2, h3⟩ := C59_kept_partial T hT _ _ _ _ _ _ _ h
  have h4 := (C60_status T _ _ _ _ _ _ _ h).2
  have hk : ∀ (j : Nat), r'[j]? = (path.map fun p => (p.position, p.theta))[j]? →
      (r'.map fun p => (⟨p.1, p.2⟩ : PoseR))[j]? = path[j]? := by
    intro j hj
    rw [List.getElem?_map, hj, List.getElem?_map, Option.map_map]
    cases path[j]? <;> rfl
  simp only [List.length_map] at h1 h3
  refine ⟨⟨by simp [h1], ?_, ?_, ?_⟩, ?_, ?_⟩
  · have h2 : r'.map Prod.snd = path.map PoseR.theta := by rw [h2]; simp
    rw [← h2]; simp
  · exact hk 0 (h3 0 (.inl rfl))
  · by_cases hl : path.length = 0
    · have : r'.length = 0 := by omega
      have e1 := List.length_eq_zero_iff.mp hl
      have e2 := List.length_eq_zero_iff.mp this
      subst e1 e2; rfl
    · exact hk _ (h3 _ (.inr (.inl (by omega))))
  · rw [h4]
    simp only [List.mem_map, forall_exists_index, and_imp, forall_apply_eq_imp_iff₂]
  · intro i hi
    exact hk i (h3 i (.inr (.inr ⟨i, by simpa using hi, by omega, by omega⟩)))

/-- The graph search has succeeded, not at the start: the rest of `SearchPath`. -/
theorem finished (e : Propagator) (hc : Configured e) (d : ℝ) (hd : 0 < d) (dflt : PoseR)
    (smooth : List PoseR → List Nat → Option (SmoothStatus × List PoseR)) (old : List PoseR)
    {actions : List Action} {init q : PoseR} (hj : Joined init actions q)
    (hm : ∀ a ∈ actions, Spec.Motion e.param e.goal a ∧ 0 ≤ a.length) (hne : init ≠ q) :
    ∃ states idx, processPath d dflt actions = some (states, idx) ∧ SampledPath actions init q d states ∧
      finish d dflt smooth old .success actions = (smooth states idx).map fun r =>
        (.success, if r.1.toInt < 0 then states else r.2) := by
  have hg : ∀ a ∈ actions, Good a := fun a ha => motion_good hc.radius (hm a ha).1 (hm a ha).2
  have hpos : 0 < motionsLength actions := by
    by_contra hn
    exact hne (length_zero_ends hj hg (not_lt.mp hn))
  obtain ⟨states, idx, h1, h2⟩ := processed d hd dflt hj hg hpos
  refine ⟨states, idx, h1, h2, ?_⟩
  unfold finish
  simp only [Option.bind_eq_bind, h1, Option.bind_some]
  cases smooth states idx with
  | none => rfl
  | some r =>
    simp only [Option.bind_some, Option.map_some]
    split <;> rfl

theorem search_start_goal (e : Propagator) (nbrs : Nat → State → List (State × Action × WithTop ℝ))
    (d : ℝ) (hd : 0 < d) (dflt : PoseR)
    (smooth : List PoseR → List Nat → Option (SmoothStatus × List PoseR)) (old : List PoseR)
    (fuel : Nat) (init : PoseR) (hg : identicalPoses init e.goal = true) :
    searchPath e nbrs d dflt smooth old fuel init = none := by
  unfold searchPath
  cases fuel with
  | zero => rfl
  | succ fuel =>
    obtain ⟨s, h1, h2, h3⟩ := C84_start_is_goal e nbrs init hg fuel d hd dflt smooth old
    simp only [Option.bind_eq_bind, h1, Option.bind_some, h2, List.mapM_nil]
    exact h3

theorem mapM_id_some {α : Type} : ∀ l : List α, (l.map some).mapM id = some l
  | [] => rfl
  | a :: l => by rw [List.map_cons, List.mapM_cons, mapM_id_some l]; rfl

/-- The choice between the samples and the smoothed path. -/
theorem searched (e : Propagator) (hc : Configured e) (random : Nat → ℝ)
    (nbrs : Nat → State → List (State × Action × WithTop ℝ)) (h : e.Answers random nbrs)
    (d : ℝ) (hd : 0 < d) (dflt : PoseR)
    (smooth : List PoseR → List Nat → Option (SmoothStatus × List PoseR)) (old : List PoseR)
    (fuel : Nat) (init : PoseR) (hdiff : identicalPoses init e.goal = false)
    (s : Search State Action (WithTop ℝ))
    (hs : AStar.searchPath (e.problem nbrs) true fuel (stateFromPose e.param init) = some (.success, s)) :
    ∃ actions q states idx, AStar.getActions s = some (actions.map some) ∧ Joined init actions q ∧
      ((q.position - e.goal.position).norm < 1e-3 ∧ |q.theta - e.goal.theta| < 1e-3 * π / 180) ∧
      (∀ a ∈ actions, Spec.Motion e.param e.goal a ∧ 0 ≤ a.length ∧ Checked e.validator a) ∧
      SampledPath actions init q d states ∧ processPath d dflt actions = some (states, idx) ∧
      searchPath e nbrs d dflt smooth old fuel init = (smooth states idx).map fun r =>
        (.success, if r.1.toInt < 0 then states else r.2) := by
  obtain ⟨steps, q, h1, -, h2, h3, h4⟩ := C80_success e hc random nbrs h init fuel s hs
  have hne : init ≠ q := by
    rintro rfl
    rw [(identicalPoses_iff _ _).mpr h3] at hdiff
    cases hdiff
  obtain ⟨states, idx, h5, h6, h7⟩ := finished e hc d hd dflt smooth old h2
    (fun a ha => ⟨(h4 a ha).1, (h4 a ha).2.1⟩) hne
  refine ⟨_, q, states, idx, h1, h2, h3, h4, h6, h5, ?_⟩
  rw [← h7]
  unfold searchPath
  simp only [Option.bind_eq_bind, hs, Option.bind_some, h1, mapM_id_some]

/-- C86: what `SearchPath` of the planner returns. A failure leaves the path as it was. After a success there
are motions of the vehicle that passed the collision checks and lead from the start to a pose within 1 mm and
0.001° of the goal; the returned path has the number of states and the headings of a list of samples of these
motions, at most 2 × `pathInterpolation` apart, and the same first state (the start) and last state (within
1.5 × `pathInterpolation` of that pose); it is that list, or all its states are acceptable. -/
theorem C86_result (e : Propagator) (hc : Configured e) (random : Nat → ℝ)
    (nbrs : Nat → State → List (State × Action × WithTop ℝ)) (h : e.Answers random nbrs)
    (d : ℝ) (hd : 0 < d) (dflt : PoseR) (sp : SmoothParam) (ob ed : Cell → Cell) (maxIterations : Int)
    (old : List PoseR) (fuel : Nat) (init : PoseR) (st : Status) (path : List PoseR)
    (hs : searchPath e nbrs d dflt
      (smoothPoses (sp.terms e.validator.map ob ed) maxIterations e.validator.isStateValid) old fuel init
        = some (st, path)) :
    (st = .failure → path = old) ∧
    (st = .success → ∃ actions q states,
      Joined init actions q ∧
      ((q.position - e.goal.position).norm < 1e-3 ∧ |q.theta - e.goal.theta| < 1e-3 * π / 180) ∧
      (∀ a ∈ actions, Motion e.param e.goal a ∧ 0 ≤ a.length ∧ Checked e.validator a) ∧
      SampledPath actions init q d states ∧ Reshaped states path ∧
      (path = states ∨ ∀ p ∈ path, Acceptable e.validator p)) := by
  have hdiff : identicalPoses init e.goal = false := by
    cases hi : identicalPoses init e.goal with
    | false => rfl
    | true => rw [search_start_goal e nbrs d hd dflt _ old fuel init hi] at hs; cases hs
  cases hgs : AStar.searchPath (e.problem nbrs) true fuel (stateFromPose e.param init) with
  | none =>
    unfold searchPath at hs
    simp only [Option.bind_eq_bind, hgs, Option.bind_none] at hs
    cases hs
  | some r =>
    obtain ⟨gst, s⟩ := r
    cases gst with
    | failure =>
      unfold searchPath at hs
      simp only [Option.bind_eq_bind, hgs, Option.bind_some, finish, Option.some.injEq, Prod.mk.injEq] at hs
      obtain ⟨rfl, rfl⟩ := hs
      exact ⟨fun _ => rfl, fun hf => by cases hf⟩
    | success =>
      obtain ⟨actions, q, states, idx, -, h1, h2, h3, h4, -, h5⟩ := searched e hc random nbrs h d hd dflt
        (smoothPoses (sp.terms e.validator.map ob ed) maxIterations e.validator.isStateValid) old fuel init
        hdiff s hgs
      rw [h5] at hs
      simp only [Option.map_eq_some_iff, Prod.mk.injEq] at hs
      obtain ⟨⟨sst, r⟩, h6, rfl, h7⟩ := hs
      refine ⟨fun hf => (by cases hf), fun _ => ⟨actions, q, states, h1, h2, h3, h4, ?_⟩⟩
      obtain ⟨g1, g2, -⟩ := smoothPoses_spec _ (terms_move_zero sp _ ob ed) _ _ _ _ h6
      dsimp only at h7
      split at h7
      · subst h7
        exact ⟨⟨rfl, rfl, rfl, rfl⟩, .inl rfl⟩
      · rename_i hneg
        subst h7
        refine ⟨g1, .inr fun p hp => ?_⟩
        have hv := g2.mp (not_lt.mp hneg) p hp
        obtain ⟨b, hb, hb'⟩ := C53_state_valid_iff e.validator hc.size p
        rw [hv] at hb
        exact hb'.mp (Option.some.inj hb).symm

/-- C86: the smoothed path is returned exactly if all its states are acceptable, and `SearchPath` ends without
an exception whenever its graph search does, unless the start is the goal (C84). -/
theorem C86_smoothed_or_samples (e : Propagator) (hc : Configured e) (random : Nat → ℝ)
    (nbrs : Nat → State → List (State × Action × WithTop ℝ)) (h : e.Answers random nbrs)
    (d : ℝ) (hd : 0 < d) (dflt : PoseR) (sp : SmoothParam) (ob ed : Cell → Cell) (maxIterations : Int)
    (old : List PoseR) (fuel : Nat) (init : PoseR) (hdiff : identicalPoses init e.goal = false)
    (s : Search State Action (WithTop ℝ))
    (hs : AStar.searchPath (e.problem nbrs) true fuel (stateFromPose e.param init) = some (.success, s)) :
    ∃ states idx sst smoothed path,
      (∃ actions, AStar.getActions s = some (actions.map some) ∧
        processPath d dflt actions = some (states, idx)) ∧
      smoothPoses (sp.terms e.validator.map ob ed) maxIterations e.validator.isStateValid states idx
        = some (sst, smoothed) ∧
      searchPath e nbrs d dflt
        (smoothPoses (sp.terms e.validator.map ob ed) maxIterations e.validator.isStateValid) old fuel init
          = some (.success, path) ∧
      ((∀ p ∈ smoothed, Acceptable e.validator p) → path = smoothed) ∧
      ((∃ p ∈ smoothed, ¬ Acceptable e.validator p) → path = states) := by
  obtain ⟨actions, q, states, idx, h0, -, -, -, -, h4, h5⟩ := searched e hc random nbrs h d hd dflt
    (smoothPoses (sp.terms e.validator.map ob ed) maxIterations e.validator.isStateValid) old fuel init
    hdiff s hs
  have hv : ∀ p, e.validator.isStateValid p = some true ↔ Acceptable e.validator p := by
    intro p
    obtain ⟨b, hb, hb'⟩ := C53_state_valid_iff e.validator hc.size p
    rw [hb, ← hb', Option.some.injEq]
  obtain ⟨r, hr⟩ : ∃ r, smoothPoses (sp.terms e.validator.map ob ed) maxIterations
      e.validator.isStateValid states idx = some r := by
    obtain ⟨sst, r, n, hr⟩ := C59_defined (sp.terms e.validator.map ob ed) maxIterations
      (fun p : Pt × ℝ => e.validator.isStateValid ⟨p.1, p.2⟩) (fun i => decide (i ∈ idx))
      (states.map fun p => (p.position, p.theta)) (by
        intro p
        obtain ⟨b, hb, -⟩ := C53_state_valid_iff e.validator hc.size ⟨p.1, p.2⟩
        rw [hb]; rfl)
    exact ⟨_, by unfold smoothPoses; rw [hr]; rfl⟩
  obtain ⟨sst, r⟩ := r
  obtain ⟨-, g2, -⟩ := smoothPoses_spec _ (terms_move_zero sp _ ob ed) _ _ _ _ hr
  refine ⟨states, idx, sst, r, _, ⟨actions, h0, h4⟩, hr, by rw [h5, hr]; rfl, fun ha => ?_, fun ⟨p, hp, hn⟩ => ?_⟩
  · exact if_neg (not_lt.mpr (g2.mpr fun p hp => (hv p).mpr (ha p hp)))
  · refine if_pos (not_le.mp fun hle => hn ((hv p).mp (g2.mp hle p hp)))

/-- C86: `SearchPath` fails, and leaves the path as it was, exactly if the graph search fails. -/
theorem C86_failure (e : Propagator) (nbrs : Nat → State → List (State × Action × WithTop ℝ))
    (d : ℝ) (dflt : PoseR) (smooth : List PoseR → List Nat → Option (SmoothStatus × List PoseR))
    (old : List PoseR) (fuel : Nat) (init : PoseR) (path : List PoseR) :
    searchPath e nbrs d dflt smooth old fuel init = some (.failure, path) ↔ path = old ∧
      ∃ s, AStar.searchPath (e.problem nbrs) true fuel (stateFromPose e.param init) = some (.failure, s) := by
  unfold searchPath
  cases hgs : AStar.searchPath (e.problem nbrs) true fuel (stateFromPose e.param init) with
  | none => simp
  | some r =>
    obtain ⟨gst, s⟩ := r
    cases gst with
    | failure => simp [finish, eq_comm]
    | success =>
      constructor
      · intro hp
        exfalso
        simp only [Option.bind_eq_bind, Option.bind_some, Option.bind_eq_some_iff, finish] at hp
        obtain ⟨a, -, b, -, c, -, r, -, hr⟩ := hp
        split at hr <;> cases hr
      · rintro ⟨-, s', hs'⟩
        cases hs'

/-- Non-vacuity of the theorems: this planner returns a path from its start (to the goal 1.5 m ahead). -/
example (random : Nat → ℝ) (hr : ∀ k, 0.001 ≤ random k) (sp : SmoothParam) (ob ed : Cell → Cell) :
    ∃ nbrs, exPlanner.Answers random nbrs ∧ ∃ path, searchPath exPlanner nbrs 0.1 exStart
      (smoothPoses (sp.terms exPlanner.validator.map ob ed) 100 exPlanner.validator.isStateValid) [] 2 exStart
        = some (.success, path) ∧ path ≠ [] := by
  obtain ⟨nbrs, h1, s, h2, -⟩ := ex_search random hr
  obtain ⟨states, idx, sst, smoothed, path, -, -, h3, -⟩ := C86_smoothed_or_samples exPlanner
    exPlanner_configured random nbrs h1 0.1 (by norm_num) exStart sp ob ed 100 [] 2 exStart ex_diff s h2
  refine ⟨nbrs, h1, path, h3, ?_⟩
  rintro rfl
  obtain ⟨-, h4⟩ := C86_result exPlanner exPlanner_configured random nbrs h1 0.1 (by norm_num) exStart sp ob ed
    100 [] 2 exStart _ _ h3
  obtain ⟨actions, q, st, -, -, -, h5, h6, -⟩ := h4 rfl
  obtain ⟨x, hx, -⟩ := h5.start
  have := h6.first
  rw [hx] at this
  cases this

end PathPlanning
