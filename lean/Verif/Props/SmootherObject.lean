import Verif.Model.SmootherObject
import Verif.Props.HybridResult
import Verif.Lemmas.Smoother

/-!
# C111: a smoother answers for what was set last
-/

namespace PathPlanning
open Spec SmootherObj HybridAStar

namespace Spec

/-- What the pointers point to after the history. -/
def worldInForce (w0 : SmootherWorld) (h : List SmootherObj.Op) : SmootherWorld :=
  h.foldl (fun w o => match o with | .world w' => w' | _ => w) w0

/-- The validator and the Voronoi diagram of the last `Initialize`, with the map that the validator had then; nothing if
there was none or if it was given a null pointer. -/
def smootherTarget (w0 : SmootherWorld) (h : List SmootherObj.Op) : Option (Nat × Nat × Nat) :=
  (h.foldl (fun (s : SmootherWorld × Option (Nat × Nat × Nat)) o => match o with
    | .world w' => (w', s.2)
    | .init (some v) (some g) _ => (s.1, some (v, s.1.mapOf v, g))
    | .init _ _ _ => (s.1, none)
    | _ => s) (w0, none)).2

/-- The parameters after the history: those set last, or the defaults for the curvature bound of an accepted
`Initialize` that came later. -/
noncomputable def parametersInForce (h : List SmootherObj.Op) : SmoothParam :=
  h.foldl (fun q o => match o with
    | .init (some _) (some _) k => SmoothParam.default k 0
    | .setParameters q' => q'
    | _ => q) (SmoothParam.default 1 0)

end Spec

/-- What the members are after a history. -/
structure SmootherTracked (w0 : SmootherWorld) (h : List SmootherObj.Op) (st : SmootherWorld × SmootherObj) : Prop where
  world : st.1 = worldInForce w0 h
  param : st.2.param = parametersInForce h
  off : smootherTarget w0 h = none → st.2.isInitialized = false
  on : ∀ v m g, smootherTarget w0 h = some (v, m, g) → st.2.isInitialized = true ∧ st.2.validator = some v ∧
    st.2.map = some m ∧ st.2.gvd = some g

theorem target_world (w0 : SmootherWorld) (h : List SmootherObj.Op) : (h.foldl
    (fun (s : SmootherWorld × Option (Nat × Nat × Nat)) o => match o with
      | SmootherObj.Op.world w' => (w', s.2)
      | .init (some v) (some g) _ => (s.1, some (v, s.1.mapOf v, g))
      | .init _ _ _ => (s.1, none)
      | _ => s) (w0, none)).1 = worldInForce w0 h := by
  induction h using List.reverseRecOn with
  | nil => rfl
  | append_singleton l o ih =>
    unfold worldInForce
    rw [List.foldl_append, List.foldl_append]
    simp only [List.foldl_cons, List.foldl_nil]
    cases o with
    | world w => rfl
    | init v g k => rcases v with _ | v <;> rcases g with _ | g <;> exact ih
    | setParameters q => exact ih
    | smooth p c => exact ih

theorem smoother_tracked (w0 : SmootherWorld) (h : List SmootherObj.Op) :
    ∀ st, after (w0, .new) h = some st → SmootherTracked w0 h st := by
  induction h using List.reverseRecOn with
  | nil =>
    intro st hs
    cases hs
    exact ⟨rfl, rfl, fun _ => rfl, fun v m g hh => by cases hh⟩
  | append_singleton l o ih =>
    intro st hs
    unfold after at hs
    rw [List.foldlM_append] at hs
    simp only [Option.bind_eq_bind, Option.bind_eq_some_iff, List.foldlM_cons, List.foldlM_nil, Option.pure_def] at hs
    obtain ⟨st1, h1, st2, h2, h3⟩ := hs
    cases h3
    have t := ih st1 h1
    have hw := target_world w0 l
    have hw1 := t.world
    have htar : smootherTarget w0 (l ++ [o]) = match o with
        | .init (some v) (some g) _ => some (v, (worldInForce w0 l).mapOf v, g)
        | .init _ _ _ => none
        | _ => smootherTarget w0 l := by
      unfold smootherTarget
      rw [List.foldl_append, ← hw]
      simp only [List.foldl_cons, List.foldl_nil]
      cases o with
      | init v g k => rcases v with _ | v <;> rcases g with _ | g <;> rfl
      | _ => rfl
    cases o with
    | world w =>
      cases h2
      refine ⟨by simp [worldInForce], by simpa [parametersInForce] using t.param, fun hh => ?_, fun v m g hh => ?_⟩
      · exact t.off (htar.symm.trans hh)
      · exact t.on v m g (htar.symm.trans hh)
    | init v g k =>
      cases h2
      rcases v with _ | v
      · refine ⟨by simpa [worldInForce] using t.world, by simpa [parametersInForce, SmootherObj.init] using t.param, fun _ => rfl,
          fun v m g hh => by rw [htar] at hh; cases hh⟩
      · rcases g with _ | g
        · refine ⟨by simpa [worldInForce] using t.world, by simpa [parametersInForce, SmootherObj.init] using t.param, fun _ => rfl,
            fun v m g hh => by rw [htar] at hh; cases hh⟩
        · refine ⟨by simpa [worldInForce] using t.world, by simp [parametersInForce, SmootherObj.init], fun hh => ?_,
            fun v' m g' hh => ?_⟩
          · rw [htar] at hh; cases hh
          · rw [htar] at hh
            cases hh
            exact ⟨rfl, rfl, congrArg (fun w => some (SmootherWorld.mapOf w v)) hw1, rfl⟩
    | setParameters q =>
      cases h2
      refine ⟨by simpa [worldInForce] using t.world, by simp [parametersInForce, SmootherObj.setParameters],
        fun hh => ?_, fun v m g hh => ?_⟩
      · exact t.off (htar.symm.trans hh)
      · exact t.on v m g (htar.symm.trans hh)
    | smooth path cusps =>
      obtain ⟨⟨stat, s'⟩, h4, h5⟩ := Option.map_eq_some_iff.mp
        (show (st1.2.smooth st1.1 path cusps).map (fun r => (st1.1, r.2)) = some st from h2)
      have hkeep : s'.isInitialized = st1.2.isInitialized ∧ s'.param = st1.2.param ∧ s'.validator = st1.2.validator ∧
          s'.map = st1.2.map ∧ s'.gvd = st1.2.gvd := by
        unfold SmootherObj.smooth at h4
        split at h4
        · cases h4; exact ⟨rfl, rfl, rfl, rfl, rfl⟩
        · simp only [Option.bind_eq_bind, Option.bind_eq_some_iff, Option.pure_def, Option.some.injEq,
            Prod.mk.injEq] at h4
          obtain ⟨_, _, _, _, _, _, _, _, _, e⟩ := h4
          rw [← e]
          exact ⟨rfl, rfl, rfl, rfl, rfl⟩
      subst h5
      obtain ⟨k1, k2, k3, k4, k5⟩ := hkeep
      refine ⟨by simpa [worldInForce] using t.world, ?_, fun hh => ?_, fun v m g hh => ?_⟩
      · rw [k2]; simpa [parametersInForce] using t.param
      · rw [k1]; exact t.off (htar.symm.trans hh)
      · rw [k1, k3, k4, k5]; exact t.on v m g (htar.symm.trans hh)

/-- C111: whatever was called before, `GetParameters` returns the parameters in force. -/
theorem C111_parameters (w0 : SmootherWorld) (h : List SmootherObj.Op) (w : SmootherWorld) (s : SmootherObj)
    (ha : after (w0, .new) h = some (w, s)) : s.getParameters = parametersInForce h :=
  (smoother_tracked w0 h _ ha).param

/-- C111: `Initialize` accepts exactly a validator and a Voronoi diagram. -/
theorem C111_initialize (s : SmootherObj) (w : SmootherWorld) (v g : Option Nat) (k : ℝ) :
    (s.init w v g k).1 = true ↔ v.isSome ∧ g.isSome := by
  rcases v with _ | v <;> rcases g with _ | g <;> simp [SmootherObj.init]

/-- C111: if the last `Initialize` was not accepted, or there was none, `Smooth` fails and changes nothing. -/
theorem C111_not_initialised (w0 : SmootherWorld) (h : List SmootherObj.Op) (w : SmootherWorld) (s : SmootherObj)
    (ha : after (w0, .new) h = some (w, s)) (hno : smootherTarget w0 h = none) (path : List PoseR) (cusps : List Nat) :
    s.smooth w path cusps = some (.failure, s) := by
  have := (smoother_tracked w0 h _ ha).off hno
  unfold SmootherObj.smooth
  rw [if_pos this]

/-- C111: otherwise `Smooth` works with the parameters in force, the validator and the Voronoi diagram of the last
`Initialize` as they are at the time of the call, and the map that the validator had at the time of `Initialize`. Its
status and `GetPath` are those of the smoothing algorithm (C59, C60, C109) on the given path. Nothing else changes. -/
theorem C111_answers (w0 : SmootherWorld) (h : List SmootherObj.Op) (w : SmootherWorld) (s : SmootherObj)
    (ha : after (w0, .new) h = some (w, s)) (v m g : Nat) (hyes : smootherTarget w0 h = some (v, m, g))
    (path : List PoseR) (cusps : List Nat) :
    w = worldInForce w0 h ∧
    s.smooth w path cusps = (smoothPoses (SmoothParam.terms { parametersInForce h with
        minSafeRadius := w.minSafeRadius v, alpha := w.alpha g, dMax := w.dMax g } (w.frame m) (w.obstacle g) (w.edge g))
      (parametersInForce h).maxIterations (w.valid v) path cusps).map fun r => (r.1, { s with path := r.2 }) := by
  have t := smoother_tracked w0 h _ ha
  obtain ⟨h1, h2, h3, h4⟩ := t.on v m g hyes
  refine ⟨t.world, ?_⟩
  have hp := t.param
  dsimp only at h1 h2 h3 h4 hp
  unfold SmootherObj.smooth
  rw [if_neg (by rw [h1]; decide), h2, h3, h4, hp]
  simp only [Option.bind_eq_bind, Option.bind_some, Option.pure_def]
  cases smoothPoses (SmoothParam.terms { parametersInForce h with
        minSafeRadius := w.minSafeRadius v, alpha := w.alpha g, dMax := w.dMax g } (w.frame m) (w.obstacle g) (w.edge g))
      (parametersInForce h).maxIterations (w.valid v) path cusps <;> rfl

/-- C111: calls other than `Smooth` do not change the path, which is empty at first. -/
theorem C111_kept (st st' : SmootherWorld × SmootherObj) (o : SmootherObj.Op) (hc : call st o = some st')
    (hno : ∀ path cusps, o ≠ .smooth path cusps) : st'.2.getPath = st.2.getPath ∧ SmootherObj.new.getPath = [] := by
  refine ⟨?_, rfl⟩
  cases o with
  | world w => cases hc; rfl
  | init v g k => cases hc; rcases v with _ | v <;> rcases g with _ | g <;> rfl
  | setParameters q => cases hc; rfl
  | smooth path cusps => exact absurd rfl (hno path cusps)

/-- C111: if the validators answer for every pose, every history of calls can be executed: no null pointer is
dereferenced and nothing is read or written outside of a vector. -/
theorem C111_defined (w0 : SmootherWorld) (hv0 : ∀ v p, (w0.valid v p).isSome) (h : List SmootherObj.Op)
    (hv : ∀ w, .world w ∈ h → ∀ v p, (w.valid v p).isSome) :
    ∃ st, after (w0, .new) h = some st := by
  have hworld : ∀ l : List SmootherObj.Op, (∀ w, .world w ∈ l → ∀ v p, (w.valid v p).isSome) →
      ∀ v p, ((worldInForce w0 l).valid v p).isSome := by
    intro l
    induction l using List.reverseRecOn with
    | nil => intro _; exact hv0
    | append_singleton l o ih =>
      intro hl
      have ih := ih fun w hw => hl w (List.mem_append_left _ hw)
      unfold worldInForce
      rw [List.foldl_append]
      simp only [List.foldl_cons, List.foldl_nil]
      cases o with
      | world w => exact hl w (List.mem_append_right _ (List.mem_singleton.mpr rfl))
      | _ => exact ih
  induction h using List.reverseRecOn with
  | nil => exact ⟨_, rfl⟩
  | append_singleton l o ih =>
    obtain ⟨⟨w, s⟩, hs⟩ := ih fun w hw => hv w (List.mem_append_left _ hw)
    have e : after (w0, .new) (l ++ [o]) = call (w, s) o := by
      unfold after at hs ⊢
      rw [List.foldlM_append, hs]
      simp only [Option.bind_eq_bind, Option.bind_some, List.foldlM_cons, List.foldlM_nil]
      cases call (w, s) o <;> rfl
    rw [e]
    cases o with
    | world w => exact ⟨_, rfl⟩
    | init v g k => exact ⟨_, rfl⟩
    | setParameters q => exact ⟨_, rfl⟩
    | smooth path cusps =>
      unfold call
      dsimp only
      cases ht : smootherTarget w0 l with
      | none => rw [C111_not_initialised w0 l w s hs ht]; exact ⟨_, rfl⟩
      | some vmg =>
        obtain ⟨v, m, g⟩ := vmg
        obtain ⟨hw, ha⟩ := C111_answers w0 l w s hs v m g ht path cusps
        rw [ha]
        obtain ⟨a, b, c, hd⟩ := C59_defined (SmoothParam.terms { parametersInForce l with
          minSafeRadius := w.minSafeRadius v, alpha := w.alpha g, dMax := w.dMax g } (w.frame m) (w.obstacle g)
          (w.edge g)) (parametersInForce l).maxIterations (fun p : Pt × ℝ => w.valid v ⟨p.1, p.2⟩)
          (fun i => decide (i ∈ cusps)) (path.map fun p => (p.position, p.theta))
          (fun p => by rw [hw]; exact hworld l (fun w hw => hv w (List.mem_append_left _ hw)) v _)
        unfold smoothPoses
        rw [hd]
        exact ⟨_, rfl⟩

/-- Parameters set before `Initialize` are lost, those set afterwards are used; a smoother that was initialised and then
given a null pointer fails, with the path of before. -/
example (w0 : SmootherWorld) (q q' : SmoothParam) (k : ℝ) (path : List PoseR) :
    parametersInForce [.setParameters q, .init (some 3) (some 4) k] = SmoothParam.default k 0 ∧
    parametersInForce [.setParameters q, .init (some 3) (some 4) k, .setParameters q', .smooth path []] = q' ∧
    smootherTarget w0 [.setParameters q, .init (some 3) (some 4) k, .setParameters q', .smooth path []]
      = some (3, w0.mapOf 3, 4) ∧
    smootherTarget w0 [.init (some 3) (some 4) k, .smooth path [], .init none (some 4) k] = none :=
  ⟨rfl, rfl, rfl, rfl⟩

end PathPlanning
