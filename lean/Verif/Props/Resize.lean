import Verif.Model.Resize
import Verif.Model.Validator
import Verif.Props.MapUpdate
import Verif.Props.VoronoiLate

/-!
# C125: setting the size of a map again

A second validator for the same map (or another call of `InitializeSize`) should not make the map forget its
obstacles, nor detach the diagrams that exist. It does both. What holds: a map without obstacles and diagrams is as
new, and an obstacle that is removed and added again is seen.
-/

namespace PathPlanning
open Spec
namespace SizedMap

/-- The obstacle calls of a history. -/
def obstacleCallsOf (ops : List Op) : List ObsMap.Op :=
  ops.filterMap fun op => match op with
    | .on (.obstacle o) => some o
    | _ => none

/-- The calls that do not register, remove or resize anything, given which obstacles are registered: updates,
diagrams, other shapes and poses, and attempts to add an obstacle that is registered. -/
def Keeps (registered : Nat → Prop) : Op → Prop
  | .size _ _ _ => False
  | .on (.obstacle (.add o)) => registered o
  | .on (.obstacle (.remove _)) => False
  | .on (.obstacle (.move _ _)) => True
  | _ => True

/-- What does not change after the size is set again. -/
structure Blind (obstacles : List (Nat × Nat)) (rows columns : Int) (s : SizedMap) : Prop where
  obstacles : s.cur.obs.obstacles = obstacles
  matrix : s.cur.obs.matrix = some fun _ => -1
  core : s.cur.dist.core = .new rows columns

theorem mapCall_update_idle {c c' : MapState} (h : MapState.Call c .update c') (hq : c.dist.core.queue = []) :
    c' = c := by
  cases h with
  | update hf hu =>
    cases hu with
    | update hu => rw [hu.idle hq]

theorem mapCall_updateEdges {c c' : MapState} (h : MapState.Call c .updateEdges c') :
    c'.obs = c.obs ∧ c'.dist.core = c.dist.core := by
  cases h with
  | updateEdges hu =>
    cases hu with
    | updateEdges _ _ => exact ⟨rfl, rfl⟩

theorem mapCall_link {c c' : MapState} (h : MapState.Call c .link c') :
    c'.obs = c.obs ∧ c'.dist.core = c.dist.core := by
  cases h with
  | link hu =>
    cases hu with
    | link =>
      refine ⟨rfl, ?_⟩
      show c.dist.linkVoronoi.core = _
      unfold ObstDistMap.linkVoronoi
      split <;> rfl

theorem blind_call {l : List (Nat × Nat)} {rows columns : Int} {s s' : SizedMap} {op : Op}
    (hb : Blind l rows columns s) (c : Call s op s') (hk : Keeps (fun o => o ∈ l.map Prod.fst) op) :
    Blind l rows columns s' ∧ s'.map = s.map := by
  obtain ⟨ho, hm, hc⟩ := hb
  have hq : s.cur.dist.core.queue = [] := by rw [hc]; rfl
  cases c with
  | size _ _ => exact hk.elim
  | diagram h =>
    obtain ⟨h1, h2⟩ := mapCall_link h
    exact ⟨⟨by rw [← ho, ← h1], by rw [← hm, ← h1], by rw [← hc, ← h2]⟩, rfl⟩
  | updateOld _ _ _ _ => exact ⟨⟨ho, hm, hc⟩, rfl⟩
  | updateCurrent _ h h' =>
    obtain rfl := mapCall_update_idle h hq
    obtain ⟨h1, h2⟩ := mapCall_updateEdges h'
    exact ⟨⟨by rw [← ho, ← h1], by rw [← hm, ← h1], by rw [← hc, ← h2]⟩, rfl⟩
  | @on op c h =>
    refine ⟨?_, rfl⟩
    cases op with
    | link =>
      obtain ⟨h1, h2⟩ := mapCall_link h
      exact ⟨by rw [← ho, ← h1], by rw [← hm, ← h1], by rw [← hc, ← h2]⟩
    | update =>
      obtain rfl := mapCall_update_idle h hq
      exact ⟨ho, hm, hc⟩
    | updateEdges =>
      obtain ⟨h1, h2⟩ := mapCall_updateEdges h
      exact ⟨by rw [← ho, ← h1], by rw [← hm, ← h1], by rw [← hc, ← h2]⟩
    | obstacle o =>
      cases h with
      | @obstacle _ m d calls h1 h2 h3 =>
        cases o with
        | remove o => exact hk.elim
        | move o cells =>
          simp only [ObsMap.call, Option.some.injEq] at h1
          subst h1
          have hcalls : calls = [] := by
            have h2 : s.cur.obs.distCalls = s.cur.obs.distCalls ++ calls := h2
            simpa using h2
          subst hcalls
          cases h3
          exact ⟨ho, hm, hc⟩
        | add o =>
          have hreg : s.cur.obs.obstacles.any (fun e => e.1 == o) = true := by
            have hk : o ∈ l.map Prod.fst := hk
            rw [← ho] at hk
            obtain ⟨e, he, heo⟩ := List.mem_map.mp hk
            exact List.any_eq_true.mpr ⟨e, he, by simp [heo]⟩
          have hadd : s.cur.obs.addObstacle o = some (s.cur.obs, false) := by
            unfold ObsMap.addObstacle
            rw [hm]
            simp [hreg]
          simp only [ObsMap.call, hadd, Option.map_some, Option.some.injEq] at h1
          subst h1
          have hcalls : calls = [] := by simpa using h2
          subst hcalls
          cases h3
          exact ⟨ho, hm, hc⟩

theorem blind_run {l : List (Nat × Nat)} {rows columns : Int} {s s' : SizedMap} {ops : List Op}
    (hb : Blind l rows columns s) (r : Run s ops s') (hk : ∀ op ∈ ops, Keeps (fun o => o ∈ l.map Prod.fst) op) :
    Blind l rows columns s' ∧ s'.map = s.map := by
  induction r with
  | nil => exact ⟨hb, rfl⟩
  | snoc r c ih =>
    obtain ⟨h1, h2⟩ := ih (fun op h => hk op (List.mem_append_left _ h))
    obtain ⟨h3, h4⟩ := blind_call h1 c (hk _ (by simp))
    exact ⟨h3, h4.trans h2⟩

theorem keeps_congr {p q : Nat → Prop} (h : ∀ o, p o ↔ q o) {op : Op} (hk : Keeps p op) : Keeps q op := by
  cases op with
  | on op => cases op with
    | obstacle o => cases o with
      | add o => exact (h o).mp hk
      | remove o => exact hk
      | move _ _ => trivial
    | _ => trivial
  | size _ _ _ => exact hk
  | _ => trivial

theorem blind_size {s s1 : SizedMap} {w h : ℝ} {cells : Nat → List Cell} (c : Call s (.size w h cells) s1) :
    Blind s.cur.obs.obstacles s1.map.rows s1.map.columns s1 := by
  cases c with
  | size _ _ => exact ⟨rfl, rfl, rfl⟩

/-! ## Which obstacles are registered -/

/-- The same obstacles with the same identifiers. -/
structure SameList (m m' : ObsMap) : Prop where
  obstacles : m.obstacles = m'.obstacles
  ids : m.ids = m'.ids
  matrix : (∃ f, m.matrix = some f) ∧ ∃ f, m'.matrix = some f

theorem sameList_call {m m' n : ObsMap} (hs : SameList m m') {o : ObsMap.Op} (hc : m.call o = some n) :
    ∃ n', m'.call o = some n' ∧ SameList n n' := by
  obtain ⟨ho, hi, ⟨f, hf⟩, f', hf'⟩ := hs
  cases o with
  | move o cells =>
    cases hc
    exact ⟨_, rfl, ho, hi, ⟨f, hf⟩, f', hf'⟩
  | add o =>
    simp only [ObsMap.call, ObsMap.addObstacle, hf, hf', ← ho, ← hi] at hc ⊢
    split at hc
    · rename_i h
      simp only [Option.map_some, Option.some.injEq] at hc
      subst hc
      exact ⟨m', by rw [if_pos h]; rfl, ho, hi, ⟨f, hf⟩, f', hf'⟩
    · rename_i h
      simp only [Option.map_some, Option.some.injEq] at hc
      subst hc
      refine ⟨_, by rw [if_neg h, Option.map_some], ?_, ?_, ⟨_, rfl⟩, _, rfl⟩ <;> rfl
  | remove o =>
    simp only [ObsMap.call, ObsMap.removeObstacle, hf, hf', ← ho, ← hi] at hc ⊢
    cases h : m.obstacles.find? (fun e => e.1 == o) with
    | none =>
      simp only [h, Option.map_some, Option.some.injEq] at hc
      subst hc
      exact ⟨m', rfl, ho, hi, ⟨f, hf⟩, f', hf'⟩
    | some e =>
      simp only [h, Option.map_some, Option.some.injEq] at hc
      subst hc
      exact ⟨_, rfl, rfl, rfl, ⟨_, rfl⟩, _, rfl⟩

theorem mapCall_list {c c' : MapState} {op : MapState.Op} (h : MapState.Call c op c') (ho : ∀ o, op ≠ .obstacle o) :
    c'.obs = c.obs := by
  cases h with
  | obstacle _ _ _ => exact absurd rfl (ho _)
  | link _ => rfl
  | update _ _ => rfl
  | updateEdges _ => rfl

theorem list_run {m0 : OccMap} {ops : List Op} {s : SizedMap} (r : Run (start m0) ops s) :
    ∃ m, ObsMap.new.initializeSize.run (obstacleCallsOf ops) = some m ∧ SameList s.cur.obs m := by
  obtain ⟨s0, hs0⟩ : ∃ s0, s0 = start m0 := ⟨_, rfl⟩
  rw [← hs0] at r
  induction r with
  | nil =>
    subst hs0
    exact ⟨_, rfl, rfl, rfl, ⟨_, rfl⟩, _, rfl⟩
  | @snoc s' s'' os op r c ih =>
    obtain ⟨m, hr, hm⟩ := ih
    have happ : obstacleCallsOf (os ++ [op]) = obstacleCallsOf os ++ obstacleCallsOf [op] := List.filterMap_append
    rw [happ]
    have hid : ∀ n : ObsMap, s''.cur.obs = n → SameList n m → obstacleCallsOf [op] = [] →
        ∃ m, ObsMap.new.initializeSize.run (obstacleCallsOf os ++ obstacleCallsOf [op]) = some m ∧
          SameList s''.cur.obs m := by
      intro n hn hs h
      rw [h, List.append_nil]
      exact ⟨m, hr, hn ▸ hs⟩
    cases c with
    | size _ _ => exact hid _ rfl ⟨hm.obstacles, hm.ids, ⟨_, rfl⟩, hm.matrix.2⟩ rfl
    | diagram h => exact hid _ (mapCall_list h (by intro o h; cases h)) hm rfl
    | updateOld _ _ _ _ => exact hid _ rfl hm rfl
    | updateCurrent _ h h' =>
      exact hid _ ((mapCall_list h' (by intro o h; cases h)).trans (mapCall_list h (by intro o h; cases h))) hm rfl
    | @on op' c h =>
      cases op' with
      | link => exact hid _ (mapCall_list h (by intro o h; cases h)) hm rfl
      | update => exact hid _ (mapCall_list h (by intro o h; cases h)) hm rfl
      | updateEdges => exact hid _ (mapCall_list h (by intro o h; cases h)) hm rfl
      | obstacle o =>
        cases h with
        | obstacle h1 _ _ =>
          obtain ⟨n', h2, h3⟩ := sameList_call hm h1
          refine ⟨n', ?_, h3⟩
          rw [ObsMap.run_append', hr]
          show Option.bind (m.call o) _ = _
          rw [h2]
          rfl

/-- The registered obstacles are those of the list. -/
theorem mem_iff_registered {m0 : OccMap} {ops : List Op} {s : SizedMap} (r : Run (start m0) ops s) (o : Nat) :
    o ∈ s.cur.obs.obstacles.map Prod.fst ↔ registered (obstacleCallsOf ops) o = true := by
  obtain ⟨m, hr, hm⟩ := list_run r
  rw [(C31_identifiers_unique _ m hr).1 o, hm.obstacles]
  simp

/-- **C125 is violated**: whatever happened before, setting the size of a map again makes it forget its obstacles.
All of them stay registered, but no cell is occupied or near an obstacle. Updates, diagrams, other poses and shapes,
and adding the obstacles again (which is refused) change nothing of this. -/
theorem C125_obstacles_forgotten {m0 : OccMap} {s s1 s2 : SizedMap} {before rest : List Op} {w h : ℝ}
    {cells : Nat → List Cell} (r0 : Run (start m0) before s)
    (c : Call s (.size w h cells) s1) (r : Run s1 rest s2)
    (hk : ∀ op ∈ rest, Keeps (fun o => registered (obstacleCallsOf before) o = true) op) :
    s2.cur.obs.getNumObstacles = s.cur.obs.getNumObstacles ∧
    (∀ cell, s2.cur.obs.isOccupied cell = some false ∧ s2.cur.dist.core.dist cell = ⊤) ∧
    ∀ o, registered (obstacleCallsOf before) o = true → s2.cur.obs.addObstacle o = some (s2.cur.obs, false) := by
  obtain ⟨⟨h1, h2, h3⟩, -⟩ := blind_run (blind_size c) r fun op ho => keeps_congr (fun o => (mem_iff_registered r0 o).symm) (hk op ho)
  refine ⟨by unfold ObsMap.getNumObstacles; rw [h1], fun cell => ⟨?_, ?_⟩, fun o ho => ?_⟩
  · unfold ObsMap.isOccupied; rw [h2]; rfl
  · rw [h3]; rfl
  · have hreg : s2.cur.obs.obstacles.any (fun e => e.1 == o) = true := by
      rw [h1]
      obtain ⟨e, he, heo⟩ := List.mem_map.mp ((mem_iff_registered r0 o).mpr ho)
      exact List.any_eq_true.mpr ⟨e, he, by simp [heo]⟩
    unfold ObsMap.addObstacle
    rw [h2]
    simp [hreg]

/-- **C125 is violated**, for the validator: it accepts every state within the bounds of the map and of the state
space, wherever the registered obstacles are. -/
theorem C125_validator_sees_nothing {m0 : OccMap} {s s1 s2 : SizedMap} {before rest : List Op} {w h : ℝ}
    {cells : Nat → List Cell} (r0 : Run (start m0) before s)
    (c : Call s (.size w h cells) s1) (r : Run s1 rest s2)
    (hk : ∀ op ∈ rest, Keeps (fun o => registered (obstacleCallsOf before) o = true) op)
    (v : Validator) (hmap : v.map = s2.map) (hdist : v.dist = s2.cur.dist.core)
    (hsafe : v.minSafe ≤ worldDistance v.map.resolution ⊤) (p : PoseR)
    (hb : v.space.validateBounds (PoseR.mk' (v.map.worldPositionToLocalPosition p.position) p.theta) = true)
    (hin : v.map.isInsidePos p.position = true) : v.isStateValid p = some true := by
  obtain ⟨⟨h1, h2, h3⟩, h4⟩ := blind_run (blind_size c) r fun op ho => keeps_congr (fun o => (mem_iff_registered r0 o).symm) (hk op ho)
  have hin' : v.map.isInsideCell (v.map.worldPositionToGridCell p.position true) = true := hin
  have hv : v.dist = .new v.map.rows v.map.columns := by rw [hdist, h3, hmap, h4]
  unfold Validator.isStateValid
  dsimp only
  rw [hb, hin']
  simp only [Bool.not_true, Bool.or_self, Bool.false_eq_true, if_false]
  unfold Validator.obstacleDistance DistMap.read
  rw [hv]
  have : (DistMap.new v.map.rows v.map.columns).inside (v.map.worldPositionToGridCell p.position true) = true := hin'
  rw [if_pos this]
  simp only [Option.map_some, Option.some.injEq, decide_eq_true_eq]
  exact hsafe

/-! ## Diagrams -/

/-- Updates of a distance map that was replaced. -/
def OldUpdate (f : Cell → Int) (d d' : ObstDistMap) : Prop :=
  ∃ d1, ObstDistMap.Call d (.update f) d1 ∧ ObstDistMap.Call d1 .updateEdges d'

theorem old_run {s s' : SizedMap} {ops : List Op} (r : Run s ops s') {k : Nat} {f : Cell → Int} {d : ObstDistMap}
    (hk : s.old[k]? = some (f, d)) :
    ∃ d', s'.old[k]? = some (f, d') ∧ Relation.ReflTransGen (OldUpdate f) d d' := by
  induction r with
  | nil => exact ⟨d, hk, .refl⟩
  | snoc r c ih =>
    obtain ⟨d', h1, h2⟩ := ih
    have hlt := (List.getElem?_eq_some_iff.mp h1).1
    cases c with
    | size _ _ =>
      refine ⟨d', ?_, h2⟩
      show (_ ++ _)[k]? = _
      rw [List.getElem?_append_left hlt]; exact h1
    | on _ => exact ⟨d', h1, h2⟩
    | diagram _ => exact ⟨d', h1, h2⟩
    | updateCurrent _ _ _ => exact ⟨d', h1, h2⟩
    | @updateOld i k' f' e d1 d2 _ hk' u1 u2 =>
      show ∃ d', (List.set _ k' (f', d2))[k]? = some (f, d') ∧ _
      rw [List.getElem?_set]
      by_cases hkk : k' = k
      · subst hkk
        rw [if_pos rfl, if_pos hlt]
        rw [h1] at hk'
        simp only [Option.some.injEq, Prod.mk.injEq] at hk'
        obtain ⟨rfl, rfl⟩ := hk'
        exact ⟨d2, rfl, h2.tail ⟨d1, u1, u2⟩⟩
      · rw [if_neg hkk]
        exact ⟨d', h1, h2⟩

theorem diagrams_run {s s' : SizedMap} {ops : List Op} (r : Run s ops s') {i k : Nat}
    (hi : s.diagrams[i]? = some k) : s'.diagrams[i]? = some k := by
  induction r with
  | nil => exact hi
  | snoc r c ih =>
    have h := ih
    cases c with
    | size _ _ => exact h
    | on _ => exact h
    | diagram _ =>
      show (_ ++ _)[i]? = _
      rw [List.getElem?_append_left (List.getElem?_eq_some_iff.mp h).1]; exact h
    | updateCurrent _ _ _ => exact h
    | updateOld _ _ _ _ => exact h

theorem old_length {s s' : SizedMap} {ops : List Op} (r : Run s ops s') : s.old.length ≤ s'.old.length := by
  induction r with
  | nil => exact le_rfl
  | snoc r c ih =>
    cases c with
    | size _ _ => simp; omega
    | on _ => exact ih
    | diagram _ => exact ih
    | updateCurrent _ _ _ => exact ih
    | updateOld _ _ _ _ => simpa using ih

theorem oldUpdates_idle {f : Cell → Int} {d d' : ObstDistMap} (h : Relation.ReflTransGen (OldUpdate f) d d')
    (hq : d.core.queue = []) : d'.core = d.core ∧ d'.core.queue = [] := by
  induction h with
  | refl => exact ⟨rfl, hq⟩
  | tail _ u ih =>
    obtain ⟨d1, u1, u2⟩ := u
    cases u1 with
    | update u1 =>
      rw [u1.idle ih.2] at u2
      cases u2 with
      | updateEdges _ _ => exact ih

/-- **C125 is violated**, for diagrams: a diagram that was up to date when the size of its map was set again shows the
distances of that moment forever, whatever obstacles are added or removed, and however often the map and the diagram
are updated. -/
theorem C125_diagram_left_behind {s s1 s2 : SizedMap} {w h : ℝ} {cells : Nat → List Cell} {rest : List Op}
    (c : Call s (.size w h cells) s1) (r : Run s1 rest s2) {i : Nat} (hi : s.diagrams[i]? = some s.old.length)
    (hq : s.cur.dist.core.queue = []) :
    ∃ d, s2.diagramMap i = some d ∧ d.core = s.cur.dist.core := by
  cases c with
  | @size _ _ _ m f hm hf =>
    have h0 : (s.old ++ [(f, s.cur.dist)])[s.old.length]? = some (f, s.cur.dist) := by
      rw [List.getElem?_append_right le_rfl]; simp
    obtain ⟨d, h1, h2⟩ := old_run r (k := s.old.length) h0
    have h3 := diagrams_run r (i := i) hi
    have h4 := (List.getElem?_eq_some_iff.mp h1).1
    refine ⟨d, ?_, ?_⟩
    · unfold diagramMap
      rw [h3]
      dsimp only
      rw [if_neg (by omega), h1]
      rfl
    · exact (oldUpdates_idle h2 hq).1

/-- **C125 is violated**, for diagrams: asked for the distance at a position of the map that the diagram's own matrix
does not have, the diagram reads outside the matrix. -/
theorem C125_diagram_outside {s s1 s2 : SizedMap} {w h : ℝ} {cells : Nat → List Cell} {rest : List Op}
    (c : Call s (.size w h cells) s1) (r : Run s1 rest s2) {i : Nat} (hi : s.diagrams[i]? = some s.old.length)
    (hq : s.cur.dist.core.queue = []) (p : Pt) (out : WithTop Nat)
    (hin : s2.map.isInsideCell (s2.map.worldPositionToGridCell p false) = true)
    (hout : s.cur.dist.core.inside (s2.map.worldPositionToGridCell p false) = false) :
    s2.diagramDistance i p out = none := by
  obtain ⟨d, h1, h2⟩ := C125_diagram_left_behind c r hi hq
  unfold diagramDistance
  dsimp only
  rw [h1]
  dsimp only
  rw [if_pos hin, h2]
  unfold DistMap.read
  rw [if_neg (by simp [hout])]
  rfl

/-! ## What holds -/

/-- C125, for a map on which no obstacle is registered: setting its size again gives the matrix, the list of
obstacles and the distance map of a new map of that size, whatever happened before. -/
theorem C125_empty_partial {m0 : OccMap} {s s1 : SizedMap} {before : List Op} {w h : ℝ} {cells : Nat → List Cell}
    (r0 : Run (start m0) before s) (hnone : ∀ o, registered (obstacleCallsOf before) o = false)
    (c : Call s (.size w h cells) s1) :
    s.map.initializeSize w h = some s1.map ∧
    s1.cur = ⟨{ ObsMap.new.initializeSize with boundary := cells }, .new s1.map.rows s1.map.columns⟩ := by
  have hobs : s.cur.obs.obstacles = [] := by
    rw [List.eq_nil_iff_forall_not_mem]
    intro e he
    have := (mem_iff_registered r0 e.1).mp (List.mem_map.mpr ⟨e, he, rfl⟩)
    rw [hnone] at this
    cases this
  have hids : s.cur.obs.ids = [] := by
    obtain ⟨m, hr, hm⟩ := list_run r0
    rw [List.eq_nil_iff_forall_not_mem]
    intro i hi
    rw [hm.ids, ObsMap.ids_iff _ m hr, ← hm.obstacles, hobs] at hi
    obtain ⟨o, ho⟩ := hi
    cases ho
  cases c with
  | size hm hf =>
    refine ⟨hm, ?_⟩
    simp only [ObsMap.initializeSize, ObsMap.new, hobs, hids]

theorem distRun_sets : ∀ (l : List Cell) {d d' : ObstDistMap}, ObstDistMap.Run d ((l.map DistCall.set).map MapState.distOp) d' →
    (∀ c, c ∈ l ∨ d.core.dist c = 0 → d'.core.dist c = 0)
  | [], d, d', r, c, hc => by
    cases r
    exact hc.resolve_left (by simp)
  | a :: l, d, d', r, c, hc => by
    cases r with
    | cons h r =>
      refine distRun_sets l r c ?_
      cases h with
      | set h =>
        unfold DistMap.set at h
        split at h
        · cases h
          show c ∈ l ∨ setAt _ _ _ c = 0
          unfold setAt
          split
          · exact .inr rfl
          · rename_i hne
            rcases hc with hc | hc
            · exact .inl ((List.mem_cons.mp hc).resolve_left hne)
            · exact .inr hc
        · cases h

theorem run_snoc {s s'' : SizedMap} {os : List Op} {o : Op} (r : Run s (os ++ [o]) s'') :
    ∃ s', Run s os s' ∧ Call s' o s'' := by
  generalize hl : os ++ [o] = l at r
  cases r with
  | nil => simp at hl
  | snoc r c =>
    obtain ⟨rfl, h⟩ := List.append_inj' hl rfl
    cases h
    exact ⟨_, r, c⟩

theorem run_nil {s s' : SizedMap} (r : Run s [] s') : s' = s := by
  generalize hl : ([] : List Op) = l at r
  cases r with
  | nil => rfl
  | snoc r c => simp at hl

/-- C125, for an obstacle that is removed and added again after the size was set: it occupies its cells, and the
distance map has the distance 0 there. -/
theorem C125_readd_partial {s s1 s2 : SizedMap} {w h : ℝ} {cells : Nat → List Cell} {o : Nat}
    (c : Call s (.size w h cells) s1)
    (r : Run s1 [.on (.obstacle (.remove o)), .on (.obstacle (.add o))] s2) :
    ∀ cell ∈ cells o, s2.cur.obs.isOccupied cell = some true ∧ s2.cur.dist.core.dist cell = 0 := by
  obtain ⟨s', r, c2⟩ := run_snoc (os := [.on (.obstacle (.remove o))]) r
  obtain ⟨s'', r, c1⟩ := run_snoc (os := []) r
  obtain rfl := run_nil r
  have hb : s''.cur.obs.boundary = cells ∧ ∃ f, s''.cur.obs.matrix = some f := by
    cases c with
    | size _ _ => exact ⟨rfl, _, rfl⟩
  obtain ⟨hb, f, hf⟩ := hb
  have h1 : s'.cur.obs.boundary = cells ∧ (∃ f, s'.cur.obs.matrix = some f) ∧
      s'.cur.obs.obstacles.any (fun e => e.1 == o) = false := by
    cases c1 with
    | on c1 =>
      cases c1 with
      | @obstacle _ m d calls h1 h2 h3 =>
        show m.boundary = _ ∧ (∃ f, m.matrix = _) ∧ m.obstacles.any _ = _
        simp only [ObsMap.call, ObsMap.removeObstacle, hf] at h1
        cases he : s''.cur.obs.obstacles.find? (fun e => e.1 == o) with
        | none =>
          simp only [he, Option.map_some, Option.some.injEq] at h1
          subst h1
          refine ⟨hb, ⟨f, hf⟩, ?_⟩
          simpa using he
        | some e =>
          simp only [he, Option.map_some, Option.some.injEq] at h1
          subst h1
          refine ⟨hb, ⟨_, rfl⟩, ?_⟩
          simp
  obtain ⟨hb', ⟨g, hg⟩, hno⟩ := h1
  intro cell hcell
  cases c2 with
  | on c2 =>
    cases c2 with
    | @obstacle _ m d calls h1 h2 h3 =>
      show m.isOccupied cell = _ ∧ d.core.dist cell = 0
      simp only [ObsMap.call, ObsMap.addObstacle, hg, hno, hb', Bool.false_eq_true, if_false, Option.map_some,
        Option.some.injEq] at h1
      subst h1
      refine ⟨?_, ?_⟩
      · simp only [ObsMap.isOccupied, Option.map_some, Option.some.injEq, decide_eq_true_eq]
        rw [ObsMap.foldl_write', if_pos hcell]
        omega
      · have : calls = (cells o).map .set := List.append_cancel_left h2.symm
        subst this
        exact distRun_sets _ h3 cell (.inl hcell)

/-! ## Cases that meet the hypotheses -/

section Examples

/-- A map of two by two cells of size 1. -/
private noncomputable def two : OccMap := ⟨1, 2, 2, ⟨0, 0⟩, ⟨-1, -1⟩, ⟨-1, -1⟩⟩

private theorem two_size (w : ℝ) (n : ℕ) (hw : w = n) (hn : 0 < n) :
    two.initializeSize w w = some ⟨1, n, n, ⟨0, 0⟩, ⟨-w / 2, -w / 2⟩, ⟨0, 0⟩ + ⟨-w / 2, -w / 2⟩⟩ := by
  subst hw
  have : ⌈(n : ℝ) / 1⌉ = n := by simp
  unfold OccMap.initializeSize two
  dsimp only
  rw [this, if_pos ⟨by exact_mod_cast hn, by exact_mod_cast hn⟩]

private def obstacleCells : Nat → List Cell := fun x => if x = 5 then [⟨0, 0⟩] else []

/-- A map with an obstacle, and a diagram that is not updated. -/
private theorem withObstacle : ∃ s, Run (start two)
    [.on (.obstacle (.move 5 [⟨0, 0⟩])), .on (.obstacle (.add 5))] s ∧ s.map = two ∧ s.old = [] ∧
    s.cur.obs.getNumObstacles = 1 ∧ s.cur.obs.isOccupied ⟨0, 0⟩ = some true := by
  refine ⟨_, .snoc (os := [_]) (.snoc .nil (.on (.obstacle (calls := []) rfl rfl .nil)))
    (.on (.obstacle (calls := [.set ⟨0, 0⟩]) rfl rfl (.cons (.set rfl) .nil))), rfl, rfl, rfl, rfl⟩

/-- The hypotheses of `C125_readd_partial`, for an obstacle that was registered. -/
example : ∃ s s1 s2, Run (start two) [.on (.obstacle (.move 5 [⟨0, 0⟩])), .on (.obstacle (.add 5))] s ∧
    Call s (.size 2 2 obstacleCells) s1 ∧
    Run s1 [.on (.obstacle (.remove 5)), .on (.obstacle (.add 5))] s2 ∧ ⟨0, 0⟩ ∈ obstacleCells 5 := by
  have r : Run (start two) [.on (.obstacle (.move 5 [⟨0, 0⟩])), .on (.obstacle (.add 5))] _ :=
    .snoc (os := [_]) (.snoc .nil (.on (.obstacle (calls := []) rfl rfl .nil)))
    (.on (.obstacle (calls := [.set ⟨0, 0⟩]) rfl rfl (.cons (.set rfl) .nil)))
  have hsize := two_size 2 2 (by norm_num) (by norm_num)
  refine ⟨_, _, _, r, .size hsize rfl, .snoc (os := [_])
    (.snoc .nil (.on (.obstacle (calls := [.unset ⟨0, 0⟩]) rfl rfl (.cons (.unset rfl) .nil))))
    (.on (.obstacle (calls := [.set ⟨0, 0⟩]) rfl rfl (.cons (.set rfl) .nil))), by simp [obstacleCells]⟩

/-- The hypotheses of `C125_obstacles_forgotten`: an obstacle occupies a cell, a validator is
constructed (the same size again), the obstacle is added again. -/
example : ∃ s s1 s2, Run (start two) [.on (.obstacle (.move 5 [⟨0, 0⟩])), .on (.obstacle (.add 5))] s ∧
    s.cur.obs.isOccupied ⟨0, 0⟩ = some true ∧ Call s (.size 2 2 obstacleCells) s1 ∧
    Run s1 [.on (.obstacle (.add 5))] s2 ∧ s2.cur.obs.isOccupied ⟨0, 0⟩ = some false := by
  obtain ⟨s, r, hm, ho, -, hocc⟩ := withObstacle
  obtain ⟨f, hf⟩ : ∃ f, s.cur.obs.matrix = some f := by
    unfold ObsMap.isOccupied at hocc
    cases h : s.cur.obs.matrix with
    | none => rw [h] at hocc; cases hocc
    | some f => exact ⟨f, rfl⟩
  have hreg : registered (obstacleCallsOf [.on (.obstacle (.move 5 [⟨0, 0⟩])), .on (.obstacle (.add 5))]) 5 = true := rfl
  have hsize := two_size 2 2 (by norm_num) (by norm_num)
  rw [← hm] at hsize
  obtain ⟨s1, c⟩ : ∃ s1, Call s (.size 2 2 obstacleCells) s1 := ⟨_, .size hsize hf⟩
  have hadd := (C125_obstacles_forgotten r c .nil (by simp)).2.2 5 hreg
  have hcall : s1.cur.obs.call (.add 5) = some s1.cur.obs := by
    show (s1.cur.obs.addObstacle 5).map Prod.fst = _
    rw [hadd]; rfl
  have r2 : Run s1 [.on (.obstacle (.add 5))] _ := .snoc .nil (.on (.obstacle (calls := []) hcall (by simp) .nil))
  refine ⟨s, _, _, r, hocc, c, r2, ((C125_obstacles_forgotten r c r2 ?_).2.1 ⟨0, 0⟩).1⟩
  intro op hop
  rw [List.mem_singleton] at hop
  subst hop
  exact hreg

/-- The hypotheses of `C125_diagram_left_behind`, `C125_diagram_outside` and `C125_empty_partial`: a diagram of a map of two by two cells,
which becomes one of four by four. -/
example : ∃ s s1, Run (start two) [.diagram] s ∧ Call s (.size 4 4 obstacleCells) s1 ∧
    s.diagrams[0]? = some s.old.length ∧ s.cur.dist.core.queue = [] ∧
    s1.diagramDistance 0 ⟨3 / 2, 3 / 2⟩ 0 = none := by
  have r : Run (start two) [.diagram] _ := .snoc .nil (.diagram (.link .link))
  have hsize := two_size 4 4 (by norm_num) (by norm_num)
  have c := Call.size (s := ⟨two, { (start two).cur with dist := (start two).cur.dist.linkVoronoi }, [], [0]⟩)
    (cells := obstacleCells) hsize rfl
  have hcell : OccMap.worldPositionToGridCell ⟨1, (4 : ℕ), (4 : ℕ), ⟨0, 0⟩, ⟨-4 / 2, -4 / 2⟩, ⟨0, 0⟩ + ⟨-4 / 2, -4 / 2⟩⟩
      ⟨3 / 2, 3 / 2⟩ false = ⟨3, 3⟩ := by
    have h3 : truncInt (7 / 2) = 3 := by
      unfold truncInt
      rw [if_pos (by norm_num), Int.floor_eq_iff]
      norm_num
    unfold OccMap.worldPositionToGridCell OccMap.gridPositionToGridCell
    norm_num
    exact h3
  refine ⟨_, _, r, c, rfl, rfl, C125_diagram_outside c .nil rfl rfl _ _ ?_ ?_⟩
  · show OccMap.isInsideCell _ (OccMap.worldPositionToGridCell _ _ _) = true
    rw [hcell]; decide
  · show DistMap.inside _ (OccMap.worldPositionToGridCell _ _ _) = false
    rw [hcell]; rfl

end Examples

end SizedMap
end PathPlanning
