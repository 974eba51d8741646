import Verif.Props.GVD

/-!
# C89: the Voronoi field and the moment at which the diagram is created

`GVD` (made by `HybridAStar::Initialize`) links a Voronoi map to the distance map of the occupancy map
(`ObstDistMap.linkVoronoi`). The edges are only found while the distances spread.
-/

namespace PathPlanning
open Spec

namespace ObstDistMap

theorem Run.append_inv {g0 g : ObstDistMap} {xs ys : List Op} (r : Run g0 (xs ++ ys) g) :
    ∃ g1, Run g0 xs g1 ∧ Run g1 ys g := by
  induction xs generalizing g0 with
  | nil => exact ⟨g0, .nil, r⟩
  | cons o os ih =>
    cases r with
    | cons c r =>
      obtain ⟨g1, r1, r2⟩ := ih r
      exact ⟨g1, .cons c r1, r2⟩

theorem Run.append {g0 g1 g : ObstDistMap} {xs ys : List Op} (r1 : Run g0 xs g1) (r2 : Run g1 ys g) :
    Run g0 (xs ++ ys) g := by
  induction r1 with
  | nil => exact r2
  | cons c _ ih => exact .cons c (ih r2)

/-- Nothing happens while the queue is empty. -/
theorem Update.idle {occ : Cell → Int} {g g' : ObstDistMap} (u : Update occ g g') (h : g.core.queue = []) :
    g' = g := by
  rcases u.1.cases_head with h1 | ⟨g1, ⟨e, ⟨he, -⟩, -⟩, -⟩
  · exact h1.symm
  · rw [h] at he; cases he

end ObstDistMap

theorem DistMap.Update.idle {m m' : DistMap} (u : DistMap.Update m m') (h : m.queue = []) : m' = m := by
  rcases u.1.cases_head with h1 | ⟨g1, ⟨e, ⟨he, -⟩, -⟩, -⟩
  · exact h1.symm
  · rw [h] at he; cases he

namespace ObstDistMap

/-- No Voronoi map is made but by a link. -/
theorem Update.no_edges {occ : Cell → Int} {g g' : ObstDistMap} (u : Update occ g g') (h : g.edges = none) :
    g'.edges = none := by
  have fold : ∀ (s : Cell) (ns : List Cell) (g g' : ObstDistMap), g.edges = none →
      ns.foldlM (lowerOne occ s) g = some g' → g'.edges = none := by
    intro s ns
    induction ns with
    | nil =>
      intro g g' h hf
      simp only [List.foldlM_nil, Option.pure_def, Option.some.injEq] at hf
      rw [← hf]; exact h
    | cons n ns ih =>
      intro g g' h hf
      rw [List.foldlM_cons, Option.bind_eq_bind, Option.bind_eq_some_iff] at hf
      obtain ⟨g1, h1, h2⟩ := hf
      refine ih g1 g' ?_ h2
      unfold lowerOne at h1
      simp only [Option.bind_eq_bind, Option.bind_eq_some_iff] at h1
      obtain ⟨r, -, h1⟩ := h1
      split at h1
      · simp only [Option.bind_eq_some_iff] at h1
        obtain ⟨o, -, dn, -, h1⟩ := h1
        split at h1
        · simp only [Option.pure_def, Option.some.injEq] at h1
          rw [← h1]; exact h
        · rw [h] at h1
          simp only [Option.pure_def, Option.some.injEq] at h1
          rw [← h1]; exact h
      · simp only [Option.pure_def, Option.some.injEq] at h1
        rw [← h1]; exact h
  have step : ∀ {g g' : ObstDistMap}, Step occ g g' → g.edges = none → g'.edges = none := by
    rintro g g' ⟨e, -, hp⟩ h
    unfold process at hp
    simp only [Option.bind_eq_bind, Option.bind_eq_some_iff] at hp
    obtain ⟨p, -, hp⟩ := hp
    split at hp
    · simp only [Option.bind_eq_some_iff] at hp
      obtain ⟨r, -, hp⟩ := hp
      split at hp
      · simp only [Option.bind_eq_some_iff, Option.pure_def, Option.some.injEq] at hp
        obtain ⟨m1, -, hp⟩ := hp
        rw [← hp]; exact h
      · simp only [Option.bind_eq_some_iff] at hp
        obtain ⟨o, -, oc, -, hp⟩ := hp
        split at hp
        · simp only [Option.bind_eq_some_iff] at hp
          obtain ⟨ed, he, hp⟩ := hp
          refine fold _ _ _ _ ?_ hp
          show ed = none
          rw [show ({ g with core := g.core.pop e } : ObstDistMap).edges = none from h] at he
          unfold unsetEdge at he
          simp only [Option.some.injEq] at he
          exact he.symm
        · simp only [Option.pure_def, Option.some.injEq] at hp
          rw [← hp]; exact h
    · simp only [Option.pure_def, Option.some.injEq] at hp
      rw [← hp]; exact h
  have : ∀ {g'}, Relation.ReflTransGen (Step occ) g g' → g'.edges = none := by
    intro g' st
    induction st with
    | refl => exact h
    | tail _ st ih => exact step st ih
  exact this u.1

theorem Run.no_edges {g0 g : ObstDistMap} {ops : List Op} (r : Run g0 ops g) (hl : Op.link ∉ ops)
    (h : g0.edges = none) : g.edges = none := by
  induction r with
  | nil => exact h
  | cons c _ ih =>
    refine ih (fun hm => hl (List.mem_cons_of_mem _ hm)) ?_
    cases c with
    | set _ => exact h
    | unset _ => exact h
    | link => exact absurd (List.mem_cons_self ..) hl
    | update u => exact u.no_edges h
    | updateEdges he _ => rw [h] at he; cases he

end ObstDistMap

/-- The calls `Update` of the occupancy map and of the diagram. -/
def Spec.OnlyUpdates (ops : List ObstDistMap.Op) : Prop :=
  ∀ o ∈ ops, (∃ occ, o = .update occ) ∨ o = .updateEdges

/-- C89, negative: when the diagram is created after an update of the map, and obstacles do not change, no number
of updates finds an edge: whatever the obstacles are, every cell is infinitely far from the edges. -/
theorem C89_late_diagram_is_empty {rows columns : Int} {before after : List ObstDistMap.Op} {occ : Cell → Int}
    {g : ObstDistMap} (hl : ObstDistMap.Op.link ∉ before) (ha : OnlyUpdates after)
    (r : ObstDistMap.Run (.new rows columns) (before ++ .update occ :: .link :: after) g) :
    ∃ e, g.edges = some e ∧ ∀ c, e.dist c = ⊤ ∧ (e.obst c).isValid = false := by
  obtain ⟨g1, r1, r2⟩ := r.append_inv
  have h1 := r1.no_edges hl rfl
  cases r2 with
  | cons c2 r2 =>
  cases c2 with
  | update u =>
  rename_i g2
  have h2 := u.no_edges h1
  have hq := u.2
  cases r2 with
  | cons c3 r3 =>
  cases c3
  have key : ∀ {g0 g : ObstDistMap} {os : List ObstDistMap.Op}, ObstDistMap.Run g0 os g → OnlyUpdates os →
      g0.core.queue = [] → (∃ e, g0.edges = some e ∧ e.queue = []) → g = g0 := by
    intro g0 g os r
    induction r with
    | nil => intros; rfl
    | @cons g0 g1 _ o _ c _ ih =>
      intro ho hq he
      have same : g1 = g0 := by
        cases c with
        | update u => exact u.idle hq
        | updateEdges he' u =>
          obtain ⟨e, he, heq⟩ := he
          rw [he] at he'
          injection he' with he'
          subst he'
          rw [u.idle heq, ← he]
        | set _ => rcases ho _ (List.mem_cons_self ..) with ⟨_, h⟩ | h <;> cases h
        | unset _ => rcases ho _ (List.mem_cons_self ..) with ⟨_, h⟩ | h <;> cases h
        | link => rcases ho _ (List.mem_cons_self ..) with ⟨_, h⟩ | h <;> cases h
      subst same
      exact ih (fun o h => ho o (List.mem_cons_of_mem _ h)) hq he
  have hlink : g2.linkVoronoi = { g2 with edges := some (.new g2.core.rows g2.core.columns) } := by
    unfold ObstDistMap.linkVoronoi; rw [h2]
  rw [hlink] at r3
  have := key r3 ha hq ⟨_, rfl, rfl⟩
  rw [this]
  exact ⟨_, rfl, fun c => ⟨rfl, rfl⟩⟩

/-- C89, negative, for the field itself: the potential of such a diagram vanishes nowhere within `dMax` of an
obstacle. -/
theorem C89_late_field_has_no_valley {rows columns : Int} {before after : List ObstDistMap.Op}
    {occ occ' : Cell → Int} {g g' : GVD} (hl : ObstDistMap.Op.link ∉ before) (ha : OnlyUpdates after)
    (r : ObstDistMap.Run (.new rows columns) (before ++ .update occ :: .link :: after) g.maps)
    (u : GVD.Update occ' g g') (hres : 0 < g.map.resolution) (c : Cell) (hc : InRect rows columns c) :
    g'.cost c = 0 ↔ GVD.dMax ≤ worldDistance g.map.resolution (g'.maps.core.dist c) := by
  obtain ⟨-, -, -, e, he, h0⟩ := C40_potential_map r u hres c hc
  obtain ⟨m1, r1, hcore, e1, e2, he1, he2, u2, -⟩ := u.run r
  rw [show (before ++ ObstDistMap.Op.update occ :: ObstDistMap.Op.link :: after) ++ [ObstDistMap.Op.update occ'] =
    before ++ ObstDistMap.Op.update occ :: ObstDistMap.Op.link :: (after ++ [.update occ']) by simp] at r1
  have r2 := r1.append (.cons (.updateEdges he1 u2) .nil)
  rw [show (before ++ ObstDistMap.Op.update occ :: ObstDistMap.Op.link :: (after ++ [.update occ'])) ++
    [ObstDistMap.Op.updateEdges] = before ++ ObstDistMap.Op.update occ :: ObstDistMap.Op.link ::
      (after ++ [.update occ', .updateEdges]) by simp] at r2
  obtain ⟨e', he', hinv⟩ := C89_late_diagram_is_empty hl (by
    intro o ho
    rcases List.mem_append.mp ho with ho | ho
    · exact ha o ho
    · simp only [List.mem_cons, List.not_mem_nil, or_false] at ho
      rcases ho with rfl | rfl
      · exact Or.inl ⟨_, rfl⟩
      · exact Or.inr rfl) r2
  have : e' = e := by
    rw [he2] at he
    injection he with he
    injection he' with he'
    rw [← he', he]
  subst this
  rw [h0, or_iff_right]
  intro hce
  have := (hinv c).2
  rw [hce] at this
  unfold Cell.isValid at this
  obtain ⟨h1, -, h2, -⟩ := hc
  simp only [Bool.and_eq_false_iff, decide_eq_false_iff_not] at this
  omega

/-- The calls that place and remove obstacles. -/
def Spec.OnlyObstacles (ops : List ObstDistMap.Op) : Prop := ∀ o ∈ ops, (∃ s, o = .set s) ∨ ∃ s, o = .unset s

/-- C89, partial: placing and removing obstacles before or after the creation of the diagram makes no difference,
as long as the map is not updated before it. -/
theorem C89_created_before_first_update_partial {rows columns : Int} {pre : List ObstDistMap.Op}
    (hp : OnlyObstacles pre) (rest : List ObstDistMap.Op) (g : ObstDistMap) :
    ObstDistMap.Run (.new rows columns) (pre ++ .link :: rest) g ↔
    ObstDistMap.Run (.new rows columns) (.link :: pre ++ rest) g := by
  have key : ∀ (g0 g1 : ObstDistMap), g0.edges = none →
      (ObstDistMap.Run g0 (pre ++ [.link]) g1 ↔ ObstDistMap.Run g0 (.link :: pre) g1) := by
    induction pre with
    | nil => intro g0 g1 _; exact Iff.rfl
    | cons o os ih =>
      intro g0 g1 h0
      have ih := ih (fun o h => hp o (List.mem_cons_of_mem _ h))
      have hl : ∀ g : ObstDistMap, g.edges = none → g.linkVoronoi =
          { g with edges := some (.new g.core.rows g.core.columns) } := by
        intro g h; unfold ObstDistMap.linkVoronoi; rw [h]
      have set_size : ∀ {m m' : DistMap} {s : Cell}, m.set s = some m' → m'.rows = m.rows ∧ m'.columns = m.columns := by
        intro m m' s h
        unfold DistMap.set at h
        split at h
        · simp only [Option.some.injEq] at h; rw [← h]; exact ⟨rfl, rfl⟩
        · cases h
      have unset_size : ∀ {m m' : DistMap} {s : Cell}, m.unset s = some m' → m'.rows = m.rows ∧ m'.columns = m.columns := by
        intro m m' s h
        unfold DistMap.unset at h
        split at h
        · simp only [Option.some.injEq] at h; rw [← h]; exact ⟨rfl, rfl⟩
        · cases h
      constructor
      · intro r
        cases r with
        | cons c r =>
          rcases hp o (List.mem_cons_self ..) with ⟨s, rfl⟩ | ⟨s, rfl⟩
          · cases c with
            | set hs =>
              rename_i m
              have r := (ih { core := m, edges := g0.edges } _ h0).mp r
              cases r with
              | cons c2 r =>
                cases c2
                refine .cons .link (.cons (.set (m := m) ?_) ?_)
                · rw [hl g0 h0]; exact hs
                · rw [hl { core := m, edges := g0.edges } h0] at r
                  rw [hl g0 h0]
                  have := set_size hs
                  rw [this.1, this.2] at r
                  exact r
          · cases c with
            | unset hs =>
              rename_i m
              have r := (ih { core := m, edges := g0.edges } _ h0).mp r
              cases r with
              | cons c2 r =>
                cases c2
                refine .cons .link (.cons (.unset (m := m) ?_) ?_)
                · rw [hl g0 h0]; exact hs
                · rw [hl { core := m, edges := g0.edges } h0] at r
                  rw [hl g0 h0]
                  have := unset_size hs
                  rw [this.1, this.2] at r
                  exact r
      · intro r
        cases r with
        | cons c r =>
        cases c
        rw [hl g0 h0] at r
        cases r with
        | cons c r =>
          rcases hp o (List.mem_cons_self ..) with ⟨s, rfl⟩ | ⟨s, rfl⟩
          · cases c with
            | set hs =>
              rename_i m
              have hs : g0.core.set s = some m := hs
              refine .cons (.set hs) ((ih { g0 with core := m } _ h0).mpr (.cons .link ?_))
              rw [hl { g0 with core := m } h0]
              have := set_size hs
              rw [this.1, this.2]
              exact r
          · cases c with
            | unset hs =>
              rename_i m
              have hs : g0.core.unset s = some m := hs
              refine .cons (.unset hs) ((ih { g0 with core := m } _ h0).mpr (.cons .link ?_))
              rw [hl { g0 with core := m } h0]
              have := unset_size hs
              rw [this.1, this.2]
              exact r
  rw [show pre ++ ObstDistMap.Op.link :: rest = (pre ++ [.link]) ++ rest by simp]
  constructor
  · intro r
    obtain ⟨g1, r1, r2⟩ := r.append_inv
    exact ((key _ _ rfl).mp r1).append r2
  · intro r
    obtain ⟨g1, r1, r2⟩ := ObstDistMap.Run.append_inv (xs := .link :: pre) r
    exact ((key _ _ rfl).mpr r1).append r2

/-! ## A corridor whose middle is an edge, if the diagram is created in time -/

namespace ObstDistMap

/-- All results of one iteration of the update. -/
def allNext (occ : Cell → Int) (g : ObstDistMap) : List ObstDistMap :=
  (g.core.queue.filter fun e => decide (∀ e' ∈ g.core.queue, e.2 ≤ e'.2)).filterMap
    fun e => process occ { g with core := g.core.pop e } e.1

theorem mem_allNext {occ : Cell → Int} {g g' : ObstDistMap} (st : Step occ g g') : g' ∈ allNext occ g := by
  obtain ⟨e, ⟨he, hmin⟩, hp⟩ := st
  unfold allNext
  rw [List.mem_filterMap]
  exact ⟨e, List.mem_filter.mpr ⟨he, by simpa using hmin⟩, hp⟩

/-- All results of an update satisfy `P`. -/
def allEnd (occ : Cell → Int) (P : ObstDistMap → Bool) : Nat → ObstDistMap → Bool
  | 0, _ => false
  | k + 1, g => if g.core.queue.isEmpty then P g else (allNext occ g).all (allEnd occ P k)

theorem allEnd_sound {occ : Cell → Int} {P : ObstDistMap → Bool} {k : Nat} {g g' : ObstDistMap}
    (h : allEnd occ P k g = true) (u : Update occ g g') : P g' = true := by
  induction k generalizing g with
  | zero => cases h
  | succ k ih =>
    unfold allEnd at h
    split at h
    · rename_i hq
      rw [u.idle (List.isEmpty_iff.mp hq)]
      exact h
    · rename_i hq
      rcases u.1.cases_head with h1 | ⟨g1, st, st'⟩
      · subst h1
        rw [u.2] at hq
        exact absurd rfl hq
      · exact ih (List.all_eq_true.mp h g1 (mem_allNext st)) ⟨st', u.2⟩

end ObstDistMap

open ObstDistMap in
/-- Histories on cells of the grid that do not update the diagram have executions. -/
theorem exists_run_of_no_updateEdges {rows columns : Int} (ops : List ObstDistMap.Op)
    (h : ∀ o ∈ ops, ∀ o', obstacleCall o = some o' → OpIn rows columns o') (hu : Op.updateEdges ∉ ops) :
    ∃ g, Run (.new rows columns) ops g := by
  induction ops using List.reverseRecOn with
  | nil => exact ⟨_, .nil⟩
  | append_singleton ops o ih =>
    obtain ⟨g, r⟩ := ih (fun o ho => h o (List.mem_append_left _ ho)) (fun hm => hu (List.mem_append_left _ hm))
    have hg := (run_ginv r).1
    have hz := DistMap.run_size (run_ginv r).2
    have ho := h o (List.mem_append_right _ (List.mem_singleton.mpr rfl))
    cases o with
    | set s =>
      obtain ⟨m', h', -⟩ := DistMap.set_in (m := g.core) (s := s)
        (by rw [DistMap.inside_iff, hz.1, hz.2]; exact ho _ rfl)
      exact ⟨_, r.append (.cons (.set h') .nil)⟩
    | unset s =>
      obtain ⟨m', h', -⟩ := DistMap.unset_in (m := g.core) (s := s)
        (by rw [DistMap.inside_iff, hz.1, hz.2]; exact ho _ rfl)
      exact ⟨_, r.append (.cons (.unset h') .nil)⟩
    | link => exact ⟨_, r.append (.cons .link .nil)⟩
    | update occ =>
      obtain ⟨g', u⟩ := hg.exists_update occ
      exact ⟨g', r.append (.cons (.update u) .nil)⟩
    | updateEdges => exact absurd (List.mem_append_right _ (List.mem_singleton.mpr rfl)) hu

/-- Two obstacles, of different numbers, at the ends of a corridor of five cells. -/
def corridor : List ObstDistMap.Op := [.set ⟨0, 0⟩, .set ⟨0, 4⟩]
/-- The occupancy of the corridor. -/
def corridorOcc : Cell → Int := fun c => if c = ⟨0, 0⟩ then 1 else if c = ⟨0, 4⟩ then 2 else 0

/-- C89, negative, the comparison: in the corridor, when the diagram is created before the update, every order of
the queue makes the middle cell an edge; when it is created after it, there is no edge. -/
theorem C89_corridor :
    (∃ g, ObstDistMap.Run (.new 1 5) (.link :: corridor ++ [.update corridorOcc]) g) ∧
    (∀ g, ObstDistMap.Run (.new 1 5) (.link :: corridor ++ [.update corridorOcc]) g →
      ∃ e, g.edges = some e ∧ e.dist ⟨0, 2⟩ = 0 ∧ e.obst ⟨0, 2⟩ = ⟨0, 2⟩) ∧
    (∃ g, ObstDistMap.Run (.new 1 5) (corridor ++ [.update corridorOcc, .link, .update corridorOcc]) g) ∧
    (∀ g, ObstDistMap.Run (.new 1 5) (corridor ++ [.update corridorOcc, .link, .update corridorOcc]) g →
      ∃ e, g.edges = some e ∧ e.dist ⟨0, 2⟩ = ⊤ ∧ (e.obst ⟨0, 2⟩).isValid = false) := by
  have hgo : ∀ ops : List ObstDistMap.Op, (∀ o ∈ ops, o = .link ∨ o = .set ⟨0, 0⟩ ∨ o = .set ⟨0, 4⟩ ∨
      o = .update corridorOcc) → ∃ g, ObstDistMap.Run (.new 1 5) ops g := by
    intro ops hops
    refine exists_run_of_no_updateEdges ops (fun o ho o' ho' => ?_) (fun hm => ?_)
    · rcases hops o ho with rfl | rfl | rfl | rfl <;> simp [obstacleCall] at ho' <;> subst ho' <;> simp [OpIn, InRect]
    · rcases hops _ hm with h | h | h | h <;> cases h
  refine ⟨hgo _ ?_, ?_, hgo _ ?_, ?_⟩
  · intro o ho
    simp only [corridor, List.cons_append, List.nil_append, List.mem_cons, List.not_mem_nil, or_false] at ho
    tauto
  · intro g r
    rw [show (ObstDistMap.Op.link :: corridor ++ [.update corridorOcc]) =
      [.link, .set ⟨0, 0⟩, .set ⟨0, 4⟩, .update corridorOcc] from rfl] at r
    cases r with | cons c1 r =>
    cases c1
    cases r with | cons c2 r =>
    cases c2 with | set h2 =>
    cases r with | cons c3 r =>
    cases c3 with | set h3 =>
    cases r with | cons c4 r =>
    cases c4 with | update u =>
    cases r
    have h2' : (DistMap.new 1 5).set ⟨0, 0⟩ = some _ := h2
    injection h2' with h2'
    subst h2'
    have h3' : some _ = some _ := h3
    injection h3' with h3'
    subst h3'
    have := ObstDistMap.allEnd_sound (k := 12) (P := fun g => match g.edges with
      | none => false
      | some e => decide (e.dist ⟨0, 2⟩ = 0) && decide (e.obst ⟨0, 2⟩ = ⟨0, 2⟩)) (by decide +kernel) u
    revert this
    cases he : g.edges with
    | none => simp
    | some e => intro h; simp at h; exact ⟨e, rfl, h⟩
  · intro o ho
    simp only [corridor, List.cons_append, List.nil_append, List.mem_cons, List.not_mem_nil, or_false] at ho
    tauto
  · intro g r
    obtain ⟨e, he, h⟩ := C89_late_diagram_is_empty (before := corridor) (after := [.update corridorOcc])
      (by simp [corridor]) (by intro o ho; simp at ho; exact Or.inl ⟨_, ho⟩) r
    exact ⟨e, he, h _⟩

/-- Non-vacuity: the late diagram of the corridor can be updated. -/
example : ∃ g g' : GVD, ObstDistMap.Op.link ∉ corridor ∧ OnlyUpdates [.update corridorOcc] ∧
    ObstDistMap.Run (.new 1 5) (corridor ++ .update corridorOcc :: .link :: [.update corridorOcc]) g.maps ∧
    GVD.Update corridorOcc g g' ∧ 0 < g.map.resolution := by
  obtain ⟨-, -, ⟨m, r⟩, hno⟩ := C89_corridor
  have ho : OnlyUpdates [.update corridorOcc] := by intro o ho; simp at ho; exact Or.inl ⟨_, ho⟩
  obtain ⟨m1, u⟩ := (ObstDistMap.run_ginv r).1.exists_update corridorOcc
  have r1 : ObstDistMap.Run (.new 1 5) (corridor ++ .update corridorOcc :: .link ::
      [.update corridorOcc, .update corridorOcc]) m1 := r.append (.cons (.update u) .nil)
  obtain ⟨e1, he1, -⟩ := C89_late_diagram_is_empty (before := corridor)
    (after := [.update corridorOcc, .update corridorOcc]) (by simp [corridor])
    (by intro o ho; simp at ho; exact Or.inl ⟨_, ho⟩) r1
  obtain ⟨eops, re⟩ := (ObstDistMap.run_ginv r1).1.edges e1 he1
  obtain ⟨e2, u2⟩ := (DistMap.run_inv re).1.exists_update
  refine ⟨⟨⟨1, 1, 5, ⟨0, 0⟩, ⟨0, 0⟩, ⟨0, 0⟩⟩, m, fun _ => 0⟩, _, by simp [corridor], ho, r,
    ⟨m1, e1, e2, u, he1, u2, rfl⟩, ?_⟩
  show (0 : ℝ) < 1
  norm_num

end PathPlanning
