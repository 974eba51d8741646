import Verif.Props.DistMap

/-!
# C78: the cells marked as Voronoi edges lie on the border of two different obstacles
-/

namespace PathPlanning
open Spec
open ObstDistMap (markEdges checkVoro toInt Step)

/-- The cell `x` is on the border between the regions of two obstacles: `s` and `n` are neighbours, their
nearest obstacle cells belong to different obstacles (labels `occ`) and are not neighbours, not both `s` and
`n` touch their obstacles, each is at least as far from the obstacle of the other as from its own, and `x` is
the one of the two for which this difference is smaller. -/
def Border (occ : Cell → Int) (m : DistMap) (s n x : Cell) : Prop :=
  chebyshev s n = 1 ∧ occ (m.obst s) ≠ occ (m.obst n) ∧ 1 < chebyshev (m.obst s) (m.obst n) ∧
    (1 < m.dist s ∨ 1 < m.dist n) ∧
    toInt (m.dist s) ≤ sqDist s (m.obst n) ∧ toInt (m.dist n) ≤ sqDist n (m.obst s) ∧
    ((x = s ∧ sqDist s (m.obst n) - toInt (m.dist s) ≤ sqDist n (m.obst s) - toInt (m.dist n)) ∨
      (x = n ∧ sqDist n (m.obst s) - toInt (m.dist n) ≤ sqDist s (m.obst n) - toInt (m.dist s)))

theorem set_obst {e e' : DistMap} {s x : Cell} (h : e.set s = some e') (hx : e'.obst x ≠ e.obst x) : x = s := by
  unfold DistMap.set at h
  split at h
  · simp only [Option.some.injEq] at h
    subst h
    by_contra hne
    simp [setAt, hne] at hx
  · cases h

theorem markEdges_new {e e' : DistMap} {a b c d : Int} {s n x : Cell} (h : markEdges e a b c d s n = some e')
    (hx : e'.obst x ≠ e.obst x) :
    c ≤ a ∧ d ≤ b ∧ ((x = s ∧ a - c ≤ b - d) ∨ (x = n ∧ b - d ≤ a - c)) := by
  unfold markEdges at h
  dsimp only at h
  split at h
  · simp only [Option.pure_def, Option.some.injEq] at h
    subst h
    exact absurd rfl hx
  · rename_i hneg
    refine ⟨by omega, by omega, ?_⟩
    by_cases hle : a - c ≤ b - d
    · rw [if_pos hle] at h
      simp only [Option.bind_eq_bind, Option.bind_eq_some_iff] at h
      obtain ⟨e1, h1, h2⟩ := h
      by_cases he1 : e1.obst x = e.obst x
      · rw [← he1] at hx
        split at h2
        · exact Or.inr ⟨set_obst h2 hx, ‹_›⟩
        · simp only [Option.some.injEq] at h2
          subst h2
          exact absurd rfl hx
      · exact Or.inl ⟨set_obst h1 he1, hle⟩
    · rw [if_neg hle] at h
      simp only [Option.bind_eq_bind, Option.bind_some] at h
      split at h
      · exact Or.inr ⟨set_obst h hx, ‹_›⟩
      · simp only [Option.some.injEq] at h
        subst h
        exact absurd rfl hx

theorem read_some {α : Type} {m : DistMap} {f : Cell → α} {c : Cell} {v : α} (h : m.read f c = some v) :
    m.inside c = true ∧ v = f c := by
  unfold DistMap.read at h
  split at h
  · simp only [Option.some.injEq] at h
    exact ⟨‹_›, h.symm⟩
  · cases h

theorem sq_eq_sqDist (a b : Cell) : ((squaredDistance a b : Nat) : Int) = sqDist a b := by
  unfold squaredDistance sqDist
  dsimp only
  rw [Int.toNat_of_nonneg (add_nonneg (mul_self_nonneg _) (mul_self_nonneg _))]
  ring

theorem checkVoro_new {occ : Cell → Int} {m e e' : DistMap} {s n x : Cell} (hadj : chebyshev s n = 1)
    (h : checkVoro occ m e s n = some e') (hx : e'.obst x ≠ e.obst x) : Border occ m s n x := by
  unfold checkVoro at h
  simp only [Option.bind_eq_bind, Option.bind_eq_some_iff, Option.pure_def] at h
  obtain ⟨o1, h1, o2, h2, v1, h3, v2, h4, h⟩ := h
  obtain ⟨_, rfl⟩ := read_some h1
  obtain ⟨_, rfl⟩ := read_some h2
  obtain ⟨_, rfl⟩ := read_some h3
  obtain ⟨_, rfl⟩ := read_some h4
  split at h
  · simp only [Option.some.injEq] at h
    subst h
    exact absurd rfl hx
  · rename_i hocc
    simp only [Option.bind_eq_some_iff] at h
    obtain ⟨d1, h5, d2, h6, h⟩ := h
    obtain ⟨_, rfl⟩ := read_some h5
    obtain ⟨_, rfl⟩ := read_some h6
    split at h
    · rename_i hd
      split at h
      · rename_i hfar
        obtain ⟨k1, k2, k3⟩ := markEdges_new h hx
        simp only [sq_eq_sqDist] at k1 k2 k3
        refine ⟨hadj, hocc, ?_, hd.1, k1, k2, k3⟩
        unfold chebyshev
        rw [lt_max_iff]
        exact hfar
      · simp only [Option.some.injEq] at h
        subst h
        exact absurd rfl hx
    · simp only [Option.some.injEq] at h
      subst h
      exact absurd rfl hx

/-- One neighbour: only its own entries of the obstacle map change, and a new edge is on a border. -/
theorem lowerOne_new {occ : Cell → Int} {s n : Cell} {g g' : ObstDistMap} {e : DistMap}
    (hadj : chebyshev s n = 1) (he : g.edges = some e) (h : ObstDistMap.lowerOne occ s g n = some g') :
    (∀ c, c ≠ n → g'.core.dist c = g.core.dist c ∧ g'.core.obst c = g.core.obst c) ∧
      ∃ e', g'.edges = some e' ∧ ∀ x, e'.obst x ≠ e.obst x → g'.core = g.core ∧ Border occ g.core s n x := by
  unfold ObstDistMap.lowerOne at h
  simp only [Option.bind_eq_bind, Option.bind_eq_some_iff, Option.pure_def] at h
  obtain ⟨r, -, h⟩ := h
  split at h
  · simp only [Option.bind_eq_some_iff] at h
    obtain ⟨o, -, d, -, h⟩ := h
    split at h
    · simp only [Option.some.injEq] at h
      subst h
      refine ⟨fun c hc => ?_, e, he, fun x hx => absurd rfl hx⟩
      simp [DistMap.take, DistMap.push, setAt, hc]
    · rw [he] at h
      simp only [Option.map_eq_some_iff] at h
      obtain ⟨e', h1, rfl⟩ := h
      exact ⟨fun c _ => ⟨rfl, rfl⟩, e', rfl, fun x hx => ⟨rfl, checkVoro_new hadj h1 hx⟩⟩
  · simp only [Option.some.injEq] at h
    subst h
    exact ⟨fun c _ => ⟨rfl, rfl⟩, e, he, fun x hx => absurd rfl hx⟩

theorem Border.congr {occ : Cell → Int} {m m' : DistMap} {s n x : Cell} (h : Border occ m s n x)
    (h1 : m'.dist s = m.dist s ∧ m'.obst s = m.obst s) (h2 : m'.dist n = m.dist n ∧ m'.obst n = m.obst n) :
    Border occ m' s n x := by
  unfold Border at h ⊢
  rw [h1.1, h1.2, h2.1, h2.2]
  exact h

theorem lowerFold_new {occ : Cell → Int} {s : Cell} : ∀ (ns : List Cell) (g g' : ObstDistMap) (e : DistMap),
    (∀ n ∈ ns, chebyshev s n = 1) → ns.Nodup → s ∉ ns → g.edges = some e →
    ns.foldlM (ObstDistMap.lowerOne occ s) g = some g' →
    (∀ c, c ∉ ns → g'.core.dist c = g.core.dist c ∧ g'.core.obst c = g.core.obst c) ∧
      ∃ e', g'.edges = some e' ∧ ∀ x, e'.obst x ≠ e.obst x → ∃ n, Border occ g'.core s n x := by
  intro ns
  induction ns with
  | nil =>
    intro g g' e _ _ _ he h
    simp only [List.foldlM_nil, Option.pure_def, Option.some.injEq] at h
    subst h
    exact ⟨fun _ _ => ⟨rfl, rfl⟩, e, he, fun x hx => absurd rfl hx⟩
  | cons n ns ih =>
    intro g g' e hadj hnd hs he h
    simp only [List.foldlM_cons, Option.bind_eq_bind, Option.bind_eq_some_iff] at h
    obtain ⟨g1, h1, h⟩ := h
    obtain ⟨hn1, hn2⟩ := List.nodup_cons.mp hnd
    rw [List.mem_cons, not_or] at hs
    obtain ⟨k1, e1, he1, k2⟩ := lowerOne_new (hadj n (by simp)) he h1
    obtain ⟨k3, e', he', k4⟩ := ih g1 g' e1 (fun m hm => hadj m (List.mem_cons_of_mem _ hm)) hn2 hs.2 he1 h
    refine ⟨fun c hc => ?_, e', he', fun x hx => ?_⟩
    · rw [List.mem_cons, not_or] at hc
      exact ⟨(k3 c hc.2).1.trans (k1 c hc.1).1, (k3 c hc.2).2.trans (k1 c hc.1).2⟩
    · by_cases hx1 : e'.obst x = e1.obst x
      · rw [hx1] at hx
        obtain ⟨hcore, hb⟩ := k2 x hx
        rw [← hcore] at hb
        exact ⟨n, hb.congr (k3 s hs.2) (k3 n hn1)⟩
      · exact k4 x hx1

/-- C78: whatever the history, when an iteration of the update of the obstacle map turns a cell into a Voronoi
edge, that cell is on the border of the regions of two different obstacles, according to the obstacles and
distances recorded after the iteration. -/
theorem C78_new_edge_is_a_border {occ : Cell → Int} {g g' : ObstDistMap} (st : Step occ g g') (e e' : DistMap)
    (he : g.edges = some e) (he' : g'.edges = some e') (x : Cell) (hold : e.obst x ≠ x) (hnew : e'.obst x = x) :
    ∃ s n, Border occ g'.core s n x := by
  obtain ⟨q, -, h⟩ := st
  obtain ⟨s, d⟩ := q
  unfold ObstDistMap.process at h
  simp only [Option.bind_eq_bind, Option.bind_eq_some_iff, Option.pure_def] at h
  obtain ⟨p, hp, h⟩ := h
  have hsin := (read_some hp).1
  split at h
  · simp only [Option.bind_eq_some_iff] at h
    obtain ⟨r, -, h⟩ := h
    split at h
    · simp only [Option.bind_eq_some_iff, Option.some.injEq] at h
      obtain ⟨m1, -, rfl⟩ := h
      have : some e = some e' := he.symm.trans he'
      cases this
      exact absurd hnew hold
    · simp only [Option.bind_eq_some_iff] at h
      obtain ⟨o, -, b, -, h⟩ := h
      split at h
      · simp only [Option.bind_eq_some_iff] at h
        obtain ⟨e1, h1, h⟩ := h
        rw [he] at h1
        simp only [ObstDistMap.unsetEdge, Option.map_eq_some_iff] at h1
        obtain ⟨e2, h2, rfl⟩ := h1
        have hadj : ∀ n ∈ s.getNeighbors (g.core.pop (s, d)).rows (g.core.pop (s, d)).columns,
            chebyshev s n = 1 := fun n hn => ((Cell.mem_getNeighbors _ _ _ _).mp hn).2.1
        obtain ⟨-, e3, he3, hb⟩ := lowerFold_new _ _ g' e2 hadj (Cell.nodup_getNeighbors _ _ _)
          (fun hs => by
            have := hadj s hs
            simp [chebyshev] at this) rfl h
        have : some e3 = some e' := he3.symm.trans he'
        cases this
        obtain ⟨n, hn⟩ := hb x (by
          rw [hnew]
          unfold DistMap.unset at h2
          split at h2
          · simp only [Option.some.injEq] at h2
            subst h2
            by_cases hxs : x = s
            · subst hxs
              simp only [setAt, if_pos]
              intro hinv
              rw [hinv] at hsin
              simp [DistMap.inside, Cell.invalid] at hsin
            · simp only [setAt, if_neg hxs]
              exact Ne.symm hold
          · cases h2)
        exact ⟨s, n, hn⟩
      · simp only [Option.some.injEq] at h
        subst h
        have : some e = some e' := he.symm.trans he'
        cases this
        exact absurd hnew hold
  · simp only [Option.some.injEq] at h
    subst h
    have : some e = some e' := he.symm.trans he'
    cases this
    exact absurd hnew hold

/-- Two obstacles at the ends of a row of five cells; the left one has been propagated to the middle cell, the
right one to the cell next to it, which is queued. -/
private def row5 : ObstDistMap :=
  ⟨⟨1, 5, fun c => if c.col = 0 ∨ c.col = 4 then ((0 : Nat) : WithTop Nat) else
      if c.col = 2 then ((4 : Nat) : WithTop Nat) else ((1 : Nat) : WithTop Nat),
    fun c => if c.col ≤ 2 then ⟨0, 0⟩ else ⟨0, 4⟩, fun _ => false, fun c => decide (c.col = 3),
    [(⟨0, 3⟩, ((1 : Nat) : WithTop Nat))]⟩, some (.new 1 5)⟩

/-- Non-vacuity: processing the queued cell marks the middle cell. -/
example : ∃ g' e', Step (fun c => c.col) row5 g' ∧ row5.edges = some (.new 1 5) ∧ g'.edges = some e' ∧
    (DistMap.new 1 5).obst ⟨0, 2⟩ ≠ ⟨0, 2⟩ ∧ e'.obst ⟨0, 2⟩ = ⟨0, 2⟩ := by
  have h : ((ObstDistMap.process (fun c => c.col)
      { row5 with core := row5.core.pop (⟨0, 3⟩, ((1 : Nat) : WithTop Nat)) } ⟨0, 3⟩).bind
        (fun g => g.edges)).map (fun e => e.obst ⟨0, 2⟩) = some ⟨0, 2⟩ := by
    decide +kernel
  simp only [Option.map_eq_some_iff, Option.bind_eq_some_iff] at h
  obtain ⟨e', ⟨g', h1, h2⟩, h3⟩ := h
  refine ⟨g', e', ⟨(⟨0, 3⟩, ((1 : Nat) : WithTop Nat)), ?_, h1⟩, rfl, h2, by decide, h3⟩
  simp [DistMap.IsTop, row5]

end PathPlanning
