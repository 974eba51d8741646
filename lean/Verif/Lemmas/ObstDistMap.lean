import Verif.Lemmas.DistMapTerm

/-!
# Lemmas on the obstacle distance map linked to a Voronoi map
-/

namespace PathPlanning
open Spec

namespace DistMap

theorem Run.append {m m' m'' : DistMap} {os os' : List Op} (r : Run m os m') (r' : Run m' os' m'') :
    Run m (os ++ os') m'' := by
  induction r with
  | nil => exact r'
  | cons c _ ih => exact .cons c (ih r')

theorem set_in {m : DistMap} {s : Cell} (h : m.inside s = true) :
    ∃ m', m.set s = some m' ∧ m'.rows = m.rows ∧ m'.columns = m.columns := by
  unfold DistMap.set
  rw [if_pos h]
  exact ⟨_, rfl, rfl, rfl⟩

theorem unset_in {m : DistMap} {s : Cell} (h : m.inside s = true) :
    ∃ m', m.unset s = some m' ∧ m'.rows = m.rows ∧ m'.columns = m.columns := by
  unfold DistMap.unset
  rw [if_pos h]
  exact ⟨_, rfl, rfl, rfl⟩

/-- Some cells satisfying `P` are set in `e`. -/
def Marks (P : Cell → Prop) (e e' : DistMap) : Prop :=
  e'.rows = e.rows ∧ e'.columns = e.columns ∧ ∃ os, Run e os e' ∧ ∀ o ∈ os, ∃ t, o = Op.set t ∧ P t

theorem Marks.refl (P : Cell → Prop) (e : DistMap) : Marks P e e :=
  ⟨rfl, rfl, [], .nil, fun _ h => by cases h⟩

theorem Marks.trans {P : Cell → Prop} {e e' e'' : DistMap} (h : Marks P e e') (h' : Marks P e' e'') :
    Marks P e e'' := by
  obtain ⟨h1, h2, os, r, ho⟩ := h
  obtain ⟨h1', h2', os', r', ho'⟩ := h'
  refine ⟨h1'.trans h1, h2'.trans h2, os ++ os', r.append r', ?_⟩
  intro o hm
  rcases List.mem_append.mp hm with hm | hm
  · exact ho o hm
  · exact ho' o hm

theorem Marks.one {P : Cell → Prop} {e e' : DistMap} {s : Cell} (hs : e.set s = some e') (hp : P s) :
    Marks P e e' := by
  have hs' := hs
  unfold DistMap.set at hs'
  split at hs'
  · cases hs'
    refine ⟨rfl, rfl, [.set s], .cons (.set hs) .nil, ?_⟩
    intro o ho
    exact ⟨s, by simpa using ho, hp⟩
  · cases hs'

theorem Marks.mono {P Q : Cell → Prop} {e e' : DistMap} (h : Marks P e e') (hpq : ∀ c, P c → Q c) : Marks Q e e' := by
  obtain ⟨h1, h2, os, r, ho⟩ := h
  refine ⟨h1, h2, os, r, fun o hm => ?_⟩
  obtain ⟨t, ht, hp⟩ := ho o hm
  exact ⟨t, ht, hpq t hp⟩

end DistMap

namespace ObstDistMap
open DistMap (Inv Marks)

/-- The part of the invariant that holds inside the lower loop. -/
structure Weak (m : DistMap) (S : Set Cell) : Prop where
  exact : ∀ c, m.inside c = true → (m.obst c = Cell.invalid ∧ m.dist c = ⊤) ∨
    (m.inside (m.obst c) = true ∧ m.dist c = (squaredDistance (m.obst c) c : Nat))
  self : ∀ c, m.inside c = true → c ∈ S → m.obst c = c

theorem Weak.dist_self {m : DistMap} {S : Set Cell} (h : Weak m S) {c : Cell} (hc : m.inside c = true)
    (ho : c ∈ S) : m.dist c = 0 := by
  have ho := h.self c hc ho
  rcases h.exact c hc with ⟨h1, _⟩ | ⟨_, h1⟩
  · have := DistMap.inside_valid hc
    rw [← ho, h1] at this; cases this
  · rw [h1, ho, sq_self]; rfl

theorem sq_comm (a b : Cell) : squaredDistance a b = squaredDistance b a := by
  have h1 := sq_cast a b
  have h2 := sq_cast b a
  have : sqDist a b = sqDist b a := by unfold sqDist; ring
  omega

theorem sq_adjacent {a b : Cell} (h : chebyshev a b = 1) : squaredDistance a b ≤ 2 := by
  have hc := sq_cast a b
  rw [chebyshev_eq_one] at h
  unfold sqDist at hc
  have h1 : (a.row - b.row) ^ 2 ≤ 1 := by
    have : (a.row - b.row) ^ 2 ≤ 1 ^ 2 := sq_le_sq' (by omega) (by omega)
    simpa using this
  have h2 : (a.col - b.col) ^ 2 ≤ 1 := by
    have : (a.col - b.col) ^ 2 ≤ 1 ^ 2 := sq_le_sq' (by omega) (by omega)
    simpa using this
  omega

theorem sq_far {a b : Cell} (h : |a.row - b.row| > 1 ∨ |a.col - b.col| > 1) : 4 ≤ squaredDistance a b := by
  have hc := sq_cast a b
  unfold sqDist at hc
  have h1 := sq_nonneg (a.row - b.row)
  have h2 := sq_nonneg (a.col - b.col)
  rcases h with h | h
  · have : 2 ^ 2 ≤ (a.row - b.row) ^ 2 := sq_le_sq.mpr (by rw [abs_two]; omega)
    omega
  · have : 2 ^ 2 ≤ (a.col - b.col) ^ 2 := sq_le_sq.mpr (by rw [abs_two]; omega)
    omega

theorem toInt_nonneg (d : WithTop Nat) : 0 ≤ toInt d := by
  cases d with
  | top => show (0 : Int) ≤ 2147483647; omega
  | coe n => show (0 : Int) ≤ (n : Int); omega

theorem markEdges_some {e : DistMap} {a b c d : Int} {s n : Cell} (hs : e.inside s = true) (hn : e.inside n = true)
    {P : Cell → Prop} (hps : a - c ≤ b - d → P s) (hpn : b - d ≤ a - c → P n) :
    ∃ e', markEdges e a b c d s n = some e' ∧ Marks P e e' := by
  unfold markEdges
  dsimp only
  split
  · exact ⟨e, rfl, .refl _ _⟩
  · obtain ⟨e1, h1, hr1, hc1⟩ := DistMap.set_in hs
    by_cases hle : a - c ≤ b - d
    · rw [if_pos hle, h1]
      have m1 := Marks.one h1 (hps hle)
      by_cases hle' : b - d ≤ a - c
      · obtain ⟨e2, h2, -⟩ := DistMap.set_in (m := e1) (s := n) (by rw [DistMap.inside_congr hr1 hc1]; exact hn)
        simp only [Option.pure_def, Option.bind_eq_bind, Option.bind_some]
        rw [if_pos hle', h2]
        exact ⟨e2, rfl, m1.trans (Marks.one h2 (hpn hle'))⟩
      · simp only [Option.pure_def, Option.bind_eq_bind, Option.bind_some]
        rw [if_neg hle']
        exact ⟨e1, rfl, m1⟩
    · rw [if_neg hle]
      have hle' : b - d ≤ a - c := by omega
      obtain ⟨e2, h2, -⟩ := DistMap.set_in hn
      simp only [Option.pure_def, Option.bind_eq_bind, Option.bind_some]
      rw [if_pos hle', h2]
      exact ⟨e2, rfl, Marks.one h2 (hpn hle')⟩

theorem checkVoro_some {occ : Cell → Int} {m e : DistMap} {S : Set Cell} (hw : Weak m S) {s n : Cell}
    (hs : m.inside s = true) (hn : m.inside n = true) (hadj : chebyshev s n = 1)
    (ho : m.inside (m.obst s) = true)
    (hd : ¬ ((squaredDistance (m.obst s) n : Nat) : WithTop Nat) < m.dist n)
    (her : e.rows = m.rows) (hec : e.columns = m.columns) :
    ∃ e', checkVoro occ m e s n = some e' ∧ Marks (fun t => (t = s ∨ t = n) ∧ t ∉ S) e e' := by
  have hein : ∀ c, e.inside c = m.inside c := DistMap.inside_congr her hec
  have hno : m.inside (m.obst n) = true := by
    rcases hw.exact n hn with ⟨_, h1⟩ | ⟨h1, _⟩
    · rw [h1] at hd; exact absurd (WithTop.coe_lt_top _) hd
    · exact h1
  unfold checkVoro
  rw [DistMap.read_in _ hs, DistMap.read_in _ hn]
  simp only [Option.bind_eq_bind, Option.bind_some, Option.pure_def]
  rw [DistMap.read_in _ ho, DistMap.read_in _ hno, DistMap.read_in _ hs, DistMap.read_in _ hn]
  simp only [Option.bind_some]
  split
  · exact ⟨e, rfl, .refl _ _⟩
  split
  · split
    · rename_i hfar
      refine markEdges_some (by rw [hein]; exact hs) (by rw [hein]; exact hn) ?_ ?_
      · intro hle
        refine ⟨Or.inl rfl, fun hS => ?_⟩
        rw [hw.dist_self hs hS] at hle
        rw [hw.self s hs hS] at hle hfar
        have h4 := sq_far hfar
        have h2 := sq_adjacent hadj
        rw [sq_comm n s] at hle
        have h3 := toInt_nonneg (m.dist n)
        have h0 : toInt 0 = 0 := rfl
        rw [h0] at hle
        omega
      · intro hle
        refine ⟨Or.inr rfl, fun hS => ?_⟩
        rw [hw.dist_self hn hS] at hle
        rw [hw.self n hn hS] at hle hfar
        have h4 := sq_far hfar
        have h2 := sq_adjacent hadj
        rw [sq_comm] at h4
        have h3 := toInt_nonneg (m.dist s)
        have h0 : toInt 0 = 0 := rfl
        rw [h0] at hle
        omega
    · exact ⟨e, rfl, .refl _ _⟩
  · exact ⟨e, rfl, .refl _ _⟩

/-- The Voronoi map, if any, has the size of the obstacle map. -/
def SameSize (g : ObstDistMap) : Prop :=
  ∀ e, g.edges = some e → e.rows = g.core.rows ∧ e.columns = g.core.columns

/-- Effect on the optional Voronoi map. -/
def Marked (P : Cell → Prop) : Option DistMap → Option DistMap → Prop
  | none, none => True
  | some e, some e' => Marks P e e'
  | _, _ => False

theorem Marked.refl (P : Cell → Prop) (e : Option DistMap) : Marked P e e := by
  cases e with
  | none => trivial
  | some e => exact Marks.refl _ _

theorem Marked.trans {P : Cell → Prop} {e e' e'' : Option DistMap} (h : Marked P e e') (h' : Marked P e' e'') :
    Marked P e e'' := by
  cases e <;> cases e' <;> cases e'' <;> first | trivial | exact h.elim | exact h'.elim | exact Marks.trans h h'

theorem lowerOne_some {occ : Cell → Int} {g : ObstDistMap} {S : Set Cell} (hw : Weak g.core S) (hsz : g.SameSize)
    {s n : Cell} (hs : g.core.inside s = true) (hn : g.core.inside n = true) (hadj : chebyshev s n = 1)
    (ho : g.core.inside (g.core.obst s) = true) :
    ∃ g', lowerOne occ s g n = some g' ∧ g.core.lowerOne s n = some g'.core ∧
      Marked (fun t => g.core.inside t = true ∧ t ∉ S) g.edges g'.edges ∧
      Weak g'.core S ∧ g'.SameSize ∧ g'.core.rows = g.core.rows ∧ g'.core.columns = g.core.columns ∧
      (s ≠ n → g'.core.obst s = g.core.obst s) := by
  rw [DistMap.lowerOne_eq hs hn]
  unfold lowerOne
  rw [DistMap.read_in _ hn, DistMap.read_in _ hs, DistMap.read_in _ hn]
  simp only [Option.bind_eq_bind, Option.bind_some, Option.pure_def]
  cases hr : g.core.toRaise n with
  | true =>
    refine ⟨g, by simp, by simp, Marked.refl _ _, hw, hsz, rfl, rfl, fun _ => rfl⟩
  | false =>
    by_cases hd : ((squaredDistance (g.core.obst s) n : Nat) : WithTop Nat) < g.core.dist n
    · simp only [hd, Bool.not_false, if_true, and_self]
      refine ⟨_, rfl, rfl, Marked.refl _ _, ?_, hsz, rfl, rfl, ?_⟩
      · have hnS : n ∉ S := by
          intro hS
          rw [hw.dist_self hn hS] at hd
          exact absurd hd (by simp)
        constructor
        · intro c hc
          show (setAt g.core.obst n (g.core.obst s) c = _ ∧ setAt g.core.dist n _ c = _) ∨
            (g.core.inside (setAt g.core.obst n (g.core.obst s) c) = true ∧ setAt g.core.dist n _ c =
              (squaredDistance (setAt g.core.obst n (g.core.obst s) c) c : Nat))
          by_cases hcn : c = n
          · right; rw [hcn, setAt_same, setAt_same]; exact ⟨ho, rfl⟩
          · rw [setAt_ne _ _ hcn, setAt_ne _ _ hcn]; exact hw.exact c hc
        · intro c hc hS
          show setAt g.core.obst n _ c = c
          have hcn : c ≠ n := by rintro rfl; exact hnS hS
          rw [setAt_ne _ _ hcn]
          exact hw.self c hc hS
      · intro hsn
        exact setAt_ne _ _ hsn
    · simp only [hd, Bool.not_false, if_true, if_false, and_false]
      cases hge : g.edges with
      | none =>
        refine ⟨g, rfl, rfl, ?_, hw, hsz, rfl, rfl, fun _ => rfl⟩
        rw [hge]; trivial
      | some e =>
        obtain ⟨e', he', hm⟩ := checkVoro_some (occ := occ) hw hs hn hadj ho hd (hsz e hge).1 (hsz e hge).2
        refine ⟨{ g with edges := some e' }, by simp [he'], rfl, ?_, hw, ?_, rfl, rfl, fun _ => rfl⟩
        · refine Marks.mono hm ?_
          rintro c ⟨rfl | rfl, hc⟩
          · exact ⟨hs, hc⟩
          · exact ⟨hn, hc⟩
        · intro e2 h2
          cases h2
          have := hsz e hge
          exact ⟨hm.1.trans this.1, hm.2.1.trans this.2⟩

theorem lowerLoop_some {occ : Cell → Int} {g : ObstDistMap} {S : Set Cell} (hw : Weak g.core S) (hsz : g.SameSize)
    {s : Cell} (hs : g.core.inside s = true) (ho : g.core.inside (g.core.obst s) = true) (l : List Cell)
    (hl : ∀ n ∈ l, g.core.inside n = true ∧ chebyshev s n = 1) (hsl : s ∉ l) :
    ∃ g', l.foldlM (lowerOne occ s) g = some g' ∧ l.foldlM (DistMap.lowerOne s) g.core = some g'.core ∧
      Marked (fun t => g.core.inside t = true ∧ t ∉ S) g.edges g'.edges ∧ g'.SameSize := by
  induction l generalizing g with
  | nil => exact ⟨g, rfl, rfl, Marked.refl _ _, hsz⟩
  | cons n l ih =>
    have hn := hl n (by simp)
    obtain ⟨g1, h1, h1c, hm1, hw1, hsz1, hr1, hc1, hos⟩ := lowerOne_some (occ := occ) hw hsz hs hn.1 hn.2 ho
    have hos := hos (fun h => hsl (by rw [h]; simp))
    have hin : ∀ c, g1.core.inside c = g.core.inside c := DistMap.inside_congr hr1 hc1
    obtain ⟨g', h', h'c, hm', hsz'⟩ := ih hw1 hsz1 (by rw [hin]; exact hs) (by rw [hos, hin]; exact ho)
      (fun c hc => by rw [hin]; exact hl c (List.mem_cons_of_mem _ hc)) (fun h => hsl (List.mem_cons_of_mem _ h))
    refine ⟨g', by rw [List.foldlM_cons, h1]; exact h', by rw [List.foldlM_cons, h1c]; exact h'c, ?_, hsz'⟩
    have : (fun t => g1.core.inside t = true ∧ t ∉ S) = (fun t => g.core.inside t = true ∧ t ∉ S) := by
      funext t; rw [hin]
    rw [this] at hm'
    exact hm1.trans hm'

/-- What the body of the loop does to the Voronoi map: nothing, or the processed cell `s` is unset and
then cells that are no obstacles are set. -/
inductive EdgeEffect (m : DistMap) (S : Set Cell) (s : Cell) : Option DistMap → Option DistMap → Prop
  | same {e} : ¬ (m.toProcess s = true ∧ m.toRaise s = false ∧ m.Occ (m.obst s)) → EdgeEffect m S s e e
  | none : EdgeEffect m S s none none
  | lower {e e1 e2} : e.unset s = some e1 → Marks (fun t => m.inside t = true ∧ t ∉ S) e1 e2 →
      EdgeEffect m S s (some e) (some e2)

theorem process_some {occ : Cell → Int} {g : ObstDistMap} {S : Set Cell} (hb : g.core.Bd) (hw : Weak g.core S)
    (hsz : g.SameSize) {s : Cell} (hs : g.core.inside s = true) :
    ∃ g', process occ g s = some g' ∧ g.core.process s = some g'.core ∧ g'.SameSize ∧
      EdgeEffect g.core S s g.edges g'.edges := by
  unfold process DistMap.process
  simp only [Option.bind_eq_bind, Option.pure_def, DistMap.read_in _ hs, Option.bind_some]
  cases hp : g.core.toProcess s with
  | false => exact ⟨g, by simp, by simp, hsz, .same (by simp [hp])⟩
  | true =>
    cases hr : g.core.toRaise s with
    | true =>
      obtain ⟨m1, h1, sp⟩ := DistMap.raiseLoop hb (g.core.nbrs s) (fun n hn => ((DistMap.mem_nbrs hs n).mp hn).1)
        (Cell.nodup_getNeighbors _ _ _)
      simp only [if_true]
      rw [show List.foldlM DistMap.raiseOne g.core (s.getNeighbors g.core.rows g.core.columns) = some m1 from h1]
      refine ⟨_, rfl, rfl, ?_, .same (by simp [hr])⟩
      intro e he
      have := hsz e he
      exact ⟨this.1.trans sp.rows.symm, this.2.trans sp.columns.symm⟩
    | false =>
      rw [DistMap.isOccupied_eq (hb s hs)]
      simp only [Option.bind_some, Bool.false_eq_true, if_false, if_true]
      by_cases ho : g.core.Occ (g.core.obst s)
      · simp only [ho, decide_true, if_true]
        obtain ⟨m1, hm1⟩ : ∃ m1 : DistMap, m1 = { g.core with toProcess := setAt g.core.toProcess s false } := ⟨_, rfl⟩
        have hw1 : Weak m1 S := by rw [hm1]; exact ⟨hw.exact, hw.self⟩
        have hin1 : ∀ c, m1.inside c = g.core.inside c := by rw [hm1]; intro c; rfl
        have hob1 : m1.obst s = g.core.obst s := by rw [hm1]
        have hl : ∀ n ∈ g.core.nbrs s, m1.inside n = true ∧ chebyshev s n = 1 := by
          intro n hn; rw [hin1]; exact (DistMap.mem_nbrs hs n).mp hn
        have hPeq : (fun t => m1.inside t = true ∧ t ∉ S) = (fun t => g.core.inside t = true ∧ t ∉ S) := by
          funext t; rw [hin1]
        cases hge : g.edges with
        | none =>
          obtain ⟨g', h', h'c, hm', hsz'⟩ := lowerLoop_some (occ := occ) (g := ⟨m1, none⟩) hw1
            (by intro e he; cases he) (s := s) (by rw [hin1]; exact hs)
            (by rw [hin1, hob1]; exact hb s hs ho.1) (g.core.nbrs s) hl (DistMap.self_not_nbr hs)
          rw [hm1] at h' h'c
          refine ⟨g', h', h'c, hsz', ?_⟩
          cases hge' : g'.edges with
          | none => exact .none
          | some e => rw [hge'] at hm'; exact hm'.elim
        | some e =>
          have he := hsz e hge
          obtain ⟨e1, h1, hr1, hc1⟩ := DistMap.unset_in (m := e) (s := s)
            (by rw [DistMap.inside_congr he.1 he.2]; exact hs)
          have hue : unsetEdge (some e) s = some (some e1) := by simp [unsetEdge, h1]
          rw [hue]
          obtain ⟨g', h', h'c, hm', hsz'⟩ := lowerLoop_some (occ := occ) (g := ⟨m1, some e1⟩) hw1
            (by intro e2 he2; cases he2; rw [hm1]; exact ⟨hr1.trans he.1, hc1.trans he.2⟩)
            (s := s) (by rw [hin1]; exact hs)
            (by rw [hin1, hob1]; exact hb s hs ho.1) (g.core.nbrs s) hl (DistMap.self_not_nbr hs)
          have hm' : Marked (fun t => g.core.inside t = true ∧ t ∉ S) (some e1) g'.edges := by
            rw [← hPeq]; exact hm'
          rw [hm1] at h' h'c
          refine ⟨g', h', h'c, hsz', ?_⟩
          cases hge' : g'.edges with
          | none => rw [hge'] at hm'; exact hm'.elim
          | some e2 =>
            rw [hge'] at hm'
            exact .lower h1 hm'
      · simp only [ho, decide_false, Bool.false_eq_true, if_false]
        exact ⟨g, rfl, rfl, hsz, .same (fun h => ho h.2.2)⟩

/-- Invariant of the linked maps: `S` are the obstacles, `E` the edges. -/
structure GInv (g : ObstDistMap) (S : Set Cell) : Prop where
  core : g.core.Inv S
  size : g.SameSize
  edges : ∀ e, g.edges = some e → ∃ os, DistMap.Run (.new g.core.rows g.core.columns) os e
  /-- no obstacle is an edge, once processed -/
  apart : ∀ e, g.edges = some e → ∀ c ∈ S, e.obst c ≠ c ∨ g.core.Pend c

theorem GInv.weak {g : ObstDistMap} {S : Set Cell} (h : g.GInv S) : Weak g.core S :=
  ⟨h.core.exact, fun c hc hS => (h.core.self c hc).mpr hS⟩

theorem run_obst {rows columns : Int} {os : List DistMap.Op} {e : DistMap} (r : DistMap.Run (.new rows columns) os e)
    {c : Cell} (hc : e.inside c = true) : e.obst c = c ↔ c ∈ obstacles os :=
  (DistMap.run_inv r).1.self c hc

theorem obstacles_append (os os' : List DistMap.Op) :
    obstacles (os ++ os') = os'.foldl DistMap.afterOp (obstacles os) := by
  exact List.foldl_append

theorem marks_obst {P : Cell → Prop} {rows columns : Int} {os : List DistMap.Op} {e e' : DistMap}
    (r : DistMap.Run (.new rows columns) os e) (hm : Marks P e e') {c : Cell} (hc : e.inside c = true)
    (hP : ¬ P c) (h : e.obst c ≠ c) : e'.obst c ≠ c := by
  obtain ⟨h1, h2, os', r', ho⟩ := hm
  have hc' : e'.inside c = true := by rw [DistMap.inside_congr h1 h2]; exact hc
  rw [Ne, run_obst (r.append r') hc', obstacles_append]
  rw [Ne, run_obst r hc] at h
  clear r r' h1 h2 hc'
  induction os' generalizing os with
  | nil => exact h
  | cons o os' ih =>
    obtain ⟨t, rfl, hPt⟩ := ho o (by simp)
    rw [List.foldl_cons]
    have := ih (os := os ++ [.set t]) 
      (by rw [obstacles_append]; rintro (h' | h'); exacts [h h', hP (h' ▸ hPt)])
      (fun o ho' => ho o (List.mem_cons_of_mem _ ho'))
    rw [obstacles_append] at this
    exact this

theorem GInv.step {occ : Cell → Int} {g g' : ObstDistMap} {S : Set Cell} (h : g.GInv S) (st : Step occ g g') :
    g'.GInv S ∧ DistMap.Step g.core g'.core := by
  obtain ⟨e, he, hp⟩ := st
  have hs := h.core.qin e he.1
  obtain ⟨g1, h1, h1c, hsz1, ee⟩ := process_some (occ := occ) (g := { g with core := g.core.pop e }) (s := e.1)
    (S := S) h.core.bd ⟨h.core.exact, fun c hc hS => (h.core.self c hc).mpr hS⟩ h.size hs
  rw [h1] at hp
  cases hp
  have hst : DistMap.Step g.core g'.core := ⟨e, he, h1c⟩
  have hsz := h.core.step_size hst
  obtain ⟨_, h1c', ef⟩ := DistMap.process_effect (m := g.core.pop e) (s := e.1) h.core.bd hs
  have : some g'.core = some _ := h1c.symm.trans h1c'
  cases this
  have hI := h.core.effect he.1 ef
  have hnS : ∀ c ∈ S, (g.core.pop e).Occ c := fun c hc => (h.core.occ (h.core.sub c hc)).mpr hc
  -- pending obstacles stay pending unless they are lowered
  have hpend : ∀ c ∈ S, g.core.Pend c →
      (c = e.1 ∧ (g.core.toProcess e.1 = true ∧ g.core.toRaise e.1 = false ∧ g.core.Occ (g.core.obst e.1))) ∨
      g'.core.Pend c := by
    intro c hc hpc
    have hcin := h.core.sub c hc
    have hself := (h.core.self c hcin).mpr hc
    have hcq : c ≠ e.1 → 0 < DistMap.cnt (g.core.queue.erase e) c := fun hne => by
      rw [DistMap.cnt_erase_ne hne]; exact hpc.2
    obtain ⟨mm, hmm⟩ : ∃ mm, mm = g'.core := ⟨_, rfl⟩
    rw [← hmm] at ef ⊢
    cases ef with
    | idle hp0 =>
      right
      have hne : c ≠ e.1 := by
        rintro rfl
        have hp0 : g.core.toProcess e.1 = false := hp0
        have := hpc.1
        rw [hp0] at this; cases this
      exact ⟨hpc.1, hcq hne⟩
    | stale hp0 hr0 ho0 =>
      right
      have hne : c ≠ e.1 := by
        intro hce
        apply ho0
        show g.core.Occ (g.core.obst e.1)
        rw [← hce, hself]
        exact ⟨DistMap.inside_valid hcin, hself⟩
      exact ⟨hpc.1, hcq hne⟩
    | raise hp0 hr0 sp =>
      rename_i m1
      right
      obtain ⟨q, hq, hmem⟩ := sp.queue
      have hle : DistMap.cnt (g.core.queue.erase e) c ≤ DistMap.cnt m1.queue c := by
        rw [hq, DistMap.cnt_append]; exact Nat.le_add_left _ _
      refine ⟨?_, ?_⟩
      · show m1.toProcess c = true
        by_cases hT : (g.core.pop e).Touched ((g.core.pop e).nbrs e.1) c
        · exact sp.proc c hT
        · rw [sp.nproc c hT]; exact hpc.1
      · show 0 < DistMap.cnt m1.queue c
        by_cases hce : c = e.1
        · have h2 := h.core.twice c hcin (by rw [hce]; exact hr0) (by rw [hself]; exact DistMap.inside_valid hcin)
          have h3 := DistMap.cnt_erase_same he.1
          rw [← hce] at h3
          omega
        · exact lt_of_lt_of_le (hcq hce) hle
    | lower hp0 hr0 ho0 sp =>
      by_cases hce : c = e.1
      · exact Or.inl ⟨hce, hp0, hr0, ho0⟩
      · right
        obtain ⟨q, hq, hmem⟩ := sp.queue
        refine ⟨?_, ?_⟩
        · by_cases hI : DistMap.Improved { g.core.pop e with toProcess := setAt (g.core.pop e).toProcess e.1 false }
            ((g.core.pop e).obst e.1) ((g.core.pop e).nbrs e.1) c
          · exact (sp.imp c hI).2.2
          · rw [(sp.keep c hI).2.2]
            show setAt g.core.toProcess e.1 false c = true
            rw [setAt_ne _ _ hce]; exact hpc.1
        · rw [hq, DistMap.cnt_append]
          exact lt_of_lt_of_le (hcq hce) (Nat.le_add_left _ _)
  refine ⟨⟨hI, hsz1, ?_, ?_⟩, hst⟩
  · intro e' he'
    rw [hsz.1, hsz.2]
    obtain ⟨ed, hed⟩ : ∃ ed, ed = g'.edges := ⟨_, rfl⟩
    have ee : EdgeEffect (g.core.pop e) S e.1 g.edges ed := by rw [hed]; exact ee
    rw [← hed] at he'
    generalize hge : g.edges = ge at ee
    cases ee with
    | same _ => exact h.edges e' (hge.trans he')
    | none => cases he'
    | lower hu hm =>
      cases he'
      obtain ⟨os, r⟩ := h.edges _ hge
      obtain ⟨_, _, os', r', _⟩ := hm
      exact ⟨_, (r.append (.cons (.unset hu) .nil)).append r'⟩
  · intro e' he' c hc
    have hcin := h.core.sub c hc
    have hself := (h.core.self c hcin).mpr hc
    obtain ⟨ed, hed⟩ : ∃ ed, ed = g'.edges := ⟨_, rfl⟩
    have ee : EdgeEffect (g.core.pop e) S e.1 g.edges ed := by rw [hed]; exact ee
    rw [← hed] at he'
    generalize hge : g.edges = ge at ee
    cases ee with
    | same hno =>
      rcases h.apart e' (hge.trans he') c hc with hl | hl
      · exact Or.inl hl
      · rcases hpend c hc hl with ⟨_, hx⟩ | hx
        · exact absurd hx hno
        · exact Or.inr hx
    | none => cases he'
    | lower hu hm =>
      rename_i e0 e1 e2
      cases he'
      obtain ⟨os, r⟩ := h.edges e0 hge
      have hes := h.size e0 hge
      have r1 := r.append (.cons (.unset hu) .nil)
      have hin0 : e0.inside c = true := by rw [DistMap.inside_congr hes.1 hes.2]; exact hcin
      have hu' := hu
      unfold DistMap.unset at hu'
      split at hu'
      · have he1 : e1.obst = setAt e0.obst e.1 Cell.invalid ∧ e1.rows = e0.rows ∧ e1.columns = e0.columns := by
          cases hu'; exact ⟨rfl, rfl, rfl⟩
        have hin1 : e1.inside c = true := by rw [DistMap.inside_congr he1.2.1 he1.2.2]; exact hin0
        have key : e1.obst c ≠ c → e'.obst c ≠ c := marks_obst r1 hm hin1 (fun hP => hP.2 hc)
        by_cases hce : c = e.1
        · left
          apply key
          rw [he1.1, hce, setAt_same]
          intro hx
          have := DistMap.inside_valid hcin
          rw [hce, ← hx] at this; cases this
        · rcases h.apart e0 hge c hc with hl | hl
          · left
            apply key
            rw [he1.1, setAt_ne _ _ hce]; exact hl
          · rcases hpend c hc hl with ⟨hx, _⟩ | hx
            · exact absurd hx hce
            · exact Or.inr hx
      · cases hu'

theorem GInv.steps {occ : Cell → Int} {g g' : ObstDistMap} {S : Set Cell} (h : g.GInv S)
    (st : Relation.ReflTransGen (Step occ) g g') :
    g'.GInv S ∧ Relation.ReflTransGen DistMap.Step g.core g'.core := by
  induction st with
  | refl => exact ⟨h, .refl⟩
  | tail _ st ih =>
    obtain ⟨h1, r1⟩ := ih
    obtain ⟨h2, s2⟩ := h1.step st
    exact ⟨h2, r1.tail s2⟩

theorem GInv.step_edges {occ : Cell → Int} {g g' : ObstDistMap} {S : Set Cell} (h : g.GInv S) (st : Step occ g g')
    {e : DistMap} (he : g.edges = some e) : ∃ e', g'.edges = some e' := by
  obtain ⟨en, hen, hp⟩ := st
  obtain ⟨g1, h1, -, -, ee⟩ := process_some (occ := occ) (g := { g with core := g.core.pop en }) (s := en.1)
    (S := S) h.core.bd ⟨h.core.exact, fun c hc hS => (h.core.self c hc).mpr hS⟩ h.size (h.core.qin en hen.1)
  rw [h1] at hp
  cases hp
  have ee : EdgeEffect (g.core.pop en) S en.1 (some e) g'.edges := by rw [← he]; exact ee
  generalize g'.edges = ed at ee
  cases ee with
  | same _ => exact ⟨e, rfl⟩
  | lower _ _ => exact ⟨_, rfl⟩

theorem GInv.no_infinite {occ : Cell → Int} {g : ObstDistMap} {S : Set Cell} (h : g.GInv S) (f : ℕ → ObstDistMap)
    (h0 : f 0 = g) (hf : ∀ i, Step occ (f i) (f (i + 1))) : False := by
  have hi : ∀ i, (f i).GInv S := by
    intro i
    induction i with
    | zero => rw [h0]; exact h
    | succ i ih => exact (ih.step (hf i)).1
  exact h.core.no_infinite (fun i => (f i).core) (by rw [h0]) (fun i => ((hi i).step (hf i)).2)

theorem GInv.progress (occ : Cell → Int) {g : ObstDistMap} {S : Set Cell} (h : g.GInv S) {e : Cell × WithTop Nat}
    (he : e ∈ g.core.queue) : ∃ g', process occ { g with core := g.core.pop e } e.1 = some g' := by
  obtain ⟨g1, h1, -⟩ := process_some (occ := occ) (g := { g with core := g.core.pop e }) (s := e.1)
    (S := S) h.core.bd ⟨h.core.exact, fun c hc hS => (h.core.self c hc).mpr hS⟩ h.size (h.core.qin e he)
  exact ⟨g1, h1⟩

theorem GInv.exists_update (occ : Cell → Int) {g : ObstDistMap} {S : Set Cell} (h : g.GInv S) :
    ∃ g', Update occ g g' := by
  induction hm : g.core.measure using WellFoundedLT.induction generalizing g with
  | ind x ih =>
    by_cases hq : g.core.queue = []
    · exact ⟨g, .refl, hq⟩
    · obtain ⟨e, he⟩ := DistMap.exists_top hq
      obtain ⟨g1, h1⟩ := h.progress occ he.1
      have st : Step occ g g1 := ⟨e, he, h1⟩
      obtain ⟨hI, cs⟩ := h.step st
      obtain ⟨e', he', ef⟩ := h.core.step cs
      obtain ⟨g', u1, u2⟩ := ih _ (by rw [← hm]; exact h.core.effect_measure he' ef) hI rfl
      exact ⟨g', .head st u1, u2⟩

theorem GInv.new (rows columns : Int) : (ObstDistMap.new rows columns).GInv (fun _ => False) :=
  ⟨DistMap.Inv.new rows columns, fun e he => (by cases he), fun e he => (by cases he), fun e he => (by cases he)⟩

theorem pend_set {m m' : DistMap} {s c : Cell} (hs : m.set s = some m') (h : m.Pend c ∨ c = s) : m'.Pend c := by
  unfold DistMap.set at hs
  split at hs
  · cases hs
    by_cases hc : c = s
    · subst hc
      exact ⟨setAt_same _ _ _, by show 0 < DistMap.cnt ((c, 0) :: m.queue) c; rw [DistMap.cnt_cons_same]; omega⟩
    · obtain ⟨h1, h2⟩ : m.Pend c := h.resolve_right hc
      exact ⟨(setAt_ne _ _ hc).trans h1, lt_of_lt_of_le h2 (DistMap.cnt_cons_le _ _ _)⟩
  · cases hs

theorem pend_unset {m m' : DistMap} {s c : Cell} (hs : m.unset s = some m') (h : m.Pend c) : m'.Pend c := by
  unfold DistMap.unset at hs
  split at hs
  · cases hs
    refine ⟨?_, lt_of_lt_of_le h.2 (DistMap.cnt_cons_le _ _ _)⟩
    show setAt m.toProcess s true c = true
    by_cases hc : c = s
    · rw [hc, setAt_same]
    · rw [setAt_ne _ _ hc]; exact h.1
  · cases hs

theorem GInv.call {g g' : ObstDistMap} {S : Set Cell} (h : g.GInv S) (hb : g.core.Batch) {o : Op} (c : Call g o g') :
    g'.GInv ((obstacleCall o).toList.foldl DistMap.afterOp S) ∧ g'.core.Batch ∧
      DistMap.Run g.core (obstacleCall o).toList g'.core := by
  cases c with
  | set hs =>
    rename_i m s
    obtain ⟨hI, hb'⟩ := h.core.set hb hs
    have hz := h.core.call_size (.set hs)
    refine ⟨⟨hI, ?_, ?_, ?_⟩, hb', .cons (.set hs) .nil⟩
    · intro e he; have := h.size e he; exact ⟨this.1.trans hz.1.symm, this.2.trans hz.2.symm⟩
    · intro e he
      show ∃ os, DistMap.Run (.new m.rows m.columns) os e
      rw [hz.1, hz.2]; exact h.edges e he
    · rintro e he c (hc | hc)
      · exact (h.apart e he c hc).imp_right fun hp => pend_set hs (Or.inl hp)
      · exact Or.inr (pend_set hs (Or.inr hc))
  | unset hs =>
    rename_i m s
    obtain ⟨hI, hb'⟩ := h.core.unset hb hs
    have hz := h.core.call_size (.unset hs)
    refine ⟨⟨hI, ?_, ?_, ?_⟩, hb', .cons (.unset hs) .nil⟩
    · intro e he; have := h.size e he; exact ⟨this.1.trans hz.1.symm, this.2.trans hz.2.symm⟩
    · intro e he
      show ∃ os, DistMap.Run (.new m.rows m.columns) os e
      rw [hz.1, hz.2]; exact h.edges e he
    · rintro e he c ⟨hc, _⟩
      exact (h.apart e he c hc).imp_right fun hp => pend_unset hs hp
  | link =>
    unfold linkVoronoi
    split
    · exact ⟨h, hb, .nil⟩
    · refine ⟨⟨h.core, ?_, ?_, ?_⟩, hb, .nil⟩
      · intro e he; cases he; exact ⟨rfl, rfl⟩
      · intro e he; cases he; exact ⟨[], .nil⟩
      · intro e he c hc
        cases he
        left
        intro hx
        have := DistMap.inside_valid (h.core.sub c hc)
        rw [← hx] at this; cases this
  | update u =>
    obtain ⟨hI, st⟩ := h.steps u.1
    refine ⟨hI, ?_, .cons (.update ⟨st, u.2⟩) .nil⟩
    intro e he
    rw [u.2] at he; cases he
  | updateEdges he u =>
    rename_i e e'
    obtain ⟨os, r⟩ := h.edges e he
    have r' := r.append (.cons (.update u) .nil)
    have hz := (DistMap.run_inv r).1.call_size (.update u)
    have hez := h.size e he
    refine ⟨⟨h.core, ?_, ?_, ?_⟩, hb, .nil⟩
    · intro e2 h2; cases h2; exact ⟨hz.1.trans hez.1, hz.2.trans hez.2⟩
    · intro e2 h2; cases h2; exact ⟨_, r'⟩
    · intro e2 h2 c hc
      cases h2
      have hin : e.inside c = true := by rw [DistMap.inside_congr hez.1 hez.2]; exact h.core.sub c hc
      refine (h.apart e he c hc).imp_left fun hx => ?_
      rw [Ne, run_obst r' (by rw [DistMap.inside_congr hz.1 hz.2]; exact hin), obstacles_append]
      rw [Ne, run_obst r hin] at hx
      exact hx

theorem GInv.run {g g' : ObstDistMap} {S : Set Cell} (h : g.GInv S) (hb : g.core.Batch) {os : List Op}
    (r : Run g os g') : g'.GInv ((obstacleCalls os).foldl DistMap.afterOp S) ∧ g'.core.Batch ∧
      DistMap.Run g.core (obstacleCalls os) g'.core := by
  induction r generalizing S with
  | nil => exact ⟨h, hb, .nil⟩
  | cons c _ ih =>
    rename_i g0 g1 g2 o os _
    obtain ⟨h1, hb1, r1⟩ := h.call hb c
    obtain ⟨h2, hb2, r2⟩ := ih h1 hb1
    have he : obstacleCalls (o :: os) = (obstacleCall o).toList ++ obstacleCalls os := by
      unfold obstacleCalls
      rw [List.filterMap_cons]
      cases obstacleCall o <;> rfl
    rw [he, List.foldl_append]
    exact ⟨h2, hb2, r1.append r2⟩

theorem run_ginv {rows columns : Int} {os : List Op} {g : ObstDistMap} (r : Run (.new rows columns) os g) :
    g.GInv (obstacles (obstacleCalls os)) ∧ DistMap.Run (.new rows columns) (obstacleCalls os) g.core := by
  obtain ⟨h, -, r'⟩ := (GInv.new rows columns).run (fun e he => by cases he) r
  exact ⟨h, r'⟩

end ObstDistMap
end PathPlanning
