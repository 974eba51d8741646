import Verif.Model.DistMapInt
import Verif.Props.DistMap
import Mathlib.Tactic.Linarith
import Mathlib.Tactic.NormNum
import Mathlib.Tactic.Ring

/-!
# The distance maps with 32 bit integers: C115
-/

namespace PathPlanning
open Spec

namespace Spec

/-- The number by which the code represents a squared distance; "no obstacle" is the greatest `int`. -/
def intOf : WithTop Nat → Int
  | ⊤ => 2147483647
  | (n : Nat) => n

/-- The 32 bit map `i` holds what the ideal map `m` holds. -/
structure Represents (i : IntMap) (m : DistMap) : Prop where
  rows : i.rows = m.rows
  columns : i.columns = m.columns
  dist : ∀ c, i.dist c = intOf (m.dist c)
  /-- No finite distance is mistaken for "no obstacle". -/
  finite : ∀ c, i.dist c = 2147483647 ↔ m.dist c = ⊤
  obst : i.obst = m.obst
  toRaise : i.toRaise = m.toRaise
  toProcess : i.toProcess = m.toProcess
  queue : i.queue = m.queue.map fun e => (e.1, intOf e.2)

/-- The same for the obstacle map and the linked map of Voronoi edges. -/
def RepresentsLinked (i : IntObstMap) (g : ObstDistMap) : Prop :=
  Represents i.core g.core ∧
    ((i.edges = none ∧ g.edges = none) ∨ ∃ e e', i.edges = some e ∧ g.edges = some e' ∧ Represents e e')

/-- The squared diagonal of the matrix is an `int`. -/
def DiagonalFits (rows columns : Int) : Prop := (rows - 1) ^ 2 + (columns - 1) ^ 2 ≤ 2147483647

end Spec

/-! ## The embedding -/

namespace DistMap

/-- The 32 bit map with the same contents. -/
def emb (m : DistMap) : IntMap :=
  ⟨m.rows, m.columns, fun c => intOf (m.dist c), m.obst, m.toRaise, m.toProcess,
    m.queue.map fun e => (e.1, intOf e.2)⟩

/-- Finite distances are below the greatest `int`. -/
def Fits (d : WithTop Nat) : Prop := ∀ k : Nat, d = k → (k : Int) < 2147483647

/-- The same for all distances of the map. -/
def Good (m : DistMap) : Prop := (∀ c, Fits (m.dist c)) ∧ ∀ e ∈ m.queue, Fits e.2

theorem fits_top : Fits ⊤ := fun k h => absurd h.symm (WithTop.coe_ne_top (a := k))
theorem fits_zero : Fits 0 := fun k h => by
  have : (0 : Nat) = k := WithTop.coe_injective h
  omega
theorem fits_coe {k : Nat} (h : (k : Int) < 2147483647) : Fits (k : WithTop Nat) := fun j hj => by
  have : k = j := WithTop.coe_injective hj
  omega

theorem intOf_eq (d : WithTop Nat) : ObstDistMap.toInt d = intOf d := by
  induction d using WithTop.recTopCoe with
  | top => rfl
  | coe d => rfl

theorem intOf_coe (k : Nat) : intOf (k : WithTop Nat) = k := rfl
theorem intOf_some (k : Nat) : intOf (WithTop.some k) = k := rfl
theorem intOf_top : intOf ⊤ = 2147483647 := rfl

theorem intOf_bounds {d : WithTop Nat} (h : Fits d) : 0 ≤ intOf d ∧ intOf d ≤ 2147483647 := by
  induction d using WithTop.recTopCoe with
  | top => rw [intOf_top]; omega
  | coe d => have := h d rfl; rw [intOf_some]; omega

theorem intOf_le {d d' : WithTop Nat} (h : Fits d) (h' : Fits d') : intOf d ≤ intOf d' ↔ d ≤ d' := by
  induction d using WithTop.recTopCoe with
  | top =>
    induction d' using WithTop.recTopCoe with
    | top => simp
    | coe k => have := h' k rfl; rw [intOf_some, intOf_top]; simp; omega
  | coe j =>
    induction d' using WithTop.recTopCoe with
    | top => have := h j rfl; rw [intOf_some, intOf_top]; simp; omega
    | coe k => rw [intOf_some, intOf_some, WithTop.coe_le_coe]; omega

theorem intOf_lt {d d' : WithTop Nat} (h : Fits d) (h' : Fits d') : intOf d < intOf d' ↔ d < d' := by
  rw [← not_le, intOf_le h' h, not_le]

theorem intOf_inj {d d' : WithTop Nat} (h : Fits d) (h' : Fits d') (e : intOf d = intOf d') : d = d' :=
  le_antisymm ((intOf_le h h').mp e.le) ((intOf_le h' h).mp e.ge)

theorem emb_represents {m : DistMap} (h : Good m) : Represents m.emb m where
  rows := rfl
  columns := rfl
  dist _ := rfl
  finite c := ⟨fun he => intOf_inj (h.1 c) fits_top he, fun he => by show intOf _ = _; rw [he]; rfl⟩
  obst := rfl
  toRaise := rfl
  toProcess := rfl
  queue := rfl

theorem represents_emb {i : IntMap} {m : DistMap} (h : Represents i m) : i = m.emb := by
  obtain ⟨h1, h2, h3, -, h5, h6, h7, h8⟩ := h
  obtain ⟨r, c, d, o, tr, tp, q⟩ := i
  simp only at h1 h2 h3 h5 h6 h7 h8
  subst h1 h2 h5 h6 h7 h8
  rw [emb, funext h3]

theorem emb_new (rows columns : Int) : (DistMap.new rows columns).emb = IntMap.new rows columns := rfl
theorem good_new (rows columns : Int) : Good (DistMap.new rows columns) :=
  ⟨fun _ => fits_top, by simp [DistMap.new]⟩

end DistMap

open DistMap

theorem ckInt_eq_some {x y : Int} : ckInt x = some y ↔ x = y ∧ -2147483648 ≤ x ∧ x ≤ 2147483647 := by
  unfold ckInt
  split
  · rename_i h; simp [h]
  · rename_i h; simp only [reduceCtorEq, false_iff]; tauto

/-- 2³¹ - 1 is not a sum of two squares. -/
theorem sq_ne_intMax (x y : Int) : x * x + y * y ≠ 2147483647 := by
  intro h
  have hx : x % 4 = 0 ∨ x % 4 = 1 ∨ x % 4 = 2 ∨ x % 4 = 3 := by omega
  have hy : y % 4 = 0 ∨ y % 4 = 1 ∨ y % 4 = 2 ∨ y % 4 = 3 := by omega
  have h4 : (x * x + y * y) % 4 = 3 := by rw [h]; decide
  rw [Int.add_emod, Int.mul_emod x x, Int.mul_emod y y] at h4
  rcases hx with e | e | e | e <;> rcases hy with e' | e' | e' | e' <;> rw [e, e'] at h4 <;> exact absurd h4 (by decide)

theorem squaredDistanceI_some {a b : Cell} {d : Int} (h : squaredDistanceI a b = some d) :
    d = squaredDistance a b ∧ d < 2147483647 := by
  unfold squaredDistanceI at h
  simp only [Option.bind_eq_bind, Option.bind_eq_some_iff, ckInt_eq_some] at h
  obtain ⟨_, ⟨rfl, -⟩, _, ⟨rfl, -⟩, _, ⟨rfl, -⟩, _, ⟨rfl, -⟩, rfl, -, h⟩ := h
  have h0 : 0 ≤ (a.row - b.row) * (a.row - b.row) := mul_self_nonneg _
  have h1 : 0 ≤ (a.col - b.col) * (a.col - b.col) := mul_self_nonneg _
  have h2 := sq_ne_intMax (a.row - b.row) (a.col - b.col)
  constructor
  · simp only [squaredDistance]
    omega
  · omega

theorem squaredDistanceI_fits {rows columns : Int} (hf : DiagonalFits rows columns) {a b : Cell}
    (ha : InRect rows columns a) (hb : InRect rows columns b) :
    squaredDistanceI a b = some (squaredDistance a b : Int) ∧ ∃ x, ckInt (a.row - b.row) = some x ∧
      ∃ y, ckInt (a.col - b.col) = some y := by
  unfold DiagonalFits at hf
  obtain ⟨a1, a2, a3, a4⟩ := ha
  obtain ⟨b1, b2, b3, b4⟩ := hb
  have hr : (a.row - b.row) * (a.row - b.row) ≤ (rows - 1) ^ 2 := by nlinarith
  have hc : (a.col - b.col) * (a.col - b.col) ≤ (columns - 1) ^ 2 := by nlinarith
  have h0 : 0 ≤ (a.row - b.row) * (a.row - b.row) := mul_self_nonneg _
  have h1 : 0 ≤ (a.col - b.col) * (a.col - b.col) := mul_self_nonneg _
  have hr' : -46341 < a.row - b.row ∧ a.row - b.row < 46341 := by constructor <;> nlinarith
  have hc' : -46341 < a.col - b.col ∧ a.col - b.col < 46341 := by constructor <;> nlinarith
  have e1 : ckInt (a.row - b.row) = some (a.row - b.row) := ckInt_eq_some.mpr ⟨rfl, by omega⟩
  have e2 : ckInt (a.col - b.col) = some (a.col - b.col) := ckInt_eq_some.mpr ⟨rfl, by omega⟩
  refine ⟨?_, _, e1, _, e2⟩
  unfold squaredDistanceI
  simp only [Option.bind_eq_bind, Option.bind_eq_some_iff, ckInt_eq_some]
  refine ⟨_, ⟨rfl, by omega⟩, _, ⟨rfl, by omega⟩, _, ⟨rfl, by omega⟩, _, ⟨rfl, by omega⟩, ?_, by omega⟩
  simp only [squaredDistance]
  omega

/-! ## Simulation -/

/-- The 32 bit computation `ri` overflows, and then `sm` is false, or gives what the ideal computation `r` gives. -/
def Sim {I G : Type} (sm : Prop) (good : G → Prop) (emb : G → I) (ri : Option I) (r : Option G) : Prop :=
  (ri = none ∧ ¬ sm) ∨ (ri = r.map emb ∧ ∀ g, r = some g → good g)

theorem Sim.bind {I G I' G' : Type} {sm : Prop} {good : G → Prop} {emb : G → I} {good' : G' → Prop} {emb' : G' → I'}
    {ri : Option I} {r : Option G} {fi : I → Option I'} {f : G → Option G'} (h : Sim sm good emb ri r)
    (hf : ∀ g, good g → Sim sm good' emb' (fi (emb g)) (f g)) : Sim sm good' emb' (ri.bind fi) (r.bind f) := by
  rcases h with ⟨h1, h2⟩ | ⟨h1, h2⟩
  · subst h1; exact Or.inl ⟨rfl, h2⟩
  · subst h1
    cases r with
    | none => exact Or.inr ⟨rfl, by simp⟩
    | some g => simpa using hf g (h2 g rfl)

theorem Sim.ret {I G : Type} {sm : Prop} {good : G → Prop} {emb : G → I} {g : G} (h : good g) :
    Sim sm good emb (some (emb g)) (some g) := Or.inr ⟨rfl, by rintro _ ⟨⟩; exact h⟩

theorem Sim.fail {I G : Type} {sm : Prop} {good : G → Prop} {emb : G → I} :
    Sim sm good emb (none : Option I) (none : Option G) := Or.inr ⟨rfl, by simp⟩

/-- A value that both computations read. -/
theorem Sim.same {α I G : Type} {sm : Prop} {good : G → Prop} {emb : G → I} {r : Option α} {fi : α → Option I}
    {f : α → Option G} (h : ∀ a, r = some a → Sim sm good emb (fi a) (f a)) :
    Sim sm good emb (r.bind fi) (r.bind f) := by
  cases r with
  | none => exact Sim.fail
  | some a => exact h a rfl

theorem Sim.mono {I G : Type} {sm : Prop} {good good' : G → Prop} {emb : G → I} {ri : Option I} {r : Option G}
    (h : Sim sm good emb ri r) (hg : ∀ g, good g → good' g) : Sim sm good' emb ri r := by
  rcases h with h | ⟨h1, h2⟩
  · exact Or.inl h
  · exact Or.inr ⟨h1, fun g e => hg g (h2 g e)⟩

theorem Sim.foldlM {I G α : Type} {sm : Prop} {good : G → Prop} {emb : G → I} {fi : I → α → Option I}
    {f : G → α → Option G} (l : List α) (hf : ∀ x ∈ l, ∀ g, good g → Sim sm good emb (fi (emb g) x) (f g x)) :
    ∀ {g : G}, good g → Sim sm good emb (l.foldlM fi (emb g)) (l.foldlM f g) := by
  induction l with
  | nil => intro g hg; exact Sim.ret hg
  | cons x l ih =>
    intro g hg
    simp only [List.foldlM_cons, Option.bind_eq_bind]
    exact (hf x (by simp) g hg).bind fun g' hg' => ih (fun y hy => hf y (by simp [hy])) hg'

namespace DistMap

theorem read_inside {α : Type} {m : DistMap} {f : Cell → α} {c : Cell} {a : α} (h : m.read f c = some a) :
    m.inside c = true ∧ a = f c := by
  unfold read at h
  split at h
  · rename_i hi; cases h; exact ⟨hi, rfl⟩
  · cases h

theorem setAt_emb (d : Cell → WithTop Nat) (c : Cell) (v : WithTop Nat) :
    setAt (fun c => intOf (d c)) c (intOf v) = fun x => intOf (setAt d c v x) := by
  funext x; unfold setAt; split <;> rfl

theorem fits_setAt {d : Cell → WithTop Nat} (h : ∀ c, Fits (d c)) {v : WithTop Nat} (hv : Fits v) (c x : Cell) :
    Fits (setAt d c v x) := by
  unfold setAt; split
  · exact hv
  · exact h x

theorem sim_set {sm : Prop} {m : DistMap} (h : Good m) (s : Cell) : Sim sm Good emb (m.emb.set s) (m.set s) := by
  unfold IntMap.set DistMap.set
  by_cases hi : m.inside s = true
  · rw [if_pos (show m.emb.inside s = true from hi), if_pos hi]
    refine Or.inr ⟨?_, ?_⟩
    · simp only [Option.map_some, emb, List.map_cons]
      rw [← setAt_emb m.dist s 0]; rfl
    · rintro g ⟨⟩
      refine ⟨fun c => fits_setAt h.1 fits_zero s c, fun e he => ?_⟩
      rcases List.mem_cons.mp he with rfl | he
      · exact fits_zero
      · exact h.2 e he
  · rw [if_neg (show ¬ m.emb.inside s = true from hi), if_neg hi]; exact Sim.fail

theorem sim_unset {sm : Prop} {m : DistMap} (h : Good m) (s : Cell) :
    Sim sm Good emb (m.emb.unset s) (m.unset s) := by
  unfold IntMap.unset DistMap.unset
  by_cases hi : m.inside s = true
  · rw [if_pos (show m.emb.inside s = true from hi), if_pos hi]
    refine Or.inr ⟨?_, ?_⟩
    · simp only [Option.map_some, emb, List.map_cons]
      rw [← setAt_emb m.dist s ⊤]; rfl
    · rintro g ⟨⟩
      refine ⟨fun c => fits_setAt h.1 fits_top s c, fun e he => ?_⟩
      rcases List.mem_cons.mp he with rfl | he
      · exact fits_top
      · exact h.2 e he
  · rw [if_neg (show ¬ m.emb.inside s = true from hi), if_neg hi]; exact Sim.fail

theorem emb_push (m : DistMap) (n : Cell) (d : WithTop Nat) : (m.push n d).emb = m.emb.push n (intOf d) := rfl

theorem emb_clear (m : DistMap) (n : Cell) : (m.clear n).emb = m.emb.clear n := by
  simp only [emb, clear, IntMap.clear]
  rw [← setAt_emb]; rfl

theorem emb_take (m : DistMap) (n o : Cell) (d : Nat) : (m.take n o d).emb = m.emb.take n o (d : Int) := by
  simp only [take, emb_push, IntMap.take]
  simp only [emb]
  rw [← setAt_emb]; rfl

theorem good_push {m : DistMap} (h : Good m) (n : Cell) {d : WithTop Nat} (hd : Fits d) : Good (m.push n d) := by
  refine ⟨h.1, fun e he => ?_⟩
  rcases List.mem_cons.mp he with rfl | he
  · exact hd
  · exact h.2 e he

theorem good_clear {m : DistMap} (h : Good m) (n : Cell) : Good (m.clear n) :=
  ⟨fun c => fits_setAt h.1 fits_top n c, h.2⟩

theorem good_take {m : DistMap} (h : Good m) (n o : Cell) {d : Nat} (hd : (d : Int) < 2147483647) :
    Good (m.take n o d) :=
  good_push (m := { m with dist := setAt m.dist n d, obst := setAt m.obst n o })
    ⟨fun c => fits_setAt h.1 (fits_coe hd) n c, h.2⟩ n (fits_coe hd)

theorem sim_raiseOne {sm : Prop} {m : DistMap} (h : Good m) (n : Cell) :
    Sim sm Good emb (m.emb.raiseOne n) (m.raiseOne n) := by
  unfold IntMap.raiseOne DistMap.raiseOne
  simp only [Option.bind_eq_bind, Option.pure_def]
  refine Sim.same (r := m.read m.obst n) fun o _ => Sim.same (r := m.read m.toRaise n) fun r _ => ?_
  split
  · refine Sim.same (r := m.isOccupied o) fun occ _ => ?_
    cases occ
    · simp only [Bool.false_eq_true, if_false]
      rw [show m.emb.clear n = (m.clear n).emb from (emb_clear m n).symm]
      exact Sim.ret (good_push (good_clear h n) n ((good_clear h n).1 n))
    · simp only [if_true]
      exact Sim.ret (good_push h n (h.1 n))
  · exact Sim.ret h

/-- The invariant of the lower loop: the sizes and the obstacle of `s` do not change. -/
def Low (rows columns : Int) (s o : Cell) (m : DistMap) : Prop :=
  Good m ∧ m.rows = rows ∧ m.columns = columns ∧ m.obst s = o

theorem inRect_of_inside {m : DistMap} {c : Cell} (h : m.inside c = true) : InRect m.rows m.columns c := by
  rw [inside_iff] at h; exact h

theorem sim_sq {rows columns : Int} {a b : Cell} (ha : InRect rows columns a) (hb : InRect rows columns b) :
    (squaredDistanceI a b = none ∧ ¬ DiagonalFits rows columns) ∨
      (squaredDistanceI a b = some (squaredDistance a b : Int) ∧ (squaredDistance a b : Int) < 2147483647) := by
  cases h : squaredDistanceI a b with
  | none => exact Or.inl ⟨rfl, fun hf => by rw [(squaredDistanceI_fits hf ha hb).1] at h; cases h⟩
  | some d => obtain ⟨h1, h2⟩ := squaredDistanceI_some h; subst h1; exact Or.inr ⟨rfl, h2⟩

theorem low_take {rows columns : Int} {s o n : Cell} {m : DistMap} (h : Low rows columns s o m) (hn : n ≠ s) (o' : Cell)
    {d : Nat} (hd : (d : Int) < 2147483647) : Low rows columns s o (m.take n o' d) := by
  refine ⟨good_take h.1 n o' hd, h.2.1, h.2.2.1, ?_⟩
  show setAt m.obst n o' s = o
  unfold setAt
  rw [if_neg (fun e => hn e.symm)]
  exact h.2.2.2

theorem sim_lowerOne {rows columns : Int} {s o n : Cell} (ho : InRect rows columns o) (hn : n ≠ s) {m : DistMap}
    (h : Low rows columns s o m) :
    Sim (DiagonalFits rows columns) (Low rows columns s o) emb (m.emb.lowerOne s n) (m.lowerOne s n) := by
  unfold IntMap.lowerOne DistMap.lowerOne
  simp only [Option.bind_eq_bind, Option.pure_def]
  refine Sim.same (r := m.read m.toRaise n) fun r hr => ?_
  split
  · refine Sim.same (r := m.read m.obst s) fun o' ho' => ?_
    have e : o' = o := (read_inside ho').2.trans h.2.2.2
    subst e
    have hni := inRect_of_inside (read_inside hr).1
    rw [h.2.1, h.2.2.1] at hni
    rcases sim_sq ho hni with ⟨h1, h2⟩ | ⟨h1, h2⟩
    · rw [h1]; exact Or.inl ⟨rfl, h2⟩
    · rw [h1]
      have e1 : m.read m.dist n = some (m.dist n) := by unfold DistMap.read; rw [if_pos (read_inside hr).1]
      have e2 : m.emb.read m.emb.dist n = some (intOf (m.dist n)) := by
        unfold IntMap.read; rw [if_pos (show m.emb.inside n = true from (read_inside hr).1)]; rfl
      rw [e1, e2]
      simp only [Option.bind_some]
      have hlt := intOf_lt (fits_coe h2) (h.1.1 n)
      rw [intOf_coe] at hlt
      by_cases hc : ((squaredDistance o' n : Nat) : WithTop Nat) < m.dist n
      · rw [if_pos (hlt.mpr hc), if_pos hc, ← emb_take]
        exact Sim.ret (low_take h hn _ h2)
      · rw [if_neg (fun x => hc (hlt.mp x)), if_neg hc]
        exact Sim.ret h
  · exact Sim.ret h

theorem nbr_ne {s n : Cell} {rows columns : Int} (h : n ∈ s.getNeighbors rows columns) : n ≠ s := by
  rw [Cell.mem_getNeighbors, chebyshev_eq_one] at h
  obtain ⟨-, h, -⟩ := h
  rintro rfl
  simp at h

theorem occupied_inside {m : DistMap} {o : Cell} (h : m.isOccupied o = some true) : m.inside o = true := by
  unfold isOccupied at h
  split at h
  · simp only [Option.bind_eq_bind, Option.bind_eq_some_iff] at h
    obtain ⟨_, h, -⟩ := h
    exact (read_inside h).1
  · cases h

theorem raise_emb {rows columns : Int} {m : DistMap} (h : Good m ∧ m.rows = rows ∧ m.columns = columns) (n : Cell) :
    Sim (DiagonalFits rows columns) (fun m => Good m ∧ m.rows = rows ∧ m.columns = columns) emb
      (m.emb.raiseOne n) (m.raiseOne n) := by
  rcases sim_raiseOne (sm := DiagonalFits rows columns) h.1 n with hl | ⟨h1, h2⟩
  · exact Or.inl hl
  refine Or.inr ⟨h1, fun g hg => ⟨h2 g hg, ?_⟩⟩
  unfold raiseOne at hg
  simp only [Option.bind_eq_bind, Option.bind_eq_some_iff, Option.pure_def] at hg
  obtain ⟨o, -, r, -, hg⟩ := hg
  split at hg
  · rw [Option.bind_eq_some_iff] at hg
    obtain ⟨b, -, hg⟩ := hg
    cases b
    · cases hg; exact h.2
    · cases hg; exact h.2
  · cases hg; exact h.2

theorem sim_process {rows columns : Int} {m : DistMap} (h : Good m ∧ m.rows = rows ∧ m.columns = columns) (s : Cell) :
    Sim (DiagonalFits rows columns) (fun m => Good m ∧ m.rows = rows ∧ m.columns = columns) emb
      (m.emb.process s) (m.process s) := by
  unfold IntMap.process DistMap.process
  simp only [Option.bind_eq_bind, Option.pure_def]
  refine Sim.same (r := m.read m.toProcess s) fun p _ => ?_
  split
  · refine Sim.same (r := m.read m.toRaise s) fun r hr => ?_
    split
    · refine Sim.bind (Sim.foldlM _ (fun n _ g hg => raise_emb hg n) h) fun g hg => ?_
      exact Sim.ret (good := fun m => Good m ∧ m.rows = rows ∧ m.columns = columns)
        (g := { g with toRaise := setAt g.toRaise s false }) hg
    · refine Sim.same (r := m.read m.obst s) fun o ho => Sim.same (r := m.isOccupied o) fun occ hocc => ?_
      split
      · rename_i hocc'
        subst hocc'
        have hoi := inRect_of_inside (occupied_inside hocc)
        rw [h.2.1, h.2.2] at hoi
        refine Sim.mono (good := Low rows columns s o) ?_ fun g hg => ⟨hg.1, hg.2.1, hg.2.2.1⟩
        exact Sim.foldlM (s.getNeighbors m.rows m.columns) (fun n hn g hg => sim_lowerOne hoi (nbr_ne hn) hg)
          (g := { m with toProcess := setAt m.toProcess s false })
          ⟨h.1, h.2.1, h.2.2, (read_inside ho).2.symm⟩
      · exact Sim.ret h
  · exact Sim.ret h

/-! ### The queue -/

theorem map_erase {q : List (Cell × WithTop Nat)} (h : ∀ e ∈ q, Fits e.2) {e : Cell × WithTop Nat} (he : Fits e.2) :
    (q.map fun e => (e.1, intOf e.2)).erase (e.1, intOf e.2) = (q.erase e).map fun e => (e.1, intOf e.2) := by
  induction q with
  | nil => rfl
  | cons a q ih =>
    have ih := ih fun e he => h e (by simp [he])
    by_cases hae : a = e
    · subst hae; simp
    · have hne : ((a.1, intOf a.2) : Cell × Int) ≠ (e.1, intOf e.2) := by
        intro hh
        rw [Prod.mk.injEq] at hh
        exact hae (Prod.ext hh.1 (intOf_inj (h a (by simp)) he hh.2))
      rw [List.map_cons, List.erase_cons_tail (by simpa using hne), ih, List.erase_cons_tail (by simpa using hae),
        List.map_cons]

theorem isTop_emb {m : DistMap} (h : Good m) {e : Cell × WithTop Nat} :
    IsTop m.queue e → IntMap.IsTop m.emb.queue (e.1, intOf e.2) := by
  rintro ⟨h1, h2⟩
  refine ⟨List.mem_map.mpr ⟨e, h1, rfl⟩, fun e' he' => ?_⟩
  obtain ⟨e'', he'', rfl⟩ := List.mem_map.mp he'
  exact (intOf_le (h.2 e h1) (h.2 e'' he'')).mpr (h2 e'' he'')

theorem emb_isTop {m : DistMap} (h : Good m) {e' : Cell × Int} (ht : IntMap.IsTop m.emb.queue e') :
    ∃ e, e' = (e.1, intOf e.2) ∧ IsTop m.queue e := by
  obtain ⟨h1, h2⟩ := ht
  obtain ⟨e, he, rfl⟩ := List.mem_map.mp h1
  refine ⟨e, rfl, he, fun a ha => ?_⟩
  exact (intOf_le (h.2 e he) (h.2 a ha)).mp (h2 _ (List.mem_map.mpr ⟨a, ha, rfl⟩))

theorem pop_emb {m : DistMap} (h : Good m) {e : Cell × WithTop Nat} (he : e ∈ m.queue) :
    m.emb.pop (e.1, intOf e.2) = (m.pop e).emb := by
  simp only [IntMap.pop, emb, pop]
  rw [map_erase h.2 (h.2 e he)]

theorem good_pop {m : DistMap} (h : Good m) (e : Cell × WithTop Nat) : Good (m.pop e) :=
  ⟨h.1, fun e' he' => h.2 e' (List.mem_of_mem_erase he')⟩

end DistMap

/-! ## Linked maps -/

namespace ObstDistMap

/-- The 32 bit maps with the same contents. -/
def emb (g : ObstDistMap) : IntObstMap := ⟨g.core.emb, g.edges.map DistMap.emb⟩

/-- Finite distances are below the greatest `int`. -/
def Good (rows columns : Int) (g : ObstDistMap) : Prop :=
  (g.core.Good ∧ g.core.rows = rows ∧ g.core.columns = columns) ∧
    ∀ e, g.edges = some e → e.Good ∧ e.rows = rows ∧ e.columns = columns

theorem sim_markEdges {sm : Prop} {e : DistMap} (h : e.Good) {a b : Int} (ha : 0 ≤ a ∧ a ≤ 2147483647)
    (hb : 0 ≤ b ∧ b ≤ 2147483647) {ds dn : WithTop Nat} (hds : Fits ds) (hdn : Fits dn) (s n : Cell) :
    Sim sm DistMap.Good DistMap.emb (IntObstMap.markEdges e.emb a b (intOf ds) (intOf dn) s n)
      (markEdges e a b (toInt ds) (toInt dn) s n) := by
  have b1 := intOf_bounds hds
  have b2 := intOf_bounds hdn
  unfold IntObstMap.markEdges markEdges
  rw [intOf_eq, intOf_eq, ckInt_eq_some.mpr ⟨rfl, by omega⟩, ckInt_eq_some.mpr ⟨rfl, by omega⟩]
  simp only [Option.bind_eq_bind, Option.bind_some, Option.pure_def]
  split
  · exact Sim.ret h
  · have hn : ∀ e1 : DistMap, e1.Good → Sim sm DistMap.Good DistMap.emb
        (if b - intOf dn ≤ a - intOf ds then e1.emb.set n else some e1.emb)
        (if b - intOf dn ≤ a - intOf ds then e1.set n else some e1) := fun e1 h1 => by
      split
      · exact sim_set h1 n
      · exact Sim.ret h1
    split
    · exact Sim.bind (sim_set h s) hn
    · exact hn e h

theorem markEdges_size {e e' : DistMap} {a b c d : Int} {s n : Cell} (h : markEdges e a b c d s n = some e') :
    e'.rows = e.rows ∧ e'.columns = e.columns := by
  have hset : ∀ (m m' : DistMap) (c : Cell), m.set c = some m' → m'.rows = m.rows ∧ m'.columns = m.columns := by
    intro m m' c h
    unfold DistMap.set at h
    split at h
    · cases h; exact ⟨rfl, rfl⟩
    · cases h
  unfold markEdges at h
  simp only [Option.bind_eq_bind, Option.pure_def] at h
  split at h
  · cases h; exact ⟨rfl, rfl⟩
  · have hn : ∀ e1 : DistMap, (if b - d ≤ a - c then e1.set n else some e1) = some e' →
        e'.rows = e1.rows ∧ e'.columns = e1.columns := fun e1 h => by
      split at h
      · exact hset _ _ _ h
      · cases h; exact ⟨rfl, rfl⟩
    split at h
    · rw [Option.bind_eq_some_iff] at h
      obtain ⟨e1, h1, h⟩ := h
      exact ⟨(hn e1 h).1.trans (hset _ _ _ h1).1, (hn e1 h).2.trans (hset _ _ _ h1).2⟩
    · exact hn e h

theorem sim_checkVoro {rows columns : Int} (occ : Cell → Int) {m e : DistMap}
    (hm : m.Good ∧ m.rows = rows ∧ m.columns = columns) (h : e.Good) (s n : Cell) :
    Sim (DiagonalFits rows columns) DistMap.Good DistMap.emb (IntObstMap.checkVoro occ m.emb e.emb s n)
      (checkVoro occ m e s n) := by
  have hin : ∀ c, m.inside c = true → InRect rows columns c := fun c hc => by
    have := inRect_of_inside hc; rwa [hm.2.1, hm.2.2] at this
  unfold IntObstMap.checkVoro checkVoro
  simp only [Option.bind_eq_bind, Option.pure_def]
  refine Sim.same (r := m.read m.obst s) fun oS hoS => Sim.same (r := m.read m.obst n) fun oN hoN =>
    Sim.same (r := m.read occ oS) fun vS hvS => Sim.same (r := m.read occ oN) fun vN hvN => ?_
  split
  · exact Sim.ret h
  · have is := (read_inside hoS).1
    have iN := (read_inside hoN).1
    have e1 : ∀ c, m.inside c = true → m.read m.dist c = some (m.dist c) ∧
        m.emb.read m.emb.dist c = some (intOf (m.dist c)) := fun c hc => by
      refine ⟨by unfold DistMap.read; rw [if_pos hc], ?_⟩
      unfold IntMap.read; rw [if_pos (show m.emb.inside c = true from hc)]; rfl
    rw [(e1 s is).1, (e1 s is).2, (e1 n iN).1, (e1 n iN).2]
    simp only [Option.bind_some]
    have hgt : ∀ c, (m.dist c > 1 ↔ intOf (m.dist c) > 1) := fun c => by
      have := intOf_lt (fits_coe (k := 1) (by decide)) (hm.1.1 c)
      exact this.symm
    simp only [← hgt s, ← hgt n]
    split
    · have iOS := hin _ (read_inside hvS).1
      have iON := hin _ (read_inside hvN).1
      by_cases hf : DiagonalFits rows columns
      · obtain ⟨-, x, hx, y, hy⟩ := squaredDistanceI_fits hf iOS iON
        rw [hx, hy]
        have hx' := (ckInt_eq_some.mp hx).1
        have hy' := (ckInt_eq_some.mp hy).1
        subst hx' hy'
        simp only [Option.bind_some]
        split
        · rcases sim_sq (hin _ is) iON with ⟨h1, h2⟩ | ⟨h1, h2⟩
          · exact absurd hf h2
          rcases sim_sq (hin _ iN) iOS with ⟨h1', h2'⟩ | ⟨h1', h2'⟩
          · exact absurd hf h2'
          rw [h1, h1']
          simp only [Option.bind_some]
          exact sim_markEdges h (by omega) (by omega) (hm.1.1 s) (hm.1.1 n) s n
        · exact Sim.ret h
      · cases hx : ckInt (oS.row - oN.row) with
        | none => exact Or.inl ⟨rfl, hf⟩
        | some x =>
          cases hy : ckInt (oS.col - oN.col) with
          | none => exact Or.inl ⟨rfl, hf⟩
          | some y =>
            have hx' := (ckInt_eq_some.mp hx).1
            have hy' := (ckInt_eq_some.mp hy).1
            subst hx' hy'
            simp only [Option.bind_some]
            split
            · rcases sim_sq (hin _ is) iON with ⟨h1, h2⟩ | ⟨h1, h2⟩
              · rw [h1]; exact Or.inl ⟨rfl, hf⟩
              rcases sim_sq (hin _ iN) iOS with ⟨h1', h2'⟩ | ⟨h1', h2'⟩
              · rw [h1, h1']; exact Or.inl ⟨rfl, hf⟩
              rw [h1, h1']
              simp only [Option.bind_some]
              exact sim_markEdges h (by omega) (by omega) (hm.1.1 s) (hm.1.1 n) s n
            · exact Sim.ret h
    · exact Sim.ret h

theorem checkVoro_size {occ : Cell → Int} {m e e' : DistMap} {s n : Cell} (h : checkVoro occ m e s n = some e') :
    e'.rows = e.rows ∧ e'.columns = e.columns := by
  unfold checkVoro at h
  simp only [Option.bind_eq_bind, Option.pure_def, Option.bind_eq_some_iff] at h
  obtain ⟨_, -, _, -, _, -, _, -, h⟩ := h
  split at h
  · cases h; exact ⟨rfl, rfl⟩
  · simp only [Option.bind_eq_some_iff] at h
    obtain ⟨_, -, _, -, h⟩ := h
    split at h
    · split at h
      · exact markEdges_size h
      · cases h; exact ⟨rfl, rfl⟩
    · cases h; exact ⟨rfl, rfl⟩

/-- The invariant of the lower loop. -/
def Low (rows columns : Int) (s o : Cell) (g : ObstDistMap) : Prop :=
  Good rows columns g ∧ g.core.obst s = o

theorem sim_lowerOne {rows columns : Int} (occ : Cell → Int) {s o n : Cell} (ho : InRect rows columns o) (hn : n ≠ s)
    {g : ObstDistMap} (h : Low rows columns s o g) :
    Sim (DiagonalFits rows columns) (Low rows columns s o) emb (IntObstMap.lowerOne occ s g.emb n)
      (lowerOne occ s g n) := by
  obtain ⟨m, eg⟩ := g
  obtain ⟨⟨hm, he⟩, hos⟩ := h
  simp only at hm he hos
  unfold IntObstMap.lowerOne lowerOne
  simp only [Option.bind_eq_bind, Option.pure_def]
  refine Sim.same (r := m.read m.toRaise n) fun r hr => ?_
  split
  · refine Sim.same (r := m.read m.obst s) fun o' ho' => ?_
    have e : o' = o := (read_inside ho').2.trans hos
    subst e
    have hni := inRect_of_inside (read_inside hr).1
    rw [hm.2.1, hm.2.2] at hni
    rcases sim_sq ho hni with ⟨h1, h2⟩ | ⟨h1, h2⟩
    · rw [h1]; exact Or.inl ⟨rfl, h2⟩
    · rw [h1]
      have e1 : m.read m.dist n = some (m.dist n) := by unfold DistMap.read; rw [if_pos (read_inside hr).1]
      have e2 : (emb ⟨m, eg⟩).core.read (emb ⟨m, eg⟩).core.dist n = some (intOf (m.dist n)) := by
        exact if_pos (read_inside hr).1
      rw [e1, e2]
      simp only [Option.bind_some]
      have hlt := intOf_lt (fits_coe h2) (hm.1.1 n)
      rw [intOf_coe] at hlt
      by_cases hc : ((squaredDistance o' n : Nat) : WithTop Nat) < m.dist n
      · rw [if_pos (hlt.mpr hc), if_pos hc]
        have hl := low_take (rows := rows) (columns := columns) (s := s) (o := o') (n := n) (m := m)
          ⟨hm.1, hm.2.1, hm.2.2, hos⟩ hn o' h2
        refine Or.inr ⟨?_, ?_⟩
        · simp only [Option.map_some, emb, emb_take]
        · rintro g ⟨⟩
          exact ⟨⟨⟨hl.1, hl.2.1, hl.2.2.1⟩, he⟩, hl.2.2.2⟩
      · rw [if_neg (fun x => hc (hlt.mp x)), if_neg hc]
        cases eg with
        | none => exact Sim.ret (good := Low rows columns s o') (g := ⟨m, none⟩) ⟨⟨hm, he⟩, hos⟩
        | some e =>
          have hv := sim_checkVoro occ hm (he e rfl).1 s n
          simp only [emb, Option.map_some]
          rcases hv with ⟨h3, h4⟩ | ⟨h3, h4⟩
          · rw [h3]; exact Or.inl ⟨rfl, h4⟩
          · rw [h3]
            refine Or.inr ⟨?_, ?_⟩
            · cases checkVoro occ m e s n <;> rfl
            · intro g hg
              rw [Option.map_eq_some_iff] at hg
              obtain ⟨e', he', rfl⟩ := hg
              refine ⟨⟨hm, ?_⟩, hos⟩
              rintro _ ⟨⟩
              have := checkVoro_size he'
              exact ⟨h4 _ he', this.1.trans (he e rfl).2.1, this.2.trans (he e rfl).2.2⟩
  · exact Sim.ret (good := Low rows columns s o) (g := ⟨m, eg⟩) ⟨⟨hm, he⟩, hos⟩

theorem sim_process {rows columns : Int} (occ : Cell → Int) {g : ObstDistMap} (h : Good rows columns g) (s : Cell) :
    Sim (DiagonalFits rows columns) (Good rows columns) emb (IntObstMap.process occ g.emb s) (process occ g s) := by
  obtain ⟨m, eg⟩ := g
  obtain ⟨hm, he⟩ := h
  simp only at hm he
  unfold IntObstMap.process process
  simp only [Option.bind_eq_bind, Option.pure_def]
  refine Sim.same (r := m.read m.toProcess s) fun p _ => ?_
  split
  · refine Sim.same (r := m.read m.toRaise s) fun r hr => ?_
    split
    · refine Sim.bind (Sim.foldlM _ (fun n _ g hg => raise_emb hg n) hm) fun g hg => ?_
      exact Sim.ret (good := Good rows columns)
        (g := ⟨{ g with toRaise := setAt g.toRaise s false }, eg⟩) ⟨hg, he⟩
    · refine Sim.same (r := m.read m.obst s) fun o ho => Sim.same (r := m.isOccupied o) fun occd hocc => ?_
      split
      · rename_i hocc'
        subst hocc'
        have hoi := inRect_of_inside (occupied_inside hocc)
        rw [hm.2.1, hm.2.2] at hoi
        refine Sim.bind (good := fun x : Option DistMap => ∀ e, x = some e → e.Good ∧ e.rows = rows ∧ e.columns = columns)
          (emb := fun x => x.map DistMap.emb) ?_ fun x hx => ?_
        · cases eg with
          | none => exact Sim.ret (good := fun x : Option DistMap => ∀ e, x = some e → _) (g := none) (by simp)
          | some e =>
            simp only [emb, Option.map_some, IntObstMap.unsetEdge, unsetEdge]
            rcases sim_unset (sm := DiagonalFits rows columns) (he e rfl).1 s with ⟨h3, h4⟩ | ⟨h3, h4⟩
            · rw [h3]; exact Or.inl ⟨rfl, h4⟩
            · rw [h3]
              refine Or.inr ⟨?_, ?_⟩
              · cases e.unset s <;> rfl
              · intro x hx e' he'
                rw [Option.map_eq_some_iff] at hx
                obtain ⟨e2, he2, rfl⟩ := hx
                cases he'
                refine ⟨h4 _ he2, ?_⟩
                unfold DistMap.unset at he2
                split at he2
                · cases he2; exact (he e rfl).2
                · cases he2
        · refine Sim.mono (good := Low rows columns s o) ?_ fun g hg => hg.1
          exact Sim.foldlM (s.getNeighbors m.rows m.columns) (fun n hn g hg => sim_lowerOne occ hoi (nbr_ne hn) hg)
            (g := ⟨{ m with toProcess := setAt m.toProcess s false }, x⟩)
            ⟨⟨hm, hx⟩, (read_inside ho).2.symm⟩
      · exact Sim.ret (good := Good rows columns) (g := ⟨m, eg⟩) ⟨hm, he⟩
  · exact Sim.ret (good := Good rows columns) (g := ⟨m, eg⟩) ⟨hm, he⟩

/-! ### Executions -/

theorem emb_good_represents {rows columns : Int} {g : ObstDistMap} (h : Good rows columns g) :
    RepresentsLinked g.emb g := by
  obtain ⟨m, eg⟩ := g
  refine ⟨emb_represents h.1.1, ?_⟩
  cases eg with
  | none => exact Or.inl ⟨rfl, rfl⟩
  | some e => exact Or.inr ⟨_, e, rfl, rfl, emb_represents (h.2 e rfl).1⟩

theorem step_sound {rows columns : Int} {occ : Cell → Int} {g : ObstDistMap} (h : Good rows columns g) {i : IntObstMap}
    (st : IntObstMap.Step occ g.emb i) : ∃ g', Step occ g g' ∧ i = g'.emb ∧ Good rows columns g' := by
  obtain ⟨e', ht, hp⟩ := st
  obtain ⟨e, rfl, hte⟩ := emb_isTop h.1.1 ht
  have hg : Good rows columns { g with core := g.core.pop e } := ⟨⟨good_pop h.1.1 e, h.1.2⟩, h.2⟩
  have hs := sim_process occ hg e.1
  have heq : ({ g with core := g.core.pop e } : ObstDistMap).emb =
      { g.emb with core := g.emb.core.pop (e.1, intOf e.2) } := by
    simp only [emb]; rw [pop_emb h.1.1 hte.1]
  rw [heq, hp] at hs
  rcases hs with ⟨hs, -⟩ | ⟨hs, hg'⟩
  · cases hs
  · obtain ⟨g', hg1, rfl⟩ := Option.map_eq_some_iff.mp hs.symm
    exact ⟨g', ⟨e, hte, hg1⟩, rfl, hg' g' hg1⟩

theorem step_complete {rows columns : Int} (hf : DiagonalFits rows columns) {occ : Cell → Int} {g g' : ObstDistMap}
    (h : Good rows columns g) (st : Step occ g g') : IntObstMap.Step occ g.emb g'.emb ∧ Good rows columns g' := by
  obtain ⟨e, ht, hp⟩ := st
  have hg : Good rows columns { g with core := g.core.pop e } := ⟨⟨good_pop h.1.1 e, h.1.2⟩, h.2⟩
  have hs := sim_process occ hg e.1
  have heq : ({ g with core := g.core.pop e } : ObstDistMap).emb =
      { g.emb with core := g.emb.core.pop (e.1, intOf e.2) } := by
    simp only [emb]; rw [pop_emb h.1.1 ht.1]
  rw [heq, hp] at hs
  rcases hs with ⟨-, hs⟩ | ⟨hs, hg'⟩
  · exact absurd hf hs
  · exact ⟨⟨_, isTop_emb h.1.1 ht, hs⟩, hg' g' rfl⟩

end ObstDistMap

namespace DistMap

theorem step_sound {rows columns : Int} {m : DistMap} (h : m.Good ∧ m.rows = rows ∧ m.columns = columns) {i : IntMap}
    (st : IntMap.Step m.emb i) :
    ∃ m', Step m m' ∧ i = m'.emb ∧ m'.Good ∧ m'.rows = rows ∧ m'.columns = columns := by
  obtain ⟨e', ht, hp⟩ := st
  obtain ⟨e, rfl, hte⟩ := emb_isTop h.1 ht
  have hs := sim_process (m := m.pop e) ⟨good_pop h.1 e, h.2⟩ e.1
  rw [← pop_emb h.1 hte.1, hp] at hs
  rcases hs with ⟨hs, -⟩ | ⟨hs, hg'⟩
  · cases hs
  · obtain ⟨g', hg1, rfl⟩ := Option.map_eq_some_iff.mp hs.symm
    exact ⟨g', ⟨e, hte, hg1⟩, rfl, hg' g' hg1⟩

theorem step_complete {rows columns : Int} (hf : DiagonalFits rows columns) {m m' : DistMap}
    (h : m.Good ∧ m.rows = rows ∧ m.columns = columns) (st : Step m m') :
    IntMap.Step m.emb m'.emb ∧ m'.Good ∧ m'.rows = rows ∧ m'.columns = columns := by
  obtain ⟨e, ht, hp⟩ := st
  have hs := sim_process (m := m.pop e) ⟨good_pop h.1 e, h.2⟩ e.1
  rw [← pop_emb h.1 ht.1, hp] at hs
  rcases hs with ⟨-, hs⟩ | ⟨hs, hg'⟩
  · exact absurd hf hs
  · exact ⟨⟨_, isTop_emb h.1 ht, hs⟩, hg' m' rfl⟩

theorem steps_sound {rows columns : Int} {m : DistMap} (h : m.Good ∧ m.rows = rows ∧ m.columns = columns) {i : IntMap}
    (st : Relation.ReflTransGen IntMap.Step m.emb i) : ∃ m', Relation.ReflTransGen Step m m' ∧ i = m'.emb ∧
      m'.Good ∧ m'.rows = rows ∧ m'.columns = columns := by
  induction st with
  | refl => exact ⟨m, .refl, rfl, h⟩
  | tail _ s ih =>
    obtain ⟨m1, h1, rfl, h2⟩ := ih
    obtain ⟨m2, h3, h4, h5⟩ := step_sound h2 s
    exact ⟨m2, h1.tail h3, h4, h5⟩

theorem steps_complete {rows columns : Int} (hf : DiagonalFits rows columns) {m m' : DistMap}
    (h : m.Good ∧ m.rows = rows ∧ m.columns = columns) (st : Relation.ReflTransGen Step m m') :
    Relation.ReflTransGen IntMap.Step m.emb m'.emb ∧ m'.Good ∧ m'.rows = rows ∧ m'.columns = columns := by
  induction st with
  | refl => exact ⟨.refl, h⟩
  | tail _ s ih =>
    obtain ⟨h1, h2⟩ := step_complete hf ih.2 s
    exact ⟨ih.1.tail h1, h2⟩

theorem emb_queue_nil {m : DistMap} : m.emb.queue = [] ↔ m.queue = [] := List.map_eq_nil_iff

end DistMap

namespace ObstDistMap

theorem steps_sound {rows columns : Int} {occ : Cell → Int} {g : ObstDistMap} (h : Good rows columns g) {i : IntObstMap}
    (st : Relation.ReflTransGen (IntObstMap.Step occ) g.emb i) :
    ∃ g', Relation.ReflTransGen (Step occ) g g' ∧ i = g'.emb ∧ Good rows columns g' := by
  induction st with
  | refl => exact ⟨g, .refl, rfl, h⟩
  | tail _ s ih =>
    obtain ⟨m1, h1, rfl, h2⟩ := ih
    obtain ⟨m2, h3, h4, h5⟩ := step_sound h2 s
    exact ⟨m2, h1.tail h3, h4, h5⟩

theorem steps_complete {rows columns : Int} (hf : DiagonalFits rows columns) {occ : Cell → Int} {g g' : ObstDistMap}
    (h : Good rows columns g) (st : Relation.ReflTransGen (Step occ) g g') :
    Relation.ReflTransGen (IntObstMap.Step occ) g.emb g'.emb ∧ Good rows columns g' := by
  induction st with
  | refl => exact ⟨.refl, h⟩
  | tail _ s ih =>
    obtain ⟨h1, h2⟩ := step_complete hf ih.2 s
    exact ⟨ih.1.tail h1, h2⟩

theorem link_emb (g : ObstDistMap) : g.linkVoronoi.emb = g.emb.linkVoronoi := by
  obtain ⟨m, eg⟩ := g
  cases eg <;> rfl

theorem link_good {rows columns : Int} {g : ObstDistMap} (h : Good rows columns g) : Good rows columns g.linkVoronoi := by
  obtain ⟨m, eg⟩ := g
  cases eg with
  | some e => exact h
  | none =>
    refine ⟨h.1, ?_⟩
    rintro _ ⟨⟩
    exact ⟨good_new _ _, h.1.2⟩

theorem set_size {m m' : DistMap} {s : Cell} (h : m.set s = some m') : m'.rows = m.rows ∧ m'.columns = m.columns := by
  unfold DistMap.set at h
  split at h
  · cases h; exact ⟨rfl, rfl⟩
  · cases h

theorem unset_size {m m' : DistMap} {s : Cell} (h : m.unset s = some m') :
    m'.rows = m.rows ∧ m'.columns = m.columns := by
  unfold DistMap.unset at h
  split at h
  · cases h; exact ⟨rfl, rfl⟩
  · cases h

theorem call_sound {rows columns : Int} {g : ObstDistMap} (h : Good rows columns g) {o : Op} {j i : IntObstMap}
    (hj : j = g.emb) (c : IntObstMap.Call j o i) : ∃ g', Call g o g' ∧ i = g'.emb ∧ Good rows columns g' := by
  cases c with
  | set hc =>
    subst hj
    rcases sim_set (sm := False) h.1.1 _ with ⟨h1, -⟩ | ⟨h1, h2⟩
    · rw [show g.emb.core.set _ = _ from h1] at hc; cases hc
    · rw [show g.emb.core.set _ = _ from h1] at hc
      obtain ⟨m, hm, rfl⟩ := Option.map_eq_some_iff.mp hc
      have := set_size hm
      exact ⟨_, .set hm, rfl, ⟨h2 m hm, this.1.trans h.1.2.1, this.2.trans h.1.2.2⟩, h.2⟩
  | unset hc =>
    subst hj
    rcases sim_unset (sm := False) h.1.1 _ with ⟨h1, -⟩ | ⟨h1, h2⟩
    · rw [show g.emb.core.unset _ = _ from h1] at hc; cases hc
    · rw [show g.emb.core.unset _ = _ from h1] at hc
      obtain ⟨m, hm, rfl⟩ := Option.map_eq_some_iff.mp hc
      have := unset_size hm
      exact ⟨_, .unset hm, rfl, ⟨h2 m hm, this.1.trans h.1.2.1, this.2.trans h.1.2.2⟩, h.2⟩
  | link => subst hj; exact ⟨_, .link, (link_emb g).symm, link_good h⟩
  | update hu =>
    subst hj
    obtain ⟨g', h1, rfl, h2⟩ := steps_sound h hu.1
    exact ⟨g', .update ⟨h1, emb_queue_nil.mp hu.2⟩, rfl, h2⟩
  | updateEdges he hu =>
    subst hj
    obtain ⟨m, hm, rfl⟩ := Option.map_eq_some_iff.mp he
    obtain ⟨m', h1, rfl, h2⟩ := DistMap.steps_sound (h.2 m hm) hu.1
    refine ⟨_, .updateEdges hm ⟨h1, emb_queue_nil.mp hu.2⟩, rfl, h.1, ?_⟩
    rintro _ ⟨⟩
    exact h2

theorem call_complete {rows columns : Int} (hf : DiagonalFits rows columns) {g g' : ObstDistMap}
    (h : Good rows columns g) {o : Op} (c : Call g o g') : IntObstMap.Call g.emb o g'.emb ∧ Good rows columns g' := by
  cases c with
  | set hc =>
    rcases sim_set (sm := True) h.1.1 _ with ⟨-, h1⟩ | ⟨h1, h2⟩
    · exact absurd trivial h1
    · rw [hc] at h1
      have := set_size hc
      exact ⟨.set h1, ⟨h2 _ hc, this.1.trans h.1.2.1, this.2.trans h.1.2.2⟩, h.2⟩
  | unset hc =>
    rcases sim_unset (sm := True) h.1.1 _ with ⟨-, h1⟩ | ⟨h1, h2⟩
    · exact absurd trivial h1
    · rw [hc] at h1
      have := unset_size hc
      exact ⟨.unset h1, ⟨h2 _ hc, this.1.trans h.1.2.1, this.2.trans h.1.2.2⟩, h.2⟩
  | link => rw [link_emb]; exact ⟨.link, link_good h⟩
  | update hu =>
    obtain ⟨h1, h2⟩ := steps_complete hf h hu.1
    exact ⟨.update ⟨h1, emb_queue_nil.mpr hu.2⟩, h2⟩
  | updateEdges he hu =>
    obtain ⟨h1, h2⟩ := DistMap.steps_complete hf (h.2 _ he) hu.1
    refine ⟨.updateEdges (by simp only [emb, he, Option.map_some]) ⟨h1, emb_queue_nil.mpr hu.2⟩, h.1, ?_⟩
    rintro _ ⟨⟩
    exact h2

theorem run_sound {rows columns : Int} {ops : List Op} {j i : IntObstMap} (r : IntObstMap.Run j ops i) :
    ∀ {g : ObstDistMap}, Good rows columns g → j = g.emb → ∃ g', Run g ops g' ∧ i = g'.emb ∧ Good rows columns g' := by
  induction r with
  | nil => intro g h hj; exact ⟨g, .nil, hj, h⟩
  | cons c _ ih =>
    intro g h hj
    obtain ⟨g1, h1, h2, h3⟩ := call_sound h hj c
    obtain ⟨g2, h4, h5, h6⟩ := ih h3 h2
    exact ⟨g2, .cons h1 h4, h5, h6⟩

theorem run_complete {rows columns : Int} (hf : DiagonalFits rows columns) {ops : List Op} {g g' : ObstDistMap}
    (r : Run g ops g') (h : Good rows columns g) : IntObstMap.Run g.emb ops g'.emb ∧ Good rows columns g' := by
  induction r with
  | nil => exact ⟨.nil, h⟩
  | cons c _ ih =>
    obtain ⟨h1, h2⟩ := call_complete hf h c
    obtain ⟨h3, h4⟩ := ih h2
    exact ⟨.cons h1 h3, h4⟩

theorem new_good (rows columns : Int) : Good rows columns (.new rows columns) :=
  ⟨⟨good_new _ _, rfl, rfl⟩, by rintro _ ⟨⟩⟩

end ObstDistMap

/-! ## C115 -/

/-- C115: whatever the size of the map, the 32 bit program that does not overflow holds what the ideal program
holds: the answers are those of C34 to C39, and no finite distance is mistaken for "no obstacle". -/
theorem C115_answers_are_exact {rows columns : Int} {ops : List ObstDistMap.Op} {i : IntObstMap}
    (r : IntObstMap.Run (.new rows columns) ops i) :
    ∃ g, ObstDistMap.Run (.new rows columns) ops g ∧ RepresentsLinked i g := by
  obtain ⟨g, h1, rfl, h2⟩ := ObstDistMap.run_sound r (ObstDistMap.new_good rows columns) rfl
  exact ⟨g, h1, ObstDistMap.emb_good_represents h2⟩

/-- C115: when the squared diagonal of the map is an `int`, no iteration of `Update` of the obstacle map
overflows (or reads outside the grid), after every history. -/
theorem C115_no_overflow {rows columns : Int} (hf : DiagonalFits rows columns) {ops : List ObstDistMap.Op}
    {i : IntObstMap} (r : IntObstMap.Run (.new rows columns) ops i) (occ : Cell → Int) (i' : IntObstMap)
    (st : Relation.ReflTransGen (IntObstMap.Step occ) i i') (e : Cell × Int) (he : IntMap.IsTop i'.core.queue e) :
    IntObstMap.process occ { i' with core := i'.core.pop e } e.1 ≠ none := by
  obtain ⟨g, h1, rfl, h2⟩ := ObstDistMap.run_sound r (ObstDistMap.new_good rows columns) rfl
  obtain ⟨g', h3, rfl, h4⟩ := ObstDistMap.steps_sound h2 st
  obtain ⟨e', rfl, he'⟩ := emb_isTop h4.1.1 he
  have hp := C39_linked_update_reads_inside h1 occ g' h3 e' he'
  obtain ⟨g'', hg''⟩ := Option.ne_none_iff_exists'.mp hp
  have hg : ObstDistMap.Good rows columns { g' with core := g'.core.pop e' } := ⟨⟨good_pop h4.1.1 e', h4.1.2⟩, h4.2⟩
  have hs := ObstDistMap.sim_process occ hg e'.1
  have heq : ({ g' with core := g'.core.pop e' } : ObstDistMap).emb =
      { g'.emb with core := g'.emb.core.pop (e'.1, intOf e'.2) } := by
    simp only [ObstDistMap.emb]; rw [pop_emb h4.1.1 he'.1]
  rw [heq, hg''] at hs
  rcases hs with ⟨-, hs⟩ | ⟨hs, -⟩
  · exact absurd hf hs
  · show IntObstMap.process occ { g'.emb with core := g'.emb.core.pop (e'.1, intOf e'.2) } e'.1 ≠ none
    rw [hs]; simp

/-- C115: nor does `Update` of the map of Voronoi edges. -/
theorem C115_no_overflow_edges {rows columns : Int} (hf : DiagonalFits rows columns) {ops : List ObstDistMap.Op}
    {i : IntObstMap} (r : IntObstMap.Run (.new rows columns) ops i) (m m' : IntMap) (hm : i.edges = some m)
    (st : Relation.ReflTransGen IntMap.Step m m') (e : Cell × Int) (he : IntMap.IsTop m'.queue e) :
    (m'.pop e).process e.1 ≠ none := by
  obtain ⟨g, h1, rfl, h2⟩ := ObstDistMap.run_sound r (ObstDistMap.new_good rows columns) rfl
  obtain ⟨d, hd, rfl⟩ := Option.map_eq_some_iff.mp hm
  obtain ⟨d', h3, rfl, h4⟩ := DistMap.steps_sound (h2.2 d hd) st
  obtain ⟨e', rfl, he'⟩ := emb_isTop h4.1 he
  obtain ⟨ops', hr⟩ := (C34_linked_maps h1).2 d hd
  have hp := C39_update_reads_inside hr d' h3 e' he'
  obtain ⟨g'', hg''⟩ := Option.ne_none_iff_exists'.mp hp
  have hs := DistMap.sim_process (m := d'.pop e') ⟨good_pop h4.1 e', h4.2⟩ e'.1
  rw [← pop_emb h4.1 he'.1, hg''] at hs
  rcases hs with ⟨-, hs⟩ | ⟨hs, -⟩
  · exact absurd hf hs
  · rw [hs]; simp

/-- C115: on such a map every execution of the ideal program is one of the 32 bit program; in particular every
history of calls on cells of the map executes. -/
theorem C115_all_executions {rows columns : Int} (hf : DiagonalFits rows columns) {ops : List ObstDistMap.Op}
    {g : ObstDistMap} (r : ObstDistMap.Run (.new rows columns) ops g) :
    ∃ i, IntObstMap.Run (.new rows columns) ops i ∧ RepresentsLinked i g := by
  obtain ⟨h1, h2⟩ := ObstDistMap.run_complete hf r (ObstDistMap.new_good rows columns)
  exact ⟨_, h1, ObstDistMap.emb_good_represents h2⟩

/-- C115: the bound is exact: on a larger map `Update` never returns without overflow after `SetObstacle` on
the first cell. -/
theorem C115_larger_map_overflows {rows columns : Int} (hr : 1 ≤ rows) (hc : 1 ≤ columns)
    (hf : ¬ DiagonalFits rows columns) (occ : Cell → Int) :
    ¬ ∃ i, IntObstMap.Run (.new rows columns) [.set ⟨0, 0⟩, .update occ] i := by
  rintro ⟨i, r⟩
  obtain ⟨g, h1, rfl, h2⟩ := ObstDistMap.run_sound r (ObstDistMap.new_good rows columns) rfl
  have hr' : DistMap.Run (.new rows columns) ([.set ⟨0, 0⟩] ++ [.update]) g.core := (C34_linked_maps h1).1
  have hin : InRect rows columns ⟨rows - 1, columns - 1⟩ :=
    ⟨by show 0 ≤ rows - 1; omega, by show rows - 1 < rows; omega, by show 0 ≤ columns - 1; omega,
      by show columns - 1 < columns; omega⟩
  obtain ⟨d, hd, ho⟩ := C36_every_cell_sees_an_obstacle hr' ⟨⟨0, 0⟩, Or.inr rfl⟩ _ hin
  have hob : g.core.obst ⟨rows - 1, columns - 1⟩ = ⟨0, 0⟩ := by
    rcases C35_no_removal_partial hr' (by intro s hs; simp at hs) _ hin with h | h
    · rw [h] at ho; exact absurd ho.1 (by decide)
    · rcases h with h | h
      · exact h.elim
      · exact h
  rcases C34_distance_of_reported_obstacle hr' _ hin with ⟨h3, -⟩ | ⟨-, k, hk, hk'⟩
  · rw [h3] at hob; cases hob
  · have hlt := h2.1.1.1 _ k hk
    rw [hk', hob] at hlt
    apply hf
    have e : sqDist ⟨0, 0⟩ ⟨rows - 1, columns - 1⟩ = (rows - 1) ^ 2 + (columns - 1) ^ 2 := by
      simp only [sqDist]; ring
    unfold DiagonalFits
    rw [← e]; exact hlt.le

/-- C115: on a map whose squared diagonal is an `int`, the number of entries of the matrices and the offset of every
cell (C63) are `int`s, too. -/
theorem C115_storage_fits {rows columns : Int} (hf : DiagonalFits rows columns) (hr : 1 ≤ rows) (hc : 1 ≤ columns) :
    rows * columns ≤ 2147483647 ∧
      ∀ c, InRect rows columns c → 0 ≤ c.row * columns + c.col ∧ c.row * columns + c.col ≤ 2147483647 := by
  unfold DiagonalFits at hf
  have h1 : rows ≤ 46341 := by nlinarith [sq_nonneg (columns - 1)]
  have h2 : columns ≤ 46341 := by nlinarith [sq_nonneg (rows - 1)]
  have h3 : rows * columns ≤ 2147483647 := by nlinarith [sq_nonneg (rows - columns)]
  refine ⟨h3, ?_⟩
  rintro c ⟨c1, c2, c3, c4⟩
  constructor
  · have := mul_nonneg c1 (by omega : 0 ≤ columns); omega
  · have : c.row * columns ≤ (rows - 1) * columns := mul_le_mul_of_nonneg_right (by omega) (by omega)
    have : (rows - 1) * columns = rows * columns - columns := by ring
    omega

/-- Non-vacuity: a map of 32768 × 32768 cells fits, and the example history, with a removal and Voronoi edges,
executes on it. -/
example : DiagonalFits 32768 32768 ∧ ∃ i, IntObstMap.Run (.new 32768 32768) exampleLinked i := by
  have hf : DiagonalFits 32768 32768 := by unfold DiagonalFits; decide
  obtain ⟨g, hg⟩ := C39_linked_histories_execute (rows := 32768) (columns := 32768) exampleLinked.tail (by
    intro o ho o' ho'
    simp only [exampleLinked, List.tail_cons, List.mem_cons, List.not_mem_nil, or_false] at ho
    rcases ho with rfl | rfl | rfl | rfl | rfl | rfl | rfl <;> simp only [obstacleCall] at ho' <;> cases ho' <;>
      simp [OpIn, InRect])
  obtain ⟨i, hi, -⟩ := C115_all_executions hf hg
  exact ⟨hf, i, hi⟩

/-- Non-vacuity: maps of 46342 rows, or of 32769 × 32769 cells, do not fit. -/
example : ¬ DiagonalFits 46342 1 ∧ ¬ DiagonalFits 32769 32769 := by
  unfold DiagonalFits; decide

end PathPlanning
