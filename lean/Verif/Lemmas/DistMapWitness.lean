import Verif.Lemmas.DistMapMore

/-!
# A grid on which the reported distances are wrong, for every order of the queue
-/

namespace PathPlanning
open Spec

namespace DistMap

/-- Cells along which an obstacle is strictly nearer than all others report it. -/
theorem Settled.forced {m : DistMap} {S : Set Cell} (h : m.Settled S)
    (hr : ∀ c, m.inside c = true → (m.obst c).isValid = true → m.obst c ∈ S) {p : Cell} (hp : p ∈ S)
    (l : List Cell) (a : Cell) (ha : m.inside a = true) (hap : m.obst a = p)
    (hin : ∀ c ∈ l, m.inside c = true) (hadj : (a :: l).IsChain (fun x y => chebyshev x y = 1))
    (hnear : ∀ c ∈ l, ∀ q ∈ S, q ≠ p → squaredDistance p c < squaredDistance q c) :
    ∀ c ∈ l, m.obst c = p := by
  induction l generalizing a with
  | nil => intro c hc; cases hc
  | cons b l ih =>
    rw [List.isChain_cons_cons] at hadj
    have hb := hin b (by simp)
    have hpin := h.sub p hp
    have hle := h.local ha hb hadj.1 (by rw [hap]; exact inside_valid hpin)
    rw [hap] at hle
    have hob : m.obst b = p := by
      rcases h.exact b hb with ⟨_, h2⟩ | ⟨h1, h2⟩
      · rw [h2, top_le_iff] at hle; exact absurd hle WithTop.coe_ne_top
      · by_contra hne
        have hq := hr b hb (inside_valid h1)
        have := hnear b (by simp) _ hq hne
        rw [h2] at hle
        have hle : squaredDistance (m.obst b) b ≤ squaredDistance p b := WithTop.coe_le_coe.mp hle
        omega
    intro c hc
    rcases List.mem_cons.mp hc with rfl | hc
    · exact hob
    · exact ih b hb hob (fun c hc => hin c (List.mem_cons_of_mem _ hc)) hadj.2
        (fun c hc => hnear c (List.mem_cons_of_mem _ hc)) c hc

namespace Witness

def o : Cell := ⟨1, 2⟩
def p1 : Cell := ⟨0, 8⟩
def p2 : Cell := ⟨2, 0⟩
/-- The cell that reports a wrong obstacle. -/
def c : Cell := ⟨13, 7⟩

/-- The cells down column 8, then those next to `c` on that side. -/
def path1 : List Cell := [⟨1, 8⟩, ⟨2, 8⟩, ⟨3, 8⟩, ⟨4, 8⟩, ⟨5, 8⟩, ⟨6, 8⟩, ⟨7, 8⟩, ⟨8, 8⟩, ⟨9, 8⟩, ⟨10, 8⟩,
  ⟨11, 8⟩, ⟨12, 8⟩, ⟨13, 8⟩, ⟨12, 7⟩]
/-- The cells down column 0, along row 12, then the last one next to `c`. -/
def path2 : List Cell := [⟨3, 0⟩, ⟨4, 0⟩, ⟨5, 0⟩, ⟨6, 0⟩, ⟨7, 0⟩, ⟨8, 0⟩, ⟨9, 0⟩, ⟨10, 0⟩, ⟨11, 0⟩, ⟨12, 0⟩,
  ⟨12, 1⟩, ⟨12, 2⟩, ⟨12, 3⟩, ⟨12, 4⟩, ⟨12, 5⟩, ⟨12, 6⟩, ⟨13, 6⟩]

theorem chain1 : (p1 :: path1).IsChain (fun x y => chebyshev x y = 1) := by decide +kernel
theorem chain2 : (p2 :: path2).IsChain (fun x y => chebyshev x y = 1) := by decide +kernel

theorem near1 : ∀ x ∈ path1, squaredDistance p1 x < squaredDistance p2 x ∧
    squaredDistance p1 x < squaredDistance o x := by decide +kernel
theorem near2 : ∀ x ∈ path2, squaredDistance p2 x < squaredDistance p1 x ∧
    squaredDistance p2 x < squaredDistance o x := by decide +kernel

theorem nbrs_c {m : DistMap} (hr : m.rows = 14) (hc : m.columns = 9) {n : Cell} (hn : n ∈ m.nbrs c) :
    n ∈ path1 ∨ n ∈ path2 := by
  unfold nbrs at hn
  rw [hr, hc] at hn
  have : ∀ n ∈ c.getNeighbors 14 9, n ∈ path1 ∨ n ∈ path2 := by decide +kernel
  exact this n hn

theorem in_paths {m : DistMap} (hr : m.rows = 14) (hc : m.columns = 9) {n : Cell} (hn : n ∈ path1 ∨ n ∈ path2) :
    m.inside n = true := by
  unfold DistMap.inside
  rw [hr, hc]
  have h1 : ∀ n ∈ path1, (decide (n.row ≥ 0) && decide (n.row < 14) && decide (n.col ≥ 0) && decide (n.col < 9)) = true := by
    decide +kernel
  have h2 : ∀ n ∈ path2, (decide (n.row ≥ 0) && decide (n.row < 14) && decide (n.col ≥ 0) && decide (n.col < 9)) = true := by
    decide +kernel
  exact hn.elim (h1 n) (h2 n)

theorem in_c {m : DistMap} (hr : m.rows = 14) (hc : m.columns = 9) : m.inside c = true := by
  unfold DistMap.inside; rw [hr, hc]; rfl

/-- The cells of the two paths report the two obstacles, whether or not `o` is one. -/
theorem forced {m : DistMap} {S : Set Cell} (h : m.Settled S) (hr : m.rows = 14) (hcl : m.columns = 9)
    (hreal : ∀ c, m.inside c = true → (m.obst c).isValid = true → m.obst c ∈ S)
    (h1 : p1 ∈ S) (h2 : p2 ∈ S) (hS : ∀ q ∈ S, q = p1 ∨ q = p2 ∨ q = o) :
    (∀ x ∈ path1, m.obst x = p1) ∧ (∀ x ∈ path2, m.obst x = p2) := by
  refine ⟨?_, ?_⟩
  · refine h.forced hreal h1 path1 p1 (h.sub _ h1) ((h.self _ (h.sub _ h1)).mpr h1)
      (fun x hx => in_paths hr hcl (Or.inl hx)) chain1 ?_
    intro x hx q hq hne
    rcases hS q hq with rfl | rfl | rfl
    · exact absurd rfl hne
    · exact (near1 x hx).1
    · exact (near1 x hx).2
  · refine h.forced hreal h2 path2 p2 (h.sub _ h2) ((h.self _ (h.sub _ h2)).mpr h2)
      (fun x hx => in_paths hr hcl (Or.inr hx)) chain2 ?_
    intro x hx q hq hne
    rcases hS q hq with rfl | rfl | rfl
    · exact (near2 x hx).1
    · exact absurd rfl hne
    · exact (near2 x hx).2

theorem sq_c : squaredDistance o c = 169 ∧ squaredDistance p1 c = 170 ∧ squaredDistance p2 c = 170 := by
  decide +kernel

theorem s_nbr {m : DistMap} {s x : Cell} (hs : m.inside s = true) (hx : x ∈ m.nbrs s) :
    m.inside x = true ∧ s ∈ m.nbrs x := by
  obtain ⟨h1, h2⟩ := (mem_nbrs hs x).mp hx
  exact ⟨h1, (mem_nbrs h1 s).mpr ⟨hs, by rw [chebyshev_comm]; exact h2⟩⟩

/-! ### An obstacle added to two others is not seen -/

/-- The neighbours of `c` never report `o`. -/
structure Blind (m : DistMap) : Prop where
  rows : m.rows = 14
  columns : m.columns = 9
  path1 : ∀ x ∈ path1, m.obst x ≠ o ∧ m.dist x ≤ (squaredDistance p1 x : Nat)
  path2 : ∀ x ∈ path2, m.obst x ≠ o ∧ m.dist x ≤ (squaredDistance p2 x : Nat)
  cell : m.obst c ≠ o
  quiet : ∀ c, m.toRaise c = false

theorem Blind.effect {m m' : DistMap} (h : Blind m) {s : Cell} (hs : m.inside s = true) (ef : Effect m s m') :
    Blind m' := by
  cases ef with
  | idle => exact h
  | stale => exact h
  | raise _ hr => rw [h.quiet] at hr; cases hr
  | lower hp hr ho sp =>
    have step : ∀ (p x : Cell), squaredDistance p x < squaredDistance o x →
        (m.obst x ≠ o ∧ m.dist x ≤ (squaredDistance p x : Nat)) →
        (m'.obst x ≠ o ∧ m'.dist x ≤ (squaredDistance p x : Nat)) := by
      intro p x hlt ⟨h1, h2⟩
      by_cases hi : Improved { m with toProcess := setAt m.toProcess s false } (m.obst s) (m.nbrs s) x
      · obtain ⟨e1, e2, -⟩ := sp.imp x hi
        have him : ((squaredDistance (m.obst s) x : Nat) : WithTop Nat) < m.dist x := hi.2.2
        rw [e1, e2]
        refine ⟨?_, (him.trans_le h2).le⟩
        intro hso
        rw [hso] at him
        have := him.trans_le h2
        have : squaredDistance o x < squaredDistance p x := WithTop.coe_lt_coe.mp this
        omega
      · obtain ⟨e1, e2, -⟩ := sp.keep x hi
        rw [e1, e2]; exact ⟨h1, h2⟩
    refine ⟨sp.rows.trans h.rows, sp.columns.trans h.columns, ?_, ?_, ?_, ?_⟩
    · intro x hx; exact step p1 x (near1 x hx).2 (h.path1 x hx)
    · intro x hx; exact step p2 x (near2 x hx).2 (h.path2 x hx)
    · by_cases hi : Improved { m with toProcess := setAt m.toProcess s false } (m.obst s) (m.nbrs s) c
      · rw [(sp.imp c hi).2.1]
        rcases nbrs_c h.rows h.columns (s_nbr hs hi.1).2 with hx | hx
        · exact (h.path1 s hx).1
        · exact (h.path2 s hx).1
      · rw [(sp.keep c hi).2.1]; exact h.cell
    · intro x; rw [sp.toRaise]; exact h.quiet x

theorem Blind.steps {m m' : DistMap} {S : Set Cell} (hi : m.Inv S) (h : Blind m)
    (st : Relation.ReflTransGen Step m m') : Blind m' := by
  induction st with
  | refl => exact h
  | tail st1 st ih =>
    have hi1 := hi.steps st1
    obtain ⟨e, he, ef⟩ := hi1.step st
    have h1 : Blind _ := ih
    exact Blind.effect (m := DistMap.pop _ e) ⟨h1.rows, h1.columns, h1.path1, h1.path2, h1.cell, h1.quiet⟩
      (hi1.qin e he) ef

/-- Two obstacles, an update, a third obstacle, an update. -/
def ops38 : List Op := [.set p1, .set p2, .update, .set o, .update]

theorem wrong38 {m : DistMap} (r : Run (.new 14 9) ops38 m) : m.dist c = (170 : Nat) := by
  obtain ⟨m1, r1, r2⟩ := Run.split (os := [.set p1, .set p2, .update]) (os' := [.set o, .update]) r
  have hset : m1.Settled _ := Run.settled (os := [.set p1, .set p2]) r1
  have hfr := fresh_run r1 (by intro s hs; simp at hs)
  have hz := run_size r1
  have hS : ∀ q ∈ obstacles [Op.set p1, .set p2], q = p1 ∨ q = p2 := by
    rintro q ((h | h) | h)
    · exact h.elim
    · exact Or.inl h
    · exact Or.inr h
  have hp1 : p1 ∈ obstacles [Op.set p1, .set p2] := Or.inl (Or.inr rfl)
  have hp2 : p2 ∈ obstacles [Op.set p1, .set p2] := Or.inr rfl
  obtain ⟨f1, f2⟩ := forced hset hz.1 hz.2 hfr.real hp1 hp2 (fun q hq => (hS q hq).imp_right Or.inl)
  have hdist : ∀ x, m1.inside x = true → ∀ p, p.isValid = true → m1.obst x = p → m1.dist x = (squaredDistance p x : Nat) := by
    intro x hx p hp ho
    rcases hset.exact x hx with ⟨h, _⟩ | ⟨_, h⟩
    · rw [← ho, h] at hp; cases hp
    · rw [h, ho]
  have hb1 : Blind m1 := by
    refine ⟨hz.1, hz.2, ?_, ?_, ?_, hfr.quiet⟩
    · intro x hx
      rw [f1 x hx, hdist x (in_paths hz.1 hz.2 (Or.inl hx)) p1 rfl (f1 x hx)]
      exact ⟨by decide, le_refl _⟩
    · intro x hx
      rw [f2 x hx, hdist x (in_paths hz.1 hz.2 (Or.inr hx)) p2 rfl (f2 x hx)]
      exact ⟨by decide, le_refl _⟩
    · intro hx
      have := hfr.real c (in_c hz.1 hz.2) (by rw [hx]; rfl)
      rw [hx] at this
      rcases hS o this with h | h
      · exact absurd h (by decide)
      · exact absurd h (by decide)
  cases r2 with
  | cons c2 r2 =>
    cases c2 with
    | set hs =>
      rename_i m2
      have hb2 : Blind m2 := by
        unfold DistMap.set at hs
        split at hs
        · cases hs
          refine ⟨hz.1, hz.2, ?_, ?_, ?_, hfr.quiet⟩
          · intro x hx
            have hne : x ≠ o := by
              have : ∀ x ∈ path1, x ≠ o := by decide +kernel
              exact this x hx
            show setAt m1.obst o o x ≠ o ∧ setAt m1.dist o 0 x ≤ _
            rw [setAt_ne _ _ hne, setAt_ne _ _ hne]; exact hb1.path1 x hx
          · intro x hx
            have hne : x ≠ o := by
              have : ∀ x ∈ path2, x ≠ o := by decide +kernel
              exact this x hx
            show setAt m1.obst o o x ≠ o ∧ setAt m1.dist o 0 x ≤ _
            rw [setAt_ne _ _ hne, setAt_ne _ _ hne]; exact hb1.path2 x hx
          · show setAt m1.obst o o c ≠ o
            rw [setAt_ne _ _ (by decide)]; exact hb1.cell
        · cases hs
      have rr : Run (.new 14 9) [.set p1, .set p2, .update, .set o] m2 :=
        Run.append (os' := [.set o]) r1 (.cons (.set hs) .nil)
      cases r2 with
      | cons c3 r3 =>
        cases r3
        cases c3 with
        | update u =>
          have hb3 := hb2.steps (run_inv rr).1 u.1
          have rf : Run (.new 14 9) ([.set p1, .set p2, .update, .set o] ++ [.update]) m :=
            rr.append (.cons (.update u) .nil)
          have hset3 := rf.settled
          have hfr3 := fresh_run rf (by intro s hs; simp at hs)
          have hin := in_c hb3.rows hb3.columns
          rcases hset3.exact c hin with ⟨_, hx⟩ | ⟨h1, h2⟩
          · exact absurd hx (hset3.finite (o := p1) (Or.inl (Or.inl (Or.inr rfl))) hin)
          · have hq := hfr3.real c hin (inside_valid h1)
            rw [h2]
            rcases hq with ((hq | hq) | hq) | hq
            · exact hq.elim
            · rw [hq, sq_c.2.1]
            · rw [hq, sq_c.2.2]
            · exact absurd hq hb3.cell

/-! ### A removed obstacle is still reported -/

/-- While the first two obstacles are added, `c` keeps `o`. -/
structure Keep (m : DistMap) : Prop where
  cell : m.obst c = o
  dist : m.dist c = (169 : Nat)
  quiet : ∀ c, m.toRaise c = false

theorem Keep.effect {m m' : DistMap} {S : Set Cell} (hS : ∀ q ∈ S, q = p1 ∨ q = p2 ∨ q = o) (hf : m.Fresh S)
    (h : Keep m) {s : Cell} (hs : m.inside s = true) (ef : Effect m s m') : Keep m' := by
  cases ef with
  | idle => exact h
  | stale => exact h
  | raise _ hr => rw [h.quiet] at hr; cases hr
  | lower hp hr ho sp =>
    have hni : ¬ Improved { m with toProcess := setAt m.toProcess s false } (m.obst s) (m.nbrs s) c := by
      intro hi
      have him : ((squaredDistance (m.obst s) c : Nat) : WithTop Nat) < m.dist c := hi.2.2
      rw [h.dist] at him
      have him := WithTop.coe_lt_coe.mp him
      rcases hS _ (hf.real s hs ho.1) with hq | hq | hq
      · rw [hq, sq_c.2.1] at him; omega
      · rw [hq, sq_c.2.2] at him; omega
      · rw [hq, sq_c.1] at him; omega
    obtain ⟨e1, e2, -⟩ := sp.keep c hni
    exact ⟨e2.trans h.cell, e1.trans h.dist, fun x => by rw [sp.toRaise]; exact h.quiet x⟩

theorem Keep.steps {m m' : DistMap} {S : Set Cell} (hS : ∀ q ∈ S, q = p1 ∨ q = p2 ∨ q = o) (hi : m.Inv S)
    (hf : m.Fresh S) (h : Keep m) (st : Relation.ReflTransGen Step m m') : Keep m' := by
  induction st with
  | refl => exact h
  | tail st1 st ih =>
    have hi1 := hi.steps st1
    have hf1 := hf.steps hi st1
    obtain ⟨e, he, ef⟩ := hi1.step st
    have h1 : Keep _ := ih
    exact Keep.effect (m := DistMap.pop _ e) hS ⟨hf1.real, hf1.quiet⟩ ⟨h1.cell, h1.dist, h1.quiet⟩ (hi1.qin e he) ef

/-- After the removal of `o`: `c` reports it, its neighbours report other obstacles. -/
structure Left (m : DistMap) : Prop where
  rows : m.rows = 14
  columns : m.columns = 9
  cell : m.obst c = o
  dist : m.dist c = (169 : Nat)
  quiet : m.toRaise c = false
  nbr : ∀ x, x ∈ path1 ∨ x ∈ path2 → (m.obst x = p1 ∨ m.obst x = p2) ∧ m.toRaise x = false

theorem Left.effect {m m' : DistMap} {S : Set Cell} (hS : ∀ q, q ∈ S ↔ q = p1 ∨ q = p2)
    (hocc : ∀ x, m.inside x = true → (m.Occ x ↔ x ∈ S)) (hb : m.Bd) (h : Left m) {s : Cell} (hs : m.inside s = true)
    (ef : Effect m s m') : Left m' := by
  have hinp : m.inside p1 = true ∧ m.inside p2 = true := by
    unfold DistMap.inside; rw [h.rows, h.columns]; exact ⟨rfl, rfl⟩
  have hobs : ∀ x, x = p1 ∨ x = p2 → m.Occ x := by
    intro x hx
    refine (hocc x ?_).mpr ((hS x).mpr hx)
    rcases hx with rfl | rfl
    · exact hinp.1
    · exact hinp.2
  cases ef with
  | idle => exact h
  | stale => exact h
  | raise hp hr sp =>
    rename_i m1
    have hsn : ¬ (s ∈ path1 ∨ s ∈ path2) := fun hx => by
      rw [(h.nbr s hx).2] at hr; cases hr
    have hsc : s ≠ c := fun hx => by rw [hx, h.quiet] at hr; cases hr
    have hcc : ¬ m.Cleared (m.nbrs s) c := fun hcl => hsn (nbrs_c h.rows h.columns (s_nbr hs hcl.1.1).2)
    obtain ⟨e1, e2, e3⟩ := sp.keep c hcc
    refine ⟨sp.rows.trans h.rows, sp.columns.trans h.columns, e2.trans h.cell, e1.trans h.dist, ?_, ?_⟩
    · show setAt m1.toRaise s false c = false
      rw [setAt_ne _ _ hsc.symm]; exact e3.trans h.quiet
    · intro x hx
      have hcx : ¬ m.Cleared (m.nbrs s) x := fun hcl => hcl.2 (hobs _ (h.nbr x hx).1)
      obtain ⟨k1, k2, k3⟩ := sp.keep x hcx
      refine ⟨by show m1.obst x = _ ∨ m1.obst x = _; rw [k2]; exact (h.nbr x hx).1, ?_⟩
      show setAt m1.toRaise s false x = false
      by_cases hxs : x = s
      · rw [hxs, setAt_same]
      · rw [setAt_ne _ _ hxs, k3]; exact (h.nbr x hx).2
  | lower hp hr ho sp =>
    have hq : m.obst s = p1 ∨ m.obst s = p2 := (hS _).mp ((hocc _ (hb s hs ho.1)).mp ho)
    have hni : ¬ Improved { m with toProcess := setAt m.toProcess s false } (m.obst s) (m.nbrs s) c := by
      intro hi
      have him : ((squaredDistance (m.obst s) c : Nat) : WithTop Nat) < m.dist c := hi.2.2
      rw [h.dist] at him
      have him := WithTop.coe_lt_coe.mp him
      rcases hq with hq | hq
      · rw [hq, sq_c.2.1] at him; omega
      · rw [hq, sq_c.2.2] at him; omega
    obtain ⟨e1, e2, -⟩ := sp.keep c hni
    refine ⟨sp.rows.trans h.rows, sp.columns.trans h.columns, e2.trans h.cell, e1.trans h.dist,
      by rw [sp.toRaise]; exact h.quiet, ?_⟩
    intro x hx
    refine ⟨?_, by rw [sp.toRaise]; exact (h.nbr x hx).2⟩
    by_cases hi : Improved { m with toProcess := setAt m.toProcess s false } (m.obst s) (m.nbrs s) x
    · rw [(sp.imp x hi).2.1]; exact hq
    · rw [(sp.keep x hi).2.1]; exact (h.nbr x hx).1

theorem Left.steps {m m' : DistMap} {S : Set Cell} (hS : ∀ q, q ∈ S ↔ q = p1 ∨ q = p2) (hi : m.Inv S)
    (h : Left m) (st : Relation.ReflTransGen Step m m') : Left m' := by
  induction st with
  | refl => exact h
  | tail st1 st ih =>
    have hi1 := hi.steps st1
    obtain ⟨e, he, ef⟩ := hi1.step st
    have h1 : Left _ := ih
    exact Left.effect (m := DistMap.pop _ e) hS (fun x hx => hi1.occ hx) hi1.bd
      ⟨h1.rows, h1.columns, h1.cell, h1.dist, h1.quiet, h1.nbr⟩ (hi1.qin e he) ef

/-- An obstacle, an update, two more obstacles, an update, the first obstacle removed, an update. -/
def ops35 : List Op := [.set o, .update, .set p1, .set p2, .update, .unset o, .update]

theorem wrong35 {m : DistMap} (r : Run (.new 14 9) ops35 m) : m.obst c = o ∧ m.dist c = (169 : Nat) := by
  obtain ⟨m1, r1, r2⟩ := Run.split (os := [.set o, .update]) (os' := [.set p1, .set p2, .update, .unset o, .update]) r
  have hz1 := run_size r1
  have hset1 : m1.Settled _ := Run.settled (os := [.set o]) r1
  have hfr1 := fresh_run r1 (by intro s hs; simp at hs)
  have hin1 := in_c hz1.1 hz1.2
  have hk1 : Keep m1 := by
    rcases hset1.exact c hin1 with ⟨_, hx⟩ | ⟨h1, h2⟩
    · exact absurd hx (hset1.finite (o := o) (Or.inr rfl) hin1)
    · have hq : m1.obst c = o := by
        rcases hfr1.real c hin1 (inside_valid h1) with hq | hq
        · exact hq.elim
        · exact hq
      exact ⟨hq, by rw [h2, hq, sq_c.1], hfr1.quiet⟩
  have keepSet : ∀ (m m' : DistMap) (p : Cell), p ≠ c → m.set p = some m' → Keep m → Keep m' := by
    intro m m' p hne hs hk
    unfold DistMap.set at hs
    split at hs
    · cases hs
      refine ⟨?_, ?_, hk.quiet⟩
      · show setAt m.obst p p c = o
        rw [setAt_ne _ _ hne.symm]; exact hk.cell
      · show setAt m.dist p 0 c = _
        rw [setAt_ne _ _ hne.symm]; exact hk.dist
    · cases hs
  obtain ⟨m2, r12, r3⟩ := Run.split (os := [.set p1, .set p2]) (os' := [.update, .unset o, .update]) r2
  have hk2 : Keep m2 := by
    cases r12 with
    | cons ca ra =>
      cases ra with
      | cons cb rb =>
        cases rb
        cases ca with
        | set h1 =>
          cases cb with
          | set h2 => exact keepSet _ _ _ (by decide) h2 (keepSet _ _ _ (by decide) h1 hk1)
  have rr2 : Run (.new 14 9) [.set o, .update, .set p1, .set p2] m2 := r1.append r12
  have hi2 := (run_inv rr2).1
  have hf2 := fresh_run rr2 (by intro s hs; simp at hs)
  have hS2 : ∀ q ∈ obstacles [Op.set o, .update, .set p1, .set p2], q = p1 ∨ q = p2 ∨ q = o := by
    rintro q (((h | h) | h) | h)
    · exact h.elim
    · exact Or.inr (Or.inr h)
    · exact Or.inl h
    · exact Or.inr (Or.inl h)
  obtain ⟨m3, r23, r4⟩ := Run.split (os := [.update]) (os' := [.unset o, .update]) r3
  have rr3 : Run (.new 14 9) ([.set o, .update, .set p1, .set p2] ++ [.update]) m3 := rr2.append r23
  have hset3 := rr3.settled
  have hfr3 := fresh_run rr3 (by intro s hs; simp at hs)
  have hz3 := run_size rr3
  have hk3 : Keep m3 := by
    cases r23 with
    | cons ca ra =>
      cases ra
      cases ca with
      | update u => exact Keep.steps hS2 hi2 hf2 hk2 u.1
  obtain ⟨f1, f2⟩ := forced hset3 hz3.1 hz3.2 hfr3.real (Or.inl (Or.inr rfl)) (Or.inr rfl) hS2
  cases r4 with
  | cons ca ra =>
    cases ca with
    | unset hs =>
      rename_i m4
      have rr4 : Run (.new 14 9) [.set o, .update, .set p1, .set p2, .update, .unset o] m4 :=
        Run.append (os' := [.unset o]) rr3 (.cons (.unset hs) .nil)
      have hl4 : Left m4 := by
        unfold DistMap.unset at hs
        split at hs
        · cases hs
          refine ⟨hz3.1, hz3.2, ?_, ?_, ?_, ?_⟩
          · show setAt m3.obst o Cell.invalid c = o
            rw [setAt_ne _ _ (by decide)]; exact hk3.cell
          · show setAt m3.dist o ⊤ c = _
            rw [setAt_ne _ _ (by decide)]; exact hk3.dist
          · show setAt m3.toRaise o true c = _
            rw [setAt_ne _ _ (by decide)]; exact hk3.quiet c
          · intro x hx
            have hne : x ≠ o := by
              have h1 : ∀ x ∈ path1, x ≠ o := by decide +kernel
              have h2 : ∀ x ∈ path2, x ≠ o := by decide +kernel
              exact hx.elim (h1 x) (h2 x)
            show (setAt m3.obst o Cell.invalid x = _ ∨ setAt m3.obst o Cell.invalid x = _) ∧
              setAt m3.toRaise o true x = _
            rw [setAt_ne _ _ hne, setAt_ne _ _ hne]
            exact ⟨hx.imp (f1 x) (f2 x), hk3.quiet x⟩
        · cases hs
      cases ra with
      | cons cb rb =>
        cases rb
        cases cb with
        | update u =>
          have hS4 : ∀ q, q ∈ obstacles [Op.set o, .update, .set p1, .set p2, .update, .unset o] ↔
              q = p1 ∨ q = p2 := by
            intro q
            constructor
            · rintro ⟨((h | h) | h) | h, hne⟩
              · exact h.elim
              · exact absurd h hne
              · exact Or.inl h
              · exact Or.inr h
            · rintro (rfl | rfl)
              · exact ⟨Or.inl (Or.inr rfl), by decide⟩
              · exact ⟨Or.inr rfl, by decide⟩
          have := hl4.steps hS4 (run_inv rr4).1 u.1
          exact ⟨this.cell, this.dist⟩

end Witness
end DistMap
end PathPlanning
