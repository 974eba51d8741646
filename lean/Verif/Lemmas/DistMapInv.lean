import Verif.Lemmas.DistMap

/-!
# Invariant of distance maps
-/

namespace PathPlanning
open Spec

namespace DistMap

/-- Number of entries of the queue for a cell. -/
def cnt (q : List (Cell × WithTop Nat)) (c : Cell) : Nat := q.countP fun e => decide (e.1 = c)

theorem cnt_pos {q : List (Cell × WithTop Nat)} {c : Cell} : 0 < cnt q c ↔ ∃ e ∈ q, e.1 = c := by
  simp [cnt, List.countP_pos_iff]

theorem cnt_append (q q' : List (Cell × WithTop Nat)) (c : Cell) : cnt (q ++ q') c = cnt q c + cnt q' c := by
  simp [cnt]

theorem cnt_cons_same (q : List (Cell × WithTop Nat)) (c : Cell) (d : WithTop Nat) :
    cnt ((c, d) :: q) c = cnt q c + 1 := by simp [cnt]

theorem cnt_cons_le (q : List (Cell × WithTop Nat)) (e : Cell × WithTop Nat) (c : Cell) :
    cnt q c ≤ cnt (e :: q) c := by
  unfold cnt; rw [List.countP_cons]; omega

theorem cnt_erase_same {q : List (Cell × WithTop Nat)} {e : Cell × WithTop Nat} (h : e ∈ q) :
    cnt q e.1 = cnt (q.erase e) e.1 + 1 := by
  unfold cnt
  rw [(List.perm_cons_erase h).countP_eq, List.countP_cons]
  simp

theorem cnt_erase_ne {q : List (Cell × WithTop Nat)} {e : Cell × WithTop Nat} {c : Cell} (h : c ≠ e.1) :
    cnt (q.erase e) c = cnt q c := by
  by_cases he : e ∈ q
  · unfold cnt
    rw [(List.perm_cons_erase he).countP_eq (l₁ := q), List.countP_cons]
    have hne : ¬ (e.1 = c) := fun h' => h h'.symm
    simp [hne]
  · rw [List.erase_of_not_mem he]

/-- The cell waits to be processed. -/
def Pend (m : DistMap) (c : Cell) : Prop := m.toProcess c = true ∧ 0 < cnt m.queue c

/-- The invariant, where `S` are the obstacles. -/
structure Inv (m : DistMap) (S : Set Cell) : Prop where
  exact : ∀ c, m.inside c = true → (m.obst c = Cell.invalid ∧ m.dist c = ⊤) ∨
    (m.inside (m.obst c) = true ∧ m.dist c = (squaredDistance (m.obst c) c : Nat))
  self : ∀ c, m.inside c = true → (m.obst c = c ↔ c ∈ S)
  sub : ∀ c ∈ S, m.inside c = true
  qin : ∀ e ∈ m.queue, m.inside e.1 = true
  raise : ∀ c, m.inside c = true → m.toRaise c = true → m.Pend c
  twice : ∀ c, m.inside c = true → m.toRaise c = true → (m.obst c).isValid = true → 2 ≤ cnt m.queue c
  live : ∀ e ∈ m.queue, (m.obst e.1).isValid = true → m.Occ (m.obst e.1)
  loc : ∀ s n, m.inside s = true → n ∈ m.nbrs s → (m.obst s).isValid = true → m.toRaise n = false →
    m.dist n ≤ (squaredDistance (m.obst s) n : Nat) ∨ m.Pend s

theorem Inv.bd {m : DistMap} {S : Set Cell} (h : m.Inv S) : m.Bd := by
  intro c hc hv
  rcases h.exact c hc with ⟨h1, _⟩ | ⟨h1, _⟩
  · rw [h1] at hv; cases hv
  · exact h1

theorem Inv.occ {m : DistMap} {S : Set Cell} (h : m.Inv S) {c : Cell} (hc : m.inside c = true) :
    m.Occ c ↔ c ∈ S := by
  rw [← h.self c hc]
  exact ⟨fun h => h.2, fun h => ⟨inside_valid hc, h⟩⟩

theorem inside_pop (m : DistMap) (e : Cell × WithTop Nat) (c : Cell) : (m.pop e).inside c = m.inside c := rfl

theorem inside_congr {m m' : DistMap} (h1 : m'.rows = m.rows) (h2 : m'.columns = m.columns) (c : Cell) :
    m'.inside c = m.inside c := by unfold inside; rw [h1, h2]

theorem Inv.dist_self {m : DistMap} {S : Set Cell} (h : m.Inv S) {c : Cell} (hc : m.inside c = true)
    (ho : m.obst c = c) : m.dist c = 0 := by
  rcases h.exact c hc with ⟨h1, _⟩ | ⟨_, h1⟩
  · have := inside_valid hc
    rw [← ho, h1] at this; cases this
  · rw [h1, ho, sq_self]; rfl

/-- What an iteration does to the obstacles (`clr` and `imp` are exclusive). -/
theorem Inv.effect {m : DistMap} {S : Set Cell} (h : m.Inv S) {e : Cell × WithTop Nat} (he : e ∈ m.queue)
    {m' : DistMap} (ef : Effect (m.pop e) e.1 m') : m'.Inv S := by
  obtain ⟨s, hse⟩ : ∃ s, s = e.1 := ⟨_, rfl⟩
  have hs : m.inside s = true := by rw [hse]; exact h.qin e he
  have hcs : cnt m.queue s = cnt (m.queue.erase e) s + 1 := by rw [hse]; exact cnt_erase_same he
  have hcn : ∀ c, c ≠ s → cnt (m.queue.erase e) c = cnt m.queue c := fun c hc =>
    cnt_erase_ne (by rw [← hse]; exact hc)
  have hqe : ∀ x ∈ m.queue.erase e, x ∈ m.queue := fun x hx => List.mem_of_mem_erase hx
  rw [← hse] at ef
  -- idle and stale iterations only drop the entry
  have drop : (m.toRaise s = false ∨ m.toProcess s = false) →
      ((m.obst s).isValid = false ∨ m.toProcess s = false) → (m.pop e).Inv S := by
    intro h1 h2
    have pd : ∀ c, c ≠ s → m.Pend c → (m.pop e).Pend c := fun c hc hp =>
      ⟨hp.1, by show 0 < cnt (m.queue.erase e) c; rw [hcn c hc]; exact hp.2⟩
    refine ⟨h.exact, h.self, h.sub, fun x hx => h.qin x (hqe x hx), ?_, ?_, fun x hx => h.live x (hqe x hx), ?_⟩
    · intro c hc hr
      by_cases hcs' : c = s
      · exfalso
        have hp := (h.raise c hc hr).1
        rw [hcs'] at hp
        have hr : m.toRaise s = true := by rw [← hcs']; exact hr
        rcases h1 with h1 | h1
        · rw [h1] at hr; cases hr
        · rw [h1] at hp; cases hp
      · exact pd c hcs' (h.raise c hc hr)
    · intro c hc hr hv
      by_cases hcs' : c = s
      · exfalso
        have hp := (h.raise c hc hr).1
        rw [hcs'] at hp
        have hr : m.toRaise s = true := by rw [← hcs']; exact hr
        rcases h1 with h1 | h1
        · rw [h1] at hr; cases hr
        · rw [h1] at hp; cases hp
      · show 2 ≤ cnt (m.queue.erase e) c
        rw [hcn c hcs']; exact h.twice c hc hr hv
    · intro t n ht hn hv hr
      rcases h.loc t n ht hn hv hr with hl | hl
      · exact Or.inl hl
      · by_cases hts : t = s
        · exfalso
          subst hts
          rcases h2 with h2 | h2
          · have hv : (m.obst t).isValid = true := hv
            rw [h2] at hv; cases hv
          · rw [hl.1] at h2; cases h2
        · exact Or.inr (pd t hts hl)
  cases ef with
  | idle hp => exact drop (Or.inr hp) (Or.inr hp)
  | stale hp hr ho =>
    refine drop (Or.inl hr) (Or.inl ?_)
    by_contra hv
    have := h.live e he
    rw [← hse] at this
    exact ho (this (by simpa using hv))
  | raise hp hr sp =>
    rename_i m1
    obtain ⟨q, hq, hmem⟩ := sp.queue
    have hrow : m1.rows = m.rows := sp.rows
    have hcol : m1.columns = m.columns := sp.columns
    have hin : ∀ c, m1.inside c = m.inside c := inside_congr hrow hcol
    have hp : m.toProcess s = true := hp
    have hr : m.toRaise s = true := hr
    have hnb : ∀ n, n ∈ (m.pop e).nbrs s → m.inside n = true := fun n hn => ((mem_nbrs hs n).mp hn).1
    have hsn : s ∉ (m.pop e).nbrs s := self_not_nbr (m := m) hs
    have hnT : ¬ (m.pop e).Touched ((m.pop e).nbrs s) s := fun hT => hsn hT.1
    have hcnt : ∀ c, cnt (m.queue.erase e) c ≤ cnt m1.queue c := by
      intro c; rw [hq, cnt_append]; exact Nat.le_add_left _ _
    have hcntT : ∀ c, (m.pop e).Touched ((m.pop e).nbrs s) c → 0 < cnt m1.queue c := by
      intro c hc
      rw [cnt_pos]
      exact ⟨(c, m1.dist c), by rw [hq]; exact List.mem_append_left _ ((hmem _).mpr ⟨hc, rfl⟩), rfl⟩
    have hself : ∀ c, m.inside c = true → (m.pop e).Cleared ((m.pop e).nbrs s) c → m.obst c ≠ c := by
      intro c hc hC ho
      apply hC.2
      show m.Occ (m.obst c)
      rw [ho]
      exact ⟨inside_valid hc, ho⟩
    have hpr : ∀ c, m.toProcess c = true → m1.toProcess c = true := by
      intro c hc
      by_cases hT : (m.pop e).Touched ((m.pop e).nbrs s) c
      · exact sp.proc c hT
      · rw [sp.nproc c hT]; exact hc
    have hoccM : ∀ c, m.Occ c → m1.Occ c := by
      intro c hc
      refine ⟨hc.1, ?_⟩
      have : ¬ (m.pop e).Cleared ((m.pop e).nbrs s) c := fun hC => by
        exact hself c (hnb c hC.1.1) hC hc.2
      rw [(sp.keep c this).2.1]
      exact hc.2
    refine ⟨?_, ?_, ?_, ?_, ?_, ?_, ?_, ?_⟩
    · intro c hc
      have hc : m.inside c = true := by rw [← hin]; exact hc
      show (m1.obst c = _ ∧ m1.dist c = ⊤) ∨ (m1.inside (m1.obst c) = true ∧ m1.dist c = _)
      by_cases hC : (m.pop e).Cleared ((m.pop e).nbrs s) c
      · exact Or.inl ⟨(sp.clr c hC).2.1, (sp.clr c hC).1⟩
      · rw [(sp.keep c hC).1, (sp.keep c hC).2.1, hin]
        exact h.exact c hc
    · intro c hc
      have hc : m.inside c = true := by rw [← hin]; exact hc
      show m1.obst c = c ↔ _
      by_cases hC : (m.pop e).Cleared ((m.pop e).nbrs s) c
      · rw [(sp.clr c hC).2.1]
        constructor
        · intro h'; have := inside_valid hc; rw [← h'] at this; cases this
        · intro h'; exact absurd ((h.self c hc).mpr h') (hself c hc hC)
      · rw [(sp.keep c hC).2.1]; exact h.self c hc
    · intro c hc; show m1.inside c = true; rw [hin]; exact h.sub c hc
    · intro x hx
      show m1.inside x.1 = true
      rw [hin]
      have hx : x ∈ m1.queue := hx
      rw [hq, List.mem_append] at hx
      rcases hx with hx | hx
      · exact hnb _ ((hmem x).mp hx).1.1
      · exact h.qin x (hqe x hx)
    · intro c hc hrc
      have hc : m.inside c = true := by rw [← hin]; exact hc
      have hrc : setAt m1.toRaise s false c = true := hrc
      have hcs' : c ≠ s := by rintro rfl; rw [setAt_same] at hrc; cases hrc
      rw [setAt_ne _ _ hcs'] at hrc
      show m1.toProcess c = true ∧ 0 < cnt m1.queue c
      by_cases hC : (m.pop e).Cleared ((m.pop e).nbrs s) c
      · exact ⟨sp.proc c hC.1, hcntT c hC.1⟩
      · rw [(sp.keep c hC).2.2] at hrc
        have := h.raise c hc hrc
        exact ⟨hpr c this.1, lt_of_lt_of_le (by rw [hcn c hcs']; exact this.2) (hcnt c)⟩
    · intro c hc hrc hv
      have hc : m.inside c = true := by rw [← hin]; exact hc
      have hrc : setAt m1.toRaise s false c = true := hrc
      have hcs' : c ≠ s := by rintro rfl; rw [setAt_same] at hrc; cases hrc
      rw [setAt_ne _ _ hcs'] at hrc
      have hv : (m1.obst c).isValid = true := hv
      show 2 ≤ cnt m1.queue c
      by_cases hC : (m.pop e).Cleared ((m.pop e).nbrs s) c
      · rw [(sp.clr c hC).2.1] at hv; cases hv
      · rw [(sp.keep c hC).2.2] at hrc
        rw [(sp.keep c hC).2.1] at hv
        exact le_trans (by rw [hcn c hcs']; exact h.twice c hc hrc hv) (hcnt c)
    · intro x hx hv
      have hv : (m1.obst x.1).isValid = true := hv
      show m1.Occ (m1.obst x.1)
      by_cases hC : (m.pop e).Cleared ((m.pop e).nbrs s) x.1
      · rw [(sp.clr _ hC).2.1] at hv; cases hv
      · rw [(sp.keep _ hC).2.1] at hv ⊢
        apply hoccM
        have hx : x ∈ m1.queue := hx
        rw [hq, List.mem_append] at hx
        rcases hx with hx | hx
        · by_contra ho
          exact hC ⟨((hmem x).mp hx).1, ho⟩
        · exact h.live x (hqe x hx) hv
    · intro t n ht hn hv hrn
      have ht : m.inside t = true := by rw [← hin]; exact ht
      have hn : n ∈ m.nbrs t := by
        have : n ∈ m1.nbrs t := hn
        unfold nbrs at this ⊢; rwa [hrow, hcol] at this
      have hv : (m1.obst t).isValid = true := hv
      have hrn : setAt m1.toRaise s false n = false := hrn
      have hCt : ¬ (m.pop e).Cleared ((m.pop e).nbrs s) t := by
        intro hC; rw [(sp.clr t hC).2.1] at hv; cases hv
      show m1.dist n ≤ (squaredDistance (m1.obst t) n : Nat) ∨ (m1.toProcess t = true ∧ 0 < cnt m1.queue t)
      rw [(sp.keep t hCt).2.1] at hv ⊢
      by_cases hns : n = s
      · -- the neighbours of the raised cell wait
        right
        have htn : t ∈ (m.pop e).nbrs s := by
          refine (mem_nbrs hs t).mpr ⟨ht, ?_⟩
          rw [chebyshev_comm, ← hns]
          exact ((mem_nbrs ht n).mp hn).2
        have hts : t ≠ s := fun h' => hsn (h' ▸ htn)
        cases hrt : m.toRaise t with
        | false =>
          have hT : (m.pop e).Touched ((m.pop e).nbrs s) t := ⟨htn, hv, hrt⟩
          exact ⟨sp.proc t hT, hcntT t hT⟩
        | true =>
          have := h.raise t ht hrt
          exact ⟨hpr t this.1, lt_of_lt_of_le (by rw [hcn t hts]; exact this.2) (hcnt t)⟩
      · rw [setAt_ne _ _ hns] at hrn
        have hCn : ¬ (m.pop e).Cleared ((m.pop e).nbrs s) n := by
          intro hC; rw [(sp.clr n hC).2.2] at hrn; cases hrn
        rw [(sp.keep n hCn).2.2] at hrn
        rw [(sp.keep n hCn).1]
        rcases h.loc t n ht hn hv hrn with hl | hl
        · exact Or.inl hl
        · right
          refine ⟨hpr t hl.1, ?_⟩
          by_cases hts : t = s
          · rw [hts] at hv ⊢
            have := h.twice s hs hr hv
            have h2 := hcnt s
            omega
          · exact lt_of_lt_of_le (by rw [hcn t hts]; exact hl.2) (hcnt t)
  | lower hp hr ho sp =>
    obtain ⟨q, hq, hmem⟩ := sp.queue
    obtain ⟨m0, hm0⟩ : ∃ m0 : DistMap, m0 = { m.pop e with toProcess := setAt (m.pop e).toProcess s false } := ⟨_, rfl⟩
    rw [← hm0] at sp hmem
    have hq : m'.queue = q ++ m.queue.erase e := hq
    obtain ⟨o, hoo⟩ : ∃ o, o = m.obst s := ⟨_, rfl⟩
    have ho : m.Occ o := by rw [hoo]; exact ho
    have sp : LowerSpec m0 o (m.nbrs s) m' := by rw [hoo]; exact sp
    have hmem : ∀ x, x ∈ q ↔ m0.Improved o (m.nbrs s) x.1 ∧ x.2 = m'.dist x.1 := by
      intro x; rw [hoo]; exact hmem x
    have hrow : m'.rows = m.rows := by rw [sp.rows, hm0]; rfl
    have hcol : m'.columns = m.columns := by rw [sp.columns, hm0]; rfl
    have hin : ∀ c, m'.inside c = m.inside c := inside_congr hrow hcol
    have hr : m.toRaise s = false := hr
    have hrr : m'.toRaise = m.toRaise := by rw [sp.toRaise, hm0]; rfl
    have hoin : m.inside o = true := by rw [hoo]; exact h.bd s hs (hoo ▸ ho.1)
    have hnb : ∀ n, n ∈ m.nbrs s → m.inside n = true := fun n hn => ((mem_nbrs hs n).mp hn).1
    have hsn : s ∉ m.nbrs s := self_not_nbr hs
    have hImp : ∀ n, m0.Improved o (m.nbrs s) n → n ∈ m.nbrs s ∧ m.toRaise n = false ∧
        ((squaredDistance o n : Nat) : WithTop Nat) < m.dist n := by
      intro n hn; rw [hm0] at hn; exact hn
    have hImp' : ∀ n, n ∈ m.nbrs s → m.toRaise n = false →
        ((squaredDistance o n : Nat) : WithTop Nat) < m.dist n → m0.Improved o (m.nbrs s) n := by
      intro n h1 h2 h3; rw [hm0]; exact ⟨h1, h2, h3⟩
    have hk : ∀ n, ¬ m0.Improved o (m.nbrs s) n → m'.dist n = m.dist n ∧ m'.obst n = m.obst n ∧
        m'.toProcess n = setAt m.toProcess s false n := by
      intro n hn
      have := sp.keep n hn
      rw [hm0] at this
      exact this
    have hcnt : ∀ c, cnt (m.queue.erase e) c ≤ cnt m'.queue c := by
      intro c; rw [hq, cnt_append]; exact Nat.le_add_left _ _
    have hcntI : ∀ c, m0.Improved o (m.nbrs s) c → 0 < cnt m'.queue c := by
      intro c hc
      rw [cnt_pos]
      exact ⟨(c, m'.dist c), by rw [hq]; exact List.mem_append_left _ ((hmem _).mpr ⟨hc, rfl⟩), rfl⟩
    have hdle : ∀ n, m'.dist n ≤ m.dist n := by
      intro n
      by_cases hI : m0.Improved o (m.nbrs s) n
      · rw [(sp.imp n hI).1]; exact le_of_lt (hImp n hI).2.2
      · rw [(hk n hI).1]
    have hnself : ∀ n, m0.Improved o (m.nbrs s) n → m.obst n ≠ n := by
      intro n hI hn
      have := (hImp n hI).2.2
      rw [h.dist_self (hnb n (hImp n hI).1) hn] at this
      exact absurd this (by simp)
    have hnself' : ∀ n, m0.Improved o (m.nbrs s) n → o ≠ n := by
      intro n hI hn
      exact hnself n hI (hn ▸ ho.2)
    have hoccM : ∀ c, m.Occ c → m'.Occ c := by
      intro c hc
      refine ⟨hc.1, ?_⟩
      have : ¬ m0.Improved o (m.nbrs s) c := fun hI => hnself c hI hc.2
      rw [(hk c this).2.1]; exact hc.2
    refine ⟨?_, ?_, ?_, ?_, ?_, ?_, ?_, ?_⟩
    · intro c hc
      rw [hin] at hc
      by_cases hI : m0.Improved o (m.nbrs s) c
      · right
        rw [(sp.imp c hI).1, (sp.imp c hI).2.1, hin]
        exact ⟨hoin, rfl⟩
      · rw [(hk c hI).1, (hk c hI).2.1, hin]
        exact h.exact c hc
    · intro c hc
      rw [hin] at hc
      by_cases hI : m0.Improved o (m.nbrs s) c
      · rw [(sp.imp c hI).2.1]
        constructor
        · intro h'; exact absurd h' (hnself' c hI)
        · intro h'; exact absurd ((h.self c hc).mpr h') (hnself c hI)
      · rw [(hk c hI).2.1]; exact h.self c hc
    · intro c hc; rw [hin]; exact h.sub c hc
    · intro x hx
      rw [hin]
      rw [hq, List.mem_append] at hx
      rcases hx with hx | hx
      · exact hnb _ (hImp _ ((hmem x).mp hx).1).1
      · exact h.qin x (hqe x hx)
    · intro c hc hrc
      rw [hin] at hc
      rw [hrr] at hrc
      have hcs' : c ≠ s := by rintro rfl; rw [hr] at hrc; cases hrc
      have hI : ¬ m0.Improved o (m.nbrs s) c := fun hI => by rw [(hImp c hI).2.1] at hrc; cases hrc
      have := h.raise c hc hrc
      refine ⟨?_, lt_of_lt_of_le (by rw [hcn c hcs']; exact this.2) (hcnt c)⟩
      rw [(hk c hI).2.2, setAt_ne _ _ hcs']; exact this.1
    · intro c hc hrc hv
      rw [hin] at hc
      rw [hrr] at hrc
      have hcs' : c ≠ s := by rintro rfl; rw [hr] at hrc; cases hrc
      have hI : ¬ m0.Improved o (m.nbrs s) c := fun hI => by rw [(hImp c hI).2.1] at hrc; cases hrc
      rw [(hk c hI).2.1] at hv
      exact le_trans (by rw [hcn c hcs']; exact h.twice c hc hrc hv) (hcnt c)
    · intro x hx hv
      by_cases hI : m0.Improved o (m.nbrs s) x.1
      · rw [(sp.imp _ hI).2.1]; exact hoccM o ho
      · rw [(hk _ hI).2.1] at hv ⊢
        rw [hq, List.mem_append] at hx
        rcases hx with hx | hx
        · exact absurd ((hmem x).mp hx).1 hI
        · exact hoccM _ (h.live x (hqe x hx) hv)
    · intro t n ht hn hv hrn
      rw [hin] at ht
      have hn : n ∈ m.nbrs t := by unfold nbrs at hn ⊢; rwa [hrow, hcol] at hn
      rw [hrr] at hrn
      by_cases hts : t = s
      · left
        have hIs : ¬ m0.Improved o (m.nbrs s) s := fun hI => hsn (hImp s hI).1
        rw [hts, (hk s hIs).2.1, ← hoo]
        rw [hts] at hn
        by_cases hI : m0.Improved o (m.nbrs s) n
        · rw [(sp.imp n hI).1]
        · rw [(hk n hI).1]
          by_contra hlt
          exact hI (hImp' n hn hrn (not_le.mp hlt))
      · by_cases hI : m0.Improved o (m.nbrs s) t
        · exact Or.inr ⟨(sp.imp t hI).2.2, hcntI t hI⟩
        · rw [(hk t hI).2.1] at hv ⊢
          rcases h.loc t n ht hn hv hrn with hl | hl
          · exact Or.inl ((hdle n).trans hl)
          · refine Or.inr ⟨?_, lt_of_lt_of_le (by rw [hcn t hts]; exact hl.2) (hcnt t)⟩
            rw [(hk t hI).2.2, setAt_ne _ _ hts]; exact hl.1

/-- Between two updates, the cells of the queue are obstacles or have no obstacle. -/
def Batch (m : DistMap) : Prop := ∀ e ∈ m.queue, m.obst e.1 = e.1 ∨ m.obst e.1 = Cell.invalid

theorem Inv.new (rows columns : Int) : (DistMap.new rows columns).Inv (fun _ => False) := by
  refine ⟨?_, ?_, ?_, ?_, ?_, ?_, ?_, ?_⟩
  · intro c _; exact Or.inl ⟨rfl, rfl⟩
  · intro c hc
    constructor
    · intro h
      have := inside_valid hc
      have h : Cell.invalid = c := h
      rw [← h] at this; cases this
    · intro h; exact h.elim
  · intro c hc; exact hc.elim
  · intro e he; cases he
  · intro c _ h; cases h
  · intro c _ h; cases h
  · intro e he; cases he
  · intro s n _ _ h; cases h

theorem Inv.step {m m' : DistMap} {S : Set Cell} (h : m.Inv S) (st : Step m m') :
    ∃ e ∈ m.queue, Effect (m.pop e) e.1 m' := by
  obtain ⟨e, he, hp⟩ := st
  obtain ⟨m1, h1, ef⟩ := process_effect (m := m.pop e) (s := e.1) h.bd (h.qin e he.1)
  rw [h1] at hp
  cases hp
  exact ⟨e, he.1, ef⟩

theorem Inv.step_inv {m m' : DistMap} {S : Set Cell} (h : m.Inv S) (st : Step m m') : m'.Inv S := by
  obtain ⟨e, he, ef⟩ := h.step st
  exact h.effect he ef

theorem Inv.steps {m m' : DistMap} {S : Set Cell} (h : m.Inv S) (st : Relation.ReflTransGen Step m m') :
    m'.Inv S := by
  induction st with
  | refl => exact h
  | tail _ st ih => exact ih.step_inv st

theorem Inv.set {m m' : DistMap} {S : Set Cell} (h : m.Inv S) (hb : m.Batch) {s : Cell}
    (hs : m.set s = some m') : m'.Inv (fun c => S c ∨ c = s) ∧ m'.Batch := by
  unfold DistMap.set at hs
  split at hs
  · rename_i hin
    cases hs
    have pd : ∀ c, m.Pend c → (setAt m.toProcess s true c = true ∧ 0 < cnt ((s, 0) :: m.queue) c) := by
      intro c hc
      refine ⟨?_, lt_of_lt_of_le hc.2 (cnt_cons_le _ _ _)⟩
      by_cases hcs : c = s
      · rw [hcs, setAt_same]
      · rw [setAt_ne _ _ hcs]; exact hc.1
    have pds : setAt m.toProcess s true s = true ∧ 0 < cnt ((s, 0) :: m.queue) s := by
      rw [setAt_same, cnt_cons_same]; exact ⟨rfl, Nat.succ_pos _⟩
    refine ⟨⟨?_, ?_, ?_, ?_, ?_, ?_, ?_, ?_⟩, ?_⟩
    · intro c hc
      show (setAt m.obst s s c = _ ∧ setAt m.dist s 0 c = ⊤) ∨ (m.inside (setAt m.obst s s c) = true ∧
        setAt m.dist s 0 c = (squaredDistance (setAt m.obst s s c) c : Nat))
      by_cases hcs : c = s
      · right; subst hcs
        rw [setAt_same, setAt_same, sq_self]
        exact ⟨hin, rfl⟩
      · rw [setAt_ne _ _ hcs, setAt_ne _ _ hcs]; exact h.exact c hc
    · intro c hc
      show setAt m.obst s s c = c ↔ (S c ∨ c = s)
      by_cases hcs : c = s
      · subst hcs; rw [setAt_same]; simp
      · rw [setAt_ne _ _ hcs]
        have := h.self c hc
        constructor
        · intro h'; exact Or.inl (this.mp h')
        · rintro (h' | h')
          · exact this.mpr h'
          · exact absurd h' hcs
    · rintro c (hc | hc)
      · exact h.sub c hc
      · rw [hc]; exact hin
    · intro e he
      rcases List.mem_cons.mp he with rfl | he
      · exact hin
      · exact h.qin e he
    · intro c hc hr
      exact pd c (h.raise c hc hr)
    · intro c hc hr hv
      show 2 ≤ cnt ((s, 0) :: m.queue) c
      by_cases hcs : c = s
      · subst hcs
        rw [cnt_cons_same]
        have := (h.raise c hc hr).2
        omega
      · have hv : (setAt m.obst s s c).isValid = true := hv
        rw [setAt_ne _ _ hcs] at hv
        exact (h.twice c hc hr hv).trans (cnt_cons_le _ _ _)
    · intro e he hv
      show (setAt m.obst s s e.1).isValid = true ∧ setAt m.obst s s (setAt m.obst s s e.1) = setAt m.obst s s e.1
      have hv : (setAt m.obst s s e.1).isValid = true := hv
      refine ⟨hv, ?_⟩
      by_cases hes : e.1 = s
      · rw [hes, setAt_same, setAt_same]
      · rcases List.mem_cons.mp he with he | he
        · rw [he] at hes; exact absurd rfl hes
        · rw [setAt_ne _ _ hes] at hv ⊢
          rcases hb e he with h1 | h1
          · rw [h1, setAt_ne _ _ hes, h1]
          · rw [h1] at hv; cases hv
    · intro t n ht hn hv hr
      show setAt m.dist s 0 n ≤ (squaredDistance (setAt m.obst s s t) n : Nat) ∨ _
      by_cases hts : t = s
      · right; rw [hts]; exact pds
      · by_cases hns : n = s
        · left; rw [hns, setAt_same]; exact bot_le
        · rw [setAt_ne _ _ hts, setAt_ne _ _ hns]
          have hv : (setAt m.obst s s t).isValid = true := hv
          rw [setAt_ne _ _ hts] at hv
          rcases h.loc t n ht hn hv hr with hl | hl
          · exact Or.inl hl
          · exact Or.inr (pd t hl)
    · intro e he
      show setAt m.obst s s e.1 = e.1 ∨ setAt m.obst s s e.1 = Cell.invalid
      by_cases hes : e.1 = s
      · rw [hes, setAt_same]; exact Or.inl rfl
      · rw [setAt_ne _ _ hes]
        rcases List.mem_cons.mp he with he | he
        · rw [he] at hes; exact absurd rfl hes
        · exact hb e he
  · cases hs

theorem Inv.unset {m m' : DistMap} {S : Set Cell} (h : m.Inv S) (hb : m.Batch) {s : Cell}
    (hs : m.unset s = some m') : m'.Inv (fun c => S c ∧ c ≠ s) ∧ m'.Batch := by
  unfold DistMap.unset at hs
  split at hs
  · rename_i hin
    cases hs
    have pd : ∀ c, m.Pend c → (setAt m.toProcess s true c = true ∧ 0 < cnt ((s, ⊤) :: m.queue) c) := by
      intro c hc
      refine ⟨?_, lt_of_lt_of_le hc.2 (cnt_cons_le _ _ _)⟩
      by_cases hcs : c = s
      · rw [hcs, setAt_same]
      · rw [setAt_ne _ _ hcs]; exact hc.1
    have pds : setAt m.toProcess s true s = true ∧ 0 < cnt ((s, ⊤) :: m.queue) s := by
      rw [setAt_same, cnt_cons_same]; exact ⟨rfl, Nat.succ_pos _⟩
    refine ⟨⟨?_, ?_, ?_, ?_, ?_, ?_, ?_, ?_⟩, ?_⟩
    · intro c hc
      show (setAt m.obst s _ c = _ ∧ setAt m.dist s ⊤ c = ⊤) ∨ (m.inside (setAt m.obst s _ c) = true ∧
        setAt m.dist s ⊤ c = (squaredDistance (setAt m.obst s _ c) c : Nat))
      by_cases hcs : c = s
      · left; subst hcs
        rw [setAt_same, setAt_same]
        exact ⟨rfl, rfl⟩
      · rw [setAt_ne _ _ hcs, setAt_ne _ _ hcs]; exact h.exact c hc
    · intro c hc
      show setAt m.obst s _ c = c ↔ (S c ∧ c ≠ s)
      by_cases hcs : c = s
      · subst hcs; rw [setAt_same]
        have := inside_valid hc
        constructor
        · intro h'; rw [← h'] at this; cases this
        · intro h'; exact absurd rfl h'.2
      · rw [setAt_ne _ _ hcs]
        have := h.self c hc
        constructor
        · intro h'; exact ⟨this.mp h', hcs⟩
        · intro h'; exact this.mpr h'.1
    · rintro c ⟨hc, _⟩; exact h.sub c hc
    · intro e he
      rcases List.mem_cons.mp he with rfl | he
      · exact hin
      · exact h.qin e he
    · intro c hc hr
      by_cases hcs : c = s
      · rw [hcs]; exact pds
      · have hr : setAt m.toRaise s true c = true := hr
        rw [setAt_ne _ _ hcs] at hr
        exact pd c (h.raise c hc hr)
    · intro c hc hr hv
      show 2 ≤ cnt ((s, ⊤) :: m.queue) c
      have hv : (setAt m.obst s Cell.invalid c).isValid = true := hv
      have hcs : c ≠ s := by rintro rfl; rw [setAt_same] at hv; cases hv
      rw [setAt_ne _ _ hcs] at hv
      have hr : setAt m.toRaise s true c = true := hr
      rw [setAt_ne _ _ hcs] at hr
      exact (h.twice c hc hr hv).trans (cnt_cons_le _ _ _)
    · intro e he hv
      show (setAt m.obst s Cell.invalid e.1).isValid = true ∧
        setAt m.obst s Cell.invalid (setAt m.obst s Cell.invalid e.1) = setAt m.obst s Cell.invalid e.1
      have hv : (setAt m.obst s Cell.invalid e.1).isValid = true := hv
      refine ⟨hv, ?_⟩
      have hes : e.1 ≠ s := by intro hes; rw [hes, setAt_same] at hv; cases hv
      rcases List.mem_cons.mp he with he | he
      · rw [he] at hes; exact absurd rfl hes
      · rw [setAt_ne _ _ hes] at hv ⊢
        rcases hb e he with h1 | h1
        · rw [h1, setAt_ne _ _ hes, h1]
        · rw [h1] at hv; cases hv
    · intro t n ht hn hv hr
      show setAt m.dist s ⊤ n ≤ (squaredDistance (setAt m.obst s _ t) n : Nat) ∨ _
      have hv : (setAt m.obst s Cell.invalid t).isValid = true := hv
      have hts : t ≠ s := by rintro rfl; rw [setAt_same] at hv; cases hv
      rw [setAt_ne _ _ hts] at hv
      have hr : setAt m.toRaise s true n = false := hr
      have hns : n ≠ s := by rintro rfl; rw [setAt_same] at hr; cases hr
      rw [setAt_ne _ _ hns] at hr
      rw [setAt_ne _ _ hts, setAt_ne _ _ hns]
      rcases h.loc t n ht hn hv hr with hl | hl
      · exact Or.inl hl
      · exact Or.inr (pd t hl)
    · intro e he
      show setAt m.obst s _ e.1 = e.1 ∨ setAt m.obst s _ e.1 = Cell.invalid
      by_cases hes : e.1 = s
      · rw [hes, setAt_same]; exact Or.inr rfl
      · rw [setAt_ne _ _ hes]
        rcases List.mem_cons.mp he with he | he
        · rw [he] at hes; exact absurd rfl hes
        · exact hb e he
  · cases hs

theorem Inv.update {m m' : DistMap} {S : Set Cell} (h : m.Inv S) (u : Update m m') : m'.Inv S ∧ m'.Batch := by
  refine ⟨h.steps u.1, ?_⟩
  intro e he
  rw [u.2] at he; cases he

/-- One call. -/
def afterOp (S : Set Cell) (o : Op) : Set Cell :=
  match o with
  | .set s => fun c => S c ∨ c = s
  | .unset s => fun c => S c ∧ c ≠ s
  | .update => S

theorem Inv.call {m m' : DistMap} {S : Set Cell} (h : m.Inv S) (hb : m.Batch) {o : Op} (c : Call m o m') :
    m'.Inv (afterOp S o) ∧ m'.Batch := by
  cases c with
  | set hs => exact h.set hb hs
  | unset hs => exact h.unset hb hs
  | update u => exact h.update u

theorem Inv.run {m m' : DistMap} {S : Set Cell} (h : m.Inv S) (hb : m.Batch) {os : List Op} (r : Run m os m') :
    m'.Inv (os.foldl afterOp S) ∧ m'.Batch := by
  induction r generalizing S with
  | nil => exact ⟨h, hb⟩
  | cons c _ ih =>
    obtain ⟨h1, hb1⟩ := h.call hb c
    exact ih h1 hb1

theorem obstacles_eq (os : List Op) : obstacles os = os.foldl afterOp (fun _ => False) := rfl

theorem run_inv {rows columns : Int} {os : List Op} {m : DistMap} (r : Run (.new rows columns) os m) :
    m.Inv (obstacles os) ∧ m.Batch := by
  rw [obstacles_eq]
  exact (Inv.new rows columns).run (fun e he => by cases he) r

end DistMap
end PathPlanning
