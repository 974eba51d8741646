import Verif.Model.Handles
import Mathlib.Tactic.Common

/-!
# C157: a planner never uses an object that is gone
-/

namespace PathPlanning
open Own

/-- What holds in every world that comes about. -/
private structure Good (w : World) : Prop where
  user : ∀ o ∈ w.user, o < w.objs.length
  members : ∀ p, w.planner = some p → ∀ m o, p.ref m = some o → o < w.objs.length
  temps : w.temps = []
  ready : ∀ p, w.planner = some p → p.isInitialized = true →
    p.fAvg = w.averaged (p.ref .fHeur) ∧ p.rAvg = w.averaged (p.ref .rHeur) ∧ ∀ m, (p.ref m).isSome = true

private theorem good_start : Good .start := by
  refine ⟨by simp [World.start], ?_, rfl, ?_⟩
  · intro p hp m o h
    obtain rfl := Option.some.inj hp
    cases h
  · intro p hp h
    obtain rfl := Option.some.inj hp
    cases h

private theorem averaged_append {w : World} {o : Option Nat} {l : List Obj} (h : ∀ x, o = some x → x < w.objs.length) :
    ({ w with objs := w.objs ++ l } : World).averaged o = w.averaged o := by
  cases o with
  | none => rfl
  | some x =>
    simp only [World.averaged]
    rw [List.getElem?_append_left (h x rfl)]

private theorem endReturn_makeTuple {w : World} (ht : w.temps = []) (p : Planner) (b : Bool) :
    (w.getRefs p b).1 = { w with made := w.made + 2 } := by
  simp [World.getRefs, World.makeTuple, World.endReturn, ht]

private theorem good_make {w : World} (h : Good w) (l : List Obj) (us : List Nat)
    (hus : ∀ o ∈ us, o < w.objs.length + l.length) :
    Good { w with objs := w.objs ++ l, user := us ++ w.user } := by
  refine ⟨?_, ?_, h.temps, ?_⟩
  · intro o ho
    simp only [List.mem_append, List.length_append] at ho ⊢
    rcases ho with ho | ho
    · exact hus o ho
    · have := h.user o ho; omega
  · intro p hp m o ho
    have := h.members p hp m o ho
    simp only [List.length_append]; omega
  · intro p hp hi
    obtain ⟨h1, h2, h3⟩ := h.ready p hp hi
    refine ⟨?_, ?_, h3⟩
    · rw [h1]; exact (averaged_append fun x hx => h.members p hp _ x hx).symm
    · rw [h2]; exact (averaged_append fun x hx => h.members p hp _ x hx).symm

private theorem take_ref {p : Planner} {mp mh : Member} {N H : Option Nat} {m : Member} {o : Nat}
    (h : (p.take mp mh N H).1.ref m = some o) : N = some o ∨ H = some o ∨ p.ref m = some o := by
  unfold Planner.take at h
  split at h
  · dsimp only at h
    split at h
    · exact .inl h
    · split at h
      · exact .inr (.inl h)
      · exact .inr (.inr h)
  · exact .inr (.inr h)

private theorem good_initialize {w : World} (h : Good w) {p : Planner} (hp : w.planner = some p) {N Nr H Hr : Option Nat}
    (hu : ∀ x ∈ [N, Nr, H, Hr], ∀ o, x = some o → o ∈ w.user) :
    Good { w with planner := some (w.initialize p N Nr H Hr) } := by
  have hb : ∀ x ∈ [N, Nr, H, Hr], ∀ o, x = some o → o < w.objs.length := fun x hx o ho => h.user o (hu x hx o ho)
  have hN := hb N (by simp)
  have hNr := hb Nr (by simp)
  have hH := hb H (by simp)
  have hHr := hb Hr (by simp)
  obtain ⟨q, hq⟩ : ∃ q, q = p.take .fProp .fHeur N H := ⟨_, rfl⟩
  have r1 : ∀ m o, q.1.ref m = some o → o < w.objs.length := by
    intro m o ho
    rw [hq] at ho
    rcases take_ref ho with h1 | h1 | h1
    · exact hN o h1
    · exact hH o h1
    · exact h.members p hp m o h1
  obtain ⟨q', hq'⟩ : ∃ q', q' = q.1.take .rProp .rHeur Nr Hr := ⟨_, rfl⟩
  have r2 : ∀ m o, q'.1.ref m = some o → o < w.objs.length := by
    intro m o ho
    rw [hq'] at ho
    rcases take_ref ho with h1 | h1 | h1
    · exact hNr o h1
    · exact hHr o h1
    · exact r1 m o h1
  have e : w.initialize p N Nr H Hr = if q.2 then
      if q'.2 then { q'.1 with fAvg := w.averaged (q'.1.ref .fHeur), rAvg := w.averaged (q'.1.ref .rHeur), isInitialized := true }
      else { q'.1 with isInitialized := false }
    else { q.1 with isInitialized := false } := by
    unfold World.initialize
    rw [← hq]
    cases h2 : q.2 with
    | false => simp [h2]
    | true =>
      simp only [h2, if_true]
      rw [← hq']
  rw [e]
  refine ⟨h.user, ?_, h.temps, ?_⟩
  · intro p' hp' m o ho
    obtain rfl := Option.some.inj hp'
    split at ho
    · split at ho
      · exact r2 m o ho
      · exact r2 m o ho
    · exact r1 m o ho
  · intro p' hp' hi
    obtain rfl := Option.some.inj hp'
    split at hi
    · rename_i h2
      split at hi
      · rename_i h3
        rw [if_pos h2, if_pos h3]
        refine ⟨rfl, rfl, ?_⟩
        rw [hq] at h2
        rw [hq'] at h3
        unfold Planner.take at h2 h3
        split at h2
        · rename_i h4
          split at h3
          · rename_i h5
            simp only [Bool.and_eq_true] at h4 h5
            intro m
            show (q'.1.ref m).isSome = true
            rw [hq']
            unfold Planner.take
            rw [if_pos (by simp [h5.1, h5.2]), hq]
            unfold Planner.take
            rw [if_pos (by simp [h4.1, h4.2])]
            cases m <;> simp [h4.1, h4.2, h5.1, h5.2]
          · cases h3
        · cases h2
      · cases hi
    · cases hi

private theorem good_step {w : World} (h : Good w) (op : Op) (ha : op.Allowed w) : Good (w.step op) := by
  cases op with
  | make o => exact good_make h [o] [w.objs.length] (by simp)
  | average f r =>
    exact good_make h [.average f r, .average r f] [w.objs.length, w.objs.length + 1] (by simp)
  | copy o =>
    refine ⟨?_, h.members, h.temps, h.ready⟩
    intro x hx
    rcases List.mem_cons.mp hx with rfl | hx
    · exact h.user _ ha
    · exact h.user x hx
  | drop o => exact ⟨fun x hx => h.user x (List.mem_of_mem_erase hx), h.members, h.temps, h.ready⟩
  | «initialize» N Nr H Hr =>
    obtain ⟨p, hp⟩ := Option.isSome_iff_exists.mp ha.1
    have := good_initialize h hp ha.2
    simpa [World.step, hp] using this
  | searchPath =>
    obtain ⟨p, hp⟩ := Option.isSome_iff_exists.mp ha
    have e : w.step .searchPath =
        { w with planner := some (if p.isInitialized then { p with searches := p.searches + 1 } else p) } := by
      simp [World.step, hp]
    rw [e]
    have hr : ∀ m, (if p.isInitialized then { p with searches := p.searches + 1 } else p : Planner).ref m = p.ref m := by
      intro m; split <;> rfl
    refine ⟨h.user, ?_, h.temps, ?_⟩
    · intro p' hp' m o ho
      obtain rfl := Option.some.inj hp'
      rw [hr] at ho
      exact h.members p hp m o ho
    · intro p' hp' hi
      obtain rfl := Option.some.inj hp'
      by_cases hc : p.isInitialized = true
      · rw [if_pos hc]; exact h.ready p hp hc
      · rw [if_neg hc] at hi; exact absurd hi hc
  | get b =>
    obtain ⟨p, hp⟩ := Option.isSome_iff_exists.mp ha
    have e : w.step (.get b) = { w with made := w.made + 2 } := by
      have : w.step (.get b) = (w.getRefs p b).1 := by simp [World.step, hp]
      rw [this, endReturn_makeTuple h.temps p b]
    rw [e]
    exact ⟨h.user, h.members, h.temps, h.ready⟩
  | destroy => exact ⟨h.user, (fun p hp => nomatch hp), h.temps, (fun p hp => nomatch hp)⟩

private theorem good_run {w : World} (h : Good w) (ops : List Op) (ha : AllowedAll w ops) : Good (w.run ops) := by
  induction ops generalizing w with
  | nil => exact h
  | cons op l ih => exact ih (good_step h op ha.1) ha.2

private theorem averaged_some {w : World} {o : Option Nat} {a : Nat} (h : w.averaged o = some a) :
    o = some a ∧ ∃ g i, w.objs[a]? = some (.average g i) := by
  cases o with
  | none => cases h
  | some x =>
    simp only [World.averaged] at h
    cases hx : w.objs[x]? with
    | none => rw [hx] at h; cases h
    | some ob =>
      rw [hx] at h
      cases ob with
      | propagator => cases h
      | heuristic => cases h
      | average g i =>
        obtain rfl := Option.some.inj h
        exact ⟨rfl, g, i, hx⟩

/-- C157, partial (see `C157_null_part`). After any history of making and letting go of propagators and heuristics, of accepted
and rejected calls of `Initialize`, of searches and of calls of the getters: a search of an initialised planner calls only
objects that still exist, its propagators and heuristics are not null, and its raw pointers point to averaged heuristics. -/
theorem C157_search_calls_existing_partial (ops : List Op) (ha : AllowedAll .start ops) (p : Planner)
    (hp : (World.start.run ops).planner = some p) (hi : p.isInitialized = true) :
    (∀ o, Calls (World.start.run ops) p o → Alive (World.start.run ops) o) ∧ (∀ m, p.ref m ≠ none) ∧
      ∀ a, p.fAvg = some a ∨ p.rAvg = some a → ∃ g i, (World.start.run ops).objs[a]? = some (.average g i) := by
  have h := good_run good_start ops ha
  obtain ⟨h1, h2, h3⟩ := h.ready p hp hi
  refine ⟨?_, ?_, ?_⟩
  · intro o hc
    induction hc with
    | rawF ha _ => rw [h1] at ha; exact .member hp (averaged_some ha).1
    | rawR _ hb => rw [h2] at hb; exact .member hp (averaged_some hb).1
    | member hm => exact .member hp hm
    | part _ h4 h5 ih => exact .part ih h4 h5
  · intro m hm
    have := h3 m
    rw [hm] at this
    cases this
  · rintro a (h4 | h4)
    · rw [h1] at h4; exact (averaged_some h4).2
    · rw [h2] at h4; exact (averaged_some h4).2

/-- C157. Nothing is kept for longer than needed: once the user has let go of all `Ref`s and the planner is destroyed, after any
history, no object exists. -/
theorem C157_nothing_left (ops : List Op) (ha : AllowedAll .start ops) (hu : (World.start.run ops).user = [])
    (hp : (World.start.run ops).planner = none) (o : Nat) : ¬ Alive (World.start.run ops) o := by
  have h := good_run good_start ops ha
  intro hal
  induction hal with
  | user ho => rw [hu] at ho; cases ho
  | member h1 _ => rw [hp] at h1; cases h1
  | temp ht => rw [h.temps] at ht; cases ht
  | part _ _ _ ih => exact ih

/-- C157 is violated by `GetStatePropagators` and `GetHeuristics`: in every history, with every planner, the references that
they return are dangling, from the return on and for ever: reading either of them is undefined. -/
theorem C157_getters_dangle (ops : List Op) (ha : AllowedAll .start ops) (p : Planner)
    (_hp : (World.start.run ops).planner = some p) (propagators : Bool) (later : List Op)
    (hl : AllowedAll ((World.start.run ops).getRefs p propagators).1 later) :
    (((World.start.run ops).getRefs p propagators).1.run later).read ((World.start.run ops).getRefs p propagators).2.1 = none ∧
    (((World.start.run ops).getRefs p propagators).1.run later).read ((World.start.run ops).getRefs p propagators).2.2 = none := by
  have h := good_run good_start ops ha
  have h1 : Good ((World.start.run ops).getRefs p propagators).1 := by
    rw [endReturn_makeTuple h.temps]
    exact ⟨h.user, h.members, h.temps, h.ready⟩
  have h2 := good_run h1 later hl
  constructor
  · show (((World.start.run ops).getRefs p propagators).1.run later).read (.temp (World.start.run ops).made) = none
    simp [World.read, h2.temps]
  · show (((World.start.run ops).getRefs p propagators).1.run later).read (.temp ((World.start.run ops).made + 1)) = none
    simp [World.read, h2.temps]

/-- C157 is violated by averages of null heuristics: `GetAverageHeuristicPair` makes them, `Initialize` accepts them, and the
search calls a null heuristic. -/
theorem C157_null_part : ∃ (ops : List Op) (p : Planner), AllowedAll .start ops ∧
    (World.start.run ops).planner = some p ∧ p.isInitialized = true ∧ CallsNull (World.start.run ops) p := by
  refine ⟨[.make .propagator, .average none none, .initialize (some 0) (some 0) (some 1) (some 2)], _, ?_, rfl, rfl, ?_⟩
  · refine ⟨.inl rfl, ?_, ⟨rfl, ?_⟩, trivial⟩
    · rintro o (h | h) <;> cases h
    · intro x hx o ho
      simp only [List.mem_cons, List.not_mem_nil, or_false] at hx
      rcases hx with rfl | rfl | rfl | rfl <;> cases ho <;> simp [World.step, World.start]
  · exact ⟨1, none, none, .member (m := .fHeur) rfl, rfl, .inl rfl⟩

/-- C157. The nodes behind the pointers given out by `GetExploredStates` exist until the next search or the end of the planner,
whatever else is done. -/
theorem C157_explored_until_next_search (w : World) (p : Planner) (hp : w.planner = some p) (ops : List Op)
    (hno : ∀ op ∈ ops, op ≠ .searchPath ∧ op ≠ .destroy) : (w.run ops).nodeAlive p.searches = true := by
  suffices h : ∀ w : World, w.nodeAlive p.searches = true → (w.run ops).nodeAlive p.searches = true from
    h w (by simp [World.nodeAlive, hp])
  clear hp
  induction ops with
  | nil => exact fun w h => h
  | cons op l ih =>
    intro w h
    refine ih (fun x hx => hno x (List.mem_cons_of_mem _ hx)) (w.step op) ?_
    have hop := hno op (List.mem_cons_self ..)
    cases op with
    | searchPath => exact absurd rfl hop.1
    | destroy => exact absurd rfl hop.2
    | make _ => exact h
    | average _ _ => exact h
    | copy _ => exact h
    | drop _ => exact h
    | get b =>
      unfold World.nodeAlive World.step at *
      cases hw : w.planner with
      | none => simp [hw] at h
      | some q => simpa [hw, World.getRefs, World.makeTuple, World.endReturn] using h
    | «initialize» N Nr H Hr =>
      have hs : ∀ q : Planner, (w.initialize q N Nr H Hr).searches = q.searches := by
        intro q
        unfold World.initialize Planner.take
        dsimp only
        split <;> (try split) <;> (try split) <;> (try split) <;> rfl
      unfold World.nodeAlive World.step at *
      cases hw : w.planner with
      | none => simp [hw] at h
      | some q => simpa [hw, hs] using h

/-- C157. From the next search of an initialised planner on they are gone, whatever is done then. -/
theorem C157_explored_gone_after (w : World) (p : Planner) (hp : w.planner = some p) (hi : p.isInitialized = true)
    (ops : List Op) : ((w.step .searchPath).run ops).nodeAlive p.searches = false := by
  suffices h : ∀ w : World, (∀ q, w.planner = some q → p.searches < q.searches) → (w.run ops).nodeAlive p.searches = false by
    refine h _ ?_
    intro q hq
    simp only [World.step, hp, Option.map_some, hi, if_true, Option.some.injEq] at hq
    rw [← hq]
    exact Nat.lt_succ_self _
  clear hp hi
  induction ops with
  | nil =>
    intro w h
    unfold World.run World.nodeAlive
    cases hw : w.planner with
    | none => rfl
    | some q => have := h q hw; simp; omega
  | cons op l ih =>
    intro w h
    refine ih (w.step op) ?_
    intro q hq
    cases op with
    | make _ => exact h q hq
    | average _ _ => exact h q hq
    | copy _ => exact h q hq
    | drop _ => exact h q hq
    | destroy => cases hq
    | get b =>
      simp only [World.step] at hq
      cases hw : w.planner with
      | none => rw [hw] at hq; simp [hw] at hq
      | some q' =>
        rw [hw] at hq
        have : q' = q := by simpa [hw, World.getRefs, World.makeTuple, World.endReturn] using hq
        rw [← this]; exact h q' hw
    | searchPath =>
      simp only [World.step, Option.map_eq_some_iff] at hq
      obtain ⟨q', h1, h2⟩ := hq
      have := h q' h1
      rw [← h2]
      split
      · exact Nat.lt_succ_of_lt this
      · exact this
    | «initialize» N Nr H Hr =>
      simp only [World.step, Option.map_eq_some_iff] at hq
      obtain ⟨q', h1, h2⟩ := hq
      have hs : (w.initialize q' N Nr H Hr).searches = q'.searches := by
        unfold World.initialize Planner.take
        dsimp only
        split <;> (try split) <;> (try split) <;> (try split) <;> rfl
      rw [← h2, hs]
      exact h q' h1

/-- A history that meets the hypotheses: an average pair is made of one heuristic, given to the planner, and the user lets go of
all they have; then a call of `Initialize` is rejected half way, and one with a plain heuristic accepted. Before the rejected
call the planner is initialised and its raw pointers are set; they are null at the end, when the averages are gone. -/
example : let ops1 : List Op := [.make .propagator, .make .heuristic, .average (some 1) (some 1),
      .initialize (some 0) (some 0) (some 2) (some 3), .drop 2, .drop 3, .searchPath]
    let ops2 : List Op := [.initialize (some 0) none (some 1) (some 1), .initialize (some 0) (some 0) (some 1) (some 1)]
    AllowedAll .start (ops1 ++ ops2) ∧
    (∃ p, (World.start.run ops1).planner = some p ∧ p.isInitialized = true ∧ p.fAvg = some 2 ∧ p.rAvg = some 3 ∧
      (World.start.run ops1).user = [1, 0]) ∧
    ∃ p, (World.start.run (ops1 ++ ops2)).planner = some p ∧ p.isInitialized = true ∧ p.fAvg = none ∧ p.rAvg = none ∧
      ¬ Alive (World.start.run (ops1 ++ ops2)) 2 := by
  refine ⟨?_, ⟨_, rfl, rfl, rfl, rfl, rfl⟩, ⟨_, rfl, rfl, rfl, rfl, ?_⟩⟩
  · refine ⟨.inl rfl, .inr rfl, ?_, ⟨rfl, ?_⟩, ?_, ?_, rfl, ⟨rfl, ?_⟩, ⟨rfl, ?_⟩, trivial⟩
    · rintro o (h | h) <;> cases h <;> simp [World.step, World.start]
    · intro x hx o ho
      simp only [List.mem_cons, List.not_mem_nil, or_false] at hx
      rcases hx with rfl | rfl | rfl | rfl <;> cases ho <;> simp [World.step, World.start]
    · simp [Op.Allowed, World.step, World.start]
    · simp [Op.Allowed, World.step, World.start]
    · intro x hx o ho
      simp only [List.mem_cons, List.not_mem_nil, or_false] at hx
      rcases hx with rfl | rfl | rfl | rfl <;> cases ho <;> simp [World.step, World.start]
    · intro x hx o ho
      simp only [List.mem_cons, List.not_mem_nil, or_false] at hx
      rcases hx with rfl | rfl | rfl | rfl <;> cases ho <;> simp [World.step, World.start]
  · have h : ∀ w : World, w.user = [1, 0] → w.temps = [] → w.objs[0]? = some .propagator → w.objs[1]? = some .heuristic →
        (∀ p, w.planner = some p → ∀ m o, p.ref m = some o → o = 0 ∨ o = 1) → ∀ o, Alive w o → o = 0 ∨ o = 1 := by
      intro w h1 h2 h3 h4 h5 o ho
      induction ho with
      | user h => rw [h1] at h; simp at h; omega
      | member h h' => exact h5 _ h _ _ h'
      | temp h => rw [h2] at h; cases h
      | part _ h _ ih =>
        rcases ih with rfl | rfl
        · rw [h3] at h; cases h
        · rw [h4] at h; cases h
    intro hal
    have := h _ rfl rfl rfl rfl (by
      intro p hp m o ho
      obtain rfl := Option.some.inj hp
      cases m <;> cases ho <;> simp) 2 hal
    omega

end PathPlanning
