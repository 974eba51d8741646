import Verif.Model.BiPlanner
import Verif.Props.Bidirectional

/-!
# C99, C100: the bidirectional planner as an object
-/

namespace PathPlanning
open Spec AStar

section
variable {S A K : Type}

/-- The inputs in force after a history of calls, computed from the history alone. -/
structure BiInputs (S A K : Type) where
  model : Option ((S → List (S × A × K)) × (S → List (S × A × K)) × HRef × HRef)
  ready : Bool
  init : S
  goal : S

/-- Effect of one call on the inputs. -/
def BiInputs.call (i : BiInputs S A K) : BiPlanner.Op S A K → BiInputs S A K
  | .configure (some N) (some Nr) (some H) (some Hr) => { i with model := some (N, Nr, H, Hr), ready := true }
  | .configure _ _ _ _ => { i with ready := false }
  | .setInit s => { i with init := s }
  | .setGoal s => { i with goal := s }
  | .search _ => i

/-- Inputs after a history on a planner whose default states are `s₀`. -/
def BiInputs.after (s₀ : S) (ops : List (BiPlanner.Op S A K)) : BiInputs S A K :=
  ops.foldl BiInputs.call ⟨none, false, s₀, s₀⟩

/-- What `GetPath` and `GetOptimalCost` return. -/
structure BiView (S K : Type) where
  path : Option (List S)
  cost : Option K
deriving DecidableEq

variable [LinearOrder K] [Add K] [Zero K]

/-- What the user can read after a search. -/
def biView (s : BiSearch S A K) : BiView S K := ⟨Bi.getPath s, Bi.getOptimalCost s⟩

/-- Bidirectional search for propagators `N`, `Nr` and heuristics `h`, `hr` (functions of the state alone). -/
def biResult (eqS : S → S → Bool) (graph : Bool) (fuel : Nat) (N Nr : S → List (S × A × K)) (h hr : S → K)
    (init goal : S) : Option (Status × BiView S K) :=
  (Bi.searchPath (⟨⟨eqS, fun _ => N, h, fun _ => false, fun _ _ => true⟩,
    ⟨eqS, fun _ => Nr, hr, fun _ => false, fun _ _ => true⟩⟩ : BiProblem S A K) graph fuel init goal).map
    fun r => (r.1, biView r.2)

variable [Sub K] [Div K] [OfNat K 2]

/-- What is invariant over a history. -/
private structure BTracks (st0 : HeurStore S K) (i : BiInputs S A K) (s : HeurStore S K × BiPlanner S A K) : Prop where
  ready : s.2.isInitialized = i.ready
  init : s.2.init = i.init
  goal : s.2.goal = i.goal
  model : i.ready = true → ∃ N Nr H Hr, i.model = some (N, Nr, H, Hr) ∧ s.2.fProp = some N ∧ s.2.rProp = some Nr ∧
    s.2.fHeur = some H ∧ s.2.rHeur = some Hr ∧ s.2.fAvg = BiPlanner.averaged H ∧ s.2.rAvg = BiPlanner.averaged Hr
  fn : ∀ k, (s.1.plain k).fn = (st0.plain k).fn
  parts : ∀ k, (s.1.avg k).toGoal = (st0.avg k).toGoal ∧ (s.1.avg k).toInit = (st0.avg k).toInit

private theorem setGoal_fn (st : HeurStore S K) (r : HRef) (g : S) (k : Nat) :
    ((st.setGoal r g).plain k).fn = (st.plain k).fn := by
  cases r with
  | plain i =>
    show (if k = i then (st.plain i).setGoal g else st.plain k).fn = _
    split
    · rename_i h; rw [h]; rfl
    · rfl
  | avg i => rfl

private theorem setGoal_avg (st : HeurStore S K) (r : HRef) (g : S) : (st.setGoal r g).avg = st.avg := by
  cases r <;> rfl

private theorem update_parts (st : HeurStore S K) (i : Nat) (g : S) (k : Nat) :
    ((st.update i g).avg k).toGoal = (st.avg k).toGoal ∧ ((st.update i g).avg k).toInit = (st.avg k).toInit := by
  show (if k = i then _ else st.avg k : AvgObj K).toGoal = _ ∧ (if k = i then _ else st.avg k : AvgObj K).toInit = _
  split
  · rename_i h; rw [h]; exact ⟨rfl, rfl⟩
  · exact ⟨rfl, rfl⟩

private theorem averages_plain (p : BiPlanner S A K) (st : HeurStore S K) : (p.updateAverages st).plain = st.plain := by
  unfold BiPlanner.updateAverages
  split <;> rfl

private theorem averages_parts (p : BiPlanner S A K) (st : HeurStore S K) (k : Nat) :
    ((p.updateAverages st).avg k).toGoal = (st.avg k).toGoal ∧
      ((p.updateAverages st).avg k).toInit = (st.avg k).toInit := by
  unfold BiPlanner.updateAverages
  split
  · rename_i i j _ _
    obtain ⟨h1, h2⟩ := update_parts (st.update i p.goal) j p.init k
    obtain ⟨h3, h4⟩ := update_parts st i p.goal k
    exact ⟨h1.trans h3, h2.trans h4⟩
  · exact ⟨rfl, rfl⟩

private theorem btracks_call {eqS : S → S → Bool} {graph : Bool} {st0 : HeurStore S K} {i : BiInputs S A K}
    {s s' : HeurStore S K × BiPlanner S A K} (t : BTracks st0 i s) (o : BiPlanner.Op S A K)
    (h : BiPlanner.call eqS graph s o = some s') : BTracks st0 (i.call o) s' := by
  cases o with
  | configure N Nr H Hr =>
    cases N <;> cases Nr <;> cases H <;> cases Hr <;> cases h <;>
      first
      | exact ⟨rfl, t.init, t.goal, fun _ => ⟨_, _, _, _, rfl, rfl, rfl, rfl, rfl, rfl, rfl⟩, t.fn, t.parts⟩
      | exact ⟨rfl, t.init, t.goal, fun h => absurd (show false = true from h) (by decide), t.fn, t.parts⟩
  | setInit x => cases h; exact ⟨t.ready, rfl, t.goal, t.model, t.fn, t.parts⟩
  | setGoal x => cases h; exact ⟨t.ready, t.init, rfl, t.model, t.fn, t.parts⟩
  | search fuel =>
    simp only [BiPlanner.call, BiPlanner.searchPath, Option.map_eq_some_iff] at h
    obtain ⟨⟨status, st, p⟩, h, rfl⟩ := h
    split at h
    · split at h
      · split at h
        · cases h
          refine ⟨t.ready, t.init, t.goal, t.model, fun k => ?_, fun k => ?_⟩
          · rw [setGoal_fn, setGoal_fn, averages_plain]; exact t.fn k
          · rw [setGoal_avg, setGoal_avg]
            obtain ⟨h1, h2⟩ := averages_parts s.2 s.1 k
            exact ⟨h1.trans (t.parts k).1, h2.trans (t.parts k).2⟩
        · cases h
      · cases h
    · cases h; exact ⟨t.ready, t.init, t.goal, t.model, t.fn, t.parts⟩

private theorem btracks_run {eqS : S → S → Bool} {graph : Bool} {st0 : HeurStore S K} (ops : List (BiPlanner.Op S A K)) :
    ∀ {i : BiInputs S A K} {s s' : HeurStore S K × BiPlanner S A K}, BTracks st0 i s →
    BiPlanner.run eqS graph s ops = some s' → BTracks st0 (ops.foldl BiInputs.call i) s' := by
  induction ops with
  | nil => intro i s s' ht h; cases h; exact ht
  | cons o os ih =>
    intro i s s' ht h
    simp only [BiPlanner.run] at h
    split at h
    · rename_i q hq; exact ih (btracks_call ht o hq) h
    · cases h

/-- The search of a planner after a history. -/
private theorem search_eq {eqS : S → S → Bool} {graph : Bool} {st0 : HeurStore S K} {s₀ : S}
    {ops : List (BiPlanner.Op S A K)} {s : HeurStore S K × BiPlanner S A K}
    (hrun : BiPlanner.run eqS graph (st0, .new s₀) ops = some s) {N Nr : S → List (S × A × K)} {H Hr : HRef} {init goal : S}
    (hin : BiInputs.after s₀ ops = ⟨some (N, Nr, H, Hr), true, init, goal⟩) (fuel : Nat) :
    BTracks st0 ⟨some (N, Nr, H, Hr), true, init, goal⟩ s ∧ s.2.fAvg = BiPlanner.averaged H ∧
    s.2.rAvg = BiPlanner.averaged Hr ∧
    (s.2.searchPath eqS graph fuel s.1).map (fun r => (r.1, biView r.2.2.search)) =
      biResult eqS graph fuel N Nr ((((s.2.updateAverages s.1).setGoal H goal).setGoal Hr init).value H)
        ((((s.2.updateAverages s.1).setGoal H goal).setGoal Hr init).value Hr) init goal := by
  have t : BTracks st0 (BiInputs.after s₀ ops) s := btracks_run ops
    ⟨rfl, rfl, rfl, fun h => absurd (show false = true from h) (by decide), fun _ => rfl, fun _ => ⟨rfl, rfl⟩⟩ hrun
  rw [hin] at t
  obtain ⟨N', Nr', H', Hr', hm, h1, h2, h3, h4, h5, h6⟩ := t.model rfl
  cases hm
  refine ⟨t, h5, h6, ?_⟩
  have hi : s.2.init = init := t.init
  have hg : s.2.goal = goal := t.goal
  have hr : s.2.isInitialized = true := t.ready
  unfold BiPlanner.searchPath biResult
  rw [if_pos hr, h1, h2, h3, h4, hi, hg]
  dsimp only
  split
  · rename_i heq
    rw [heq]; rfl
  · rename_i heq
    rw [heq]; rfl

/-- C99, partial: after any history of calls, if the two heuristics are different plain objects, `SearchPath` is the
bidirectional search in which the forward heuristic estimates the cost to the goal in force and the reverse heuristic the
cost to the start in force. -/
theorem C99_each_heuristic_has_its_goal_partial (eqS : S → S → Bool) (graph : Bool) (st0 : HeurStore S K) (s₀ : S)
    (ops : List (BiPlanner.Op S A K)) (st : HeurStore S K) (p : BiPlanner S A K)
    (hrun : BiPlanner.run eqS graph (st0, .new s₀) ops = some (st, p)) (N Nr : S → List (S × A × K)) (i j : Nat)
    (init goal : S) (hin : BiInputs.after s₀ ops = ⟨some (N, Nr, .plain i, .plain j), true, init, goal⟩) (hij : i ≠ j)
    (fuel : Nat) :
    (p.searchPath eqS graph fuel st).map (fun r => (r.1, biView r.2.2.search)) =
      biResult eqS graph fuel N Nr (fun s => (st0.plain i).fn s goal) (fun s => (st0.plain j).fn s init) init goal := by
  obtain ⟨t, -, -, h⟩ := search_eq hrun hin fuel
  rw [h]
  congr 1
  · funext s
    show (if i = j then _ else if i = i then _ else _ : HPart S K).value s = _
    rw [if_neg hij, if_pos rfl]
    rw [averages_plain]
    exact congrFun (congrFun (t.fn i) s) goal
  · funext s
    show (if j = j then _ else _ : HPart S K).value s = _
    rw [if_pos rfl]
    show (if j = i then _ else _ : HPart S K).fn s init = _
    rw [if_neg (Ne.symm hij), averages_plain]
    exact congrFun (congrFun (t.fn j) s) init

/-- C99 is violated: if the same heuristic object is given for both directions, the forward search estimates the cost to its
own start. -/
theorem C99_shared_heuristic (eqS : S → S → Bool) (graph : Bool) (st0 : HeurStore S K) (s₀ : S)
    (ops : List (BiPlanner.Op S A K)) (st : HeurStore S K) (p : BiPlanner S A K)
    (hrun : BiPlanner.run eqS graph (st0, .new s₀) ops = some (st, p)) (N Nr : S → List (S × A × K)) (i : Nat)
    (init goal : S) (hin : BiInputs.after s₀ ops = ⟨some (N, Nr, .plain i, .plain i), true, init, goal⟩) (fuel : Nat) :
    (p.searchPath eqS graph fuel st).map (fun r => (r.1, biView r.2.2.search)) =
      biResult eqS graph fuel N Nr (fun s => (st0.plain i).fn s init) (fun s => (st0.plain i).fn s init) init goal := by
  obtain ⟨t, -, -, h⟩ := search_eq hrun hin fuel
  rw [h]
  have : ((((p.updateAverages st).setGoal (.plain i) goal).setGoal (.plain i) init).value (.plain i)) =
      fun s => (st0.plain i).fn s init := by
    funext s
    show (if i = i then _ else _ : HPart S K).value s = _
    rw [if_pos rfl]
    show (if i = i then _ else _ : HPart S K).fn s init = _
    rw [if_pos rfl, averages_plain]
    exact congrFun (congrFun (t.fn i) s) init
  rw [this]

/-! ### C100 -/

private theorem search_shape {eqS : S → S → Bool} {graph : Bool} {fuel : Nat} {st st' : HeurStore S K}
    {p p' : BiPlanner S A K} {status : Status} (h : p.searchPath eqS graph fuel st = some (status, st', p')) :
    (p.isInitialized = false ∧ status = .failure ∧ st' = st ∧ p' = p) ∨
    (p.isInitialized = true ∧ ∃ (N Nr : S → List (S × A × K)) (h hr : S → K), p.fProp = some N ∧ p.rProp = some Nr ∧
      Bi.searchPath (⟨⟨eqS, fun _ => N, h, fun _ => false, fun _ _ => true⟩,
        ⟨eqS, fun _ => Nr, hr, fun _ => false, fun _ _ => true⟩⟩ : BiProblem S A K) graph fuel p.init p.goal =
        some (status, p'.search)) := by
  unfold BiPlanner.searchPath at h
  split at h
  · rename_i hi
    split at h
    · rename_i N Nr H Hr h1 h2 _ _
      dsimp only at h
      split at h
      · rename_i heq
        cases h
        exact .inr ⟨hi, N, Nr, _, _, h1, h2, heq⟩
      · cases h
    · cases h
  · rename_i hi
    cases h
    exact .inl ⟨by simpa using hi, rfl, rfl, rfl⟩

/-- The steps that a propagator offers. -/
def Offers (N : S → List (S × A × K)) (u : S) (a : A) (c : K) (v : S) : Prop := (v, a, c) ∈ N u

private theorem route_offers {N : S → List (S × A × K)} {P : Problem S A K} (hP : P.nbrs = fun _ => N) {u v : S}
    {l : List (A × K × S)} (h : Route P.tr u l v) : Route (Offers N) u l v := by
  induction h with
  | nil => exact .nil
  | snoc _ hs ih =>
    obtain ⟨k, hk⟩ := hs
    rw [hP] at hk
    exact .snoc ih hk

/-- C100. After any history of calls, whatever the heuristics (shared or not), a successful `SearchPath` reports a forward
route from the start in force and a reverse route from the goal in force, along the propagators of the last accepted
`Initialize`, that meet in equal states, and the sum of their costs. -/
theorem C100_success_for_inputs_in_force (eqS : S → S → Bool) (he : KeyEquiv eqS) (graph : Bool) (st0 : HeurStore S K)
    (s₀ : S) (ops : List (BiPlanner.Op S A K)) (st st' : HeurStore S K) (p p' : BiPlanner S A K)
    (hrun : BiPlanner.run eqS graph (st0, .new s₀) ops = some (st, p)) (fuel : Nat)
    (h : p.searchPath eqS graph fuel st = some (.success, st', p')) :
    ∃ N Nr H Hr init goal, BiInputs.after s₀ ops = ⟨some (N, Nr, H, Hr), true, init, goal⟩ ∧
      ∃ fsteps m rsteps m', Route (Offers N) init fsteps m ∧ Route (Offers Nr) goal rsteps m' ∧ eqS m m' = true ∧
        biView p'.search = ⟨some (routeStates init fsteps ++ (routeStates goal rsteps).reverse),
          some (routeCost fsteps + routeCost rsteps)⟩ := by
  have t : BTracks st0 (BiInputs.after s₀ ops) (st, p) := btracks_run ops
    ⟨rfl, rfl, rfl, fun h => absurd (show false = true from h) (by decide), fun _ => rfl, fun _ => ⟨rfl, rfl⟩⟩ hrun
  rcases search_shape h with ⟨-, h, -⟩ | ⟨hi, N, Nr, hf, hr, h1, h2, hs⟩
  · cases h
  · have hrd : (BiInputs.after s₀ ops).ready = true := t.ready ▸ hi
    obtain ⟨N', Nr', H, Hr, hm, h3, h4, -⟩ := t.model hrd
    have e1 : N' = N := Option.some.inj (h3.symm.trans h1)
    have e2 : Nr' = Nr := Option.some.inj (h4.symm.trans h2)
    subst e1; subst e2
    refine ⟨N', Nr', H, Hr, p.init, p.goal, ?_, ?_⟩
    · have hti : p.init = _ := t.init
      have htg : p.goal = _ := t.goal
      rw [hti, htg, ← hm, ← hrd]
    · obtain ⟨fs, m, rs, m', r1, r2, r3, r4, r5⟩ := C15_bidirectional_cost_matches_path
        ⟨he, rfl, fun _ => rfl, fun _ => rfl⟩ hs
      exact ⟨fs, m, rs, m', route_offers rfl r1, route_offers rfl r2, r3, by rw [biView, r4, r5]⟩

/-- C100. After any history of calls that leaves the planner initialised, a failed `SearchPath` reports an empty path and an
infinite cost. -/
theorem C100_failure_reports_nothing (eqS : S → S → Bool) (he : KeyEquiv eqS) (graph : Bool) (st0 : HeurStore S K)
    (s₀ : S) (ops : List (BiPlanner.Op S A K)) (st st' : HeurStore S K) (p p' : BiPlanner S A K)
    (hrun : BiPlanner.run eqS graph (st0, .new s₀) ops = some (st, p))
    (hin : (BiInputs.after s₀ ops).ready = true) (fuel : Nat)
    (h : p.searchPath eqS graph fuel st = some (.failure, st', p')) : biView p'.search = ⟨some [], none⟩ := by
  have t : BTracks st0 (BiInputs.after s₀ ops) (st, p) := btracks_run ops
    ⟨rfl, rfl, rfl, fun h => absurd (show false = true from h) (by decide), fun _ => rfl, fun _ => ⟨rfl, rfl⟩⟩ hrun
  rcases search_shape h with ⟨hi, -⟩ | ⟨hi, N, Nr, hf, hr, h1, h2, hs⟩
  · rw [show p.isInitialized = _ from t.ready, hin] at hi; cases hi
  · have w : Bi.Wf (⟨⟨eqS, fun _ => N, hf, fun _ => false, fun _ _ => true⟩,
        ⟨eqS, fun _ => Nr, hr, fun _ => false, fun _ _ => true⟩⟩ : BiProblem S A K) :=
      ⟨he, rfl, fun _ => rfl, fun _ => rfl⟩
    obtain ⟨inv, _, h | h⟩ := Bi.loop_spec w (fun _ => True) (by intros; trivial)
      (by intros; trivial) _ fuel _ _ _ (Bi.binv_init w graph p.init p.goal) trivial
      (by intro h; exact absurd rfl h) hs
    · rcases inv.meet with ⟨_, i1, i2⟩ | ⟨x, y, _, _, _, _, _, i3⟩
      · simp [biView, Bi.getPath, Bi.getOptimalCost, AStar.getPath, AStar.getOptimalCost, i1, i2]
      · simp_all
    · cases h.1

/-- C100. A planner that is not initialised (never, or by an `Initialize` that was rejected) fails and changes nothing: the
getters go on describing the last search. -/
theorem C100_not_initialized (eqS : S → S → Bool) (graph : Bool) (st0 : HeurStore S K)
    (s₀ : S) (ops : List (BiPlanner.Op S A K)) (st : HeurStore S K) (p : BiPlanner S A K)
    (hrun : BiPlanner.run eqS graph (st0, .new s₀) ops = some (st, p))
    (hin : (BiInputs.after s₀ ops).ready = false) (fuel : Nat) :
    p.searchPath eqS graph fuel st = some (.failure, st, p) := by
  have t : BTracks st0 (BiInputs.after s₀ ops) (st, p) := btracks_run ops
    ⟨rfl, rfl, rfl, fun h => absurd (show false = true from h) (by decide), fun _ => rfl, fun _ => ⟨rfl, rfl⟩⟩ hrun
  have hi : p.isInitialized = false := t.ready.trans hin
  unfold BiPlanner.searchPath
  rw [hi]; rfl

/-- C100. `Initialize` succeeds exactly when no argument is null. -/
theorem C100_initialize_accepts (p : BiPlanner S A K) (N Nr : Option (S → List (S × A × K))) (H Hr : Option HRef) :
    (p.configure N Nr H Hr).2 = (N.isSome && Nr.isSome && H.isSome && Hr.isSome) ∧
    (p.configure N Nr H Hr).1.search = p.search ∧ (p.configure N Nr H Hr).1.isInitialized = (p.configure N Nr H Hr).2 := by
  cases N <;> cases Nr <;> cases H <;> cases Hr <;> exact ⟨rfl, rfl, rfl⟩

end

section
variable {S A K : Type} [Field K] [LinearOrder K] [IsStrictOrderedRing K]

/-- C99, averaged pairs (partial: the goals stored in the parts are not those of the search, C17): after any history,
`SearchPath` uses the averages of the two parts, with the constants for the start and the goal in force. -/
theorem C99_averaged_partial (eqS : S → S → Bool) (graph : Bool) (st0 : HeurStore S K) (s₀ : S)
    (ops : List (BiPlanner.Op S A K)) (st : HeurStore S K) (p : BiPlanner S A K)
    (hrun : BiPlanner.run eqS graph (st0, .new s₀) ops = some (st, p)) (N Nr : S → List (S × A × K)) (a b i j : Nat)
    (init goal : S) (hin : BiInputs.after s₀ ops = ⟨some (N, Nr, .avg a, .avg b), true, init, goal⟩) (hab : a ≠ b)
    (ha : (st0.avg a).toGoal = i ∧ (st0.avg a).toInit = j) (hb : (st0.avg b).toGoal = j ∧ (st0.avg b).toInit = i)
    (fuel : Nat) :
    (p.searchPath eqS graph fuel st).map (fun r => (r.1, biView r.2.2.search)) =
      biResult eqS graph fuel N Nr
        (fun s => ((st.plain i).value s + ((st.plain j).value goal - (st.plain j).value s)) / 2)
        (fun s => ((st.plain j).value s + ((st.plain i).value init - (st.plain i).value s)) / 2) init goal := by
  obtain ⟨t, ha1, hb1, h⟩ := search_eq hrun hin fuel
  have pa := t.parts a
  have pb := t.parts b
  rw [ha.1, ha.2] at pa
  rw [hb.1, hb.2] at pb
  have hi : p.init = init := t.init
  have hg : p.goal = goal := t.goal
  have hfa : p.fAvg = some a := ha1
  have hfb : p.rAvg = some b := hb1
  have hup : p.updateAverages st = (st.update a goal).update b init := by
    unfold BiPlanner.updateAverages
    rw [hfa, hfb, hi, hg]
  have eb : ((st.update a goal).update b init).avg b = ⟨j, i, (st.plain i).value init / 2⟩ := by
    show (if b = b then _ else _ : AvgObj K) = _
    rw [if_pos rfl]
    have : (st.update a goal).avg b = st.avg b := by
      show (if b = a then _ else _ : AvgObj K) = _
      rw [if_neg (Ne.symm hab)]
    rw [this]
    obtain ⟨q1, q2⟩ := pb
    dsimp only at q1 q2
    rw [q1, q2]
    rfl
  have ea : ((st.update a goal).update b init).avg a = ⟨i, j, (st.plain j).value goal / 2⟩ := by
    show (if a = b then _ else _ : AvgObj K) = _
    rw [if_neg hab]
    show (if a = a then _ else _ : AvgObj K) = _
    rw [if_pos rfl]
    obtain ⟨q1, q2⟩ := pa
    dsimp only at q1 q2
    rw [q1, q2]
  have hpl : ((st.update a goal).update b init).plain = st.plain := rfl
  rw [h, hup]
  congr 1
  · funext s
    show (((st.update a goal).update b init).avg a).const + ((((st.update a goal).update b init).plain
      (((st.update a goal).update b init).avg a).toGoal).value s - (((st.update a goal).update b init).plain
      (((st.update a goal).update b init).avg a).toInit).value s) / 2 = _
    rw [ea, hpl]
    ring
  · funext s
    show (((st.update a goal).update b init).avg b).const + ((((st.update a goal).update b init).plain
      (((st.update a goal).update b init).avg b).toGoal).value s - (((st.update a goal).update b init).plain
      (((st.update a goal).update b init).avg b).toInit).value s) / 2 = _
    rw [eb, hpl]
    ring

/-- C99 is violated: the pair averaged from one heuristic object (as in `example_a_star_grid.py`) does not guide the search:
both heuristics are constant. -/
theorem C99_average_of_one_heuristic (eqS : S → S → Bool) (graph : Bool) (st0 : HeurStore S K) (s₀ : S)
    (ops : List (BiPlanner.Op S A K)) (st : HeurStore S K) (p : BiPlanner S A K)
    (hrun : BiPlanner.run eqS graph (st0, .new s₀) ops = some (st, p)) (N Nr : S → List (S × A × K)) (a b i : Nat)
    (init goal : S) (hin : BiInputs.after s₀ ops = ⟨some (N, Nr, .avg a, .avg b), true, init, goal⟩) (hab : a ≠ b)
    (ha : (st0.avg a).toGoal = i ∧ (st0.avg a).toInit = i) (hb : (st0.avg b).toGoal = i ∧ (st0.avg b).toInit = i)
    (fuel : Nat) : ∃ c c' : K,
    (p.searchPath eqS graph fuel st).map (fun r => (r.1, biView r.2.2.search)) =
      biResult eqS graph fuel N Nr (fun _ => c) (fun _ => c') init goal := by
  refine ⟨(st.plain i).value goal / 2, (st.plain i).value init / 2, ?_⟩
  rw [C99_averaged_partial eqS graph st0 s₀ ops st p hrun N Nr a b i i init goal hin hab ha hb fuel]
  congr 1
  · funext s; ring
  · funext s; ring

/-- C16 for the planner object, partial (C16 is violated, `C16_bidirectional_not_optimal`): after any history, if the
heuristics are different plain objects, non-negative and consistent for the goals in force and the reverse one is 0 at the
start in force, then a graph search succeeds with at most twice the cost of any route to the goal, less the reverse estimate
at the goal. -/
theorem C16_planner_bound_partial (eqS : S → S → Bool) (heq : ∀ a b, eqS a b = true ↔ a = b) (st0 : HeurStore S K)
    (s₀ : S) (ops : List (BiPlanner.Op S A K)) (st : HeurStore S K) (p : BiPlanner S A K)
    (hrun : BiPlanner.run eqS true (st0, .new s₀) ops = some (st, p)) (N Nr : S → List (S × A × K)) (i j : Nat)
    (init goal : S) (hin : BiInputs.after s₀ ops = ⟨some (N, Nr, .plain i, .plain j), true, init, goal⟩) (hij : i ≠ j)
    (hNr : ∀ u a c v, Reachable (Offers N) init u → Offers N u a c v → ∃ a', Offers Nr v a' c u)
    (hN : ∀ u a c v, Reachable (Offers Nr) goal u → Offers Nr u a c v → ∃ a', Offers N v a' c u)
    (h0 : ∀ s, 0 ≤ (st0.plain i).fn s goal) (h0r : ∀ s, 0 ≤ (st0.plain j).fn s init)
    (hcf : ∀ u a c v, Offers N u a c v → (st0.plain i).fn u goal ≤ c + (st0.plain i).fn v goal)
    (hcr : ∀ u a c v, Offers Nr u a c v → (st0.plain j).fn u init ≤ c + (st0.plain j).fn v init)
    (hz : (st0.plain j).fn init init = 0)
    (fuel : Nat) (v : BiView S K)
    (h : (p.searchPath eqS true fuel st).map (fun r => (r.1, biView r.2.2.search)) = some (.success, v)) :
    ∃ c, v.cost = some c ∧ ∀ steps, Route (Offers N) init steps goal →
      c ≤ 2 * routeCost steps - (st0.plain j).fn goal init := by
  rw [C99_each_heuristic_has_its_goal_partial eqS true st0 s₀ ops st p hrun N Nr i j init goal hin hij fuel] at h
  unfold biResult at h
  obtain ⟨B, hB⟩ : ∃ B : BiProblem S A K, B = ⟨⟨eqS, fun _ => N, fun s => (st0.plain i).fn s goal, fun _ => false,
    fun _ _ => true⟩, ⟨eqS, fun _ => Nr, fun s => (st0.plain j).fn s init, fun _ => false, fun _ _ => true⟩⟩ := ⟨_, rfl⟩
  rw [← hB, Option.map_eq_some_iff] at h
  obtain ⟨⟨status, s⟩, hs, h⟩ := h
  simp only [Prod.mk.injEq] at h
  obtain ⟨rfl, rfl⟩ := h
  have htr : ∀ u a c v, B.fwd.tr u a c v ↔ Offers N u a c v := by
    intro u a c v; subst hB; exact ⟨fun ⟨_, h⟩ => h, fun h => ⟨0, h⟩⟩
  have hrr : ∀ u a c v, B.rev.tr u a c v ↔ Offers Nr u a c v := by
    intro u a c v; subst hB; exact ⟨fun ⟨_, h⟩ => h, fun h => ⟨0, h⟩⟩
  have etr : B.fwd.tr = Offers N := funext fun u => funext fun a => funext fun c => funext fun v => propext (htr u a c v)
  have err : B.rev.tr = Offers Nr := funext fun u => funext fun a => funext fun c => funext fun v => propext (hrr u a c v)
  have he : KeyEquiv eqS := ⟨fun a => (heq a a).mpr rfl, fun a b h => (heq b a).mpr ((heq a b).mp h).symm,
    fun a b c h1 h2 => (heq a c).mpr (((heq a b).mp h1).trans ((heq b c).mp h2))⟩
  have w : Bi.Wf B := by subst hB; exact ⟨he, rfl, fun _ => rfl, fun _ => rfl⟩
  have hresp : ∀ P : Problem S A K, P.eqS = eqS → P.Respects := by
    intro P hP
    refine ⟨fun u u' h => ?_, fun u u' h => ?_, fun u u' h v a c hv => ?_⟩ <;> rw [hP, heq] at h <;> subst h
    · rfl
    · rfl
    · exact ⟨v, a, hv, by rw [hP, heq]⟩
  obtain ⟨c, hc, hb⟩ := C16_bidirectional_bound_partial w
    ⟨by rw [etr, err]; exact hNr, by rw [etr, err]; exact hN⟩
    (by subst hB; exact fun _ _ => rfl) (by subst hB; exact fun _ _ => rfl)
    (hresp _ (by rw [hB])) (hresp _ (by rw [hB])) (by subst hB; exact fun _ _ => rfl) (by subst hB; exact fun _ _ => rfl)
    (fun u a c v h => by
      have := hcf u a c v ((htr u a c v).mp h)
      subst hB; exact this)
    (fun u a c v h => by
      have := hcr u a c v ((hrr u a c v).mp h)
      subst hB; exact this)
    0 0 (by rw [add_zero]) (fun u => by subst hB; exact h0 u) (fun u => by subst hB; exact h0r u) hs
  refine ⟨c, hc, fun steps hst => ?_⟩
  have hst' : Route B.fwd.tr init steps goal := by
    rwa [etr]
  have := hb steps hst'
  have e1 : B.rev.h goal = (st0.plain j).fn goal init := by subst hB; rfl
  have e2 : B.rev.h init = 0 := by subst hB; exact hz
  rw [e1, e2] at this
  linarith

end

/-! ### Non-vacuity -/

section Example

private def lineN : Int → List (Int × Unit × Rat) := fun u => [(u + 1, (), 1), (u - 1, (), 1)]
private def lineD : Int → Int → Rat := fun a b => |((a - b : Int) : Rat)|
private def lineEq : Int → Int → Bool := fun a b => decide (a = b)
/-- Two distance heuristics and, from them, an averaged pair; averages 2 and 3 are made of the heuristic 0 alone. -/
private def lineSt : HeurStore Int Rat :=
  { plain := fun _ => ⟨lineD, 0⟩
    avg := fun k => if k = 0 then ⟨0, 1, 0⟩ else if k = 1 then ⟨1, 0, 0⟩ else ⟨0, 0, 0⟩ }

/-- A search, a rejected `Initialize`, another `Initialize`, another goal. -/
private def lineOps (H Hr : HRef) : List (BiPlanner.Op Int Unit Rat) :=
  [.search 1, .configure (some lineN) (some lineN) (some (.plain 0)) (some (.plain 1)), .setGoal 2, .search 10,
   .configure (some lineN) none (some H) (some Hr), .search 10,
   .configure (some lineN) (some lineN) (some H) (some Hr), .setInit 1, .setGoal 4]

private def lineGo (ops : List (BiPlanner.Op Int Unit Rat)) : Option (Status × BiView Int Rat) :=
  (BiPlanner.run lineEq true (lineSt, .new 0) ops).bind fun s =>
    (s.2.searchPath lineEq true 20 s.1).map fun r => (r.1, biView r.2.2.search)

/-- Distinct heuristics: the hypotheses of `C99_each_heuristic_has_its_goal_partial`, `C16_planner_bound_partial` and
`C100_success_for_inputs_in_force` are met, with a successful search. -/
example : ((BiPlanner.run lineEq true (lineSt, .new 0) (lineOps (.plain 0) (.plain 1))).isSome = true ∧
    BiInputs.after 0 (lineOps (.plain 0) (.plain 1)) = ⟨some (lineN, lineN, .plain 0, .plain 1), true, 1, 4⟩) ∧
    (lineGo (lineOps (.plain 0) (.plain 1))).map (fun r => (r.1, r.2.cost)) = some (.success, some 3) ∧
    (∀ a b, lineEq a b = true ↔ a = b) ∧
    (∀ u a c v, Offers lineN u a c v → ∃ a', Offers lineN v a' c u) ∧
    (∀ g s, 0 ≤ (lineSt.plain 0).fn s g) ∧ (∀ g, (lineSt.plain 1).fn g g = 0) ∧
    (∀ g u a c v, Offers lineN u a c v → (lineSt.plain 0).fn u g ≤ c + (lineSt.plain 0).fn v g) := by
  have htr : ∀ u (a : Unit) (c : Rat) v, Offers lineN u a c v ↔ c = 1 ∧ (v = u + 1 ∨ v = u - 1) := by
    intro u a c v
    simp only [Offers, lineN, List.mem_cons, Prod.mk.injEq, List.not_mem_nil, or_false]
    tauto
  refine ⟨⟨by decide +kernel, rfl⟩, by decide +kernel, fun a b => by simp [lineEq], ?_, fun g s => abs_nonneg _,
    fun g => by simp [lineSt, lineD], ?_⟩
  · intro u a c v h
    obtain ⟨h1, h2⟩ := (htr u a c v).mp h
    exact ⟨(), (htr v () c u).mpr ⟨h1, by omega⟩⟩
  · intro g u a c v h
    obtain ⟨rfl, h2⟩ := (htr u a c v).mp h
    show |((u - g : Int) : Rat)| ≤ 1 + |((v - g : Int) : Rat)|
    have h3 : |((u - v : Int) : Rat)| = 1 := by
      rcases h2 with rfl | rfl <;> norm_num
    have h4 : ((u - g : Int) : Rat) = ((u - v : Int) : Rat) + ((v - g : Int) : Rat) := by push_cast; ring
    rw [h4, ← h3]
    exact abs_add_le _ _

/-- One heuristic for both directions, an averaged pair, and the average of one heuristic. -/
example : (∀ q ∈ [(HRef.plain 0, HRef.plain 0), (.avg 0, .avg 1), (.avg 2, .avg 3)],
      (BiPlanner.run lineEq true (lineSt, .new 0) (lineOps q.1 q.2)).isSome = true ∧
      (lineGo (lineOps q.1 q.2)).map (fun r => (r.1, r.2.cost)) = some (.success, some 3)) ∧
    BiInputs.after 0 (lineOps (.avg 0) (.avg 1)) = ⟨some (lineN, lineN, .avg 0, .avg 1), true, 1, 4⟩ ∧
    ((lineSt.avg 0).toGoal = 0 ∧ (lineSt.avg 0).toInit = 1) ∧ ((lineSt.avg 1).toGoal = 1 ∧ (lineSt.avg 1).toInit = 0) ∧
    ((lineSt.avg 2).toGoal = 0 ∧ (lineSt.avg 2).toInit = 0) ∧ ((lineSt.avg 3).toGoal = 0 ∧ (lineSt.avg 3).toInit = 0) := by
  exact ⟨by decide +kernel, rfl, ⟨rfl, rfl⟩, ⟨rfl, rfl⟩, ⟨rfl, rfl⟩, ⟨rfl, rfl⟩⟩

/-- A failed search (nothing can be reached), and a planner whose `Initialize` was rejected after a successful search: it
fails and the getters still return the old path. -/
example : lineGo [.configure (some fun _ => []) (some fun _ => []) (some (.plain 0)) (some (.plain 1)), .setGoal 2] =
      some (.failure, ⟨some [], none⟩) ∧
    (lineGo [.configure (some lineN) (some lineN) (some (.plain 0)) (some (.plain 1)), .setGoal 2, .search 10,
      .configure (some lineN) none (some (.plain 0)) (some (.plain 1))]).map (fun r => (r.1, r.2.cost)) =
      some (.failure, some 2) := by
  decide +kernel

end Example
end PathPlanning
