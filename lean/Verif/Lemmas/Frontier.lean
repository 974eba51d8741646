import Verif.Model.Frontier
import Verif.Spec.Frontier
import Mathlib.Data.List.Basic
import Mathlib.Data.List.Perm.Basic
import Mathlib.Data.List.Pairwise
import Mathlib.Data.List.Induction
import Mathlib.Order.Basic
import Mathlib.Tactic.Common

namespace PathPlanning
open Spec

variable {T : Type} {cmp eqv : T → T → Bool}

namespace Spec.StrictWeakOrder

theorem asymm (h : StrictWeakOrder cmp) {a b : T} (hab : cmp a b = true) : cmp b a = false := by
  cases hba : cmp b a with
  | false => rfl
  | true =>
    have h1 := h.trans a b a hab hba
    rw [h.irrefl a] at h1
    cases h1

theorem negtrans (h : StrictWeakOrder cmp) {a b c : T} (hab : cmp a b = false)
    (hbc : cmp b c = false) : cmp a c = false := by
  cases hac : cmp a c with
  | false => rfl
  | true =>
    exfalso
    cases hba : cmp b a with
    | true =>
      have := h.trans b a c hba hac
      rw [hbc] at this; cases this
    | false =>
      cases hcb : cmp c b with
      | true =>
        have := h.trans a c b hac hcb
        rw [hab] at this; cases this
      | false =>
        have := (h.incomp_trans a b c ⟨hab, hba⟩ ⟨hbc, hcb⟩).1
        rw [hac] at this; cases this

theorem lt_of_lt_of_not_lt (h : StrictWeakOrder cmp) {a b c : T} (hab : cmp a b = true)
    (hcb : cmp c b = false) : cmp a c = true := by
  cases hac : cmp a c with
  | true => rfl
  | false =>
    have := h.negtrans hac hcb
    rw [hab] at this; cases this

theorem lt_of_not_lt_of_lt (h : StrictWeakOrder cmp) {a b c : T} (hba : cmp b a = false)
    (hbc : cmp b c = true) : cmp a c = true := by
  cases hac : cmp a c with
  | true => rfl
  | false =>
    have := h.negtrans hba hac
    rw [hbc] at this; cases this

end Spec.StrictWeakOrder

namespace Frontier

/-- Sorted by increasing rank (ties allowed). -/
def Sorted (cmp : T → T → Bool) (v : List T) : Prop := v.Pairwise (fun a b => cmp b a = false)

theorem Sorted.get {v : List T} (hs : Sorted cmp v) {i j : Nat} {a b : T} (hij : i < j)
    (ha : v[i]? = some a) (hb : v[j]? = some b) : cmp b a = false := by
  rw [List.getElem?_eq_some_iff] at ha hb
  obtain ⟨h1, rfl⟩ := ha
  obtain ⟨h2, rfl⟩ := hb
  exact List.pairwise_iff_getElem.1 hs i j h1 h2 hij

theorem ffLoop_spec (h : StrictWeakOrder cmp) {v : List T} (hs : Sorted cmp v) (x : T) :
    ∀ (n b e mid : Nat), e - b ≤ n → b ≤ e → e ≤ v.length → (b = e → mid = b) →
      (∀ i y, i < b → v[i]? = some y → cmp x y = false) →
      (∀ i y, e ≤ i → v[i]? = some y → cmp x y = true) →
      ffLoop cmp v x b e mid ≤ v.length ∧
      (∀ i y, i < ffLoop cmp v x b e mid → v[i]? = some y → cmp x y = false) ∧
      (∀ i y, ffLoop cmp v x b e mid ≤ i → v[i]? = some y → cmp x y = true) := by
  intro n
  induction n with
  | zero =>
    intro b e mid hn hbe hel hmid h1 h2
    have : b = e := by omega
    subst this
    rw [ffLoop]
    simp only [Nat.lt_irrefl, if_false]
    rw [hmid rfl]
    exact ⟨hel, h1, h2⟩
  | succ n ih =>
    intro b e mid hn hbe hel hmid h1 h2
    by_cases hlt : b < e
    · rw [ffLoop]
      simp only [hlt, if_true]
      have hm : b + (e - b) / 2 < e := by omega
      obtain ⟨m, hme⟩ : ∃ m, m = b + (e - b) / 2 := ⟨_, rfl⟩
      rw [← hme] at hm ⊢
      have hml : m < v.length := by omega
      have hym : v[m]? = some v[m] := List.getElem?_eq_getElem hml
      rw [hym]
      simp only
      cases hc : cmp x v[m] with
      | true =>
        simp only [if_true]
        refine ih b m m (by omega) (by omega) (by omega) (fun hh => hh.symm) h1 ?_
        intro i y hi hy
        rcases Nat.lt_or_ge m i with hmi | hmi
        · have := hs.get hmi hym hy
          exact h.lt_of_lt_of_not_lt hc this
        · have : i = m := by omega
          subst this
          rw [hym] at hy; cases hy; exact hc
      | false =>
        simp only [Bool.false_eq_true, if_false]
        have hbelow : ∀ i y, i < m + 1 → v[i]? = some y → cmp x y = false := by
          intro i y hi hy
          rcases Nat.lt_or_ge i m with him | him
          · exact h.negtrans hc (hs.get him hy hym)
          · have : i = m := by omega
            subst this
            rw [hym] at hy; cases hy; exact hc
        cases hz : v[m + 1]? with
        | none =>
          simp only
          have hlen : v.length ≤ m + 1 := List.getElem?_eq_none_iff.1 hz
          refine ⟨by omega, hbelow, ?_⟩
          intro i y hi hy
          have : v[i]? = none := List.getElem?_eq_none_iff.2 (by omega)
          rw [this] at hy; cases hy
        | some z =>
          simp only
          cases hcz : cmp x z with
          | false =>
            simp only [Bool.not_false, if_true]
            have hne : m + 1 < e := by
              rcases Nat.lt_or_ge (m + 1) e with hh | hh
              · exact hh
              · have := h2 (m + 1) z hh hz
                rw [hcz] at this; cases this
            exact ih (m + 1) e m (by omega) (by omega) hel (by omega) hbelow h2
          | true =>
            simp only [Bool.not_true, Bool.false_eq_true, if_false]
            refine ⟨by omega, hbelow, ?_⟩
            intro i y hi hy
            rcases Nat.lt_or_ge (m + 1) i with hmi | hmi
            · exact h.lt_of_lt_of_not_lt hcz (hs.get hmi hz hy)
            · have : i = m + 1 := by omega
              subst this
              rw [hz] at hy; cases hy; exact hcz
    · have : b = e := by omega
      subst this
      rw [ffLoop]
      simp only [Nat.lt_irrefl, if_false]
      rw [hmid rfl]
      exact ⟨hel, h1, h2⟩

theorem findFirst_spec (h : StrictWeakOrder cmp) {v : List T} (hs : Sorted cmp v) (x : T) :
    findFirstCompareIsFalse cmp v x ≤ v.length ∧
      (∀ i y, i < findFirstCompareIsFalse cmp v x → v[i]? = some y → cmp x y = false) ∧
      (∀ i y, findFirstCompareIsFalse cmp v x ≤ i → v[i]? = some y → cmp x y = true) := by
  refine ffLoop_spec h hs x v.length 0 v.length 0 (by omega) (by omega) (Nat.le_refl _) (fun _ => rfl)
    (by intro i y hi; omega) ?_
  intro i y hi hy
  rw [List.getElem?_eq_none_iff.2 hi] at hy; cases hy

theorem flLoop_spec (h : StrictWeakOrder cmp) {v : List T} (hs : Sorted cmp v) (x : T) :
    ∀ (n b e mid : Nat), e - b ≤ n → b ≤ e → e ≤ v.length → (b = e → mid = b) →
      (∀ i y, i < b → v[i]? = some y → cmp y x = true) →
      (∀ i y, e ≤ i → v[i]? = some y → cmp y x = false) →
      (∀ i y, i < flLoop cmp v x b e mid → v[i]? = some y → cmp y x = true) := by
  intro n
  induction n with
  | zero =>
    intro b e mid hn hbe hel hmid h1 h2
    have : b = e := by omega
    subst this
    rw [flLoop]
    simp only [Nat.lt_irrefl, if_false]
    rw [hmid rfl]
    exact h1
  | succ n ih =>
    intro b e mid hn hbe hel hmid h1 h2
    by_cases hlt : b < e
    · rw [flLoop]
      simp only [hlt, if_true]
      have hm : b + (e - b) / 2 < e := by omega
      obtain ⟨m, hme⟩ : ∃ m, m = b + (e - b) / 2 := ⟨_, rfl⟩
      rw [← hme] at hm ⊢
      have hml : m < v.length := by omega
      have hym : v[m]? = some v[m] := List.getElem?_eq_getElem hml
      rw [hym]
      simp only
      cases hc : cmp v[m] x with
      | false =>
        simp only [Bool.not_false, if_true]
        refine ih b m m (by omega) (by omega) (by omega) (fun hh => hh.symm) h1 ?_
        intro i y hi hy
        rcases Nat.lt_or_ge m i with hmi | hmi
        · exact h.negtrans (hs.get hmi hym hy) hc
        · have : i = m := by omega
          subst this
          rw [hym] at hy; cases hy; exact hc
      | true =>
        simp only [Bool.not_true, Bool.false_eq_true, if_false]
        have hbelow : ∀ i y, i < m + 1 → v[i]? = some y → cmp y x = true := by
          intro i y hi hy
          rcases Nat.lt_or_ge i m with him | him
          · exact h.lt_of_not_lt_of_lt (hs.get him hy hym) hc
          · have : i = m := by omega
            subst this
            rw [hym] at hy; cases hy; exact hc
        cases hz : v[m + 1]? with
        | none =>
          simp only
          exact fun i y hi hy => hbelow i y (by omega) hy
        | some z =>
          simp only
          cases hcz : cmp z x with
          | false =>
            simp only [Bool.false_eq_true, if_false]
            exact fun i y hi hy => hbelow i y (by omega) hy
          | true =>
            simp only [if_true]
            have hne : m + 1 < e := by
              rcases Nat.lt_or_ge (m + 1) e with hh | hh
              · exact hh
              · have := h2 (m + 1) z hh hz
                rw [hcz] at this; cases this
            exact ih (m + 1) e m (by omega) (by omega) hel (by omega) hbelow h2
    · have : b = e := by omega
      subst this
      rw [flLoop]
      simp only [Nat.lt_irrefl, if_false]
      rw [hmid rfl]
      exact h1

theorem findLast_spec (h : StrictWeakOrder cmp) {v : List T} (hs : Sorted cmp v) (x : T) :
    ∀ i y, i < findLastCompareIsTrue cmp v x → v[i]? = some y → cmp y x = true := by
  refine flLoop_spec h hs x v.length 0 v.length 0 (by omega) (by omega) (Nat.le_refl _) (fun _ => rfl)
    (by intro i y hi; omega) ?_
  intro i y hi hy
  rw [List.getElem?_eq_none_iff.2 hi] at hy; cases hy

/-! ### Reference insertion -/

/-- Insert after every element that does not rank above `x`. -/
def insertUpper (cmp : T → T → Bool) (x : T) : List T → List T
  | [] => [x]
  | y :: ys => if cmp x y then x :: y :: ys else y :: insertUpper cmp x ys

theorem take_drop_eq_insertUpper (x : T) : ∀ (v : List T) (k : Nat), k ≤ v.length →
    (∀ i y, i < k → v[i]? = some y → cmp x y = false) →
    (∀ i y, k ≤ i → v[i]? = some y → cmp x y = true) →
    v.take k ++ x :: v.drop k = insertUpper cmp x v := by
  intro v
  induction v with
  | nil => intro k hk _ _; simp at hk; subst hk; rfl
  | cons y ys ih =>
    intro k hk h1 h2
    cases k with
    | zero =>
      have := h2 0 y (by omega) rfl
      simp [insertUpper, this]
    | succ k =>
      have hy := h1 0 y (by omega) rfl
      simp only [insertUpper, hy, Bool.false_eq_true, if_false, List.take_succ_cons,
        List.drop_succ_cons, List.cons_append]
      congr 1
      refine ih k (by simpa using hk) ?_ ?_
      · intro i z hi hz; exact h1 (i + 1) z (by omega) (by simpa using hz)
      · intro i z hi hz; exact h2 (i + 1) z (by omega) (by simpa using hz)

theorem insert_eq (h : StrictWeakOrder cmp) {v : List T} (hs : Sorted cmp v) (x : T) :
    v.take (findFirstCompareIsFalse cmp v x) ++ x :: v.drop (findFirstCompareIsFalse cmp v x)
      = insertUpper cmp x v := by
  obtain ⟨h0, h1, h2⟩ := findFirst_spec h hs x
  exact take_drop_eq_insertUpper x v _ h0 h1 h2

theorem insertUpper_perm (x : T) (v : List T) : (insertUpper cmp x v).Perm (x :: v) := by
  induction v with
  | nil => exact List.Perm.refl _
  | cons y ys ih =>
    unfold insertUpper
    split
    · exact List.Perm.refl _
    · exact (List.Perm.cons y ih).trans (List.Perm.swap x y ys)

theorem sorted_insertUpper (h : StrictWeakOrder cmp) (x : T) {v : List T} (hs : Sorted cmp v) :
    Sorted cmp (insertUpper cmp x v) := by
  induction v with
  | nil => simp [insertUpper, Sorted]
  | cons y ys ih =>
    have hs' := List.pairwise_cons.1 hs
    unfold insertUpper
    split
    · rename_i hc
      refine List.pairwise_cons.2 ⟨?_, hs⟩
      intro z hz
      rcases List.mem_cons.1 hz with rfl | hz
      · exact h.asymm hc
      · exact h.asymm (h.lt_of_lt_of_not_lt hc (hs'.1 z hz))
    · rename_i hc
      refine List.pairwise_cons.2 ⟨?_, ih hs'.2⟩
      intro z hz
      rcases List.mem_cons.1 ((insertUpper_perm x ys).mem_iff.1 hz) with rfl | hz
      · simpa using hc
      · exact hs'.1 z hz

/-- Stable sort of the live elements. -/
def sortStable (cmp : T → T → Bool) (live : List T) : List T :=
  live.foldl (fun v x => insertUpper cmp x v) []

theorem sortStable_append (live : List T) (x : T) :
    sortStable cmp (live ++ [x]) = insertUpper cmp x (sortStable cmp live) := by
  simp [sortStable, List.foldl_append]

theorem sorted_sortStable (h : StrictWeakOrder cmp) (live : List T) :
    Sorted cmp (sortStable cmp live) := by
  induction live using List.reverseRecOn with
  | nil => exact List.Pairwise.nil
  | append_singleton l x ih => rw [sortStable_append]; exact sorted_insertUpper h x ih

theorem sortStable_perm (live : List T) : (sortStable cmp live).Perm live := by
  induction live using List.reverseRecOn with
  | nil => exact List.Perm.refl _
  | append_singleton l x ih =>
    rw [sortStable_append]
    exact (insertUpper_perm x _).trans ((ih.cons x).trans (List.perm_append_singleton x l).symm)

theorem filter_insertUpper (h : StrictWeakOrder cmp) (p : T → Bool) (x : T) {v : List T}
    (hs : Sorted cmp v) : (insertUpper cmp x v).filter p
      = if p x then insertUpper cmp x (v.filter p) else v.filter p := by
  induction v with
  | nil => cases hp : p x <;> simp [insertUpper, hp]
  | cons y ys ih =>
    have hs' := List.pairwise_cons.1 hs
    have ih := ih hs'.2
    rw [insertUpper]
    by_cases hc : cmp x y = true
    · simp only [hc, if_true]
      cases hp : p x
      · simp [hp]
      · simp only [List.filter_cons_of_pos hp, if_true]
        cases hq : p y
        · rw [List.filter_cons_of_neg (by simp [hq])]
          have : ∀ (l : List T), (∀ z ∈ l, cmp x z = true) → insertUpper cmp x l = x :: l := by
            intro l hl
            cases l with
            | nil => rfl
            | cons z zs => simp [insertUpper, hl z (by simp)]
          rw [this]
          intro z hz
          exact h.lt_of_lt_of_not_lt hc (hs'.1 z (List.mem_of_mem_filter hz))
        · rw [List.filter_cons_of_pos hq]
          simp [insertUpper, hc]
    · simp only [hc, Bool.false_eq_true, if_false]
      cases hq : p y
      · rw [List.filter_cons_of_neg (by simp [hq]), List.filter_cons_of_neg (by simp [hq]), ih]
      · rw [List.filter_cons_of_pos hq, List.filter_cons_of_pos hq, ih]
        cases hp : p x
        · simp
        · simp [insertUpper, hc]

theorem filter_sortStable (h : StrictWeakOrder cmp) (p : T → Bool) (live : List T) :
    (sortStable cmp live).filter p = sortStable cmp (live.filter p) := by
  induction live using List.reverseRecOn with
  | nil => rfl
  | append_singleton l x ih =>
    rw [sortStable_append, filter_insertUpper h p x (sorted_sortStable h l), ih,
      List.filter_append]
    cases hp : p x
    · simp [hp]
    · simp [hp, sortStable_append]

theorem getLast?_insertUpper (h : StrictWeakOrder cmp) (x : T) {v : List T} (hs : Sorted cmp v) :
    (insertUpper cmp x v).getLast? = match v.getLast? with
      | none => some x
      | some b => if cmp x b then some b else some x := by
  induction v with
  | nil => rfl
  | cons y ys ih =>
    have hs' := List.pairwise_cons.1 hs
    have ih := ih hs'.2
    unfold insertUpper
    by_cases hc : cmp x y = true
    · simp only [hc, if_true]
      rw [List.getLast?_cons_cons]
      have hb : ∀ b, (y :: ys).getLast? = some b → cmp x b = true := by
        intro b hb
        have hb' := List.mem_of_getLast? hb
        rcases List.mem_cons.1 hb' with rfl | hb'
        · exact hc
        · exact h.lt_of_lt_of_not_lt hc (hs'.1 b hb')
      rw [List.getLast?_cons] at hb ⊢
      simp [hb _ rfl]
    · simp only [hc, Bool.false_eq_true, if_false]
      cases ys with
      | nil => simp [insertUpper, hc]
      | cons z zs =>
        have hne : insertUpper cmp x (z :: zs) ≠ [] := by
          intro h0
          have := (insertUpper_perm (cmp := cmp) x (z :: zs)).length_eq
          rw [h0] at this; simp at this
        rw [List.getLast?_cons_cons, ← ih]
        obtain ⟨w, ws, hw⟩ := List.exists_cons_of_ne_nil hne
        rw [hw, List.getLast?_cons_cons]

theorem best_append (live : List T) (x : T) : best cmp (live ++ [x]) = match best cmp live with
    | none => some x
    | some b => if cmp x b then some b else some x := by
  cases live with
  | nil => rfl
  | cons y ys =>
    simp only [best, List.cons_append, List.foldl_append, List.foldl_cons, List.foldl_nil]
    split <;> rfl

theorem getLast?_sortStable (h : StrictWeakOrder cmp) (live : List T) :
    (sortStable cmp live).getLast? = best cmp live := by
  induction live using List.reverseRecOn with
  | nil => rfl
  | append_singleton l x ih =>
    rw [sortStable_append, getLast?_insertUpper h x (sorted_sortStable h l), ih, best_append]

/-! ### Representation invariant -/

/-- No two elements have equal keys. -/
def Distinct (eqv : T → T → Bool) (l : List T) : Prop := l.Pairwise (fun a b => eqv a b = false)

/-- The container represents the live elements `live` (in insertion order). -/
structure Repr (cmp eqv : T → T → Bool) (f : Frontier T) (live : List T) : Prop where
  vec_eq : f.vec = sortStable cmp live
  set_perm : f.set.Perm live
  distinct : Distinct eqv live

theorem Distinct.perm (he : KeyEquiv eqv) {l l' : List T} (hp : l.Perm l')
    (h : Distinct eqv l) : Distinct eqv l' := by
  refine (hp.pairwise_iff ?_).1 h
  intro a b hab
  cases hba : eqv b a with
  | false => rfl
  | true => rw [he.symm b a hba] at hab; cases hab

theorem Distinct.eq_of_mem (he : KeyEquiv eqv) {l : List T} (h : Distinct eqv l) {a b : T}
    (ha : a ∈ l) (hb : b ∈ l) (hab : eqv a b = true) : a = b := by
  induction l with
  | nil => cases ha
  | cons x xs ih =>
    have h' := List.pairwise_cons.1 h
    rcases List.mem_cons.1 ha with ha1 | ha1
    · rcases List.mem_cons.1 hb with hb1 | hb1
      · rw [ha1, hb1]
      · subst ha1
        rw [h'.1 b hb1] at hab; cases hab
    · rcases List.mem_cons.1 hb with hb1 | hb1
      · subst hb1
        have := h'.1 a ha1
        rw [he.symm _ _ hab] at this; cases this
      · exact ih h'.2 ha1 hb1

theorem find?_eq_of_perm (he : KeyEquiv eqv) {l l' : List T} (hp : l.Perm l')
    (h : Distinct eqv l) (x : T) :
    l.find? (fun y => eqv y x) = l'.find? (fun y => eqv y x) := by
  cases h1 : l.find? (fun y => eqv y x) with
  | none =>
    symm
    rw [List.find?_eq_none] at h1 ⊢
    intro y hy; exact h1 y (hp.mem_iff.2 hy)
  | some a =>
    have ha := List.mem_of_find?_eq_some h1
    have ha' := List.find?_some h1
    cases h2 : l'.find? (fun y => eqv y x) with
    | none =>
      rw [List.find?_eq_none] at h2
      exact absurd ha' (h2 a (hp.mem_iff.1 ha))
    | some b =>
      have hb := hp.mem_iff.2 (List.mem_of_find?_eq_some h2)
      have hb' := List.find?_some h2
      rw [h.eq_of_mem he ha hb (he.trans _ _ _ ha' (he.symm _ _ hb'))]

theorem eraseP_eq_filter (he : KeyEquiv eqv) {l : List T} (h : Distinct eqv l) (x : T) :
    l.eraseP (fun y => eqv y x) = l.filter (fun y => !eqv y x) := by
  induction l with
  | nil => rfl
  | cons y ys ih =>
    have h' := List.pairwise_cons.1 h
    cases hc : eqv y x with
    | true =>
      rw [List.eraseP_cons_of_pos (p := fun y => eqv y x) hc,
        List.filter_cons_of_neg (by simp [hc])]
      symm
      rw [List.filter_eq_self]
      intro z hz
      have := h'.1 z hz
      cases hz' : eqv z x with
      | false => rfl
      | true => rw [he.trans _ _ _ hc (he.symm _ _ hz')] at this; cases this
    | false =>
      rw [List.eraseP_cons_of_neg (p := fun y => eqv y x) (by simp [hc]),
        List.filter_cons_of_pos (by simp [hc]), ih h'.2]

theorem repr_empty : Repr cmp eqv (Frontier.empty : Frontier T) [] :=
  ⟨rfl, List.Perm.refl _, List.Pairwise.nil⟩

theorem Repr.sorted (h : StrictWeakOrder cmp) {f : Frontier T} {live : List T}
    (r : Repr cmp eqv f live) : Sorted cmp f.vec := by
  rw [r.vec_eq]; exact sorted_sortStable h live

theorem Repr.vec_perm {f : Frontier T} {live : List T} (r : Repr cmp eqv f live) :
    f.vec.Perm live := by
  rw [r.vec_eq]; exact sortStable_perm live

theorem Repr.find_eq (he : KeyEquiv eqv) {f : Frontier T} {live : List T}
    (r : Repr cmp eqv f live) (x : T) :
    f.find eqv x = live.find? (fun y => eqv y x) :=
  find?_eq_of_perm he r.set_perm (r.distinct.perm he r.set_perm.symm) x

theorem Repr.push_new (h : StrictWeakOrder cmp) (he : KeyEquiv eqv) {f : Frontier T}
    {live : List T} (r : Repr cmp eqv f live) {x : T}
    (hx : live.find? (fun y => eqv y x) = none) :
    Repr cmp eqv (f.push cmp eqv x).1 (live ++ [x]) ∧ (f.push cmp eqv x).2 = (x, true) := by
  have hf : f.set.find? (fun y => eqv y x) = none := by
    rw [← hx]; exact r.find_eq he x
  unfold push
  rw [hf]
  refine ⟨⟨?_, ?_, ?_⟩, rfl⟩
  · show _ = _
    rw [sortStable_append, ← r.vec_eq, ← insert_eq h (r.sorted h) x]
  · exact (r.set_perm.cons x).trans (List.perm_append_singleton x live).symm
  · refine List.pairwise_append.2 ⟨r.distinct, List.pairwise_singleton _ _, ?_⟩
    intro a ha b hb
    simp only [List.mem_singleton] at hb
    subst hb
    rw [List.find?_eq_none] at hx
    simpa using hx a ha

theorem Repr.push_old (he : KeyEquiv eqv) {f : Frontier T}
    {live : List T} (r : Repr cmp eqv f live) {x y : T}
    (hx : live.find? (fun y => eqv y x) = some y) :
    f.push cmp eqv x = (f, y, false) := by
  have hf : f.set.find? (fun y => eqv y x) = some y := by
    rw [← hx]; exact r.find_eq he x
  unfold push
  rw [hf]

theorem eraseFrom_eq (h : StrictWeakOrder cmp) (he : KeyEquiv eqv) {v : List T}
    (hs : Sorted cmp v) (hd : Distinct eqv v) {s : T} (hm : s ∈ v) :
    eraseFrom eqv v (findLastCompareIsTrue cmp v s) s = v.filter (fun y => !eqv y s) := by
  unfold eraseFrom
  have hk := findLast_spec h hs s
  obtain ⟨k, hke⟩ : ∃ k, k = findLastCompareIsTrue cmp v s := ⟨_, rfl⟩
  rw [← hke] at hk ⊢
  have hdrop : Distinct eqv (v.drop k) := List.Pairwise.sublist (List.drop_sublist k v) hd
  rw [eraseP_eq_filter he hdrop]
  have htake : (v.take k).filter (fun y => !eqv y s) = v.take k := by
    rw [List.filter_eq_self]
    intro y hy
    obtain ⟨i, hi, rfl⟩ := List.mem_take_iff_getElem.1 hy
    have hcy := hk i v[i] (by omega) (List.getElem?_eq_getElem (by omega))
    cases hq : eqv v[i] s with
    | false => rfl
    | true =>
      have := hd.eq_of_mem he (List.getElem_mem _) hm hq
      rw [this, h.irrefl] at hcy; cases hcy
  conv_rhs => rw [← List.take_append_drop k v, List.filter_append, htake]

theorem Distinct.filter {l : List T} (h : Distinct eqv l) (p : T → Bool) :
    Distinct eqv (l.filter p) := List.Pairwise.sublist List.filter_sublist h

theorem filter_congr_key (he : KeyEquiv eqv) {a b : T} (hab : eqv a b = true) (l : List T) :
    l.filter (fun y => !eqv y a) = l.filter (fun y => !eqv y b) := by
  apply List.filter_congr
  intro y _
  have : eqv y a = eqv y b := by
    cases h1 : eqv y a <;> cases h2 : eqv y b <;> try rfl
    · rw [he.trans _ _ _ h2 (he.symm _ _ hab)] at h1; cases h1
    · rw [he.trans _ _ _ h1 hab] at h2; cases h2
  rw [this]

theorem countP_distinct (he : KeyEquiv eqv) {l : List T} (h : Distinct eqv l) (x : T) :
    l.countP (fun y => eqv y x) = if (l.find? (fun y => eqv y x)).isSome then 1 else 0 := by
  induction l with
  | nil => rfl
  | cons y ys ih =>
    have h' := List.pairwise_cons.1 h
    cases hc : eqv y x with
    | true =>
      rw [List.countP_cons_of_pos (p := fun y => eqv y x) hc, List.find?_cons_of_pos (by simp [hc])]
      have : ys.countP (fun y => eqv y x) = 0 := by
        rw [List.countP_eq_zero]
        intro z hz hzx
        have := h'.1 z hz
        rw [he.trans _ _ _ hc (he.symm _ _ hzx)] at this; cases this
      simp [this]
    | false =>
      rw [List.countP_cons_of_neg (p := fun y => eqv y x) (by simp [hc]),
        List.find?_cons_of_neg (by simp [hc]), ih h'.2]

theorem Repr.remove (h : StrictWeakOrder cmp) (he : KeyEquiv eqv) {f : Frontier T}
    {live : List T} (r : Repr cmp eqv f live) (x : T) :
    Repr cmp eqv (f.remove cmp eqv x).1 (live.filter (fun y => !eqv y x)) ∧
      (f.remove cmp eqv x).2 = live.countP (fun y => eqv y x) := by
  rw [countP_distinct he r.distinct]
  have hfe : f.set.find? (fun y => eqv y x) = live.find? (fun y => eqv y x) := r.find_eq he x
  unfold Frontier.remove
  rw [hfe]
  cases hl : live.find? (fun y => eqv y x) with
  | none =>
    have : live.filter (fun y => !eqv y x) = live := by
      rw [List.filter_eq_self]
      intro y hy
      rw [List.find?_eq_none] at hl
      simpa using hl y hy
    rw [this]
    exact ⟨r, rfl⟩
  | some s =>
    have hs := List.mem_of_find?_eq_some hl
    have hsx : eqv s x = true := by simpa using List.find?_some hl
    have hdv : Distinct eqv f.vec := r.distinct.perm he r.vec_perm.symm
    refine ⟨⟨?_, ?_, r.distinct.filter _⟩, rfl⟩
    · show eraseFrom _ _ _ _ = _
      rw [eraseFrom_eq h he (r.sorted h) hdv (r.vec_perm.mem_iff.2 hs), filter_congr_key he hsx,
        r.vec_eq, filter_sortStable h]
    · show (f.set.eraseP _).Perm _
      rw [eraseP_eq_filter he (r.distinct.perm he r.set_perm.symm), filter_congr_key he hsx]
      exact r.set_perm.filter _

theorem Repr.top_eq (h : StrictWeakOrder cmp) {f : Frontier T}
    {live : List T} (r : Repr cmp eqv f live) : f.top = best cmp live := by
  unfold top; rw [r.vec_eq, getLast?_sortStable h]

theorem best_mem {live : List T} {b : T} (h : best cmp live = some b) : b ∈ live := by
  induction live using List.reverseRecOn generalizing b with
  | nil => cases h
  | append_singleton l x ih =>
    rw [best_append] at h
    cases hb : best cmp l with
    | none => rw [hb] at h; simp only [Option.some.injEq] at h; subst h; simp
    | some c =>
      rw [hb] at h
      simp only at h
      split at h
      · cases h; exact List.mem_append_left _ (ih hb)
      · cases h; simp

theorem Repr.pop_some (h : StrictWeakOrder cmp) (he : KeyEquiv eqv) {f : Frontier T}
    {live : List T} (r : Repr cmp eqv f live) {b : T} (hb : best cmp live = some b) :
    ∃ f', f.pop eqv = some (f', b) ∧ Repr cmp eqv f' (live.filter (fun y => !eqv y b)) := by
  have hl : f.vec.getLast? = some b := by rw [← hb]; exact r.top_eq h
  refine ⟨⟨f.vec.dropLast, f.set.eraseP (fun y => eqv y b)⟩, ?_, ?_, ?_, r.distinct.filter _⟩
  · unfold pop; rw [hl]
  · show f.vec.dropLast = _
    rw [← filter_sortStable h, ← r.vec_eq]
    have hdv : Distinct eqv f.vec := r.distinct.perm he r.vec_perm.symm
    have hv : f.vec = f.vec.dropLast ++ [b] := (List.dropLast_append_getLast? b hl).symm
    rw [hv, List.filter_append]
    rw [hv] at hdv
    have hd := List.pairwise_append.1 hdv
    rw [List.filter_eq_self.2 ?_]
    · simp [he.refl b]
    · intro y hy
      have := hd.2.2 y hy b (by simp)
      simp [this]
  · show (f.set.eraseP _).Perm _
    rw [eraseP_eq_filter he (r.distinct.perm he r.set_perm.symm)]
    exact r.set_perm.filter _

theorem Repr.pop_none (h : StrictWeakOrder cmp) {f : Frontier T}
    {live : List T} (r : Repr cmp eqv f live) (hb : best cmp live = none) :
    f.pop eqv = none := by
  have hl : f.vec.getLast? = none := by rw [← hb]; exact r.top_eq h
  unfold pop; rw [hl]

/-! ### Summary for clients -/

/-- The container is in a consistent state. -/
def Ok (cmp eqv : T → T → Bool) (f : Frontier T) : Prop := ∃ live, Repr cmp eqv f live

theorem ok_empty : Ok cmp eqv (Frontier.empty : Frontier T) := ⟨[], repr_empty⟩

theorem Ok.distinct (he : KeyEquiv eqv) {f : Frontier T} (ok : Ok cmp eqv f) :
    Distinct eqv f.vec := by
  obtain ⟨live, r⟩ := ok
  exact r.distinct.perm he r.vec_perm.symm

theorem Ok.find_iff (he : KeyEquiv eqv) {f : Frontier T} (ok : Ok cmp eqv f) (x y : T) :
    f.find eqv x = some y ↔ (y ∈ f.vec ∧ eqv y x = true) := by
  obtain ⟨live, r⟩ := ok
  rw [r.find_eq he]
  constructor
  · intro hf
    exact ⟨r.vec_perm.mem_iff.2 (List.mem_of_find?_eq_some hf), by simpa using List.find?_some hf⟩
  · rintro ⟨hy, hyx⟩
    have hy' := r.vec_perm.mem_iff.1 hy
    cases hf : live.find? (fun z => eqv z x) with
    | none =>
      rw [List.find?_eq_none] at hf
      exact absurd hyx (by simpa using hf y hy')
    | some z =>
      have hz := List.mem_of_find?_eq_some hf
      have hzx : eqv z x = true := by simpa using List.find?_some hf
      rw [r.distinct.eq_of_mem he hz hy' (he.trans _ _ _ hzx (he.symm _ _ hyx))]

theorem Ok.find_none_iff (he : KeyEquiv eqv) {f : Frontier T} (ok : Ok cmp eqv f) (x : T) :
    f.find eqv x = none ↔ ∀ y ∈ f.vec, eqv y x = false := by
  constructor
  · intro hf y hy
    cases hc : eqv y x with
    | false => rfl
    | true => rw [(ok.find_iff he x y).2 ⟨hy, hc⟩] at hf; cases hf
  · intro hall
    cases hf : f.find eqv x with
    | none => rfl
    | some y =>
      obtain ⟨h1, h2⟩ := (ok.find_iff he x y).1 hf
      rw [hall y h1] at h2; cases h2

theorem Ok.push (h : StrictWeakOrder cmp) (he : KeyEquiv eqv) {f : Frontier T}
    (ok : Ok cmp eqv f) (x : T) : Ok cmp eqv (f.push cmp eqv x).1 := by
  obtain ⟨live, r⟩ := ok
  cases hl : live.find? (fun y => eqv y x) with
  | none => exact ⟨_, (r.push_new h he hl).1⟩
  | some y => rw [r.push_old he hl]; exact ⟨_, r⟩

theorem Ok.mem_push_new (h : StrictWeakOrder cmp) (he : KeyEquiv eqv) {f : Frontier T}
    (ok : Ok cmp eqv f) {x : T} (hx : f.find eqv x = none) (y : T) :
    y ∈ (f.push cmp eqv x).1.vec ↔ (y = x ∨ y ∈ f.vec) := by
  obtain ⟨live, r⟩ := ok
  rw [r.find_eq he] at hx
  rw [(r.push_new h he hx).1.vec_perm.mem_iff, r.vec_perm.mem_iff]
  simp [or_comm]

theorem Ok.push_old (he : KeyEquiv eqv) {f : Frontier T}
    (ok : Ok cmp eqv f) {x z : T} (hx : f.find eqv x = some z) :
    (f.push cmp eqv x).1 = f := by
  obtain ⟨live, r⟩ := ok
  rw [r.find_eq he] at hx
  rw [r.push_old he hx]

theorem Ok.remove (h : StrictWeakOrder cmp) (he : KeyEquiv eqv) {f : Frontier T}
    (ok : Ok cmp eqv f) (x : T) : Ok cmp eqv (f.remove cmp eqv x).1 := by
  obtain ⟨live, r⟩ := ok
  exact ⟨_, (r.remove h he x).1⟩

theorem Ok.mem_remove (h : StrictWeakOrder cmp) (he : KeyEquiv eqv) {f : Frontier T}
    (ok : Ok cmp eqv f) (x y : T) :
    y ∈ (f.remove cmp eqv x).1.vec ↔ (y ∈ f.vec ∧ eqv y x = false) := by
  obtain ⟨live, r⟩ := ok
  rw [(r.remove h he x).1.vec_perm.mem_iff, r.vec_perm.mem_iff]
  simp

theorem Ok.pop (h : StrictWeakOrder cmp) (he : KeyEquiv eqv) {f f' : Frontier T} {e : T}
    (ok : Ok cmp eqv f) (hp : f.pop eqv = some (f', e)) :
    Ok cmp eqv f' ∧ e ∈ f.vec ∧ (∀ y ∈ f.vec, cmp e y = false) ∧
      (∀ y, y ∈ f'.vec ↔ (y ∈ f.vec ∧ eqv y e = false)) := by
  obtain ⟨live, r⟩ := ok
  cases hb : best cmp live with
  | none => rw [r.pop_none h hb] at hp; cases hp
  | some b =>
    obtain ⟨f'', h1, h2⟩ := r.pop_some h he hb
    rw [h1] at hp; cases hp
    have hl : f.vec.getLast? = some e := by rw [← hb]; exact r.top_eq h
    refine ⟨⟨_, h2⟩, r.vec_perm.mem_iff.2 (best_mem hb), ?_, ?_⟩
    · intro y hy
      have hv : f.vec = f.vec.dropLast ++ [e] := (List.dropLast_append_getLast? e hl).symm
      have hs := r.sorted h
      unfold Sorted at hs
      rw [hv] at hs hy
      rcases List.mem_append.1 hy with hy | hy
      · exact (List.pairwise_append.1 hs).2.2 y hy e (by simp)
      · simp at hy; subst hy; exact h.irrefl _
    · intro y
      rw [h2.vec_perm.mem_iff, r.vec_perm.mem_iff]
      simp

theorem pop_eq_none_iff {f : Frontier T} : f.pop eqv = none ↔ f.vec = [] := by
  unfold Frontier.pop
  cases hv : f.vec with
  | nil => simp
  | cons a as => simp [List.getLast?_cons]

end Frontier
end PathPlanning
