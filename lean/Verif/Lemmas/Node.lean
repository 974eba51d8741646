import Verif.Spec.Node
import Mathlib.Data.List.Nodup
import Mathlib.Data.Finset.Card
import Mathlib.Tactic.Common

/-!
# Lemmas about the node hierarchy
-/

namespace PathPlanning
open Spec Heap

theorem upd_same {β : Type} (f : Nat → β) (k : Nat) (v : β) : upd f k v k = v := by simp [upd]

theorem upd_ne {β : Type} (f : Nat → β) {k x : Nat} (v : β) (h : x ≠ k) : upd f k v x = f x := by
  simp [upd, h]

theorem Depth_unique {h : Heap} {x d e : Nat} (h1 : Depth h x d) (h2 : Depth h x e) : d = e := by
  induction h1 generalizing e with
  | root hp =>
    cases h2 with
    | root _ => rfl
    | child hp2 _ => rw [hp] at hp2; cases hp2
  | child hp _ ih =>
    cases h2 with
    | root hp2 => rw [hp] at hp2; cases hp2
    | child hp2 h3 =>
      rw [hp] at hp2; cases hp2
      rw [ih h3]

theorem Desc_trans {h : Heap} {x b a : Nat} (h1 : Desc h x b) (h2 : Desc h b a) : Desc h x a := by
  induction h1 with
  | base hp => exact .step hp h2
  | step hp _ ih => exact .step hp (ih h2)

theorem Depth_desc_lt {h : Heap} {x a d : Nat} (h1 : Desc h x a) (h2 : Depth h x d) :
    ∃ e, e < d ∧ Depth h a e := by
  induction h1 generalizing d with
  | base hp =>
    cases h2 with
    | root hp2 => rw [hp] at hp2; cases hp2
    | child hp2 h3 => rw [hp] at hp2; cases hp2; exact ⟨_, Nat.lt_succ_self _, h3⟩
  | step hp _ ih =>
    cases h2 with
    | root hp2 => rw [hp] at hp2; cases hp2
    | child hp2 h3 =>
      rw [hp] at hp2; cases hp2
      obtain ⟨e, he, h4⟩ := ih h3
      exact ⟨e, by omega, h4⟩

theorem not_desc_self {h : Heap} {x d : Nat} (h2 : Depth h x d) : ¬ Desc h x x := by
  intro h1
  obtain ⟨e, he, h3⟩ := Depth_desc_lt h1 h2
  have := Depth_unique h2 h3
  omega

/-- The chain of `x` is the same in a heap whose parent links agree on `x` and its ancestors. -/
theorem Depth_congr {h h' : Heap} {x d : Nat} (hd : Depth h x d)
    (hx : ∀ y, y = x ∨ Desc h x y → h'.parent y = h.parent y) : Depth h' x d := by
  induction hd with
  | root hp => exact .root (by rw [hx _ (Or.inl rfl)]; exact hp)
  | child hp _ ih =>
    refine .child (by rw [hx _ (Or.inl rfl)]; exact hp) (ih ?_)
    rintro y (rfl | hy)
    · exact hx _ (Or.inr (.base hp))
    · exact hx _ (Or.inr (.step hp hy))

theorem Desc_congr {h h' : Heap} {x a : Nat} (hd : Desc h x a)
    (hx : ∀ y, y = x ∨ (Desc h x y ∧ Desc h y a) → h'.parent y = h.parent y) : Desc h' x a := by
  induction hd with
  | base hp => exact .base (by rw [hx _ (Or.inl rfl)]; exact hp)
  | step hp hd ih =>
    refine .step (by rw [hx _ (Or.inl rfl)]; exact hp) (ih ?_)
    rintro y (rfl | ⟨hy, hya⟩)
    · exact hx _ (Or.inr ⟨.base hp, hd⟩)
    · exact hx _ (Or.inr ⟨.step hp hy, hya⟩)

theorem Desc_alive {h : Heap} (F : Forest h) {x a : Nat} (hx : h.alive x) (hd : Desc h x a) :
    h.alive a := by
  induction hd with
  | base hp => exact F.parent_alive _ _ hx hp
  | step hp _ ih => exact ih (F.parent_alive _ _ hx hp)

theorem Owns_trans {h : Heap} {a b x : Nat} (h1 : h.Owns a b) (h2 : h.Owns b x) : h.Owns a x := by
  induction h1 with
  | self _ => exact h2
  | child hc _ ih => exact .child hc (ih h2)

/-- For live nodes, ownership is descent. -/
theorem Owns_iff {h : Heap} (F : Forest h) {a x : Nat} (hx : h.alive x) :
    (h.alive a ∧ h.Owns a x) ↔ x = a ∨ Desc h x a := by
  constructor
  · rintro ⟨ha, ho⟩
    induction ho with
    | self _ => exact Or.inl rfl
    | child hc ho ih =>
      obtain ⟨hca, hcp⟩ := (F.agree _ ha _).mp hc
      rcases ih hx hca with rfl | h1
      · exact Or.inr (.base hcp)
      · exact Or.inr (Desc_trans h1 (.base hcp))
  · rintro (rfl | hd)
    · exact ⟨hx, .self _⟩
    · have ha := Desc_alive F hx hd
      refine ⟨ha, ?_⟩
      clear ha
      induction hd with
      | @base x a hp =>
        exact .child ((F.agree a (F.parent_alive _ _ hx hp) x).mpr ⟨hx, hp⟩) (.self _)
      | @step x b a hp _ ih =>
        have hb := F.parent_alive _ _ hx hp
        exact Owns_trans (ih hb) (.child ((F.agree b hb x).mpr ⟨hx, hp⟩) (.self _))

theorem forest_empty : Forest Heap.empty := by
  constructor <;> simp [Heap.empty]

theorem forest_new {h : Heap} (F : Forest h) : Forest h.new := by
  have hlt := F.fresh
  have hne : ∀ x, h.alive x → x ≠ h.next := fun x hx => Nat.ne_of_lt (hlt x hx)
  have hpar : ∀ x, h.alive x → h.new.parent x = h.parent x := fun x hx => upd_ne _ _ (hne x hx)
  have hch : ∀ x, h.alive x → h.new.children x = h.children x := fun x hx => upd_ne _ _ (hne x hx)
  have hparn : h.new.parent h.next = none := upd_same ..
  have hchn : h.new.children h.next = [] := upd_same ..
  refine ⟨?_, ?_, ?_, ?_, ?_, ?_, ?_⟩
  · rintro x (hx | rfl)
    · have := hlt x hx; show x < h.next + 1; omega
    · exact Nat.lt_succ_self _
  · rintro a (ha | rfl) x
    · rw [hch a ha, F.agree a ha]
      constructor
      · rintro ⟨h1, h2⟩; exact ⟨Or.inl h1, by rw [hpar x h1]; exact h2⟩
      · rintro ⟨h1 | rfl, h2⟩
        · exact ⟨h1, by rw [hpar x h1] at h2; exact h2⟩
        · rw [hparn] at h2; cases h2
    · rw [hchn]
      simp only [List.not_mem_nil, false_iff, not_and]
      rintro (h1 | rfl) h2
      · rw [hpar x h1] at h2
        exact hne _ (F.parent_alive _ _ h1 h2) rfl
      · rw [hparn] at h2; cases h2
  · rintro a (ha | rfl)
    · rw [hch a ha]; exact F.once a ha
    · rw [hchn]; exact List.nodup_nil
  · rintro x a (hx | rfl) hp
    · rw [hpar x hx] at hp; exact Or.inl (F.parent_alive _ _ hx hp)
    · rw [hparn] at hp; cases hp
  · intro x
    show x ∈ h.next :: h.scopes ↔ _
    rw [List.mem_cons, F.roots]
    constructor
    · rintro (rfl | ⟨h1, h2⟩)
      · exact ⟨Or.inr rfl, hparn⟩
      · exact ⟨Or.inl h1, by rw [hpar x h1]; exact h2⟩
    · rintro ⟨h1 | rfl, h2⟩
      · exact Or.inr ⟨h1, by rw [hpar x h1] at h2; exact h2⟩
      · exact Or.inl rfl
  · refine List.nodup_cons.mpr ⟨?_, F.roots_once⟩
    intro hm; exact hne _ ((F.roots _).mp hm).1 rfl
  · rintro x (hx | rfl)
    · obtain ⟨d, hd⟩ := F.acyclic x hx
      refine ⟨d, Depth_congr hd ?_⟩
      rintro y (rfl | hy)
      · exact hpar _ hx
      · exact hpar _ (Desc_alive F hx hy)
    · exact ⟨0, .root hparn⟩

theorem forest_add {h : Heap} (F : Forest h) {p n : Nat} (hp : h.alive p) (hn : n ∈ h.scopes)
    (hpn : p ≠ n) (hd : ¬ Desc h p n) : Forest (h.addChild p n) := by
  obtain ⟨hna, hnp⟩ := (F.roots n).mp hn
  have hpar : ∀ x, x ≠ n → (h.addChild p n).parent x = h.parent x := fun x hx => upd_ne _ _ hx
  have hparn : (h.addChild p n).parent n = some p := upd_same ..
  have hch : ∀ x, x ≠ p → (h.addChild p n).children x = h.children x := fun x hx => upd_ne _ _ hx
  have hchp : (h.addChild p n).children p = h.children p ++ [n] := upd_same ..
  have hnot : n ∉ h.children p := by
    intro hm
    have := ((F.agree p hp n).mp hm).2
    rw [hnp] at this; cases this
  have hdp : ∃ d, Depth (h.addChild p n) p d := by
    obtain ⟨d, hd'⟩ := F.acyclic p hp
    refine ⟨d, Depth_congr hd' ?_⟩
    rintro y (rfl | hy)
    · exact hpar _ hpn
    · refine hpar _ ?_
      rintro rfl; exact hd hy
  refine ⟨F.fresh, ?_, ?_, ?_, ?_, ?_, ?_⟩
  · intro a ha x
    show _ ↔ h.alive x ∧ _
    by_cases hxn : x = n
    · subst hxn
      rw [hparn]
      by_cases hap : a = p
      · subst hap; rw [hchp]; simp [hna]
      · rw [hch a hap, F.agree a ha, hnp]
        simp [hna, Ne.symm hap]
    · rw [hpar x hxn]
      by_cases hap : a = p
      · subst hap; rw [hchp, List.mem_append, F.agree a ha]; simp [hxn]
      · rw [hch a hap, F.agree a ha]
  · intro a ha
    by_cases hap : a = p
    · subst hap; rw [hchp]
      exact (List.nodup_append.mpr ⟨F.once a ha, List.nodup_singleton _, by
        intro x hx y hy; rw [List.mem_singleton] at hy; subst hy
        rintro rfl; exact hnot hx⟩)
    · rw [hch a hap]; exact F.once a ha
  · intro x a hx hp'
    by_cases hxn : x = n
    · subst hxn; rw [hparn] at hp'; cases hp'; exact hp
    · rw [hpar x hxn] at hp'; exact F.parent_alive x a hx hp'
  · intro x
    show x ∈ h.scopes.erase n ↔ h.alive x ∧ _
    rw [F.roots_once.mem_erase_iff, F.roots]
    by_cases hxn : x = n
    · subst hxn; rw [hparn]; simp
    · rw [hpar x hxn]; simp [hxn]
  · exact F.roots_once.sublist List.erase_sublist
  · intro x hx
    obtain ⟨d, hxd⟩ := F.acyclic x hx
    induction hxd with
    | @root x hp' =>
      by_cases hxn : x = n
      · subst hxn
        obtain ⟨d, hdp⟩ := hdp
        exact ⟨d + 1, .child hparn hdp⟩
      · exact ⟨0, .root (by rw [hpar x hxn]; exact hp')⟩
    | @child x a d hp' _ ih =>
      have hxn : x ≠ n := by rintro rfl; rw [hnp] at hp'; cases hp'
      obtain ⟨e, he⟩ := ih (F.parent_alive _ _ hx hp')
      exact ⟨e + 1, .child (by rw [hpar x hxn]; exact hp') he⟩

theorem forest_remove {h h' : Heap} (F : Forest h) {p n : Nat} (hp : h.alive p)
    (hr : h.removeChild p n = some h') : Forest h' := by
  unfold Heap.removeChild at hr
  split at hr
  swap
  · cases hr
  rename_i hm
  obtain ⟨hna, hnp⟩ := (F.agree p hp n).mp hm
  obtain ⟨k, hk⟩ : ∃ k, k = h' := ⟨_, rfl⟩
  cases hr
  have hpar : ∀ x, x ≠ n → k.parent x = h.parent x := fun x hx => by subst hk; exact upd_ne _ _ hx
  have hparn : k.parent n = none := by subst hk; exact upd_same ..
  have hch : ∀ x, x ≠ p → k.children x = h.children x := fun x hx => by subst hk; exact upd_ne _ _ hx
  have hchp : k.children p = (h.children p).erase n := by subst hk; exact upd_same ..
  have hsc : k.scopes = n :: h.scopes := by subst hk; rfl
  have hal : k.alive = h.alive := by subst hk; rfl
  have hnx : k.next = h.next := by subst hk; rfl
  rw [← hk]
  clear hk
  refine ⟨?_, ?_, ?_, ?_, ?_, ?_, ?_⟩
  · rw [hal, hnx]; exact F.fresh
  · intro a ha x
    rw [hal] at ha ⊢
    by_cases hap : a = p
    · subst hap
      rw [hchp, (F.once a ha).mem_erase_iff, F.agree a ha]
      by_cases hxn : x = n
      · subst hxn; simp [hparn]
      · simp [hxn, hpar x hxn]
    · rw [hch a hap, F.agree a ha]
      by_cases hxn : x = n
      · subst hxn; rw [hparn, hnp]; simp [Ne.symm hap]
      · rw [hpar x hxn]
  · intro a ha
    rw [hal] at ha
    by_cases hap : a = p
    · subst hap; rw [hchp]; exact (F.once a ha).sublist List.erase_sublist
    · rw [hch a hap]; exact F.once a ha
  · intro x a hx hp'
    rw [hal] at hx ⊢
    by_cases hxn : x = n
    · subst hxn; rw [hparn] at hp'; cases hp'
    · rw [hpar x hxn] at hp'; exact F.parent_alive x a hx hp'
  · intro x
    rw [hsc, List.mem_cons, F.roots, hal]
    by_cases hxn : x = n
    · subst hxn; simp [hparn, hna]
    · simp [hxn, hpar x hxn]
  · rw [hsc]
    refine List.nodup_cons.mpr ⟨?_, F.roots_once⟩
    intro hm2
    have := ((F.roots n).mp hm2).2
    rw [hnp] at this; cases this
  · intro x hx
    rw [hal] at hx
    obtain ⟨d, hxd⟩ := F.acyclic x hx
    induction hxd with
    | @root x hp' =>
      refine ⟨0, .root ?_⟩
      by_cases hxn : x = n
      · subst hxn; exact hparn
      · rw [hpar x hxn]; exact hp'
    | @child x a d hp' _ ih =>
      by_cases hxn : x = n
      · subst hxn; exact ⟨0, .root hparn⟩
      · obtain ⟨e, he⟩ := ih (F.parent_alive _ _ hx hp')
        exact ⟨e + 1, .child (by rw [hpar x hxn]; exact hp') he⟩

/-- Destroying whole subtrees whose roots are roots of the forest, or subtrees cut at `cut`. -/
theorem forest_drop {h : Heap} (F : Forest h) {n : Nat} (hn : n ∈ h.scopes) : Forest (h.drop n) := by
  obtain ⟨hna, hnp⟩ := (F.roots n).mp hn
  have hal : ∀ x, (h.drop n).alive x ↔ h.alive x ∧ ¬ (x = n ∨ Desc h x n) := by
    intro x
    show h.alive x ∧ ¬ h.Owns n x ↔ _
    constructor
    · rintro ⟨h1, h2⟩; exact ⟨h1, fun h3 => h2 ((Owns_iff F h1).mpr h3).2⟩
    · rintro ⟨h1, h2⟩; exact ⟨h1, fun h3 => h2 ((Owns_iff F h1).mp ⟨hna, h3⟩)⟩
  have hdepth : ∀ x d, Depth h x d → Depth (h.drop n) x d := fun x d hd =>
    Depth_congr hd (fun _ _ => rfl)
  refine ⟨fun x hx => F.fresh x ((hal x).mp hx).1, ?_, ?_, ?_, ?_, ?_, ?_⟩
  · intro a ha x
    obtain ⟨ha1, ha2⟩ := (hal a).mp ha
    show x ∈ h.children a ↔ _
    rw [F.agree a ha1, hal]
    show h.alive x ∧ h.parent x = some a ↔ (_ ∧ h.parent x = some a)
    constructor
    · rintro ⟨h1, h2⟩
      refine ⟨⟨h1, ?_⟩, h2⟩
      rintro (rfl | h3)
      · rw [hnp] at h2; cases h2
      · apply ha2
        cases h3 with
        | base h4 => rw [h2] at h4; cases h4; exact Or.inl rfl
        | step h4 h5 => rw [h2] at h4; cases h4; exact Or.inr h5
    · rintro ⟨⟨h1, _⟩, h2⟩; exact ⟨h1, h2⟩
  · intro a ha; exact F.once a ((hal a).mp ha).1
  · intro x a hx hp'
    obtain ⟨hx1, hx2⟩ := (hal x).mp hx
    refine (hal a).mpr ⟨F.parent_alive x a hx1 hp', ?_⟩
    rintro (rfl | h3)
    · exact hx2 (Or.inr (.base hp'))
    · exact hx2 (Or.inr (.step hp' h3))
  · intro x
    show x ∈ h.scopes.erase n ↔ _ ∧ h.parent x = none
    rw [F.roots_once.mem_erase_iff, F.roots, hal]
    constructor
    · rintro ⟨h1, h2, h3⟩
      refine ⟨⟨h2, ?_⟩, h3⟩
      rintro (h4 | h4)
      · exact h1 h4
      · cases h4 with
        | base h5 => rw [h3] at h5; cases h5
        | step h5 _ => rw [h3] at h5; cases h5
    · rintro ⟨⟨h1, h2⟩, h3⟩
      exact ⟨fun h4 => h2 (Or.inl h4), h1, h3⟩
  · exact F.roots_once.sublist List.erase_sublist
  · intro x hx
    obtain ⟨d, hd⟩ := F.acyclic x ((hal x).mp hx).1
    exact ⟨d, hdepth x d hd⟩

theorem mem_replace {l : List Nat} (hl : l.Nodup) {a b : Nat} (ha : a ∈ l) (hb : b ∉ l) (x : Nat) :
    x ∈ l.replace a b ↔ (x ∈ l ∧ x ≠ a) ∨ x = b := by
  induction l with
  | nil => cases ha
  | cons c l ih =>
    rw [List.replace_cons]
    have hb1 : b ≠ c := fun h => hb (h ▸ List.mem_cons_self ..)
    have hb2 : b ∉ l := fun h => hb (List.mem_cons_of_mem _ h)
    have hc := (List.nodup_cons.mp hl).1
    have hl2 := (List.nodup_cons.mp hl).2
    by_cases h : a = c
    · subst h
      simp only [BEq.rfl, if_true, List.mem_cons]
      constructor
      · rintro (rfl | h1)
        · exact Or.inr rfl
        · exact Or.inl ⟨Or.inr h1, fun h2 => hc (h2 ▸ h1)⟩
      · rintro (⟨h1 | h1, h2⟩ | h1)
        · exact absurd h1 h2
        · exact Or.inr h1
        · exact Or.inl h1
    · have hal : a ∈ l := by
        rcases List.mem_cons.mp ha with h1 | h1
        · exact absurd h1 h
        · exact h1
      have : (a == c) = false := by simpa using h
      rw [this]
      simp only [Bool.false_eq_true, if_false, List.mem_cons, ih hl2 hal hb2]
      constructor
      · rintro (rfl | ⟨h1, h2⟩ | h1)
        · exact Or.inl ⟨Or.inl rfl, Ne.symm h⟩
        · exact Or.inl ⟨Or.inr h1, h2⟩
        · exact Or.inr h1
      · rintro (⟨h1 | h1, h2⟩ | h1)
        · exact Or.inl h1
        · exact Or.inr (Or.inl ⟨h1, h2⟩)
        · exact Or.inr (Or.inr h1)

theorem nodup_replace {l : List Nat} (hl : l.Nodup) {a b : Nat} (hb : b ∉ l) :
    (l.replace a b).Nodup := by
  induction l with
  | nil => simp
  | cons c l ih =>
    rw [List.replace_cons]
    have hb2 : b ∉ l := fun h => hb (List.mem_cons_of_mem _ h)
    have hc := (List.nodup_cons.mp hl).1
    have hl2 := (List.nodup_cons.mp hl).2
    by_cases h : a = c
    · subst h
      simp only [BEq.rfl, if_true]
      exact List.nodup_cons.mpr ⟨hb2, hl2⟩
    · have : (a == c) = false := by simpa using h
      rw [this]
      simp only [Bool.false_eq_true, if_false]
      refine List.nodup_cons.mpr ⟨?_, ih hl2 hb2⟩
      intro hm
      by_cases hal : a ∈ l
      · rcases (mem_replace hl2 hal hb2 c).mp hm with ⟨h1, _⟩ | h1
        · exact hc h1
        · exact hb (h1 ▸ List.mem_cons_self ..)
      · rw [List.replace_of_not_mem hal] at hm; exact hc hm

theorem forest_replace_noAdopt {h h' : Heap} (F : Forest h) {p b c : Nat} (hp : h.alive p)
    (hc : c ∈ h.scopes) (hpc : p ≠ c) (hd : ¬ Desc h p c)
    (hr : h.replaceChild p b c false = some h') : Forest h' := by
  unfold Heap.replaceChild at hr
  split at hr
  swap
  · cases hr
  rename_i hm
  obtain ⟨hba, hbp⟩ := (F.agree p hp b).mp hm
  obtain ⟨hca, hcp⟩ := (F.roots c).mp hc
  have hbc : b ≠ c := by rintro rfl; rw [hbp] at hcp; cases hcp
  have hcnot : c ∉ h.children p := by
    intro h1; have := ((F.agree p hp c).mp h1).2; rw [hcp] at this; cases this
  simp only [Bool.false_eq_true, if_false] at hr
  obtain ⟨k, hk⟩ : ∃ k, k = h' := ⟨_, rfl⟩
  cases hr
  have hpar : ∀ x, x ≠ b → x ≠ c → k.parent x = h.parent x := fun x h1 h2 => by
    subst hk; show upd _ _ _ _ = _; rw [upd_ne _ _ h2, upd_ne _ _ h1]
  have hparc : k.parent c = some p := by subst hk; exact upd_same ..
  have hparb : k.parent b = none := by
    subst hk; show upd _ _ _ _ = _; rw [upd_ne _ _ hbc, upd_same]
  have hch : ∀ x, x ≠ p → k.children x = h.children x := fun x hx => by subst hk; exact upd_ne _ _ hx
  have hchp : k.children p = (h.children p).replace b c := by subst hk; exact upd_same ..
  have hsc : k.scopes = b :: h.scopes.erase c := by subst hk; rfl
  have hal : k.alive = h.alive := by subst hk; rfl
  have hnx : k.next = h.next := by subst hk; rfl
  rw [← hk]
  clear hk
  have hbp' : ¬ Desc h p b := by
    intro h1
    obtain ⟨d, hd⟩ := F.acyclic b hba
    exact not_desc_self hd (.step hbp h1)
  have hpb : p ≠ b := by
    rintro rfl
    obtain ⟨d, hd⟩ := F.acyclic p hba
    exact not_desc_self hd (.base hbp)
  have hdp : ∃ d, Depth k p d := by
    obtain ⟨d, hd'⟩ := F.acyclic p hp
    refine ⟨d, Depth_congr hd' ?_⟩
    rintro y (rfl | hy)
    · exact hpar _ hpb hpc
    · refine hpar _ ?_ ?_
      · rintro rfl; exact hbp' hy
      · rintro rfl; exact hd hy
  refine ⟨?_, ?_, ?_, ?_, ?_, ?_, ?_⟩
  · rw [hal, hnx]; exact F.fresh
  · intro a ha x
    rw [hal] at ha ⊢
    by_cases hap : a = p
    · subst hap
      rw [hchp, mem_replace (F.once a ha) hm hcnot, F.agree a ha]
      by_cases hxc : x = c
      · subst hxc; simp [hparc, hca]
      · by_cases hxb : x = b
        · subst hxb; simp [hparb, hxc]
        · simp [hxc, hxb, hpar x hxb hxc]
    · rw [hch a hap, F.agree a ha]
      by_cases hxc : x = c
      · subst hxc; rw [hparc, hcp]; simp [Ne.symm hap]
      · by_cases hxb : x = b
        · subst hxb; rw [hparb, hbp]; simp [Ne.symm hap]
        · rw [hpar x hxb hxc]
  · intro a ha
    rw [hal] at ha
    by_cases hap : a = p
    · subst hap; rw [hchp]; exact nodup_replace (F.once a ha) hcnot
    · rw [hch a hap]; exact F.once a ha
  · intro x a hx hp'
    rw [hal] at hx ⊢
    by_cases hxc : x = c
    · subst hxc; rw [hparc] at hp'; cases hp'; exact hp
    · by_cases hxb : x = b
      · subst hxb; rw [hparb] at hp'; cases hp'
      · rw [hpar x hxb hxc] at hp'; exact F.parent_alive x a hx hp'
  · intro x
    rw [hsc, List.mem_cons, F.roots_once.mem_erase_iff, F.roots, hal]
    by_cases hxc : x = c
    · subst hxc; simp [hparc, Ne.symm hbc]
    · by_cases hxb : x = b
      · subst hxb; simp [hparb, hba]
      · simp [hxb, hxc, hpar x hxb hxc]
  · rw [hsc]
    refine List.nodup_cons.mpr ⟨?_, F.roots_once.sublist List.erase_sublist⟩
    intro hm2
    have := ((F.roots b).mp (List.mem_of_mem_erase hm2)).2
    rw [hbp] at this; cases this
  · intro x hx
    rw [hal] at hx
    obtain ⟨d, hxd⟩ := F.acyclic x hx
    induction hxd with
    | @root x hp' =>
      by_cases hxc : x = c
      · subst hxc
        obtain ⟨d, hdp⟩ := hdp
        exact ⟨d + 1, .child hparc hdp⟩
      · have hxb : x ≠ b := by rintro rfl; rw [hbp] at hp'; cases hp'
        exact ⟨0, .root (by rw [hpar x hxb hxc]; exact hp')⟩
    | @child x a d hp' _ ih =>
      have hxc : x ≠ c := by rintro rfl; rw [hcp] at hp'; cases hp'
      by_cases hxb : x = b
      · subst hxb; exact ⟨0, .root hparb⟩
      · obtain ⟨e, he⟩ := ih (F.parent_alive _ _ hx hp')
        exact ⟨e + 1, .child (by rw [hpar x hxb hxc]; exact hp') he⟩

/-- Adoption, without the exchange of `brat` and `ch`, keeps the forest: the subtrees below `brat`
now hang below `ch`. -/
theorem forest_adopt {h : Heap} (F : Forest h) {b c : Nat} (hb : h.alive b) (hc : h.alive c)
    (hbc : b ≠ c) (hcb : ¬ Desc h c b) (hbc' : ¬ Desc h b c) : Forest (h.adopt b c) := by
  have hal : ∀ x, (h.adopt b c).alive x ↔ h.alive x ∧ ¬ Desc h x c := by
    intro x
    show h.alive x ∧ ¬ (∃ d ∈ h.children c, h.Owns d x) ↔ _
    constructor
    · rintro ⟨h1, h2⟩
      refine ⟨h1, fun h3 => h2 ?_⟩
      clear h2
      induction h3 with
      | @base x a hp' => exact ⟨x, (F.agree a hc x).mpr ⟨h1, hp'⟩, .self _⟩
      | @step x e a hp' _ ih =>
        have he := F.parent_alive _ _ h1 hp'
        obtain ⟨d, hd, ho⟩ := ih hc hbc hcb hbc' he
        exact ⟨d, hd, Owns_trans ho (.child ((F.agree e he x).mpr ⟨h1, hp'⟩) (.self _))⟩
    · rintro ⟨h1, h2⟩
      refine ⟨h1, ?_⟩
      rintro ⟨d, hd, ho⟩
      obtain ⟨hda, hdp⟩ := (F.agree c hc d).mp hd
      apply h2
      rcases (Owns_iff F h1).mp ⟨hda, ho⟩ with rfl | h3
      · exact .base hdp
      · exact Desc_trans h3 (.base hdp)
  have hpar1 : ∀ x, h.alive x → h.parent x = some b → (h.adopt b c).parent x = some c := by
    intro x hx hp'
    show (if x ∈ h.children b then some c else h.parent x) = _
    rw [if_pos ((F.agree b hb x).mpr ⟨hx, hp'⟩)]
  have hpar2 : ∀ x, h.parent x ≠ some b → (h.adopt b c).parent x = h.parent x := by
    intro x hp'
    show (if x ∈ h.children b then some c else h.parent x) = _
    rw [if_neg]
    intro hm; exact hp' ((F.agree b hb x).mp hm).2
  have hchb : (h.adopt b c).children b = [] := upd_same ..
  have hchc : (h.adopt b c).children c = h.children b := by
    show upd _ _ _ _ = _; rw [upd_ne _ _ (Ne.symm hbc), upd_same]
  have hch : ∀ x, x ≠ b → x ≠ c → (h.adopt b c).children x = h.children x := by
    intro x h1 h2
    show upd _ _ _ _ = _; rw [upd_ne _ _ h1, upd_ne _ _ h2]
  have hdc : ∃ d, Depth (h.adopt b c) c d := by
    obtain ⟨d, hd'⟩ := F.acyclic c hc
    refine ⟨d, Depth_congr hd' ?_⟩
    rintro y (rfl | hy)
    · refine hpar2 _ ?_
      intro h1; exact hcb (.base h1)
    · refine hpar2 _ ?_
      intro h1; exact hcb (Desc_trans hy (.base h1))
  refine ⟨fun x hx => F.fresh x ((hal x).mp hx).1, ?_, ?_, ?_, ?_, ?_, ?_⟩
  · intro a ha x
    obtain ⟨ha1, ha2⟩ := (hal a).mp ha
    rw [hal]
    by_cases hab : a = b
    · subst hab
      rw [hchb]
      simp only [List.not_mem_nil, false_iff, not_and, and_imp]
      intro hx hxd hp'
      by_cases h1 : h.parent x = some a
      · rw [hpar1 x hx h1] at hp'; cases hp'; exact hbc rfl
      · rw [hpar2 x h1] at hp'; exact h1 hp'
    · by_cases hac : a = c
      · subst hac
        rw [hchc, F.agree b hb]
        constructor
        · rintro ⟨h1, h2⟩
          refine ⟨⟨h1, ?_⟩, hpar1 x h1 h2⟩
          intro h3
          cases h3 with
          | base h4 => rw [h2] at h4; cases h4; exact hab rfl
          | step h4 h5 => rw [h2] at h4; cases h4; exact hbc' h5
        · rintro ⟨⟨h1, h2⟩, h3⟩
          refine ⟨h1, ?_⟩
          by_contra h4
          rw [hpar2 x h4] at h3
          exact h2 (.base h3)
      · rw [hch a hab hac, F.agree a ha1]
        constructor
        · rintro ⟨h1, h2⟩
          refine ⟨⟨h1, ?_⟩, ?_⟩
          · intro h3
            cases h3 with
            | base h4 => rw [h2] at h4; cases h4; exact hac rfl
            | step h4 h5 => rw [h2] at h4; cases h4; exact ha2 h5
          · rw [hpar2 x]
            · exact h2
            · rw [h2]; intro h3; cases h3; exact hab rfl
        · rintro ⟨⟨h1, h2⟩, h3⟩
          refine ⟨h1, ?_⟩
          by_cases h4 : h.parent x = some b
          · rw [hpar1 x h1 h4] at h3; cases h3; exact absurd rfl hac
          · rw [hpar2 x h4] at h3; exact h3
  · intro a ha
    obtain ⟨ha1, ha2⟩ := (hal a).mp ha
    by_cases hab : a = b
    · subst hab; rw [hchb]; exact List.nodup_nil
    · by_cases hac : a = c
      · subst hac; rw [hchc]; exact F.once b hb
      · rw [hch a hab hac]; exact F.once a ha1
  · intro x a hx hp'
    obtain ⟨hx1, hx2⟩ := (hal x).mp hx
    by_cases h1 : h.parent x = some b
    · rw [hpar1 x hx1 h1] at hp'; cases hp'
      refine (hal c).mpr ⟨hc, ?_⟩
      obtain ⟨d, hd⟩ := F.acyclic c hc
      exact not_desc_self hd
    · rw [hpar2 x h1] at hp'
      refine (hal a).mpr ⟨F.parent_alive x a hx1 hp', fun h3 => hx2 (.step hp' h3)⟩
  · intro x
    show x ∈ h.scopes ↔ _
    rw [F.roots, hal]
    constructor
    · rintro ⟨h1, h2⟩
      refine ⟨⟨h1, ?_⟩, ?_⟩
      · intro h3
        cases h3 with
        | base h4 => rw [h2] at h4; cases h4
        | step h4 h5 => rw [h2] at h4; cases h4
      · rw [hpar2 x]
        · exact h2
        · rw [h2]; intro h3; cases h3
    · rintro ⟨⟨h1, h2⟩, h3⟩
      refine ⟨h1, ?_⟩
      by_cases h4 : h.parent x = some b
      · rw [hpar1 x h1 h4] at h3; cases h3
      · rw [hpar2 x h4] at h3; exact h3
  · exact F.roots_once
  · intro x hx
    have hx1 := ((hal x).mp hx).1
    clear hx
    obtain ⟨d, hxd⟩ := F.acyclic x hx1
    induction hxd with
    | @root x hp' =>
      exact ⟨0, .root (by rw [hpar2 x (by rw [hp']; intro h3; cases h3)]; exact hp')⟩
    | @child x a d hp' _ ih =>
      by_cases h1 : h.parent x = some b
      · obtain ⟨d, hd⟩ := hdc
        exact ⟨d + 1, .child (hpar1 x hx1 h1) hd⟩
      · obtain ⟨e, he⟩ := ih (F.parent_alive _ _ hx1 hp')
        exact ⟨e + 1, .child (by rw [hpar2 x h1]; exact hp') he⟩

theorem forest_replace {h h' : Heap} (F : Forest h) {p b c : Nat} {ad : Bool} (hp : h.alive p)
    (hc : c ∈ h.scopes) (hpc : p ≠ c) (hd : ¬ Desc h p c)
    (hr : h.replaceChild p b c ad = some h') : Forest h' := by
  cases ad with
  | false => exact forest_replace_noAdopt F hp hc hpc hd hr
  | true =>
    have hm : b ∈ h.children p := by
      by_contra h1
      simp [Heap.replaceChild, h1] at hr
    obtain ⟨hba, hbp⟩ := (F.agree p hp b).mp hm
    obtain ⟨hca, hcp⟩ := (F.roots c).mp hc
    have hbc : b ≠ c := by rintro rfl; rw [hbp] at hcp; cases hcp
    have hcb : ¬ Desc h c b := by
      intro h1
      cases h1 with
      | base h2 => rw [hcp] at h2; cases h2
      | step h2 _ => rw [hcp] at h2; cases h2
    have hbc' : ¬ Desc h b c := by
      intro h1
      cases h1 with
      | base h2 => rw [hbp] at h2; cases h2; exact hpc rfl
      | step h2 h3 => rw [hbp] at h2; cases h2; exact hd h3
    have hpb : p ≠ b := by
      rintro rfl
      obtain ⟨d, hd⟩ := F.acyclic p hba
      exact not_desc_self hd (.base hbp)
    have hpnb : ∀ y, (y = p ∨ Desc h p y) → h.parent y ≠ some b := by
      rintro y hy h1
      obtain ⟨d, hdb⟩ := F.acyclic b hba
      rcases hy with rfl | hy
      · exact not_desc_self hdb (.step hbp (.base h1))
      · exact not_desc_self hdb (.step hbp (Desc_trans hy (.base h1)))
    have F1 := forest_adopt F hba hca hbc hcb hbc'
    have hpar2 : ∀ x, h.parent x ≠ some b → (h.adopt b c).parent x = h.parent x := by
      intro x hp'
      show (if x ∈ h.children b then some c else h.parent x) = _
      rw [if_neg]
      intro hm; exact hp' ((F.agree b hba x).mp hm).2
    have hchp : (h.adopt b c).children p = h.children p := by
      show upd _ _ _ _ = _; rw [upd_ne _ _ hpb, upd_ne _ _ hpc]
    have hp1 : (h.adopt b c).alive p := by
      refine ⟨hp, ?_⟩
      rintro ⟨d, hdc, ho⟩
      obtain ⟨hda, hdp⟩ := (F.agree c hca d).mp hdc
      rcases (Owns_iff F hp).mp ⟨hda, ho⟩ with rfl | h3
      · exact hd (.base hdp)
      · exact hd (Desc_trans h3 (.base hdp))
    have hd1 : ¬ Desc (h.adopt b c) p c := by
      intro h1
      apply hd
      have key : ∀ y z, Desc (h.adopt b c) y z → (y = p ∨ Desc h p y) → Desc h y z := by
        intro y z h2
        induction h2 with
        | @base y a h3 =>
          intro hy
          rw [hpar2 y (hpnb y hy)] at h3; exact .base h3
        | @step y e a h3 _ ih =>
          intro hy
          rw [hpar2 y (hpnb y hy)] at h3
          refine .step h3 (ih (Or.inr ?_))
          rcases hy with rfl | hy
          · exact .base h3
          · exact Desc_trans hy (.base h3)
      exact key p c h1 (Or.inl rfl)
    refine forest_replace_noAdopt F1 hp1 hc hpc hd1 (b := b) ?_
    rw [← hr]
    simp only [Heap.replaceChild, hchp, hm, if_true, Bool.false_eq_true, if_false]

end PathPlanning
