import Verif.Lemmas.Node
import Mathlib.Data.List.Pairwise
import Mathlib.Data.List.Flatten

/-!
# C22, C23, C64: the node hierarchy
-/

namespace PathPlanning
open Spec Heap

/-- C22. Every heap a client can produce with node construction, `AddChild`, `RemoveChild`,
`ReplaceChild` and destruction is a forest: each node has exactly one owner, parent links and child
lists agree, and there is no cycle. -/
theorem C22_forest_preserved (h : Heap) (hr : NodeReachable h) : Forest h := by
  induction hr with
  | start => exact forest_empty
  | @call h h' op _ ha hc ih =>
    cases op with
    | new => cases hc; exact forest_new ih
    | add p n => cases hc; exact forest_add ih ha.1 ha.2.1 ha.2.2.1 ha.2.2.2
    | remove p n => exact forest_remove ih ha hc
    | replace p b c ad => exact forest_replace ih ha.1 ha.2.1 ha.2.2.1 ha.2.2.2 hc
    | drop n => cases hc; exact forest_drop ih ha

/-! ## Loops -/

private theorem chain_nodes {h : Heap} (F : Forest h) {x d : Nat} (hd : Depth h x d)
    (hx : h.alive x) : ∃ f : Nat → Nat, ∀ k ≤ d, h.alive (f k) ∧ Depth h (f k) k := by
  induction hd with
  | @root x hp =>
    refine ⟨fun _ => x, fun k hk => ?_⟩
    have : k = 0 := by omega
    subst this; exact ⟨hx, .root hp⟩
  | @child x a d hp hda ih =>
    obtain ⟨f, hf⟩ := ih (F.parent_alive _ _ hx hp)
    refine ⟨fun k => if k = d + 1 then x else f k, fun k hk => ?_⟩
    by_cases h1 : k = d + 1
    · subst h1; simp only [if_true]; exact ⟨hx, .child hp hda⟩
    · simp only [h1, if_false]; exact hf k (by omega)

/-- The depth of a node is smaller than the number of names in use. -/
theorem depth_lt_next {h : Heap} (F : Forest h) {x d : Nat} (hd : Depth h x d) (hx : h.alive x) :
    d < h.next := by
  obtain ⟨f, hf⟩ := chain_nodes F hd hx
  have h1 : (Finset.range (d + 1)).card ≤ (Finset.range h.next).card := by
    apply Finset.card_le_card_of_injOn f
    · intro k hk
      have hk' : k < d + 1 := by simpa using hk
      have := F.fresh _ (hf k (by omega)).1
      simpa using this
    · intro i hi j hj hij
      have hi' : i < d + 1 := by simpa using hi
      have hj' : j < d + 1 := by simpa using hj
      have h1 := (hf i (by omega)).2
      have h2 := (hf j (by omega)).2
      have hij' : f i = f j := hij
      rw [hij'] at h1
      exact Depth_unique h1 h2
  rw [Finset.card_range, Finset.card_range] at h1
  exact h1

private theorem depthLoop_spec {h : Heap} {x d : Nat} (hd : Depth h x d) :
    ∀ fuel k, d ≤ fuel → depthLoop h fuel (h.parent x) k = some (k + d) := by
  induction hd with
  | root hp => intro fuel k _; rw [hp]; cases fuel <;> rfl
  | @child x a d hp _ ih =>
    intro fuel k hf
    rw [hp]
    obtain ⟨fuel, rfl⟩ : ∃ f, fuel = f + 1 := ⟨fuel - 1, by omega⟩
    rw [depthLoop, ih fuel (k + 1) (by omega)]
    congr 1; omega

private theorem descLoop_spec {h : Heap} {x d : Nat} (hd : Depth h x d) (node : Nat) :
    ∀ fuel, d ≤ fuel → ∃ b, descLoop h node fuel (h.parent x) = some b ∧
      (b = true ↔ Desc h x node) := by
  induction hd with
  | root hp =>
    intro fuel _
    refine ⟨false, by rw [hp]; cases fuel <;> rfl, ?_⟩
    simp only [Bool.false_eq_true, false_iff]
    intro h1
    cases h1 with
    | base h2 => rw [hp] at h2; cases h2
    | step h2 _ => rw [hp] at h2; cases h2
  | @child x a d hp _ ih =>
    intro fuel hf
    rw [hp]
    obtain ⟨fuel, rfl⟩ : ∃ f, fuel = f + 1 := ⟨fuel - 1, by omega⟩
    rw [descLoop]
    by_cases h1 : a = node
    · subst h1
      exact ⟨true, by simp, by simp only [true_iff]; exact .base hp⟩
    · rw [if_neg h1]
      obtain ⟨b, hb, hbi⟩ := ih fuel (by omega)
      refine ⟨b, hb, hbi.trans ⟨fun h2 => .step hp h2, fun h2 => ?_⟩⟩
      cases h2 with
      | base h3 => rw [hp] at h3; cases h3; exact absurd rfl h1
      | step h3 h4 => rw [hp] at h3; cases h3; exact h4

/-- C22. The loop of `GetDepth` ends and counts the parents up to the root. -/
theorem C22_depth {h : Heap} (F : Forest h) (x : Nat) (hx : h.alive x) :
    ∃ d, h.getDepth x = some d ∧ Depth h x d := by
  obtain ⟨d, hd⟩ := F.acyclic x hx
  refine ⟨d, ?_, hd⟩
  rw [Heap.getDepth, depthLoop_spec hd _ 0 (Nat.le_of_lt (depth_lt_next F hd hx)), Nat.zero_add]

/-- C22. The loop of `IsDescendantOf` ends and decides the transitive closure of the parent links. -/
theorem C22_isDescendantOf {h : Heap} (F : Forest h) (x a : Nat) (hx : h.alive x) :
    ∃ b, h.isDescendantOf x a = some b ∧ (b = true ↔ Desc h x a) := by
  obtain ⟨d, hd⟩ := F.acyclic x hx
  exact descLoop_spec hd a _ (Nat.le_of_lt (depth_lt_next F hd hx))

/-- C22. `IsAncestorOf` is the other direction. -/
theorem C22_isAncestorOf {h : Heap} (F : Forest h) (x a : Nat) (hx : h.alive x) :
    ∃ b, h.isAncestorOf a x = some b ∧ (b = true ↔ Desc h x a) := C22_isDescendantOf F x a hx

/-- A client that builds the chain 0 <- 1 <- 2 and then replaces node 1 by a new node 3. -/
private def exHeap : Heap := ((((Heap.empty.new.new).addChild 0 1).new).addChild 1 2).new

private theorem exHeap_reachable : NodeReachable exHeap := by
  have h0 := NodeReachable.call .start (op := .new) trivial rfl
  have h1 := NodeReachable.call h0 (op := .new) trivial rfl
  have h2 := NodeReachable.call h1 (op := .add 0 1) (by
    refine ⟨by simp [Heap.empty, Heap.new], by simp [Heap.empty, Heap.new], by decide, ?_⟩
    intro hd
    cases hd with
    | base h => simp [Heap.empty, Heap.new, upd] at h
    | step h _ => simp [Heap.empty, Heap.new, upd] at h) rfl
  have h3 := NodeReachable.call h2 (op := .new) trivial rfl
  have h4 := NodeReachable.call h3 (op := .add 1 2) (by
    refine ⟨by simp [Heap.empty, Heap.new, Heap.addChild],
      by simp [Heap.empty, Heap.new, Heap.addChild], by decide, ?_⟩
    intro hd
    cases hd with
    | base h => simp [Heap.empty, Heap.new, Heap.addChild, upd] at h
    | step h h' =>
      simp [Heap.empty, Heap.new, Heap.addChild, upd] at h
      subst h
      cases h' with
      | base h => simp [Heap.empty, Heap.new, Heap.addChild, upd] at h
      | step h _ => simp [Heap.empty, Heap.new, Heap.addChild, upd] at h) rfl
  exact NodeReachable.call h4 (op := .new) trivial rfl

/-- The example heap is reachable, node 2 has depth 2, and node 1 can be replaced by node 3. -/
example : NodeReachable exHeap ∧ exHeap.getDepth 2 = some 2 ∧ exHeap.isDescendantOf 2 0 = some true ∧
    exHeap.isDescendantOf 0 2 = some false ∧ exHeap.isAncestorOf 0 2 = some true ∧ Allowed exHeap (.replace 0 1 3 true) ∧
    (exHeap.replaceChild 0 1 3 true).map (fun k => (k.children 0, k.children 1, k.children 3,
      k.parent 2, k.scopes)) = some ([3], [], [2], some 3, [1, 0]) := by
  refine ⟨exHeap_reachable, by decide, by decide, by decide, by decide, ?_, by decide⟩
  refine ⟨by simp [exHeap, Heap.empty, Heap.new, Heap.addChild], by decide, by decide, ?_⟩
  intro hd
  have : exHeap.parent 0 = none := by decide
  cases hd with
  | base h => rw [this] at h; cases h
  | step h _ => rw [this] at h; cases h

/-! ## C23 -/

private theorem Desc_mono {h h' : Heap} (hs : ∀ y a, h'.parent y = some a → h.parent y = some a)
    {x a : Nat} (hd : Desc h' x a) : Desc h x a := by
  induction hd with
  | base hp => exact .base (hs _ _ hp)
  | step hp _ ih => exact .step (hs _ _ hp) ih

private theorem no_desc_of_root {h : Heap} {x a : Nat} (hp : h.parent x = none) : ¬ Desc h x a := by
  intro hd
  cases hd with
  | base h1 => rw [hp] at h1; cases h1
  | step h1 _ => rw [hp] at h1; cases h1

private theorem Desc_parent {h : Heap} {x b a : Nat} (hp : h.parent x = some b) (hd : Desc h x a) :
    b = a ∨ Desc h b a := by
  cases hd with
  | base h1 => rw [hp] at h1; cases h1; exact Or.inl rfl
  | step h1 h2 => rw [hp] at h1; cases h1; exact Or.inr h2

/-- Two ancestors of a node are comparable. -/
theorem InTree_linear {h : Heap} {x a b : Nat} (ha : InTree h a x) (hb : InTree h b x) :
    InTree h a b ∨ InTree h b a := by
  rcases ha with rfl | ha
  · exact Or.inr hb
  · rcases hb with rfl | hb
    · exact Or.inl (Or.inr ha)
    · induction ha with
      | base hp =>
        rcases Desc_parent hp hb with rfl | h1
        · exact Or.inl (Or.inl rfl)
        · exact Or.inr (Or.inr h1)
      | step hp h2 ih =>
        rcases Desc_parent hp hb with rfl | h1
        · exact Or.inl (Or.inr h2)
        · exact ih h1

/-- Every node has a root. -/
theorem exists_root {h : Heap} {x d : Nat} (hd : Depth h x d) :
    ∃ s, h.parent s = none ∧ InTree h s x := by
  induction hd with
  | root hp => exact ⟨_, hp, Or.inl rfl⟩
  | child hp _ ih =>
    obtain ⟨s, hs, h1⟩ := ih
    refine ⟨s, hs, Or.inr ?_⟩
    rcases h1 with rfl | h1
    · exact .base hp
    · exact .step hp h1

theorem root_unique {h : Heap} {x s t : Nat} (hs : h.parent s = none) (ht : h.parent t = none)
    (h1 : InTree h s x) (h2 : InTree h t x) : s = t := by
  rcases InTree_linear h1 h2 with (rfl | h3) | (rfl | h3)
  · rfl
  · exact absurd h3 (no_desc_of_root ht)
  · rfl
  · exact absurd h3 (no_desc_of_root hs)

private theorem same_tree {h h' : Heap} (F : Forest h) {c n r r' : Nat}
    (hr : h.parent r = none) (hr' : h'.parent r' = none)
    (hsame : ∀ x, x ≠ c → x ≠ n → h'.parent x = h.parent x)
    (hc : InTree h r c) (hn : InTree h r n) (hpc : h'.parent c = some n)
    (hn' : InTree h' r' n) (hroot : r ≠ c → r ≠ n → r' = r) (hroot2 : InTree h r r') (x : Nat)
    (hx : h.alive x) : InTree h' r' x ↔ InTree h r x := by
  have hc' : InTree h' r' c := by
    rcases hn' with rfl | h1
    · exact Or.inr (.base hpc)
    · exact Or.inr (.step hpc h1)
  constructor
  · intro h1
    obtain ⟨d, hd⟩ := F.acyclic x hx
    obtain ⟨s, hs, hsx⟩ := exists_root hd
    by_cases hsr : s = r
    · rw [hsr] at hsx; exact hsx
    · exfalso
      have hnot : ∀ y, InTree h s y → y ≠ c ∧ y ≠ n := by
        intro y hy
        constructor
        · rintro rfl; exact hsr (root_unique hs hr hy hc)
        · rintro rfl; exact hsr (root_unique hs hr hy hn)
      have hsx' : InTree h' s x := by
        rcases hsx with rfl | h2
        · exact Or.inl rfl
        · refine Or.inr (Desc_congr h2 ?_)
          rintro y (rfl | ⟨_, h3⟩)
          · exact hsame _ (hnot _ (Or.inr h2)).1 (hnot _ (Or.inr h2)).2
          · exact hsame _ (hnot _ (Or.inr h3)).1 (hnot _ (Or.inr h3)).2
      have hs' : h'.parent s = none := by
        rw [hsame s (hnot s (Or.inl rfl)).1 (hnot s (Or.inl rfl)).2]; exact hs
      have := root_unique hs' hr' hsx' h1
      subst this
      exact hsr (root_unique hs hr (Or.inl rfl) hroot2)
  · intro h1
    obtain ⟨d, hd⟩ := F.acyclic x hx
    induction hd with
    | @root x hp =>
      rcases h1 with rfl | h1
      · by_cases h2 : x = c
        · subst h2; exact hc'
        · by_cases h3 : x = n
          · subst h3; exact hn'
          · exact Or.inl (hroot h2 h3).symm
      · exact absurd h1 (no_desc_of_root hp)
    | @child x a d hp _ ih =>
      by_cases h2 : x = c
      · subst h2; exact hc'
      · by_cases h3 : x = n
        · subst h3; exact hn'
        · have h4 : InTree h r a := by
            rcases h1 with rfl | h1
            · rw [hr] at hp; cases hp
            · rcases Desc_parent hp h1 with rfl | h5
              · exact Or.inl rfl
              · exact Or.inr h5
          have hp' : h'.parent x = some a := by rw [hsame x h2 h3]; exact hp
          rcases ih (F.parent_alive _ _ hx hp) h4 with rfl | h5
          · exact Or.inr (.base hp')
          · exact Or.inr (.step hp' h5)

private theorem remove_ok {h : Heap} (F : Forest h) {p n : Nat} (hn : h.alive n)
    (hp : h.parent n = some p) : ∃ k, h.removeChild p n = some k ∧ Forest k ∧
      k.alive = h.alive ∧ k.parent n = none ∧ (∀ x, x ≠ n → k.parent x = h.parent x) ∧
      k.scopes = n :: h.scopes ∧ k.next = h.next ∧ (∀ x, x ≠ p → k.children x = h.children x) := by
  have hpa := F.parent_alive _ _ hn hp
  have hm := (F.agree p hpa n).mpr ⟨hn, hp⟩
  have hk : h.removeChild p n = some { h with
      children := upd h.children p ((h.children p).erase n)
      parent := upd h.parent n none
      scopes := n :: h.scopes } := by simp [Heap.removeChild, hm]
  exact ⟨_, hk, forest_remove F hpa hk, rfl, upd_same .., fun x hx => upd_ne _ _ hx, rfl, rfl,
    fun x hx => upd_ne _ _ hx⟩

/-- C23. `Reparent` of two distinct nodes of the tree with root `r`: the result is a forest with the
same nodes; the tree of the (possibly new) root has the same nodes as before; `newParent` is the
parent of `child`. If `newParent` was not below `child` nothing else changes; otherwise `newParent`
takes the former place of `child` and nothing else changes. -/
theorem C23_reparent {h : Heap} (F : Forest h) (r child newParent : Nat)
    (hr : h.alive r ∧ h.parent r = none)
    (hc : h.alive child ∧ InTree h r child) (hn : h.alive newParent ∧ InTree h r newParent)
    (hne : newParent ≠ child) :
    ∃ h' r', h.reparent child newParent (some r) = some (h', some r') ∧ Forest h' ∧
      h'.alive = h.alive ∧ h'.parent r' = none ∧
      (∀ x, h.alive x → (InTree h' r' x ↔ InTree h r x)) ∧
      h'.parent child = some newParent ∧
      (¬ Desc h newParent child → r' = r ∧ (∀ x, x ≠ child → h'.parent x = h.parent x) ∧
        (∀ a, a ≠ newParent → h.parent child ≠ some a → h'.children a = h.children a)) ∧
      (Desc h newParent child → h'.parent newParent = h.parent child ∧
        r' = (if r = child then newParent else r) ∧
        ∀ x, x ≠ child → x ≠ newParent → h'.parent x = h.parent x) := by
  obtain ⟨hca, hct⟩ := hc
  obtain ⟨hna, hnt⟩ := hn
  have acyc : ∀ x, h.alive x → ¬ Desc h x x := fun x hx => by
    obtain ⟨d, hd⟩ := F.acyclic x hx; exact not_desc_self hd
  cases hop : h.parent child with
  | some p =>
    obtain ⟨h1, hrem, F1, hal1, hpc1, hpar1, hsc1, hnx1, hch1⟩ := remove_ok F hca hop
    have hdesc1 : Desc h1 newParent child ↔ Desc h newParent child := by
      constructor
      · intro hd
        refine Desc_mono (h' := h1) ?_ hd
        intro y a hy
        by_cases hyc : y = child
        · subst hyc; rw [hpc1] at hy; cases hy
        · rw [hpar1 y hyc] at hy; exact hy
      · intro hd
        refine Desc_congr hd ?_
        rintro y (rfl | ⟨_, h3⟩)
        · exact hpar1 _ hne
        · refine hpar1 _ ?_
          rintro rfl; exact acyc _ hca h3
    obtain ⟨b, hb, hbi⟩ := C22_isDescendantOf F1 newParent child (by rw [hal1]; exact hna)
    have hrc : r ≠ child := by rintro rfl; rw [hr.2] at hop; cases hop
    cases b with
    | false =>
      have hnd1 : ¬ Desc h1 newParent child := fun hd => by simpa using hbi.mpr hd
      have hnd : ¬ Desc h newParent child := fun hd => hnd1 (hdesc1.mpr hd)
      have hF' := forest_add F1 (p := newParent) (n := child) (by rw [hal1]; exact hna)
        (by rw [hsc1]; exact List.mem_cons_self ..) hne hnd1
      have hpc : (h1.addChild newParent child).parent child = some newParent := upd_same ..
      have hpar : ∀ x, x ≠ child → (h1.addChild newParent child).parent x = h.parent x := by
        intro x hx; rw [← hpar1 x hx]; exact upd_ne _ _ hx
      refine ⟨h1.addChild newParent child, r, ?_, hF', hal1, ?_, ?_, hpc, ?_, fun hd => absurd hd hnd⟩
      · simp [Heap.reparent, hop, hrem, hb]
      · rw [hpar r hrc]; exact hr.2
      · intro x hx
        refine same_tree F hr.2 (by rw [hpar r hrc]; exact hr.2) (fun x h1 _ => hpar x h1) hct hnt
          hpc ?_ (fun _ _ => rfl) (Or.inl rfl) x hx
        rcases hnt with h2 | h2
        · exact Or.inl h2
        · refine Or.inr (Desc_congr h2 ?_)
          rintro y (rfl | ⟨h3, _⟩)
          · exact hpar _ hne
          · refine hpar _ ?_
            rintro rfl; exact hnd h3
      · intro _
        refine ⟨rfl, hpar, ?_⟩
        intro a ha hpa
        have hap : a ≠ p := by rintro rfl; exact hpa rfl
        rw [← hch1 a hap]; exact upd_ne _ _ ha
    | true =>
      have hd : Desc h newParent child := hdesc1.mp (hbi.mp rfl)
      obtain ⟨q, hq⟩ : ∃ q, h1.parent newParent = some q := by
        have hd1 := hdesc1.mpr hd
        cases hd1 with
        | base h2 => exact ⟨_, h2⟩
        | step h2 _ => exact ⟨_, h2⟩
      obtain ⟨h2, hrem2, F2, hal2, hpn2, hpar2, hsc2, hnx2, hch2⟩ :=
        remove_ok F1 (by rw [hal1]; exact hna) hq
      have hpa : h.alive p := F.parent_alive _ _ hca hop
      have hnp : Desc h newParent p := Desc_trans hd (.base hop)
      have hpn : p ≠ newParent := by rintro rfl; exact acyc _ hpa hnp
      have hpc' : p ≠ child := by rintro rfl; exact acyc _ hpa (.base hop)
      have hsub2 : ∀ y a, h2.parent y = some a → h.parent y = some a := by
        intro y a hy
        by_cases hyn : y = newParent
        · subst hyn; rw [hpn2] at hy; cases hy
        · rw [hpar2 y hyn] at hy
          by_cases hyc : y = child
          · subst hyc; rw [hpc1] at hy; cases hy
          · rw [hpar1 y hyc] at hy; exact hy
      have F3 := forest_add F2 (p := p) (n := newParent) (by rw [hal2, hal1]; exact hpa)
        (by rw [hsc2]; exact List.mem_cons_self ..) hpn (by
          intro h3
          exact acyc _ hpa (Desc_trans (Desc_mono hsub2 h3) hnp))
      obtain ⟨h3, hh3⟩ : ∃ k, k = h2.addChild p newParent := ⟨_, rfl⟩
      rw [← hh3] at F3
      have hal3 : h3.alive = h.alive := by rw [hh3]; show h2.alive = _; rw [hal2, hal1]
      have hpn3 : h3.parent newParent = some p := by rw [hh3]; exact upd_same ..
      have hpc3 : h3.parent child = none := by
        rw [hh3]; show upd _ _ _ _ = _
        rw [upd_ne _ _ (Ne.symm hne), hpar2 _ (Ne.symm hne)]; exact hpc1
      have hpar3 : ∀ x, x ≠ child → x ≠ newParent → h3.parent x = h.parent x := by
        intro x hxc hxn
        rw [hh3]; show upd _ _ _ _ = _
        rw [upd_ne _ _ hxn, hpar2 x hxn, hpar1 x hxc]
      have hcs3 : child ∈ h3.scopes := (F3.roots child).mpr ⟨by rw [hal3]; exact hca, hpc3⟩
      have hpchain : ∀ y, y = p ∨ Desc h p y → y ≠ child ∧ y ≠ newParent := by
        rintro y (rfl | hy)
        · exact ⟨hpc', hpn⟩
        · constructor
          · rintro rfl; exact acyc _ hca (.step hop hy)
          · rintro rfl; exact acyc _ hna (Desc_trans hnp hy)
      have hnd3 : ¬ Desc h3 newParent child := by
        intro h4
        rcases Desc_parent hpn3 h4 with h5 | h5
        · exact hpc' h5
        · have key : ∀ y z, Desc h3 y z → (y = p ∨ Desc h p y) → Desc h y z := by
            intro y z h6
            induction h6 with
            | @base y a h7 =>
              intro hy
              rw [hpar3 y (hpchain y hy).1 (hpchain y hy).2] at h7; exact .base h7
            | @step y e a h7 _ ih =>
              intro hy
              rw [hpar3 y (hpchain y hy).1 (hpchain y hy).2] at h7
              refine .step h7 (ih (Or.inr ?_))
              rcases hy with rfl | hy
              · exact .base h7
              · exact Desc_trans hy (.base h7)
          have h6 := key p child h5 (Or.inl rfl)
          exact acyc _ hca (.step hop h6)
      have hF' := forest_add F3 (p := newParent) (n := child) (by rw [hal3]; exact hna) hcs3 hne hnd3
      have hpc : (h3.addChild newParent child).parent child = some newParent := upd_same ..
      have hparc : ∀ x, x ≠ child → (h3.addChild newParent child).parent x = h3.parent x :=
        fun x hx => upd_ne _ _ hx
      have hpar : ∀ x, x ≠ child → x ≠ newParent →
          (h3.addChild newParent child).parent x = h.parent x := by
        intro x hx hxn; rw [hparc x hx, hpar3 x hx hxn]
      have hpnf : (h3.addChild newParent child).parent newParent = some p := by
        rw [hparc _ hne, hpn3]
      have hrn : r ≠ newParent := by
        rintro rfl; exact no_desc_of_root hr.2 hd
      have hr' : (h3.addChild newParent child).parent r = none := by
        rw [hpar r hrc hrn]; exact hr.2
      refine ⟨h3.addChild newParent child, r, ?_, hF', hal3, hr', ?_, hpc, fun hnd => absurd hd hnd,
        fun _ => ⟨hpnf, by rw [if_neg hrc], hpar⟩⟩
      · simp [Heap.reparent, hop, hrem, hb, hq, hrem2, hh3]
      · intro x hx
        refine same_tree F hr.2 hr' hpar hct hnt hpc ?_ (fun _ _ => rfl) (Or.inl rfl) x hx
        have hpt : InTree h r p := by
          rcases hct with h5 | h5
          · exact absurd h5.symm hrc
          · rcases Desc_parent hop h5 with h6 | h6
            · exact Or.inl h6
            · exact Or.inr h6
        rcases hpt with rfl | h5
        · exact Or.inr (.base hpnf)
        · refine Or.inr (.step hpnf (Desc_congr h5 ?_))
          rintro y (rfl | ⟨h6, _⟩)
          · exact hpar _ hpc' hpn
          · exact hpar _ (hpchain y (Or.inr h6)).1 (hpchain y (Or.inr h6)).2
  | none =>
    have hrc : child = r := by
      rcases hct with h1 | h1
      · exact h1
      · exact absurd h1 (no_desc_of_root hop)
    subst hrc
    have hd : Desc h newParent child := by
      rcases hnt with h1 | h1
      · exact absurd h1 hne
      · exact h1
    obtain ⟨b, hb, hbi⟩ := C22_isDescendantOf F newParent child hna
    have hbt : b = true := hbi.mpr hd
    subst hbt
    obtain ⟨q, hq⟩ : ∃ q, h.parent newParent = some q := by
      cases hd with
      | base h2 => exact ⟨_, h2⟩
      | step h2 _ => exact ⟨_, h2⟩
    obtain ⟨h2, hrem2, F2, hal2, hpn2, hpar2, hsc2, hnx2, hch2⟩ := remove_ok F hna hq
    have hcs2 : child ∈ h2.scopes := by
      rw [hsc2]; exact List.mem_cons_of_mem _ ((F.roots child).mpr hr)
    have hnd2 : ¬ Desc h2 newParent child := no_desc_of_root hpn2
    have hF' := forest_add F2 (p := newParent) (n := child) (by rw [hal2]; exact hna) hcs2 hne hnd2
    have hpc : (h2.addChild newParent child).parent child = some newParent := upd_same ..
    have hparc : ∀ x, x ≠ child → (h2.addChild newParent child).parent x = h2.parent x :=
      fun x hx => upd_ne _ _ hx
    have hpar : ∀ x, x ≠ child → x ≠ newParent →
        (h2.addChild newParent child).parent x = h.parent x := by
      intro x hx hxn; rw [hparc x hx, hpar2 x hxn]
    have hpnf : (h2.addChild newParent child).parent newParent = none := by
      rw [hparc _ hne, hpn2]
    refine ⟨h2.addChild newParent child, newParent, ?_, hF', hal2, hpnf, ?_, hpc,
      fun hnd => absurd hd hnd, fun _ => ⟨hpnf, by rw [if_pos rfl], hpar⟩⟩
    · simp [Heap.reparent, hop, hb, hq, hrem2]
    · intro x hx
      exact same_tree F hr.2 hpnf hpar hct hnt hpc (Or.inl rfl)
        (fun h1 => absurd rfl h1) (Or.inr hd) x hx

/-- In the chain 0 <- 1 <- 2, making 2 the parent of the root 0 makes 2 the root. -/
example : (exHeap.reparent 0 2 (some 0)).map (fun k => (k.1.parent 0, k.1.parent 1, k.1.parent 2,
    k.1.children 2, k.1.children 1, k.2)) = some (some 2, some 0, none, [0], [], some 2) := rfl

/-! ## C64: traversals and siblings -/

private theorem mapM_some {f : Nat → Option (List Nat)} {g : Nat → List Nat} (l : List Nat)
    (hl : ∀ c ∈ l, f c = some (g c)) : l.mapM f = some (l.map g) := by
  induction l with
  | nil => rfl
  | cons a l ih =>
    rw [List.mapM_cons, hl a (List.mem_cons_self ..),
      ih (fun c hc => hl c (List.mem_cons_of_mem _ hc))]
    rfl

/-- What a traversal of the tree below `n` must return, up to the order. -/
private def Covers (h : Heap) (n : Nat) (L : List Nat) : Prop :=
  L.Nodup ∧ ∀ x, x ∈ L ↔ h.alive x ∧ InTree h n x

private theorem siblings_apart {h : Heap} (F : Forest h) {n c e x : Nat} (hn : h.alive n)
    (hc : c ∈ h.children n) (he : e ∈ h.children n) (h1 : InTree h c x) (h2 : InTree h e x) :
    c = e := by
  obtain ⟨d, hd⟩ := F.acyclic n hn
  have hc' := Depth.child ((F.agree n hn c).mp hc).2 hd
  have he' := Depth.child ((F.agree n hn e).mp he).2 hd
  rcases InTree_linear h1 h2 with (h3 | h3) | (h3 | h3)
  · exact h3.symm
  · obtain ⟨k, hk, h4⟩ := Depth_desc_lt h3 he'
    have := Depth_unique hc' h4; omega
  · exact h3
  · obtain ⟨k, hk, h4⟩ := Depth_desc_lt h3 hc'
    have := Depth_unique he' h4; omega

private theorem covers_node {h : Heap} (F : Forest h) {n : Nat} (hn : h.alive n)
    {g : Nat → List Nat} (hg : ∀ c ∈ h.children n, Covers h c (g c)) :
    ((h.children n).flatMap g).Nodup ∧
      (∀ x, x ∈ (h.children n).flatMap g ↔ h.alive x ∧ Desc h x n) := by
  constructor
  · rw [List.nodup_flatMap]
    refine ⟨fun c hc => (hg c hc).1, ?_⟩
    refine (F.once n hn).imp_of_mem ?_
    intro c e hc he hce x hx hy
    exact hce (siblings_apart F hn hc he (((hg c hc).2 x).mp hx).2 (((hg e he).2 x).mp hy).2)
  · intro x
    rw [List.mem_flatMap]
    constructor
    · rintro ⟨c, hc, hx⟩
      obtain ⟨h1, h2⟩ := ((hg c hc).2 x).mp hx
      have hcp := ((F.agree n hn c).mp hc).2
      refine ⟨h1, ?_⟩
      rcases h2 with rfl | h2
      · exact .base hcp
      · exact Desc_trans h2 (.base hcp)
    · rintro ⟨h1, h2⟩
      have key : ∃ c ∈ h.children n, InTree h c x := by
        clear hg
        induction h2 with
        | @base x a hp => exact ⟨x, (F.agree a hn x).mpr ⟨h1, hp⟩, Or.inl rfl⟩
        | @step x b a hp _ ih =>
          obtain ⟨c, hc, h3⟩ := ih hn (F.parent_alive _ _ h1 hp)
          refine ⟨c, hc, Or.inr ?_⟩
          rcases h3 with rfl | h3
          · exact .base hp
          · exact .step hp h3
      obtain ⟨c, hc, h3⟩ := key
      exact ⟨c, hc, ((hg c hc).2 x).mpr ⟨h1, h3⟩⟩

private theorem traversal_aux {h : Heap} (F : Forest h) : ∀ (fuel n d : Nat), h.alive n →
    Depth h n d → h.next ≤ fuel + d →
    (∃ L, h.preOrder fuel n = some L ∧ Covers h n L ∧ L.Pairwise (fun a b => ¬ Desc h a b)) ∧
    (∃ L, h.postOrder fuel n = some L ∧ Covers h n L ∧ L.Pairwise (fun a b => ¬ Desc h b a)) := by
  intro fuel
  induction fuel with
  | zero =>
    intro n d hn hd hle
    have := depth_lt_next F hd hn; omega
  | succ fuel ih =>
    intro n d hn hd hle
    have hkid : ∀ c ∈ h.children n, h.alive c ∧ Depth h c (d + 1) := by
      intro c hc
      obtain ⟨h1, h2⟩ := (F.agree n hn c).mp hc
      exact ⟨h1, .child h2 hd⟩
    have hself : ¬ Desc h n n := not_desc_self hd
    have hup : ∀ x, Desc h x n → ¬ Desc h n x := fun x hx h1 => hself (Desc_trans h1 hx)
    have ihk := fun c hc => ih c (d + 1) (hkid c hc).1 (hkid c hc).2 (by omega)
    have key : ∀ (R : Nat → Nat → Prop) (f : Nat → Option (List Nat)),
        (∀ x y, R x y → R x y) →
        (∀ c ∈ h.children n, ∃ L, f c = some L ∧ Covers h c L ∧ L.Pairwise R) →
        (∀ c e x y, c ∈ h.children n → e ∈ h.children n → c ≠ e → InTree h c x → InTree h e y →
          R x y) →
        ∃ M, ((h.children n).mapM f).map List.flatten = some M ∧ M.Nodup ∧
          (∀ x, x ∈ M ↔ h.alive x ∧ Desc h x n) ∧ M.Pairwise R := by
      intro R f _ hf hR
      have : ∃ g : Nat → List Nat, ∀ c ∈ h.children n, f c = some (g c) ∧ Covers h c (g c) ∧
          (g c).Pairwise R := by
        classical
        refine ⟨fun c => if hc : c ∈ h.children n then (hf c hc).choose else [], fun c hc => ?_⟩
        simp only [hc, dite_true]
        exact (hf c hc).choose_spec
      obtain ⟨g, hg⟩ := this
      obtain ⟨h1, h2⟩ := covers_node F hn (fun c hc => (hg c hc).2.1)
      refine ⟨(h.children n).flatMap g, ?_, h1, h2, ?_⟩
      · rw [mapM_some _ (fun c hc => (hg c hc).1)]; rfl
      · rw [List.pairwise_flatMap]
        refine ⟨fun c hc => (hg c hc).2.2, ?_⟩
        refine (F.once n hn).imp_of_mem ?_
        intro c e hc he hce x hx y hy
        exact hR c e x y hc he hce ((((hg c hc).2.1).2 x).mp hx).2 ((((hg e he).2.1).2 y).mp hy).2
    have hapart : ∀ c e x y, c ∈ h.children n → e ∈ h.children n → c ≠ e → InTree h c x →
        InTree h e y → ¬ Desc h x y := by
      intro c e x y hc he hce hx hy h1
      refine hce (siblings_apart F hn hc he hx (Or.inr ?_))
      rcases hy with rfl | hy
      · exact h1
      · exact Desc_trans h1 hy
    constructor
    · obtain ⟨M, hM, hnd, hmem, hpw⟩ := key (fun a b => ¬ Desc h a b) (h.preOrder fuel)
        (fun _ _ h => h) (fun c hc => (ihk c hc).1) hapart
      have hpre : h.preOrder (fuel + 1) n = some (n :: M) := by
        rw [Heap.preOrder]
        cases hx : (h.children n).mapM (h.preOrder fuel) with
        | none => rw [hx] at hM; cases hM
        | some ls => rw [hx] at hM; cases hM; rfl
      refine ⟨n :: M, hpre, ⟨?_, ?_⟩, ?_⟩
      · refine List.nodup_cons.mpr ⟨fun hm => ?_, hnd⟩
        exact hself ((hmem n).mp hm).2
      · intro x
        rw [List.mem_cons, hmem]
        constructor
        · rintro (rfl | ⟨h1, h2⟩)
          · exact ⟨hn, Or.inl rfl⟩
          · exact ⟨h1, Or.inr h2⟩
        · rintro ⟨h1, rfl | h2⟩
          · exact Or.inl rfl
          · exact Or.inr ⟨h1, h2⟩
      · exact List.pairwise_cons.mpr ⟨fun x hx => hup x ((hmem x).mp hx).2, hpw⟩
    · obtain ⟨M, hM, hnd, hmem, hpw⟩ := key (fun a b => ¬ Desc h b a) (h.postOrder fuel)
        (fun _ _ h => h) (fun c hc => (ihk c hc).2)
        (fun c e x y hc he hce hx hy => hapart e c y x he hc (Ne.symm hce) hy hx)
      have hpost : h.postOrder (fuel + 1) n = some (M ++ [n]) := by
        rw [Heap.postOrder]
        cases hx : (h.children n).mapM (h.postOrder fuel) with
        | none => rw [hx] at hM; cases hM
        | some ls => rw [hx] at hM; cases hM; rfl
      refine ⟨M ++ [n], hpost, ⟨?_, ?_⟩, ?_⟩
      · refine List.nodup_append.mpr ⟨hnd, List.nodup_singleton _, ?_⟩
        intro x hx y hy
        rw [List.mem_singleton] at hy; subst hy
        rintro rfl
        exact hself ((hmem _).mp hx).2
      · intro x
        rw [List.mem_append, hmem, List.mem_singleton]
        constructor
        · rintro (⟨h1, h2⟩ | rfl)
          · exact ⟨h1, Or.inr h2⟩
          · exact ⟨hn, Or.inl rfl⟩
        · rintro ⟨h1, rfl | h2⟩
          · exact Or.inr rfl
          · exact Or.inl ⟨h1, h2⟩
      · refine List.pairwise_append.mpr ⟨hpw, List.pairwise_singleton _ _, ?_⟩
        intro x hx y hy
        rw [List.mem_singleton] at hy; subst hy
        exact hup x ((hmem x).mp hx).2

/-- C64. `PreOrderTraversal` ends and applies the function exactly once to each node of the tree
below `n`, and to no other, ancestors before descendants. -/
theorem C64_preOrder {h : Heap} (F : Forest h) (n : Nat) (hn : h.alive n) :
    ∃ L, h.preOrder h.next n = some L ∧ L.Nodup ∧ (∀ x, x ∈ L ↔ h.alive x ∧ InTree h n x) ∧
      L.Pairwise (fun a b => ¬ Desc h a b) := by
  obtain ⟨d, hd⟩ := F.acyclic n hn
  obtain ⟨L, h1, ⟨h2, h3⟩, h4⟩ := (traversal_aux F h.next n d hn hd (by omega)).1
  exact ⟨L, h1, h2, h3, h4⟩

/-- C64. The same for `PostOrderTraversal`, descendants before ancestors. -/
theorem C64_postOrder {h : Heap} (F : Forest h) (n : Nat) (hn : h.alive n) :
    ∃ L, h.postOrder h.next n = some L ∧ L.Nodup ∧ (∀ x, x ∈ L ↔ h.alive x ∧ InTree h n x) ∧
      L.Pairwise (fun a b => ¬ Desc h b a) := by
  obtain ⟨d, hd⟩ := F.acyclic n hn
  obtain ⟨L, h1, ⟨h2, h3⟩, h4⟩ := (traversal_aux F h.next n d hn hd (by omega)).2
  exact ⟨L, h1, h2, h3, h4⟩

example : exHeap.preOrder exHeap.next 0 = some [0, 1, 2] ∧
    exHeap.postOrder exHeap.next 0 = some [2, 1, 0] := by decide

private theorem prev_iff {l : List Nat} (hl : l.Nodup) {x y : Nat} (hx : x ∈ l) :
    (if l.idxOf x = 0 then none else l[l.idxOf x - 1]?) = some y ↔
      ∃ pre post, l = pre ++ y :: x :: post := by
  constructor
  · intro h
    split at h
    · cases h
    · rename_i h0
      have hlt := List.idxOf_lt_length_of_mem hx
      obtain ⟨h1, h2⟩ := List.getElem?_eq_some_iff.mp h
      refine ⟨l.take (l.idxOf x - 1), l.drop (l.idxOf x + 1), ?_⟩
      conv_lhs => rw [← List.take_append_drop (l.idxOf x - 1) l]
      rw [List.drop_eq_getElem_cons h1, h2]
      congr 2
      have : l.idxOf x - 1 + 1 = l.idxOf x := by omega
      rw [this, List.drop_eq_getElem_cons hlt, List.getElem_idxOf hlt]
  · rintro ⟨pre, post, rfl⟩
    have hnd := List.nodup_append.mp hl
    have hxpre : x ∉ pre := by
      intro hm
      exact hnd.2.2 x hm x (List.mem_cons_of_mem _ (List.mem_cons_self ..)) rfl
    have hyx : y ≠ x := by
      have := (List.nodup_cons.mp hnd.2.1).1
      rintro rfl; exact this (List.mem_cons_self ..)
    have hidx : (pre ++ y :: x :: post).idxOf x = pre.length + 1 := by
      rw [List.idxOf_append_of_notMem hxpre, List.idxOf_cons_ne _ hyx, List.idxOf_cons_self]
    rw [hidx]
    simp

/-- C64. `GetNext` and `GetPrevious` are the neighbours of the node in the child list of its parent,
and none at the ends or for a root. -/
theorem C64_siblings {h : Heap} (F : Forest h) (x y : Nat) (hx : h.alive x) :
    (h.getNext x = some y ↔ ∃ p pre post, h.parent x = some p ∧
      h.children p = pre ++ x :: y :: post) ∧
    (h.getPrevious x = some y ↔ ∃ p pre post, h.parent x = some p ∧
      h.children p = pre ++ y :: x :: post) := by
  cases hp : h.parent x with
  | none => simp [Heap.getNext, Heap.getPrevious, hp]
  | some p =>
    have hpa := F.parent_alive _ _ hx hp
    have hm := (F.agree p hpa x).mpr ⟨hx, hp⟩
    have hnd := F.once p hpa
    constructor
    · rw [Heap.getNext, hp]
      dsimp only
      rw [prev_iff (List.nodup_reverse.mpr hnd) (List.mem_reverse.mpr hm)]
      constructor
      · rintro ⟨pre, post, he⟩
        refine ⟨p, post.reverse, pre.reverse, rfl, ?_⟩
        rw [← List.reverse_reverse (h.children p), he]; simp
      · rintro ⟨p', pre, post, hpp, he⟩
        cases hpp
        exact ⟨post.reverse, pre.reverse, by rw [he]; simp⟩
    · rw [Heap.getPrevious, hp]
      dsimp only
      rw [prev_iff hnd hm]
      constructor
      · rintro ⟨pre, post, he⟩; exact ⟨p, pre, post, rfl, he⟩
      · rintro ⟨p', pre, post, hpp, he⟩; cases hpp; exact ⟨pre, post, he⟩

/-- C64. Starting from `GetFirst` and calling `GetNext`, one meets each child of a node exactly once; a node without
children has no first one. -/
theorem C64_children_walk {h : Heap} (F : Forest h) (x : Nat) (hx : h.alive x) :
    ∃ L : List Nat, L.Nodup ∧ (∀ y, y ∈ L ↔ h.alive y ∧ h.parent y = some x) ∧ h.getFirst x = L[0]? ∧
      ∀ i y, L[i]? = some y → h.getNext y = L[i + 1]? := by
  refine ⟨h.children x, F.once x hx, F.agree x hx, rfl, ?_⟩
  intro i y hy
  obtain ⟨hi, hyi⟩ := List.getElem?_eq_some_iff.mp hy
  obtain ⟨hya, hyp⟩ := (F.agree x hx y).1 (List.mem_of_getElem? hy)
  have hs := fun z => (C64_siblings F y z hya).1
  apply Option.ext
  intro z
  rw [hs z]
  constructor
  · rintro ⟨p, pre, post, hp, he⟩
    rw [hyp] at hp
    cases hp
    have hnd := F.once x hx
    have hpl : pre.length < (h.children x).length := by rw [he]; simp
    have hpy : (h.children x)[pre.length] = y := by simp [he]
    have : i = pre.length := (List.Nodup.getElem_inj_iff hnd).1 (hyi.trans hpy.symm)
    rw [he, this]
    simp
  · intro hz
    obtain ⟨hz1, hz2⟩ := List.getElem?_eq_some_iff.mp hz
    refine ⟨x, (h.children x).take i, (h.children x).drop (i + 2), hyp, ?_⟩
    conv_lhs => rw [← List.take_append_drop i (h.children x)]
    rw [List.drop_eq_getElem_cons hi, hyi, List.drop_eq_getElem_cons hz1, hz2]

/-- Non-vacuity: a node with two children. -/
example : (((Heap.empty.new.new).addChild 0 1).new.addChild 0 2).getFirst 0 = some 1 ∧
    (((Heap.empty.new.new).addChild 0 1).new.addChild 0 2).getNext 1 = some 2 ∧
    (((Heap.empty.new.new).addChild 0 1).new.addChild 0 2).getNext 2 = none := by decide

end PathPlanning
