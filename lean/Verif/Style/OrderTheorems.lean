/- C87: only rules that match count, and their order only among those that are equally specific. -/
import Verif.Style.CascadeTheorems
namespace Verif.Style
open Spec

/-- The contents of the rules that match an element and are this specific, in order of appearance. -/
def Spec.matchingBlocks {σ : Type} (specificity : σ → Nat) (isMatch : σ → Bool) (rules : List (σ × List (Declaration × Bool))) (k : Nat) :
    List (List (Declaration × Bool)) :=
  (rules.filter fun r => isMatch r.1 && specificity r.1 == k).map Prod.snd

/-- A list that is sorted by a key is determined by its parts with the same key. -/
theorem sorted_unique {β : Type} (key : β → Nat) : ∀ (A B : List β), A.Pairwise (fun a b => key a ≤ key b) →
    B.Pairwise (fun a b => key a ≤ key b) → (∀ k, A.filter (fun a => key a == k) = B.filter (fun b => key b == k)) → A = B
  | [], [], _, _, _ => rfl
  | [], b :: B, _, _, h => by
    have := h (key b)
    simp at this
  | a :: A, [], _, _, h => by
    have := h (key a)
    simp at this
  | a :: A, b :: B, hA, hB, h => by
    have hab : key a = key b := by
      have h1 : b ∈ (a :: A).filter (fun x => key x == key b) := by rw [h]; simp
      have h2 : a ∈ (b :: B).filter (fun x => key x == key a) := by rw [← h]; simp
      have h1 := (List.mem_filter.1 h1).1
      have h2 := (List.mem_filter.1 h2).1
      rw [List.pairwise_cons] at hA hB
      have h3 : key a ≤ key b := by
        rcases List.mem_cons.1 h1 with rfl | h1
        · exact Nat.le_refl _
        · exact hA.1 _ h1
      have h4 : key b ≤ key a := by
        rcases List.mem_cons.1 h2 with rfl | h2
        · exact Nat.le_refl _
        · exact hB.1 _ h2
      omega
    have he : a = b := by
      have := h (key a)
      simp only [List.filter_cons, hab, beq_self_eq_true, if_true] at this
      exact (List.cons.inj this).1
    subst he
    congr 1
    refine sorted_unique key A B (List.pairwise_cons.1 hA).2 (List.pairwise_cons.1 hB).2 fun k => ?_
    have := h k
    simp only [List.filter_cons] at this
    split at this
    · exact (List.cons.inj this).2
    · exact this

/-- Sorting is stable. -/
theorem mergeSort_filter_key {β : Type} (key : β → Nat) (l : List β) (k : Nat) :
    (l.mergeSort (fun a b => decide (key a ≤ key b))).filter (fun a => key a == k) = l.filter (fun a => key a == k) := by
  have h1 : (l.filter (fun a => key a == k)).Pairwise (fun a b => decide (key a ≤ key b) = true) := by
    rw [List.pairwise_filter]
    induction l with
    | nil => exact .nil
    | cons c l ih =>
      refine .cons (fun b _ ha hb => ?_) ih
      simp only [beq_iff_eq] at ha hb
      simp [ha, hb]
  have h2 : (l.filter (fun a => key a == k)).Sublist (l.mergeSort (fun a b => decide (key a ≤ key b))) :=
    List.sublist_mergeSort (by simp; omega) (by simp; omega) h1 List.filter_sublist
  have h3 := h2.filter (fun a => key a == k)
  rw [List.filter_filter] at h3
  simp only [Bool.and_self] at h3
  exact (h3.eq_of_length ((List.mergeSort_perm l _).filter _).length_eq.symm).symm

theorem sorted_matching {σ σ' : Type} {specificity : σ → Nat} {isMatch : σ → Bool} {specificity' : σ' → Nat} {isMatch' : σ' → Bool}
    {rules : List (σ × List (Declaration × Bool))} {rules' : List (σ' × List (Declaration × Bool))}
    (h : ∀ k, matchingBlocks specificity isMatch rules k = matchingBlocks specificity' isMatch' rules' k) :
    ((rules.mergeSort (fun a b => decide (specificity a.1 ≤ specificity b.1))).filter (fun r => isMatch r.1)).map Prod.snd =
      ((rules'.mergeSort (fun a b => decide (specificity' a.1 ≤ specificity' b.1))).filter (fun r => isMatch' r.1)).map Prod.snd := by
  have key : ∀ {τ : Type} (sp : τ → Nat) (m : τ → Bool) (rs : List (τ × List (Declaration × Bool))) (k : Nat),
      ((((rs.mergeSort (fun a b => decide (sp a.1 ≤ sp b.1))).filter (fun r => m r.1)).map fun r => (sp r.1, r.2)).filter
        fun x => x.1 == k) = (matchingBlocks sp m rs k).map fun c => (k, c) := by
    intro τ sp m rs k
    have := mergeSort_filter_key (fun r : τ × List (Declaration × Bool) => sp r.1) rs k
    rw [List.filter_map, List.filter_filter]
    have e : ((fun x : Nat × List (Declaration × Bool) => x.1 == k) ∘ fun r : τ × List (Declaration × Bool) => (sp r.1, r.2)) =
        fun r => sp r.1 == k := rfl
    rw [e]
    have e2 : ∀ l : List (τ × List (Declaration × Bool)), (l.filter fun r => (sp r.1 == k) && m r.1) =
        (l.filter fun r => sp r.1 == k).filter fun r => m r.1 := by
      intro l
      rw [List.filter_filter]
      simp only [Bool.and_comm]
    rw [e2, this, List.filter_filter, matchingBlocks, List.map_map]
    refine List.map_congr_left fun r hr => ?_
    have := (List.mem_filter.1 hr).2
    simp only [Bool.and_eq_true, beq_iff_eq] at this
    simp [this.2]
  have sorted : ∀ {τ : Type} (sp : τ → Nat) (m : τ → Bool) (rs : List (τ × List (Declaration × Bool))),
      (((rs.mergeSort (fun a b => decide (sp a.1 ≤ sp b.1))).filter (fun r => m r.1)).map fun r => (sp r.1, r.2)).Pairwise
        fun a b => a.1 ≤ b.1 := by
    intro τ sp m rs
    rw [List.pairwise_map]
    refine List.Pairwise.filter _ ?_
    have := List.pairwise_mergeSort (le := fun a b : τ × List (Declaration × Bool) => decide (sp a.1 ≤ sp b.1)) (by simp; omega)
      (by simp; omega) rs
    exact this.imp (by simp)
  have := sorted_unique (fun x : Nat × List (Declaration × Bool) => x.1) _ _ (sorted specificity isMatch rules) (sorted specificity' isMatch' rules')
    (fun k => by rw [key, key, h])
  have := congrArg (List.map Prod.snd) this
  simpa [List.map_map, Function.comp_def] using this

/-- **C87** for the style of an element: it depends only on the rules that match the element, and on their order only among those that
are equally specific. Rules may be added or removed that are invalid or do not match, the selectors of a rule may become separate
rules, and rules may change places with rules that are more or less specific. -/
theorem C87_style {σ σ' : Type} {colors : Colors} {tokenize : String → List Item} {specificity : σ → Nat} {isMatch : σ → Bool}
    {specificity' : σ' → Nat} {isMatch' : σ' → Bool}
    {uaSheets authorSheets : List (List (SourceRule σ))} {uaSheets' authorSheets' : List (List (SourceRule σ'))}
    {uaSet authorSet : StyleSet σ} {uaSet' authorSet' : StyleSet σ'}
    {ua author : List (σ × List (Declaration × Bool))} {ua' author' : List (σ' × List (Declaration × Bool))}
    (hua : addStylesheets colors ⟨[]⟩ uaSheets = .ok uaSet) (hauthor : addStylesheets colors ⟨[]⟩ authorSheets = .ok authorSet)
    (hua' : addStylesheets colors ⟨[]⟩ uaSheets' = .ok uaSet') (hauthor' : addStylesheets colors ⟨[]⟩ authorSheets' = .ok authorSet')
    (Hua : Appearances colors uaSheets.flatten ua) (Hauthor : Appearances colors authorSheets.flatten author)
    (Hua' : Appearances colors uaSheets'.flatten ua') (Hauthor' : Appearances colors authorSheets'.flatten author')
    (h1 : ∀ k, matchingBlocks specificity isMatch ua k = matchingBlocks specificity' isMatch' ua' k)
    (h2 : ∀ k, matchingBlocks specificity isMatch author k = matchingBlocks specificity' isMatch' author' k)
    (element : Verif.Dom.ElementData) (parent : Option ComputedValues) :
    styleForElement colors tokenize (uaSet.finish specificity) (authorSet.finish specificity) isMatch element parent =
      styleForElement colors tokenize (uaSet'.finish specificity') (authorSet'.finish specificity') isMatch' element parent := by
  have hok : ∀ {τ : Type} {u a : StyleSet τ} {m : τ → Bool} (s : ComputedValues), styleForElement colors tokenize u a m element parent = .ok s →
      ∃ blocks, styleAttrBlock colors tokenize element = .ok blocks := by
    intro τ u a m s h
    unfold styleForElement at h
    cases hb : styleAttrBlock colors tokenize element with
    | ok blocks => exact ⟨blocks, rfl⟩
    | err => simp [hb] at h
    | panic => simp [hb] at h
  cases hb : styleAttrBlock colors tokenize element with
  | err => simp only [styleForElement, hb]
  | panic => simp only [styleForElement, hb]
  | ok blocks =>
    obtain ⟨s, hs⟩ : ∃ s, styleForElement colors tokenize (uaSet.finish specificity) (authorSet.finish specificity) isMatch element parent =
        .ok s := by
      simp only [styleForElement, hb]
      exact ⟨_, rfl⟩
    obtain ⟨s', hs'⟩ : ∃ s, styleForElement colors tokenize (uaSet'.finish specificity') (authorSet'.finish specificity') isMatch' element
        parent = .ok s := by
      simp only [styleForElement, hb]
      exact ⟨_, rfl⟩
    obtain ⟨attr, Hattr⟩ : ∃ attr, AttrContents colors tokenize element attr := by
      unfold AttrContents
      split
      · split
        · exact contents_exist _ _
        · exact ⟨[], rfl⟩
      · exact ⟨[], rfl⟩
    have e := style_values hua hauthor hs Hua Hauthor Hattr
    have e' := style_values hua' hauthor' hs' Hua' Hauthor' Hattr
    rw [hs, hs', e, e']
    have same : ∀ (origin : Origin) (important : Bool) (rules : List (σ × List (Declaration × Bool)))
        (rules' : List (σ' × List (Declaration × Bool))),
        (∀ k, matchingBlocks specificity isMatch rules k = matchingBlocks specificity' isMatch' rules' k) →
        (candidatesOf specificity isMatch origin important rules).map Candidate.declaration =
          (candidatesOf specificity' isMatch' origin important rules').map Candidate.declaration := by
      intro origin important rules rules' h
      rw [candidates_declarations, candidates_declarations]
      have := congrArg (List.flatMap (ofImportance important)) (sorted_matching h)
      simpa [List.flatMap_map] using this
    simp only [allCandidates, List.map_append, same _ _ _ _ h1, same _ _ _ _ h2]

end Verif.Style
