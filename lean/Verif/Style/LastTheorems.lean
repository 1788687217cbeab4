/- C102 for the style of an element: only the declarations that win count. -/
import Verif.Style.OrderTheorems
namespace Verif.Style
open Spec

/-- The last declaration of a property with an importance, in a list of declarations. -/
def Spec.lastIn (important : Bool) (p : Longhand) (contents : List (Declaration × Bool)) : Option Declaration :=
  ((contents.filter fun e => e.1.longhand == p && e.2 == important).map Prod.fst).getLast?

/-- The last declaration of a property with an importance, in the rules of a specificity that match. -/
def Spec.lastMatching {σ : Type} (specificity : σ → Nat) (isMatch : σ → Bool) (rules : List (σ × List (Declaration × Bool))) (k : Nat)
    (important : Bool) (p : Longhand) : Option Declaration :=
  lastIn important p (matchingBlocks specificity isMatch rules k).flatten

/-- A declaration wins for an element. -/
def Spec.Wins {σ : Type} (specificity : σ → Nat) (isMatch : σ → Bool) (ua author : List (σ × List (Declaration × Bool)))
    (attr : List (Declaration × Bool)) (declaration : Declaration) : Prop :=
  ∃ c, Winner specificity isMatch ua author attr c ∧ c.declaration = declaration

/-! ### Proofs -/

/-- The last declaration of a property. -/
def lastFor (p : Longhand) (ds : List Declaration) : Option Declaration := (ds.filter fun d => d.longhand == p).getLast?

theorem lastFor_append (p : Longhand) (a b : List Declaration) : lastFor p (a ++ b) = (lastFor p b).or (lastFor p a) := by
  simp [lastFor, List.getLast?_append]

theorem lastFor_importance (p : Longhand) (important : Bool) (contents : List (Declaration × Bool)) :
    lastFor p (ofImportance important contents) = lastIn important p contents := by
  unfold lastFor ofImportance lastIn
  rw [List.filter_map, List.filter_filter]
  rfl

theorem isLast_iff {ds : List Declaration} {d : Declaration} : IsLast ds d ↔ lastFor d.longhand ds = some d := by
  constructor
  · rintro ⟨a, b, rfl, h⟩
    have : b.filter (fun x => x.longhand == d.longhand) = [] := by
      rw [List.filter_eq_nil_iff]
      intro x hx
      simpa using h x hx
    simp [lastFor, this]
  · intro h
    rcases isLast_or ds d.longhand with ⟨d', hl, hp⟩ | hn
    · obtain ⟨a, b, rfl, hb⟩ := hl
      have : b.filter (fun x => x.longhand == d.longhand) = [] := by
        rw [List.filter_eq_nil_iff]
        intro x hx
        rw [← hp]
        simpa using hb x hx
      simp only [lastFor, List.filter_append, List.filter_cons, hp, beq_self_eq_true, if_true, this] at h
      simp only [List.getLast?_append, List.getLast?_singleton, Option.some_or, Option.some.injEq] at h
      subst h
      exact ⟨a, b, rfl, hb⟩
    · have : ds.filter (fun x => x.longhand == d.longhand) = [] := by
        rw [List.filter_eq_nil_iff]
        intro x hx
        simpa using hn x hx
      simp [lastFor, this] at h

theorem wins_iff {σ : Type} {specificity : σ → Nat} {isMatch : σ → Bool} {ua author : List (σ × List (Declaration × Bool))}
    {attr : List (Declaration × Bool)} {d : Declaration} : Wins specificity isMatch ua author attr d ↔
      lastFor d.longhand ((allCandidates specificity isMatch ua author attr).map Candidate.declaration) = some d := by
  rw [← isLast_iff]
  have hp := pairwise_allCandidates specificity isMatch ua author attr
  constructor
  · rintro ⟨c, ⟨hc, hw⟩, rfl⟩
    exact winner_last hp ((mem_allCandidates ..).mpr hc) (fun c' hc' => hw c' ((mem_allCandidates ..).mp hc'))
  · intro h
    obtain ⟨c, hc, hd, hw⟩ := last_winner hp h
    exact ⟨c, ⟨(mem_allCandidates ..).mp hc, fun c' hc' => hw c' ((mem_allCandidates ..).mpr hc')⟩, hd⟩

/-- In a list that is sorted by a key, the last declaration is the last one of those with the largest key that there is. -/
theorem lastFor_sorted (p : Longhand) : ∀ L : List (Nat × List Declaration), L.Pairwise (fun a b => a.1 ≤ b.1) →
    (lastFor p (L.flatMap Prod.snd) = none ∧ ∀ k, lastFor p ((L.filter fun x => x.1 == k).flatMap Prod.snd) = none) ∨
    ∃ k d, lastFor p (L.flatMap Prod.snd) = some d ∧ lastFor p ((L.filter fun x => x.1 == k).flatMap Prod.snd) = some d ∧
      ∀ k', k < k' → lastFor p ((L.filter fun x => x.1 == k').flatMap Prod.snd) = none
  | [], _ => .inl ⟨rfl, fun _ => rfl⟩
  | x :: L, h => by
    have hx := (List.pairwise_cons.1 h).1
    have small : ∀ k, k < x.1 → L.filter (fun y => y.1 == k) = [] := by
      intro k hk
      rw [List.filter_eq_nil_iff]
      intro y hy
      have := hx y hy
      simp only [beq_iff_eq]
      omega
    have cons : ∀ k, lastFor p (((x :: L).filter fun y => y.1 == k).flatMap Prod.snd) =
        (lastFor p ((L.filter fun y => y.1 == k).flatMap Prod.snd)).or (if x.1 = k then lastFor p x.2 else none) := by
      intro k
      rw [List.filter_cons]
      by_cases hk : x.1 = k
      · simp only [hk, beq_self_eq_true, if_true, List.flatMap_cons, lastFor_append]
      · simp [hk]
    rw [List.flatMap_cons, lastFor_append]
    rcases lastFor_sorted p L (List.pairwise_cons.1 h).2 with ⟨h1, h2⟩ | ⟨k, d, h1, h2, h3⟩
    · rw [h1, Option.none_or]
      rcases hp : lastFor p x.2 with _ | d
      · refine .inl ⟨rfl, fun k => ?_⟩
        rw [cons, h2, hp]
        simp
      · refine .inr ⟨x.1, d, rfl, ?_, fun k' hk => ?_⟩
        · rw [cons, h2, hp]
          simp
        · rw [cons, h2, if_neg (by omega)]
          rfl
    · have hk : x.1 ≤ k := by
        by_contra hk
        rw [small k (by omega)] at h2
        cases h2
      refine .inr ⟨k, d, by rw [h1, Option.some_or], by rw [cons, h2, Option.some_or], fun k' hk' => ?_⟩
      rw [cons, h3 k' hk', if_neg (by omega)]
      rfl

/-- What is last in the rules that match is determined by what is last in those of each specificity. -/
theorem lastFor_candidates {σ σ' : Type} {specificity : σ → Nat} {isMatch : σ → Bool} {specificity' : σ' → Nat} {isMatch' : σ' → Bool}
    {rules : List (σ × List (Declaration × Bool))} {rules' : List (σ' × List (Declaration × Bool))} (origin : Origin) (important : Bool)
    (p : Longhand)
    (h : ∀ k, lastMatching specificity isMatch rules k important p = lastMatching specificity' isMatch' rules' k important p) :
    lastFor p ((candidatesOf specificity isMatch origin important rules).map Candidate.declaration) =
      lastFor p ((candidatesOf specificity' isMatch' origin important rules').map Candidate.declaration) := by
  have key : ∀ {τ : Type} (sp : τ → Nat) (m : τ → Bool) (rs : List (τ × List (Declaration × Bool))),
      ∃ L : List (Nat × List Declaration), L.Pairwise (fun a b => a.1 ≤ b.1) ∧
        (candidatesOf sp m origin important rs).map Candidate.declaration = L.flatMap Prod.snd ∧
        ∀ k, lastFor p ((L.filter fun x => x.1 == k).flatMap Prod.snd) = lastMatching sp m rs k important p := by
    intro τ sp m rs
    refine ⟨((rs.mergeSort (fun a b => decide (sp a.1 ≤ sp b.1))).filter (fun r => m r.1)).map
      fun r => (sp r.1, ofImportance important r.2), ?_, ?_, fun k => ?_⟩
    · rw [List.pairwise_map]
      refine List.Pairwise.filter _ ?_
      have := List.pairwise_mergeSort (le := fun a b : τ × List (Declaration × Bool) => decide (sp a.1 ≤ sp b.1)) (by simp; omega)
        (by simp; omega) rs
      exact this.imp (by simp)
    · rw [candidates_declarations, List.flatMap_map]
    · have hs := mergeSort_filter_key (fun r : τ × List (Declaration × Bool) => sp r.1) rs k
      have e : ∀ l : List (τ × List (Declaration × Bool)), (l.filter fun r => (sp r.1 == k) && m r.1) =
          (l.filter fun r => sp r.1 == k).filter fun r => m r.1 := by
        intro l
        rw [List.filter_filter]
        simp only [Bool.and_comm]
      rw [List.filter_map, List.filter_filter, List.flatMap_map]
      have e' : ((fun x : Nat × List Declaration => x.1 == k) ∘ fun r : τ × List (Declaration × Bool) => (sp r.1, ofImportance important r.2)) =
          fun r => sp r.1 == k := rfl
      rw [e', e, hs, List.filter_filter, lastMatching, ← lastFor_importance, matchingBlocks]
      congr 1
      generalize rs.filter (fun r => m r.1 && sp r.1 == k) = l
      induction l with
      | nil => rfl
      | cons r l ih => simp only [List.flatMap_cons, List.map_cons, List.flatten_cons, ih]; simp [ofImportance]
  obtain ⟨L, s, e, c⟩ := key specificity isMatch rules
  obtain ⟨L', s', e', c'⟩ := key specificity' isMatch' rules'
  have same : ∀ k, lastFor p ((L.filter fun x => x.1 == k).flatMap Prod.snd) = lastFor p ((L'.filter fun x => x.1 == k).flatMap Prod.snd) := by
    intro k
    rw [c, c', h]
  rw [e, e']
  rcases lastFor_sorted p L s with ⟨h1, h2⟩ | ⟨k, d, h1, h2, h3⟩ <;> rcases lastFor_sorted p L' s' with ⟨h1', h2'⟩ | ⟨k', d', h1', h2', h3'⟩
  · rw [h1, h1']
  · rw [← same, h2] at h2'
    cases h2'
  · rw [same, h2'] at h2
    cases h2
  · have : k = k' := by
      rcases Nat.lt_trichotomy k k' with hk | hk | hk
      · have := h3 k' hk
        rw [same, h2'] at this
        cases this
      · exact hk
      · have := h3' k hk
        rw [← same, h2] at this
        cases this
    subst this
    rw [same, h2'] at h2
    rw [h1, h1', h2]

/-- **C102**: which declarations win depends only on the last declaration of each property and importance, among the rules of each
specificity that match and in the attribute. -/
theorem C102_last {σ σ' : Type} {specificity : σ → Nat} {isMatch : σ → Bool} {specificity' : σ' → Nat} {isMatch' : σ' → Bool}
    {ua author : List (σ × List (Declaration × Bool))} {ua' author' : List (σ' × List (Declaration × Bool))}
    {attr attr' : List (Declaration × Bool)}
    (h1 : ∀ k important p, lastMatching specificity isMatch ua k important p = lastMatching specificity' isMatch' ua' k important p)
    (h2 : ∀ k important p, lastMatching specificity isMatch author k important p = lastMatching specificity' isMatch' author' k important p)
    (h3 : ∀ important p, lastIn important p attr = lastIn important p attr') (declaration : Declaration) :
    Wins specificity isMatch ua author attr declaration ↔ Wins specificity' isMatch' ua' author' attr' declaration := by
  rw [wins_iff, wins_iff]
  simp only [allCandidates, List.map_append, lastFor_append, attr_declarations, lastFor_importance, h3,
    lastFor_candidates _ _ _ fun k => h1 k _ _, lastFor_candidates _ _ _ fun k => h2 k _ _]

/-! ### Changes of blocks that make no difference -/

/-- Neighbours may change places in a block if they are of different properties, or if only one of them is important. -/
theorem C102_exchange (before after : List (Declaration × Bool)) (a b : Declaration × Bool)
    (h : a.1.longhand ≠ b.1.longhand ∨ a.2 ≠ b.2) (important : Bool) (p : Longhand) :
    lastIn important p (before ++ a :: b :: after) = lastIn important p (before ++ b :: a :: after) := by
  unfold lastIn
  simp only [List.filter_append, List.filter_cons]
  by_cases ha : (a.1.longhand == p && a.2 == important) = true <;> by_cases hb : (b.1.longhand == p && b.2 == important) = true
  · simp only [Bool.and_eq_true, beq_iff_eq] at ha hb
    rcases h with h | h
    · exact absurd (ha.1.trans hb.1.symm) h
    · exact absurd (ha.2.trans hb.2.symm) h
  all_goals simp only [ha, hb, if_true, if_false, Bool.false_eq_true]

/-- A declaration may be left out of a block if a later one is of the same property and the same importance. -/
theorem C102_overridden (before between after : List (Declaration × Bool)) (a b : Declaration × Bool)
    (h1 : a.1.longhand = b.1.longhand) (h2 : a.2 = b.2) (important : Bool) (p : Longhand) :
    lastIn important p (before ++ a :: between ++ b :: after) = lastIn important p (before ++ between ++ b :: after) := by
  unfold lastIn
  simp only [List.filter_append, List.filter_cons, h1, h2, List.map_append, List.getLast?_append]
  by_cases hb : (b.1.longhand == p && b.2 == important) = true
  · have : ∀ l : List Declaration, ∃ d, (b.1 :: l).getLast? = some d := fun l => ⟨_, List.getLast?_cons⟩
    obtain ⟨d, hd⟩ := this ((after.filter fun e => e.1.longhand == p && e.2 == important).map Prod.fst)
    simp only [hb, if_true, List.map_cons, hd, Option.some_or]
  · simp only [hb, if_false, Bool.false_eq_true]

/-- A rule may be split in two that have the same selector, one after the other. -/
theorem C102_split {σ : Type} (specificity : σ → Nat) (isMatch : σ → Bool) (before after : List (σ × List (Declaration × Bool))) (s : σ)
    (first second : List (Declaration × Bool)) (k : Nat) (important : Bool) (p : Longhand) :
    lastMatching specificity isMatch (before ++ (s, first ++ second) :: after) k important p =
      lastMatching specificity isMatch (before ++ (s, first) :: (s, second) :: after) k important p := by
  unfold lastMatching matchingBlocks
  simp only [List.filter_append, List.filter_cons]
  by_cases h : (isMatch s && specificity s == k) = true <;> simp [h]

/-- The block of a rule may be replaced by another one in which the last declarations are the same. -/
theorem C102_block {σ : Type} (specificity : σ → Nat) (isMatch : σ → Bool) (before after : List (σ × List (Declaration × Bool))) (s : σ)
    {contents contents' : List (Declaration × Bool)} (h : ∀ important p, lastIn important p contents = lastIn important p contents')
    (k : Nat) (important : Bool) (p : Longhand) :
    lastMatching specificity isMatch (before ++ (s, contents) :: after) k important p =
      lastMatching specificity isMatch (before ++ (s, contents') :: after) k important p := by
  have app : ∀ a b : List (Declaration × Bool), lastIn important p (a ++ b) = (lastIn important p b).or (lastIn important p a) := by
    intro a b
    simp only [lastIn, List.filter_append, List.map_append, List.getLast?_append]
  unfold lastMatching matchingBlocks
  simp only [List.filter_append, List.filter_cons]
  by_cases hm : (isMatch s && specificity s == k) = true
  · simp [hm, app, h]
  · simp [hm]

end Verif.Style
