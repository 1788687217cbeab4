/- How the walk of the crate `selectors` over candidates relates to the tree: lemmas for C110. -/
import Verif.Style.MatchingSpec
import Mathlib.Data.List.Nodup
namespace Verif.Style
open Verif.Dom Spec Css

variable {d : Document} {F : Forest}

theorem Css.Parent.unique (h : Represents d F) {p q c : Nat} (hp : Parent d F p c) (hq : Parent d F q c) : p = q :=
  h.mem_unique hp.1 hq.1

theorem Css.Before.mem {m c : Nat} (hb : Before d F m c) : ∃ p, m ∈ F p ∧ c ∈ F p := by
  obtain ⟨p, a, b, hF, hm, _⟩ := hb
  exact ⟨p, by simp [hF, hm], by simp [hF]⟩

theorem Css.Before.parent (h : Represents d F) {m c p : Nat} (hb : Before d F m c) : Parent d F p m ↔ Parent d F p c := by
  obtain ⟨q, h1, h2⟩ := hb.mem
  constructor
  · rintro ⟨hm, he⟩
    have := h.mem_unique hm h1; subst this
    exact ⟨h2, he⟩
  · rintro ⟨hm, he⟩
    have := h.mem_unique hm h2; subst this
    exact ⟨h1, he⟩

theorem Css.Above.cases {m c : Nat} (ha : Above d F m c) : ∃ p, Parent d F p c ∧ (m = p ∨ Above d F m p) := by
  cases ha with
  | parent hp => exact ⟨_, hp, .inl rfl⟩
  | up h1 hp => exact ⟨_, hp, .inr h1⟩

theorem Css.Before.above (h : Represents d F) {m c k : Nat} (hb : Before d F m c) : Above d F k m ↔ Above d F k c := by
  constructor
  · intro ha
    obtain ⟨p, hp, hk⟩ := ha.cases
    have hp' := (hb.parent h).mp hp
    rcases hk with rfl | hk
    · exact .parent hp'
    · exact .up hk hp'
  · intro ha
    obtain ⟨p, hp, hk⟩ := ha.cases
    have hp' := (hb.parent h).mpr hp
    rcases hk with rfl | hk
    · exact .parent hp'
    · exact .up hk hp'

theorem Css.Above.trans {a b c : Nat} (hab : Above d F a b) (hbc : Above d F b c) : Above d F a c := by
  induction hbc with
  | parent hp => exact .up hab hp
  | up _ hp ih => exact .up ih hp

theorem Css.Above.ancestor {a b : Nat} (hab : Above d F a b) : F.Ancestor a b := by
  induction hab with
  | parent hp => exact .parent hp.1
  | up _ hp ih => exact .step ih hp.1

theorem split_unique_list {c : Nat} {b b' : List Nat} : ∀ {a a' : List Nat}, c ∉ a → c ∉ a' → a ++ c :: b = a' ++ c :: b' →
    a = a' ∧ b = b'
  | [], [], _, _, e => by simpa using e
  | [], x :: a', _, h', e => by simp at e h'; exact absurd e.1 h'.1
  | x :: a, [], h, _, e => by simp at e h; exact absurd e.1.symm h.1
  | x :: a, y :: a', h, h', e => by
    simp only [List.cons_append, List.cons.injEq, List.mem_cons, not_or] at e h h'
    obtain ⟨rfl, rfl⟩ := split_unique_list h.2 h'.2 e.2
    exact ⟨by rw [e.1], rfl⟩

/-- A child sequence splits in one way at a node. -/
theorem _root_.Verif.Dom.Represents.split_unique (h : Represents d F) {p q c : Nat} {a b a' b' : List Nat} (h1 : F p = a ++ c :: b)
    (h2 : F q = a' ++ c :: b') : p = q ∧ a = a' ∧ b = b' := by
  have hpq : p = q := h.mem_unique (c := c) (by simp [h1]) (by simp [h2])
  subst hpq
  have hn := h.nodup p
  have e : a ++ c :: b = a' ++ c :: b' := by rw [← h1, h2]
  rw [h1] at hn
  have hn' : (a' ++ c :: b').Nodup := by rw [← e]; exact hn
  have hca : c ∉ a := fun hc => by
    rw [List.nodup_append] at hn
    exact hn.2.2 c hc c (by simp) rfl
  have hca' : c ∉ a' := fun hc => by
    rw [List.nodup_append] at hn'
    exact hn'.2.2 c hc c (by simp) rfl
  have := split_unique_list hca hca' e
  exact ⟨rfl, this.1, this.2⟩

theorem Css.Before.trans (h : Represents d F) {a b c : Nat} (hab : Before d F a b) (hbc : Before d F b c) : Before d F a c := by
  obtain ⟨p, x, y, hF, ha, he⟩ := hab
  obtain ⟨q, x', y', hF', hb, _⟩ := hbc
  obtain ⟨s, t, rfl⟩ := List.append_of_mem hb
  have hF'' : F q = s ++ b :: (t ++ c :: y') := by rw [hF']; simp
  obtain ⟨rfl, rfl, _⟩ := h.split_unique hF hF''
  exact ⟨p, _, _, hF', by simp [ha], he⟩

theorem Css.JustBefore.before {m c : Nat} (hj : JustBefore d F m c) : Before d F m c := by
  obtain ⟨p, a, t, b, hF, he, _⟩ := hj
  exact ⟨p, a ++ m :: t, b, by simp [hF], by simp, he⟩

/-- What comes before `c` is the element just before it, or before that. -/
theorem Css.JustBefore.cases (h : Represents d F) {m c k : Nat} (hj : JustBefore d F m c) (hk : Before d F k c) :
    k = m ∨ Before d F k m := by
  obtain ⟨p, a, t, b, hF, he, ht⟩ := hj
  obtain ⟨q, x, y, hF', hkx, hke⟩ := hk
  have hF2 : F p = (a ++ m :: t) ++ c :: b := by rw [hF]; simp
  obtain ⟨rfl, rfl, rfl⟩ := h.split_unique hF2 hF'
  rcases List.mem_append.mp hkx with hk | hk
  · exact .inr ⟨_, _, _, hF, hk, hke⟩
  · rcases List.mem_cons.mp hk with rfl | hk
    · exact .inl rfl
    · exact absurd hke (ht k hk)

/-- What the candidates still to come are: `next` from one to the other. -/
inductive Chain (next : Nat → Option (Option Nat)) : Option Nat → List Nat → Prop
  | nil : Chain next none []
  | cons {e : Nat} {o : Option Nat} {l : List Nat} : next e = some o → Chain next o l → Chain next (some e) (e :: l)

/-- The loop over candidates, on the list of them. -/
def tryList (c : Combinator) (left : Nat → Option MatchResult) : List Nat → Option MatchResult
  | [] => some c.notFound
  | e :: l =>
    match left e with
    | none => none
    | some r =>
      match Combinator.stop r c with
      | some r => some r
      | none => tryList c left l

theorem tryCandidates_eq {fuel : Nat} {c : Combinator} {left : Nat → Option MatchResult} {l : List Nat} {o : Option Nat}
    (hc : Chain (nextFor d fuel c) o l) :
    ∀ steps, l.length ≤ steps → tryCandidates d fuel c left steps o = tryList c left l := by
  induction hc with
  | nil => intro steps _; cases steps <;> rfl
  | cons hn hc ih =>
    intro steps hs
    cases steps with
    | zero => simp at hs
    | succ steps =>
      have ih := ih steps (by simpa using hs)
      simp only [tryCandidates, tryList, hn, ih]
      rfl

theorem nthLoop_eq {next : Nat → Option (Option Nat)} {counts : Nat → Option Bool} {cb : Nat → Bool} {l : List Nat}
    {o : Option Nat} (hc : Chain next o l) : ∀ {curr : Nat}, next curr = some o → (∀ e ∈ l, counts e = some (cb e)) →
      ∀ fuel, l.length ≤ fuel → ∀ i, nthLoop next counts fuel curr i = some (i + (l.countP cb : Nat)) := by
  induction hc with
  | nil =>
    intro curr hn _ fuel _ i
    unfold nthLoop; simp [hn]
  | cons hn' hc ih =>
    intro curr hn hcb fuel hs i
    cases fuel with
    | zero => simp at hs
    | succ fuel =>
      unfold nthLoop
      simp only [hn, hcb _ (List.mem_cons_self ..)]
      rw [ih hn' (fun e he => hcb e (by simp [he])) fuel (by simpa using hs)]
      rw [List.countP_cons]
      split <;> simp_all <;> omega

/-- The element siblings before a node, nearest first, are the candidates of `+` and `~`. -/
theorem chain_prev (h : Represents d F) {p c : Nat} {a b : List Nat} (hF : F p = a ++ c :: b) {fuel : Nat}
    (hfuel : (F p).length ≤ fuel) :
    ∃ o, prevSiblingElement d fuel c = some o ∧
      Chain (prevSiblingElement d fuel) o (a.reverse.filter fun i => decide (IsElement d i)) := by
  refine ⟨_, (C35_navigation h hF fuel hfuel).2.1, ?_⟩
  generalize hr : a.reverse = r
  induction r generalizing a b c with
  | nil => exact .nil
  | cons x r ih =>
    have ha : a = r.reverse ++ [x] := by rw [← List.reverse_reverse a, hr]; simp
    have hF' : F p = r.reverse ++ x :: (c :: b) := by rw [hF, ha]; simp
    by_cases hx : IsElement d x
    · simp only [List.find?_cons, hx, decide_true, List.filter_cons_of_pos]
      have e := (C35_navigation h hF' fuel hfuel).2.1
      rw [List.reverse_reverse] at e
      exact .cons e (ih hF' (by simp))
    · simp only [List.find?_cons, hx, decide_false]
      rw [List.filter_cons_of_neg (by simpa using hx)]
      exact ih hF' (by simp)

/-- The element siblings after a node are what `next_sibling_element` goes through. -/
theorem chain_next (h : Represents d F) {p c : Nat} {a b : List Nat} (hF : F p = a ++ c :: b) {fuel : Nat}
    (hfuel : (F p).length ≤ fuel) :
    ∃ o, nextSiblingElement d fuel c = some o ∧
      Chain (nextSiblingElement d fuel) o (b.filter fun i => decide (IsElement d i)) := by
  refine ⟨_, (C35_navigation h hF fuel hfuel).1, ?_⟩
  induction b generalizing a c with
  | nil => exact .nil
  | cons x r ih =>
    have hF' : F p = (a ++ [c]) ++ x :: r := by rw [hF]; simp
    by_cases hx : IsElement d x
    · simp only [List.find?_cons, hx, decide_true, List.filter_cons_of_pos]
      exact .cons (C35_navigation h hF' fuel hfuel).1 (ih hF')
    · simp only [List.find?_cons, hx, decide_false]
      rw [List.filter_cons_of_neg (by simpa using hx)]
      exact ih hF'

/-- The element ancestors of a node, nearest first. -/
theorem chain_up (h : Represents d F) (ha : F.Acyclic) (n : Nat) (hn : n < d.nodes.length) :
    ∃ o l, parentElement d n = some o ∧ Chain (parentElement d) o l ∧ (∀ m, m ∈ l ↔ Above d F m n) ∧ l.Nodup ∧
      ∀ p, o = some p ↔ Parent d F p n := by
  revert hn
  refine Forest.induction_up h ha (P := fun n => n < d.nodes.length → ∃ o l, parentElement d n = some o ∧
    Chain (parentElement d) o l ∧ (∀ m, m ∈ l ↔ Above d F m n) ∧ l.Nodup ∧ ∀ p, o = some p ↔ Parent d F p n) ?_ n
  intro n ih hn
  by_cases hex : ∃ p, n ∈ F p
  · obtain ⟨p, hp⟩ := hex
    obtain ⟨before, after, hF⟩ := List.append_of_mem hp
    have e := (C35_navigation h hF _ (Nat.le_refl _)).2.2
    by_cases he : IsElement d p
    · obtain ⟨o, l, h1, h2, h3, h4, _⟩ := ih p hp (h.parent_lt hp)
      refine ⟨some p, p :: l, by rw [e]; simp [he], .cons h1 h2, ?_, ?_, ?_⟩
      · intro m
        rw [List.mem_cons, h3]
        constructor
        · rintro (rfl | hm)
          · exact .parent ⟨hp, he⟩
          · exact .up hm ⟨hp, he⟩
        · intro hm
          obtain ⟨q, hq, hmq⟩ := hm.cases
          have := h.mem_unique hq.1 hp
          subst this
          exact hmq
      · rw [List.nodup_cons]
        exact ⟨fun hm => ha p ((h3 p).mp hm).ancestor, h4⟩
      · intro q
        constructor
        · rintro ⟨⟩; exact ⟨hp, he⟩
        · intro hq; rw [h.mem_unique hq.1 hp]
    · refine ⟨none, [], by rw [e]; simp [he], .nil, ?_, .nil, ?_⟩
      · intro m
        simp only [List.not_mem_nil, false_iff]
        intro hm
        obtain ⟨q, hq, _⟩ := hm.cases
        exact he (h.mem_unique hq.1 hp ▸ hq.2)
      · intro q
        simp only [reduceCtorEq, false_iff]
        intro hq
        exact he (h.mem_unique hq.1 hp ▸ hq.2)
  · refine ⟨none, [], (C35_navigation_root h (List.getElem?_eq_getElem hn) (fun p hp => hex ⟨p, hp⟩) 0).2.2, .nil, ?_, .nil, ?_⟩
    · intro m
      simp only [List.not_mem_nil, false_iff]
      intro hm
      obtain ⟨q, hq, _⟩ := hm.cases
      exact hex ⟨q, hq.1⟩
    · intro q
      simp only [reduceCtorEq, false_iff]
      intro hq
      exact hex ⟨q, hq.1⟩

/-- The candidates of a node's earlier siblings. -/
theorem chain_before (h : Represents d F) (n : Nat) (hn : n < d.nodes.length) :
    ∃ o l, prevSiblingElement d d.nodes.length n = some o ∧ Chain (prevSiblingElement d d.nodes.length) o l ∧
      (∀ m, m ∈ l ↔ Before d F m n) ∧ l.length ≤ d.nodes.length ∧ ∀ p, o = some p ↔ JustBefore d F p n := by
  by_cases hex : ∃ p, n ∈ F p
  · obtain ⟨p, hp⟩ := hex
    obtain ⟨a, b, hF⟩ := List.append_of_mem hp
    obtain ⟨o, h1, h2⟩ := chain_prev h hF (fuel := d.nodes.length) (h.length_le p)
    refine ⟨o, _, h1, h2, ?_, ?_, ?_⟩
    · intro m
      simp only [List.mem_filter, List.mem_reverse, decide_eq_true_eq]
      constructor
      · rintro ⟨hm, he⟩; exact ⟨p, a, b, hF, hm, he⟩
      · rintro ⟨q, x, y, hF', hm, he⟩
        obtain ⟨rfl, rfl, _⟩ := h.split_unique hF hF'
        exact ⟨hm, he⟩
    · have := h.length_le p
      have h3 := List.length_filter_le (fun i => decide (IsElement d i)) a.reverse
      rw [hF] at this
      simp only [List.length_append, List.length_cons, List.length_reverse] at this h3
      omega
    · intro m
      have e := (C35_navigation h hF d.nodes.length (h.length_le p)).2.1
      rw [h1] at e
      cases e
      rw [List.find?_eq_some_iff_append]
      constructor
      · rintro ⟨he, x, y, hr, hx⟩
        have ha : a = y.reverse ++ m :: x.reverse := by rw [← List.reverse_reverse a, hr]; simp
        refine ⟨p, y.reverse, x.reverse, b, by rw [hF, ha]; simp, by simpa using he, ?_⟩
        intro z hz
        simpa using hx z (by simpa using hz)
      · rintro ⟨q, x, t, y, hF', he, ht⟩
        have hF2 : F q = (x ++ m :: t) ++ n :: y := by rw [hF']; simp
        obtain ⟨rfl, rfl, _⟩ := h.split_unique hF hF2
        exact ⟨by simpa using he, t.reverse, x.reverse, by simp, fun z hz => by simpa using ht z (by simpa using hz)⟩
  · refine ⟨none, [], (C35_navigation_root h (List.getElem?_eq_getElem hn) (fun p hp => hex ⟨p, hp⟩) _).2.1, .nil, ?_, by simp, ?_⟩
    · intro m
      simp only [List.not_mem_nil, false_iff]
      intro hm
      obtain ⟨q, _, hq⟩ := hm.mem
      exact hex ⟨q, hq⟩
    · intro m
      simp only [reduceCtorEq, false_iff]
      intro hm
      obtain ⟨q, _, hq⟩ := hm.before.mem
      exact hex ⟨q, hq⟩

/-- Nodes that a walk from `n` can come to. -/
inductive Reach (d : Document) (F : Forest) (n : Nat) : Nat → Prop
  | here : Reach d F n n
  | before {m k : Nat} : Reach d F n m → Before d F k m → Reach d F n k
  | up {m k : Nat} : Reach d F n m → Parent d F k m → Reach d F n k

theorem Reach.above (h : Represents d F) {n m k : Nat} (hr : Reach d F n m) (ha : Above d F k m) : Above d F k n := by
  induction hr with
  | here => exact ha
  | before _ hb ih => exact ih ((hb.above h).mp ha)
  | up _ hp ih => exact ih (.up ha hp)

theorem Reach.cases (h : Represents d F) {n m : Nat} (hr : Reach d F n m) :
    m = n ∨ Before d F m n ∨ ∃ a, Above d F a n ∧ (m = a ∨ Before d F m a) := by
  induction hr with
  | here => exact .inl rfl
  | before _ hb ih =>
    rcases ih with rfl | ih | ⟨a, ha, rfl | ih⟩
    · exact .inr (.inl hb)
    · exact .inr (.inl (hb.trans h ih))
    · exact .inr (.inr ⟨_, ha, .inr hb⟩)
    · exact .inr (.inr ⟨a, ha, .inr (hb.trans h ih)⟩)
  | up hr hp ih => exact .inr (.inr ⟨_, hr.above h (.parent hp), .inl rfl⟩)

theorem Reach.trans {a b c : Nat} (hab : Reach d F a b) (hbc : Reach d F b c) : Reach d F a c := by
  induction hbc with
  | here => exact hab
  | before _ hb ih => exact ih.before hb
  | up _ hp ih => exact ih.up hp

theorem Reach.of_above {a n : Nat} (h : Above d F a n) : Reach d F n a := by
  induction h with
  | parent hp => exact Reach.here.up hp
  | up _ hp ih => exact (Reach.here.up hp).trans ih

end Verif.Style
