import Verif.Dom.Ops
import Mathlib.Data.Fintype.Card
import Mathlib.Order.WellFounded
import Mathlib.Data.Fintype.EquivFin
/- Helper lemmas: document order. -/
namespace Verif.Dom

variable {d : Document} {F : Forest}

theorem Forest.Ancestor.trans {a b c : Nat} (hab : F.Ancestor a b) (hbc : F.Ancestor b c) : F.Ancestor a c := by
  induction hbc with
  | parent hc => exact .step hab hc
  | step _ hc ih => exact .step ih hc

theorem Forest.Ancestor.lt_left (h : Represents d F) {a b : Nat} (hab : F.Ancestor a b) : a < d.nodes.length := by
  induction hab with
  | parent hc => exact h.parent_lt hc
  | step _ _ ih => exact ih

theorem Forest.Ancestor.lt_right (h : Represents d F) {a b : Nat} (hab : F.Ancestor a b) : b < d.nodes.length := by
  cases hab with
  | parent hc => exact h.mem_lt hc
  | step _ hc => exact h.mem_lt hc

/-- Induction from the leaves upwards. -/
theorem Forest.induction_down (h : Represents d F) (ha : F.Acyclic) {P : Nat → Prop}
    (step : ∀ n, (∀ c, c ∈ F n → P c) → P n) (n : Nat) : P n := by
  let r : Fin d.nodes.length → Fin d.nodes.length → Prop := fun a b => F.Ancestor b.1 a.1
  have : IsTrans _ r := ⟨fun a b c h1 h2 => Forest.Ancestor.trans h2 h1⟩
  have : Std.Irrefl r := ⟨fun a h1 => ha a.1 h1⟩
  have wf : WellFounded r := Finite.wellFounded_of_trans_of_irrefl r
  have key : ∀ m : Fin d.nodes.length, P m.1 := by
    intro m
    induction m using wf.induction with
    | _ m ih =>
      apply step
      intro c hc
      exact ih ⟨c, h.mem_lt hc⟩ (.parent hc)
  rcases Nat.lt_or_ge n d.nodes.length with hn | hn
  · exact key ⟨n, hn⟩
  · apply step
    intro c hc
    rw [h.outside n hn] at hc; cases hc

/-- Induction from the roots downwards. -/
theorem Forest.induction_up (h : Represents d F) (ha : F.Acyclic) {P : Nat → Prop}
    (step : ∀ n, (∀ p, n ∈ F p → P p) → P n) (n : Nat) : P n := by
  let r : Fin d.nodes.length → Fin d.nodes.length → Prop := fun a b => F.Ancestor a.1 b.1
  have : IsTrans _ r := ⟨fun a b c h1 h2 => Forest.Ancestor.trans h1 h2⟩
  have : Std.Irrefl r := ⟨fun a h1 => ha a.1 h1⟩
  have wf : WellFounded r := Finite.wellFounded_of_trans_of_irrefl r
  have key : ∀ m : Fin d.nodes.length, P m.1 := by
    intro m
    induction m using wf.induction with
    | _ m ih =>
      apply step
      intro c hc
      exact ih ⟨c, h.parent_lt hc⟩ (.parent hc)
  rcases Nat.lt_or_ge n d.nodes.length with hn | hn
  · exact key ⟨n, hn⟩
  · apply step
    intro c hc
    exact absurd (h.mem_lt hc) (by omega)

theorem PreOrder.of_forall : ∀ (l : List Nat), (∀ n ∈ l, ∃ out, PreOrder F [n] out) → ∃ out, PreOrder F l out := by
  intro l
  induction l with
  | nil => intro _; exact ⟨[], .nil⟩
  | cons n l ih =>
    intro hl
    obtain ⟨o1, h1⟩ := hl n (by simp)
    obtain ⟨o2, h2⟩ := ih (fun m hm => hl m (by simp [hm]))
    cases h1 with
    | cons hb _ => exact ⟨_, .cons hb h2⟩

theorem PreOrder.exists (h : Represents d F) (ha : F.Acyclic) (n : Nat) : ∃ out, PreOrder F [n] out := by
  induction n using Forest.induction_down h ha with
  | step n ih =>
    obtain ⟨o, ho⟩ := PreOrder.of_forall (F n) ih
    exact ⟨_, .cons ho .nil⟩

theorem PreOrder.mem {ns out : List Nat} (h : PreOrder F ns out) (x : Nat) :
    x ∈ out ↔ x ∈ ns ∨ ∃ m ∈ ns, F.Ancestor m x := by
  induction h with
  | nil => simp
  | @cons n ns below rest h1 h2 ih1 ih2 =>
    simp only [List.mem_append, List.mem_cons, ih1, ih2]
    constructor
    · rintro ((rfl | hx | ⟨m, hm, hx⟩) | hx | ⟨m, hm, hx⟩)
      · exact .inl (.inl rfl)
      · exact .inr ⟨n, .inl rfl, .parent hx⟩
      · exact .inr ⟨n, .inl rfl, Forest.Ancestor.trans (.parent hm) hx⟩
      · exact .inl (.inr hx)
      · exact .inr ⟨m, .inr hm, hx⟩
    · rintro ((rfl | hx) | ⟨m, rfl | hm, hx⟩)
      · exact .inl (.inl rfl)
      · exact .inr (.inl hx)
      · left; right
        clear ih1 ih2 h1 h2
        induction hx with
        | parent hc => exact .inl hc
        | step _ hc ih =>
          rcases ih with ih | ⟨q, hq, ih⟩
          · exact .inr ⟨_, ih, .parent hc⟩
          · exact .inr ⟨q, hq, .step ih hc⟩
      · exact .inr (.inr ⟨m, hm, hx⟩)

/-- No root is, or is below, another. -/
def Indep (F : Forest) (ns : List Nat) : Prop :=
  ns.Nodup ∧ ∀ a ∈ ns, ∀ b ∈ ns, ¬ F.Ancestor a b

theorem Forest.Ancestor.chain (h : Represents d F) {a b x : Nat} (ha : F.Ancestor a x) :
    F.Ancestor b x → a = b ∨ F.Ancestor a b ∨ F.Ancestor b a := by
  induction ha with
  | @parent c hc =>
    intro hb
    cases hb with
    | parent hb => exact .inl (h.mem_unique hc hb)
    | step hb hc' =>
      have := h.mem_unique hc hc'
      subst this
      exact .inr (.inr hb)
  | @step p c hap hc ih =>
    intro hb
    cases hb with
    | parent hb =>
      have := h.mem_unique hc hb
      subst this
      exact .inr (.inl hap)
    | step hb hc' =>
      have := h.mem_unique hc hc'
      subst this
      exact ih hb

theorem Indep.children (h : Represents d F) (ha : F.Acyclic) (n : Nat) : Indep F (F n) := by
  refine ⟨h.nodup n, fun a ha' b hb hab => ?_⟩
  cases hab with
  | parent hc =>
    have := h.mem_unique hb hc
    subst this
    exact ha _ (.parent ha')
  | step hap hc =>
    have := h.mem_unique hb hc
    subst this
    exact ha _ (.step hap ha')

theorem PreOrder.nodup (h : Represents d F) (hacyc : F.Acyclic) {ns out : List Nat} (hp : PreOrder F ns out) :
    Indep F ns → out.Nodup := by
  induction hp with
  | nil => intro _; exact List.nodup_nil
  | @cons n ns below rest h1 h2 ih1 ih2 =>
    rintro ⟨hn, hi⟩
    have i1 := ih1 (Indep.children h hacyc n)
    have i2 := ih2 ⟨(List.nodup_cons.1 hn).2, fun a ha b hb => hi a (by simp [ha]) b (by simp [hb])⟩
    have nbelow : ∀ x, x ∈ below → F.Ancestor n x := by
      intro x hx
      rcases (h1.mem x).1 hx with hx | ⟨m, hm, hx⟩
      · exact .parent hx
      · exact Forest.Ancestor.trans (.parent hm) hx
    rw [List.nodup_append]
    refine ⟨List.nodup_cons.2 ⟨fun hc => hacyc n (nbelow n hc), i1⟩, i2, ?_⟩
    rintro a ha b hb rfl
    have hax : a = n ∨ F.Ancestor n a := by
      rcases List.mem_cons.1 ha with rfl | ha
      · exact .inl rfl
      · exact .inr (nbelow a ha)
    rcases (h2.mem a).1 hb with hb | ⟨m, hm, hb⟩
    · rcases hax with rfl | hax
      · exact (List.nodup_cons.1 hn).1 hb
      · exact hi n (by simp) a (by simp [hb]) hax
    · rcases hax with rfl | hax
      · exact hi m (by simp [hm]) a (by simp) hb
      · rcases Forest.Ancestor.chain h hax hb with rfl | hc | hc
        · exact (List.nodup_cons.1 hn).1 hm
        · exact hi n (by simp) m (by simp [hm]) hc
        · exact hi m (by simp [hm]) n (by simp) hc

/-- Where the climb from a node ends. -/
inductive ClimbTo (F : Forest) : Nat → Option Nat → Prop
  | sibling {p n s : Nat} {a b : List Nat} : F p = a ++ n :: s :: b → ClimbTo F n (some s)
  | up {p n : Nat} {a : List Nat} {k : Option Nat} : F p = a ++ [n] → ClimbTo F p k → ClimbTo F n k
  | top {n : Nat} : (∀ p, n ∉ F p) → ClimbTo F n none

theorem ClimbTo.exists (h : Represents d F) (ha : F.Acyclic) (n : Nat) : ∃ k, ClimbTo F n k := by
  induction n using Forest.induction_up h ha with
  | step n ih =>
    by_cases hp : ∃ p, n ∈ F p
    · obtain ⟨p, hp⟩ := hp
      obtain ⟨a, b, e⟩ := List.append_of_mem hp
      cases b with
      | nil =>
        obtain ⟨k, hk⟩ := ih p hp
        exact ⟨k, .up e hk⟩
      | cons s b => exact ⟨some s, .sibling e⟩
    · exact ⟨none, .top fun p hc => hp ⟨p, hc⟩⟩

theorem ClimbTo.climb (h : Represents d F) {n : Nat} {k : Option Nat} (hc : ClimbTo F n k) :
    n < d.nodes.length → ∃ m, ∀ fuel, m ≤ fuel → d.climb fuel n = some k := by
  induction hc with
  | @sibling p n s a b e =>
    intro _
    refine ⟨1, fun fuel hf => ?_⟩
    obtain ⟨fuel, rfl⟩ : ∃ j, fuel = j + 1 := ⟨fuel - 1, by omega⟩
    obtain ⟨x, hx, hl⟩ := h.child p a n (s :: b) e
    simp [Document.climb, Document.get, hx, hl.next]
  | @up p n a k e _ ih =>
    intro _
    obtain ⟨m, hm⟩ := ih (h.parent_lt (c := n) (by simp [e]))
    refine ⟨m + 1, fun fuel hf => ?_⟩
    obtain ⟨fuel, rfl⟩ : ∃ j, fuel = j + 1 := ⟨fuel - 1, by omega⟩
    obtain ⟨x, hx, hl⟩ := h.child p a n [] e
    simp [Document.climb, Document.get, hx, hl.next, hl.parent, hm fuel (by omega)]
  | @top n hn =>
    intro hlt
    refine ⟨1, fun fuel hf => ?_⟩
    obtain ⟨fuel, rfl⟩ : ∃ j, fuel = j + 1 := ⟨fuel - 1, by omega⟩
    obtain ⟨x, hx⟩ : ∃ x, d.nodes[n]? = some x := ⟨_, List.getElem?_eq_getElem hlt⟩
    have h1 := h.parent_none hx hn
    have h2 := (h.orphan n x hx h1).2
    simp [Document.climb, Document.get, hx, h1, h2]

/-- One amount of fuel is enough for every climb. -/
theorem climb_uniform (h : Represents d F) (ha : F.Acyclic) :
    ∃ N, ∀ n k, n < d.nodes.length → ClimbTo F n k → ∀ fuel, N ≤ fuel → d.climb fuel n = some k := by
  have key : ∀ j, j ≤ d.nodes.length →
      ∃ N, ∀ n k, n < j → ClimbTo F n k → ∀ fuel, N ≤ fuel → d.climb fuel n = some k := by
    intro j
    induction j with
    | zero => intro _; exact ⟨0, fun n k hn => by omega⟩
    | succ j ih =>
      intro hj
      obtain ⟨N, hN⟩ := ih (by omega)
      obtain ⟨k0, hk0⟩ := ClimbTo.exists h ha j
      obtain ⟨M, hM⟩ := hk0.climb h (by omega)
      refine ⟨max N M, fun n k hn hc fuel hf => ?_⟩
      by_cases hnj : n = j
      · subst hnj
        obtain ⟨M', hM'⟩ := hc.climb h (by omega)
        have h1 := hM' (max M' fuel) (by omega)
        have h2 := hM (max M' fuel) (by omega)
        rw [h1] at h2
        rw [hM fuel (by omega), ← h2]
      · exact hN n k (by omega) hc fuel (by omega)
  obtain ⟨N, hN⟩ := key d.nodes.length (Nat.le_refl _)
  exact ⟨N, fun n k hn => hN n k hn⟩

theorem nodesFrom_preorder (h : Represents d F) {fuel : Nat}
    (hfuel : ∀ n k, n < d.nodes.length → ClimbTo F n k → d.climb fuel n = some k)
    {ns out : List Nat} (hp : PreOrder F ns out) :
    ∀ (p : Nat) (a : List Nat), F p = a ++ ns → ns ≠ [] → ∀ k, ClimbTo F p k →
      ∀ steps tail, d.nodesFrom fuel steps k = some tail →
        d.nodesFrom fuel (steps + out.length) ns.head? = some (out ++ tail) := by
  induction hp with
  | nil => intro p a _ hne; exact absurd rfl hne
  | @cons n ns below rest h1 h2 ih1 ih2 =>
    intro p a e _ k hk steps tail ht
    obtain ⟨x, hx, hl⟩ := h.child p a n ns e
    have hn : n < d.nodes.length := (List.getElem?_eq_some_iff.1 hx).1
    -- after the subtree of n
    have after : ∃ k', ClimbTo F n k' ∧ d.nodesFrom fuel (steps + rest.length) k' = some (rest ++ tail) := by
      cases ns with
      | nil =>
        cases h2
        exact ⟨k, .up e hk, by simpa using ht⟩
      | cons s b =>
        exact ⟨some s, .sibling e, ih2 p (a ++ [n]) (by simp [e]) (by simp) k hk steps tail ht⟩
    obtain ⟨k', hk', hr⟩ := after
    have hstep : steps + (n :: below ++ rest).length = (steps + rest.length + below.length) + 1 := by
      simp; omega
    rw [hstep]
    simp only [List.head?_cons, Document.nodesFrom, Document.nextInTreeOrder, Document.get, hx,
      Option.bind_eq_bind, Option.bind_some, (h.ends n x hx).1]
    cases hc : F n with
    | nil =>
      rw [hc] at h1
      cases h1
      simp only [List.head?_nil]
      rw [hfuel n k' hn hk']
      simp only [Option.bind_some, List.length_nil, Nat.add_zero]
      rw [hr]
      rfl
    | cons c cs =>
      have := ih1 n [] (by simp) (by simp [hc]) k' hk' _ _ hr
      rw [hc] at this
      simp only [List.head?_cons] at this ⊢
      simp only [pure, Option.bind_some]
      rw [this]
      simp

theorem allNodes_preorder (h : Good d F) :
    ∃ out, PreOrder F [documentNodeId] out ∧ ∃ N, ∀ fuel, N ≤ fuel → d.allNodes fuel = some out := by
  obtain ⟨out, ho⟩ := PreOrder.exists h.rep h.acyclic documentNodeId
  obtain ⟨N, hN⟩ := climb_uniform h.rep h.acyclic
  refine ⟨out, ho, max N out.length, fun fuel hf => ?_⟩
  have hfuel : ∀ n k, n < d.nodes.length → ClimbTo F n k → d.climb fuel n = some k :=
    fun n k hn hk => hN n k hn hk fuel (by omega)
  have hroot : ClimbTo F documentNodeId none := .top h.root.2
  obtain ⟨x, hx⟩ : ∃ x, d.nodes[documentNodeId]? = some x := ⟨_, List.getElem?_eq_getElem h.root.lt⟩
  cases ho with
  | @cons _ _ below rest h1 h2 =>
    cases h2
    unfold Document.allNodes
    simp only [List.append_nil, List.length_cons] at hf ⊢
    have hstep : fuel = (fuel - 1 - below.length + below.length) + 1 := by omega
    generalize fuel - 1 - below.length = steps at hstep
    conv => lhs; arg 3; rw [hstep]
    simp only [Document.nodesFrom, Document.nextInTreeOrder, Document.get, hx,
      Option.bind_eq_bind, Option.bind_some, (h.rep.ends _ x hx).1]
    cases hc : F documentNodeId with
    | nil =>
      rw [hc] at h1
      cases h1
      simp only [List.head?_nil]
      rw [hfuel _ none h.root.lt hroot]
      simp [Document.nodesFrom]
    | cons c cs =>
      have := nodesFrom_preorder h.rep hfuel h1 documentNodeId [] (by simp) (by simp [hc]) none hroot steps []
        (by simp [Document.nodesFrom])
      rw [hc] at this
      simp only [List.head?_cons] at this ⊢
      simp only [pure, Option.bind_some]
      rw [this]
      simp

end Verif.Dom
