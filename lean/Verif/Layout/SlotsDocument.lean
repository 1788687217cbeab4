/- From the arena to boxes, slots and events: `BoxTreeRoot::construct` with what Verif/Layout/Document.lean leaves out. -/
import Verif.Layout.SlotsEvents
import Verif.Layout.DocumentTheorems
namespace Verif.Layout
open Verif.Dom Verif.Style

/-- dom_traversal.rs 53-125, like `styledNodes`, with the identity of elements. -/
def idNodes (style : Nat → ComputedValues → Option ComputedValues) (d : Verif.Dom.Document) :
    (fuel : Nat) → ComputedValues → Option Nat → Option (List IdNode)
  | 0, _, _ => none
  | _ + 1, _, none => some []
  | fuel + 1, parentStyle, some child =>
    match d.get child with
    | none => none
    | some node =>
      let first : Option IdNode :=
        match node.data with
        | .document | .doctype _ _ _ | .comment _ | .pi _ _ => some .ignored
        | .text contents => some (.text (contents.toList.map Char.toNat))
        | .element _ =>
          match style child parentStyle with
          | none => none
          | some s =>
            if displayOf s = .none then if node.nextSibling.isSome then some (.element child s []) else none
            else
              match idNodes style d fuel s node.firstChild with
              | none => none
              | some children => some (.element child s children)
      match first with
      | none => none
      | some n =>
        match idNodes style d fuel parentStyle node.nextSibling with
        | none => none
        | some ns => some (n :: ns)

/-- root.rs 15-49, like `constructDocument`, with what is stored. `none` when the styles panic, or when the boxes that were stored
earlier are not removed. -/
def constructDocumentSlots {σ : Type} (E : Engine σ) (d : Verif.Dom.Document) (fuel : Nat) :
    Option (Outcome (BlockFormattingContext × Program)) :=
  match parseStylesheets E d with
  | none => none
  | some author =>
    match d.rootElement d.nodes.length with
    | none => none
    | some root =>
      match nodeStyle E author d root none with
      | none => none
      | some style =>
        if displayOf style = .none then some (constructRootSlots fuel style [])
        else
          match d.get root with
          | none => none
          | some node =>
            match idNodes (fun child parent => nodeStyle E author d child (some parent)) d fuel style node.firstChild with
            | none => none
            | some children => some (constructRootSlots fuel style children)

variable {d : Document} {F : Forest} {style : Nat → ComputedValues → Option ComputedValues}

theorem idNodes_forget : ∀ (fuel : Nat) (ps : ComputedValues) (next : Option Nat),
    (idNodes style d fuel ps next).map forgetAll = styledNodes style d fuel ps next := by
  intro fuel
  induction fuel with
  | zero => intros; rfl
  | succ fuel ih =>
    intro ps next
    cases next with
    | none => simp [idNodes, styledNodes, forgetAll]
    | some child =>
      simp only [idNodes, styledNodes, ← ih]
      rcases hn : d.get child with _ | node
      · rfl
      · simp only []
        cases hd : node.data with
        | element e =>
          simp only []
          rcases hs : style child ps with _ | s
          · rfl
          · simp only []
            by_cases hdisp : displayOf s = .none
            · simp only [hdisp, if_true]
              by_cases hnext : node.nextSibling.isSome = true
              · simp only [hnext, if_true]
                rcases idNodes style d fuel ps node.nextSibling with _ | ns <;> simp [forgetAll, IdNode.forget]
              · simp [hnext]
            · simp only [hdisp, if_false]
              rcases idNodes style d fuel s node.firstChild with _ | below
              · rfl
              · simp only [Option.map_some]
                rcases idNodes style d fuel ps node.nextSibling with _ | ns <;> simp [forgetAll, IdNode.forget]
        | _ =>
          simp only []
          rcases idNodes style d fuel ps node.nextSibling with _ | ns <;> simp [forgetAll, IdNode.forget]

theorem idNodes_depth : ∀ (fuel : Nat) (ps : ComputedValues) (next : Option Nat) (t : List IdNode),
    idNodes style d fuel ps next = some t → depthAll t < fuel := by
  intro fuel
  induction fuel with
  | zero => intro ps next t h; simp [idNodes] at h
  | succ fuel ih =>
    intro ps next t h
    cases next with
    | none =>
      simp only [idNodes, Option.some.injEq] at h
      subst h
      simp [depthAll]
    | some child =>
      simp only [idNodes] at h
      rcases hn : d.get child with _ | node
      · simp [hn] at h
      · simp only [hn] at h
        have key : ∀ (n : IdNode), n.depth < fuel + 1 → (match idNodes style d fuel ps node.nextSibling with
            | none => none
            | some ns => some (n :: ns)) = some t → depthAll t < fuel + 1 := by
          intro n hn' h
          rcases hr : idNodes style d fuel ps node.nextSibling with _ | ns
          · simp [hr] at h
          · simp only [hr, Option.some.injEq] at h
            subst h
            have := ih _ _ _ hr
            simp only [depthAll]
            omega
        cases hd : node.data with
        | element e =>
          simp only [hd] at h
          rcases hs : style child ps with _ | s
          · simp [hs] at h
          · simp only [hs] at h
            by_cases hdisp : displayOf s = .none
            · simp only [hdisp, if_true] at h
              by_cases hnext : node.nextSibling.isSome = true
              · simp only [hnext, if_true] at h
                have hf : 0 < fuel := by
                  cases fuel with
                  | zero => simp [idNodes] at h
                  | succ _ => omega
                exact key _ (by simp only [IdNode.depth, depthAll]; omega) h
              · simp [hnext] at h
            · simp only [hdisp, if_false] at h
              rcases hb : idNodes style d fuel s node.firstChild with _ | below
              · simp [hb] at h
              · simp only [hb] at h
                have := ih _ _ _ hb
                exact key _ (by simp only [IdNode.depth]; omega) h
        | _ =>
          simp only [hd] at h
          exact key _ (by simp [IdNode.depth]) h

/-- `Visited d F style ps ns n s`: the element `n` is in the subtrees of `ns`, not below an element with `display: none`, and `s` is its
style, if `ps` is the style of the parent of `ns`. -/
inductive Visited (d : Document) (F : Forest) (style : Nat → ComputedValues → Option ComputedValues) :
    ComputedValues → List Nat → Nat → ComputedValues → Prop
  | here {ps ns n node e s} : n ∈ ns → d.nodes[n]? = some node → node.data = .element e → style n ps = some s →
      Visited d F style ps ns n s
  | inside {ps ns m node e sm n s} : m ∈ ns → d.nodes[m]? = some node → node.data = .element e → style m ps = some sm →
      displayOf sm ≠ .none → Visited d F style sm (F m) n s → Visited d F style ps ns n s

theorem Visited.mono {ps : ComputedValues} {ns ms : List Nat} {n : Nat} {s : ComputedValues} (h : Visited d F style ps ns n s)
    (hs : ∀ x ∈ ns, x ∈ ms) : Visited d F style ps ms n s := by
  cases h with
  | here h1 h2 h3 h4 => exact .here (hs _ h1) h2 h3 h4
  | inside h1 h2 h3 h4 h5 h6 => exact .inside (hs _ h1) h2 h3 h4 h5 h6

theorem Visited.cons {ps : ComputedValues} {m : Nat} {ms : List Nat} {n : Nat} {s : ComputedValues} :
    Visited d F style ps (m :: ms) n s ↔ Visited d F style ps [m] n s ∨ Visited d F style ps ms n s := by
  constructor
  · intro h
    cases h with
    | here h1 h2 h3 h4 =>
      rcases List.mem_cons.1 h1 with rfl | h1
      · exact .inl (.here (by simp) h2 h3 h4)
      · exact .inr (.here h1 h2 h3 h4)
    | inside h1 h2 h3 h4 h5 h6 =>
      rcases List.mem_cons.1 h1 with rfl | h1
      · exact .inl (.inside (by simp) h2 h3 h4 h5 h6)
      · exact .inr (.inside h1 h2 h3 h4 h5 h6)
  · rintro (h | h)
    · exact h.mono (by simp)
    · exact h.mono (by simp; tauto)

theorem Visited.nil {ps : ComputedValues} {n : Nat} {s : ComputedValues} : ¬ Visited d F style ps [] n s := by
  intro h
  cases h with
  | here h1 => simp at h1
  | inside h1 => simp at h1

/-- What the traversal comes to: exactly the elements that are reached, in document order. -/
theorem idNodes_elements (h : Represents d F) : ∀ (fuel : Nat) (ps : ComputedValues) (p : Nat) (before ns : List Nat) (t : List IdNode),
    F p = before ++ ns → idNodes style d fuel ps ns.head? = some t →
    (∀ n s, (n, s) ∈ elementsOf t ↔ Visited d F style ps ns n s) ∧
      ∀ out, PreOrder F ns out → ((elementsOf t).map Prod.fst).Sublist out := by
  intro fuel
  induction fuel with
  | zero => intro ps p before ns t _ h1; simp [idNodes] at h1
  | succ fuel ih =>
    intro ps p before ns t hF h1
    cases ns with
    | nil =>
      simp only [List.head?_nil, idNodes, Option.some.injEq] at h1
      subst h1
      refine ⟨fun n s => ?_, fun out _ => by simp [elementsOf]⟩
      simp only [elementsOf, List.not_mem_nil, false_iff]
      exact Visited.nil
    | cons m ns =>
      obtain ⟨node, hn, hl⟩ := h.child p before m ns hF
      have hfirst := (h.ends m node hn).1
      simp only [List.head?_cons, idNodes, get_eq, hn, hl.next, hfirst] at h1
      have rest : ∀ ts, idNodes style d fuel ps ns.head? = some ts →
          (∀ n s, (n, s) ∈ elementsOf ts ↔ Visited d F style ps ns n s) ∧
            ∀ out, PreOrder F ns out → ((elementsOf ts).map Prod.fst).Sublist out :=
        fun ts ht => ih ps p (before ++ [m]) ns ts (by simp [hF]) ht
      -- a node that is not an element
      have other : (∀ e, node.data ≠ .element e) → ∀ (x : IdNode), x.elements = [] → (match idNodes style d fuel ps ns.head? with
          | none => none
          | some ns => some (x :: ns)) = some t → (∀ n s, (n, s) ∈ elementsOf t ↔ Visited d F style ps (m :: ns) n s) ∧
            ∀ out, PreOrder F (m :: ns) out → ((elementsOf t).map Prod.fst).Sublist out := by
        intro hne x hx h1
        rcases hr : idNodes style d fuel ps ns.head? with _ | ts
        · simp [hr] at h1
        · simp only [hr, Option.some.injEq] at h1
          subst h1
          obtain ⟨r1, r2⟩ := rest ts hr
          constructor
          · intro n s
            rw [Visited.cons, elementsOf, hx, List.nil_append, r1]
            constructor
            · exact .inr
            · rintro (h | h)
              · cases h with
                | here h1 h2 h3 => simp only [List.mem_singleton] at h1; subst h1; rw [hn] at h2; cases h2; exact absurd h3 (hne _)
                | inside h1 h2 h3 => simp only [List.mem_singleton] at h1; subst h1; rw [hn] at h2; cases h2; exact absurd h3 (hne _)
              · exact h
          · intro out ho
            cases ho with
            | cons _ ho2 =>
              rw [elementsOf, hx, List.nil_append]
              exact (r2 _ ho2).trans (List.sublist_append_right _ _)
      cases hd : node.data with
      | element e =>
        simp only [hd] at h1
        rcases hs : style m ps with _ | sm
        · simp [hs] at h1
        · simp only [hs] at h1
          by_cases hdisp : displayOf sm = .none
          · simp only [hdisp, if_true] at h1
            by_cases hnext : ns.head?.isSome = true
            · simp only [hnext, if_true] at h1
              rcases hr : idNodes style d fuel ps ns.head? with _ | ts
              · simp [hr] at h1
              · simp only [hr, Option.some.injEq] at h1
                subst h1
                obtain ⟨r1, r2⟩ := rest ts hr
                constructor
                · intro n s
                  rw [Visited.cons, elementsOf, IdNode.elements, List.mem_append, r1]
                  simp only [hdisp, if_true, List.mem_singleton, Prod.mk.injEq]
                  refine or_congr_left ⟨?_, ?_⟩
                  · rintro ⟨rfl, rfl⟩
                    exact .here (by simp) hn hd hs
                  · intro h
                    cases h with
                    | here h1 h2 h3 h4 =>
                      simp only [List.mem_singleton] at h1
                      subst h1
                      rw [hs] at h4
                      cases h4
                      exact ⟨rfl, rfl⟩
                    | inside h1 h2 h3 h4 h5 =>
                      simp only [List.mem_singleton] at h1
                      subst h1
                      rw [hs] at h4
                      cases h4
                      exact absurd hdisp h5
                · intro out ho
                  cases ho with
                  | cons _ ho2 =>
                    rw [elementsOf, IdNode.elements, if_pos hdisp, List.map_append]
                    exact List.Sublist.append (by simp) (r2 _ ho2)
            · simp [hnext] at h1
          · simp only [hdisp, if_false] at h1
            rcases hb : idNodes style d fuel sm (F m).head? with _ | below
            · simp [hb] at h1
            · simp only [hb] at h1
              rcases hr : idNodes style d fuel ps ns.head? with _ | ts
              · simp [hr] at h1
              · simp only [hr, Option.some.injEq] at h1
                subst h1
                obtain ⟨r1, r2⟩ := rest ts hr
                obtain ⟨b1, b2⟩ := ih sm m [] (F m) below rfl hb
                constructor
                · intro n s
                  rw [Visited.cons, elementsOf, IdNode.elements, List.mem_append, r1, if_neg hdisp, List.mem_cons, b1, Prod.mk.injEq]
                  refine or_congr_left ⟨?_, ?_⟩
                  · rintro (⟨rfl, rfl⟩ | h)
                    · exact .here (by simp) hn hd hs
                    · exact .inside (by simp) hn hd hs hdisp h
                  · intro h
                    cases h with
                    | here h1 h2 h3 h4 =>
                      simp only [List.mem_singleton] at h1
                      subst h1
                      rw [hs] at h4
                      cases h4
                      exact .inl ⟨rfl, rfl⟩
                    | inside h1 h2 h3 h4 h5 h6 =>
                      simp only [List.mem_singleton] at h1
                      subst h1
                      rw [hs] at h4
                      cases h4
                      exact .inr h6
                · intro out ho
                  cases ho with
                  | cons ho1 ho2 =>
                    rw [elementsOf, IdNode.elements, if_neg hdisp, List.map_append, List.map_cons]
                    exact List.Sublist.append ((b2 _ ho1).cons_cons m) (r2 _ ho2)
      | text contents =>
        simp only [hd] at h1
        exact other (by simp [hd]) _ rfl h1
      | _ =>
        simp only [hd] at h1
        exact other (by simp [hd]) _ rfl h1

theorem idNodes_distinct (h : Represents d F) (ha : F.Acyclic) {fuel : Nat} {ps : ComputedValues} {p : Nat} {t : List IdNode}
    (ht : idNodes style d fuel ps (F p).head? = some t) : Distinct (elementsOf t) := by
  obtain ⟨out, ho⟩ : ∃ out, PreOrder F (F p) out := PreOrder.of_forall _ fun n _ => PreOrder.exists h ha n
  exact ((idNodes_elements h fuel ps p [] (F p) t rfl ht).2 out ho).nodup (PreOrder.nodup h ha ho (Indep.children h ha p))

end Verif.Layout
