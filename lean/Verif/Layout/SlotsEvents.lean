/- What the events of a construction come to, for every schedule. -/
import Verif.Layout.SlotsRefine
namespace Verif.Layout
open Verif.Style

/-- The events in the order of a single thread. -/
def Program.events : Program → List Event
  | .nil => []
  | .event e => [e]
  | .seq p q => p.events ++ q.events
  | .par p q => p.events ++ q.events

/-- The events of an element. -/
def on (id : Nat) (l : List Event) : List Event := l.filter fun e => e.id == id

theorem on_append (id : Nat) (l m : List Event) : on id (l ++ m) = on id l ++ on id m := by simp [on]

/-- Parts that run in parallel are about different elements. -/
def Program.Separate : Program → Prop
  | .nil => True
  | .event _ => True
  | .seq p q => p.Separate ∧ q.Separate
  | .par p q => p.Separate ∧ q.Separate ∧ ∀ id, on id p.events = [] ∨ on id q.events = []

theorem on_shuffle {l m n : List Event} (h : Shuffle l m n) (id : Nat) (hs : on id l = [] ∨ on id m = []) : on id n = on id l ++ on id m := by
  induction h with
  | nil => rfl
  | @left a l m n _ ih =>
    simp only [on, List.filter_cons] at *
    by_cases ha : (a.id == id) = true
    · simp only [ha, if_true] at *
      have hs : m.filter (fun e => e.id == id) = [] := by rcases hs with h | h; cases h; exact h
      rw [ih (.inr hs)]; simp
    · simp only [ha, Bool.false_eq_true, if_false] at *
      exact ih hs
  | @right a l m n _ ih =>
    simp only [on, List.filter_cons] at *
    by_cases ha : (a.id == id) = true
    · simp only [ha, if_true] at *
      have hs : l.filter (fun e => e.id == id) = [] := by rcases hs with h | h; exact h; cases h
      rw [ih (.inl hs), hs]; simp
    · simp only [ha, Bool.false_eq_true, if_false] at *
      exact ih hs

/-- Whatever the schedule, each element has its events in the order of a single thread. -/
theorem on_runs {p : Program} {l : List Event} (h : Runs p l) (hs : p.Separate) (id : Nat) : on id l = on id p.events := by
  induction h with
  | nil => rfl
  | event => rfl
  | seq _ _ ih1 ih2 => simp only [Program.events, on_append, ih1 hs.1, ih2 hs.2]
  | par _ _ hsh ih1 ih2 =>
    obtain ⟨h1, h2, h3⟩ := hs
    rw [on_shuffle hsh id (by rw [ih1 h1, ih2 h2]; exact h3 id), Program.events, on_append, ih1 h1, ih2 h2]

/-- The events on one cell. -/
def runCell : List Event → SlotCell → Option SlotCell
  | [], c => some c
  | e :: es, c =>
    match c.step e with
    | none => none
    | some c => runCell es c

/-- Cells are independent. -/
theorem runEvents_of_cells : ∀ (l : List Event) (h h' : Heap), (∀ id, runCell (on id l) (h id) = some (h' id)) → runEvents l h = some h'
  | [], h, h', hc => by
    simp only [runEvents, Option.some.injEq]
    funext id
    have := hc id
    simpa [on, runCell] using this
  | e :: es, h, h', hc => by
    have he := hc e.id
    simp only [on, List.filter_cons, beq_self_eq_true, if_true, runCell] at he
    rcases hst : (h e.id).step e with _ | c
    · simp [hst] at he
    · simp only [hst] at he
      simp only [runEvents, hst]
      apply runEvents_of_cells
      intro id
      by_cases hid : id = e.id
      · subst hid
        simp only [if_true]
        exact he
      · have := hc id
        have hne : (e.id == id) = false := by simpa using fun h => hid h.symm
        simp only [on, List.filter_cons, hne, Bool.false_eq_true, if_false] at this
        simp only [hid, if_false]
        exact this

mutual
/-- The elements that the traversal comes to, with their styles: not what is below elements with `display: none`. -/
def IdNode.elements : IdNode → List (Nat × ComputedValues)
  | .ignored => []
  | .text _ => []
  | .element id style children => (id, style) :: (if displayOf style = .none then [] else elementsOf children)
/-- The elements that the traversal comes to, with their styles. -/
def elementsOf : List IdNode → List (Nat × ComputedValues)
  | [] => []
  | n :: ns => n.elements ++ elementsOf ns
end

/-- The style of a box. -/
def StoredBox.style : StoredBox → Option ComputedValues
  | .displayContents => none
  | .blockLevel (.sameFormattingContextBlock s _) => some s
  | .blockLevel (.outOfFlowAbsolutelyPositioned s _ _) => some s
  | .blockLevel (.outOfFlowFloat s _ _) => some s
  | .blockLevel (.independent s _ _) => some s
  | .inlineLevel (.inlineBox s _ _ _) => some s
  | .inlineLevel (.textRun _ _) => none
  | .inlineLevel (.outOfFlowAbsolutelyPositioned s _ _) => some s
  | .inlineLevel (.outOfFlowFloat s _ _) => some s

/-- These are all the events of an element with this style. -/
def Complete (id : Nat) (s : ComputedValues) (l : List Event) : Prop :=
  match displayOf s with
  | .none => l = [.unset id]
  | .contents => l = [.contents id]
  | .generatingBox _ _ => ∃ box, l = [.borrow id, .set id box] ∧ box.style = some s

/-- `Does l closed opened`: `l` has all the events of the elements `closed`, and borrows the slots of `opened`, and nothing else. -/
structure Does (l : List Event) (closed opened : List (Nat × ComputedValues)) : Prop where
  closes : ∀ e ∈ closed, Complete e.1 e.2 (on e.1 l)
  opens : ∀ e ∈ opened, on e.1 l = [.borrow e.1] ∧ ∃ a b, displayOf e.2 = .generatingBox a b
  rest : ∀ id, (∀ e ∈ closed, e.1 ≠ id) → (∀ e ∈ opened, e.1 ≠ id) → on id l = []

theorem Does.nil : Does [] [] [] := ⟨by simp, by simp, by intros; rfl⟩

/-- The identities are different from each other. -/
def Distinct (l : List (Nat × ComputedValues)) : Prop := (l.map Prod.fst).Nodup

theorem Distinct.ne {l m : List (Nat × ComputedValues)} (h : Distinct (l ++ m)) {a b : Nat × ComputedValues} (ha : a ∈ l) (hb : b ∈ m) :
    a.1 ≠ b.1 := by
  unfold Distinct at h
  rw [List.map_append, List.nodup_append] at h
  exact h.2.2 _ (List.mem_map_of_mem ha) _ (List.mem_map_of_mem hb)

/-- Two lists of events that are about different elements. -/
theorem Does.append {l m : List Event} {c1 o1 c2 o2 : List (Nat × ComputedValues)} (h1 : Does l c1 o1) (h2 : Does m c2 o2)
    (hd : ∀ a ∈ c1 ++ o1, ∀ b ∈ c2 ++ o2, a.1 ≠ b.1) : Does (l ++ m) (c1 ++ c2) (o1 ++ o2) := by
  have z2 : ∀ a ∈ c1 ++ o1, on a.1 m = [] := fun a ha =>
    h2.rest a.1 (fun b hb => (hd a ha b (by simp [hb])).symm) (fun b hb => (hd a ha b (by simp [hb])).symm)
  have z1 : ∀ b ∈ c2 ++ o2, on b.1 l = [] := fun b hb =>
    h1.rest b.1 (fun a ha => hd a (by simp [ha]) b hb) (fun a ha => hd a (by simp [ha]) b hb)
  refine ⟨?_, ?_, ?_⟩
  · intro e he
    rw [on_append]
    rcases List.mem_append.mp he with he | he
    · rw [z2 e (by simp [he]), List.append_nil]; exact h1.closes e he
    · rw [z1 e (by simp [he]), List.nil_append]; exact h2.closes e he
  · intro e he
    rw [on_append]
    rcases List.mem_append.mp he with he | he
    · rw [z2 e (by simp [he]), List.append_nil]; exact h1.opens e he
    · rw [z1 e (by simp [he]), List.nil_append]; exact h2.opens e he
  · intro id hc ho
    rw [on_append, h1.rest id (fun e he => hc e (by simp [he])) (fun e he => ho e (by simp [he])),
      h2.rest id (fun e he => hc e (by simp [he])) (fun e he => ho e (by simp [he]))]
    rfl

theorem Does.perm {l : List Event} {c o c' o' : List (Nat × ComputedValues)} (h : Does l c o) (hc : c.Perm c') (ho : o.Perm o') : Does l c' o' :=
  ⟨fun e he => h.closes e (hc.mem_iff.mpr he), fun e he => h.opens e (ho.mem_iff.mpr he),
    fun id h1 h2 => h.rest id (fun e he => h1 e (hc.mem_iff.mp he)) (fun e he => h2 e (ho.mem_iff.mp he))⟩

/-- The style of the box. -/
def Intermediate.style : Intermediate → ComputedValues
  | .inlines s _ => s
  | .deferred s _ => s
  | .independent s _ => s
  | .absolutelyPositioned s _ => s
  | .float s _ => s

/-- The slots of boxes, with the styles of the boxes. -/
def slotsOf : List (Intermediate × Option Nat) → List (Nat × ComputedValues)
  | [] => []
  | (i, some id) :: ts => (id, i.style) :: slotsOf ts
  | (_, none) :: ts => slotsOf ts

/-- The elements in what is deferred. -/
def deferredOf : List (Intermediate × Option Nat) → List (Nat × ComputedValues)
  | [] => []
  | (i, _) :: ts => elementsOf i.children ++ deferredOf ts

theorem slotsOf_append (a b : List (Intermediate × Option Nat)) : slotsOf (a ++ b) = slotsOf a ++ slotsOf b := by
  induction a with
  | nil => rfl
  | cons t ts ih =>
    obtain ⟨i, s⟩ := t
    cases s <;> simp [slotsOf, ih]

theorem deferredOf_append (a b : List (Intermediate × Option Nat)) : deferredOf (a ++ b) = deferredOf a ++ deferredOf b := by
  induction a with
  | nil => rfl
  | cons t ts ih => obtain ⟨i, s⟩ := t; simp [deferredOf, ih]

/-- The construction does what it should for these children. -/
def DoesAll (C : ComputedValues → List IdNode → Outcome Built) : Prop :=
  ∀ style cs built, C style cs = .ok built → Distinct (elementsOf cs) → built.program.Separate ∧ Does built.program.events (elementsOf cs) []

/-- What a traversal of elements `els` adds to a builder. -/
structure Adds (b b2 : SlotBuilder) (els : List (Nat × ComputedValues)) : Prop where
  separate : b.program.Separate → b2.program.Separate
  adds : ∃ l closed new, b2.program.events = b.program.events ++ l ∧ b2.boxes = b.boxes ++ new ∧ Does l closed (slotsOf new) ∧
    els.Perm (closed ++ slotsOf new ++ deferredOf new)

theorem Adds.refl (b : SlotBuilder) : Adds b b [] := ⟨id, [], [], [], by simp, by simp, .nil, by simp [slotsOf, deferredOf]⟩

/-- The program and the boxes are all that counts. -/
theorem Adds.congr {b b2 b' b2' : SlotBuilder} {els : List (Nat × ComputedValues)} (h : Adds b b2 els) (h1 : b'.program = b.program)
    (h2 : b'.boxes = b.boxes) (h3 : b2'.program = b2.program) (h4 : b2'.boxes = b2.boxes) : Adds b' b2' els :=
  ⟨by rw [h1, h3]; exact h.separate, by rw [h1, h2, h3, h4]; exact h.adds⟩

theorem Adds.trans {b b2 b3 : SlotBuilder} {e1 e2 : List (Nat × ComputedValues)} (h1 : Adds b b2 e1) (h2 : Adds b2 b3 e2)
    (hd : ∀ a ∈ e1, ∀ c ∈ e2, a.1 ≠ c.1) : Adds b b3 (e1 ++ e2) := by
  obtain ⟨s1, l1, c1, n1, p1, q1, d1, m1⟩ := h1
  obtain ⟨s2, l2, c2, n2, p2, q2, d2, m2⟩ := h2
  refine ⟨fun h => s2 (s1 h), l1 ++ l2, c1 ++ c2, n1 ++ n2, by rw [p2, p1, List.append_assoc], by rw [q2, q1, List.append_assoc], ?_, ?_⟩
  · rw [slotsOf_append]
    refine d1.append d2 fun a ha c hc => hd a (m1.mem_iff.mpr ?_) c (m2.mem_iff.mpr ?_)
    · simp only [List.mem_append] at *; tauto
    · simp only [List.mem_append] at *; tauto
  · rw [slotsOf_append, deferredOf_append]
    refine (m1.append m2).trans ?_
    simp only [List.append_assoc]
    refine List.Perm.append_left c1 ?_
    -- s1 ++ d1 ++ (c2 ++ (s2 ++ d2)) ~ c2 ++ (s1 ++ (s2 ++ (d1 ++ d2)))
    refine (?_ : (slotsOf n1 ++ (deferredOf n1 ++ (c2 ++ (slotsOf n2 ++ deferredOf n2)))).Perm _)
    rw [← List.append_assoc (slotsOf n1), ← List.append_assoc (slotsOf n1 ++ deferredOf n1)]
    refine (List.Perm.append_right _ List.perm_append_comm).trans ?_
    rw [List.append_assoc, List.append_assoc]
    refine List.Perm.append_left c2 (List.Perm.append_left (slotsOf n1) ?_)
    rw [← List.append_assoc, ← List.append_assoc]
    exact List.Perm.append_right _ List.perm_append_comm

/-- One event. -/
theorem Does.event (e : Event) (id : Nat) (s : ComputedValues) (he : e.id = id) (hc : Complete id s [e]) : Does [e] [(id, s)] [] := by
  subst he
  refine ⟨?_, by simp, ?_⟩
  · intro x hx
    rw [List.mem_singleton.mp hx]
    simpa [on] using hc
  · intro i hi _
    have : e.id ≠ i := hi (e.id, s) (by simp)
    simp [on, this]

theorem Does.borrow (id : Nat) (s : ComputedValues) (a : DisplayOutside) (b : DisplayInside) (hd : displayOf s = .generatingBox a b) :
    Does [.borrow id] [] [(id, s)] := by
  refine ⟨by simp, ?_, ?_⟩
  · intro x hx
    rw [List.mem_singleton.mp hx]
    exact ⟨by simp [on, Event.id], a, b, hd⟩
  · intro i _ hi
    have : id ≠ i := hi (id, s) (by simp)
    simp [on, Event.id, this]

/-- A slot that is borrowed, then other events, then it is set. -/
theorem Does.around {l : List Event} {c o : List (Nat × ComputedValues)} (id : Nat) (s : ComputedValues) (box : StoredBox)
    (a : DisplayOutside) (b : DisplayInside) (hd : displayOf s = .generatingBox a b) (hb : box.style = some s) (h : Does l c o)
    (hne : ∀ e ∈ c ++ o, id ≠ e.1) : Does ([.borrow id] ++ l ++ [.set id box]) ((id, s) :: c) o := by
  have z : on id l = [] := h.rest id (fun e he => (hne e (by simp [he])).symm) (fun e he => (hne e (by simp [he])).symm)
  have other : ∀ i, id ≠ i → on i ([.borrow id] ++ l ++ [.set id box]) = on i l := by
    intro i hi
    rw [on_append, on_append]
    simp [on, Event.id, hi]
  refine ⟨?_, ?_, ?_⟩
  · intro e he
    rcases List.mem_cons.mp he with rfl | he
    · rw [on_append, on_append, z]
      simp only [Complete, hd]
      exact ⟨box, by simp [on, Event.id], hb⟩
    · rw [other e.1 (hne e (by simp [he]))]; exact h.closes e he
  · intro e he
    rw [other e.1 (hne e (by simp [he]))]; exact h.opens e he
  · intro i h1 h2
    have hi : id ≠ i := h1 (id, s) (by simp)
    rw [other i hi]
    exact h.rest i (fun e he => h1 e (by simp [he])) h2

theorem endOngoing_adds {b b2 : SlotBuilder} {cs : ComputedValues} (h : b.endOngoing cs = .ok b2) : Adds b b2 [] := by
  obtain ⟨h1, -, -, h2⟩ := endOngoing_boxes h
  refine ⟨by rw [h1]; exact id, ?_⟩
  rcases h2 with ⟨h2, -⟩ | ⟨-, h2⟩
  · exact ⟨[], [], [], by simp [h1], by simp [h2], .nil, by simp [slotsOf, deferredOf]⟩
  · exact ⟨[], [], _, by simp [h1], h2, .nil, by simp [slotsOf, deferredOf, Intermediate.children, elementsOf]⟩

mutual
theorem slotNode_adds {C : ComputedValues → List IdNode → Outcome Built} (hC : DoesAll C) :
    ∀ (n : IdNode) (cst ps : ComputedValues) (b b2 : SlotBuilder), Distinct n.elements → slotNode C cst ps n b = .ok b2 → Adds b b2 n.elements
  | .ignored, cst, ps, b, b2, _, e => by rw [slotNode] at e; cases e; exact .refl b
  | .text contents, cst, ps, b, b2, _, e => by
    rw [slotNode] at e; cases e; exact (Adds.refl b).congr rfl rfl rfl rfl
  | .element id style children, cst, ps, b, b2, hd, e => by
    rw [slotNode] at e
    rcases hdis : displayOf style with _ | _ | ⟨_ | _, inside⟩ <;> rw [hdis] at e
    · cases e
      refine ⟨fun h => ⟨h, trivial⟩, [.unset id], [(id, style)], [], rfl, by simp [SlotBuilder.emit], ?_, ?_⟩
      · exact Does.event _ id style rfl (by simp [Complete, hdis])
      · simp [IdNode.elements, hdis, slotsOf, deferredOf]
    · have hel : (IdNode.element id style children).elements = [(id, style)] ++ elementsOf children := by simp [IdNode.elements, hdis]
      rw [hel] at hd ⊢
      have h1 : Adds b (b.emit (.event (.contents id))) [(id, style)] :=
        ⟨fun h => ⟨h, trivial⟩, [.contents id], [(id, style)], [], rfl, by simp [SlotBuilder.emit],
          Does.event _ id style rfl (by simp [Complete, hdis]), by simp [slotsOf, deferredOf]⟩
      refine h1.trans (slotNodes_adds hC children cst style _ b2 ?_ e) fun a ha c hc => hd.ne ha hc
      unfold Distinct at *
      rw [List.map_append, List.nodup_append] at hd
      exact hd.2.1
    · have hel : (IdNode.element id style children).elements = (id, style) :: elementsOf children := by simp [IdNode.elements, hdis]
      rw [hel] at hd ⊢
      have hdc : Distinct (elementsOf children) := by
        unfold Distinct at *
        rw [List.map_cons, List.nodup_cons] at hd
        exact hd.2
      have hni : ∀ e ∈ elementsOf children, id ≠ e.1 := fun e he => Distinct.ne (l := [(id, style)]) hd (List.mem_singleton.mpr rfl) he
      cases inside with
      | flow =>
        obtain ⟨b3, e1, e2⟩ := Outcome.andThen_ok (Outcome.owning_ok e)
        obtain ⟨s1, l, closed, new, p1, q1, d1, m1⟩ := slotNodes_adds hC children _ _ _ _ hdc e1
        rcases hst : b3.stack with _ | ⟨o, rest⟩
        · simp only [hst] at e2; cases e2
        · simp only [hst] at e2
          cases e2
          have ho : o.style = style := by
            have := slotNodes_stack children _ _ _ _ e1
            rw [hst] at this
            simp only [List.map_cons, List.cons.injEq] at this
            exact this.1
          refine ⟨fun h => ⟨s1 ⟨h, trivial⟩, trivial⟩, [.borrow id] ++ l ++ [.set id (.inlineLevel (.inlineBox o.style o.firstFragment true o.children))],
            (id, style) :: closed, new, ?_, q1, ?_, ?_⟩
          · simp only [SlotBuilder.emit, SlotBuilder.setInlinePart, Program.events, p1, List.append_assoc]
          · refine Does.around id style _ _ _ hdis (by simp [StoredBox.style, ho]) d1 ?_
            intro e he
            exact hni e (m1.mem_iff.mpr (by simp only [List.mem_append] at *; tauto))
          · simp only [List.cons_append]
            exact m1.cons _
      | flowRoot => cases e
    · have hel : (IdNode.element id style children).elements = (id, style) :: elementsOf children := by simp [IdNode.elements, hdis]
      rw [hel] at hd ⊢
      have hdc : Distinct (elementsOf children) := by
        unfold Distinct at *
        rw [List.map_cons, List.nodup_cons] at hd
        exact hd.2
      have hni : ∀ e ∈ elementsOf children, id ≠ e.1 := fun e he => Distinct.ne (l := [(id, style)]) hd (List.mem_singleton.mpr rfl) he
      -- finished at once
      have now : ∀ (built : Built) (box : InlineLevelBox) (b3 : SlotBuilder), C style children = .ok built →
          (StoredBox.inlineLevel box).style = some style →
          b3.program = .seq (.seq (.seq b.program (.event (.borrow id))) built.program) (.event (.set id (.inlineLevel box))) →
          b3.boxes = b.boxes → Adds b b3 ((id, style) :: elementsOf children) := by
        intro built box b3 h1 h2 h3 h4
        obtain ⟨g1, g2⟩ := hC style children built h1 hdc
        refine ⟨fun h => by rw [h3]; exact ⟨⟨⟨h, trivial⟩, g1⟩, trivial⟩, [.borrow id] ++ built.program.events ++ [.set id (.inlineLevel box)],
          (id, style) :: elementsOf children, [], ?_, by simp [h4], ?_, ?_⟩
        · rw [h3]; simp only [Program.events, List.append_assoc]
        · exact Does.around id style _ _ _ hdis h2 g2 (by simpa [slotsOf] using hni)
        · simp [slotsOf, deferredOf]
      -- deferred
      have later : ∀ (i : Intermediate) (b1 b3 : SlotBuilder), i.style = style → i.children = children →
          Adds (b.emit (.event (.borrow id))) b1 [] → b3.program = b1.program → b3.boxes = b1.boxes ++ [(i, some id)] →
          Adds b b3 ((id, style) :: elementsOf children) := by
        intro i b1 b3 h1 h2 h3 h4 h5
        obtain ⟨s1, l, c, n, p1, q1, d1, m1⟩ := h3
        have m1 := m1.symm.eq_nil
        simp only [List.append_eq_nil_iff] at m1
        obtain ⟨⟨rfl, m2⟩, m3⟩ := m1
        refine ⟨fun h => by rw [h4]; exact s1 ⟨h, trivial⟩, [.borrow id] ++ l, [], n ++ [(i, some id)], ?_, ?_, ?_, ?_⟩
        · rw [h4, p1]; simp only [SlotBuilder.emit, Program.events, List.append_assoc]
        · rw [h5, q1]; simp [SlotBuilder.emit]
        · rw [slotsOf_append, m2]
          have := (Does.borrow id style _ _ hdis).append d1 (by simp [m2])
          simpa [slotsOf, h1, m2] using this
        · rw [slotsOf_append, deferredOf_append, m2, m3]
          simp [slotsOf, deferredOf, h1, h2]
      dsimp only at e
      split at e
      · split at e
        · obtain ⟨built, e1, e2⟩ := Outcome.andThen_ok (Outcome.owning_ok e)
          cases e2
          exact now built _ _ e1 rfl rfl rfl
        · cases e
          exact later _ _ _ rfl rfl (.refl _) rfl rfl
      · split at e
        · split at e
          · obtain ⟨built, e1, e2⟩ := Outcome.andThen_ok (Outcome.owning_ok e)
            cases e2
            exact now built _ _ e1 rfl rfl rfl
          · cases e
            exact later (.float style children) _ _ rfl rfl (.refl _) rfl rfl
        · obtain ⟨b3, e1, e2⟩ := Outcome.andThen_ok (Outcome.owning_ok e)
          have h3 : Adds (b.emit (.event (.borrow id))) b3 [] := (endOngoing_adds e1).congr rfl rfl rfl rfl
          cases inside with
          | flow => cases e2; exact later (.deferred style children) b3 _ rfl rfl h3 rfl rfl
          | flowRoot => cases e2; exact later (.independent style children) b3 _ rfl rfl h3 rfl rfl
theorem slotNodes_adds {C : ComputedValues → List IdNode → Outcome Built} (hC : DoesAll C) :
    ∀ (ns : List IdNode) (cst ps : ComputedValues) (b b2 : SlotBuilder), Distinct (elementsOf ns) → slotNodes C cst ps ns b = .ok b2 →
      Adds b b2 (elementsOf ns)
  | [], cst, ps, b, b2, _, e => by rw [slotNodes] at e; cases e; exact .refl b
  | n :: ns, cst, ps, b, b2, hd, e => by
    rw [slotNodes] at e
    obtain ⟨b3, e1, e2⟩ := Outcome.andThen_ok e
    rw [elementsOf] at hd ⊢
    have hd1 : Distinct n.elements ∧ Distinct (elementsOf ns) := by
      unfold Distinct at *
      rw [List.map_append, List.nodup_append] at hd
      exact ⟨hd.1, hd.2.1⟩
    exact (slotNode_adds hC n cst ps b b3 hd1.1 e1).trans (slotNodes_adds hC ns cst ps b3 b2 hd1.2 e2) fun a ha c hc => hd.ne ha hc
end

/-- `Sets l slots deferred`: `l` sets the slots, which were borrowed before, has all the events of the elements `deferred`, and nothing else. -/
structure Sets (l : List Event) (slots deferred : List (Nat × ComputedValues)) : Prop where
  sets : ∀ e ∈ slots, ∃ box : StoredBox, on e.1 l = [.set e.1 box] ∧ box.style = some e.2
  closes : ∀ e ∈ deferred, Complete e.1 e.2 (on e.1 l)
  rest : ∀ id, (∀ e ∈ slots, e.1 ≠ id) → (∀ e ∈ deferred, e.1 ≠ id) → on id l = []

theorem finishBox_does {C : ComputedValues → List IdNode → Outcome Built} (hC : DoesAll C) {i : Intermediate}
    {r : BlockLevelBox × Bool × Program} (h : finishBox C i = .ok r) (hd : Distinct (elementsOf i.children)) :
    r.2.2.Separate ∧ Does r.2.2.events (elementsOf i.children) [] ∧ (StoredBox.blockLevel r.1).style = some i.style := by
  cases i with
  | inlines s boxes => cases h; exact ⟨trivial, .nil, rfl⟩
  | deferred s cs =>
    obtain ⟨built, e1, e2⟩ := Outcome.andThen_ok h
    cases e2
    obtain ⟨g1, g2⟩ := hC s cs built e1 hd
    exact ⟨g1, g2, rfl⟩
  | independent s cs =>
    obtain ⟨built, e1, e2⟩ := Outcome.andThen_ok h
    cases e2
    obtain ⟨g1, g2⟩ := hC s cs built e1 hd
    exact ⟨g1, g2, rfl⟩
  | absolutelyPositioned s cs =>
    obtain ⟨built, e1, e2⟩ := Outcome.andThen_ok h
    cases e2
    obtain ⟨g1, g2⟩ := hC s cs built e1 hd
    exact ⟨g1, g2, rfl⟩
  | float s cs =>
    obtain ⟨built, e1, e2⟩ := Outcome.andThen_ok h
    cases e2
    obtain ⟨g1, g2⟩ := hC s cs built e1 hd
    exact ⟨g1, g2, rfl⟩

theorem Distinct.of_sublist {l m : List (Nat × ComputedValues)} (h : Distinct m) (hs : l.Sublist m) : Distinct l := by
  unfold Distinct at *
  exact h.sublist (hs.map _)

theorem Distinct.of_perm {l m : List (Nat × ComputedValues)} (h : Distinct m) (hs : m.Perm l) : Distinct l := by
  unfold Distinct at *
  exact (hs.map _).nodup_iff.mp h

theorem finishTask_sets {C : ComputedValues → List IdNode → Outcome Built} (hC : DoesAll C) {t : Intermediate × Option Nat}
    {r : BlockLevelBox × Bool × Program} (h : finishTask C t = .ok r) (hd : Distinct (slotsOf [t] ++ elementsOf t.1.children)) :
    r.2.2.Separate ∧ Sets r.2.2.events (slotsOf [t]) (elementsOf t.1.children) := by
  obtain ⟨i, slot⟩ := t
  obtain ⟨r0, e1, e2⟩ := Outcome.andThen_ok (Outcome.owning_ok h)
  obtain ⟨g1, g2, g3⟩ := finishBox_does hC e1 (hd.of_sublist (List.sublist_append_right _ _))
  cases slot with
  | none =>
    cases e2
    exact ⟨g1, by simp [slotsOf], g2.closes, fun id _ h2 => g2.rest id h2 (by simp)⟩
  | some id =>
    cases e2
    have hni : ∀ e ∈ elementsOf i.children, id ≠ e.1 := fun e he => Distinct.ne (l := [(id, i.style)]) hd (List.mem_singleton.mpr rfl) he
    refine ⟨⟨g1, trivial⟩, ?_, ?_, ?_⟩
    · intro e he
      simp only [slotsOf, List.mem_singleton] at he
      subst he
      refine ⟨_, ?_, g3⟩
      simp only [Program.events, on_append, g2.rest id (fun e he => (hni e he).symm) (by simp)]
      simp [on, Event.id]
    · intro e he
      have := g2.closes e he
      simp only [Program.events, on_append]
      have hne := hni e he
      simpa [on, Event.id, hne] using this
    · intro i' h1 h2
      have hne : id ≠ i' := h1 (id, i.style) (by simp [slotsOf])
      simp only [Program.events, on_append, g2.rest i' h2 (by simp)]
      simp [on, Event.id, hne]

theorem finishTasks_sets {C : ComputedValues → List IdNode → Outcome Built} (hC : DoesAll C) :
    ∀ (ts : List (Intermediate × Option Nat)) (r : List BlockLevelBox × Bool × Program), finishTasks C ts = .ok r →
      Distinct (slotsOf ts ++ deferredOf ts) → r.2.2.Separate ∧ Sets r.2.2.events (slotsOf ts) (deferredOf ts)
  | [], r, h, _ => by
    cases h
    exact ⟨trivial, by simp [slotsOf], by simp [deferredOf], fun _ _ _ => rfl⟩
  | t :: ts, r, h, hd => by
    rw [finishTasks] at h
    obtain ⟨r1, e1, h⟩ := Outcome.andThen_ok h
    obtain ⟨r2, e2, h⟩ := Outcome.andThen_ok h
    cases h
    have hs : slotsOf (t :: ts) = slotsOf [t] ++ slotsOf ts := slotsOf_append [t] ts
    have hf : deferredOf (t :: ts) = elementsOf t.1.children ++ deferredOf ts := by obtain ⟨i, s⟩ := t; rfl
    rw [hs, hf] at hd ⊢
    have hp : (slotsOf [t] ++ slotsOf ts ++ (elementsOf t.1.children ++ deferredOf ts)).Perm
        ((slotsOf [t] ++ elementsOf t.1.children) ++ (slotsOf ts ++ deferredOf ts)) := by
      simp only [List.append_assoc]
      refine List.Perm.append_left _ ?_
      rw [← List.append_assoc, ← List.append_assoc]
      exact List.Perm.append_right _ List.perm_append_comm
    have hd2 := hd.of_perm hp
    obtain ⟨a1, a2⟩ := finishTask_sets hC e1 (hd2.of_sublist (List.sublist_append_left _ _))
    obtain ⟨b1, b2⟩ := finishTasks_sets hC ts r2 e2 (hd2.of_sublist (List.sublist_append_right _ _))
    have za : ∀ e ∈ slotsOf [t] ++ elementsOf t.1.children, on e.1 r2.2.2.events = [] := fun e he =>
      b2.rest e.1 (fun x hx => (hd2.ne he (List.mem_append_left _ hx)).symm) (fun x hx => (hd2.ne he (List.mem_append_right _ hx)).symm)
    have zb : ∀ e ∈ slotsOf ts ++ deferredOf ts, on e.1 r1.2.2.events = [] := fun e he =>
      a2.rest e.1 (fun x hx => hd2.ne (List.mem_append_left _ hx) he) (fun x hx => hd2.ne (List.mem_append_right _ hx) he)
    refine ⟨⟨a1, b1, ?_⟩, ?_, ?_, ?_⟩
    · intro id
      by_cases h : ∃ e ∈ slotsOf [t] ++ elementsOf t.1.children, e.1 = id
      · obtain ⟨e, he, rfl⟩ := h
        exact .inr (za e he)
      · refine .inl (a2.rest id ?_ ?_)
        · intro e he hid; exact h ⟨e, List.mem_append_left _ he, hid⟩
        · intro e he hid; exact h ⟨e, List.mem_append_right _ he, hid⟩
    · intro e he
      simp only [Program.events, on_append]
      rcases List.mem_append.mp he with he | he
      · rw [za e (List.mem_append_left _ he), List.append_nil]; exact a2.sets e he
      · rw [zb e (List.mem_append_left _ he), List.nil_append]; exact b2.sets e he
    · intro e he
      simp only [Program.events, on_append]
      rcases List.mem_append.mp he with he | he
      · rw [za e (List.mem_append_right _ he), List.append_nil]; exact a2.closes e he
      · rw [zb e (List.mem_append_right _ he), List.nil_append]; exact b2.closes e he
    · intro id h1 h2
      simp only [Program.events, on_append]
      rw [a2.rest id (fun e he => h1 e (List.mem_append_left _ he)) (fun e he => h2 e (List.mem_append_left _ he)),
        b2.rest id (fun e he => h1 e (List.mem_append_right _ he)) (fun e he => h2 e (List.mem_append_right _ he))]
      rfl

/-- The construction has all the events of all elements, once. -/
theorem constructSlots_does : ∀ fuel, DoesAll (constructSlots fuel)
  | 0 => by intro style cs built h; cases h
  | fuel + 1 => by
    have hC := constructSlots_does fuel
    intro style cs built h hd
    rw [constructSlots] at h
    obtain ⟨b, e1, h⟩ := Outcome.andThen_ok h
    have h1 := slotNodes_adds hC cs style style .new b hd e1
    have go : ∀ b2 : SlotBuilder, Adds .new b2 (elementsOf cs) →
        ((finishTasks (constructSlots fuel) b2.boxes).andThen fun r =>
          Outcome.ok ⟨.blockLevelBoxes r.1, b2.containsFloats || r.2.1, .seq b2.program r.2.2⟩) = .ok built →
        built.program.Separate ∧ Does built.program.events (elementsOf cs) [] := by
      intro b2 ha h
      obtain ⟨r, e2, h⟩ := Outcome.andThen_ok h
      cases h
      obtain ⟨s1, l, closed, new, p1, q1, d1, m1⟩ := ha
      simp only [SlotBuilder.new, List.nil_append, Program.events] at p1 q1
      subst q1
      have hd2 := hd.of_perm m1
      rw [List.append_assoc] at hd2
      obtain ⟨g1, g2⟩ := finishTasks_sets hC b2.boxes r e2 (hd2.of_sublist (List.sublist_append_right _ _))
      refine ⟨⟨s1 trivial, g1⟩, ?_, by simp, ?_⟩
      · intro e he
        simp only [Program.events, on_append, p1]
        have he := m1.mem_iff.mp he
        rw [List.append_assoc] at he
        rcases List.mem_append.mp he with he | he
        · rw [g2.rest e.1 (fun x hx => (hd2.ne he (List.mem_append_left _ hx)).symm)
            (fun x hx => (hd2.ne he (List.mem_append_right _ hx)).symm), List.append_nil]
          exact d1.closes e he
        · rcases List.mem_append.mp he with he' | he'
          · obtain ⟨hb, a, c, hdis⟩ := d1.opens e he'
            obtain ⟨box, hs, hst⟩ := g2.sets e he'
            rw [hb, hs]
            simp only [Complete, hdis]
            exact ⟨box, rfl, hst⟩
          · have hd3 := hd2.of_sublist (List.sublist_append_right _ _)
            rw [d1.rest e.1 (fun x hx => hd2.ne hx he) (fun x hx => hd3.ne hx he'), List.nil_append]
            exact g2.closes e he'
      · intro id h1 _
        simp only [Program.events, on_append, p1]
        have h2 : ∀ e ∈ closed ++ slotsOf b2.boxes ++ deferredOf b2.boxes, e.1 ≠ id := fun e he => h1 e (m1.mem_iff.mpr he)
        simp only [List.mem_append] at h2
        rw [d1.rest id (fun e he => h2 e (.inl (.inl he))) (fun e he => h2 e (.inl (.inr he))),
          g2.rest id (fun e he => h2 e (.inl (.inr he))) (fun e he => h2 e (.inr he))]
        rfl
    unfold SlotBuilder.finish at h
    split at h
    · rename_i hc
      cases h
      simp only [Bool.and_eq_true, List.isEmpty_iff] at hc
      obtain ⟨s1, l, closed, new, p1, q1, d1, m1⟩ := h1
      rw [hc.2] at q1
      simp only [SlotBuilder.new, List.nil_append, Program.events] at p1 q1
      subst q1
      simp only [slotsOf, deferredOf, List.append_nil] at m1 d1
      exact ⟨s1 trivial, by rw [p1]; exact d1.perm m1.symm (List.Perm.refl _)⟩
    · split at h
      · exact go b h1 h
      · obtain ⟨b2, e2, h⟩ := Outcome.andThen_ok h
        have h2 := h1.trans (endOngoing_adds (Outcome.owning_ok e2)) (by simp)
        rw [List.append_nil] at h2
        exact go b2 h2 h

end Verif.Layout
