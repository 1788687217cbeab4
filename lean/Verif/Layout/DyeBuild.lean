/- The boxes of documents whose styles differ in what does not concern layout. -/
import Verif.Layout.DyeLemmas
import Verif.Layout.WrapInline
namespace Verif.Layout
open Verif.Style Verif.Text

/-- Trees with the same boxes, but for the styles that `D` makes equal. `p` and `p'` are the styles of what the nodes are in. -/
inductive AlikeBut (D : Dye) : ComputedValues → ComputedValues → List StyledNode → List StyledNode → Prop
  | nil {p p'} : AlikeBut D p p' [] []
  | ignored {p p' ns ns'} : AlikeBut D p p' ns ns' → AlikeBut D p p' (.ignored :: ns) (.ignored :: ns')
  | text {p p' t ns ns'} : AlikeBut D p p' ns ns' → AlikeBut D p p' (.text t :: ns) (.text t :: ns')
  | hidden {p p' s s' ch ch' ns ns'} : displayOf s = .none → displayOf s' = .none → AlikeBut D p p' ns ns' →
      AlikeBut D p p' (.element s ch :: ns) (.element s' ch' :: ns')
  | element {p p' s s' ch ch' ns ns'} : D.box s = D.box s' → D.text s = D.text s' → displayOf s = displayOf s' →
      positionOf s = positionOf s' → floatOf s = floatOf s' → AlikeBut D s s' ch ch' → AlikeBut D p p' ns ns' →
      AlikeBut D p p' (.element s ch :: ns) (.element s' ch' :: ns')
  | contents {p p' s ch mid ns ns'} : displayOf s = .contents → D.text s = D.text p → AlikeBut D s p' ch mid → AlikeBut D p p' ns ns' →
      AlikeBut D p p' (.element s ch :: ns) (mid ++ ns')
  | bare {p p' s s' ch ch' ns ns'} : displayOf s = .contents → displayOf s' = .contents → D.text s = D.text s' → AlikeBut D s s' ch ch' →
      AlikeBut D p p' ns ns' → AlikeBut D p p' (.element s ch :: ns) (.element s' ch' :: ns')

section
variable (D : Dye)

def dyeOngoing (o : OngoingInlineBox) : OngoingInlineBox := ⟨D.box o.style, o.firstFragment, dyeInlines D o.children⟩
def dyeBuilder (b : Builder) : Builder :=
  ⟨dyeBoxes D b.blockLevelBoxes, dyeInlines D b.ongoing, b.stack.map (dyeOngoing D), b.containsFloats⟩

theorem dyeInlines_append (a b : List InlineLevelBox) : dyeInlines D (a ++ b) = dyeInlines D a ++ dyeInlines D b := by
  simp [dyeInlines_eq]
theorem dyeBoxes_append (a b : List BlockLevelBox) : dyeBoxes D (a ++ b) = dyeBoxes D a ++ dyeBoxes D b := by
  simp [dyeBoxes_eq]
theorem dyeInlines_isEmpty (a : List InlineLevelBox) : (dyeInlines D a).isEmpty = a.isEmpty := by simp [dyeInlines_eq]
theorem dyeBoxes_isEmpty (a : List BlockLevelBox) : (dyeBoxes D a).isEmpty = a.isEmpty := by simp [dyeBoxes_eq]

theorem dye_current (b : Builder) : (dyeBuilder D b).current = dyeInlines D b.current := by
  obtain ⟨bs, o, stack, f⟩ := b
  cases stack <;> rfl

theorem dye_setCurrent (b : Builder) (boxes : List InlineLevelBox) :
    (dyeBuilder D b).setCurrent (dyeInlines D boxes) = dyeBuilder D (b.setCurrent boxes) := by
  obtain ⟨bs, o, stack, f⟩ := b
  cases stack <;> rfl

theorem dye_hasOngoing (b : Builder) : (dyeBuilder D b).hasOngoing = b.hasOngoing := by
  simp [Builder.hasOngoing, dyeBuilder, dyeInlines_isEmpty]

mutual
theorem dye_spaceAfter : ∀ b : InlineLevelBox, (dyeInline D b).spaceAfter = b.spaceAfter
  | .inlineBox _ _ _ children => by
    rw [dyeInline, InlineLevelBox.spaceAfter, InlineLevelBox.spaceAfter, dye_spaceAfterAll children]
  | .textRun _ _ => by rw [dyeInline, InlineLevelBox.spaceAfter, InlineLevelBox.spaceAfter]
  | .outOfFlowAbsolutelyPositioned _ _ _ => by rw [dyeInline, InlineLevelBox.spaceAfter, InlineLevelBox.spaceAfter]
  | .outOfFlowFloat _ _ _ => by rw [dyeInline, InlineLevelBox.spaceAfter, InlineLevelBox.spaceAfter]
theorem dye_spaceAfterAll : ∀ bs : List InlineLevelBox, spaceAfterAll (dyeInlines D bs) = spaceAfterAll bs
  | [] => by rw [dyeInlines]
  | b :: bs => by rw [dyeInlines, spaceAfterAll, spaceAfterAll, dye_spaceAfter b, dye_spaceAfterAll bs]
end

theorem dye_appendText (s : ComputedValues) (t : List Nat) (bs : List InlineLevelBox) :
    appendText (D.text s) t (dyeInlines D bs) = dyeInlines D (appendText s t bs) := by
  induction bs with
  | nil => simp only [dyeInlines, appendText, dyeInline]
  | cons b bs ih =>
    cases bs with
    | nil => cases b <;> simp only [dyeInlines, appendText, dyeInline]
    | cons b2 bs =>
      simp only [dyeInlines] at ih ⊢
      rw [show appendText (D.text s) t (dyeInline D b :: dyeInline D b2 :: dyeInlines D bs) =
        dyeInline D b :: appendText (D.text s) t (dyeInline D b2 :: dyeInlines D bs) from by cases b <;> rfl, ih,
        show appendText s t (b :: b2 :: bs) = b :: appendText s t (b2 :: bs) from by cases b <;> rfl, dyeInlines]

theorem dye_handleText (b : Builder) (t : List Nat) (s : ComputedValues) :
    (dyeBuilder D b).handleText t (D.text s) = dyeBuilder D (b.handleText t s) := by
  have h : (dyeBuilder D b).handleLeadingWhitespace t = b.handleLeadingWhitespace t := by
    cases t <;> simp only [Builder.handleLeadingWhitespace, dye_current, dye_spaceAfterAll]
  simp only [Builder.handleText, h, dye_current, dye_appendText, dye_setCurrent]
  split <;> rfl

theorem dye_endOngoing (b : Builder) (s : ComputedValues) :
    (dyeBuilder D b).endOngoing (D.box s) = (b.endOngoing s).map (dyeBuilder D) := by
  obtain ⟨bs, o, stack, f⟩ := b
  cases stack with
  | cons => rfl
  | nil =>
    cases o with
    | nil => rfl
    | cons x o =>
      simp [Builder.endOngoing, dyeBuilder, D.anonymous, dyeInlines, dyeBoxes, dyeBoxes_append, dyeBox, dyeContainer]

theorem dye_fragmentStack (inner : Option InlineLevelBox) (stack : List OngoingInlineBox) :
    fragmentStack (inner.map (dyeInline D)) (stack.map (dyeOngoing D)) = (fragmentStack inner stack).map (dyeInline D) := by
  induction stack generalizing inner with
  | nil => rfl
  | cons o stack ih =>
    simp only [List.map_cons, fragmentStack]
    rw [← ih]
    cases inner <;> simp [dyeOngoing, dyeInline, dyeInlines_append, dyeInlines]

theorem dye_splitInlines (b : Builder) (s : ComputedValues) :
    (dyeBuilder D b).splitInlines (D.box s) = (b.splitInlines s).map (dyeBuilder D) := by
  simp only [Builder.splitInlines]
  rw [← dye_endOngoing]
  have h := dye_fragmentStack D none b.stack
  rw [Option.map_none] at h
  congr 1
  simp only [dyeBuilder, h, dyeInlines_append, List.map_map]
  congr 2
  cases fragmentStack none b.stack <;> simp [dyeInlines]

def dyeContents (r : BlockContainer × Bool) : BlockContainer × Bool := (dyeContainer D r.1, r.2)

theorem dye_finishBuilder (b : Builder) (s : ComputedValues) : (dyeBuilder D b).finish (D.box s) = (b.finish s).map (dyeContents D) := by
  simp only [Builder.finish, dye_endOngoing]
  rw [show (dyeBuilder D b).ongoing = dyeInlines D b.ongoing from rfl, show (dyeBuilder D b).blockLevelBoxes = dyeBoxes D b.blockLevelBoxes from rfl,
    dyeInlines_isEmpty, dyeBoxes_isEmpty]
  split
  · simp [dyeContents, dyeContainer, dyeBuilder]
  · split
    · simp [dyeContents, dyeContainer, dyeBuilder]
    · rcases b.endOngoing s with _ | b1
      · rfl
      · simp [dyeContents, dyeContainer, dyeBuilder]

theorem map_cases {α β : Type} {f : α → β} {x y : Option α} (h : x.map f = y.map f) :
    (x = none ∧ y = none) ∨ ∃ a b, x = some a ∧ y = some b ∧ f a = f b := by
  cases x <;> cases y <;> simp_all

theorem traverseNodes_append' (cs ps : ComputedValues) (a c : List StyledNode) (b : Builder) :
    traverseNodes cs ps (a ++ c) b = (traverseNodes cs ps a b).bind (traverseNodes cs ps c) := by
  induction a generalizing b with
  | nil => simp [traverseNodes]
  | cons n a ih =>
    simp only [List.cons_append, traverseNodes]
    rcases traverseNode cs ps n b with _ | b1
    · rfl
    · exact ih b1

theorem dyeBuilder_new : dyeBuilder D Builder.new = Builder.new := by simp [dyeBuilder, Builder.new, dyeBoxes, dyeInlines]

theorem dye_push (b : Builder) (x : InlineLevelBox) :
    dyeBuilder D (b.setCurrent (b.current ++ [x])) = (dyeBuilder D b).setCurrent ((dyeBuilder D b).current ++ [dyeInline D x]) := by
  rw [dye_current, show [dyeInline D x] = dyeInlines D [x] from by simp [dyeInlines], ← dyeInlines_append, dye_setCurrent]

theorem dye_pushBox (b : Builder) (x : BlockLevelBox) :
    dyeBuilder D { b with blockLevelBoxes := b.blockLevelBoxes ++ [x] } =
      { dyeBuilder D b with blockLevelBoxes := (dyeBuilder D b).blockLevelBoxes ++ [dyeBox D x] } := by
  simp [dyeBuilder, dyeBoxes_append, dyeBoxes]

variable {D}

theorem AlikeBut.traverse {ps ps' : ComputedValues} {ns ns' : List StyledNode} (h : AlikeBut D ps ps' ns ns') : D.text ps = D.text ps' →
    ∀ {cs cs' : ComputedValues} {b b' : Builder}, D.box cs = D.box cs' → dyeBuilder D b = dyeBuilder D b' →
    (traverseNodes cs ps ns b).map (dyeBuilder D) = (traverseNodes cs' ps' ns' b').map (dyeBuilder D) := by
  induction h with
  | nil => intro _ cs cs' b b' _ hb; simp [traverseNodes, hb]
  | ignored _ ih =>
    intro hp cs cs' b b' hc hb
    simp only [traverseNodes, traverseNode]
    exact ih hp hc hb
  | text _ ih =>
    intro hp cs cs' b b' hc hb
    simp only [traverseNodes, traverseNode]
    refine ih hp hc ?_
    rw [← dye_handleText, ← dye_handleText, hb, hp]
  | hidden h1 h2 _ ih =>
    intro hp cs cs' b b' hc hb
    simp only [traverseNodes, traverseNode, h1, h2]
    exact ih hp hc hb
  | @contents p p' s ch mid ns ns' h1 h2 _ _ ih1 ih2 =>
    intro hp cs cs' b b' hc hb
    simp only [traverseNodes, traverseNode, h1, traverseNodes_append']
    rcases map_cases (ih1 (h2.trans hp) hc hb) with ⟨e1, e2⟩ | ⟨x, y, e1, e2, e3⟩
    · rw [e1, e2]; rfl
    · rw [e1, e2]
      exact ih2 hp hc e3
  | @bare p p' s s' ch ch' ns ns' h1 h1' h2 _ _ ih1 ih2 =>
    intro hp cs cs' b b' hc hb
    simp only [traverseNodes, traverseNode, h1, h1']
    rcases map_cases (ih1 h2 hc hb) with ⟨e1, e2⟩ | ⟨x, y, e1, e2, e3⟩
    · rw [e1, e2]
    · rw [e1, e2]
      exact ih2 hp hc e3
  | @element p p' s s' ch ch' ns ns' h1 h2 h3 h4 h5 _ _ ih1 ih2 =>
    intro hp cs cs' b b' hc hb
    have key : (traverseNode cs p (.element s ch) b).map (dyeBuilder D) = (traverseNode cs' p' (.element s' ch') b').map (dyeBuilder D) := by
      simp only [traverseNode, ← h3, ← h4, ← h5]
      have hf : ∀ {x y : Builder}, dyeBuilder D x = dyeBuilder D y → (x.finish s).map (dyeContents D) = (y.finish s').map (dyeContents D) := by
        intro x y hxy
        rw [← dye_finishBuilder, ← dye_finishBuilder, hxy, h1]
      have ho : ∀ {x y : Builder}, dyeBuilder D x = dyeBuilder D y → x.hasOngoing = y.hasOngoing := by
        intro x y hxy
        rw [← dye_hasOngoing D x, hxy, dye_hasOngoing]
      split
      · simp [hb]
      · exact ih1 h2 hc hb
      · have hi := ih1 h2 (b := { b with stack := ⟨s, true, []⟩ :: b.stack }) (b' := { b' with stack := ⟨s', true, []⟩ :: b'.stack }) hc (by
          simp only [dyeBuilder, Builder.mk.injEq] at hb ⊢
          simp [hb, dyeOngoing, h1])
        rcases map_cases hi with ⟨e1, e2⟩ | ⟨x, y, e1, e2, e3⟩
        · rw [e1, e2]
        · rw [e1, e2]
          obtain ⟨bs, o, stack, f⟩ := x
          obtain ⟨bs', o', stack', f'⟩ := y
          have e3' := e3
          simp only [dyeBuilder, Builder.mk.injEq] at e3
          obtain ⟨q1, q2, q3, q4⟩ := e3
          rcases stack with _ | ⟨x, stack⟩ <;> rcases stack' with _ | ⟨x', stack'⟩ <;> simp only [List.map_nil, List.map_cons] at q3
          · rfl
          · cases q3
          · cases q3
          · simp only [Option.map_some, Option.some.injEq, dye_push]
            rw [List.cons.injEq] at q3
            have q : dyeBuilder D ⟨bs, o, stack, f⟩ = dyeBuilder D ⟨bs', o', stack', f'⟩ := by
              simp only [dyeBuilder, q1, q2, q3.2, q4]
            have q5 := q3.1
            simp only [dyeOngoing, OngoingInlineBox.mk.injEq] at q5
            simp only [q, dyeInline, q5.1, q5.2.1, q5.2.2]
      · rfl
      · have hin := ih1 h2 (b := Builder.new) (b' := Builder.new) h1 rfl
        split
        · rcases map_cases hin with ⟨e1, e2⟩ | ⟨x, y, e1, e2, e3⟩
          · rw [e1, e2]
          · rw [e1, e2]
            simp only []
            rcases map_cases (hf e3) with ⟨e1, e2⟩ | ⟨⟨c, f⟩, ⟨c', f'⟩, e1, e2, e3⟩
            · rw [e1, e2]
            · rw [e1, e2]
              simp only [dyeContents, Prod.mk.injEq] at e3
              obtain ⟨r1, r2⟩ := e3
              simp only [ho hb]
              split
              · simp only [Option.map_some, dye_push, hb, dyeInline, h1, r1, r2]
              · simp only [Option.map_some, dye_pushBox, hb, dyeBox, h1, r1, r2]
        · split
          · rcases map_cases hin with ⟨e1, e2⟩ | ⟨x, y, e1, e2, e3⟩
            · rw [e1, e2]
            · rw [e1, e2]
              simp only []
              rcases map_cases (hf e3) with ⟨e1, e2⟩ | ⟨⟨c, f⟩, ⟨c', f'⟩, e1, e2, e3⟩
              · rw [e1, e2]
              · rw [e1, e2]
                simp only [dyeContents, Prod.mk.injEq] at e3
                obtain ⟨r1, r2⟩ := e3
                have hb2 : dyeBuilder D { b with containsFloats := true } = dyeBuilder D { b' with containsFloats := true } := by
                  simp only [dyeBuilder, Builder.mk.injEq] at hb ⊢
                  simp [hb]
                simp only [ho hb2]
                split
                · simp only [Option.map_some, dye_push, hb2, dyeInline, h1, r1, r2]
                · subst r2
                  simp only [dyeBuilder, Builder.mk.injEq] at hb
                  obtain ⟨q1, q2, q3, q4⟩ := hb
                  simp only [Option.map_some, dyeBuilder, dyeBoxes_append, dyeBoxes, dyeBox, q1, q2, q3, h1, r1]
          · have hsp : (b.splitInlines cs).map (dyeBuilder D) = (b'.splitInlines cs').map (dyeBuilder D) := by
              rw [← dye_splitInlines, ← dye_splitInlines, hb, hc]
            rcases map_cases hsp with ⟨e1, e2⟩ | ⟨b1, b1', e1, e2, hb1⟩
            · rw [e1, e2]
            rw [e1, e2]
            simp only []
            rcases map_cases hin with ⟨e1, e2⟩ | ⟨x, y, e1, e2, e3⟩
            · rw [e1, e2]
            · rw [e1, e2]
              simp only []
              rcases map_cases (hf e3) with ⟨e1, e2⟩ | ⟨⟨c, f⟩, ⟨c', f'⟩, e1, e2, e3⟩
              · rw [e1, e2]
              · rw [e1, e2]
                simp only [dyeContents, Prod.mk.injEq] at e3
                obtain ⟨r1, r2⟩ := e3
                subst r2
                simp only [dyeBuilder, Builder.mk.injEq] at hb1
                obtain ⟨q1, q2, q3, q4⟩ := hb1
                dsimp only
                split <;> simp only [Option.map_some, dyeBuilder, dyeBoxes_append, dyeBoxes, dyeBox, q1, q2, q3, q4, h1, r1]
    simp only [traverseNodes]
    rcases map_cases key with ⟨e1, e2⟩ | ⟨x, y, e1, e2, e3⟩
    · rw [e1, e2]
    · rw [e1, e2]
      exact ih2 hp hc e3

theorem alike_constructRoot {s s' : ComputedValues} {ns ns' : List StyledNode} (h1 : D.box s = D.box s') (h2 : D.text s = D.text s')
    (h3 : displayOf s = displayOf s') (h4 : positionOf s = positionOf s') (h5 : floatOf s = floatOf s') (h : AlikeBut D s s' ns ns') :
    (constructRoot s ns).map (dyeContext D) = (constructRoot s' ns').map (dyeContext D) := by
  have hc : (constructContainer s ns).map (dyeContents D) = (constructContainer s' ns').map (dyeContents D) := by
    unfold constructContainer
    rcases map_cases (h.traverse h2 (b := Builder.new) (b' := Builder.new) h1 rfl) with ⟨e1, e2⟩ | ⟨x, y, e1, e2, e3⟩
    · rw [e1, e2]
    · rw [e1, e2]
      simp only []
      rw [← dye_finishBuilder, ← dye_finishBuilder, e3, h1]
  unfold constructRoot
  rw [← h3, ← h4, ← h5]
  have key : ∀ {x y : Option (BlockContainer × Bool)}, x.map (dyeContents D) = y.map (dyeContents D) →
      (match x with
        | none => none
        | some (contents, floats) =>
          if (positionOf s).isAbsolutelyPositioned = true then
            some (⟨.blockLevelBoxes [.outOfFlowAbsolutelyPositioned s floats contents], false⟩ : BlockFormattingContext)
          else if (floatOf s).isFloating = true then some ⟨.blockLevelBoxes [.outOfFlowFloat s floats contents], true⟩
          else some ⟨.blockLevelBoxes [.independent s floats contents], false⟩).map (dyeContext D) =
      (match y with
        | none => none
        | some (contents, floats) =>
          if (positionOf s).isAbsolutelyPositioned = true then
            some (⟨.blockLevelBoxes [.outOfFlowAbsolutelyPositioned s' floats contents], false⟩ : BlockFormattingContext)
          else if (floatOf s).isFloating = true then some ⟨.blockLevelBoxes [.outOfFlowFloat s' floats contents], true⟩
          else some ⟨.blockLevelBoxes [.independent s' floats contents], false⟩).map (dyeContext D) := by
    intro x y hxy
    rcases map_cases hxy with ⟨e1, e2⟩ | ⟨⟨c, f⟩, ⟨c', f'⟩, e1, e2, e3⟩
    · rw [e1, e2]
    · rw [e1, e2]
      simp only [dyeContents, Prod.mk.injEq] at e3
      obtain ⟨r1, rfl⟩ := e3
      simp only []
      split
      · simp [dyeContext, dyeContainer, dyeBoxes, dyeBox, h1, r1]
      · split <;> simp [dyeContext, dyeContainer, dyeBoxes, dyeBox, h1, r1]
  split
  · rfl
  · exact key hc
  · exact key hc

/-- Documents that are alike have fragments that are the same but for the styles. -/
theorem alike_layout {Err : Type} (font : FontApi Rat Err) {s s' : ComputedValues} {ns ns' : List StyledNode} (h1 : D.box s = D.box s')
    (h2 : D.text s = D.text s') (h3 : displayOf s = displayOf s') (h4 : positionOf s = positionOf s') (h5 : floatOf s = floatOf s')
    (h : AlikeBut D s s' ns ns') {root root' : BlockFormattingContext} (hc : constructRoot s ns = some root)
    (hc' : constructRoot s' ns' = some root') (hf : root.contents.Fits D) (hf' : root'.contents.Fits D)
    (fuel : Nat) (schedule : Oracle) (viewport : Vec2 Rat) :
    (layoutRoot font fuel schedule root viewport).map (·.map (dyeFragment D)) =
      (layoutRoot font fuel schedule root' viewport).map (·.map (dyeFragment D)) := by
  have e := alike_constructRoot h1 h2 h3 h4 h5 h
  rw [hc, hc', Option.map_some, Option.map_some, Option.some.injEq] at e
  rw [← dye_layoutRoot D _ _ _ _ _ hf, ← dye_layoutRoot D _ _ _ _ _ hf', e]

end

end Verif.Layout
