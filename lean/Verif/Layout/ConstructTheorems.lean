/- C41, C42, C62, C63: box construction. -/
import Verif.Layout.ConstructTotal
import Verif.Layout.InlineTheorems
namespace Verif.Layout
open Verif.Style Verif.Text
variable {Err : Type} {F : FontApi Rat Err}

/-! ### Examples -/

/-- An element with this `display`. -/
def styleWith (display : Display) (set : Values → Values := id) : ComputedValues :=
  postCascadeFixups (set (initialValues.set .display display))

/-- `<p>` -/
def blockStyle : ComputedValues := styleWith (.generatingBox .block .flow)
/-- `<span>` -/
def spanStyle : ComputedValues := styleWith (.generatingBox .inline .flow)
/-- `<span style="position: absolute">` -/
def absoluteStyle : ComputedValues := styleWith (.generatingBox .inline .flow) (·.set .position Position.absolute)
/-- `<span style="float: left">` -/
def floatStyle : ComputedValues := styleWith (.generatingBox .inline .flow) (·.set .float Style.Float.left)
/-- `<span style="display: contents; font-size: 3px">` -/
def contentsStyle : ComputedValues := styleWith .contents (·.set .fontSize (3 : Rat))
/-- `<span style="display: none">` -/
def noneStyle : ComputedValues := styleWith .none
/-- `<span style="display: inline-block">` -/
def inlineBlockStyle : ComputedValues := styleWith (.generatingBox .inline .flowRoot)

/-- `a  <span> <b>b</b> </span> c<float>f  g</float> <none>x</none><p> d<abs>e</abs> </p>` and a comment. -/
def exampleNodes : List StyledNode :=
  [.text (codes "  a  "), .element spanStyle [.text (codes " "), .element spanStyle [.text (codes "b")], .text (codes " ")],
    .ignored, .text (codes "\n c"), .element floatStyle [.text (codes "f  g")], .text (codes " "),
    .element noneStyle [.text (codes "x")],
    .element blockStyle [.text (codes " d"), .element absoluteStyle [.text (codes "e")], .text (codes " ")]]

/-! ### C41 -/

theorem traversed {P : ComputedValues → ComputedValues → StyledNode → Builder → Builder → Prop}
    {Q : ComputedValues → ComputedValues → List StyledNode → Builder → Builder → Prop} (H : TraversalCases P Q)
    {style : ComputedValues} {children : List StyledNode} {c : BlockContainer} {f : Bool}
    (h : constructContainer style children = some (c, f)) :
    ∃ b, Q style style children Builder.new b ∧ b.finish style = some (c, f) := by
  unfold constructContainer at h
  rcases h1 : traverseNodes style style children Builder.new with _ | b
  · simp [h1] at h
  · simp only [h1] at h
    exact ⟨b, traverseNodes_induct H _ _ _ _ _ h1, h⟩

/-- **C41**, **C42**, **C65**: what white space is, in all of these: tab, line feed, form feed, carriage return and space. -/
theorem C41_white_space (c : Nat) : isAsciiWhitespace c = true ↔ c = 9 ∨ c = 10 ∨ c = 12 ∨ c = 13 ∨ c = 32 := by
  unfold isAsciiWhitespace
  simp
  try omega

/-- **C41**: in every inline formatting context, at any depth, text does not begin with a space, no two spaces follow one another even
across inline boxes, and there is no white space other than spaces. -/
theorem C41_collapsed (style : ComputedValues) (children : List StyledNode) (c : BlockContainer) (f : Bool)
    (h : constructContainer style children = some (c, f)) :
    c.AllContexts fun boxes => boxes ≠ [] ∧ Collapsed (flowTexts boxes) := by
  obtain ⟨b, h1, h2⟩ := traversed traverse_good h
  exact (h1.2 .new).finish h1.1.new_stack h2

mutual
theorem styledText_snd (ps : ComputedValues) : ∀ n : StyledNode, (n.styledText ps).map Prod.snd = n.visibleText
  | .ignored => rfl
  | .text t => by simp [StyledNode.styledText, StyledNode.visibleText, Function.comp_def]
  | .element s ch => by
    simp only [StyledNode.styledText, StyledNode.visibleText]
    split
    · rfl
    · exact styledTexts_snd s ch
theorem styledTexts_snd (ps : ComputedValues) : ∀ ns : List StyledNode, (styledTexts ps ns).map Prod.snd = visibleTexts ns
  | [] => rfl
  | n :: ns => by
    simp only [styledTexts, visibleTexts, List.map_append]
    rw [styledText_snd ps n, styledTexts_snd ps ns]
end

mutual
theorem contentsKeep_unit (ps : ComputedValues) : ∀ n : StyledNode, n.ContentsKeep (fun _ => ()) ps
  | .ignored => trivial
  | .text _ => trivial
  | .element s ch => .inr ⟨fun _ => rfl, nodesContentsKeep_unit s ch⟩
theorem nodesContentsKeep_unit (ps : ComputedValues) : ∀ ns : List StyledNode, nodesContentsKeep (fun _ => ()) ps ns
  | [] => trivial
  | n :: ns => ⟨contentsKeep_unit ps n, nodesContentsKeep_unit ps ns⟩
end

theorem construct_keeps {α : Type} (g : ComputedValues → α) {style : ComputedValues} {children : List StyledNode}
    {c : BlockContainer} {f : Bool} (h : constructContainer style children = some (c, f)) (hk : nodesContentsKeep g style children) :
    inkWith g c.styledText = inkWith g (styledTexts style children) := by
  obtain ⟨b, h1, h2⟩ := traversed (traverse_keeps g) h
  exact inner_styled h1 hk h2

theorem inkWith_unit (t : List (ComputedValues × Nat)) :
    (inkWith (fun _ => ()) t).map Prod.snd = (t.map Prod.snd).filter fun c => !isAsciiWhitespace c := by
  simp [inkWith, ink, List.filter_map, Function.comp_def]

/-- **C41**, **C42**: the characters in the boxes that are not white space are those of the elements that are displayed, in document
order. -/
theorem C42_order (style : ComputedValues) (children : List StyledNode) (c : BlockContainer) (f : Bool)
    (h : constructContainer style children = some (c, f)) :
    (c.styledText.map Prod.snd).filter (fun ch => !isAsciiWhitespace ch) =
      (visibleTexts children).filter fun ch => !isAsciiWhitespace ch := by
  rw [← styledTexts_snd style, ← inkWith_unit, ← inkWith_unit, construct_keeps _ h (nodesContentsKeep_unit _ _)]

example : (constructContainer blockStyle exampleNodes).map (fun r => r.1.paragraphs) = some [codes "a b c ", codes "d "] := by
  decide +kernel

example : (constructContainer blockStyle exampleNodes).map (fun r => (r.1.styledText.map Prod.snd)) =
    some (codes "a b cf g de ") := by
  decide +kernel

/-! ### C42 -/

/-- **C42**, exactly which contents are accepted: those where no inline element contains a block in flow, and no element is an inline
block. -/
theorem C42_supported_partial (style : ComputedValues) (children : List StyledNode) :
    (∃ c f, constructContainer style children = some (c, f)) ↔ allSupported false children := by
  have key := traverseNodes_isSome style style children Builder.new
  simp only [Builder.new, List.isEmpty_nil, Bool.not_true] at key
  rw [← key]
  constructor
  · rintro ⟨c, f, h⟩
    unfold constructContainer at h
    rcases h1 : traverseNodes style style children Builder.new with _ | b
    · simp [h1] at h
    · exact ⟨b, h1⟩
  · rintro ⟨b, h1⟩
    have hs := (traverseNodes_induct traverse_shape _ _ _ _ _ h1).new_stack
    obtain ⟨c, f, h2⟩ := finish_isSome style hs
    refine ⟨c, f, ?_⟩
    unfold constructContainer Builder.new
    rw [h1]
    exact h2

/-- **C42** does not hold: `<span><p>a</p></span>` makes construct.rs 480-483 panic, and `<span style="display: inline-block">` is
`unimplemented!` (construct.rs 186, 329-331). -/
theorem C42_violated :
    constructContainer blockStyle [.element spanStyle [.element blockStyle [.text (codes "a")]]] = none ∧
    constructContainer blockStyle [.element inlineBlockStyle [.text (codes "a")]] = none := by
  constructor <;> decide +kernel

example : allSupported false exampleNodes := by
  rw [← C42_supported_partial blockStyle]
  have : (constructContainer blockStyle exampleNodes).isSome = true := by decide +kernel
  obtain ⟨⟨c, f⟩, h⟩ := Option.isSome_iff_exists.mp this
  exact ⟨c, f, h⟩

/-- Construction succeeds on what is supported, and its result is as layout needs it. -/
theorem constructRoot_accepted {R Err : Type} {F : FontApi R Err} (hsp : Shapable F 32) (style : ComputedValues) (children : List StyledNode)
    (hstyles : nodesAll (fun s _ => Computed s) children) (htext : ∀ c ∈ visibleTexts children, Shapable F c)
    (hs : allSupported false children) : ∃ root, constructRoot style children = some root ∧ root.contents.Wf F := by
  obtain ⟨c, f, h⟩ := (C42_supported_partial style children).mpr hs
  have hwf := constructContainer_wf hsp ⟨hstyles, htext⟩ h
  have hgen : ∃ root, (if (positionOf style).isAbsolutelyPositioned then
        some (⟨.blockLevelBoxes [.outOfFlowAbsolutelyPositioned style f c], false⟩ : BlockFormattingContext)
      else if (floatOf style).isFloating then some ⟨.blockLevelBoxes [.outOfFlowFloat style f c], true⟩
      else some ⟨.blockLevelBoxes [.independent style f c], false⟩) = some root ∧ root.contents.Wf F := by
    split
    · exact ⟨_, rfl, hwf, trivial⟩
    · split
      · exact ⟨_, rfl, hwf, trivial⟩
      · exact ⟨_, rfl, hwf, trivial⟩
  unfold constructRoot
  rcases hd : displayOf style with _ | _ | ⟨o, i⟩
  · exact ⟨_, rfl, trivial⟩
  · simpa only [h] using hgen
  · simpa only [h] using hgen

/-- **C42**, **C58**: what is accepted is laid out: when the styles come out of the cascade and the font has a glyph and a width for
each character that is displayed and for the space, then boxes are constructed, and they are laid out whatever the size of the viewport
and the division of the work between threads. -/
theorem C42_layout (hsp : Shapable F 32) (style : ComputedValues) (children : List StyledNode)
    (hstyles : nodesAll (fun s _ => Computed s) children) (htext : ∀ c ∈ visibleTexts children, Shapable F c)
    (hs : allSupported false children) :
    ∃ root, constructRoot style children = some root ∧ ∀ fuel ≥ root.contents.depth, ∀ (schedule : Oracle) (viewport : Vec2 Rat),
      ∃ fragments, layoutRoot F fuel schedule root viewport = some fragments := by
  obtain ⟨root, h1, h2⟩ := constructRoot_accepted hsp style children hstyles htext hs
  exact ⟨root, h1, fun fuel hfuel schedule viewport => C58_total root h2 fuel hfuel schedule viewport⟩

theorem computed_styleWith (display : Display) (set : Values → Values) : Computed (styleWith display set) := ⟨_, rfl⟩

/-- The example meets the hypotheses of `C42_layout`. -/
example : ∃ root, constructRoot blockStyle exampleNodes = some root ∧ ∀ fuel ≥ root.contents.depth,
    ∀ (schedule : Oracle) (viewport : Vec2 Rat), ∃ fragments, layoutRoot exampleFont fuel schedule root viewport = some fragments := by
  refine C42_layout ⟨_, _, rfl, rfl⟩ blockStyle exampleNodes ?_ (fun c _ => ⟨_, _, rfl, rfl⟩) ?_
  · simp [exampleNodes, nodesAll, StyledNode.All, blockStyle, spanStyle, absoluteStyle, floatStyle, noneStyle, computed_styleWith]
  · rw [← C42_supported_partial blockStyle]
    have : (constructContainer blockStyle exampleNodes).isSome = true := by decide +kernel
    obtain ⟨⟨c, f⟩, h⟩ := Option.isSome_iff_exists.mp this
    exact ⟨c, f, h⟩

/-! ### C62 -/

/-- **C62**: every character that is not white space is in a text run with the style of the element it is in, in as far as elements
with `display: contents` do not change that style: `g` is any part of the style, such as its colour. Missing: it is false of the parts
of the style that such an element changes. -/
theorem C62_style_partial {α : Type} (g : ComputedValues → α) (style : ComputedValues) (children : List StyledNode)
    (c : BlockContainer) (f : Bool) (h : constructContainer style children = some (c, f))
    (hk : nodesContentsKeep g style children) : inkWith g c.styledText = inkWith g (styledTexts style children) :=
  construct_keeps g h hk

/-- **C62** does not hold with `display: contents`: in `a<span style="display: contents; font-size: 3px">b</span>` the text `b` is
rendered in the size of `a`, 16px. -/
theorem C62_style_violated :
    (constructContainer blockStyle [.text (codes "a"), .element contentsStyle [.text (codes "b")]]).map
      (fun r => inkWith fontSizeOf r.1.styledText) = some [(16, 97), (16, 98)] ∧
    inkWith fontSizeOf (styledTexts blockStyle [.text (codes "a"), .element contentsStyle [.text (codes "b")]]) =
      [(16, 97), (3, 98)] := by
  constructor <;> decide +kernel

example : nodesContentsKeep floatOf blockStyle [.text (codes "a"), .element contentsStyle [.text (codes "b")],
    .element spanStyle [.element floatStyle [.element spanStyle []]]] := by
  refine ⟨trivial, .inr ⟨fun _ => by decide +kernel, trivial, trivial⟩, .inr ⟨fun h => ?_, .inr ⟨fun h => ?_, .inr ⟨fun h => ?_, trivial⟩, trivial⟩, trivial⟩, trivial⟩
  all_goals exact absurd h (by decide +kernel)

/-! ### C63 -/

/-- **C63**: the paragraphs of the boxes are those of the document with each run of white space made one space, wherever elements begin
and end in it, if no inline element begins with white space. Missing: it is false of an inline element that begins with white space. -/
theorem C63_words_partial (style : ComputedValues) (children : List StyledNode) (c : BlockContainer) (f : Bool)
    (h : constructContainer style children = some (c, f)) (hn : noLeadingSpaces children) :
    nonEmpty c.paragraphs = nonEmpty ((paragraphsOf children).map collapse) := by
  obtain ⟨b, h1, h2⟩ := traversed traverse_flows h
  exact ((h1.2.2 .new hn (fun h => absurd rfl h)).2 _ .new).finish h1.1.new_stack h2

/-- **C63** does not hold: in `foo<span> bar</span>` the space is lost. -/
theorem C63_words_violated :
    (constructContainer blockStyle [.text (codes "foo"), .element spanStyle [.text (codes " bar")]]).map (fun r => r.1.paragraphs) =
      some [codes "foobar"] ∧
    paragraphsOf [.text (codes "foo"), .element spanStyle [.text (codes " bar")]] = [codes "foo bar"] := by
  constructor
  · decide +kernel
  · have h1 : displayOf spanStyle = .generatingBox .inline .flow := by decide +kernel
    have h2 : ¬ IsBlock spanStyle := not_isBlock (.inr h1)
    have h3 : ¬ IsOutOfFlow spanStyle := not_isOutOfFlow (.inr h1)
    simp [paragraphsOf, nodesParagraphs, StyledNode.paragraphs, h1, h2, h3]
    decide +kernel

example : noLeadingSpaces [.text (codes "foo "), .element spanStyle [.text (codes "bar ")], .text (codes " baz")] := by
  have h1 : displayOf spanStyle = .generatingBox .inline .flow := by decide +kernel
  refine ⟨trivial, .inr (.inr ⟨fun _ => ?_, trivial, trivial⟩), trivial, trivial⟩
  simp [nodesFlowText, StyledNode.flowText]
  decide +kernel

end Verif.Layout
