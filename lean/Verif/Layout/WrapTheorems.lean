/- **C93**: a block that has nothing of its own changes nothing on the page. -/
import Verif.Layout.WrapMain
import Verif.Layout.BoundTheorems
namespace Verif.Layout
open Verif.Style Verif.Style.Spec Verif.Text Verif.Pdf Verif.Dom

variable {Err : Type}

theorem still_absolutes : ∀ ns : List StyledNode, nodesStill ns → nodesAll (fun s _ => BoxOnly NoAbsolutes s) ns
  | [], _ => trivial
  | .ignored :: ns, h => ⟨trivial, still_absolutes ns h.2⟩
  | .text _ :: ns, h => ⟨trivial, still_absolutes ns h.2⟩
  | .element s children :: ns, h => by
    obtain ⟨h1, h2⟩ := h
    simp only [StyledNode.Still] at h1
    refine ⟨?_, still_absolutes ns h2⟩
    simp only [StyledNode.All]
    rcases h1 with h1 | ⟨h1, h3⟩
    · exact .inl h1
    · exact .inr ⟨.inr ⟨fun h => absurd h h1, fun _ => by simp⟩, still_absolutes children h3⟩

theorem nodesStill_append : ∀ (ns ms : List StyledNode), nodesStill ns → nodesStill ms → nodesStill (ns ++ ms)
  | [], _, _, h => h
  | _ :: ns, ms, h1, h2 => ⟨h1.1, nodesStill_append ns ms h1.2 h2⟩

theorem BlocksAdded.still {parent : ComputedValues} {fresh : Bool} {nodes nodes' : List StyledNode} (h : BlocksAdded parent fresh nodes nodes') :
    nodesStill nodes ∧ nodesStill nodes' := by
  induction h with
  | nil => exact ⟨trivial, trivial⟩
  | same hn _ ih => exact ⟨⟨hn, ih.1⟩, hn, ih.2⟩
  | inside hb _ _ ih1 ih2 => exact ⟨⟨.inr ⟨hb.2.1, ih1.1⟩, ih2.1⟩, .inr ⟨hb.2.1, ih1.2⟩, ih2.2⟩
  | added hp _ _ _ _ _ _ ih1 ih2 =>
    exact ⟨nodesStill_append _ _ ih1.1 ih2.1, .inr ⟨by rw [hp.bare.position]; simp, ih1.2⟩, ih2.2⟩

/-- The boxes of the two documents. -/
theorem constructRoot_wrap {s : ComputedValues} (hp : positionOf s ≠ .absolute) {nodes nodes' : List StyledNode} (h : BlocksAdded s true nodes nodes')
    {r r' : BlockFormattingContext} (h1 : constructRoot s nodes = some r) (h2 : constructRoot s nodes' = some r') : WrapC r.contents r'.contents := by
  have hp : (positionOf s).isAbsolutelyPositioned = false := by
    rcases hq : positionOf s with _ | _ | _ <;> first | rfl | exact absurd hq hp
  have hgen : ∀ c f c' f', constructContainer s nodes = some (c, f) → constructContainer s nodes' = some (c', f') → WrapC c c' :=
    fun c f c' f' => constructContainer_wrap h
  unfold constructRoot at h1 h2
  simp only [hp, Bool.false_eq_true, if_false] at h1 h2
  rcases hd : displayOf s with _ | _ | ⟨o, i⟩ <;> simp only [hd] at h1 h2
  · cases h1
    cases h2
    exact .boxes .nil
  all_goals
    rcases c1 : constructContainer s nodes with _ | ⟨c, f⟩
    · simp [c1] at h1
    rcases c2 : constructContainer s nodes' with _ | ⟨c', f'⟩
    · simp [c2] at h2
    have hw := hgen _ _ _ _ c1 c2
    simp only [c1, c2] at h1 h2
    split at h1
    · rename_i hf
      rw [if_pos hf] at h2
      cases h1
      cases h2
      exact .boxes (.one .float)
    · rename_i hf
      rw [if_neg hf] at h2
      cases h1
      cases h2
      exact .boxes (.one (.independent hw))

theorem layoutRoot_lays {F : FontApi Rat Err} {fuel : Nat} {s : Oracle} {root : BlockFormattingContext} {viewport : Vec2 Rat} {fs : List Fragment}
    (hno : root.contents.Only NoAbsolutes) (h : layoutRoot F fuel s root viewport = some fs) :
    ∃ fc, LaysC F ⟨viewport.inline, .length viewport.block, (.horizontalTb, .ltr)⟩ false root.contents fc ∧ fs = fc.fragments := by
  simp only [layoutRoot, BlockFormattingContext.layout] at h
  rw [(layout_prepend F fuel).1 (s.sub 0), prepend_nil] at h
  rcases h1 : layoutContainer F fuel inOrder root.contents
    ⟨viewport.inline, .length viewport.block, (.horizontalTb, .ltr)⟩ 0 [] false false with _ | ⟨fc, as⟩
  · simp [h1, mapFst] at h
  · simp only [h1, mapFst] at h
    cases (layout_no_absolutes F fuel).1 _ _ _ _ _ _ hno h1
    simp only [layoutAll, List.append_nil, Option.some.injEq] at h
    subst h
    exact ⟨fc, (lays F fuel).1 _ _ _ _ _ _ hno h1, rfl⟩

/-- What is to be seen of the fragments of the two trees. -/
theorem layoutRoot_wrap {F : FontApi Rat Err} {s : ComputedValues} (hp : positionOf s ≠ .absolute) {nodes nodes' : List StyledNode}
    (h : BlocksAdded s true nodes nodes') {r r' : BlockFormattingContext} (h1 : constructRoot s nodes = some r)
    (h2 : constructRoot s nodes' = some r') {fuel fuel' : Nat} {o o' : Oracle} {viewport : Vec2 Rat} {fs fs' : List Fragment}
    (l1 : layoutRoot F fuel o r viewport = some fs) (l2 : layoutRoot F fuel' o' r' viewport = some fs') (asc : Rat) (origin : Vec2 Rat) :
    inkOf asc origin fs = inkOf asc origin fs' := by
  have hs : StyleOnly NoAbsolutes s := ⟨fun h => absurd h hp, fun _ => by simp⟩
  obtain ⟨fc, k1, rfl⟩ := layoutRoot_lays (constructRoot_only hs (still_absolutes _ h.still.1) h1) l1
  obtain ⟨fc', k2, rfl⟩ := layoutRoot_lays (constructRoot_only hs (still_absolutes _ h.still.2) h2) l2
  exact ((constructRoot_wrap hp h h1 h2).alike asc _ _ _ _ rfl k1 k2).ink origin

section
variable {R Er σ : Type} (P : Painter R Er) (E : Engine σ) (font : FontApi Rat Err) (d d' : Document)

/-- **C93**: two documents without absolutely positioned elements, one of which is the other with blocks added that have nothing of their
own (such as `div`s without declarations), around any of the contents of the blocks in it, at any depth, where lines are not broken by
them. Whenever both are laid out, the same is to be seen of both at the same places in the same order, but for rectangles without width
or height, however large the viewport is. Missing: absolutely positioned elements (`C93_absolute_violated`), blocks that are added inside
of inline elements and floats. -/
theorem C93_added_partial (F F' : Forest) (rootStyle : ComputedValues) (tree tree' : List StyledNode) (hidden hidden' : List Nat)
    (h : Denotes E d F rootStyle tree hidden) (h' : Denotes E d' F' rootStyle tree' hidden') (hp : positionOf rootStyle ≠ .absolute)
    (ha : BlocksAdded rootStyle true tree tree') {fuel fuel' : Nat} {schedule schedule' : Oracle} {viewport : Vec2 Rat}
    {fragments fragments' : List Fragment} (hl : layoutDocument E font d fuel schedule viewport = some fragments)
    (hl' : layoutDocument E font d' fuel' schedule' viewport = some fragments') (ascender : Rat)
    {placed placed' : List (Fragment × Vec2 Rat)} (hpl : Placed ⟨0, 0⟩ fragments placed) (hpl' : Placed ⟨0, 0⟩ fragments' placed') :
    (shapesOf ascender placed).filter Shape.visible = (shapesOf ascender placed').filter Shape.visible := by
  unfold layoutDocument at hl hl'
  rcases hc : constructDocument E d fuel with _ | root
  · simp [hc] at hl
  rcases hc' : constructDocument E d' fuel' with _ | root'
  · simp [hc'] at hl'
  simp only [hc, hc'] at hl hl'
  obtain ⟨h1, -⟩ := constructDocument_sound h hc
  obtain ⟨h2, -⟩ := constructDocument_sound h' hc'
  rw [shapesOf, shapesOf, hpl.ink, hpl'.ink]
  exact layoutRoot_wrap hp ha h1 h2 hl hl' ascender _

/-- **C93** for the files: a reader finds the same on the pages of both, but for rectangles without width or height. -/
theorem C93_pages_partial {readReal : List Byte → Option R} (hd : RealText P.floats.dtoa readReal) (hfl : FloatLaws P.floats)
    (hv : P.fontView.Valid) (hg : ∀ c g, font.glyphId c = .ok g → g < 65536) (F F' : Forest) (rootStyle : ComputedValues)
    (tree tree' : List StyledNode) (hidden hidden' : List Nat) (h : Denotes E d F rootStyle tree hidden)
    (h' : Denotes E d' F' rootStyle tree' hidden') (hp : positionOf rootStyle ≠ .absolute) (ha : BlocksAdded rootStyle true tree tree')
    {fuel fuel' : Nat} {schedule schedule' : Oracle} {bytes bytes' : List Byte} (hb : toPdfBytes P E font d fuel schedule = some bytes)
    (hb' : toPdfBytes P E font d' fuel' schedule' = some bytes') (hs : bytes.length ≤ 2 ^ 32) (hs' : bytes'.length ≤ 2 ^ 32) :
    ∃ shapes shapes', shapes.filter Shape.visible = shapes'.filter Shape.visible ∧
      ∀ r ∈ [(bytes, shapes), (bytes', shapes')],
        ∃ m file page painted, (∀ fuel, m ≤ fuel → readDocument readReal fuel r.1 = some file) ∧ file.pages = [page] ∧
          page.mediaBox = [.int 0, .int 0, .real (P.floats.mul (P.round 600) P.floats.scaleX), .real (P.floats.mul (P.round 800) P.floats.scaleY)] ∧
          (∃ m, ∀ fuel, m ≤ fuel →
            paintContents readReal P.floats.zero P.floats.one (gsAlpha file.extGState) fuel page.contents = some painted) ∧
          AllMatch (fun p shape => Verif.Pdf.Matches P.floats (fun _ name => ∃ id, dictGet file.fonts name = some (.ref id 0) ∧
            IsFont readReal r.1 P.fontView id) p (shape.expected P)) painted r.2 := by
  unfold toPdfBytes at hb hb'
  rcases hlay : layoutDocument E font d fuel schedule ⟨600, 800⟩ with _ | fragments
  · simp [hlay] at hb
  rcases hlay' : layoutDocument E font d' fuel' schedule' ⟨600, 800⟩ with _ | fragments'
  · simp [hlay'] at hb'
  simp only [hlay, hlay'] at hb hb'
  rcases hdoc : paintDocument P fragments with _ | doc
  · simp [hdoc] at hb
  rcases hdoc' : paintDocument P fragments' with _ | doc'
  · simp [hdoc'] at hb'
  simp only [hdoc, hdoc', Option.some.injEq] at hb hb'
  subst hb hb'
  obtain ⟨placed, hpl⟩ := Placed.exists fragments ⟨0, 0⟩
  obtain ⟨placed', hpl'⟩ := Placed.exists fragments' ⟨0, 0⟩
  have glyphs : ∀ {d : Document} {fuel : Nat} {schedule : Oracle} {fragments : List Fragment} {placed : List (Fragment × Vec2 Rat)},
      layoutDocument E font d fuel schedule ⟨600, 800⟩ = some fragments → Placed ⟨0, 0⟩ fragments placed →
      ∀ e ∈ placed, ∀ style rect segment, e.1 = .text style rect segment → ∀ g ∈ segment.glyphs, g < 65536 := by
    intro d fuel schedule fragments placed hl hpl e he style rect segment hs g hgm
    unfold layoutDocument at hl
    split at hl
    · cases hl
    · obtain ⟨hm, -⟩ := layoutRoot_shown hl
      obtain ⟨c, hcg⟩ := made_glyphs hpl hm e he style rect segment hs g hgm
      exact hg c g hcg
  refine ⟨_, _, C93_added_partial E font d d' F F' rootStyle tree tree' hidden hidden' h h' hp ha hlay hlay' P.ascender hpl hpl', ?_⟩
  intro r hr
  rcases List.mem_cons.1 hr with rfl | hr
  · exact C46_page P hd hfl hv hpl (glyphs hlay hpl) hdoc hs
  · rcases List.mem_cons.1 hr with rfl | hr
    · exact C46_page P hd hfl hv hpl' (glyphs hlay' hpl') hdoc' hs'
    · cases hr

end

/-! ### Examples -/

/-- `<html><head></head><p>a</p>b</html>`: `exampleDocument2` without its `div`. -/
def unwrappedDocument : Document :=
  { Document.new with nodes :=
    [ Node.new .document,
      ⟨none, none, none, some 2, some 2, .document⟩,
      exampleElement "html" (some 1) none none (some 3) (some 6),
      exampleElement "head" (some 2) (some 4) none none none,
      exampleElement "p" (some 2) (some 6) (some 3) (some 5) (some 5),
      ⟨some 4, none, none, none, none, .text "a"⟩,
      ⟨some 2, none, some 4, none, none, .text "b"⟩ ] }

/-- The contents of `unwrappedDocument`. -/
def unwrappedTree : List StyledNode :=
  let html := exampleRootStyle unwrappedDocument
  [.element (documentStyle unwrappedDocument 3 (some html)) [], .element (documentStyle unwrappedDocument 4 (some html)) [.text (codes "a")],
    .text (codes "b")]

/-- The children of the nodes of `unwrappedDocument`. -/
def unwrappedChildren : List (List Nat) := [[], [2], [3, 4, 6], [], [5], [], []]

theorem unwrappedDocument_denotes : Denotes exampleEngine unwrappedDocument (forestOf unwrappedChildren) (exampleRootStyle exampleDocument2)
    unwrappedTree [3] := by
  have hcheck : treeCheck unwrappedDocument unwrappedChildren = true := by decide +kernel
  refine ⟨represents_of_check hcheck, acyclic_of_check hcheck, ⟨[]⟩, 2, exampleEngine_sheets rfl, by decide, rfl, by decide +kernel, ?_⟩
  exact .none (n := 3) (hidden := []) rfl rfl rfl (by decide +kernel)
    (.element (belowHidden := []) (hidden := []) (n := 4) rfl rfl rfl (by decide +kernel) (.text (n := 5) rfl rfl .nil)
      (.text (n := 6) rfl rfl .nil))

def isLength0 : LengthOrPercentage → Bool
  | .length l => decide (l = 0)
  | _ => false

theorem isLength0_of {l : LengthOrPercentage} (h : isLength0 l = true) : l = .length 0 := by
  cases l <;> simp_all [isLength0]

def isMargin0 : LengthOrPercentageOrAuto → Bool
  | .length l => decide (l = 0)
  | _ => false

theorem isMargin0_of {l : LengthOrPercentageOrAuto} (h : isMargin0 l = true) : l = .length 0 := by
  cases l <;> simp_all [isMargin0]

def isAuto : LengthOrPercentageOrAuto → Bool
  | .auto => true
  | _ => false

theorem isAuto_of {l : LengthOrPercentageOrAuto} (h : isAuto l = true) : l = .auto := by
  cases l <;> simp_all [isAuto]

/-- Decides `PlainBlock`. -/
def plainBlock (parent s : ComputedValues) : Bool :=
  (isMargin0 (s.values .marginTop) && isMargin0 (s.values .marginRight) && isMargin0 (s.values .marginBottom) && isMargin0 (s.values .marginLeft)) &&
  (isLength0 (s.values .paddingTop) && isLength0 (s.values .paddingRight) && isLength0 (s.values .paddingBottom) &&
    isLength0 (s.values .paddingLeft)) &&
  (isLength0 (s.values .borderTopWidth) && isLength0 (s.values .borderRightWidth) && isLength0 (s.values .borderBottomWidth) &&
    isLength0 (s.values .borderLeftWidth)) &&
  (isAuto (s.values .width) && isAuto (s.values .height)) &&
  (decide (positionOf s = .static) && decide ((backgroundOf s).alpha = 0) && decide (displayOf s = .generatingBox .block .flow) &&
    decide (floatOf s = .none) && decide (look s = look parent))

theorem plainBlock_of {parent s : ComputedValues} (h : plainBlock parent s = true) : PlainBlock parent s := by
  simp only [plainBlock, Bool.and_eq_true, decide_eq_true_eq] at h
  obtain ⟨⟨⟨⟨⟨⟨⟨h1, h2⟩, h3⟩, h4⟩, ⟨⟨h5, h6⟩, h7⟩, h8⟩, ⟨⟨h9, h10⟩, h11⟩, h12⟩, h13, h14⟩, ⟨⟨⟨h15, h16⟩, h17⟩, h18⟩, h19⟩ := h
  exact ⟨⟨⟨isMargin0_of h1, isMargin0_of h2, isMargin0_of h3, isMargin0_of h4⟩, ⟨isLength0_of h5, isLength0_of h6, isLength0_of h7, isLength0_of h8⟩,
    ⟨isLength0_of h9, isLength0_of h10, isLength0_of h11, isLength0_of h12⟩, isAuto_of h13, isAuto_of h14, h15, h16⟩, h17, h18, h19⟩

theorem not_percentage_of {l : LengthOrPercentageOrAuto} (h : isAuto l = true) : ∀ p, l ≠ .percentage p := by
  rw [isAuto_of h]
  simp

/-- Decides whether values are the same. -/
def sameValue : (k : Kind) → k.Value → k.Value → Bool
  | .fontSize, a, b => decide ((a : Rat) = b)
  | .rgba, a, b => decide ((a : RGBA) = b)
  | .position, a, b => decide ((a : Position) = b)
  | .float, a, b => decide ((a : Style.Float) = b)
  | .display, a, b => decide ((a : Display) = b)
  | .lengthOrPercentageOrAuto, a, b => decide ((a : LengthOrPercentageOrAuto) = b)
  | .lengthOrPercentage, a, b => decide ((a : LengthOrPercentage) = b)
  | .color, a, b => decide ((a : Color) = b)
  | .lineStyle, a, b => decide ((a : LineStyle) = b)
  | .lineWidth, a, b => decide ((a : LengthOrPercentage) = b)

theorem sameValue_of : ∀ (k : Kind) (a b : k.Value), sameValue k a b = true → a = b
  | .fontSize, _, _, h | .rgba, _, _, h | .position, _, _, h | .float, _, _, h | .display, _, _, h | .lengthOrPercentageOrAuto, _, _, h
  | .lengthOrPercentage, _, _, h | .color, _, _, h | .lineStyle, _, _, h | .lineWidth, _, _, h => of_decide_eq_true h

/-- Styles are the same if all values are. -/
theorem sameStyle_of {s t : ComputedValues} (h : ∀ p : Longhand, sameValue p.kind (s.values p) (t.values p) = true)
    (hd : s.specifiedDisplay = t.specifiedDisplay) : s = t := by
  obtain ⟨v, d⟩ := s
  obtain ⟨w, e⟩ := t
  cases hd
  have : v = w := funext fun p => sameValue_of _ _ _ (h p)
  rw [this]

/-- The styles of `p` are the same in both documents. -/
theorem unwrapped_style : documentStyle exampleDocument2 5 (some (documentStyle exampleDocument2 4 (some (exampleRootStyle exampleDocument2)))) =
    documentStyle unwrappedDocument 4 (some (exampleRootStyle unwrappedDocument)) := by
  refine sameStyle_of (fun p => ?_) (by decide +kernel)
  cases p <;> decide +kernel

theorem exampleTree2_added : BlocksAdded (exampleRootStyle exampleDocument2) true unwrappedTree exampleTree2 := by
  have hb : BlockInFlow (documentStyle unwrappedDocument 4 (some (exampleRootStyle unwrappedDocument))) :=
    ⟨⟨.flow, by decide +kernel⟩, by decide +kernel, by decide +kernel⟩
  have e3 : documentStyle exampleDocument2 3 (some (exampleRootStyle exampleDocument2)) =
      documentStyle unwrappedDocument 3 (some (exampleRootStyle unwrappedDocument)) := by
    refine sameStyle_of (fun p => ?_) (by decide +kernel)
    cases p <;> decide +kernel
  simp only [exampleTree2, unwrappedTree, unwrapped_style, e3]
  refine .same (.inl (by decide +kernel)) ?_
  refine BlocksAdded.added (inner := [_, _]) (ns := []) (plainBlock_of (by decide +kernel)) ?_ ?_ (.inl (by decide +kernel)) (.inr (.inl rfl))
    (.inr trivial) .nil
  · refine ⟨?_, trivial, trivial⟩
    have hd : displayOf (documentStyle unwrappedDocument 4 (some (exampleRootStyle unwrappedDocument))) = .generatingBox .block .flow := by decide +kernel
    simp only [StyledNode.Unmeasured, hd]
    exact not_percentage_of (by decide +kernel)
  · exact .inside hb (.same trivial .nil) (.same trivial .nil)

/-- The hypotheses of C93 are met by these documents. Both are laid out, and there is something to see: the letters. -/
theorem unwrappedDocument_added : Denotes exampleEngine unwrappedDocument (forestOf unwrappedChildren) (exampleRootStyle exampleDocument2)
      unwrappedTree [3] ∧
    Denotes exampleEngine exampleDocument2 (forestOf exampleChildren2) (exampleRootStyle exampleDocument2) exampleTree2 [3] ∧
    positionOf (exampleRootStyle exampleDocument2) ≠ .absolute ∧
    BlocksAdded (exampleRootStyle exampleDocument2) true unwrappedTree exampleTree2 ∧
    ((layoutDocument exampleEngine exampleFont unwrappedDocument 9 inOrder ⟨600, 800⟩).map fun fs => (inkOf 1 ⟨0, 0⟩ fs).length) = some 2 ∧
    ((layoutDocument exampleEngine exampleFont exampleDocument2 9 inOrder ⟨600, 800⟩).map fun fs => (inkOf 1 ⟨0, 0⟩ fs).length) = some 2 := by
  refine ⟨unwrappedDocument_denotes, exampleDocument2_denotes, by decide +kernel, exampleTree2_added, ?_, ?_⟩
  · have hp : parseStylesheets exampleEngine unwrappedDocument = some ⟨[]⟩ := exampleEngine_sheets rfl
    simp only [layoutDocument, constructDocument, hp]
    decide +kernel
  · have hp : parseStylesheets exampleEngine exampleDocument2 = some ⟨[]⟩ := exampleEngine_sheets rfl
    simp only [layoutDocument, constructDocument, hp]
    decide +kernel

/-- A block that is 20 pixels high, with a margin of 10 pixels below it. -/
def aboveStyle : ComputedValues := styleWith (.generatingBox .block .flow) fun v =>
  (v.set .marginBottom (LengthOrPercentageOrAuto.length 10)).set .height (LengthOrPercentageOrAuto.length 20)

/-- What is to be seen of the contents of a root element. -/
def inkOfTree (tree : List StyledNode) : Option (List Shape) :=
  match constructRoot blockStyle tree with
  | none => none
  | some r => (layoutRoot exampleFont 20 inOrder r ⟨600, 800⟩).map (inkOf 1 ⟨0, 0⟩)

/-- **C93** does not hold with absolutely positioned elements: below a block with a margin, a `span` with `position: absolute` and no
other declarations is at the bottom of the block. In a `div` that has nothing of its own it is where the margin ends, 10 pixels lower. -/
theorem C93_absolute_violated : PlainBlock blockStyle blockStyle ∧
    inkOfTree [.element aboveStyle [], .element absoluteStyle [.text (codes "a")]] =
      some [.glyphs [97] 16 ⟨0, 36⟩ ⟨0, 0, 0, 255⟩] ∧
    inkOfTree [.element aboveStyle [], .element blockStyle [.element absoluteStyle [.text (codes "a")]]] =
      some [.glyphs [97] 16 ⟨0, 46⟩ ⟨0, 0, 0, 255⟩] := by
  exact ⟨plainBlock_of (by decide +kernel), by decide +kernel, by decide +kernel⟩

end Verif.Layout
