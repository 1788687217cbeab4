/- Absolutely positioned elements do not affect what is in flow (C100). -/
import Verif.Layout.AsideHollow
import Verif.Layout.WrapTheorems
import Verif.Layout.ZoomTheorems
namespace Verif.Layout
open Verif.Style Verif.Style.Spec Verif.Text Verif.Pdf Verif.Dom

/-- What is to be seen of the fragments of a tree, and of those of it without absolutely positioned elements. -/
theorem layoutRoot_settled {F : FontApi Rat Err} {s : ComputedValues} (hp : positionOf s ≠ .absolute) {nodes : List StyledNode}
    (h : nodesApart .between nodes) {r r' : BlockFormattingContext} (h1 : constructRoot s nodes = some r)
    (h2 : constructRoot s (nodesSettled nodes) = some r') {fuel fuel' : Nat} {o o' : Oracle} {viewport : Vec2 Rat} {fs fs' : List Fragment}
    (l1 : layoutRoot F fuel o r viewport = some fs) (l2 : layoutRoot F fuel' o' r' viewport = some fs') (asc : Rat) (origin : Vec2 Rat) :
    (inkOf asc origin fs').Sublist (inkOf asc origin fs) := by
  have hs : StyleOnly NoAbsolutes s := ⟨fun h => absurd h hp, fun _ => by simp⟩
  obtain ⟨fc, k1, k3⟩ := layoutRoot_flow l1 asc origin
  obtain ⟨fc', k2, rfl⟩ := layoutRoot_lays (constructRoot_only hs (still_absolutes _ (nodesApart_still _ _ h)) h2) l2
  rw [((constructRoot_settled hp h h1 h2).alike asc _ _ _ _ rfl k2 k1).ink origin]
  exact k3

/-- What is to be seen of the fragments of a tree, and of those of it with nothing in its absolutely positioned elements. -/
theorem layoutRoot_emptied {F : FontApi Rat Err} {s : ComputedValues} (hp : positionOf s ≠ .absolute) {nodes nodes' : List StyledNode}
    (h : nodesEmptied nodes nodes') {r r' : BlockFormattingContext} (h1 : constructRoot s nodes = some r)
    (h2 : constructRoot s nodes' = some r') {fuel fuel' : Nat} {o o' : Oracle} {viewport : Vec2 Rat} {fs fs' : List Fragment}
    (l1 : layoutRoot F fuel o r viewport = some fs) (l2 : layoutRoot F fuel' o' r' viewport = some fs') (asc : Rat) (origin : Vec2 Rat) :
    (inkOf asc origin fs').Sublist (inkOf asc origin fs) := by
  obtain ⟨fc, k1, k3⟩ := layoutRoot_flow l1 asc origin
  obtain ⟨fc', k2, k4⟩ := layoutRoot_grows True (fun _ => constructRoot_hollow hp (nodesEmptied_hollow _ _ h) h2) l2 asc origin
  rw [← k4.2 trivial, ((constructRoot_emptied hp h h1 h2).alike asc _ _ _ _ rfl k2 k1).ink origin]
  exact k3

section
variable {R Er σ : Type} (P : Painter R Er) (E : Engine σ) (font : FontApi Rat Err) (d d' : Document)

/-- **C100**: a document in which every absolutely positioned element comes between blocks, and the document without these elements.
Whenever both are laid out, with viewports of the same size, everything that is to be seen of the document without them is also to be seen
of the one with them, at the same place, in the same order, whatever is in them, however large they are and wherever they are moved to
(but for rectangles without width or height). Missing: absolutely positioned elements in lines (`C100_line_violated`), in inline elements
and in floats, and inline elements moved by percentages of a height (`C100_percentage_violated`). -/
theorem C100_settled_partial (F F' : Forest) (rootStyle : ComputedValues) (tree : List StyledNode) (hidden hidden' : List Nat)
    (h : Denotes E d F rootStyle tree hidden) (h' : Denotes E d' F' rootStyle (nodesSettled tree) hidden')
    (hp : positionOf rootStyle ≠ .absolute) (ha : nodesApart .between tree) {fuel fuel' : Nat} {schedule schedule' : Oracle}
    {viewport : Vec2 Rat} {fragments fragments' : List Fragment} (hl : layoutDocument E font d fuel schedule viewport = some fragments)
    (hl' : layoutDocument E font d' fuel' schedule' viewport = some fragments') (ascender : Rat)
    {placed placed' : List (Fragment × Vec2 Rat)} (hpl : Placed ⟨0, 0⟩ fragments placed) (hpl' : Placed ⟨0, 0⟩ fragments' placed') :
    ((shapesOf ascender placed').filter Shape.visible).Sublist ((shapesOf ascender placed).filter Shape.visible) := by
  unfold layoutDocument at hl hl'
  rcases hc : constructDocument E d fuel with _ | root
  · simp [hc] at hl
  rcases hc' : constructDocument E d' fuel' with _ | root'
  · simp [hc'] at hl'
  simp only [hc, hc'] at hl hl'
  obtain ⟨h1, -⟩ := constructDocument_sound h hc
  obtain ⟨h2, -⟩ := constructDocument_sound h' hc'
  rw [shapesOf, shapesOf, hpl.ink, hpl'.ink]
  exact layoutRoot_settled hp ha h1 h2 hl hl' ascender _

/-- **C100** for the files: everything that a reader finds on the page of the document without absolutely positioned elements is also
found on the page of the one with them, but for rectangles without width or height. -/
theorem C100_pages_partial {readReal : List Byte → Option R} (hd : RealText P.floats.dtoa readReal) (hfl : FloatLaws P.floats)
    (hv : P.fontView.Valid) (hg : ∀ c g, font.glyphId c = .ok g → g < 65536) (F F' : Forest) (rootStyle : ComputedValues)
    (tree : List StyledNode) (hidden hidden' : List Nat) (h : Denotes E d F rootStyle tree hidden)
    (h' : Denotes E d' F' rootStyle (nodesSettled tree) hidden') (hp : positionOf rootStyle ≠ .absolute) (ha : nodesApart .between tree)
    {fuel fuel' : Nat} {schedule schedule' : Oracle} {bytes bytes' : List Byte} (hb : toPdfBytes P E font d fuel schedule = some bytes)
    (hb' : toPdfBytes P E font d' fuel' schedule' = some bytes') (hs : bytes.length ≤ 2 ^ 32) (hs' : bytes'.length ≤ 2 ^ 32) :
    ∃ shapes shapes', (shapes'.filter Shape.visible).Sublist (shapes.filter Shape.visible) ∧
      ∀ r ∈ [(bytes, shapes), (bytes', shapes')],
        ∃ m file page painted, (∀ fuel, m ≤ fuel → readDocument readReal fuel r.1 = some file) ∧ file.pages = [page] ∧
          page.mediaBox = [.int 0, .int 0, .real (P.floats.mul (P.round 600) P.floats.scaleX), .real (P.floats.mul (P.round 800) P.floats.scaleY)] ∧
          (∃ m, ∀ fuel, m ≤ fuel →
            paintContents readReal P.floats.zero P.floats.one (gsAlpha file.extGState) fuel page.contents = some painted) ∧
          AllMatch (fun p shape => Verif.Pdf.Matches P.floats (fun _ name => ∃ id, dictGet file.fonts name = some (.ref id 0) ∧
            IsFont readReal r.1 P.fontView id) p (shape.expected P)) painted r.2 := by
  unfold toPdfBytes at hb hb'
  rcases hlay : layoutDocument E font d fuel schedule ⟨600, 800⟩ with _ | fragments
  · simp [hlay] at hb
  rcases hlay' : layoutDocument E font d' fuel' schedule' ⟨600, 800⟩ with _ | fragments'
  · simp [hlay'] at hb'
  simp only [hlay, hlay'] at hb hb'
  rcases hdoc : paintDocument P fragments with _ | doc
  · simp [hdoc] at hb
  rcases hdoc' : paintDocument P fragments' with _ | doc'
  · simp [hdoc'] at hb'
  simp only [hdoc, hdoc', Option.some.injEq] at hb hb'
  subst hb hb'
  obtain ⟨placed, hpl⟩ := Placed.exists fragments ⟨0, 0⟩
  obtain ⟨placed', hpl'⟩ := Placed.exists fragments' ⟨0, 0⟩
  have glyphs : ∀ {d : Document} {fuel : Nat} {schedule : Oracle} {fragments : List Fragment} {placed : List (Fragment × Vec2 Rat)},
      layoutDocument E font d fuel schedule ⟨600, 800⟩ = some fragments → Placed ⟨0, 0⟩ fragments placed →
      ∀ e ∈ placed, ∀ style rect segment, e.1 = .text style rect segment → ∀ g ∈ segment.glyphs, g < 65536 := by
    intro d fuel schedule fragments placed hl hpl e he style rect segment hs g hgm
    unfold layoutDocument at hl
    split at hl
    · cases hl
    · obtain ⟨hm, -⟩ := layoutRoot_shown hl
      obtain ⟨c, hcg⟩ := made_glyphs hpl hm e he style rect segment hs g hgm
      exact hg c g hcg
  refine ⟨_, _, C100_settled_partial E font d d' F F' rootStyle tree hidden hidden' h h' hp ha hlay hlay' P.ascender hpl hpl', ?_⟩
  intro r hr
  rcases List.mem_cons.1 hr with rfl | hr
  · exact C46_page P hd hfl hv hpl (glyphs hlay hpl) hdoc hs
  · rcases List.mem_cons.1 hr with rfl | hr
    · exact C46_page P hd hfl hv hpl' (glyphs hlay' hpl') hdoc' hs'
    · cases hr

/-- **C101**: two documents that are the same but for what is in their absolutely positioned elements and the styles of these: in the second
document there is nothing in them, and nothing to be seen of them. Whenever both are laid out, with viewports of the same size, everything
that is to be seen of the second document is also to be seen of the first one, at the same place, in the same order (but for rectangles
without width or height). So whatever is in absolutely positioned elements, and however large they are and wherever they are moved to,
nothing else moves. -/
theorem C101_filled (F F' : Forest) (rootStyle : ComputedValues) (tree tree' : List StyledNode) (hidden hidden' : List Nat)
    (h : Denotes E d F rootStyle tree hidden) (h' : Denotes E d' F' rootStyle tree' hidden')
    (hp : positionOf rootStyle ≠ .absolute) (ha : nodesEmptied tree tree') {fuel fuel' : Nat} {schedule schedule' : Oracle}
    {viewport : Vec2 Rat} {fragments fragments' : List Fragment} (hl : layoutDocument E font d fuel schedule viewport = some fragments)
    (hl' : layoutDocument E font d' fuel' schedule' viewport = some fragments') (ascender : Rat)
    {placed placed' : List (Fragment × Vec2 Rat)} (hpl : Placed ⟨0, 0⟩ fragments placed) (hpl' : Placed ⟨0, 0⟩ fragments' placed') :
    ((shapesOf ascender placed').filter Shape.visible).Sublist ((shapesOf ascender placed).filter Shape.visible) := by
  unfold layoutDocument at hl hl'
  rcases hc : constructDocument E d fuel with _ | root
  · simp [hc] at hl
  rcases hc' : constructDocument E d' fuel' with _ | root'
  · simp [hc'] at hl'
  simp only [hc, hc'] at hl hl'
  obtain ⟨h1, -⟩ := constructDocument_sound h hc
  obtain ⟨h2, -⟩ := constructDocument_sound h' hc'
  rw [shapesOf, shapesOf, hpl.ink, hpl'.ink]
  exact layoutRoot_emptied hp ha h1 h2 hl hl' ascender _

/-- **C101** for the files: everything that a reader finds on the page of the document whose absolutely positioned elements are empty
is also found on the page of the other one, but for rectangles without width or height. -/
theorem C101_pages {readReal : List Byte → Option R} (hd : RealText P.floats.dtoa readReal) (hfl : FloatLaws P.floats)
    (hv : P.fontView.Valid) (hg : ∀ c g, font.glyphId c = .ok g → g < 65536) (F F' : Forest) (rootStyle : ComputedValues)
    (tree tree' : List StyledNode) (hidden hidden' : List Nat) (h : Denotes E d F rootStyle tree hidden)
    (h' : Denotes E d' F' rootStyle tree' hidden') (hp : positionOf rootStyle ≠ .absolute) (ha : nodesEmptied tree tree')
    {fuel fuel' : Nat} {schedule schedule' : Oracle} {bytes bytes' : List Byte} (hb : toPdfBytes P E font d fuel schedule = some bytes)
    (hb' : toPdfBytes P E font d' fuel' schedule' = some bytes') (hs : bytes.length ≤ 2 ^ 32) (hs' : bytes'.length ≤ 2 ^ 32) :
    ∃ shapes shapes', (shapes'.filter Shape.visible).Sublist (shapes.filter Shape.visible) ∧
      ∀ r ∈ [(bytes, shapes), (bytes', shapes')],
        ∃ m file page painted, (∀ fuel, m ≤ fuel → readDocument readReal fuel r.1 = some file) ∧ file.pages = [page] ∧
          page.mediaBox = [.int 0, .int 0, .real (P.floats.mul (P.round 600) P.floats.scaleX), .real (P.floats.mul (P.round 800) P.floats.scaleY)] ∧
          (∃ m, ∀ fuel, m ≤ fuel →
            paintContents readReal P.floats.zero P.floats.one (gsAlpha file.extGState) fuel page.contents = some painted) ∧
          AllMatch (fun p shape => Verif.Pdf.Matches P.floats (fun _ name => ∃ id, dictGet file.fonts name = some (.ref id 0) ∧
            IsFont readReal r.1 P.fontView id) p (shape.expected P)) painted r.2 := by
  unfold toPdfBytes at hb hb'
  rcases hlay : layoutDocument E font d fuel schedule ⟨600, 800⟩ with _ | fragments
  · simp [hlay] at hb
  rcases hlay' : layoutDocument E font d' fuel' schedule' ⟨600, 800⟩ with _ | fragments'
  · simp [hlay'] at hb'
  simp only [hlay, hlay'] at hb hb'
  rcases hdoc : paintDocument P fragments with _ | doc
  · simp [hdoc] at hb
  rcases hdoc' : paintDocument P fragments' with _ | doc'
  · simp [hdoc'] at hb'
  simp only [hdoc, hdoc', Option.some.injEq] at hb hb'
  subst hb hb'
  obtain ⟨placed, hpl⟩ := Placed.exists fragments ⟨0, 0⟩
  obtain ⟨placed', hpl'⟩ := Placed.exists fragments' ⟨0, 0⟩
  have glyphs : ∀ {d : Document} {fuel : Nat} {schedule : Oracle} {fragments : List Fragment} {placed : List (Fragment × Vec2 Rat)},
      layoutDocument E font d fuel schedule ⟨600, 800⟩ = some fragments → Placed ⟨0, 0⟩ fragments placed →
      ∀ e ∈ placed, ∀ style rect segment, e.1 = .text style rect segment → ∀ g ∈ segment.glyphs, g < 65536 := by
    intro d fuel schedule fragments placed hl hpl e he style rect segment hs g hgm
    unfold layoutDocument at hl
    split at hl
    · cases hl
    · obtain ⟨hm, -⟩ := layoutRoot_shown hl
      obtain ⟨c, hcg⟩ := made_glyphs hpl hm e he style rect segment hs g hgm
      exact hg c g hcg
  refine ⟨_, _, C101_filled E font d d' F F' rootStyle tree tree' hidden hidden' h h' hp ha hlay hlay' P.ascender hpl hpl', ?_⟩
  intro r hr
  rcases List.mem_cons.1 hr with rfl | hr
  · exact C46_page P hd hfl hv hpl (glyphs hlay hpl) hdoc hs
  · rcases List.mem_cons.1 hr with rfl | hr
    · exact C46_page P hd hfl hv hpl' (glyphs hlay' hpl') hdoc' hs'
    · cases hr

end

/-! ### Examples -/

/-- `exampleEngine` with `p { position: absolute; top: 50px }` and `head` not displayed. -/
def asideEngine : Engine String :=
  { exampleEngine with
    ua := ⟨[("html", displayBlock (.generatingBox .block .flow)),
            ("div", displayBlock (.generatingBox .block .flow)),
            ("p", { declarations := [.value .display (.generatingBox .block .flow), .value .position (.absolute : Position),
                                     .value .top (.length (.absolute 50))],
                    important := [false, false, false], anyNormal := ⟨false, true⟩ }),
            ("head", displayBlock .none)]⟩ }

/-- `<html><head></head><div>b</div></html>`: `exampleDocument2` without its `p`. -/
def settledDocument : Document :=
  { Document.new with nodes :=
    [ Node.new .document,
      ⟨none, none, none, some 2, some 2, .document⟩,
      exampleElement "html" (some 1) none none (some 3) (some 4),
      exampleElement "head" (some 2) (some 4) none none none,
      exampleElement "div" (some 2) none (some 3) (some 5) (some 5),
      ⟨some 4, none, none, none, none, .text "b"⟩ ] }

/-- The children of the nodes of `settledDocument`. -/
def settledChildren : List (List Nat) := [[], [2], [3, 4], [], [5], []]

/-- The styles of the elements of `exampleDocument2`. -/
def asideStyle (n : Nat) (parent : Option ComputedValues) : ComputedValues :=
  (nodeStyle asideEngine ⟨[]⟩ exampleDocument2 n parent).getD spanStyle

/-- The contents of `exampleDocument2` in these styles. -/
def asideTree : List StyledNode :=
  let html := asideStyle 2 none
  let div := asideStyle 4 (some html)
  [.element (asideStyle 3 (some html)) [], .element div [.element (asideStyle 5 (some div)) [.text (codes "a")], .text (codes "b")]]

theorem asideEngine_sheets {d : Document} (h : d.styleElements = []) : parseStylesheets asideEngine d = some ⟨[]⟩ := by
  simp [parseStylesheets, h, Document.stylesheetTexts, addStylesheets, StyleSet.finish]

/-- The hypotheses of C100 are met by these documents. Both are laid out, `b` is at the same place in both, and `a` is only in one. -/
theorem exampleDocument2_settled :
    Denotes asideEngine exampleDocument2 (forestOf exampleChildren2) (asideStyle 2 none) asideTree [3] ∧
    Denotes asideEngine settledDocument (forestOf settledChildren) (asideStyle 2 none) (nodesSettled asideTree) [3] ∧
    positionOf (asideStyle 2 none) ≠ .absolute ∧ nodesApart .between asideTree ∧
    ((layoutDocument asideEngine exampleFont exampleDocument2 9 inOrder ⟨600, 800⟩).map (inkOf 1 ⟨0, 0⟩)) =
      some [.glyphs [98] 16 ⟨0, 16⟩ ⟨0, 0, 0, 255⟩, .glyphs [97] 16 ⟨0, 66⟩ ⟨0, 0, 0, 255⟩] ∧
    ((layoutDocument asideEngine exampleFont settledDocument 9 inOrder ⟨600, 800⟩).map (inkOf 1 ⟨0, 0⟩)) =
      some [.glyphs [98] 16 ⟨0, 16⟩ ⟨0, 0, 0, 255⟩] := by
  have p1 : parseStylesheets asideEngine exampleDocument2 = some ⟨[]⟩ := asideEngine_sheets rfl
  have p2 : parseStylesheets asideEngine settledDocument = some ⟨[]⟩ := asideEngine_sheets rfl
  have d3 : displayOf (asideStyle 3 (some (asideStyle 2 none))) = .none := by decide +kernel
  have d4 : displayOf (asideStyle 4 (some (asideStyle 2 none))) = .generatingBox .block .flow := by decide +kernel
  have a4 : positionOf (asideStyle 4 (some (asideStyle 2 none))) = .static := by decide +kernel
  have f4 : floatOf (asideStyle 4 (some (asideStyle 2 none))) = .none := by decide +kernel
  have d5 : displayOf (asideStyle 5 (some (asideStyle 4 (some (asideStyle 2 none))))) = .generatingBox .block .flow := by decide +kernel
  have a5 : positionOf (asideStyle 5 (some (asideStyle 4 (some (asideStyle 2 none))))) = .absolute := by decide +kernel
  have hset : nodesSettled asideTree = [.element (asideStyle 3 (some (asideStyle 2 none))) [],
      .element (asideStyle 4 (some (asideStyle 2 none))) [.text (codes "b")]] := by
    simp [asideTree, nodesSettled, StyledNode.settled, IsAside, d3, d4, d5, a4, a5]
  refine ⟨?_, ?_, by decide +kernel, ?_, ?_, ?_⟩
  · refine ⟨represents_of_check exampleDocument2_check, acyclic_of_check exampleDocument2_check, ⟨[]⟩, 2, p1, by decide, rfl, by decide +kernel, ?_⟩
    exact .none (n := 3) (hidden := []) rfl rfl rfl (by decide +kernel)
      (.element (belowHidden := []) (hidden := []) (n := 4) rfl rfl rfl (by decide +kernel)
        (.element (belowHidden := []) (n := 5) rfl rfl rfl (by decide +kernel) (.text (n := 6) rfl rfl .nil)
          (.text (n := 7) rfl rfl .nil)) .nil)
  · rw [hset]
    have hcheck : treeCheck settledDocument settledChildren = true := by decide +kernel
    have s2 : nodeStyle asideEngine ⟨[]⟩ settledDocument 2 none = some (asideStyle 2 none) := rfl
    have s3 : nodeStyle asideEngine ⟨[]⟩ settledDocument 3 (some (asideStyle 2 none)) = some (asideStyle 3 (some (asideStyle 2 none))) := rfl
    have s4 : nodeStyle asideEngine ⟨[]⟩ settledDocument 4 (some (asideStyle 2 none)) = some (asideStyle 4 (some (asideStyle 2 none))) := rfl
    refine ⟨represents_of_check hcheck, acyclic_of_check hcheck, ⟨[]⟩, 2, p2, by decide, s2, by decide +kernel, ?_⟩
    exact .none (n := 3) (hidden := []) rfl rfl s3 d3
      (.element (belowHidden := []) (hidden := []) (n := 4) rfl rfl s4 (by decide +kernel) (.text (n := 5) rfl rfl .nil) .nil)
  · simp [asideTree, nodesApart, StyledNode.Apart, StyledNode.after, d3, d4, d5, a4, a5, f4]
  · simp only [layoutDocument, constructDocument, p1]
    decide +kernel
  · simp only [layoutDocument, constructDocument, p2]
    decide +kernel

/-- A block that is 64 pixels wide. -/
def fourWideStyle : ComputedValues := styleWith (.generatingBox .block .flow) (·.set .width (LengthOrPercentageOrAuto.length 64))

/-- **C100** does not hold in lines: in a block that is four glyphs wide, `bb` goes below `aa`. With an empty absolutely positioned element
between them it goes beside it, out of the block. -/
theorem C100_line_violated :
    (displayOf absoluteStyle = .generatingBox .block .flow ∧ positionOf absoluteStyle = .absolute) ∧
    inkOfTree [.element fourWideStyle [.text (codes "aa "), .text (codes "bb")]] =
      some [.glyphs [97, 97] 16 ⟨0, 16⟩ ⟨0, 0, 0, 255⟩, .glyphs [98, 98] 16 ⟨0, 176 / 5⟩ ⟨0, 0, 0, 255⟩] ∧
    inkOfTree [.element fourWideStyle [.text (codes "aa "), .element absoluteStyle [], .text (codes "bb")]] =
      some [.glyphs [97, 97, 32] 16 ⟨0, 16⟩ ⟨0, 0, 0, 255⟩, .glyphs [98, 98] 16 ⟨48, 16⟩ ⟨0, 0, 0, 255⟩] := by
  refine ⟨⟨by decide +kernel, by decide +kernel⟩, by decide +kernel, by decide +kernel⟩

/-- An inline element that is moved down by half the height of the block that it is in. -/
def halfDownStyle : ComputedValues := styleWith (.generatingBox .inline .flow) fun v =>
  (v.set .position Position.relative).set .top (LengthOrPercentageOrAuto.percentage (1 / 2))

/-- **C100** does not hold for inline elements that are moved by a percentage of the height of the block that they are in: with an empty
absolutely positioned element in the block, they are in an anonymous block, which does not have that height. -/
theorem C100_percentage_violated :
    inkOfTree [.element aboveStyle [.element halfDownStyle [.text (codes "a")]]] = some [.glyphs [97] 16 ⟨0, 26⟩ ⟨0, 0, 0, 255⟩] ∧
    inkOfTree [.element aboveStyle [.element absoluteStyle [], .element halfDownStyle [.text (codes "a")]]] =
      some [.glyphs [97] 16 ⟨0, 16⟩ ⟨0, 0, 0, 255⟩] := by
  exact ⟨by decide +kernel, by decide +kernel⟩

/-- `exampleDocument2` without the text in its `p`. -/
def emptiedDocument : Document :=
  { Document.new with nodes :=
    [ Node.new .document,
      ⟨none, none, none, some 2, some 2, .document⟩,
      exampleElement "html" (some 1) none none (some 3) (some 4),
      exampleElement "head" (some 2) (some 4) none none none,
      exampleElement "div" (some 2) none (some 3) (some 5) (some 6),
      exampleElement "p" (some 4) (some 6) none none none,
      ⟨some 4, none, some 5, none, none, .text "b"⟩ ] }

/-- The children of the nodes of `emptiedDocument`. -/
def emptiedChildren : List (List Nat) := [[], [2], [3, 4], [], [5, 6], [], []]

/-- The contents of `emptiedDocument`. -/
def emptiedTree : List StyledNode :=
  let html := asideStyle 2 none
  let div := asideStyle 4 (some html)
  [.element (asideStyle 3 (some html)) [], .element div [.element (asideStyle 5 (some div)) [], .text (codes "b")]]

/-- The hypotheses of `C101_filled` are met by these documents. Both are laid out, and `b` is at the same place in both. -/
theorem exampleDocument2_filled :
    Denotes asideEngine exampleDocument2 (forestOf exampleChildren2) (asideStyle 2 none) asideTree [3] ∧
    Denotes asideEngine emptiedDocument (forestOf emptiedChildren) (asideStyle 2 none) emptiedTree [3] ∧
    positionOf (asideStyle 2 none) ≠ .absolute ∧ nodesEmptied asideTree emptiedTree ∧
    ((layoutDocument asideEngine exampleFont exampleDocument2 9 inOrder ⟨600, 800⟩).map (inkOf 1 ⟨0, 0⟩)) =
      some [.glyphs [98] 16 ⟨0, 16⟩ ⟨0, 0, 0, 255⟩, .glyphs [97] 16 ⟨0, 66⟩ ⟨0, 0, 0, 255⟩] ∧
    ((layoutDocument asideEngine exampleFont emptiedDocument 9 inOrder ⟨600, 800⟩).map (inkOf 1 ⟨0, 0⟩)) =
      some [.glyphs [98] 16 ⟨0, 16⟩ ⟨0, 0, 0, 255⟩] := by
  have p2 : parseStylesheets asideEngine emptiedDocument = some ⟨[]⟩ := asideEngine_sheets rfl
  have d3 : displayOf (asideStyle 3 (some (asideStyle 2 none))) = .none := by decide +kernel
  have d4 : displayOf (asideStyle 4 (some (asideStyle 2 none))) = .generatingBox .block .flow := by decide +kernel
  have a4 : positionOf (asideStyle 4 (some (asideStyle 2 none))) = .static := by decide +kernel
  have d5 : displayOf (asideStyle 5 (some (asideStyle 4 (some (asideStyle 2 none))))) = .generatingBox .block .flow := by decide +kernel
  have a5 : positionOf (asideStyle 5 (some (asideStyle 4 (some (asideStyle 2 none))))) = .absolute := by decide +kernel
  have g5 : (backgroundOf (asideStyle 5 (some (asideStyle 4 (some (asideStyle 2 none)))))).alpha = 0 := by decide +kernel
  refine ⟨exampleDocument2_settled.1, ?_, exampleDocument2_settled.2.2.1, ?_, exampleDocument2_settled.2.2.2.2.1, ?_⟩
  · have hcheck : treeCheck emptiedDocument emptiedChildren = true := by decide +kernel
    have s2 : nodeStyle asideEngine ⟨[]⟩ emptiedDocument 2 none = some (asideStyle 2 none) := rfl
    have s3 : nodeStyle asideEngine ⟨[]⟩ emptiedDocument 3 (some (asideStyle 2 none)) = some (asideStyle 3 (some (asideStyle 2 none))) := rfl
    have s4 : nodeStyle asideEngine ⟨[]⟩ emptiedDocument 4 (some (asideStyle 2 none)) = some (asideStyle 4 (some (asideStyle 2 none))) := rfl
    have s5 : nodeStyle asideEngine ⟨[]⟩ emptiedDocument 5 (some (asideStyle 4 (some (asideStyle 2 none)))) =
      some (asideStyle 5 (some (asideStyle 4 (some (asideStyle 2 none))))) := rfl
    refine ⟨represents_of_check hcheck, acyclic_of_check hcheck, ⟨[]⟩, 2, p2, by decide, s2, by decide +kernel, ?_⟩
    exact .none (n := 3) (hidden := []) rfl rfl s3 d3
      (.element (belowHidden := []) (hidden := []) (n := 4) rfl rfl s4 (by decide +kernel)
        (.element (belowHidden := []) (n := 5) rfl rfl s5 (by decide +kernel) .nil (.text (n := 6) rfl rfl .nil)) .nil)
  · simp [asideTree, emptiedTree, nodesEmptied, StyledNode.Emptied, IsAside, d3, d4, d5, a4, a5, g5]
  · simp only [layoutDocument, constructDocument, p2]
    decide +kernel

/-- In a line, what is in an absolutely positioned element does not change anything either. -/
theorem line_filled :
    nodesEmptied [.element fourWideStyle [.text (codes "aa "), .element absoluteStyle [.text (codes "x")], .text (codes "bb")]]
      [.element fourWideStyle [.text (codes "aa "), .element absoluteStyle [], .text (codes "bb")]] ∧
    inkOfTree [.element fourWideStyle [.text (codes "aa "), .element absoluteStyle [.text (codes "x")], .text (codes "bb")]] =
      some [.glyphs [97, 97, 32] 16 ⟨0, 16⟩ ⟨0, 0, 0, 255⟩, .glyphs [98, 98] 16 ⟨48, 16⟩ ⟨0, 0, 0, 255⟩,
        .glyphs [120] 16 ⟨48, 16⟩ ⟨0, 0, 0, 255⟩] := by
  have d : displayOf fourWideStyle = .generatingBox .block .flow := by decide +kernel
  have p : positionOf fourWideStyle = .static := by decide +kernel
  have d2 : displayOf absoluteStyle = .generatingBox .block .flow := by decide +kernel
  have p2 : positionOf absoluteStyle = .absolute := by decide +kernel
  have g2 : (backgroundOf absoluteStyle).alpha = 0 := by decide +kernel
  refine ⟨?_, by decide +kernel⟩
  simp [nodesEmptied, StyledNode.Emptied, IsAside, d, p, d2, p2, g2]

end Verif.Layout
