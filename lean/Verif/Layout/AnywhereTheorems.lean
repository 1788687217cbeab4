/- **C94** for changes at any point of a document. -/
import Verif.Layout.TwinParts
namespace Verif.Layout
open Verif.Style Verif.Style.Spec Verif.Text Verif.Pdf Verif.Dom

variable {Err : Type}

section
variable {R Er σ : Type} (P : Painter R Er) (E : Engine σ) (font : FontApi Rat Err) (d d' : Document)

theorem anywhere_roots {rootStyle : ComputedValues} {tree tree' : List StyledNode} {before : List Nat} (hd : displayOf rootStyle ≠ .none)
    (hs : InFlowStyle rootStyle) (hf : nodesAll (fun s _ => InFlowStyle s) tree) (hf' : nodesAll (fun s _ => InFlowStyle s) tree')
    (hn : nodesAll (fun s _ => NotByHeight s) tree) (hn' : nodesAll (fun s _ => NotByHeight s) tree') (ha : SameUntil tree tree' before)
    {root root' : BlockFormattingContext} (h1 : constructRoot rootStyle tree = some root) (h2 : constructRoot rootStyle tree' = some root')
    {fuel fuel' : Nat} {schedule schedule' : Oracle} {viewport : Vec2 Rat} {fragments fragments' : List Fragment}
    (hl : layoutRoot font fuel schedule root viewport = some fragments)
    (hl' : layoutRoot font fuel' schedule' root' viewport = some fragments') (ascender : Rat) :
    ∃ common rest rest' text glyphs, textOf (.ofGlyphs font) ascender ⟨0, 0⟩ fragments = common ++ rest ∧
      textOf (.ofGlyphs font) ascender ⟨0, 0⟩ fragments' = common ++ rest' ∧ common.flatMap Shape.ids = glyphs.map Prod.snd ∧
      Shown font text glyphs ∧ inked (beforeLastWord before) <+: inked (text.map Prod.snd) ∧ inked (text.map Prod.snd) <+: inked before := by
  have hso : StyleOnly NoAbsolutes rootStyle := ⟨fun h => absurd h hs.1, fun _ => by simp⟩
  have no : ∀ {ns : List StyledNode}, nodesAll (fun s _ => InFlowStyle s) ns → nodesAll (fun s _ => BoxOnly NoAbsolutes s) ns :=
    fun hn => nodesAll_mono (fun s _ hs => .inr ⟨fun h => absurd h hs.1, fun _ => by simp⟩) _ hn
  obtain ⟨t, g1, g2⟩ := constructRoot_begins hd hs ha hf hf' hn hn' h1 h2
  have n1 := constructRoot_only hso (no hf) h1
  have n2 := constructRoot_only hso (no hf') h2
  obtain ⟨fc, k1, rfl⟩ := layoutRoot_lays n1 hl
  obtain ⟨fc', k2, rfl⟩ := layoutRoot_lays n2 hl'
  obtain ⟨k, r, r', gl, e1, e2, -, e3, e4, -⟩ := g1.same (Look.ofGlyphs_splits font) ascender _ _ _ _ rfl n1 n2 k1 k2
  exact ⟨k ⟨0, 0⟩, r ⟨0, 0⟩, r' ⟨0, 0⟩, t, gl, e1 _, e2 _, e4 _, e3, g2.prefix⟩

/-- **C94**: two documents with the same style of the root element, in which everything is in flow, and that are the same up to some point.
That can be anywhere: between two nodes, in the middle of a text, within a block or within an inline element. Whenever both are laid out,
they begin with the same glyphs, in the same size and colour and at the same places, and these are the glyphs of all the text before the
difference, but for the last word of it and for white space, however large the viewport is. Missing: absolutely positioned and floating
elements, inline elements that are moved by percentages of heights (see `C94_percentages_violated`), and the backgrounds. -/
theorem C94_anywhere_partial (F F' : Forest) (rootStyle : ComputedValues) (tree tree' : List StyledNode) (hidden hidden' before : List Nat)
    (h : Denotes E d F rootStyle tree hidden) (h' : Denotes E d' F' rootStyle tree' hidden') (hs : InFlowStyle rootStyle)
    (hf : nodesAll (fun s _ => InFlowStyle s) tree) (hf' : nodesAll (fun s _ => InFlowStyle s) tree')
    (hn : nodesAll (fun s _ => NotByHeight s) tree) (hn' : nodesAll (fun s _ => NotByHeight s) tree') (ha : SameUntil tree tree' before)
    {fuel fuel' : Nat} {schedule schedule' : Oracle} {viewport : Vec2 Rat} {fragments fragments' : List Fragment}
    (hl : layoutDocument E font d fuel schedule viewport = some fragments)
    (hl' : layoutDocument E font d' fuel' schedule' viewport = some fragments') (ascender : Rat)
    {placed placed' : List (Fragment × Vec2 Rat)} (hpl : Placed ⟨0, 0⟩ fragments placed) (hpl' : Placed ⟨0, 0⟩ fragments' placed') :
    ∃ common rest rest' text glyphs, (shapesOf ascender placed).flatMap (Shape.each font) = common ++ rest ∧
      (shapesOf ascender placed').flatMap (Shape.each font) = common ++ rest' ∧ common.flatMap Shape.ids = glyphs.map Prod.snd ∧
      Shown font text glyphs ∧ inked (beforeLastWord before) <+: inked (text.map Prod.snd) ∧ inked (text.map Prod.snd) <+: inked before := by
  unfold layoutDocument at hl hl'
  rcases hc : constructDocument E d fuel with _ | root
  · simp [hc] at hl
  rcases hc' : constructDocument E d' fuel' with _ | root'
  · simp [hc'] at hl'
  simp only [hc, hc'] at hl hl'
  obtain ⟨h1, -⟩ := constructDocument_sound h hc
  obtain ⟨h2, -⟩ := constructDocument_sound h' hc'
  have hd : displayOf rootStyle ≠ .none := by
    obtain ⟨_, _, _, _, _, h4, _⟩ := h.styled
    exact h4
  obtain ⟨common, rest, rest', text, glyphs, e1, e2, e3⟩ := anywhere_roots font hd hs hf hf' hn hn' ha h1 h2 hl hl' ascender
  exact ⟨common, rest, rest', text, glyphs, by rw [hpl.glyphs, e1], by rw [hpl'.glyphs, e2], e3⟩

/-- **C94** for changes at any point, for the files: what a reader finds on the pages of both begins with the same glyphs at the same
places. -/
theorem C94_anywhere_pages_partial {readReal : List Byte → Option R} (hd : RealText P.floats.dtoa readReal) (hfl : FloatLaws P.floats)
    (hv : P.fontView.Valid) (hg : ∀ c g, font.glyphId c = .ok g → g < 65536) (F F' : Forest) (rootStyle : ComputedValues)
    (tree tree' : List StyledNode) (hidden hidden' before : List Nat) (h : Denotes E d F rootStyle tree hidden)
    (h' : Denotes E d' F' rootStyle tree' hidden') (hst : InFlowStyle rootStyle) (hf : nodesAll (fun s _ => InFlowStyle s) tree)
    (hf' : nodesAll (fun s _ => InFlowStyle s) tree') (hn : nodesAll (fun s _ => NotByHeight s) tree)
    (hn' : nodesAll (fun s _ => NotByHeight s) tree') (ha : SameUntil tree tree' before)
    {fuel fuel' : Nat} {schedule schedule' : Oracle} {bytes bytes' : List Byte} (hb : toPdfBytes P E font d fuel schedule = some bytes)
    (hb' : toPdfBytes P E font d' fuel' schedule' = some bytes') (hs : bytes.length ≤ 2 ^ 32) (hs' : bytes'.length ≤ 2 ^ 32) :
    ∃ shapes shapes' common rest rest' text glyphs, shapes.flatMap (Shape.each font) = common ++ rest ∧
      shapes'.flatMap (Shape.each font) = common ++ rest' ∧ common.flatMap Shape.ids = glyphs.map Prod.snd ∧
      Shown font text glyphs ∧ inked (beforeLastWord before) <+: inked (text.map Prod.snd) ∧ inked (text.map Prod.snd) <+: inked before ∧
      ∀ r ∈ [(bytes, shapes), (bytes', shapes')],
        ∃ m file page painted, (∀ fuel, m ≤ fuel → readDocument readReal fuel r.1 = some file) ∧ file.pages = [page] ∧
          page.mediaBox = [.int 0, .int 0, .real (P.floats.mul (P.round 600) P.floats.scaleX), .real (P.floats.mul (P.round 800) P.floats.scaleY)] ∧
          (∃ m, ∀ fuel, m ≤ fuel →
            paintContents readReal P.floats.zero P.floats.one (gsAlpha file.extGState) fuel page.contents = some painted) ∧
          AllMatch (fun p shape => Verif.Pdf.Matches P.floats (fun _ name => ∃ id, dictGet file.fonts name = some (.ref id 0) ∧
            IsFont readReal r.1 P.fontView id) p (shape.expected P)) painted r.2 := by
  unfold toPdfBytes at hb hb'
  rcases hlay : layoutDocument E font d fuel schedule ⟨600, 800⟩ with _ | fragments
  · simp [hlay] at hb
  rcases hlay' : layoutDocument E font d' fuel' schedule' ⟨600, 800⟩ with _ | fragments'
  · simp [hlay'] at hb'
  simp only [hlay, hlay'] at hb hb'
  rcases hdoc : paintDocument P fragments with _ | doc
  · simp [hdoc] at hb
  rcases hdoc' : paintDocument P fragments' with _ | doc'
  · simp [hdoc'] at hb'
  simp only [hdoc, hdoc', Option.some.injEq] at hb hb'
  subst hb hb'
  obtain ⟨placed, hpl⟩ := Placed.exists fragments ⟨0, 0⟩
  obtain ⟨placed', hpl'⟩ := Placed.exists fragments' ⟨0, 0⟩
  have glyphs : ∀ {d : Document} {fuel : Nat} {schedule : Oracle} {fragments : List Fragment} {placed : List (Fragment × Vec2 Rat)},
      layoutDocument E font d fuel schedule ⟨600, 800⟩ = some fragments → Placed ⟨0, 0⟩ fragments placed →
      ∀ e ∈ placed, ∀ style rect segment, e.1 = .text style rect segment → ∀ g ∈ segment.glyphs, g < 65536 := by
    intro d fuel schedule fragments placed hl hpl e he style rect segment hs g hgm
    unfold layoutDocument at hl
    split at hl
    · cases hl
    · obtain ⟨hm, -⟩ := layoutRoot_shown hl
      obtain ⟨c, hcg⟩ := made_glyphs hpl hm e he style rect segment hs g hgm
      exact hg c g hcg
  obtain ⟨common, rest, rest', text, gl, e1, e2, e3, e4, e5, e6⟩ := C94_anywhere_partial E font d d' F F' rootStyle tree tree' hidden hidden' before h h'
    hst hf hf' hn hn' ha hlay hlay' P.ascender hpl hpl'
  refine ⟨_, _, common, rest, rest', text, gl, e1, e2, e3, e4, e5, e6, ?_⟩
  intro r hr
  rcases List.mem_cons.1 hr with rfl | hr
  · exact C46_page P hd hfl hv hpl (glyphs hlay hpl) hdoc hs
  · rcases List.mem_cons.1 hr with rfl | hr
    · exact C46_page P hd hfl hv hpl' (glyphs hlay' hpl') hdoc' hs'
    · cases hr

end

/-! ### Examples -/

/-- `<html><head></head><div><p>a</p>…</div></html>` with this text. -/
def wordsDocument (text : String) : Document :=
  { Document.new with nodes :=
    [ Node.new .document,
      ⟨none, none, none, some 2, some 2, .document⟩,
      exampleElement "html" (some 1) none none (some 3) (some 4),
      exampleElement "head" (some 2) (some 4) none none none,
      exampleElement "div" (some 2) none (some 3) (some 5) (some 7),
      exampleElement "p" (some 4) (some 7) none (some 6) (some 6),
      ⟨some 5, none, none, none, none, .text "a"⟩,
      ⟨some 4, none, some 5, none, none, .text text⟩ ] }

/-- The contents of `wordsDocument`. -/
def wordsTree (text : String) : List StyledNode :=
  let html := exampleRootStyle exampleDocument2
  let div := documentStyle exampleDocument2 4 (some html)
  [.element (documentStyle exampleDocument2 3 (some html)) [],
    .element div [.element (documentStyle exampleDocument2 5 (some div)) [.text (codes "a")], .text (codes text)]]

/-- The hypotheses of C94 are met by `…b cd` and `…b ce f`: they differ within a word. The letters `a` and `b` stay where they are. -/
theorem wordsDocument_before : ∃ root tree tree',
    Denotes exampleEngine (wordsDocument "b cd") (forestOf exampleChildren2) root tree [3] ∧
    Denotes exampleEngine (wordsDocument "b ce f") (forestOf exampleChildren2) root tree' [3] ∧
    InFlowStyle root ∧ nodesAll (fun s _ => InFlowStyle s) tree ∧ nodesAll (fun s _ => InFlowStyle s) tree' ∧
    nodesAll (fun s _ => NotByHeight s) tree ∧ nodesAll (fun s _ => NotByHeight s) tree' ∧ SameUntil tree tree' (codes "ab c") ∧
    inked (beforeLastWord (codes "ab c")) = codes "ab" ∧
    (∀ text ∈ ["b cd", "b ce f"], ((layoutDocument exampleEngine exampleFont (wordsDocument text) 9 inOrder ⟨600, 800⟩).map fun fs =>
      (textOf (.ofGlyphs exampleFont) 1 ⟨0, 0⟩ fs).flatMap Shape.ids) = some (codes ("a" ++ text))) := by
  have den : ∀ text ∈ ["b cd", "b ce f"], Denotes exampleEngine (wordsDocument text) (forestOf exampleChildren2) (exampleRootStyle exampleDocument2)
      (wordsTree text) [3] := by
    intro text ht
    have hcheck : treeCheck (wordsDocument text) exampleChildren2 = true := by
      simp only [List.mem_cons, List.not_mem_nil, or_false] at ht
      rcases ht with rfl | rfl <;> decide +kernel
    refine ⟨represents_of_check hcheck, acyclic_of_check hcheck, ⟨[]⟩, 2, exampleEngine_sheets rfl, rfl, rfl, by decide +kernel, ?_⟩
    exact .none (n := 3) (hidden := []) rfl rfl rfl (by decide +kernel)
      (.element (belowHidden := []) (hidden := []) (n := 4) rfl rfl rfl (by decide +kernel)
        (.element (belowHidden := []) (n := 5) rfl rfl rfl (by decide +kernel) (.text (n := 6) rfl rfl .nil)
          (.text (n := 7) rfl rfl .nil)) .nil)
  have flow : ∀ text, nodesAll (fun s _ => InFlowStyle s) (wordsTree text) := fun text =>
    ⟨.inl (by decide +kernel), .inr ⟨⟨by decide +kernel, by decide +kernel⟩, .inr ⟨⟨by decide +kernel, by decide +kernel⟩, trivial, trivial⟩, trivial, trivial⟩, trivial⟩
  have height : ∀ text, nodesAll (fun s _ => NotByHeight s) (wordsTree text) := fun text =>
    ⟨.inl (by decide +kernel), .inr ⟨fun _ => .inl (by decide +kernel), .inr ⟨fun _ => .inl (by decide +kernel), trivial, trivial⟩, trivial, trivial⟩, trivial⟩
  refine ⟨_, _, _, den _ (by simp), den _ (by simp), ⟨by decide +kernel, by decide +kernel⟩, flow _, flow _, height _, height _, ?_, by decide +kernel, ?_⟩
  · exact SameUntil.inside (pre := [_]) (a := []) (b := []) (before := codes "ab c") (by decide +kernel)
      (SameUntil.text (pre := [_]) (t := codes "b c") (u := codes "d") (u' := codes "e f") (a := []) (b := []))
  · intro text ht
    have hp : parseStylesheets exampleEngine (wordsDocument text) = some ⟨[]⟩ := exampleEngine_sheets rfl
    simp only [layoutDocument, constructDocument, hp]
    simp only [List.mem_cons, List.not_mem_nil, or_false] at ht
    rcases ht with rfl | rfl <;> decide +kernel

/-- `<div style="width: 50px">` -/
def narrowStyle : ComputedValues := styleWith (.generatingBox .block .flow) (·.set .width (LengthOrPercentageOrAuto.length 50))

/-- The last word has to be left out: it goes to the next line if it becomes longer. -/
theorem last_word_moves :
    inkOfTree [.element narrowStyle [.text (codes "a b")]] = some [.glyphs [97, 32, 98] 16 ⟨0, 16⟩ ⟨0, 0, 0, 255⟩] ∧
    inkOfTree [.element narrowStyle [.text (codes "a bc")]] =
      some [.glyphs [97] 16 ⟨0, 16⟩ ⟨0, 0, 0, 255⟩, .glyphs [98, 99] 16 ⟨0, 176 / 5⟩ ⟨0, 0, 0, 255⟩] := by
  constructor <;> decide +kernel

end Verif.Layout
