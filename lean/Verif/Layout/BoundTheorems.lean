/- C89: what is in a box is inside of it. -/
import Verif.Layout.BoundLemmas
import Verif.Layout.ReadTheorems
namespace Verif.Layout
open Verif.Style Verif.Style.Spec Verif.Text Verif.Pdf Verif.Dom

/-! ### The file -/

/-- What is painted, as a shape. -/
def markShape (ascender : Rat) : PageText ⊕ Extent × RGBA → Shape
  | .inl t => .glyphs t.glyphs (fontSizeOf t.style) ⟨t.left, t.top + ascender * fontSizeOf t.style⟩ (t.style.values .color)
  | .inr (e, color) => .rect ⟨e.left, e.top⟩ ⟨e.width, e.height⟩ color

theorem Placed.marks {ascender : Rat} {origin : Vec2 Rat} {fs : List Fragment} {placed : List (Fragment × Vec2 Rat)} (h : Placed origin fs placed) :
    shapesOf ascender placed = (itemMarks (itemsAt origin fs)).map (markShape ascender) := by
  induction h with
  | nil => rfl
  | @cons origin f fs below rest h1 h2 ih1 ih2 =>
    unfold shapesOf at ih1 ih2 ⊢
    rw [List.cons_append, List.flatMap_cons, List.flatMap_append, ih1, ih2, itemsAt, itemMarks, List.map_append, ← List.append_assoc]
    congr 1
    cases f with
    | box info children =>
      rw [Fragment.item, PageItem.marks, List.map_append]
      congr 1
      simp only [Fragment.shape]
      split <;> rfl
    | anonymous rect children mode => rfl
    | text style rect segment => rfl

theorem allMatch_map {A B C : Type} {r : A → B → Prop} {q : A → C → Prop} {g : C → B} (h : ∀ a c, r a (g c) → q a c) :
    ∀ (as : List A) (cs : List C), AllMatch r as (cs.map g) → AllMatch q as cs
  | [], [], _ => trivial
  | [], _ :: _, k => k.elim
  | _ :: _, [], k => k.elim
  | _ :: as, _ :: cs, k => ⟨h _ _ k.1, allMatch_map h as cs k.2⟩

theorem markSeen {R Er : Type} (P : Painter R Er) {name : Nat → List Byte → Prop} (p : Painted R) (m : PageText ⊕ Extent × RGBA)
    (h : Verif.Pdf.Matches P.floats name p ((markShape P.ascender m).expected P)) : MarkSeen P p m := by
  rcases m with t | ⟨e, color⟩
  · cases p with
    | fill cm path rgb alpha => exact h.elim
    | «show» cm font size matrix s rgb alpha =>
      obtain ⟨e1, -, e3, e4, e5, -⟩ := h
      exact ⟨e1, e3, e5, e4⟩
  · cases p with
    | fill cm path rgb alpha => exact h
    | «show» cm font size matrix s rgb alpha => exact h.elim

theorem PlainUpright.anonymous {s : ComputedValues} (h : PlainUpright s) : PlainUpright (ComputedValues.anonymousInheritingFrom (some s)) :=
  ⟨h.1.anonymous, .inl rfl⟩

/-- The outermost box is that of the root element. -/
theorem layoutRoot_root {Err : Type} {F : FontApi Rat Err} {fuel : Nat} {s : Oracle} {style : ComputedValues} {floats : Bool}
    {contents : BlockContainer} {root : BlockFormattingContext} {viewport : Vec2 Rat} {fragments : List Fragment}
    (hc : root.contents = .blockLevelBoxes [.independent style floats contents]) (hno : root.contents.Only NoAbsolutes)
    (h : layoutRoot F fuel s root viewport = some fragments) :
    ∃ info children, info.style = style ∧ fragments = [.box info children] := by
  simp only [layoutRoot, BlockFormattingContext.layout] at h
  rw [(layout_prepend F fuel).1 (s.sub 0), prepend_nil] at h
  rcases h1 : layoutContainer F fuel inOrder root.contents
    ⟨viewport.inline, .length viewport.block, (.horizontalTb, .ltr)⟩ 0 [] false false with _ | ⟨fc, as⟩
  · simp [h1, mapFst] at h
  · simp only [h1, mapFst] at h
    obtain ⟨extra, c⟩ := (layout_collect (F := F) (fun _ => ([] : List Unit)) fuel).1 _ _ _ _ _ _ h1
    obtain ⟨rfl, -⟩ := c.order hno
    simp only [layoutAll, List.append_nil, Option.some.injEq] at h
    subst h
    show ∃ info children, info.style = style ∧ fc.fragments = [.box info children]
    rw [hc] at h1
    cases fuel with
    | zero => simp [layoutContainer] at h1
    | succ fuel =>
      simp only [layoutContainer] at h1
      rw [layoutChildren_eq (g := fun rank b => layoutBox F fuel inOrder b _ rank [] false)
            (fun rank b absolute => (layout_prepend F fuel).2.1 _ b _ rank absolute false), prepend_nil] at h1
      obtain ⟨fs, as', st, hseq, hplace, -, -, -⟩ := canonicalChildren_some h1
      have hst := seqChildren_forall₂ (P := fun b f => b = .independent style floats contents → ∃ info children, info.style = style ∧ f = .box info children)
        (fun rank b f as hb e => by
          subst e
          cases fuel with
          | zero => simp [layoutBox] at hb
          | succ fuel =>
            simp only [layoutBox] at hb
            obtain ⟨_, _, info, children, _, he, hs, _⟩ := layoutInFlow_some hb
            exact ⟨info, children, hs, he⟩)
        _ _ _ _ hseq
      cases hst with
      | cons hf hrest =>
        cases hrest
        obtain ⟨info, children, hs, rfl⟩ := hf rfl
        simp only [placeAll] at hplace
        rcases hp : placeFragment (.initial false) (.box info children) with _ | ⟨f1, s1⟩
        · simp [hp] at hplace
        · simp only [hp, Option.some.injEq, Prod.mk.injEq] at hplace
          rw [← hplace.1]
          simp only [placeFragment, PlacementState.initial, Bool.false_eq_true, if_false] at hp
          split at hp <;> cases hp <;> exact ⟨_, _, by exact hs, rfl⟩

section
variable {R Err Er σ : Type} (P : Painter R Er) (E : Engine σ) (font : FontApi Rat Err) (d : Document)

/-- What C89 says, of the only fragment that layout gives. -/
theorem layoutDocument_inside {readReal : List Byte → Option R} (hd : RealText P.floats.dtoa readReal) (hl : FloatLaws P.floats)
    (hv : P.fontView.Valid) (hg : ∀ c g, font.glyphId c = .ok g → g < 65536) (hF : Forward font) (F : Forest) (hr : Represents d F)
    (ha : F.Acyclic) (hn : DocumentNodeIsRoot d) (hi : d.styleElements = d.idsWith NodeData.isStyle)
    (ua author : List (σ × List (Declaration × Bool))) (rootStyle : ComputedValues) (displayed : List (ComputedValues × Nat))
    (h : DocumentLooks E d F ua author (fun _ s => InPlainFlow s) rootStyle displayed)
    (hroot : floatOf rootStyle = .none ∧ Upright rootStyle ∧ PlainLeft rootStyle)
    {fuel : Nat} {schedule : Oracle} {bytes : List Byte} (hb : toPdfBytes P E font d fuel schedule = some bytes)
    (hs : bytes.length ≤ 2 ^ 32) :
    ∃ m file page painted fragment border content inner text,
      layoutDocument E font d fuel schedule ⟨600, 800⟩ = some [fragment] ∧
      fragment.item ⟨0, 0⟩ = .box rootStyle border content inner ∧ (∀ fuel, m ≤ fuel → readDocument readReal fuel bytes = some file) ∧ file.pages = [page] ∧
      page.mediaBox = [.int 0, .int 0, .real (P.floats.mul (P.round 600) P.floats.scaleX), .real (P.floats.mul (P.round 800) P.floats.scaleY)] ∧
      (∃ m, ∀ fuel, m ≤ fuel →
        paintContents readReal P.floats.zero P.floats.one (gsAlpha file.extGState) fuel page.contents = some painted) ∧
      AllMatch (MarkSeen P) painted (PageItem.box rootStyle border content inner).marks ∧
      (PageItem.box rootStyle border content inner).Holds false ∧
      (∀ e ∈ (PageItem.box rootStyle border content inner).extents, 0 ≤ e.left ∧ (e.height = 0 ∨ 0 ≤ e.top)) ∧
      Shown font text ((itemTexts inner).flatMap fun t => t.glyphs.map fun g => (t.style, g)) ∧
      inked (text.map Prod.snd) = inked (displayed.map Prod.snd) := by
  unfold toPdfBytes at hb
  rcases hlay : layoutDocument E font d fuel schedule ⟨600, 800⟩ with _ | fragments
  · simp [hlay] at hb
  simp only [hlay] at hb
  rcases hdoc : paintDocument P fragments with _ | doc
  · simp [hdoc] at hb
  simp only [hdoc, Option.some.injEq] at hb
  subst hb
  unfold layoutDocument at hlay
  rcases hc : constructDocument E d fuel with _ | root
  · simp [hc] at hlay
  simp only [hc] at hlay
  obtain ⟨hm, runs, hshown, hperm, hord⟩ := layoutRoot_shown hlay
  obtain ⟨tree, hidden, hden, htext, hall, -⟩ := h.denotes hr ha hn hi hc
  obtain ⟨hroot', -⟩ := constructDocument_sound hden hc
  have hflows := hall InPlainFlow fun _ _ h => h
  have hkeep := C42_document_order E d F rootStyle tree hidden hden fuel root hc
  have hnofloat : root.contents.Only NoFloats := by
    refine constructRoot_only ⟨fun _ => by simp, fun hf => absurd hroot.1 hf⟩ ?_ hroot'
    exact nodesAll_mono (fun s _ hs => hs.elim (fun hs => .inr ⟨fun _ => by simp, fun hf => absurd hs.1 hf⟩) fun hs => .inl hs.1) tree hflows
  have habs : root.contents.Only NoAbsolutes := by
    refine constructRoot_only ⟨fun h => absurd h (by rw [hroot.2.1.position]; simp), fun _ => by simp⟩ ?_ hroot'
    exact nodesAll_mono (fun s _ hs => hs.elim
      (fun hs => .inr ⟨fun h => absurd h (by rw [hs.2.1.position]; simp), fun _ => by simp⟩) fun hs => .inl hs.1) tree hflows
  have hflat := BlockContainer.runs_flatten root.contents hnofloat
  have hevery : root.contents.Every PlainUpright SizeOk := by
    refine constructRoot_every (fun _ => PlainUpright.anonymous) hroot.2 hroot.2.1.fontSize ?_ hroot'
    exact nodesAll_mono (fun s _ hs => hs.elim (fun hs => ⟨hs.2.1.fontSize, fun _ => hs.2⟩) fun hs => ⟨hs.2, fun h => absurd hs.1 h⟩) tree hflows
  obtain ⟨hbound, hpage⟩ := layoutRoot_bound hF hevery habs hlay
  obtain ⟨placed, hp⟩ := Placed.exists fragments ⟨0, 0⟩
  obtain ⟨m, file, page, painted, h1, h2, hmedia, h3, h4⟩ := C46_page P hd hl hv hp
    (fun e he style rect segment hs g hgm => by
      obtain ⟨c, hcg⟩ := made_glyphs hp hm e he style rect segment hs g hgm
      exact hg c g hcg) hdoc hs
  have hdisp : displayOf rootStyle ≠ .none := by
    obtain ⟨_, _, _, _, _, _, _, _, h5, _⟩ := h.root
    exact h5
  obtain ⟨floats, contents, hcon⟩ : ∃ floats contents, root.contents = .blockLevelBoxes [.independent rootStyle floats contents] := by
    have k := hroot'
    unfold constructRoot at k
    have hp : (positionOf rootStyle).isAbsolutelyPositioned = false := by rw [hroot.2.1.position]; rfl
    have hf : (floatOf rootStyle).isFloating = false := by rw [hroot.1]; rfl
    simp only [hp, hf, Bool.false_eq_true, if_false] at k
    split at k
    · rename_i hnone
      exact absurd hnone hdisp
    · rcases hcc : constructContainer rootStyle tree with _ | ⟨c, fl⟩
      · simp [hcc] at k
      · simp only [hcc, Option.some.injEq] at k
        exact ⟨fl, c, by rw [← k]⟩
    · rcases hcc : constructContainer rootStyle tree with _ | ⟨c, fl⟩
      · simp [hcc] at k
      · simp only [hcc, Option.some.injEq] at k
        exact ⟨fl, c, by rw [← k]⟩
  obtain ⟨info, children, hstyle, rfl⟩ := layoutRoot_root hcon habs hlay
  have hitem : (Fragment.box info children).item ⟨0, 0⟩ = .box rootStyle (info.borderAt ⟨0, 0⟩) (info.contentAt ⟨0, 0⟩)
      (itemsAt info.contentRect.startCorner children) := by rw [Fragment.item, Vec2.zero_add', hstyle]
  refine ⟨m, file, page, painted, .box info children, info.borderAt ⟨0, 0⟩, info.contentAt ⟨0, 0⟩, itemsAt info.contentRect.startCorner children,
    runs.flatten, rfl, hitem, h1, h2, hmedia, h3, ?_, ?_, ?_, ?_, ?_⟩
  · rw [← hitem]
    rw [hp.marks, itemsAt, itemsAt, itemMarks, itemMarks, List.append_nil] at h4
    exact allMatch_map (g := markShape P.ascender) (fun p c => markSeen P p c) _ _ h4
  · rw [← hitem]
    exact Fragment.Bound.holds _ _ hbound.1
  · rw [← hitem, Fragment.item_extents]
    simpa [extentsOf] using hpage
  · rw [itemsAt_texts, pageTexts_glyphs]
    simpa [fragmentsGlyphs, Fragment.glyphs] using hshown
  · rw [hord habs, hflat, ← htext, styledTexts_snd]
    exact hkeep

/-- **C89**: whenever a PDF file is made of a document of which all elements that are displayed flow, without anything that makes them
overlap, and are not centred, a reader finds one page in it with texts and with the backgrounds of boxes, which are nested: what is in a
box, at any depth, does not stick out of it at the top, at the bottom or at the left, and the text in a box that is on a line does not
stick out of it at the right either. A background covers all of its box and is painted before what is in the box. Nothing is above the
top of the page or at the left of it, and all that is on it is in the box of the root element. The text on the page is that of the document,
in document order, but for white space. The page is 600 by 800 pixels, in units of PDF.
Missing: centred boxes (`C89_centred_violated`). -/
theorem C89_inside_partial {readReal : List Byte → Option R} (hd : RealText P.floats.dtoa readReal) (hl : FloatLaws P.floats)
    (hv : P.fontView.Valid) (hg : ∀ c g, font.glyphId c = .ok g → g < 65536) (hF : Forward font) (F : Forest) (hr : Represents d F)
    (ha : F.Acyclic) (hn : DocumentNodeIsRoot d) (hi : d.styleElements = d.idsWith NodeData.isStyle)
    (ua author : List (σ × List (Declaration × Bool))) (rootStyle : ComputedValues) (displayed : List (ComputedValues × Nat))
    (h : DocumentLooks E d F ua author (fun _ s => InPlainFlow s) rootStyle displayed)
    (hroot : floatOf rootStyle = .none ∧ Upright rootStyle ∧ PlainLeft rootStyle)
    {fuel : Nat} {schedule : Oracle} {bytes : List Byte} (hb : toPdfBytes P E font d fuel schedule = some bytes)
    (hs : bytes.length ≤ 2 ^ 32) :
    ∃ m file page painted border content inner text, (∀ fuel, m ≤ fuel → readDocument readReal fuel bytes = some file) ∧ file.pages = [page] ∧
      page.mediaBox = [.int 0, .int 0, .real (P.floats.mul (P.round 600) P.floats.scaleX), .real (P.floats.mul (P.round 800) P.floats.scaleY)] ∧
      (∃ m, ∀ fuel, m ≤ fuel →
        paintContents readReal P.floats.zero P.floats.one (gsAlpha file.extGState) fuel page.contents = some painted) ∧
      AllMatch (MarkSeen P) painted (PageItem.box rootStyle border content inner).marks ∧
      (PageItem.box rootStyle border content inner).Holds false ∧
      (∀ e ∈ (PageItem.box rootStyle border content inner).extents, 0 ≤ e.left ∧ (e.height = 0 ∨ 0 ≤ e.top)) ∧
      Shown font text ((itemTexts inner).flatMap fun t => t.glyphs.map fun g => (t.style, g)) ∧
      inked (text.map Prod.snd) = inked (displayed.map Prod.snd) := by
  obtain ⟨m, file, page, painted, -, border, content, inner, text, -, -, h⟩ :=
    layoutDocument_inside P E font d hd hl hv hg hF F hr ha hn hi ua author rootStyle displayed h hroot hb hs
  exact ⟨m, file, page, painted, border, content, inner, text, h⟩

end

/-! ### Examples -/

/-- The hypotheses of C89 about the document are met by `lookDocument`, of which the text is `ab`. -/
theorem lookDocument_inside : (∃ ua author text, DocumentLooks lookEngine lookDocument (forestOf lookChildren) ua author
      (fun _ s => InPlainFlow s) (lookStyle 2 none) text ∧ inked (text.map Prod.snd) = [97, 98]) ∧
    floatOf (lookStyle 2 none) = .none ∧ Upright (lookStyle 2 none) ∧ PlainLeft (lookStyle 2 none) := by
  refine ⟨?_, by decide +kernel, upright_of (by decide +kernel), .inl (by decide +kernel)⟩
  obtain ⟨ua, author, h⟩ := lookDocument_rules
  refine ⟨ua, author, _, C80_exists ?_ ?_ h lookDocument_denotes _ ?_, by decide +kernel⟩
  · exact ⟨_, rfl, rfl, rfl⟩
  · decide +kernel
  · exact ⟨.inl (by decide +kernel), .inr ⟨.inl ⟨by decide +kernel, upright_of (by decide +kernel), .inl (by decide +kernel)⟩, trivial,
      .inr ⟨.inl ⟨by decide +kernel, upright_of (by decide +kernel), .inl (by decide +kernel)⟩, trivial, trivial⟩, trivial⟩, trivial⟩

/-- A block that is 800 pixels wide, with margins that are `auto`, and text in it. -/
def centredRoot : BlockFormattingContext :=
  ⟨.blockLevelBoxes [.sameFormattingContextBlock (exampleStyle2 .auto .auto (.length 800) 0)
    (.inlineFormattingContext [.textRun plainStyle (codes "a")])], false⟩

/-- **C89 is violated** by centred boxes that are wider than what they are in: such a box and its text begin 100 pixels at the left of a
page of 600 pixels. CSS says that margins that are `auto` are zero then (CSS 2, section 10.3.3). -/
theorem C89_centred_violated :
    Upright (exampleStyle2 .auto .auto (.length 800) 0) ∧ floatOf (exampleStyle2 .auto .auto (.length 800) 0) = .none ∧
    (layoutRoot exampleFont 10 inOrder centredRoot ⟨600, 800⟩).map (fun fs => (pageTextsOf ⟨0, 0⟩ fs).map fun t => (t.glyphs, t.left)) =
      some [([97], -100)] := by
  refine ⟨upright_of (by decide +kernel), by decide +kernel, by decide +kernel⟩

end Verif.Layout
