/- C106: margins collapse where CSS says, and nowhere else. -/
import Verif.Layout.CollapseOutline
import Verif.Layout.BoundTheorems
import Verif.Layout.WrapTheorems
namespace Verif.Layout
open Verif.Style Verif.Style.Spec Verif.Text Verif.Pdf Verif.Dom
variable {Err : Type}

/-- The only box is where CSS has it, and all boxes in it. -/
theorem LaysC.settled_root {F : FontApi Rat Err} {cb : ContainingBlock} {b : BlockLevelBox} {fc : FlowChildren}
    (h : LaysC F cb false (.blockLevelBoxes [b]) fc) (hk : b.Kinded true) (hw : itemsWritten (itemsAt ⟨0, 0⟩ fc.fragments))
    (hn : itemsNotFlat cb (itemsAt ⟨0, 0⟩ fc.fragments)) : ∀ i ∈ itemsAt ⟨0, 0⟩ fc.fragments, i.Settled true cb 0 [] := by
  have hw := itemsAt_written _ _ Vec2.zero hw
  have hn := itemsAt_notFlat _ _ _ Vec2.zero hn
  cases h with
  | boxes hl hp =>
    cases hl with
    | cons h1 h2 =>
      cases h2
      obtain ⟨hs, -⟩ := placeAll_stacked (root := true) (cb := cb) (coll := false) _ _ _ _ (.run [])
        (fun f hf hw hn => by rw [List.mem_singleton.1 hf] at hw hn ⊢; exact h1.known true hk hw hn) hw hn
        ⟨rfl, rfl, CollapsedMargin.of_zero, CollapsedMargin.of_zero⟩ hp
      cases hs with
      | @cons _ info children d _ _ hb hd hrest =>
        cases hrest
        intro i hi
        simp only [itemsAt, List.mem_singleton] at hi hw hn
        subst hi
        have hw1 := hw.1
        have hn1 := hn.1
        rw [item_moveBlock] at hw1 hn1 ⊢
        refine h1.settled true hk (Fragment.item_written _ _ _ hw1) (Fragment.item_notFlat _ _ _ _ hn1) 0 [] _ (fun hne => ?_)
        obtain ⟨c, t, hst⟩ := Norm.exists_solid hne
        rw [show ((⟨0, 0⟩ : Vec2 Rat).add ⟨0, d⟩).block = d from zero_add d, hd _ _ _ hst]
        simp [placeDown, norm, Norm.then, Norm.total]

section
variable {R Er σ : Type} (P : Painter R Er) (E : Engine σ) (font : FontApi Rat Err) (d : Document)

/-- **C106** for layout: the boxes on the page are those of the blocks of the document, in document order and nested like them. Their
margins collapse where CSS says (CSS 2, section 8.3.1) and nowhere else: each block is as far down as what is above it reaches, where
margins take up what is said by `collapsedSize` if there is nothing between them, and reaches as far down as what is in it. Missing:
absolutely positioned elements (see `C106_asides_partial`), floats and lines without text (`C106_line_violated`), and blocks without contents of which the height is
set to zero (`C106_height_violated`). -/
theorem C106_margins_partial (F : Forest) (rootStyle : ComputedValues) (tree : List StyledNode) (hidden : List Nat)
    (h : Denotes E d F rootStyle tree hidden) (hp : positionOf rootStyle ≠ .absolute) (hf : floatOf rootStyle = .none)
    (ha : nodesAll (fun s _ => displayOf s = .contents ∨ positionOf s ≠ .absolute) tree)
    {fuel : Nat} {schedule : Oracle} {viewport : Vec2 Rat} {fragments : List Fragment}
    (hl : layoutDocument E font d fuel schedule viewport = some fragments) :
    Drawn (itemsAt ⟨0, 0⟩ fragments) [.block rootStyle (nodesOutline tree)] ∧
    (itemsWritten (itemsAt ⟨0, 0⟩ fragments) →
      itemsNotFlat ⟨viewport.inline, .length viewport.block, (.horizontalTb, .ltr)⟩ (itemsAt ⟨0, 0⟩ fragments) →
      ∀ i ∈ itemsAt ⟨0, 0⟩ fragments, i.Settled true ⟨viewport.inline, .length viewport.block, (.horizontalTb, .ltr)⟩ 0 []) := by
  unfold layoutDocument at hl
  rcases hc : constructDocument E d fuel with _ | root
  · simp [hc] at hl
  simp only [hc] at hl
  obtain ⟨h1, -⟩ := constructDocument_sound h hc
  have hno : root.contents.Only NoAbsolutes := by
    refine constructRoot_only ⟨fun k => absurd k hp, fun _ => by simp⟩ ?_ h1
    exact nodesAll_mono (fun s _ hs => hs.elim .inl fun hs => .inr ⟨fun k => absurd k hs, fun _ => by simp⟩) tree ha
  obtain ⟨fc, hlays, rfl⟩ := layoutRoot_lays hno hl
  have hdisp : displayOf rootStyle ≠ .none := by
    obtain ⟨_, _, _, _, _, h5, _⟩ := h.styled
    exact h5
  obtain ⟨bs, hbs, hout⟩ := constructRoot_outlined hdisp hp hf h1
  rw [hbs] at hlays
  refine ⟨hlays.drawn hout _, fun hw hn => ?_⟩
  rcases constructRoot_kinded h1 with hk | ⟨b, hb, hk⟩
  · rw [hbs] at hk
    cases hk
    cases hout
  · rw [hbs] at hb
    cases hb
    exact hlays.settled_root hk hw hn

/-- **C106** for the file: a reader finds one page in it with texts and backgrounds, which are those of boxes of which C106 is true. -/
theorem C106_pages_partial {readReal : List Byte → Option R} (hd : RealText P.floats.dtoa readReal) (hfl : FloatLaws P.floats)
    (hv : P.fontView.Valid) (hg : ∀ c g, font.glyphId c = .ok g → g < 65536) (F : Forest) (rootStyle : ComputedValues)
    (tree : List StyledNode) (hidden : List Nat)
    (h : Denotes E d F rootStyle tree hidden) (hp : positionOf rootStyle ≠ .absolute) (hf : floatOf rootStyle = .none)
    (ha : nodesAll (fun s _ => displayOf s = .contents ∨ positionOf s ≠ .absolute) tree)
    {fuel : Nat} {schedule : Oracle} {bytes : List Byte} (hb : toPdfBytes P E font d fuel schedule = some bytes) (hs : bytes.length ≤ 2 ^ 32) :
    ∃ m file page painted, ∃ items : List PageItem, (∀ fuel, m ≤ fuel → readDocument readReal fuel bytes = some file) ∧ file.pages = [page] ∧
      page.mediaBox = [.int 0, .int 0, .real (P.floats.mul (P.round 600) P.floats.scaleX), .real (P.floats.mul (P.round 800) P.floats.scaleY)] ∧
      (∃ m, ∀ fuel, m ≤ fuel →
        paintContents readReal P.floats.zero P.floats.one (gsAlpha file.extGState) fuel page.contents = some painted) ∧
      AllMatch (MarkSeen P) painted (itemMarks items) ∧
      Drawn items [.block rootStyle (nodesOutline tree)] ∧
      (itemsWritten items → itemsNotFlat ⟨600, .length 800, (.horizontalTb, .ltr)⟩ items →
        ∀ i ∈ items, i.Settled true ⟨600, .length 800, (.horizontalTb, .ltr)⟩ 0 []) := by
  unfold toPdfBytes at hb
  rcases hlay : layoutDocument E font d fuel schedule ⟨600, 800⟩ with _ | fragments
  · simp [hlay] at hb
  simp only [hlay] at hb
  rcases hdoc : paintDocument P fragments with _ | doc
  · simp [hdoc] at hb
  simp only [hdoc, Option.some.injEq] at hb
  subst hb
  obtain ⟨hdr, hset⟩ := C106_margins_partial E font d F rootStyle tree hidden h hp hf ha hlay
  obtain ⟨placed, hpl⟩ := Placed.exists fragments ⟨0, 0⟩
  unfold layoutDocument at hlay
  rcases hc : constructDocument E d fuel with _ | root
  · simp [hc] at hlay
  simp only [hc] at hlay
  obtain ⟨hm, -⟩ := layoutRoot_shown hlay
  obtain ⟨m, file, page, painted, h1, h2, hmedia, h3, h4⟩ := C46_page P hd hfl hv hpl
    (fun e he style rect segment hs g hgm => by
      obtain ⟨c, hcg⟩ := made_glyphs hpl hm e he style rect segment hs g hgm
      exact hg c g hcg) hdoc hs
  refine ⟨m, file, page, painted, itemsAt ⟨0, 0⟩ fragments, h1, h2, hmedia, h3, ?_, hdr, hset⟩
  rw [hpl.marks] at h4
  exact allMatch_map (g := markShape P.ascender) (fun p c => markSeen P p c) _ _ h4

end

/-! ### Examples -/

mutual
/-- Whether it is so can be computed. -/
def PageItem.decideWritten : (i : PageItem) → Decidable i.Written
  | .text _ => .isTrue (by simp [PageItem.Written])
  | .line items => decidable_of_iff (¬ (itemTexts items).isEmpty = true) (by simp [PageItem.Written])
  | .box _ _ _ items => @decidable_of_iff _ (itemsWritten items) (by simp [PageItem.Written]) (decideItemsWritten items)
/-- See `PageItem.decideWritten`. -/
def decideItemsWritten : (is : List PageItem) → Decidable (itemsWritten is)
  | [] => .isTrue (by simp [itemsWritten])
  | i :: is => @decidable_of_iff _ (i.Written ∧ itemsWritten is) (by simp [itemsWritten])
    (@instDecidableAnd _ _ i.decideWritten (decideItemsWritten is))
end
instance (is : List PageItem) : Decidable (itemsWritten is) := decideItemsWritten is

mutual
/-- Whether it is so can be computed. -/
def PageItem.decideNotFlat (cb : ContainingBlock) : (i : PageItem) → Decidable (i.NotFlat cb)
  | .text _ => .isTrue (by simp [PageItem.NotFlat])
  | .line _ => .isTrue (by simp [PageItem.NotFlat])
  | .box style _ _ items => @decidable_of_iff _ ((Css.height cb style = .length 0 → ¬ items.isEmpty = true) ∧ itemsNotFlat (Css.inner cb style) items)
    (by simp [PageItem.NotFlat]) (@instDecidableAnd _ _ inferInstance (decideItemsNotFlat (Css.inner cb style) items))
/-- See `PageItem.decideNotFlat`. -/
def decideItemsNotFlat (cb : ContainingBlock) : (is : List PageItem) → Decidable (itemsNotFlat cb is)
  | [] => .isTrue (by simp [itemsNotFlat])
  | i :: is => @decidable_of_iff _ (i.NotFlat cb ∧ itemsNotFlat cb is) (by simp [itemsNotFlat])
    (@instDecidableAnd _ _ (i.decideNotFlat cb) (decideItemsNotFlat cb is))
end
instance (cb : ContainingBlock) (is : List PageItem) : Decidable (itemsNotFlat cb is) := decideItemsNotFlat cb is

mutual
/-- Whether it is so can be computed. -/
def PageItem.decideSettled (root : Bool) (cb : ContainingBlock) (origin : Rat) (before : List DownStep) :
    (i : PageItem) → Decidable (i.Settled root cb origin before)
  | .text _ => .isTrue (by simp [PageItem.Settled])
  | .line _ => .isTrue (by simp [PageItem.Settled])
  | .box style border content items => by
    have (o : Rat) (b : List DownStep) := decideItemsSettled (Css.inner cb style) o b items
    rw [PageItem.Settled]
    cases Css.height cb style <;> infer_instance
/-- See `PageItem.decideSettled`. -/
def decideItemsSettled (cb : ContainingBlock) (origin : Rat) (before : List DownStep) :
    (is : List PageItem) → Decidable (itemsSettled cb origin before is)
  | [] => .isTrue (by simp [itemsSettled])
  | i :: is => @decidable_of_iff _ (i.Settled false cb origin before ∧ itemsSettled cb origin (before ++ i.steps false cb) is) (by simp [itemsSettled])
    (@instDecidableAnd _ _ (i.decideSettled false cb origin before) (decideItemsSettled cb origin (before ++ i.steps false cb) is))
end
instance (root : Bool) (cb : ContainingBlock) (origin : Rat) (before : List DownStep) (i : PageItem) : Decidable (i.Settled root cb origin before) :=
  i.decideSettled root cb origin before

/-- A block with these margins. -/
def marginBlock (top bottom : Rat) : DeclarationBlock :=
  { declarations := [.value .display (.generatingBox .block .flow), .value .marginTop (.length (.absolute top)),
                     .value .marginBottom (.length (.absolute bottom))],
    important := [false, false, false], anyNormal := ⟨false, true⟩ }

/-- `div { margin: 20px 0 10px } p { margin: 30px 0 -5px } nav { margin: 40px 0 0 } menu { margin: 40px 0 0; height: 0 }` -/
def marginEngine : Engine String :=
  { exampleEngine with
    ua := ⟨[("html", displayBlock (.generatingBox .block .flow)),
            ("div", marginBlock 20 10), ("p", marginBlock 30 (-5)), ("nav", marginBlock 40 0),
            ("menu", { declarations := [.value .display (.generatingBox .block .flow), .value .marginTop (.length (.absolute 40)),
                                        .value .height (.length (.absolute 0))],
                       important := [false, false, false], anyNormal := ⟨false, true⟩ }),
            ("head", displayBlock .none)]⟩ }

/-- `<html><head></head><div><p>a</p><…></…><p>b</p></div></html>` with an element with this name, and an empty `span` in it or not. -/
def marginDocument (name : String) (span : Bool) : Document :=
  { Document.new with nodes :=
    [ Node.new .document,
      ⟨none, none, none, some 2, some 2, .document⟩,
      exampleElement "html" (some 1) none none (some 3) (some 4),
      exampleElement "head" (some 2) (some 4) none none none,
      exampleElement "div" (some 2) none (some 3) (some 5) (some 8),
      exampleElement "p" (some 4) (some 7) none (some 6) (some 6),
      ⟨some 5, none, none, none, none, .text "a"⟩,
      exampleElement name (some 4) (some 8) (some 5) (if span then some 10 else none) (if span then some 10 else none),
      exampleElement "p" (some 4) none (some 7) (some 9) (some 9),
      ⟨some 8, none, none, none, none, .text "b"⟩ ] ++
    if span then [exampleElement "span" (some 7) none none none none] else [] }

/-- The children of the nodes of `marginDocument`. -/
def marginChildren (span : Bool) : List (List Nat) :=
  [[], [2], [3, 4], [], [5, 7, 8], [6], [], if span then [10] else [], [9], []] ++ if span then [[]] else []

/-- The styles of the elements of `marginDocument`. -/
def marginNodeStyle (name : String) (n : Nat) (parent : Option ComputedValues) : ComputedValues :=
  (nodeStyle marginEngine ⟨[]⟩ (marginDocument name true) n parent).getD spanStyle

/-- The contents of `marginDocument`. -/
def marginTree (name : String) (span : Bool) : List StyledNode :=
  let html := marginNodeStyle name 2 none
  let div := marginNodeStyle name 4 (some html)
  [.element (marginNodeStyle name 3 (some html)) [],
    .element div [.element (marginNodeStyle name 5 (some div)) [.text (codes "a")],
      .element (marginNodeStyle name 7 (some div)) (if span then [.element (marginNodeStyle name 10 (some (marginNodeStyle name 7 (some div)))) []] else []),
      .element (marginNodeStyle name 8 (some div)) [.text (codes "b")]]]

theorem marginEngine_sheets {d : Document} (h : d.styleElements = []) : parseStylesheets marginEngine d = some ⟨[]⟩ := by
  simp [parseStylesheets, h, Document.stylesheetTexts, addStylesheets, StyleSet.finish]

/-- The tops of the texts on a page. -/
def textTops (fragments : List Fragment) : List (List Nat × Rat) := (itemTexts (itemsAt ⟨0, 0⟩ fragments)).map fun t => (t.glyphs, t.top)

theorem marginDocument_denotes (name : String) (hn : name = "nav" ∨ name = "menu") (span : Bool) :
    Denotes marginEngine (marginDocument name span) (forestOf (marginChildren span)) (marginNodeStyle name 2 none) (marginTree name span) [3] := by
  have hcheck : treeCheck (marginDocument name span) (marginChildren span) = true := by
    rcases hn with rfl | rfl <;> cases span <;> decide +kernel
  refine ⟨represents_of_check hcheck, acyclic_of_check hcheck, ⟨[]⟩, 2, marginEngine_sheets (by cases span <;> rfl), by cases span <;> rfl,
    by rcases hn with rfl | rfl <;> cases span <;> rfl, by rcases hn with rfl | rfl <;> decide +kernel, ?_⟩
  rcases hn with rfl | rfl <;> cases span
  all_goals
    refine .none (n := 3) (hidden := []) rfl rfl rfl (by decide +kernel)
      (.element (belowHidden := []) (hidden := []) (n := 4) rfl rfl rfl (by decide +kernel)
        (.element (belowHidden := []) (hidden := []) (n := 5) rfl rfl rfl (by decide +kernel) (.text (n := 6) rfl rfl .nil)
          (.element (belowHidden := []) (hidden := []) (n := 7) rfl rfl rfl (by decide +kernel) ?_
            (.element (belowHidden := []) (hidden := []) (n := 8) rfl rfl rfl (by decide +kernel) (.text (n := 9) rfl rfl .nil) .nil))) .nil)
    first
    | exact .nil
    | exact .element (belowHidden := []) (hidden := []) (n := 10) rfl rfl rfl (by decide +kernel) .nil .nil

/-- The hypotheses of C106 are met by a document with an empty block between two blocks: the second text is 35 pixels below the first one,
because 40 - 5 is what the margins between them, -5, 40, 0 and 30, collapse to, and the first text is 30 pixels below the top, because
that is what 20 and 30 collapse to. -/
theorem marginDocument_example :
    Denotes marginEngine (marginDocument "nav" false) (forestOf (marginChildren false)) (marginNodeStyle "nav" 2 none) (marginTree "nav" false) [3] ∧
    positionOf (marginNodeStyle "nav" 2 none) ≠ .absolute ∧ floatOf (marginNodeStyle "nav" 2 none) = .none ∧
    nodesAll (fun s _ => displayOf s = .contents ∨ positionOf s ≠ .absolute) (marginTree "nav" false) ∧
    (layoutDocument marginEngine exampleFont (marginDocument "nav" false) 9 inOrder ⟨600, 800⟩).map textTops =
      some [(codes "a", 30), (codes "b", 30 + 96 / 5 + 35)] ∧
    (layoutDocument marginEngine exampleFont (marginDocument "nav" false) 9 inOrder ⟨600, 800⟩).map (fun fs =>
      decide (itemsWritten (itemsAt ⟨0, 0⟩ fs)) && decide (itemsNotFlat ⟨600, .length 800, (.horizontalTb, .ltr)⟩ (itemsAt ⟨0, 0⟩ fs))) =
      some true := by
  have hp : parseStylesheets marginEngine (marginDocument "nav" false) = some ⟨[]⟩ := marginEngine_sheets rfl
  refine ⟨marginDocument_denotes _ (.inl rfl) _, by decide +kernel, by decide +kernel, ?_, ?_, ?_⟩
  · simp only [marginTree, nodesAll, StyledNode.All, if_false, Bool.false_eq_true]
    decide +kernel
  · simp only [layoutDocument, constructDocument, hp]
    decide +kernel
  · simp only [layoutDocument, constructDocument, hp]
    decide +kernel

/-- A block with `height: 0` and nothing in it is a part that keeps margins apart, though for CSS its margins collapse with each other and
with those around it: the second text is 30 pixels further down than with `height: auto`. -/
theorem C106_height_violated :
    Denotes marginEngine (marginDocument "menu" false) (forestOf (marginChildren false)) (marginNodeStyle "menu" 2 none) (marginTree "menu" false) [3] ∧
    (layoutDocument marginEngine exampleFont (marginDocument "menu" false) 9 inOrder ⟨600, 800⟩).map textTops =
      some [(codes "a", 30), (codes "b", 30 + 96 / 5 + 35 + 30)] ∧
    (layoutDocument marginEngine exampleFont (marginDocument "menu" false) 9 inOrder ⟨600, 800⟩).map (fun fs =>
      (itemsAt ⟨0, 0⟩ fs).all fun i => decide (i.Settled true ⟨600, .length 800, (.horizontalTb, .ltr)⟩ 0 [])) = some false := by
  have hp : parseStylesheets marginEngine (marginDocument "menu" false) = some ⟨[]⟩ := marginEngine_sheets rfl
  refine ⟨marginDocument_denotes _ (.inr rfl) _, ?_, ?_⟩
  · simp only [layoutDocument, constructDocument, hp]
    decide +kernel
  · simp only [layoutDocument, constructDocument, hp]
    decide +kernel

/-- So is a block with nothing in it but an inline element in which there is nothing: for CSS, there is no line in it (section 9.4.2). -/
theorem C106_line_violated :
    Denotes marginEngine (marginDocument "nav" true) (forestOf (marginChildren true)) (marginNodeStyle "nav" 2 none) (marginTree "nav" true) [3] ∧
    (layoutDocument marginEngine exampleFont (marginDocument "nav" true) 9 inOrder ⟨600, 800⟩).map textTops =
      some [(codes "a", 30), (codes "b", 30 + 96 / 5 + 35 + 30)] ∧
    (layoutDocument marginEngine exampleFont (marginDocument "nav" true) 9 inOrder ⟨600, 800⟩).map (fun fs =>
      (itemsAt ⟨0, 0⟩ fs).all fun i => decide (i.Settled true ⟨600, .length 800, (.horizontalTb, .ltr)⟩ 0 [])) = some false := by
  have hp : parseStylesheets marginEngine (marginDocument "nav" true) = some ⟨[]⟩ := marginEngine_sheets rfl
  refine ⟨marginDocument_denotes _ (.inl rfl) _, ?_, ?_⟩
  · simp only [layoutDocument, constructDocument, hp]
    decide +kernel
  · simp only [layoutDocument, constructDocument, hp]
    decide +kernel

end Verif.Layout
