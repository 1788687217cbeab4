/- C111: blocks and absolutely positioned boxes have the sizes and places that CSS says, on the page. -/
import Verif.Layout.FitLemmas
import Verif.Layout.GroundTheorems
import Verif.Layout.MoveTheorems
namespace Verif.Layout
open Verif.Style Verif.Style.Spec Verif.Text Verif.Pdf Verif.Dom

theorem usedDisplay_absolute (f : Style.Float) (d : Display) : usedDisplay .absolute f d = blockified d := by
  unfold usedDisplay
  simp

theorem Computed.sorted {s : ComputedValues} (h : Computed s) :
    if positionOf s = .absolute then plainKinds.aside s else plainKinds.flow s := by
  split
  · rename_i hp
    refine ⟨hp, ?_⟩
    obtain ⟨v, rfl⟩ := h
    have f := C33_fixups v
    have hp : v .position = Position.absolute := by
      rw [← f.others .position (by decide) (by decide) (by decide) (by decide) (by decide)]
      exact hp
    have : displayOf (postCascadeFixups v) = blockified (v .display) := by
      rw [displayOf, f.display, hp]
      exact usedDisplay_absolute _ _
    rw [this]
    generalize (v .display : Display) = d
    cases d <;> simp [blockified]
  · assumption

/-- **C111** for layout: for every document and page size, blocks and absolutely positioned boxes have the places and sizes that CSS says,
relative to their containing blocks. -/
theorem C111_boxes_partial {σ Err : Type} (E : Engine σ) (font : FontApi Rat Err) (d : Document) {fuel : Nat} {schedule : Oracle}
    {viewport : Vec2 Rat} {fragments : List Fragment} (h : layoutDocument E font d fuel schedule viewport = some fragments) :
    itemsFit 0 ⟨viewport.inline, .length viewport.block, (.horizontalTb, .ltr)⟩ ⟨0, 0, viewport.inline, viewport.block⟩ false
      (itemsAt ⟨0, 0⟩ fragments) := by
  unfold layoutDocument at h
  rcases hc : constructDocument E d fuel with _ | root
  · simp [hc] at h
  simp only [hc] at h
  refine layoutRoot_fits ?_ h
  unfold constructDocument at hc
  split at hc
  · cases hc
  split at hc
  · cases hc
  split at hc
  · cases hc
  rename_i style hs
  have hk := (nodeStyle_computed hs).sorted
  split at hc
  · exact constructRoot_sorts plainKinds_holds hk hc
  split at hc
  · cases hc
  split at hc
  · cases hc
  exact constructRoot_sorts plainKinds_holds hk hc

/-- The blocks among the boxes. -/
def blockOnly (s : ComputedValues) : List ComputedValues := if isBlock s then [s] else []

mutual
theorem Fragment.item_blocks (o : Vec2 Rat) : ∀ f : Fragment, (f.item o).blocks = f.collect blockOnly
  | .box info children => by
    rw [Fragment.item, PageItem.blocks, itemsAt_blocks, Fragment.collect]
    rfl
  | .anonymous rect children _ => by rw [Fragment.item, PageItem.blocks, itemsAt_blocks, Fragment.collect]
  | .text _ _ _ => rfl
theorem itemsAt_blocks (o : Vec2 Rat) : ∀ fs : List Fragment, itemBlocks (itemsAt o fs) = fragmentsCollect blockOnly fs
  | [] => rfl
  | f :: fs => by rw [itemsAt, itemBlocks, Fragment.item_blocks, itemsAt_blocks, fragmentsCollect]
end

theorem ofElements_blockOnly (styles : List ComputedValues) : ofElements (ofAll blockOnly) styles = styles.filter isBlock := by
  induction styles with
  | nil => rfl
  | cons s styles ih =>
    simp only [ofElements, List.flatMap_cons] at ih ⊢
    rw [ih]
    simp only [ofAll, blockOnly]
    split <;> simp_all

theorem ofElements_blockInline (styles : List ComputedValues) : ofElements (ofInline blockOnly) styles = [] := by
  induction styles with
  | nil => rfl
  | cons s styles ih =>
    simp only [ofElements, List.flatMap_cons] at ih ⊢
    rw [ih, List.append_nil]
    have h : isInline s = true → isBlock s = false := by
      unfold isInline isBlock
      split <;> simp_all
    simp only [ofInline, blockOnly]
    split
    · simp [h (by assumption)]
    · rfl

section
variable {R Err Er σ : Type} (P : Painter R Er) (E : Engine σ) (font : FontApi Rat Err) (d : Document)

/-- **C111** for the files: whenever a PDF file is made of a document in which no element that has a box floats, a reader finds one page in
it. What is on it are texts and boxes; those of block elements and of absolutely positioned elements are one for each such element (in
document order, if none is absolutely positioned), and have the places and sizes that CSS says. Missing: the cases that `PageItem.Fits`
leaves out, in which the code does not do what CSS says, and documents with elements that float. -/
theorem C111_page_partial {readReal : List Byte → Option R} (hd : RealText P.floats.dtoa readReal) (hl : FloatLaws P.floats)
    (hv : P.fontView.Valid) (hg : ∀ c g, font.glyphId c = .ok g → g < 65536) (F : Forest) (hr : Represents d F) (ha : F.Acyclic)
    (hn : DocumentNodeIsRoot d) (hi : d.styleElements = d.idsWith NodeData.isStyle) (ua author : List (σ × List (Declaration × Bool)))
    (rootStyle : ComputedValues) (elements : List ComputedValues) (h : DocumentBoxed E d F ua author rootStyle elements)
    (hfloat : ∀ s ∈ rootStyle :: elements, floatOf s = .none)
    {fuel : Nat} {schedule : Oracle} {bytes : List Byte} (hb : toPdfBytes P E font d fuel schedule = some bytes)
    (hs : bytes.length ≤ 2 ^ 32) :
    ∃ items, PageHas P readReal bytes items ∧
      itemsFit 0 ⟨600, .length 800, (.horizontalTb, .ltr)⟩ ⟨0, 0, 600, 800⟩ false items ∧
      (itemBlocks items).Perm ((rootStyle :: elements).filter isBlock) ∧
      ((∀ s ∈ rootStyle :: elements, positionOf s ≠ .absolute) → itemBlocks items = (rootStyle :: elements).filter isBlock) := by
  classical
  obtain ⟨fragments, hlay, hpage⟩ := toPdfBytes_items font P hd hl hv hg hb hs
  refine ⟨_, hpage, C111_boxes_partial E font d hlay, ?_⟩
  rw [itemsAt_blocks]
  unfold layoutDocument at hlay
  rcases hc : constructDocument E d fuel with _ | root
  · simp [hc] at hlay
  simp only [hc] at hlay
  obtain ⟨pieces, cov⟩ := layoutRoot_collect blockOnly hlay
  obtain ⟨tree, hidden, hden, rfl⟩ := h.denotes hr ha hn hi hc
  obtain ⟨hroot', -⟩ := constructDocument_sound hden hc
  have hdisp : displayOf rootStyle ≠ .none := by
    obtain ⟨_, _, _, _, _, _, _, _, h, _⟩ := h.root
    exact h
  have hanon (s : ComputedValues) : blockOnly (ComputedValues.anonymousInheritingFrom (some s)) = [] := rfl
  have hall := constructRoot_collect (f := ofAll blockOnly) (fun s => hanon s) hdisp (hfloat _ List.mem_cons_self)
    (fun s hs => hfloat s (List.mem_cons_of_mem _ hs)) hroot'
  have hinl := constructRoot_collect (f := ofInline blockOnly) (fun s => rfl) hdisp (hfloat _ List.mem_cons_self)
    (fun s hs => hfloat s (List.mem_cons_of_mem _ hs)) hroot'
  have hall : root.contents.collect (ofAll blockOnly) = (rootStyle :: nodesElements tree).filter isBlock := by
    rw [hall, ofElements_blockOnly]
    simp only [ofAll, blockOnly, List.filter_cons]
    split <;> rfl
  have hinl : root.contents.collect (ofInline blockOnly) = [] := by
    rw [hinl, ofElements_blockInline]
    rfl
  have hpieces : pieces = [] := by
    apply List.eq_nil_iff_forall_not_mem.2
    intro s hs
    have := cov.extra s hs
    rw [hinl] at this
    simp at this
  constructor
  · rw [← hall]
    refine List.perm_iff_count.2 fun s => ?_
    have := cov.count (· == s)
    simpa [List.count, pendingCollect, hpieces] using this
  · intro habs
    have habs : root.contents.Only NoAbsolutes := by
      refine constructRoot_only ⟨fun h => absurd h (habs _ List.mem_cons_self), fun _ => by simp⟩ ?_ hroot'
      exact nodesAll_of_elements (Q := StyleOnly NoAbsolutes) tree
        (fun s hs => ⟨fun h => absurd h (habs s (List.mem_cons_of_mem _ hs)), fun _ => by simp⟩)
    rw [← hall]
    exact (cov.order habs).2 hinl

end

/-! ### Examples -/

/-- `p { position: relative; width: 100px; margin-left: auto; margin-right: auto; padding-left: 10px; background-color: red }` -/
def fitSheet1 : List (SourceRule String) :=
  [some (["p"], [.declaration "position" [.ident "relative"], .declaration "width" [.dimension 100 "px"],
    .declaration "margin-left" [.ident "auto"], .declaration "margin-right" [.ident "auto"],
    .declaration "padding-left" [.dimension 10 "px"], .declaration "background-color" [.ident "red"]])]

/-- `b { position: absolute; left: 5px; top: 6px; width: 20px; height: 7px; background-color: blue }` -/
def fitSheet2 : List (SourceRule String) :=
  [some (["b"], [.declaration "position" [.ident "absolute"], .declaration "left" [.dimension 5 "px"],
    .declaration "top" [.dimension 6 "px"], .declaration "width" [.dimension 20 "px"], .declaration "height" [.dimension 7 "px"],
    .declaration "background-color" [.ident "blue"]])]

/-- `lookEngine` with these style sheets. -/
def fitEngine : Engine String := { lookEngine with rulesOf := fun s => if s = "1" then fitSheet1 else fitSheet2 }

/-- The rules of its style sheets. -/
def fitSet : StyleSet String :=
  match addStylesheets twoColors ⟨[]⟩ [fitSheet1, fitSheet2] with
  | .ok set => set
  | _ => ⟨[]⟩

theorem fitSet_parsed : parseStylesheets fitEngine lookDocument = some fitSet := by
  have h1 : lookDocument.stylesheetTexts lookDocument.nodes.length lookDocument.styleElements = some ["1", "2"] := by decide +kernel
  have h2 : ∃ a b, addStylesheets twoColors ⟨[]⟩ [fitSheet1, fitSheet2] = .ok ⟨[("p", a), ("b", b)]⟩ := ⟨_, _, rfl⟩
  obtain ⟨a, b, h2⟩ := h2
  have h4 : addStylesheets fitEngine.colors ⟨[]⟩ (["1", "2"].map fitEngine.rulesOf) = .ok ⟨[("p", a), ("b", b)]⟩ := h2
  simp only [parseStylesheets, h1, h4, fitSet, h2]
  simp [StyleSet.finish, List.mergeSort, List.MergeSort.Internal.splitInTwo, fitEngine, lookEngine, lookSpecificity]

/-- The styles of its elements. -/
def fitStyle (n : Nat) (parent : Option ComputedValues) : ComputedValues :=
  (nodeStyle fitEngine fitSet lookDocument n parent).getD spanStyle

/-- The contents of `lookDocument` in these styles. -/
def fitTree : List StyledNode :=
  let html := fitStyle 2 none
  let p := fitStyle 8 (some html)
  [.element (fitStyle 3 (some html)) [], .element p [.text (codes "a"), .element (fitStyle 10 (some p)) [.text (codes "b")]]]

theorem fitDocument_denotes : Denotes fitEngine lookDocument (forestOf lookChildren) (fitStyle 2 none) fitTree [3] := by
  have hstyle : ∀ n parent, (nodeStyle fitEngine fitSet lookDocument n parent).isSome = true →
      nodeStyle fitEngine fitSet lookDocument n parent = some (fitStyle n parent) := by
    intro n parent h
    obtain ⟨s, hs⟩ := Option.isSome_iff_exists.1 h
    simp [fitStyle, hs]
  refine ⟨represents_of_check lookDocument_check, acyclic_of_check lookDocument_check, fitSet, 2, fitSet_parsed, by decide,
    hstyle _ _ (by decide +kernel), by decide +kernel, ?_⟩
  exact .none (n := 3) (hidden := []) rfl rfl (hstyle _ _ (by decide +kernel)) (by decide +kernel)
    (.element (belowHidden := []) (hidden := []) (n := 8) rfl rfl (hstyle _ _ (by decide +kernel)) (by decide +kernel)
      (.text (n := 9) rfl rfl
        (.element (belowHidden := []) (hidden := []) (n := 10) rfl rfl (hstyle _ _ (by decide +kernel)) (by decide +kernel)
          (.text (n := 11) rfl rfl .nil) .nil)) .nil)

theorem fitDocument_rules : ∃ ua author, Rules fitEngine lookDocument (forestOf lookChildren) ua author := by
  obtain ⟨ua, hua⟩ := C28_contents_exist twoColors [lookUserAgent].flatten
  obtain ⟨author, hauthor⟩ := C28_contents_exist fitEngine.colors
    (((lookDocument.idsWith fun x => x.isStyle && x.styleEnabled).map fun i =>
      textContent (lookDocument.dataOf (forestOf lookChildren i))).map fitEngine.rulesOf).flatten
  refine ⟨ua, author, ⟨[lookUserAgent], lookUaSet, rfl, ?_, hua⟩, hauthor⟩
  have h : lookUaSet.rules.Pairwise fun a b => decide (lookSpecificity a.1 ≤ lookSpecificity b.1) = true := by decide +kernel
  exact congrArg StyleSet.mk (List.mergeSort_of_pairwise h).symm

/-- The elements of `lookDocument` that have boxes: none floats, `p` is relatively and `b` absolutely positioned, and all are blocks. -/
theorem fitDocument_boxed : ∃ ua author elements,
    DocumentBoxed fitEngine lookDocument (forestOf lookChildren) ua author (fitStyle 2 none) elements ∧
    (∀ s ∈ fitStyle 2 none :: elements, floatOf s = .none) ∧
    ((fitStyle 2 none :: elements).filter isBlock).map positionOf = [.static, .relative, .absolute] := by
  obtain ⟨ua, author, h⟩ := fitDocument_rules
  refine ⟨ua, author, _, C85_exists ⟨_, rfl, rfl, rfl⟩ (by decide +kernel) h fitDocument_denotes, ?_, by decide +kernel⟩
  decide +kernel

/-- A file is made of it. -/
theorem fitDocument_pdf : ∃ bytes, toPdfBytes examplePainter fitEngine basicFont lookDocument 9 inOrder = some bytes ∧
    bytes.length ≤ 2 ^ 32 := by
  have h : ((toPdfBytes examplePainter fitEngine basicFont lookDocument 9 inOrder).map fun bytes => decide (bytes.length ≤ 2 ^ 32)) =
      some true := by
    simp only [toPdfBytes, layoutDocument, constructDocument, fitSet_parsed]
    decide +kernel
  rcases hb : toPdfBytes examplePainter fitEngine basicFont lookDocument 9 inOrder with _ | bytes
  · rw [hb] at h; cases h
  · rw [hb] at h
    exact ⟨bytes, rfl, of_decide_eq_true (Option.some.inj h)⟩

mutual
/-- Where the boxes are. -/
def PageItem.borders : PageItem → List Extent
  | .text _ => []
  | .line items => itemBorders items
  | .box _ border _ items => border :: itemBorders items
/-- Where the boxes are. -/
def itemBorders : List PageItem → List Extent
  | [] => []
  | i :: is => i.borders ++ itemBorders is
end

/-- The page of `lookDocument`: `p` is in the middle, and `b` is 5px to the right of the left edge of `p` and 6px below its top edge. The
other hypotheses of C111 are met by `lookDocument` as shown for C85. -/
example : (layoutDocument fitEngine basicFont lookDocument 9 inOrder ⟨600, 800⟩).map (fun fs => (itemBorders (itemsAt ⟨0, 0⟩ fs)).map
      fun e => (e.left, e.top, e.width)) =
    some [(0, 0, 600), (245, 0, 110), (250, 6, 20)] := by
  simp only [layoutDocument, constructDocument, fitSet_parsed]
  decide +kernel

/-- A block 100px wide with the left margin `auto` and this right margin. -/
def pushedStyle (right : LengthOrPercentageOrAuto) : ComputedValues :=
  styleWith (.generatingBox .block .flow) fun v =>
    ((v.set .width (.length 100 : LengthOrPercentageOrAuto)).set .marginLeft (.auto : LengthOrPercentageOrAuto)).set .marginRight right

/-- **C111** does not hold where `LeftDoubtful` does: with `margin-right: 10px` CSS puts the left edge of a block 100px wide in a page
600px wide at 490px, but it is at 500px, and its margins stick out of the page. -/
theorem C111_left_violated :
    Css.usedMarginLeft ⟨600, .length 800, (.horizontalTb, .ltr)⟩ (pushedStyle (.length 10)) = 490 ∧
    ((constructRoot blockStyle [.element (pushedStyle (.length 10)) []]).bind fun root =>
      (layoutRoot basicFont 9 inOrder root ⟨600, 800⟩).map fun fs => (itemBorders (itemsAt ⟨0, 0⟩ fs)).map fun e => (e.left, e.width)) =
        some [(0, 600), (500, 100)] := by
  decide +kernel

end Verif.Layout
