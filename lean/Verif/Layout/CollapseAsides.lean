/- C106 for documents with absolutely positioned elements between blocks. -/
import Verif.Layout.CollapseTheorems
import Verif.Layout.AsideMoves
import Verif.Layout.FitTheorems
namespace Verif.Layout
open Verif.Style Verif.Style.Spec Verif.Text Verif.Pdf Verif.Dom

theorem nodesOutline_append (ms ns : List StyledNode) : nodesOutline (ms ++ ns) = nodesOutline ms ++ nodesOutline ns := by
  induction ms with
  | nil => rfl
  | cons m ms ih => simp [nodesOutline, ih]

mutual
theorem settled_outline : ∀ n : StyledNode, nodesOutline n.settled = n.outline
  | .ignored => by simp [StyledNode.settled, nodesOutline]
  | .text _ => by simp [StyledNode.settled, nodesOutline]
  | .element s children => by
    have ih := nodesSettled_outline children
    unfold StyledNode.settled
    split
    · simp [nodesOutline]
    rename_i hd
    split
    · rename_i ha
      unfold IsAside at ha
      unfold StyledNode.outline
      rcases hdd : displayOf s with _ | _ | ⟨_ | _, i⟩ <;> simp_all [nodesOutline]
    · simp only [nodesOutline, List.append_nil]
      unfold StyledNode.outline
      rcases displayOf s with _ | _ | ⟨_ | _, i⟩ <;> simp [ih]
theorem nodesSettled_outline : ∀ ns : List StyledNode, nodesOutline (nodesSettled ns) = nodesOutline ns
  | [] => rfl
  | n :: ns => by rw [nodesSettled, nodesOutline_append, settled_outline n, nodesSettled_outline ns, nodesOutline]
end

section
variable {R Er σ Err : Type} (P : Painter R Er) (E : Engine σ) (font : FontApi Rat Err) (d : Document)

theorem collapse_root {rootStyle : ComputedValues} {nodes : List StyledNode} (hdisp : displayOf rootStyle ≠ .none)
    (hp : positionOf rootStyle ≠ .absolute) (hf : floatOf rootStyle = .none) {root : BlockFormattingContext}
    (h1 : constructRoot rootStyle nodes = some root) (hno : root.contents.Only NoAbsolutes) {fuel : Nat} {schedule : Oracle}
    {viewport : Vec2 Rat} {fragments : List Fragment} (hl : layoutRoot font fuel schedule root viewport = some fragments) :
    Drawn (itemsAt ⟨0, 0⟩ fragments) [.block rootStyle (nodesOutline nodes)] ∧
    (itemsWritten (itemsAt ⟨0, 0⟩ fragments) →
      itemsNotFlat ⟨viewport.inline, .length viewport.block, (.horizontalTb, .ltr)⟩ (itemsAt ⟨0, 0⟩ fragments) →
      ∀ i ∈ itemsAt ⟨0, 0⟩ fragments, i.Settled true ⟨viewport.inline, .length viewport.block, (.horizontalTb, .ltr)⟩ 0 []) := by
  obtain ⟨fc, hlays, rfl⟩ := layoutRoot_lays hno hl
  obtain ⟨bs, hbs, hout⟩ := constructRoot_outlined hdisp hp hf h1
  rw [hbs] at hlays
  refine ⟨hlays.drawn hout _, fun hw hn => ?_⟩
  rcases constructRoot_kinded h1 with hk | ⟨b, hb, hk⟩
  · rw [hbs] at hk
    cases hk
    cases hout
  · rw [hbs] at hb
    cases hb
    exact hlays.settled_root hk hw hn

/-- **C106** for documents with absolutely positioned elements between blocks: the boxes of the blocks in flow are where CSS has them, as in
`C106_margins_partial` and `C111_boxes_partial`, and what is to be seen of them is to be seen on the page. -/
theorem C106_asides_partial (F : Forest) (rootStyle : ComputedValues) (tree : List StyledNode) (hidden : List Nat)
    (h : Denotes E d F rootStyle tree hidden) (hp : positionOf rootStyle ≠ .absolute) (hf : floatOf rootStyle = .none)
    (ha : nodesApart .between tree) (hsp : Shapable font 32) (ht : ∀ c ∈ visibleTexts tree, Shapable font c)
    {fuel : Nat} {schedule : Oracle} {viewport : Vec2 Rat} {fragments : List Fragment}
    (hl : layoutDocument E font d fuel schedule viewport = some fragments) (ascender : Rat) :
    ∃ flow : List PageItem,
      (((itemMarks flow).map (markShape ascender)).filter Shape.visible).Sublist
        (((itemMarks (itemsAt ⟨0, 0⟩ fragments)).map (markShape ascender)).filter Shape.visible) ∧
      Drawn flow [.block rootStyle (nodesOutline tree)] ∧
      itemsFit 0 ⟨viewport.inline, .length viewport.block, (.horizontalTb, .ltr)⟩ ⟨0, 0, viewport.inline, viewport.block⟩ false flow ∧
      (itemsWritten flow → itemsNotFlat ⟨viewport.inline, .length viewport.block, (.horizontalTb, .ltr)⟩ flow →
        ∀ i ∈ flow, i.Settled true ⟨viewport.inline, .length viewport.block, (.horizontalTb, .ltr)⟩ 0 []) := by
  obtain ⟨root, m, fl, c1, l1, s1⟩ := settled_layout E font d h hp ha hsp (fun c hc => ht c (nodesSettled_texts tree c hc)) hl
  obtain ⟨placed, hpl⟩ := Placed.exists fragments ⟨0, 0⟩
  obtain ⟨placed', hpl'⟩ := Placed.exists fl ⟨0, 0⟩
  have hdisp : displayOf rootStyle ≠ .none := by
    obtain ⟨_, _, _, _, _, h5, _⟩ := h.styled
    exact h5
  have hno : root.contents.Only NoAbsolutes :=
    constructRoot_only ⟨fun k => absurd k hp, fun _ => by simp⟩ (still_absolutes _ (nodesApart_still _ _ ha)) c1
  obtain ⟨hdr, hset⟩ := collapse_root font hdisp hp hf c1 hno l1
  refine ⟨itemsAt ⟨0, 0⟩ fl, ?_, by rwa [nodesSettled_outline] at hdr, ?_, hset⟩
  · have := s1 ascender
    rw [← hpl.ink, ← hpl'.ink] at this
    rw [← hpl.marks, ← hpl'.marks]
    exact this
  · refine layoutRoot_fits ?_ l1
    have hc : Computed rootStyle := by
      obtain ⟨_, _, _, _, hs, _, _⟩ := h.styled
      exact nodeStyle_computed hs
    have hk := hc.sorted
    rw [if_neg hp] at hk
    exact constructRoot_sorts plainKinds_holds (by rw [if_neg hp]; exact hk) c1

/-- **C106** for the files of documents with absolutely positioned elements between blocks: see `C106_asides_partial`. -/
theorem C106_asides_pages_partial {readReal : List Byte → Option R} (hd : RealText P.floats.dtoa readReal) (hfl : FloatLaws P.floats)
    (hv : P.fontView.Valid) (hg : ∀ c g, font.glyphId c = .ok g → g < 65536) (F : Forest) (rootStyle : ComputedValues)
    (tree : List StyledNode) (hidden : List Nat)
    (h : Denotes E d F rootStyle tree hidden) (hp : positionOf rootStyle ≠ .absolute) (hf : floatOf rootStyle = .none)
    (ha : nodesApart .between tree) (hsp : Shapable font 32) (ht : ∀ c ∈ visibleTexts tree, Shapable font c)
    {fuel : Nat} {schedule : Oracle} {bytes : List Byte} (hb : toPdfBytes P E font d fuel schedule = some bytes) (hs : bytes.length ≤ 2 ^ 32) :
    ∃ items flow, PageHas P readReal bytes items ∧
      (((itemMarks flow).map (markShape P.ascender)).filter Shape.visible).Sublist
        (((itemMarks items).map (markShape P.ascender)).filter Shape.visible) ∧
      Drawn flow [.block rootStyle (nodesOutline tree)] ∧
      itemsFit 0 ⟨600, .length 800, (.horizontalTb, .ltr)⟩ ⟨0, 0, 600, 800⟩ false flow ∧
      (itemsWritten flow → itemsNotFlat ⟨600, .length 800, (.horizontalTb, .ltr)⟩ flow →
        ∀ i ∈ flow, i.Settled true ⟨600, .length 800, (.horizontalTb, .ltr)⟩ 0 []) := by
  obtain ⟨fragments, hlay, hpage⟩ := toPdfBytes_items font P hd hfl hv hg hb hs
  obtain ⟨flow, h1⟩ := C106_asides_partial E font d F rootStyle tree hidden h hp hf ha hsp ht hlay P.ascender
  exact ⟨_, flow, hpage, h1⟩

end

/-- The hypotheses of C106 for documents with absolutely positioned elements are met by `sideDocument`, in which there are two blocks in flow
beside the root element. -/
theorem sideDocument_margins : (∃ F hidden, Denotes sideEngine (sideDocument oneLineText) F (sideStyle 2 none) (sideTree oneLineText) hidden) ∧
    positionOf (sideStyle 2 none) ≠ .absolute ∧ floatOf (sideStyle 2 none) = .none ∧ nodesApart .between (sideTree oneLineText) ∧
    nodesOutline (sideTree oneLineText) = [.block (sideStyle 4 (some (sideStyle 2 none)))
      [.block (sideStyle 8 (some (sideStyle 4 (some (sideStyle 2 none))))) []]] ∧
    (layoutDocument sideEngine exampleFont (sideDocument oneLineText) 9 inOrder ⟨600, 800⟩).isSome = true := by
  obtain ⟨h1, -, h3, h4, -, -, h7, -⟩ := sideDocument_moves
  refine ⟨⟨_, _, h1⟩, h3.1, h3.2, (h4 _).1, ?_, ?_⟩
  · have d3 : displayOf (sideStyle 3 (some (sideStyle 2 none))) = .none := by decide +kernel
    have d4 : displayOf (sideStyle 4 (some (sideStyle 2 none))) = .generatingBox .block .flow := by decide +kernel
    have a4 : positionOf (sideStyle 4 (some (sideStyle 2 none))) = .static := by decide +kernel
    have f4 : floatOf (sideStyle 4 (some (sideStyle 2 none))) = .none := by decide +kernel
    have d5 : displayOf (sideStyle 5 (some (sideStyle 4 (some (sideStyle 2 none))))) = .generatingBox .block .flow := by decide +kernel
    have a5 : positionOf (sideStyle 5 (some (sideStyle 4 (some (sideStyle 2 none))))) = .absolute := by decide +kernel
    have d8 : displayOf (sideStyle 8 (some (sideStyle 4 (some (sideStyle 2 none))))) = .generatingBox .block .flow := by decide +kernel
    have a8 : positionOf (sideStyle 8 (some (sideStyle 4 (some (sideStyle 2 none))))) = .static := by decide +kernel
    have f8 : floatOf (sideStyle 8 (some (sideStyle 4 (some (sideStyle 2 none))))) = .none := by decide +kernel
    simp [sideTree, nodesOutline, StyledNode.outline, d3, d4, a4, f4, d5, a5, d8, a8, f8]
  · rcases hl : layoutDocument sideEngine exampleFont (sideDocument oneLineText) 9 inOrder ⟨600, 800⟩ with _ | fs
    · rw [hl] at h7
      cases h7
    · rfl

end Verif.Layout
