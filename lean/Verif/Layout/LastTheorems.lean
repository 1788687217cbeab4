/- C102 for documents: only the declarations that win make a difference to a file. -/
import Verif.Style.LastTheorems
import Verif.Layout.OrderTheorems
namespace Verif.Layout
open Verif.Style Verif.Style.Spec Verif.Text Verif.Pdf Verif.Dom

/-- Two style systems in which the same declarations win for each element of the document. -/
def SameWinners {σ σ' : Type} (E : Engine σ) (E' : Engine σ') (d : Document) (ua author : List (σ × List (Declaration × Bool)))
    (ua' author' : List (σ' × List (Declaration × Bool))) : Prop :=
  ∀ n node element attr attr', d.nodes[n]? = some node → node.data = .element element →
    AttrContents E.colors E.tokenize element attr → AttrContents E'.colors E'.tokenize element attr' →
    ∀ declaration, Wins E.specificity (fun s => E.isMatch s d n) ua author attr declaration ↔
      Wins E'.specificity (fun s => E'.isMatch s d n) ua' author' attr' declaration

/-- The style sheets of the document and its style attributes can be read. -/
structure Readable {σ : Type} (E : Engine σ) (d : Document) : Prop where
  sheets : (parseStylesheets E d).isSome
  attributes : ∀ (n : Nat) node element text, d.nodes[n]? = some node → node.data = .element element → element.getAttr "style" = some text →
    ∃ block, DeclarationBlock.parse E.colors (E.tokenize text) = .ok block

section
variable {σ σ' : Type} {E : Engine σ} {E' : Engine σ'} {d : Document} {F : Forest} {ua author : List (σ × List (Declaration × Bool))}
  {ua' author' : List (σ' × List (Declaration × Bool))}

theorem Readable.nodeStyle (h : Readable E d) (set : StyleSet σ) {n : Nat} {e : ElementData} (hn : (d.get n).bind Node.asElement = some e)
    (parent : Option ComputedValues) : ∃ style, nodeStyle E set d n parent = some style := by
  have hb : ∃ block, styleAttrBlock E.colors E.tokenize e = .ok block := by
    unfold styleAttrBlock
    split
    · rcases ht : e.getAttr "style" with _ | text
      · exact ⟨_, rfl⟩
      · rcases hd : d.get n with _ | node
        · simp [hd] at hn
        simp only [hd, Option.bind_some] at hn
        have hd' : node.data = .element e := by
          unfold Node.asElement at hn
          split at hn
          · cases hn; assumption
          · cases hn
        obtain ⟨block, hb⟩ := h.attributes n node e text hd hd' ht
        simp only [hb]
        exact ⟨_, rfl⟩
    · exact ⟨_, rfl⟩
  obtain ⟨block, hb⟩ := hb
  simp only [Layout.nodeStyle, hn, styleForElement, hb]
  exact ⟨_, rfl⟩

theorem HasStyle.winners (h : SameWinners E E' d ua author ua' author') {n : Nat} {parent : Option ComputedValues} {style : ComputedValues}
    (hs : HasStyle E d ua author n parent style) : HasStyle E' d ua' author' n parent style := by
  obtain ⟨node, e, attr, v, h1, h2, h3, h4, h5, h6⟩ := hs
  obtain ⟨attr', h3'⟩ := attr_exists E' e
  have hw := h n node e attr attr' h1 h2 h3 h3'
  refine ⟨node, e, attr', v, h1, h2, h3', h4, fun c hc => ?_, fun p hp => h6 p fun c hc hcp => ?_⟩
  · obtain ⟨c', hc', he⟩ := (hw c.declaration).2 ⟨c, hc, rfl⟩
    rw [← he]
    exact h5 c' hc'
  · have hm := (mem_allCandidates ..).mpr hc
    rcases isLast_or ((allCandidates E.specificity (fun s => E.isMatch s d n) ua author attr).map Candidate.declaration) p with
      ⟨x, hx, hxp⟩ | hn
    · have : Wins E.specificity (fun s => E.isMatch s d n) ua author attr x := wins_iff.2 (isLast_iff.1 hx)
      obtain ⟨c', hc', he⟩ := (hw x).1 this
      exact hp c' hc'.1 (by rw [he]; exact hxp)
    · exact hn _ (List.mem_map_of_mem hm) hcp

/-- **C102**: if in two style systems (of which one may be the other with changed style sheets and attributes) the same declarations win
for each element of a document, the same file is made of it; or none, in both. -/
theorem C102_document {R Er Err : Type} (P : Painter R Er) (font : FontApi Rat Err) (hr : Represents d F)
    (hi : d.styleElements = d.idsWith NodeData.isStyle) (R : Rules E d F ua author) (R' : Rules E' d F ua' author')
    (h : SameWinners E E' d ua author ua' author') (hread : Readable E d) (hread' : Readable E' d)
    (fuel : Nat) (schedule : Oracle) : toPdfBytes P E font d fuel schedule = toPdfBytes P E' font d fuel schedule := by
  obtain ⟨set, hset⟩ := Option.isSome_iff_exists.1 hread.sheets
  obtain ⟨set', hset'⟩ := Option.isSome_iff_exists.1 hread'.sheets
  have e : nodeStyle E set d = nodeStyle E' set' d := by
    funext n parent
    rcases hn : (d.get n).bind Node.asElement with _ | el
    · simp only [nodeStyle, hn]
    · obtain ⟨s, hs⟩ := hread.nodeStyle set hn parent
      obtain ⟨s', hs'⟩ := hread'.nodeStyle set' hn parent
      rw [hs, hs', (hasStyle_of hr hi R' hset' hs').2 s ((hasStyle_of hr hi R hset hs).1.winners h)]
  have : constructDocument E d fuel = constructDocument E' d fuel := by
    simp only [constructDocument, hset, hset', e]
  simp only [toPdfBytes, layoutDocument, this]

end

/-! ### Example -/

/-- `p { color: blue; color: red; font-size: 2em }` -/
def lastSheet1 : List (SourceRule String) :=
  [some (["p"], [.declaration "color" [.ident "blue"], .declaration "color" [.ident "red"], .declaration "font-size" [.dimension 2 "em"]])]

/-- `lookEngine` with another first style sheet. -/
def lastEngine : Engine String := { lookEngine with rulesOf := fun s => if s = "1" then lastSheet1 else lookSheet2 }

/-- The hypotheses of C102 are met by `lookDocument` with the sheets of these two style systems. -/
theorem last_same : ∃ ua author ua' author', Rules lookEngine lookDocument (forestOf lookChildren) ua author ∧
    Rules lastEngine lookDocument (forestOf lookChildren) ua' author' ∧ SameWinners lookEngine lastEngine lookDocument ua author ua' author' ∧
    Readable lookEngine lookDocument ∧ Readable lastEngine lookDocument := by
  obtain ⟨ua, hua⟩ := C28_contents_exist twoColors [lookUserAgent].flatten
  let red : Declaration × Bool := (.value .color (Color.rgba ⟨255, 0, 0, 255⟩), false)
  let blue : Declaration × Bool := (.value .color (Color.rgba ⟨0, 0, 255, 255⟩), false)
  let size : Declaration × Bool := (.value .fontSize (SpecifiedLength.em 2), false)
  have hred : Declares twoColors "color" [.ident "red"] [.value .color (Color.rgba ⟨255, 0, 0, 255⟩)] false :=
    .normal _ _ (.value _ _ _ rfl (by rintro s k h; cases h; simp [IsCssWide]) rfl)
  have hblue : Declares twoColors "color" [.ident "blue"] [.value .color (Color.rgba ⟨0, 0, 255, 255⟩)] false :=
    .normal _ _ (.value _ _ _ rfl (by rintro s k h; cases h; simp [IsCssWide]) rfl)
  have hsize : Declares twoColors "font-size" [.dimension 2 "em"] [.value .fontSize (SpecifiedLength.em 2)] false :=
    .normal _ _ (.value _ _ _ rfl (by simp) rfl)
  have h1 : Contents twoColors _ [size, red] := .valid _ _ _ _ _ _ hsize (.valid _ _ _ _ _ _ hred .nil)
  have h2 : Contents twoColors _ [blue] := .valid _ _ _ _ _ _ hblue .nil
  have h3 : Contents twoColors _ [blue, red, size] := .valid _ _ _ _ _ _ hblue (.valid _ _ _ _ _ _ hred (.valid _ _ _ _ _ _ hsize .nil))
  have hsort : lookUaSet = lookUaSet.finish lookSpecificity := by
    have h : lookUaSet.rules.Pairwise fun a b => decide (lookSpecificity a.1 ≤ lookSpecificity b.1) = true := by decide +kernel
    exact congrArg StyleSet.mk (List.mergeSort_of_pairwise h).symm
  have htexts : ((lookDocument.idsWith fun x => x.isStyle && x.styleEnabled).map fun i =>
      textContent (lookDocument.dataOf (forestOf lookChildren i))) = ["1", "2"] := by decide +kernel
  refine ⟨ua, [("p", [size, red]), ("*", [blue])], ua, [("p", [blue, red, size]), ("*", [blue])], ⟨⟨[lookUserAgent], lookUaSet, rfl, hsort, hua⟩, ?_⟩,
    ⟨⟨[lookUserAgent], lookUaSet, rfl, hsort, hua⟩, ?_⟩, ?_, ⟨by rw [lookSet_parsed]; rfl, fun _ _ _ _ _ _ _ => ⟨_, rfl⟩⟩, ?_,
    fun _ _ _ _ _ _ _ => ⟨_, rfl⟩⟩
  · rw [htexts]
    exact .rule ["p"] _ _ _ _ h1 (.rule ["*"] _ _ _ _ h2 .nil)
  · rw [htexts]
    exact .rule ["p"] _ _ _ _ h3 (.rule ["*"] _ _ _ _ h2 .nil)
  · intro n node e attr attr' hn he ha ha'
    have : ∀ {x : List (Declaration × Bool)}, AttrContents twoColors (fun _ => []) e x → x = [] := by
      intro x hx
      unfold AttrContents at hx
      split at hx
      · split at hx
        · cases hx; rfl
        · exact hx
      · exact hx
    rw [this ha, this ha']
    refine C102_last (fun _ _ _ => rfl) (fun k => C102_block _ _ [] _ "p" (fun important p => ?_) k) fun _ _ => rfl
    exact (C102_exchange [] [] size red (.inl (by decide)) important p).trans
      (C102_overridden [] [] [size] blue red rfl rfl important p).symm
  · have h1 : lookDocument.stylesheetTexts lookDocument.nodes.length lookDocument.styleElements = some ["1", "2"] := by decide +kernel
    obtain ⟨set, h2⟩ : ∃ set, addStylesheets lastEngine.colors ⟨[]⟩ (["1", "2"].map lastEngine.rulesOf) = .ok set := ⟨_, rfl⟩
    simp only [parseStylesheets, h1, h2]
    rfl

end Verif.Layout
