/- C87 for documents: rules that match nothing, and the order of rules that are not equally specific, make no difference to a file. -/
import Verif.Style.OrderTheorems
import Verif.Layout.LookTheorems
namespace Verif.Layout
open Verif.Style Verif.Style.Spec Verif.Text Verif.Pdf Verif.Dom

/-- Two style systems that read values and attributes alike, and in which each element of the document matches the same rules of each
specificity, in the same order. -/
structure SameRules {σ σ' : Type} (E : Engine σ) (E' : Engine σ') (d : Document) (ua author : List (σ × List (Declaration × Bool)))
    (ua' author' : List (σ' × List (Declaration × Bool))) : Prop where
  colors : E.colors = E'.colors
  tokenize : E.tokenize = E'.tokenize
  ua : ∀ n k, matchingBlocks E.specificity (fun s => E.isMatch s d n) ua k =
    matchingBlocks E'.specificity (fun s => E'.isMatch s d n) ua' k
  author : ∀ n k, matchingBlocks E.specificity (fun s => E.isMatch s d n) author k =
    matchingBlocks E'.specificity (fun s => E'.isMatch s d n) author' k

section
variable {σ σ' : Type} {E : Engine σ} {E' : Engine σ'} {d : Document} {F : Forest} {ua author : List (σ × List (Declaration × Bool))}
  {ua' author' : List (σ' × List (Declaration × Bool))}

theorem parseStylesheets_set (hr : Represents d F) (hi : d.styleElements = d.idsWith NodeData.isStyle) {set : StyleSet σ}
    (hset : parseStylesheets E d = some set) : ∃ aset, addStylesheets E.colors ⟨[]⟩
      (((d.idsWith fun x => x.isStyle && x.styleEnabled).map fun i => textContent (d.dataOf (F i))).map E.rulesOf) = .ok aset ∧
      set = aset.finish E.specificity := by
  unfold parseStylesheets at hset
  simp only [sheets_texts hr hi] at hset
  rcases h4 : addStylesheets E.colors ⟨[]⟩
    (((d.idsWith fun x => x.isStyle && x.styleEnabled).map fun i => textContent (d.dataOf (F i))).map E.rulesOf) with aset | _ | _
  case ok =>
    simp only [h4, Option.some.injEq] at hset
    exact ⟨aset, rfl, hset.symm⟩
  all_goals (simp only [h4] at hset; cases hset)

theorem nodeStyle_same (hr : Represents d F) (hi : d.styleElements = d.idsWith NodeData.isStyle) (R : Rules E d F ua author)
    (R' : Rules E' d F ua' author') (h : SameRules E E' d ua author ua' author') {set : StyleSet σ} {set' : StyleSet σ'}
    (hset : parseStylesheets E d = some set) (hset' : parseStylesheets E' d = some set') (n : Nat) (parent : Option ComputedValues) :
    nodeStyle E set d n parent = nodeStyle E' set' d n parent := by
  obtain ⟨sheets, uaSet, h1, h2, h3⟩ := R.ua
  obtain ⟨sheets', uaSet', h1', h2', h3'⟩ := R'.ua
  obtain ⟨aset, h4, rfl⟩ := parseStylesheets_set hr hi hset
  obtain ⟨aset', h4', rfl⟩ := parseStylesheets_set hr hi hset'
  have h5 := R.author
  have h5' := R'.author
  rw [← h.colors] at h1' h3' h4' h5'
  unfold nodeStyle
  rcases hn : (d.get n).bind Node.asElement with _ | e
  · rfl
  simp only [h2, h2', ← h.colors, ← h.tokenize]
  rw [C87_style h1 h4 h1' h4' h3 h5 h3' h5' (h.ua n) (h.author n)]

/-- **C87** for documents: if in two style systems (of which one may be the other with changed style sheets) each element of a document
matches the same rules of each specificity in the same order, the same file is made of it; or none, in both. -/
theorem C87_document {R Er Err : Type} (P : Painter R Er) (font : FontApi Rat Err) (hr : Represents d F)
    (hi : d.styleElements = d.idsWith NodeData.isStyle) (R : Rules E d F ua author) (R' : Rules E' d F ua' author')
    (h : SameRules E E' d ua author ua' author') (hset : (parseStylesheets E d).isSome) (hset' : (parseStylesheets E' d).isSome)
    (fuel : Nat) (schedule : Oracle) : toPdfBytes P E font d fuel schedule = toPdfBytes P E' font d fuel schedule := by
  obtain ⟨set, hset⟩ := Option.isSome_iff_exists.1 hset
  obtain ⟨set', hset'⟩ := Option.isSome_iff_exists.1 hset'
  have e := nodeStyle_same hr hi R R' h hset hset'
  have : constructDocument E d fuel = constructDocument E' d fuel := by
    simp only [constructDocument, hset, hset', e]
  simp only [toPdfBytes, layoutDocument, this]

end

/-! ### Changes of rules that make no difference -/

section
variable {σ : Type} {specificity : σ → Nat} {isMatch : σ → Bool}

/-- Rules that do not match can be added anywhere, and removed. -/
theorem C87_unmatched (before after : List (σ × List (Declaration × Bool))) (r : σ × List (Declaration × Bool)) (h : isMatch r.1 = false)
    (k : Nat) : matchingBlocks specificity isMatch (before ++ r :: after) k = matchingBlocks specificity isMatch (before ++ after) k := by
  simp [matchingBlocks, h]

/-- Neighbours that are not equally specific can change places. -/
theorem C87_exchange (before after : List (σ × List (Declaration × Bool))) (r s : σ × List (Declaration × Bool))
    (h : specificity r.1 ≠ specificity s.1) (k : Nat) :
    matchingBlocks specificity isMatch (before ++ r :: s :: after) k = matchingBlocks specificity isMatch (before ++ s :: r :: after) k := by
  by_cases hr : specificity r.1 = k
  · have hs : ¬ specificity s.1 = k := fun hs => h (hr.trans hs.symm)
    simp [matchingBlocks, List.filter_cons, hs]
  · simp [matchingBlocks, List.filter_cons, hr]

/-- A rule with several selectors is the same as several rules. -/
theorem C87_selectors (colors : Colors) (selectors : List σ) (items : List Item) (sheet : List (SourceRule σ))
    (rules : List (σ × List (Declaration × Bool))) (h : Appearances colors (some (selectors, items) :: sheet) rules) :
    Appearances colors ((selectors.map fun s => some ([s], items)) ++ sheet) rules := by
  cases h with
  | rule _ _ _ contents rest hc ha =>
    induction selectors with
    | nil => exact ha
    | cons s selectors ih => exact .rule [s] items _ contents _ hc ih

end

/-! ### Example -/

/-- `* { color: blue } i { color: red } p { font-size: 2em; color: red }`, in one sheet, and nothing in the other. -/
def orderSheet : List (SourceRule String) :=
  [none, some (["*"], [.declaration "color" [.ident "blue"]]), some (["i"], [.declaration "color" [.ident "red"]]),
    some (["p"], [.declaration "font-size" [.dimension 2 "em"], .declaration "color" [.ident "red"]])]

/-- `lookEngine` with other style sheets. -/
def orderEngine : Engine String := { lookEngine with rulesOf := fun s => if s = "1" then orderSheet else [] }

theorem lookDocument_noItalics (n : Nat) : lookEngine.isMatch "i" lookDocument n = false := by
  have h : ∀ x ∈ lookDocument.nodes, (x.asElement.any fun e => e.name.loc == "i") = false := by decide +kernel
  have : ((lookDocument.get n).bind Node.asElement).any (fun e => e.name.loc == "i") = false := by
    rcases hn : lookDocument.get n with _ | x
    · rfl
    · exact h x (List.mem_of_getElem? hn)
  simpa [lookEngine] using this

/-- The hypotheses of C87 are met by `lookDocument` with these sheets and with those of `lookEngine`, in which the first rule and the
last one have changed places, an invalid rule and one that does not match are left out, and there are two sheets. -/
theorem order_same : ∃ ua author ua' author', Rules lookEngine lookDocument (forestOf lookChildren) ua author ∧
    Rules orderEngine lookDocument (forestOf lookChildren) ua' author' ∧
    SameRules lookEngine orderEngine lookDocument ua author ua' author' ∧ author.length = 2 ∧ author'.length = 3 := by
  obtain ⟨ua, hua⟩ := C28_contents_exist twoColors [lookUserAgent].flatten
  obtain ⟨c1, h1⟩ := contents_exist twoColors [.declaration "font-size" [.dimension 2 "em"], .declaration "color" [.ident "red"]]
  obtain ⟨c2, h2⟩ := contents_exist twoColors [.declaration "color" [.ident "blue"]]
  obtain ⟨c3, h3⟩ := contents_exist twoColors [.declaration "color" [.ident "red"]]
  have hsort : lookUaSet = lookUaSet.finish lookSpecificity := by
    have h : lookUaSet.rules.Pairwise fun a b => decide (lookSpecificity a.1 ≤ lookSpecificity b.1) = true := by decide +kernel
    exact congrArg StyleSet.mk (List.mergeSort_of_pairwise h).symm
  have htexts : ((lookDocument.idsWith fun x => x.isStyle && x.styleEnabled).map fun i =>
      textContent (lookDocument.dataOf (forestOf lookChildren i))) = ["1", "2"] := by decide +kernel
  refine ⟨ua, [("p", c1), ("*", c2)], ua, [("*", c2), ("i", c3), ("p", c1)], ⟨⟨[lookUserAgent], lookUaSet, rfl, hsort, hua⟩, ?_⟩,
    ⟨⟨[lookUserAgent], lookUaSet, rfl, hsort, hua⟩, ?_⟩, ⟨rfl, rfl, fun _ _ => rfl, fun n k => ?_⟩, rfl, rfl⟩
  · rw [htexts]
    exact .rule ["p"] _ _ _ _ h1 (.rule ["*"] _ _ _ _ h2 .nil)
  · rw [htexts]
    exact .invalid _ _ (.rule ["*"] _ _ _ _ h2 (.rule ["i"] _ _ _ _ h3 (.rule ["p"] _ _ _ _ h1 .nil)))
  · exact ((C87_unmatched [("*", c2)] [("p", c1)] ("i", c3) (lookDocument_noItalics n) k).trans
      (C87_exchange [] [] ("*", c2) ("p", c1) (show lookSpecificity "*" ≠ lookSpecificity "p" by decide) k)).symm

/-- Both style systems can read their sheets. -/
example : (parseStylesheets lookEngine lookDocument).isSome ∧ (parseStylesheets orderEngine lookDocument).isSome := by
  refine ⟨by rw [lookSet_parsed]; rfl, ?_⟩
  have h1 : lookDocument.stylesheetTexts lookDocument.nodes.length lookDocument.styleElements = some ["1", "2"] := by decide +kernel
  obtain ⟨set, h2⟩ : ∃ set, addStylesheets orderEngine.colors ⟨[]⟩ (["1", "2"].map orderEngine.rulesOf) = .ok set := ⟨_, rfl⟩
  simp only [parseStylesheets, h1, h2]
  rfl

end Verif.Layout
