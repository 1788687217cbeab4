/- C94 and C99 for documents with absolutely positioned elements between blocks. -/
import Verif.Layout.AsideTheorems
import Verif.Layout.AfterTheorems
import Verif.Layout.AnywhereTheorems
namespace Verif.Layout
open Verif.Style Verif.Style.Spec Verif.Text Verif.Pdf Verif.Dom

/-! ### What is in the tree without absolutely positioned elements -/

theorem allSupported_append {b : Bool} : ∀ {ms ns : List StyledNode}, allSupported b ms → allSupported b ns → allSupported b (ms ++ ns)
  | [], _, _, h => h
  | _ :: _, _, h, h' => ⟨h.1, allSupported_append h.2 h'⟩

theorem nodesAll_append' {P : ComputedValues → List StyledNode → Prop} : ∀ {ms ns : List StyledNode}, nodesAll P ms → nodesAll P ns →
    nodesAll P (ms ++ ns)
  | [], _, _, h => h
  | _ :: _, _, h, h' => ⟨h.1, nodesAll_append' h.2 h'⟩

theorem visibleTexts_append' : ∀ (ms ns : List StyledNode), visibleTexts (ms ++ ns) = visibleTexts ms ++ visibleTexts ns
  | [], _ => rfl
  | m :: ms, ns => by simp [visibleTexts, visibleTexts_append' ms ns]

mutual
theorem settled_supported : ∀ (n : StyledNode) (b : Bool), n.Supported b → allSupported b n.settled
  | .ignored, _, _ => ⟨trivial, trivial⟩
  | .text _, _, _ => ⟨trivial, trivial⟩
  | .element s children, b, h => by
    unfold StyledNode.settled
    split
    · exact ⟨h, trivial⟩
    split
    · exact trivial
    refine ⟨?_, trivial⟩
    unfold StyledNode.Supported at h ⊢
    split at h
    · trivial
    · exact nodesSettled_supported children b h
    · exact nodesSettled_supported children true h
    · exact h
    · split at h
      · rename_i hc; rw [if_pos hc]; exact nodesSettled_supported children false h
      · rename_i hc; rw [if_neg hc]; exact ⟨h.1, nodesSettled_supported children false h.2⟩
theorem nodesSettled_supported : ∀ (ns : List StyledNode) (b : Bool), allSupported b ns → allSupported b (nodesSettled ns)
  | [], _, h => h
  | n :: ns, b, h => allSupported_append (settled_supported n b h.1) (nodesSettled_supported ns b h.2)
end

mutual
theorem settled_all {P : ComputedValues → Prop} : ∀ (n : StyledNode), n.All (fun s _ => P s) → nodesAll (fun s _ => P s) n.settled
  | .ignored, _ => ⟨trivial, trivial⟩
  | .text _, _ => ⟨trivial, trivial⟩
  | .element s children, h => by
    unfold StyledNode.settled
    split
    · exact ⟨h, trivial⟩
    split
    · exact trivial
    rename_i hd _
    rcases h with h | h
    · exact absurd h hd
    · exact ⟨.inr ⟨h.1, nodesSettled_all children h.2⟩, trivial⟩
theorem nodesSettled_all {P : ComputedValues → Prop} : ∀ (ns : List StyledNode), nodesAll (fun s _ => P s) ns →
    nodesAll (fun s _ => P s) (nodesSettled ns)
  | [], h => h
  | n :: ns, h => nodesAll_append' (settled_all n h.1) (nodesSettled_all ns h.2)
end

mutual
theorem settled_texts : ∀ (n : StyledNode), ∀ c ∈ visibleTexts n.settled, c ∈ n.visibleText
  | .ignored, c, h => by simpa [StyledNode.settled, visibleTexts] using h
  | .text _, c, h => by simpa [StyledNode.settled, visibleTexts] using h
  | .element s children, c, h => by
    unfold StyledNode.settled at h
    split at h
    · simpa [visibleTexts] using h
    split at h
    · simp [visibleTexts] at h
    rename_i hd _
    simp only [visibleTexts, StyledNode.visibleText, hd, if_false, List.append_nil] at h ⊢
    exact nodesSettled_texts children c h
theorem nodesSettled_texts : ∀ (ns : List StyledNode), ∀ c ∈ visibleTexts (nodesSettled ns), c ∈ visibleTexts ns
  | [], _, h => h
  | n :: ns, c, h => by
    rw [nodesSettled, visibleTexts_append', List.mem_append] at h
    rw [visibleTexts, List.mem_append]
    rcases h with h | h
    · exact .inl (settled_texts n c h)
    · exact .inr (nodesSettled_texts ns c h)
end

section
variable {R Er σ Err : Type} (P : Painter R Er) (E : Engine σ) (font : FontApi Rat Err) (d d' : Document)

/-- The document without its absolutely positioned elements can be laid out, and what is seen of it is seen of the document. -/
theorem settled_layout {F : Forest} {rootStyle : ComputedValues} {tree : List StyledNode} {hidden : List Nat}
    (h : Denotes E d F rootStyle tree hidden) (hp : positionOf rootStyle ≠ .absolute) (ha : nodesApart .between tree)
    (hsp : Shapable font 32) (htext : ∀ c ∈ visibleTexts (nodesSettled tree), Shapable font c) {fuel : Nat} {schedule : Oracle}
    {viewport : Vec2 Rat} {fragments : List Fragment} (hl : layoutDocument E font d fuel schedule viewport = some fragments) :
    ∃ root m flow, constructRoot rootStyle (nodesSettled tree) = some root ∧ layoutRoot font m schedule root viewport = some flow ∧
      ∀ asc, (inkOf asc ⟨0, 0⟩ flow).Sublist (inkOf asc ⟨0, 0⟩ fragments) := by
  unfold layoutDocument at hl
  rcases hc : constructDocument E d fuel with _ | root
  · simp [hc] at hl
  simp only [hc] at hl
  obtain ⟨h1, -⟩ := constructDocument_sound h hc
  have hd : displayOf rootStyle ≠ .none := by
    obtain ⟨_, _, _, _, _, h4, _⟩ := h.styled
    exact h4
  have hcomp : nodesAll (fun s _ => Computed s) tree := by
    obtain ⟨_, _, _, _, _, _, t⟩ := h.styled
    exact t.computed fun _ _ _ hs => nodeStyle_computed hs
  have hsup : allSupported false tree := by
    refine (C42_supported_partial rootStyle tree).1 ?_
    rcases c1 : constructContainer rootStyle tree with _ | ⟨c, f⟩
    · exfalso
      unfold constructRoot at h1
      rcases hdd : displayOf rootStyle with _ | _ | ⟨o, i⟩
      · exact hd hdd
      · simp [hdd, c1] at h1
      · simp [hdd, c1] at h1
    · exact ⟨c, f, rfl⟩
  obtain ⟨root', h2, h3⟩ := C42_layout hsp rootStyle (nodesSettled tree) (nodesSettled_all tree hcomp) htext
    (nodesSettled_supported tree false hsup)
  obtain ⟨flow, hf⟩ := h3 _ (Nat.le_refl _) schedule viewport
  exact ⟨root', _, flow, h2, hf, fun asc => layoutRoot_settled hp ha h1 h2 hl hf asc _⟩

private theorem see_text (l : List Shape) : l.flatMap Look.ofText.see = l.filter Shape.isText := by
  induction l with
  | nil => rfl
  | cons a l ih =>
    rw [List.flatMap_cons, ih, List.filter_cons]
    show (if a.isText then [a] else []) ++ _ = _
    split <;> rfl

/-- **C99** for documents with absolutely positioned elements between blocks: if without these elements two documents end in the same way,
the text after the difference is found on both pages, all of it further down in one of them by the same distance, among what is in flow (which
is there whether the absolutely positioned elements are or not, C100). -/
theorem C99_asides_partial (F F' : Forest) (rootStyle : ComputedValues) (tree tree' : List StyledNode) (hidden hidden' after : List Nat)
    (h : Denotes E d F rootStyle tree hidden) (h' : Denotes E d' F' rootStyle tree' hidden') (hs : InFlowStyle rootStyle)
    (hap : nodesApart .between tree) (hap' : nodesApart .between tree')
    (hf : nodesAll (fun s _ => InFlowStyle s) (nodesSettled tree)) (hf' : nodesAll (fun s _ => InFlowStyle s) (nodesSettled tree'))
    (ha : AgreeAfter (fun _ => True) (nodesSettled tree) (nodesSettled tree') after) (hsp : Shapable font 32)
    (ht : ∀ c ∈ visibleTexts (nodesSettled tree), Shapable font c) (ht' : ∀ c ∈ visibleTexts (nodesSettled tree'), Shapable font c)
    {fuel fuel' : Nat} {schedule schedule' : Oracle} {viewport : Vec2 Rat} {fragments fragments' : List Fragment}
    (hl : layoutDocument E font d fuel schedule viewport = some fragments)
    (hl' : layoutDocument E font d' fuel' schedule' viewport = some fragments') (ascender : Rat)
    {placed placed' : List (Fragment × Vec2 Rat)} (hpl : Placed ⟨0, 0⟩ fragments placed) (hpl' : Placed ⟨0, 0⟩ fragments' placed') :
    ∃ (flow flow' : List Shape) (distance : Rat) (common rest rest' : List Shape) (text : _) (glyphs : _), flow.Sublist (shapesOf ascender placed) ∧ flow'.Sublist (shapesOf ascender placed') ∧
      flow.filter Shape.isText = rest ++ common ∧ flow'.filter Shape.isText = rest' ++ common.map (Shape.down distance) ∧
      common.flatMap Shape.ids = glyphs.map Prod.snd ∧ Shown font text glyphs ∧ inked (text.map Prod.snd) = inked after := by
  obtain ⟨root, m, fl, c1, l1, s1⟩ := settled_layout E font d h hs.1 hap hsp ht hl
  obtain ⟨root', m', fl', c2, l2, s2⟩ := settled_layout E font d' h' hs.1 hap' hsp ht' hl'
  have hd : displayOf rootStyle ≠ .none := by
    obtain ⟨_, _, _, _, _, h4, _⟩ := h.styled
    exact h4
  obtain ⟨x, common, rest, rest', text, glyphs, e1, e2, e3⟩ := after_roots (v := .ofText) font Look.ofText_level hd hs trivial hf hf' ha c1 c2 l1 l2 ascender
  rw [textOf, see_text] at e1 e2
  refine ⟨_, _, x, common, rest, rest', text, glyphs, (s1 ascender).trans ?_, (s2 ascender).trans ?_, e1, e2, e3⟩
  · rw [← hpl.ink]; exact List.filter_sublist
  · rw [← hpl'.ink]; exact List.filter_sublist

/-- **C94** for documents with absolutely positioned elements between blocks: if without these elements two documents begin in the same
way, the text before the difference is found on both pages at the same places, among what is in flow (which is there whether the absolutely
positioned elements are or not, C100). -/
theorem C94_asides_partial (F F' : Forest) (rootStyle : ComputedValues) (tree tree' : List StyledNode) (hidden hidden' before : List Nat)
    (h : Denotes E d F rootStyle tree hidden) (h' : Denotes E d' F' rootStyle tree' hidden') (hs : InFlowStyle rootStyle)
    (hap : nodesApart .between tree) (hap' : nodesApart .between tree')
    (hf : nodesAll (fun s _ => InFlowStyle s) (nodesSettled tree)) (hf' : nodesAll (fun s _ => InFlowStyle s) (nodesSettled tree'))
    (hn : nodesAll (fun s _ => NotByHeight s) (nodesSettled tree)) (hn' : nodesAll (fun s _ => NotByHeight s) (nodesSettled tree'))
    (ha : SameUntil (nodesSettled tree) (nodesSettled tree') before) (hsp : Shapable font 32)
    (ht : ∀ c ∈ visibleTexts (nodesSettled tree), Shapable font c) (ht' : ∀ c ∈ visibleTexts (nodesSettled tree'), Shapable font c)
    {fuel fuel' : Nat} {schedule schedule' : Oracle} {viewport : Vec2 Rat} {fragments fragments' : List Fragment}
    (hl : layoutDocument E font d fuel schedule viewport = some fragments)
    (hl' : layoutDocument E font d' fuel' schedule' viewport = some fragments') (ascender : Rat)
    {placed placed' : List (Fragment × Vec2 Rat)} (hpl : Placed ⟨0, 0⟩ fragments placed) (hpl' : Placed ⟨0, 0⟩ fragments' placed') :
    ∃ (flow flow' common rest rest' : List Shape) (text : _) (glyphs : _), flow.Sublist (shapesOf ascender placed) ∧ flow'.Sublist (shapesOf ascender placed') ∧
      flow.flatMap (Shape.each font) = common ++ rest ∧ flow'.flatMap (Shape.each font) = common ++ rest' ∧
      common.flatMap Shape.ids = glyphs.map Prod.snd ∧ Shown font text glyphs ∧ inked (beforeLastWord before) <+: inked (text.map Prod.snd) ∧
      inked (text.map Prod.snd) <+: inked before := by
  obtain ⟨root, m, fl, c1, l1, s1⟩ := settled_layout E font d h hs.1 hap hsp ht hl
  obtain ⟨root', m', fl', c2, l2, s2⟩ := settled_layout E font d' h' hs.1 hap' hsp ht' hl'
  have hd : displayOf rootStyle ≠ .none := by
    obtain ⟨_, _, _, _, _, h4, _⟩ := h.styled
    exact h4
  obtain ⟨common, rest, rest', text, glyphs, e1, e2, e3⟩ := anywhere_roots font hd hs hf hf' hn hn' ha c1 c2 l1 l2 ascender
  refine ⟨_, _, common, rest, rest', text, glyphs, (s1 ascender).trans ?_, (s2 ascender).trans ?_, e1, e2, e3⟩
  · rw [← hpl.ink]; exact List.filter_sublist
  · rw [← hpl'.ink]; exact List.filter_sublist

end

/-! ### Example -/

/-- `exampleEngine` with `aside { position: absolute; top: 50px }` and `head` not displayed. -/
def sideEngine : Engine String :=
  { exampleEngine with
    ua := ⟨[("html", displayBlock (.generatingBox .block .flow)),
            ("div", displayBlock (.generatingBox .block .flow)),
            ("p", displayBlock (.generatingBox .block .flow)),
            ("aside", { declarations := [.value .display (.generatingBox .block .flow), .value .position (.absolute : Position),
                                         .value .top (.length (.absolute 50))],
                        important := [false, false, false], anyNormal := ⟨false, true⟩ }),
            ("head", displayBlock .none)]⟩ }

/-- `<html><head></head><div><aside>a</aside>…<p>c</p></div></html>` with this text. -/
def sideDocument (text : String) : Document :=
  { Document.new with nodes :=
    [ Node.new .document,
      ⟨none, none, none, some 2, some 2, .document⟩,
      exampleElement "html" (some 1) none none (some 3) (some 4),
      exampleElement "head" (some 2) (some 4) none none none,
      exampleElement "div" (some 2) none (some 3) (some 5) (some 8),
      exampleElement "aside" (some 4) (some 7) none (some 6) (some 6),
      ⟨some 5, none, none, none, none, .text "a"⟩,
      ⟨some 4, some 8, some 5, none, none, .text text⟩,
      exampleElement "p" (some 4) none (some 7) (some 9) (some 9),
      ⟨some 8, none, none, none, none, .text "c"⟩ ] }

/-- The styles of the elements of `sideDocument`. -/
def sideStyle (n : Nat) (parent : Option ComputedValues) : ComputedValues :=
  (nodeStyle sideEngine ⟨[]⟩ (sideDocument "") n parent).getD spanStyle

/-- The contents of `sideDocument`. -/
def sideTree (text : String) : List StyledNode :=
  let html := sideStyle 2 none
  let div := sideStyle 4 (some html)
  [.element (sideStyle 3 (some html)) [],
    .element div [.element (sideStyle 5 (some div)) [.text (codes "a")], .text (codes text),
      .element (sideStyle 8 (some div)) [.text (codes "c")]]]

/-- The contents of `sideDocument` without its `aside`. -/
def sideFlow (text : String) : List StyledNode :=
  let html := sideStyle 2 none
  let div := sideStyle 4 (some html)
  [.element (sideStyle 3 (some html)) [],
    .element div [.text (codes text), .element (sideStyle 8 (some div)) [.text (codes "c")]]]

/-- A short text, and one that begins with it and takes two lines. -/
def oneLineText : String := "b b"
def twoLinesText : String := "b bbbbbbbbbbbbbbbbbbbbbbbbb bbbbbbbbbbbbbbbbbbbbbbbbbbb"

theorem sideEngine_sheets {d : Document} (h : d.styleElements = []) : parseStylesheets sideEngine d = some ⟨[]⟩ := by
  simp [parseStylesheets, h, Document.stylesheetTexts, addStylesheets, StyleSet.finish]

/-- The hypotheses of C94 and C99 for documents with absolutely positioned elements are met by these documents. -/
theorem sideDocument_moves :
    Denotes sideEngine (sideDocument oneLineText) (forestOf longerChildren) (sideStyle 2 none) (sideTree oneLineText) [3] ∧
    Denotes sideEngine (sideDocument twoLinesText) (forestOf longerChildren) (sideStyle 2 none) (sideTree twoLinesText) [3] ∧
    InFlowStyle (sideStyle 2 none) ∧ (∀ text, nodesApart .between (sideTree text) ∧ nodesSettled (sideTree text) = sideFlow text ∧
      nodesAll (fun s _ => InFlowStyle s) (sideFlow text) ∧ nodesAll (fun s _ => NotByHeight s) (sideFlow text)) ∧
    AgreeAfter (fun _ => True) (sideFlow oneLineText) (sideFlow twoLinesText) (codes "c") ∧
    SameUntil (sideFlow oneLineText) (sideFlow twoLinesText) (codes "b b") ∧
    ((layoutDocument sideEngine exampleFont (sideDocument oneLineText) 9 inOrder ⟨600, 800⟩).map fun fs => (textOf .ofText 1 ⟨0, 0⟩ fs)) =
      some [.glyphs (codes "b b") 16 ⟨0, 16⟩ ⟨0, 0, 0, 255⟩, .glyphs (codes "c") 16 ⟨0, 176 / 5⟩ ⟨0, 0, 0, 255⟩,
        .glyphs (codes "a") 16 ⟨0, 66⟩ ⟨0, 0, 0, 255⟩] ∧
    ((layoutDocument sideEngine exampleFont (sideDocument twoLinesText) 9 inOrder ⟨600, 800⟩).map fun fs => (textOf .ofText 1 ⟨0, 0⟩ fs).drop 2) =
      some [.glyphs (codes "c") 16 ⟨0, 272 / 5⟩ ⟨0, 0, 0, 255⟩, .glyphs (codes "a") 16 ⟨0, 66⟩ ⟨0, 0, 0, 255⟩] := by
  have den : ∀ text ∈ [oneLineText, twoLinesText], Denotes sideEngine (sideDocument text) (forestOf longerChildren) (sideStyle 2 none)
      (sideTree text) [3] := by
    intro text ht
    have hcheck : treeCheck (sideDocument text) longerChildren = true := by
      simp only [List.mem_cons, List.not_mem_nil, or_false] at ht
      rcases ht with rfl | rfl <;> decide +kernel
    refine ⟨represents_of_check hcheck, acyclic_of_check hcheck, ⟨[]⟩, 2, sideEngine_sheets rfl, rfl, rfl, by decide +kernel, ?_⟩
    exact .none (n := 3) (hidden := []) rfl rfl rfl (by decide +kernel)
      (.element (belowHidden := []) (hidden := []) (n := 4) rfl rfl rfl (by decide +kernel)
        (.element (belowHidden := []) (hidden := []) (n := 5) rfl rfl rfl (by decide +kernel) (.text (n := 6) rfl rfl .nil)
          (.text (n := 7) rfl rfl (.element (belowHidden := []) (hidden := []) (n := 8) rfl rfl rfl (by decide +kernel) (.text (n := 9) rfl rfl .nil) .nil))) .nil)
  have d3 : displayOf (sideStyle 3 (some (sideStyle 2 none))) = .none := by decide +kernel
  have d4 : displayOf (sideStyle 4 (some (sideStyle 2 none))) = .generatingBox .block .flow := by decide +kernel
  have a4 : positionOf (sideStyle 4 (some (sideStyle 2 none))) = .static := by decide +kernel
  have f4 : floatOf (sideStyle 4 (some (sideStyle 2 none))) = .none := by decide +kernel
  have d5 : displayOf (sideStyle 5 (some (sideStyle 4 (some (sideStyle 2 none))))) = .generatingBox .block .flow := by decide +kernel
  have a5 : positionOf (sideStyle 5 (some (sideStyle 4 (some (sideStyle 2 none))))) = .absolute := by decide +kernel
  have d8 : displayOf (sideStyle 8 (some (sideStyle 4 (some (sideStyle 2 none))))) = .generatingBox .block .flow := by decide +kernel
  have a8 : positionOf (sideStyle 8 (some (sideStyle 4 (some (sideStyle 2 none))))) = .static := by decide +kernel
  have f8 : floatOf (sideStyle 8 (some (sideStyle 4 (some (sideStyle 2 none))))) = .none := by decide +kernel
  refine ⟨den _ (by simp), den _ (by simp), ⟨by decide +kernel, by decide +kernel⟩, fun text => ⟨?_, ?_, ?_, ?_⟩, ?_, ?_, ?_, ?_⟩
  · simp [sideTree, nodesApart, StyledNode.Apart, StyledNode.after, d3, d4, d5, d8, a4, a5, a8, f4, f8]
  · simp [sideTree, sideFlow, nodesSettled, StyledNode.settled, IsAside, d3, d4, d5, d8, a4, a5, a8]
  · simp [sideFlow, nodesAll, StyledNode.All, InFlowStyle, d3, d4, d8, a4, a8, f4, f8]
  · simp [sideFlow, nodesAll, StyledNode.All, NotByHeight, d3, d4, d8]
  · exact AgreeAfter.inside (a := [_]) (b := [_]) (post := []) (after := codes "c") ⟨⟨.flow, d4⟩, by decide +kernel, f4⟩
      rfl trivial (AgreeAfter.here (a := [_]) (b := [_]) (.block ⟨⟨.flow, d8⟩, by decide +kernel, f8⟩))
  · exact SameUntil.inside (pre := [_]) (a := []) (b := []) (before := codes "b b") (by rw [d4]; simp)
      (SameUntil.text (pre := []) (t := codes "b b") (u := []) (u' := codes "bbbbbbbbbbbbbbbbbbbbbbbb bbbbbbbbbbbbbbbbbbbbbbbbbbb"))
  · have hp : parseStylesheets sideEngine (sideDocument oneLineText) = some ⟨[]⟩ := sideEngine_sheets rfl
    simp only [layoutDocument, constructDocument, hp]
    decide +kernel
  · have hp : parseStylesheets sideEngine (sideDocument twoLinesText) = some ⟨[]⟩ := sideEngine_sheets rfl
    simp only [layoutDocument, constructDocument, hp]
    decide +kernel

end Verif.Layout
