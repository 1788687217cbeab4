/- C79: documents in which the author leaves it to the user agent how elements are displayed. -/
import Verif.Layout.PlainSpec
import Verif.Layout.BuiltInTheorems
namespace Verif.Layout
open Verif.Style Verif.Style.Spec Verif.Text Verif.Pdf Verif.Dom
open Verif.Font (Font isChar NameText FontError vera veraFont veraGlyphs)

/-- Where the author sets neither, an element neither floats nor is positioned. -/
theorem default_static {σ : Type} {colors : Colors} {tokenize : String → List Item} {specificity : σ → Nat} {isMatch : σ → Bool}
    {embed : UaSelector → σ} {authorSheets : List (List (SourceRule σ))} {uaSet authorSet : StyleSet σ} {e : ElementData}
    {parent : Option ComputedValues} {style : ComputedValues} {author : List (σ × List (Declaration × Bool))}
    {attr : List (Declaration × Bool)}
    (hua : addStylesheets colors ⟨[]⟩ [userAgentSheet embed] = .ok uaSet) (hauthor : addStylesheets colors ⟨[]⟩ authorSheets = .ok authorSet)
    (hstyle : styleForElement colors tokenize (uaSet.finish specificity) (authorSet.finish specificity) isMatch e parent = .ok style)
    (Hauthor : Appearances colors authorSheets.flatten author) (Hattr : AttrContents colors tokenize e attr)
    (ha : ∀ p, p = .position ∨ p = .float → ¬ AuthorSets isMatch author attr p) :
    positionOf style = .static ∧ floatOf style = .none := by
  have Hua : Appearances colors [userAgentSheet embed].flatten (uaContents embed) := by simpa using ua_appearances colors embed
  obtain ⟨v, hf, hw, hu⟩ := C28_winner hua hauthor hstyle Hua Hauthor Hattr
  have other : ∀ p, p = .position ∨ p = .float → v p = unset (parentValues parent) p := by
    intro p hp
    have hn := no_candidate (specificity := specificity) (embed := embed) (ha p hp) (by
      intro i t k _ _ d hd
      rcases hp with rfl | rfl <;> cases k <;> simp [UaKind.contents] at hd
      all_goals first | (obtain rfl := hd; simp [Declaration.longhand]) | (rcases hd with rfl | rfl | rfl <;> simp [Declaration.longhand]) | (rcases hd with rfl | rfl | rfl | rfl <;> simp [Declaration.longhand]))
    rcases hu p with ⟨c, hc, hd⟩ | ⟨_, h⟩
    · exact absurd hd (hn c hc.1)
    · exact h
  refine ⟨?_, ?_⟩
  · show style.values .position = _
    rw [hf.others .position (by decide) (by decide) (by decide) (by decide) (by decide), other .position (.inl rfl)]
    rfl
  · show style.values .float = _
    rw [hf.others .float (by decide) (by decide) (by decide) (by decide) (by decide), other .float (.inr rfl)]
    rfl

section
variable {σ : Type} {E : Engine σ} {embed : UaSelector → σ} {d : Document} {F : Forest}

/-- Every element has a style, with the default value of `display`. -/
theorem plain_style (hE : HasUserAgent E embed) (ha : AuthorLeavesDisplay E d) : ∃ set, parseStylesheets E d = some set ∧
    ∀ (n : Nat) (node : Node) e D (parent : Option ComputedValues), d.nodes[n]? = some node → node.data = .element e → DefaultDisplay e D →
      ∃ style, nodeStyle E set d n parent = some style ∧ displayOf style = D ∧ positionOf style = .static ∧ floatOf style = .none := by
  obtain ⟨texts, set, author, h1, h2, h3, h4⟩ := ha
  obtain ⟨ua, hua, he⟩ := hE.rules
  refine ⟨set.finish E.specificity, by simp only [parseStylesheets, h1, h2], ?_⟩
  intro n node e D parent hn hd hD
  obtain ⟨⟨block, hb⟩, attr, hattr, hsets⟩ := h4 n node e hn hd
  have hstyle : ∃ style, styleForElement E.colors E.tokenize (ua.finish E.specificity) (set.finish E.specificity) (fun s => E.isMatch s d n) e
      parent = .ok style := by
    simp only [styleForElement, hb]
    exact ⟨_, rfl⟩
  obtain ⟨style, hstyle⟩ := hstyle
  refine ⟨style, ?_, ?_, default_static hua h2 hstyle h3 hattr fun p hp => hsets p (.inr hp)⟩
  · have hel : (d.get n).bind Node.asElement = some e := by
      show (d.nodes[n]?).bind Node.asElement = some e
      rw [hn]
      simp [Node.asElement, hd]
    simp only [nodeStyle, hel, he, hstyle]
  · exact (C76_display_partial (fun t => hE.isMatch t d n node e hn hd) hE.specificity hua h2 hstyle h3 hattr (hsets _ (.inl rfl)) D hD).2
      (hsets _ (.inr (.inl rfl))) (hsets _ (.inr (.inr rfl)))

theorem hasNext_of (hF : Represents d F) {p n : Nat} {before after : List Nat} (h : F p = before ++ n :: after) (ha : after ≠ []) :
    HasNext d n := by
  obtain ⟨node, hn, hl⟩ := hF.child p before n after h
  rcases after with _ | ⟨m, after⟩
  · exact absurd rfl ha
  · exact ⟨node, m, hn, hl.next⟩

/-- The styled tree of plain content. -/
theorem Plain.styled (hF : Represents d F) {style : Nat → ComputedValues → Option ComputedValues}
    (hstyle : ∀ (n : Nat) (node : Node) e D (parent : ComputedValues), d.nodes[n]? = some node → node.data = .element e → DefaultDisplay e D →
      ∃ s, style n parent = some s ∧ displayOf s = D ∧ positionOf s = .static ∧ floatOf s = .none)
    {b : Bool} {ns text : List Nat} (h : Plain d F b ns text) : ∀ (parent : ComputedValues) (p : Nat) (before : List Nat), F p = before ++ ns →
    ∃ tree hidden, StyledTree d F style parent ns tree hidden ∧ (∀ x ∈ hidden, HasNext d x) ∧ allSupported b tree ∧
      nodesAll (fun s _ => floatOf s = .none ∧ positionOf s ≠ .absolute) tree ∧ visibleTexts tree = text := by
  induction h with
  | nil => exact fun _ _ _ _ => ⟨[], [], .nil, by simp, trivial, trivial, rfl⟩
  | ignored hn hd _ ih =>
    intro parent p before hp
    obtain ⟨tree, hidden, h1, h2, h3, h4, h5⟩ := ih parent p (before ++ [_]) (by simpa using hp)
    exact ⟨_, _, .ignored hn hd h1, h2, ⟨trivial, h3⟩, ⟨trivial, h4⟩, h5⟩
  | text hn hd _ ih =>
    intro parent p before hp
    obtain ⟨tree, hidden, h1, h2, h3, h4, h5⟩ := ih parent p (before ++ [_]) (by simpa using hp)
    exact ⟨_, _, .text hn hd h1, h2, ⟨trivial, h3⟩, ⟨trivial, h4⟩, by rw [visibleTexts, h5]; rfl⟩
  | hidden hn hd hD hne _ ih =>
    intro parent p before hp
    obtain ⟨tree, hidden, h1, h2, h3, h4, h5⟩ := ih parent p (before ++ [_]) (by simpa using hp)
    obtain ⟨s, hs, hdis, _, _⟩ := hstyle _ _ _ _ parent hn hd hD
    refine ⟨_, _, .none hn hd hs hdis h1, ?_, ⟨by simp [StyledNode.Supported, hdis], h3⟩, ⟨.inl hdis, h4⟩, ?_⟩
    · intro x hx
      rcases List.mem_cons.1 hx with rfl | hx
      · exact hasNext_of hF hp hne
      · exact h2 x hx
    · rw [visibleTexts, h5]
      simp [StyledNode.visibleText, hdis]
  | @inline b n ns e inner text node hn hd hD _ _ ihc ih =>
    intro parent p before hp
    obtain ⟨s, hs, hdis, hpos, hfl⟩ := hstyle _ _ _ _ parent hn hd hD
    obtain ⟨below, hiddenBelow, c1, c2, c3, c4, c5⟩ := ihc s n [] rfl
    obtain ⟨tree, hidden, h1, h2, h3, h4, h5⟩ := ih parent p (before ++ [_]) (by simpa using hp)
    refine ⟨_, _, .element hn hd hs (by rw [hdis]; simp) c1 h1, ?_, ⟨by simpa [StyledNode.Supported, hdis] using c3, h3⟩,
      ⟨.inr ⟨⟨hfl, by rw [hpos]; decide⟩, c4⟩, h4⟩, ?_⟩
    · intro x hx
      rcases List.mem_append.1 hx with hx | hx
      · exact c2 x hx
      · exact h2 x hx
    · rw [visibleTexts, h5]
      simp [StyledNode.visibleText, hdis, c5]
  | @block n ns e inner text node hn hd hD _ _ ihc ih =>
    intro parent p before hp
    obtain ⟨s, hs, hdis, hpos, hfl⟩ := hstyle _ _ _ _ parent hn hd hD
    obtain ⟨below, hiddenBelow, c1, c2, c3, c4, c5⟩ := ihc s n [] rfl
    obtain ⟨tree, hidden, h1, h2, h3, h4, h5⟩ := ih parent p (before ++ [_]) (by simpa using hp)
    refine ⟨_, _, .element hn hd hs (by rw [hdis]; simp) c1 h1, ?_,
      ⟨by simpa [StyledNode.Supported, hdis, hpos, hfl] using c3, h3⟩,
      ⟨.inr ⟨⟨hfl, by rw [hpos]; decide⟩, c4⟩, h4⟩, ?_⟩
    · intro x hx
      rcases List.mem_append.1 hx with hx | hx
      · exact c2 x hx
      · exact h2 x hx
    · rw [visibleTexts, h5]
      simp [StyledNode.visibleText, hdis, c5]

/-- The styled tree of a plain document. -/
theorem plain_denotes (hE : HasUserAgent E embed) (ha : AuthorLeavesDisplay E d) (hF : Represents d F) (hac : F.Acyclic)
    {root : Nat} {node : Node} {e : ElementData} {D : Display} {text : List Nat} (hr : d.rootElement d.nodes.length = some root)
    (hn : d.nodes[root]? = some node) (hd : node.data = .element e) (hD : DefaultDisplay e D) (hD' : D ≠ .none)
    (ht : Plain d F false (F root) text) :
    ∃ rootStyle tree hidden, Denotes E d F rootStyle tree hidden ∧ (∀ x ∈ hidden, HasNext d x) ∧ allSupported false tree ∧
      (floatOf rootStyle = .none ∧ nodesAll (fun s _ => floatOf s = .none) tree) ∧
      (positionOf rootStyle ≠ .absolute ∧ nodesAll (fun s _ => positionOf s ≠ .absolute) tree) ∧ visibleTexts tree = text := by
  obtain ⟨set, hset, hstyle⟩ := plain_style hE ha
  obtain ⟨rootStyle, r1, r2, r3, r4⟩ := hstyle root node e D none hn hd hD
  obtain ⟨tree, hidden, h1, h2, h3, h4, h5⟩ := ht.styled hF (fun n node e D parent => hstyle n node e D (some parent)) rootStyle root [] rfl
  exact ⟨rootStyle, tree, hidden, ⟨hF, hac, set, root, hset, hr, r1, by rw [r2]; exact hD', h1⟩, h2, h3,
    ⟨r4, nodesAll_mono (fun _ _ h => h.1) tree h4⟩, ⟨by rw [r3]; decide, nodesAll_mono (fun _ _ h => h.2) tree h4⟩, h5⟩

end

section
variable {R σ : Type} (P : Painter R (Option FontError)) (engine : Engine σ) (embed : UaSelector → σ) (d : Document) (font : Font)
  (ems : Int → Nat → Rat) (units : Int → Nat → Int) (utf8 : NameText → List Byte)

/-- **C79**: a PDF file is made of every plain document, with the style sheet of the user agent and the built-in font. -/
theorem C79_returns_partial (hE : HasUserAgent engine embed) (ha : AuthorLeavesDisplay engine d) (hfont : Font.parse vera = .ok font)
    (hview : P.fontView = fontView units utf8 font) (F : Forest) (hF : Represents d F) (hac : F.Acyclic) (root : Nat) (node : Node)
    (e : ElementData) (D : Display) (text : List Nat) (hr : d.rootElement d.nodes.length = some root) (hn : d.nodes[root]? = some node)
    (hd : node.data = .element e) (hD : DefaultDisplay e D) (hD' : D ≠ .none) (ht : Plain d F false (F root) text) :
    ∃ N, ∀ fuel ≥ N, ∀ schedule : Oracle, ∃ bytes, toPdfBytes P engine (fontApi ems font) d fuel schedule = some bytes := by
  obtain ⟨rootStyle, tree, hidden, h1, h2, h3, -, -, -⟩ := plain_denotes hE ha hF hac hr hn hd hD hD' ht
  exact C78_returns_partial P engine d font ems units utf8 hfont hview F rootStyle tree hidden h1 h2 h3

/-- **C79**: when the characters that are displayed of a plain document are, but for white space, among those of the built-in font, then
there is exactly one text that a reader may copy of its page: but for white space, these characters in document order. -/
theorem C79_copy_partial (hE : HasUserAgent engine embed) (ha : AuthorLeavesDisplay engine d) (hfont : Font.parse vera = .ok font)
    (hname : AsciiNames utf8) (hview : P.fontView = fontView units utf8 font) {readReal : List Byte → Option R}
    (hre : RealText P.floats.dtoa readReal) (hl : FloatLaws P.floats) (F : Forest) (hF : Represents d F) (hac : F.Acyclic) (root : Nat)
    (node : Node) (e : ElementData) (D : Display) (text : List Nat) (hr : d.rootElement d.nodes.length = some root)
    (hn : d.nodes[root]? = some node) (hd : node.data = .element e) (hD : DefaultDisplay e D) (hD' : D ≠ .none)
    (ht : Plain d F false (F root) text) (hchars : ∀ c ∈ inked text, ∃ g, (c, g) ∈ veraGlyphs)
    {fuel : Nat} {schedule : Oracle} {bytes : List Byte}
    (hb : toPdfBytes P engine (fontApi ems font) d fuel schedule = some bytes) (hs : bytes.length ≤ 2 ^ 32) :
    ∃ m file page painted copy, (∀ fuel, m ≤ fuel → readDocument readReal fuel bytes = some file) ∧ file.pages = [page] ∧
      (∃ m, ∀ fuel, m ≤ fuel →
        paintContents readReal P.floats.zero P.floats.one (gsAlpha file.extGState) fuel page.contents = some painted) ∧
      (∀ other, Copied readReal bytes file.fonts painted other ↔ other = copy) ∧ inked copy = inked text := by
  obtain ⟨rootStyle, tree, hidden, h1, h2, h3, h4, h5, h6⟩ := plain_denotes hE ha hF hac hr hn hd hD hD' ht
  obtain ⟨m, file, page, painted, copy, c1, c2, c3, c4, -, c5⟩ := C78_copy_partial P engine d font ems units utf8 hfont hname hview hre hl F
    rootStyle tree hidden h1 h4 (by rw [h6]; exact hchars) hb hs
  exact ⟨m, file, page, painted, copy, c1, c2, c3, c4, by rw [c5 h5, h6]⟩

end

/-! ### XML documents -/

/-- What `Plain` and `XmlText` say, of trees. -/
inductive TreesText : Bool → Trees → List Nat → Prop
  | nil {b} : TreesText b .nil []
  | text {b s rest text} : TreesText b rest text → TreesText b (.text s rest) (s.toList.map Char.toNat ++ text)
  | pi {b target data rest text} : TreesText b rest text → TreesText b (.pi target data rest) text
  | hidden {b e content rest text} : DefaultDisplay e .none → rest ≠ .nil → TreesText b rest text →
      TreesText b (.element e content rest) text
  | inline {b e content rest inner text} : DefaultDisplay e (.generatingBox .inline .flow) →
      TreesText true content inner → TreesText b rest text → TreesText b (.element e content rest) (inner ++ text)
  | block {e content rest inner text} : DefaultDisplay e (.generatingBox .block .flow) →
      TreesText false content inner → TreesText false rest text → TreesText false (.element e content rest) (inner ++ text)

theorem TreesText.textCons {b : Bool} {t : Trees} {text : List Nat} (s : String) (h : TreesText b t text) :
    TreesText b (t.textCons s) (s.toList.map Char.toNat ++ text) := by
  cases h with
  | @text _ s' rest text h =>
    have := TreesText.text (s := s ++ s') h
    simpa [Trees.textCons] using this
  | nil => exact .text .nil
  | pi h => exact .text (.pi h)
  | hidden h1 h2 h3 => exact .text (.hidden h1 h2 h3)
  | inline h1 h2 h3 => exact .text (.inline h1 h2 h3)
  | block h1 h2 h3 => exact .text (.block h1 h2 h3)

theorem Comes.ne_nil : ∀ {c : XmlContent}, Comes c → c.trees ≠ .nil
  | .text _ r, _ => by
    show r.trees.textCons _ ≠ _
    cases r.trees <;> simp [Trees.textCons]
  | .pi _ _ _, _ => by simp [XmlContent.trees]
  | .comment r, h => Comes.ne_nil (c := r) h
  | .element _ _ _ _, _ => by simp [XmlContent.trees]

theorem XmlText.trees {b : Bool} {c : XmlContent} {text : List Nat} (h : XmlText b c text) : TreesText b c.trees text := by
  induction h with
  | nil => exact .nil
  | text _ ih => exact ih.textCons _
  | pi _ ih => exact .pi ih
  | comment _ ih => exact ih
  | hidden h1 h2 _ ih => exact .hidden h1 h2.ne_nil ih
  | inline h1 _ _ ih1 ih2 => exact .inline h1 ih1 ih2
  | block h1 _ _ ih1 ih2 => exact .block h1 ih1 ih2

theorem data_some {d : Document} {i : Nat} {x : NodeData} (h : (d.nodes[i]?).map Node.data = some x) :
    ∃ node, d.nodes[i]? = some node ∧ node.data = x := by
  simpa using h

theorem TreesText.plain {d : Document} {F : Forest} {b : Bool} {t : Trees} {text : List Nat} (h : TreesText b t text) :
    ∀ l, HasTrees d F l t → Plain d F b l text := by
  induction h with
  | nil =>
    intro l hl
    cases l with
    | nil => exact .nil
    | cons => exact hl.elim
  | text _ ih =>
    intro l hl
    cases l with
    | nil => exact hl.elim
    | cons i l =>
      obtain ⟨h1, h2, h3⟩ := hl
      obtain ⟨node, hn, hd⟩ := data_some h1
      exact .text hn hd (ih l h3)
  | pi _ ih =>
    intro l hl
    cases l with
    | nil => exact hl.elim
    | cons i l =>
      obtain ⟨h1, h2, h3⟩ := hl
      obtain ⟨node, hn, hd⟩ := data_some h1
      exact .ignored hn (.inr (.inr (.inr ⟨_, _, hd⟩))) (ih l h3)
  | @hidden b e content rest text hD hne _ ih =>
    intro l hl
    cases l with
    | nil => exact hl.elim
    | cons i l =>
      obtain ⟨h1, h2, h3⟩ := hl
      obtain ⟨node, hn, hd⟩ := data_some h1
      refine .hidden hn hd hD ?_ (ih l h3)
      rintro rfl
      cases rest with
      | nil => exact hne rfl
      | _ => exact h3.elim
  | inline hD _ _ ihc ih =>
    intro l hl
    cases l with
    | nil => exact hl.elim
    | cons i l =>
      obtain ⟨h1, h2, h3⟩ := hl
      obtain ⟨node, hn, hd⟩ := data_some h1
      exact .inline hn hd hD (ihc _ h2) (ih l h3)
  | block hD _ _ ihc ih =>
    intro l hl
    cases l with
    | nil => exact hl.elim
    | cons i l =>
      obtain ⟨h1, h2, h3⟩ := hl
      obtain ⟨node, hn, hd⟩ := data_some h1
      exact .block hn hd hD (ihc _ h2) (ih l h3)

/-- All elements of the document have the property. -/
def ElementsAll (Q : ElementData → Prop) (d : Document) : Prop :=
  ∀ (i : Nat) (node : Node) e, d.nodes[i]? = some node → node.data = .element e → Q e

section
variable {Q : ElementData → Prop} {d d' : Document}

theorem ElementsAll.modify (h : ElementsAll Q d) {i : Nat} {f : Node → Node} (hf : ∀ x e, (f x).data = .element e → x.data = .element e)
    (hm : d.modify i f = some d') : ElementsAll Q d' := by
  unfold Document.modify at hm
  split at hm
  · cases hm
    intro j node e hj he
    rw [List.getElem?_modify] at hj
    cases hn : d.nodes[j]? with
    | none => simp [hn] at hj
    | some node' =>
      simp only [hn, Option.map_eq_map, Option.map_some, Option.some.injEq] at hj
      subst hj
      by_cases hij : i = j
      · simp only [hij, if_true] at he
        exact h j node' e hn (hf _ _ he)
      · simp only [hij, if_false] at he
        exact h j node' e hn he
  · cases hm

/-- `modify` of links. -/
theorem ElementsAll.links (h : ElementsAll Q d) {i : Nat} {f : Node → Node} (hm : d.modify i f = some d')
    (hf : ∀ x, (f x).data = x.data := by intros; rfl) : ElementsAll Q d' :=
  h.modify (fun x e he => by rw [← hf x]; exact he) hm

theorem ElementsAll.newNode (h : ElementsAll Q d) {x : NodeData} (hx : ∀ e, x = .element e → Q e) : ElementsAll Q (d.newNode x).1 := by
  intro j node e hj he
  simp only [Document.newNode, Document.pushNode] at hj
  rw [List.getElem?_append] at hj
  split at hj
  · exact h j node e hj he
  · rw [List.getElem?_singleton] at hj
    split at hj
    · cases hj
      exact hx e he
    · cases hj

theorem ElementsAll.detach (h : ElementsAll Q d) {i : Nat} (hm : d.detach i = some d') : ElementsAll Q d' := by
  unfold Document.detach at hm
  simp only [Option.bind_eq_bind] at hm
  obtain ⟨n, -, hm⟩ := Option.bind_eq_some_iff.1 hm
  obtain ⟨d1, h1, hm⟩ := Option.bind_eq_some_iff.1 hm
  have e1 := h.links h1
  have skip : ∀ {o : Document → Option Document}, (∀ d2, ElementsAll Q d2 → ∀ d', o d2 = some d' → ElementsAll Q d') →
      ∀ {x : Option Document}, (∀ d2, x = some d2 → ElementsAll Q d2) → x.bind o = some d' → ElementsAll Q d' := by
    intro o ho x hx hb
    obtain ⟨d2, h2, hb⟩ := Option.bind_eq_some_iff.1 hb
    exact ho d2 (hx d2 h2) d' hb
  rcases hnx : n.nextSibling with _ | next <;> rcases hpa : n.parent with _ | parent <;> rcases hpr : n.previousSibling with _ | prev <;>
    simp only [hnx, hpa, hpr] at hm <;> refine skip ?_ ?_ hm
  all_goals intro d2 h2
  all_goals first
    | exact e1.links h2
    | (cases h2; exact e1)
    | skip
  all_goals intro d3 h3
  all_goals first
    | exact h2.links h3
    | (cases h3; exact h2)

theorem ElementsAll.append (h : ElementsAll Q d) {p i : Nat} (hm : d.append p i = some d') : ElementsAll Q d' := by
  unfold Document.append at hm
  simp only [Option.bind_eq_bind] at hm
  obtain ⟨d1, h1, hm⟩ := Option.bind_eq_some_iff.1 hm
  obtain ⟨d2, h2, hm⟩ := Option.bind_eq_some_iff.1 hm
  obtain ⟨n, -, hm⟩ := Option.bind_eq_some_iff.1 hm
  obtain ⟨d3, h3, hm⟩ := Option.bind_eq_some_iff.1 hm
  have e3 := ((h.detach h1).links h2).links h3
  split at hm
  · obtain ⟨d4, h4, hm⟩ := Option.bind_eq_some_iff.1 hm
    obtain ⟨l, -, hm⟩ := Option.bind_eq_some_iff.1 hm
    split at hm
    · cases hm
    · obtain ⟨d5, h5, hm⟩ := Option.bind_eq_some_iff.1 hm
      exact ((e3.links h4).links h5).links hm
  · obtain ⟨l, -, hm⟩ := Option.bind_eq_some_iff.1 hm
    split at hm
    · cases hm
    · obtain ⟨d5, h5, hm⟩ := Option.bind_eq_some_iff.1 hm
      exact (e3.links h5).links hm

theorem ElementsAll.xmlText (h : ElementsAll Q d) {p : Nat} {s : String} (hm : d.xmlText p s = some d') : ElementsAll Q d' := by
  unfold Document.xmlText at hm
  simp only [Option.bind_eq_bind] at hm
  obtain ⟨n, -, hm⟩ := Option.bind_eq_some_iff.1 hm
  split at hm
  · obtain ⟨merged, h1, hm⟩ := Option.bind_eq_some_iff.1 hm
    cases merged with
    | none => exact (h.newNode (fun e he => by cases he)).append hm
    | some d2 =>
      cases hm
      unfold Document.pushText at h1
      simp only [Option.bind_eq_bind] at h1
      obtain ⟨l, -, h1⟩ := Option.bind_eq_some_iff.1 h1
      split at h1
      · obtain ⟨d3, h3, h1⟩ := Option.bind_eq_some_iff.1 h1
        cases h1
        exact h.modify (fun _ _ h => by cases h) h3
      · cases h1
  · exact (h.newNode (fun e he => by cases he)).append hm

theorem ElementsAll.xmlLoop {ε : Type} : ∀ (events : List (Except ε XmlEvent)) {d : Document} (current : Nat) (ancestors : List Nat)
    (_ : ElementsAll Q d) (_ : ∀ n a, .ok (.startElement n a) ∈ events → Q (xmlElement n a)),
    d.xmlLoop events current ancestors = some (.ok d') → ElementsAll Q d' := by
  intro events
  induction events with
  | nil =>
    intro d cur anc h _ hm
    cases hm
    exact h
  | cons ev events ih =>
    intro d cur anc h hq hm
    have hq' : ∀ n a, .ok (.startElement n a) ∈ events → Q (xmlElement n a) := fun n a hx => hq n a (List.mem_cons_of_mem _ hx)
    match ev with
    | .error e => simp [Document.xmlLoop] at hm
    | .ok .other => exact ih cur anc h hq' hm
    | .ok .endElement =>
      cases anc with
      | nil => simp [Document.xmlLoop] at hm
      | cons a anc => exact ih a anc h hq' hm
    | .ok (.startElement n a) =>
      simp only [Document.xmlLoop, Option.bind_eq_bind, Option.bind_eq_some_iff] at hm
      obtain ⟨d1, h1, h2⟩ := hm
      exact ih _ _ ((h.newNode (fun e he => by cases he; exact hq n a List.mem_cons_self)).append h1) hq' h2
    | .ok (.text s) =>
      simp only [Document.xmlLoop, Option.bind_eq_bind, Option.bind_eq_some_iff] at hm
      obtain ⟨d1, h1, h2⟩ := hm
      exact ih _ _ (h.xmlText h1) hq' h2
    | .ok (.pi t x) =>
      simp only [Document.xmlLoop, Option.bind_eq_bind, Option.bind_eq_some_iff] at hm
      obtain ⟨d1, h1, h2⟩ := hm
      exact ih _ _ ((h.newNode (fun e he => by cases he)).append h1) hq' h2

end

theorem NoStyleAttrs.events : ∀ {x : XmlContent}, NoStyleAttrs x → ∀ n a, .startElement n a ∈ x.events →
    (xmlElement n a).getAttr "style" = none
  | .nil, _, n, a, h => by simp [XmlContent.events] at h
  | .text _ r, hx, n, a, h => by
    simp only [XmlContent.events, List.mem_cons, reduceCtorEq, false_or] at h
    exact NoStyleAttrs.events (x := r) hx n a h
  | .pi _ _ r, hx, n, a, h => by
    simp only [XmlContent.events, List.mem_cons, reduceCtorEq, false_or] at h
    exact NoStyleAttrs.events (x := r) hx n a h
  | .comment r, hx, n, a, h => by
    simp only [XmlContent.events, List.mem_cons, reduceCtorEq, false_or] at h
    exact NoStyleAttrs.events (x := r) hx n a h
  | .element n' a' c r, hx, n, a, h => by
    simp only [XmlContent.events, List.mem_append, List.mem_cons, List.cons_append, reduceCtorEq, false_or, XmlEvent.startElement.injEq] at h
    rcases h with ⟨rfl, rfl⟩ | h | h
    · simp only [ElementData.getAttr, Option.map_eq_none_iff, List.find?_eq_none, xmlElement, List.mem_map, forall_exists_index, and_imp]
      rintro _ a ha rfl
      have := hx.1 a ha
      simpa [XmlName.convert] using this
    · exact NoStyleAttrs.events (x := c) hx.2.1 n a h
    · exact NoStyleAttrs.events (x := r) hx.2.2 n a h

theorem Misc.trees {d : Document} {F : Forest} : ∀ {x : XmlContent}, Misc x → ∀ l, HasTrees d F l x.trees → ∀ y ∈ d.dataOf l, y.isMisc = true
  | .nil, _, l, hl => by
    cases l with
    | nil => simp [Document.dataOf]
    | cons => exact hl.elim
  | .comment r, hx, l, hl => Misc.trees (x := r) hx l hl
  | .pi _ _ r, hx, l, hl => by
    cases l with
    | nil => exact hl.elim
    | cons i l =>
      obtain ⟨h1, h2, h3⟩ := hl
      obtain ⟨node, hn, hd⟩ := data_some h1
      have := Misc.trees (x := r) hx l h3
      intro y hy
      simp only [Document.dataOf, List.filterMap_cons, hn, Option.map_some, List.mem_cons] at hy
      rcases hy with rfl | hy
      · rw [hd]; rfl
      · exact this y hy

theorem XmlRoot.trees {d : Document} {F : Forest} {name : XmlName} {attrs : List (XmlName × String)} {content x : XmlContent}
    (h : XmlRoot name attrs content x) : ∀ l, HasTrees d F l x.trees → ∃ pre r post, l = pre ++ r :: post ∧
      (d.nodes[r]?).map Node.data = some (.element (xmlElement name attrs)) ∧ HasTrees d F (F r) content.trees ∧
      ∀ y ∈ d.dataOf (pre ++ post), y.isMisc = true := by
  induction h with
  | root hm =>
    intro l hl
    cases l with
    | nil => exact hl.elim
    | cons i l =>
      obtain ⟨h1, h2, h3⟩ := hl
      exact ⟨[], i, l, rfl, h1, h2, hm.trees l h3⟩
  | comment _ ih => exact ih
  | pi _ ih =>
    intro l hl
    cases l with
    | nil => exact hl.elim
    | cons i l =>
      obtain ⟨h1, h2, h3⟩ := hl
      obtain ⟨pre, r, post, e, g1, g2, g3⟩ := ih l h3
      obtain ⟨node, hn, hd⟩ := data_some h1
      refine ⟨i :: pre, r, post, by rw [e]; rfl, g1, g2, ?_⟩
      intro y hy
      simp only [Document.dataOf, List.cons_append, List.filterMap_cons, hn, Option.map_some, List.mem_cons] at hy
      rcases hy with rfl | hy
      · rw [hd]; rfl
      · exact g3 y hy

/-! ### When a PDF file is made of an XML document -/

theorem comes_iff : ∀ {c : XmlContent}, Comes c ↔ c.trees ≠ .nil
  | .nil => by simp [Comes, XmlContent.trees]
  | .text _ _ => ⟨Comes.ne_nil, fun _ => trivial⟩
  | .pi _ _ _ => ⟨Comes.ne_nil, fun _ => trivial⟩
  | .comment r => comes_iff (c := r)
  | .element _ _ _ _ => ⟨Comes.ne_nil, fun _ => trivial⟩

theorem TreesText.of_textCons {b : Bool} {t : Trees} {s : String} {text : List Nat} (h : TreesText b (t.textCons s) text) :
    ∃ text, TreesText b t text := by
  cases t with
  | text s' r =>
    cases h with
    | text h => exact ⟨_, .text h⟩
  | nil => exact ⟨_, .nil⟩
  | pi _ _ _ => cases h with | text h => exact ⟨_, h⟩
  | element _ _ _ => cases h with | text h => exact ⟨_, h⟩

theorem TreesText.xml : ∀ {b : Bool} {c : XmlContent} {text : List Nat}, TreesText b c.trees text → ∃ text, XmlText b c text
  | _, .nil, _, _ => ⟨_, .nil⟩
  | _, .text s r, _, h => by
    obtain ⟨_, h⟩ := h.of_textCons
    obtain ⟨_, h⟩ := TreesText.xml (c := r) h
    exact ⟨_, .text h⟩
  | _, .pi _ _ r, _, h => by
    cases h with
    | pi h =>
      obtain ⟨_, h⟩ := TreesText.xml (c := r) h
      exact ⟨_, .pi h⟩
  | _, .comment r, _, h => by
    obtain ⟨_, h⟩ := TreesText.xml (c := r) h
    exact ⟨_, .comment h⟩
  | _, .element n a c r, _, h => by
    cases h with
    | hidden h1 h2 h3 =>
      obtain ⟨_, h⟩ := TreesText.xml (c := r) h3
      exact ⟨_, .hidden h1 (comes_iff.2 h2) h⟩
    | inline h1 h2 h3 =>
      obtain ⟨_, h⟩ := TreesText.xml (c := r) h3
      obtain ⟨_, h'⟩ := TreesText.xml (c := c) h2
      exact ⟨_, .inline h1 h' h⟩
    | block h1 h2 h3 =>
      obtain ⟨_, h⟩ := TreesText.xml (c := r) h3
      obtain ⟨_, h'⟩ := TreesText.xml (c := c) h2
      exact ⟨_, .block h1 h' h⟩

theorem defaultDisplay_cases {e : ElementData} {D : Display} (h : DefaultDisplay e D) :
    D = .none ∨ D = .generatingBox .inline .flow ∨ D = .generatingBox .block .flow := by
  cases h <;> simp

theorem hasNext_iff {d : Document} {F : Forest} (hF : Represents d F) {p n : Nat} {before after : List Nat} (h : F p = before ++ n :: after) :
    HasNext d n ↔ after ≠ [] := by
  refine ⟨?_, hasNext_of hF h⟩
  rintro ⟨node, m, hn, hm⟩ rfl
  obtain ⟨node', hn', hl⟩ := hF.child p before n [] h
  rw [hn] at hn'
  cases hn'
  have := hl.next
  rw [hm] at this
  cases this

/-- The styled tree of any trees: it is supported, and its hidden elements have next siblings, exactly if its text is determined. -/
theorem trees_styled {d : Document} {F : Forest} (hF : Represents d F) {style : Nat → ComputedValues → Option ComputedValues}
    (hstyle : ∀ (n : Nat) (node : Node) e D (parent : ComputedValues), d.nodes[n]? = some node → node.data = .element e → DefaultDisplay e D →
      ∃ s, style n parent = some s ∧ displayOf s = D ∧ positionOf s = .static ∧ floatOf s = .none) (t : Trees) :
    ∀ (l : List Nat) (parent : ComputedValues) (p : Nat) (before : List Nat), F p = before ++ l → HasTrees d F l t →
    ∃ tree hidden, StyledTree d F style parent l tree hidden ∧
      ∀ b, (∀ x ∈ hidden, HasNext d x) ∧ allSupported b tree → ∃ text, TreesText b t text := by
  induction t with
  | nil =>
    intro l parent p before hp hl
    cases l with
    | nil => exact ⟨[], [], .nil, fun _ _ => ⟨_, .nil⟩⟩
    | cons => exact hl.elim
  | text s r ih =>
    intro l parent p before hp hl
    cases l with
    | nil => exact hl.elim
    | cons i l =>
      obtain ⟨h1, h2, h3⟩ := hl
      obtain ⟨node, hn, hd⟩ := data_some h1
      obtain ⟨tree, hidden, g1, g2⟩ := ih l parent p (before ++ [i]) (by simpa using hp) h3
      refine ⟨_, _, .text hn hd g1, ?_⟩
      rintro b ⟨a1, a2⟩
      obtain ⟨text, ht⟩ := g2 b ⟨a1, a2.2⟩
      exact ⟨_, .text ht⟩
  | pi s x r ih =>
    intro l parent p before hp hl
    cases l with
    | nil => exact hl.elim
    | cons i l =>
      obtain ⟨h1, h2, h3⟩ := hl
      obtain ⟨node, hn, hd⟩ := data_some h1
      obtain ⟨tree, hidden, g1, g2⟩ := ih l parent p (before ++ [i]) (by simpa using hp) h3
      refine ⟨_, _, .ignored hn (.inr (.inr (.inr ⟨_, _, hd⟩))) g1, ?_⟩
      rintro b ⟨a1, a2⟩
      obtain ⟨text, ht⟩ := g2 b ⟨a1, a2.2⟩
      exact ⟨_, .pi ht⟩
  | element e c r ihc ih =>
    intro l parent p before hp hl
    cases l with
    | nil => exact hl.elim
    | cons i l =>
      obtain ⟨h1, h2, h3⟩ := hl
      obtain ⟨node, hn, hd⟩ := data_some h1
      obtain ⟨tree, hidden, g1, g2⟩ := ih l parent p (before ++ [i]) (by simpa using hp) h3
      obtain ⟨D, hD, -⟩ := C76_display_total e
      obtain ⟨s, hs, hdis, hpos, hfl⟩ := hstyle _ _ _ _ parent hn hd hD
      rcases defaultDisplay_cases hD with rfl | rfl | rfl
      · refine ⟨_, _, .none hn hd hs hdis g1, ?_⟩
        rintro b ⟨a1, a2⟩
        obtain ⟨text, ht⟩ := g2 b ⟨fun x hx => a1 x (List.mem_cons_of_mem _ hx), a2.2⟩
        refine ⟨_, .hidden hD ?_ ht⟩
        rintro rfl
        have := (hasNext_iff hF hp).1 (a1 i List.mem_cons_self)
        cases l with
        | nil => exact this rfl
        | cons => exact h3.elim
      all_goals
        obtain ⟨below, hiddenBelow, c1, c2⟩ := ihc _ s i [] rfl h2
        refine ⟨_, _, .element hn hd hs (by rw [hdis]; simp) c1 g1, ?_⟩
        rintro b ⟨a1, a2⟩
        obtain ⟨text, ht⟩ := g2 b ⟨fun x hx => a1 x (List.mem_append_right _ hx), a2.2⟩
        have a3 := a2.1
        simp only [StyledNode.Supported, hdis, hpos, hfl, reduceCtorEq, ne_eq, not_true_eq_false, or_self, if_false] at a3
      · obtain ⟨inner, hi⟩ := c2 true ⟨fun x hx => a1 x (List.mem_append_left _ hx), a3⟩
        exact ⟨_, .inline hD hi ht⟩
      · obtain ⟨rfl, a3⟩ := a3
        obtain ⟨inner, hi⟩ := c2 false ⟨fun x hx => a1 x (List.mem_append_left _ hx), a3⟩
        exact ⟨_, .block hD hi ht⟩

/-- What `parse_xml` makes of plain content. -/
theorem xml_plain {ε σ : Type} (E : Engine σ) {x content : XmlContent} {name : XmlName} {attrs : List (XmlName × String)}
    (hx : XmlRoot name attrs content x) (hs : NoStyleAttrs x) :
    ∃ d F root node, Document.parseXml (ε := ε) (.ok .other :: x.events.map .ok ++ [.ok .other]) = some (.ok d) ∧ Represents d F ∧
      F.Acyclic ∧ AuthorLeavesDisplay E d ∧ d.rootElement d.nodes.length = some root ∧ d.nodes[root]? = some node ∧
      node.data = .element (xmlElement name attrs) ∧ HasTrees d F (F root) content.trees := by
  obtain ⟨d, F, h1, h2, h3, h4, h5⟩ := C06_parse_xml (ε := ε) x
  obtain ⟨d', h1', hsheets⟩ := C07_xml_violated (ε := ε) x
  obtain rfl : d = d' := by
    rw [h1] at h1'
    cases h1'
    rfl
  obtain ⟨pre, root, post, e, g1, g2, g3⟩ := hx.trees _ h5
  obtain ⟨node, hn, hd⟩ := data_some g1
  refine ⟨d, F, root, node, h1, h2, h3, ?_, (C09_root_element d F h2 h4 _ (Nat.le_refl _) root).2 ⟨pre, post, _, e, g1, g3⟩, hn, hd,
    g2⟩
  have hel : ElementsAll (fun e => e.getAttr "style" = none) d := by
    refine ElementsAll.xmlLoop _ _ _ ?_ ?_ h1
    · intro i node e hi he
      simp only [Document.new] at hi
      match i, hi with
      | 0, hi => simp at hi; subst hi; cases he
      | 1, hi => simp at hi; subst hi; cases he
    · intro n a hm
      refine hs.events n a ?_
      simpa using hm
  refine ⟨[], ⟨[]⟩, [], hsheets _, rfl, .nil, ?_⟩
  intro n node e hn hd
  have hnone := hel n node e hn hd
  refine ⟨?_, [], ?_, ?_⟩
  · unfold styleAttrBlock
    simp only [hnone]
    split <;> exact ⟨_, rfl⟩
  · unfold AttrContents
    simp only [hnone, ite_self]
  · rintro p - (⟨r, hr, _⟩ | ⟨r, hr, _⟩) <;> cases hr

section
variable {R σ : Type} (P : Painter R (Option FontError)) (engine : Engine σ) (embed : UaSelector → σ) (font : Font)
  (ems : Int → Nat → Rat) (units : Int → Nat → Int) (utf8 : NameText → List Byte)

/-- **C79**, from the XML document to the PDF file: a document whose root element is displayed, and whose elements have no `style`
attributes, is parsed, and a PDF file is made of it. When its characters are among those of the built-in font, then exactly one text may be
copied from the file, and it is the text of the document but for white space. -/
theorem C79_xml_partial {ε : Type} (hE : HasUserAgent engine embed) (hfont : Font.parse vera = .ok font)
    (hname : AsciiNames utf8) (hview : P.fontView = fontView units utf8 font) {readReal : List Byte → Option R}
    (hre : RealText P.floats.dtoa readReal) (hl : FloatLaws P.floats) (x content : XmlContent) (name : XmlName)
    (attrs : List (XmlName × String)) (text : List Nat) (D : Display) (hx : XmlRoot name attrs content x) (hs : NoStyleAttrs x)
    (hD : DefaultDisplay (xmlElement name attrs) D) (hD' : D ≠ .none) (ht : XmlText false content text) :
    ∃ d, Document.parseXml (ε := ε) (.ok .other :: x.events.map .ok ++ [.ok .other]) = some (.ok d) ∧
      ∃ N, ∀ fuel ≥ N, ∀ schedule : Oracle, ∃ bytes, toPdfBytes P engine (fontApi ems font) d fuel schedule = some bytes ∧
        (bytes.length ≤ 2 ^ 32 → (∀ c ∈ inked text, ∃ g, (c, g) ∈ veraGlyphs) →
          ∃ m file page painted copy, (∀ fuel, m ≤ fuel → readDocument readReal fuel bytes = some file) ∧ file.pages = [page] ∧
            (∃ m, ∀ fuel, m ≤ fuel →
              paintContents readReal P.floats.zero P.floats.one (gsAlpha file.extGState) fuel page.contents = some painted) ∧
            (∀ other, Copied readReal bytes file.fonts painted other ↔ other = copy) ∧ inked copy = inked text) := by
  obtain ⟨d, F, root, node, h1, h2, h3, h4, h5, h6, h7, h8'⟩ := xml_plain (ε := ε) engine hx hs
  have h8 := ht.trees.plain _ h8'
  obtain ⟨N, hN⟩ := C79_returns_partial P engine embed d font ems units utf8 hE h4 hfont hview F h2 h3 root node _ D text h5 h6 h7 hD hD' h8
  refine ⟨d, h1, N, fun fuel hf schedule => ?_⟩
  obtain ⟨bytes, hb⟩ := hN fuel hf schedule
  refine ⟨bytes, hb, fun hlen hc => ?_⟩
  exact C79_copy_partial P engine embed d font ems units utf8 hE h4 hfont hname hview hre hl F h2 h3 root node _ D text h5 h6 h7 hD hD' h8 hc
    hb hlen

end

section
variable {R σ : Type} (P : Painter R (Option FontError)) (engine : Engine σ) (embed : UaSelector → σ) (font : Font)
  (ems : Int → Nat → Rat) (units : Int → Nat → Int) (utf8 : NameText → List Byte)

/-- **C79**: an XML document without `style` attributes, whose root element is displayed, is always parsed; a PDF file is made of it exactly
if no element that is not displayed is the last node in its parent, and no block is in an inline element. -/
theorem C79_xml_returns {ε : Type} (hE : HasUserAgent engine embed) (hfont : Font.parse vera = .ok font)
    (hview : P.fontView = fontView units utf8 font) (x content : XmlContent) (name : XmlName)
    (attrs : List (XmlName × String)) (D : Display) (hx : XmlRoot name attrs content x) (hs : NoStyleAttrs x)
    (hD : DefaultDisplay (xmlElement name attrs) D) (hD' : D ≠ .none) :
    ∃ d, Document.parseXml (ε := ε) (.ok .other :: x.events.map .ok ++ [.ok .other]) = some (.ok d) ∧
      ((∃ fuel schedule bytes, toPdfBytes P engine (fontApi ems font) d fuel schedule = some bytes) ↔
        ∃ text, XmlText false content text) := by
  obtain ⟨d, F, root, node, h1, h2, h3, h4, h5, h6, h7, h8⟩ := xml_plain (ε := ε) engine hx hs
  refine ⟨d, h1, ?_, ?_⟩
  · rintro ⟨fuel, schedule, bytes, hb⟩
    obtain ⟨set, hset, hstyle⟩ := plain_style hE h4
    obtain ⟨rootStyle, r1, r2, r3, r4⟩ := hstyle root node _ D none h6 h7 hD
    obtain ⟨tree, hidden, g1, g2⟩ := trees_styled h2 (fun n node e D parent => hstyle n node e D (some parent)) content.trees _ rootStyle root
      [] rfl h8
    have hden : Denotes engine d F rootStyle tree hidden := ⟨h2, h3, set, root, hset, h5, r1, by rw [r2]; exact hD', g1⟩
    have hc : ∃ boxes, constructDocument engine d fuel = some boxes := by
      unfold toPdfBytes layoutDocument at hb
      cases hc : constructDocument engine d fuel with
      | none => simp [hc] at hb
      | some boxes => exact ⟨boxes, rfl⟩
    obtain ⟨boxes, hc⟩ := hc
    obtain ⟨text, ht⟩ := g2 false ((C64_returns_partial engine d F rootStyle tree hidden hden).1 ⟨fuel, boxes, hc⟩)
    exact ht.xml
  · rintro ⟨text, ht⟩
    obtain ⟨N, hN⟩ := C79_returns_partial P engine embed d font ems units utf8 hE h4 hfont hview F h2 h3 root node _ D text h5 h6 h7 hD hD'
      (ht.trees.plain _ h8)
    obtain ⟨bytes, hb⟩ := hN N (Nat.le_refl _) inOrder
    exact ⟨N, _, bytes, hb⟩

end

/-! ### An example -/

/-- An engine with the style sheet of the user agent, whose selectors are the `UaSelector`s. -/
def plainEngine : Engine UaSelector where
  colors := noColors
  tokenize _ := []
  rulesOf _ := []
  specificity := UaSelector.specificity
  isMatch t d n := ((d.get n).bind Node.asElement).any t.matches
  ua := match addStylesheets noColors ⟨[]⟩ [userAgentSheet id] with
    | .ok set => set.finish UaSelector.specificity
    | _ => ⟨[]⟩

theorem plainEngine_userAgent : HasUserAgent plainEngine id where
  rules := by
    obtain ⟨set, h⟩ := userAgent_ok noColors (id : UaSelector → UaSelector)
    exact ⟨set, h, by simp only [plainEngine, h]⟩
  specificity _ := rfl
  isMatch t d n node e hn hd := by
    have : (d.get n).bind Node.asElement = some e := by
      show (d.nodes[n]?).bind Node.asElement = some e
      rw [hn]
      simp [Node.asElement, hd]
    simp [plainEngine, this]

/-- The names of elements. -/
def xhtml (s : String) : XmlName := ⟨none, some htmlNs, s⟩

/-- `<p id="x">a <b>b</b><!-- -->c</p>` -/
def plainParagraph : XmlContent :=
  .element (xhtml "p") [(⟨none, none, "id"⟩, "x")] (.text "a " (.element (xhtml "b") [] (.text "b" .nil) (.comment (.text "c" .nil)))) .nil

/-- `<head><title>t</title></head><body>…</body>` -/
def plainContent : XmlContent :=
  .element (xhtml "head") [] (.element (xhtml "title") [] (.text "t" .nil) .nil) (.element (xhtml "body") [] plainParagraph .nil)

/-- `<?p?><html>…</html>` -/
def plainXml : XmlContent := .pi "p" none (.element (xhtml "html") [] plainContent .nil)

theorem plainContent_text : XmlText false plainContent [97, 32, 98, 99] := by
  refine .hidden (.hiddenElement (by decide +kernel)) trivial ?_
  refine .block (inner := [97, 32, 98, 99]) (text := []) (.block (by rintro ⟨_, h, _⟩; cases h) (by decide +kernel)) ?_ .nil
  refine .block (inner := [97, 32, 98, 99]) (text := []) (.block ?_ (by decide +kernel)) ?_ .nil
  · rintro ⟨a, ha, h1, h2, _⟩
    cases List.mem_singleton.1 ha
    exact absurd h2 (by decide)
  · refine .text (s := "a ") (text := [98, 99]) ?_
    refine .inline (inner := [98]) (text := [99]) (.other (fun h => absurd h.1 (by decide)) (by rintro ⟨_, h, _⟩; cases h) (by decide +kernel)
      (by decide +kernel)) (.text (s := "b") .nil) (.comment (.text (s := "c") .nil))

/-- `<body>a<script></script></body>` -/
def scriptContent : XmlContent := .element (xhtml "body") [] (.text "a" (.element (xhtml "script") [] .nil .nil)) .nil

/-- `<p>a<b>b<p>c</p></b></p>` -/
def nestedContent : XmlContent :=
  .element (xhtml "p") [] (.text "a" (.element (xhtml "b") [] (.text "b" (.element (xhtml "p") [] (.text "c" .nil) .nil)) .nil)) .nil

theorem display_unique {e : ElementData} {D D' : Display} (h : DefaultDisplay e D) (h' : DefaultDisplay e D') : D = D' := by
  obtain ⟨_, _, h0⟩ := C76_display_total e
  rw [h0 D h, h0 D' h']

theorem xhtml_block {s : String} (h : s ∈ blockElements) : DefaultDisplay (xmlElement (xhtml s) []) (.generatingBox .block .flow) :=
  .block (by rintro ⟨_, h, _⟩; cases h) h

theorem xhtml_inline {s : String} (h1 : s ≠ "input") (h2 : s ∉ hiddenElements) (h3 : s ∉ blockElements) :
    DefaultDisplay (xmlElement (xhtml s) []) (.generatingBox .inline .flow) :=
  .other (fun h => h1 h.1) (by rintro ⟨_, h, _⟩; cases h) h2 h3

/-- **C79** fails for `<html><body>a<script></script></body></html>` and `<html><p>a<b>b<p>c</p></b></p></html>`: no PDF file is made of
them. -/
theorem C79_violated {ε R σ : Type} (P : Painter R (Option FontError)) (engine : Engine σ) (embed : UaSelector → σ) (font : Font)
    (ems : Int → Nat → Rat) (units : Int → Nat → Int) (utf8 : NameText → List Byte) (hE : HasUserAgent engine embed)
    (hfont : Font.parse vera = .ok font) (hview : P.fontView = fontView units utf8 font) (content : XmlContent)
    (hc : content = scriptContent ∨ content = nestedContent) :
    ∃ d, Document.parseXml (ε := ε) (.ok .other :: (XmlContent.element (xhtml "html") [] content .nil).events.map .ok ++ [.ok .other]) =
      some (.ok d) ∧ ∀ fuel schedule, toPdfBytes P engine (fontApi ems font) d fuel schedule = none := by
  have hs : NoStyleAttrs (.element (xhtml "html") [] content .nil) := by
    rcases hc with rfl | rfl
    · exact ⟨by simp, ⟨by simp, ⟨by simp, trivial, trivial⟩, trivial⟩, trivial⟩
    · exact ⟨by simp, ⟨by simp, ⟨by simp, ⟨by simp, trivial, trivial⟩, trivial⟩, trivial⟩, trivial⟩
  obtain ⟨d, h1, h2⟩ := C79_xml_returns (ε := ε) P engine embed font ems units utf8 hE hfont hview _ content (xhtml "html") [] _
    (.root (rest := .nil) trivial) hs (xhtml_block (by decide +kernel)) (by simp)
  refine ⟨d, h1, fun fuel schedule => ?_⟩
  cases hb : toPdfBytes P engine (fontApi ems font) d fuel schedule with
  | none => rfl
  | some bytes =>
    exfalso
    obtain ⟨text, ht⟩ := h2.1 ⟨fuel, schedule, bytes, hb⟩
    have hbody : DefaultDisplay (xmlElement (xhtml "body") []) (.generatingBox .block .flow) := xhtml_block (by decide +kernel)
    have hp : DefaultDisplay (xmlElement (xhtml "p") []) (.generatingBox .block .flow) := xhtml_block (by decide +kernel)
    have hi : DefaultDisplay (xmlElement (xhtml "b") []) (.generatingBox .inline .flow) :=
      xhtml_inline (by decide) (by decide +kernel) (by decide +kernel)
    have hscript : DefaultDisplay (xmlElement (xhtml "script") []) .none := .hiddenElement (by decide +kernel)
    rcases hc with rfl | rfl
    · cases ht with
      | hidden h _ _ => exact Display.noConfusion (display_unique hbody h)
      | inline h _ _ => cases display_unique hbody h
      | block _ h _ =>
        cases h with
        | text h =>
          cases h with
          | hidden _ h _ => exact h
          | inline h _ _ => cases display_unique hscript h
          | block h _ _ => cases display_unique hscript h
    · cases ht with
      | hidden h _ _ => cases display_unique hp h
      | inline h _ _ => cases display_unique hp h
      | block _ h _ =>
        cases h with
        | text h =>
          cases h with
          | hidden h _ _ => cases display_unique hi h
          | block h _ _ => cases display_unique hi h
          | inline _ h _ =>
            cases h with
            | text h =>
              cases h with
              | hidden h _ _ => cases display_unique hp h
              | inline h _ _ => cases display_unique hp h

/-- The hypotheses of C79 are met by `<?p?><html><head><title>t</title></head><body><p id="x">a <b>b</b><!-- -->c</p></body></html>`. (That
the file has no more than 2 ^ 32 bytes is not shown.) -/
example : HasUserAgent plainEngine id ∧ XmlRoot (xhtml "html") [] plainContent plainXml ∧ NoStyleAttrs plainXml ∧
    DefaultDisplay (xmlElement (xhtml "html") []) (.generatingBox .block .flow) ∧ XmlText false plainContent [97, 32, 98, 99] ∧
    (∀ c ∈ inked [97, 32, 98, 99], ∃ g, (c, g) ∈ veraGlyphs) ∧
    ∃ d, Document.parseXml (ε := Unit) (.ok .other :: plainXml.events.map .ok ++ [.ok .other]) = some (.ok d) ∧
      ∃ N, ∀ fuel ≥ N, ∀ schedule : Oracle, ∃ bytes,
        toPdfBytes builtInPainter plainEngine (fontApi (fun a u => a / u) veraFont) d fuel schedule = some bytes := by
  have hr : XmlRoot (xhtml "html") [] plainContent plainXml := .pi (.root trivial)
  have hs : NoStyleAttrs plainXml := by
    refine ⟨by simp, ⟨by simp, ⟨by simp, trivial, trivial⟩, by simp, ⟨?_, ⟨by simp, trivial, trivial⟩, trivial⟩, trivial⟩, trivial⟩
    intro a ha
    cases List.mem_singleton.1 ha
    decide
  have hD : DefaultDisplay (xmlElement (xhtml "html") []) (.generatingBox .block .flow) :=
    .block (by rintro ⟨_, h, _⟩; cases h) (by decide +kernel)
  refine ⟨plainEngine_userAgent, hr, hs, hD, plainContent_text, ?_, ?_⟩
  · rw [show inked [97, 32, 98, 99] = [97, 98, 99] by decide +kernel]
    have : ∀ c ∈ [97, 98, 99], c ∈ veraGlyphs.map Prod.fst := by decide +kernel
    intro c hc
    obtain ⟨p, hp, rfl⟩ := List.mem_map.1 (this c hc)
    exact ⟨_, hp⟩
  · obtain ⟨d, h, N, hN⟩ := C79_xml_partial (ε := Unit) builtInPainter plainEngine id veraFont (fun a u => a / u) wholeUnits rawName
      plainEngine_userAgent Verif.Font.vera_parse (fun _ _ => rfl) rfl realText_whole wholeFloats_laws _ _ _ _ _ _ hr hs hD (by simp)
      plainContent_text
    refine ⟨d, h, N, fun fuel hf schedule => ?_⟩
    obtain ⟨bytes, hb, -⟩ := hN fuel hf schedule
    exact ⟨bytes, hb⟩

end Verif.Layout
