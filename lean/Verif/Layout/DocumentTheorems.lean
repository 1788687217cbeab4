/- C64, and C42 for documents: from the arena to boxes and fragments. -/
import Verif.Layout.ConstructTheorems
import Verif.Layout.Document
import Verif.Layout.UnsetTheorems
import Verif.Dom.Theorems2
namespace Verif.Layout
open Verif.Dom Verif.Style Verif.Text

variable {d : Document} {F : Forest} {style : Nat → ComputedValues → Option ComputedValues}

/-! ### The traversal of the arena -/

theorem StyledTree.unique {ps : ComputedValues} {ns : List Nat} {t1 : List StyledNode} {h1 : List Nat} (a : StyledTree d F style ps ns t1 h1) :
    ∀ {t2 : List StyledNode} {h2 : List Nat}, StyledTree d F style ps ns t2 h2 → t1 = t2 ∧ h1 = h2 := by
  induction a with
  | nil =>
    intro t2 h2 b
    cases b
    exact ⟨rfl, rfl⟩
  | ignored hn hd _ ih =>
    intro t2 h2 b
    cases b with
    | ignored hn' hd' b =>
      obtain ⟨rfl, rfl⟩ := ih b
      exact ⟨rfl, rfl⟩
    | text hn' hd' b => rw [hn] at hn'; cases hn'; rw [hd'] at hd; simp at hd
    | none hn' hd' hs' hdisp' b => rw [hn] at hn'; cases hn'; rw [hd'] at hd; simp at hd
    | element hn' hd' hs' hdisp' c b => rw [hn] at hn'; cases hn'; rw [hd'] at hd; simp at hd
  | text hn hd _ ih =>
    intro t2 h2 b
    cases b with
    | ignored hn' hd' b => rw [hn] at hn'; cases hn'; rw [hd] at hd'; simp at hd'
    | text hn' hd' b =>
      rw [hn] at hn'; cases hn'
      rw [hd] at hd'; cases hd'
      obtain ⟨rfl, rfl⟩ := ih b
      exact ⟨rfl, rfl⟩
    | none hn' hd' hs' hdisp' b => rw [hn] at hn'; cases hn'; rw [hd'] at hd; simp at hd
    | element hn' hd' hs' hdisp' c b => rw [hn] at hn'; cases hn'; rw [hd'] at hd; simp at hd
  | none hn hd hs hdisp _ ih =>
    intro t2 h2 b
    cases b with
    | ignored hn' hd' b => rw [hn] at hn'; cases hn'; rw [hd] at hd'; simp at hd'
    | text hn' hd' b => rw [hn] at hn'; cases hn'; rw [hd] at hd'; cases hd'
    | none hn' hd' hs' hdisp' b =>
      rw [hs] at hs'; cases hs'
      obtain ⟨rfl, rfl⟩ := ih b
      exact ⟨rfl, rfl⟩
    | element hn' hd' hs' hdisp' c b => rw [hs] at hs'; cases hs'; exact absurd hdisp hdisp'
  | element hn hd hs hdisp _ _ ih1 ih2 =>
    intro t2 h2 b
    cases b with
    | ignored hn' hd' b => rw [hn] at hn'; cases hn'; rw [hd] at hd'; simp at hd'
    | text hn' hd' b => rw [hn] at hn'; cases hn'; rw [hd] at hd'; cases hd'
    | none hn' hd' hs' hdisp' b => rw [hs] at hs'; cases hs'; exact absurd hdisp' hdisp
    | element hn' hd' hs' hdisp' c b =>
      rw [hs] at hs'; cases hs'
      obtain ⟨rfl, rfl⟩ := ih1 c
      obtain ⟨rfl, rfl⟩ := ih2 b
      exact ⟨rfl, rfl⟩

/-- What the traversal returns is the tree, and no hidden element is a last child. -/
theorem styledNodes_sound (h : Represents d F) : ∀ (fuel : Nat) (ps : ComputedValues) (p : Nat) (before ns : List Nat) (trees : List StyledNode),
    F p = before ++ ns → styledNodes style d fuel ps ns.head? = some trees →
    ∃ hidden, StyledTree d F style ps ns trees hidden ∧ ∀ x ∈ hidden, HasNext d x := by
  intro fuel
  induction fuel with
  | zero => intro ps p before ns trees _ h1; simp [styledNodes] at h1
  | succ fuel ih =>
    intro ps p before ns trees hF h1
    cases ns with
    | nil =>
      simp only [List.head?_nil, styledNodes, Option.some.injEq] at h1
      subst h1
      exact ⟨[], .nil, by simp⟩
    | cons n ns =>
      obtain ⟨node, hn, hl⟩ := h.child p before n ns hF
      have hfirst := (h.ends n node hn).1
      simp only [List.head?_cons, styledNodes, get_eq, hn, hl.next, hfirst] at h1
      have rest : ∀ ts, styledNodes style d fuel ps ns.head? = some ts →
          ∃ hidden, StyledTree d F style ps ns ts hidden ∧ ∀ x ∈ hidden, HasNext d x :=
        fun ts ht => ih ps p (before ++ [n]) ns ts (by simp [hF]) ht
      cases hd : node.data with
      | element e =>
        simp only [hd] at h1
        rcases hs : style n ps with _ | s
        · simp [hs] at h1
        · simp only [hs] at h1
          by_cases hdisp : displayOf s = .none
          · simp only [hdisp, if_true] at h1
            by_cases hnext : ns.head?.isSome = true
            · simp only [hnext, if_true] at h1
              rcases hr : styledNodes style d fuel ps ns.head? with _ | ts
              · simp [hr] at h1
              · simp only [hr, Option.some.injEq] at h1
                subst h1
                obtain ⟨hidden, t1, t2⟩ := rest ts hr
                obtain ⟨s', hs'⟩ := Option.isSome_iff_exists.mp hnext
                refine ⟨n :: hidden, .none hn hd hs hdisp t1, ?_⟩
                intro x hx
                rcases List.mem_cons.1 hx with rfl | hx
                · exact ⟨node, s', hn, hl.next.trans hs'⟩
                · exact t2 x hx
            · simp [hnext] at h1
          · simp only [hdisp, if_false] at h1
            rcases hb : styledNodes style d fuel s (F n).head? with _ | below
            · simp [hb] at h1
            · simp only [hb] at h1
              rcases hr : styledNodes style d fuel ps ns.head? with _ | ts
              · simp [hr] at h1
              · simp only [hr, Option.some.injEq] at h1
                subst h1
                obtain ⟨hidden, t1, t2⟩ := rest ts hr
                obtain ⟨hidden', t1', t2'⟩ := ih s n [] (F n) below rfl hb
                refine ⟨hidden' ++ hidden, .element hn hd hs hdisp t1' t1, ?_⟩
                intro x hx
                rcases List.mem_append.1 hx with hx | hx
                · exact t2' x hx
                · exact t2 x hx
      | text contents =>
        simp only [hd] at h1
        rcases hr : styledNodes style d fuel ps ns.head? with _ | ts
        · simp [hr] at h1
        · simp only [hr, Option.some.injEq] at h1
          subst h1
          obtain ⟨hidden, t1, t2⟩ := rest ts hr
          exact ⟨hidden, .text hn hd t1, t2⟩
      | _ =>
        simp only [hd] at h1
        rcases hr : styledNodes style d fuel ps ns.head? with _ | ts
        · simp [hr] at h1
        · simp only [hr, Option.some.injEq] at h1
          subst h1
          obtain ⟨hidden, t1, t2⟩ := rest ts hr
          exact ⟨hidden, .ignored hn (by rw [hd]; simp) t1, t2⟩

/-- If no hidden element is a last child then the traversal returns the tree. -/
theorem styledNodes_complete (h : Represents d F) {ps : ComputedValues} {ns : List Nat} {trees : List StyledNode} {hidden : List Nat}
    (t : StyledTree d F style ps ns trees hidden) : ∀ (p : Nat) (before : List Nat), F p = before ++ ns → (∀ x ∈ hidden, HasNext d x) →
    ∃ N, ∀ fuel ≥ N, styledNodes style d fuel ps ns.head? = some trees := by
  induction t with
  | nil =>
    intro p before _ _
    refine ⟨1, fun fuel hf => ?_⟩
    obtain ⟨fuel, rfl⟩ : ∃ k, fuel = k + 1 := ⟨fuel - 1, by omega⟩
    rfl
  | @ignored ps n ns node trees hidden hn hd _ ih =>
    intro p before hF hh
    obtain ⟨N, hN⟩ := ih p (before ++ [n]) (by simp [hF]) hh
    refine ⟨N + 1, fun fuel hf => ?_⟩
    obtain ⟨fuel, rfl⟩ : ∃ k, fuel = k + 1 := ⟨fuel - 1, by omega⟩
    obtain ⟨node', hn', hl⟩ := h.child p before n ns hF
    rw [hn] at hn'
    cases hn'
    simp only [List.head?_cons, styledNodes, get_eq, hn, hl.next, hN fuel (by omega)]
    rcases hd with hd | ⟨a, b, c, hd⟩ | ⟨c, hd⟩ | ⟨a, b, hd⟩ <;> simp only [hd]
  | @text ps n ns node contents trees hidden hn hd _ ih =>
    intro p before hF hh
    obtain ⟨N, hN⟩ := ih p (before ++ [n]) (by simp [hF]) hh
    refine ⟨N + 1, fun fuel hf => ?_⟩
    obtain ⟨fuel, rfl⟩ : ∃ k, fuel = k + 1 := ⟨fuel - 1, by omega⟩
    obtain ⟨node', hn', hl⟩ := h.child p before n ns hF
    rw [hn] at hn'
    cases hn'
    simp only [List.head?_cons, styledNodes, get_eq, hn, hl.next, hN fuel (by omega), hd]
  | @none ps n ns node e s trees hidden hn hd hs hdisp _ ih =>
    intro p before hF hh
    obtain ⟨N, hN⟩ := ih p (before ++ [n]) (by simp [hF]) (fun x hx => hh x (by simp [hx]))
    refine ⟨N + 1, fun fuel hf => ?_⟩
    obtain ⟨fuel, rfl⟩ : ∃ k, fuel = k + 1 := ⟨fuel - 1, by omega⟩
    obtain ⟨node', hn', hl⟩ := h.child p before n ns hF
    rw [hn] at hn'
    cases hn'
    obtain ⟨node', s', h1, h2⟩ := hh n (by simp)
    rw [hn] at h1
    cases h1
    have hnext : ns.head?.isSome = true := by rw [← hl.next, h2]; rfl
    simp only [List.head?_cons, styledNodes, get_eq, hn, hl.next, hN fuel (by omega), hd, hs, hdisp, if_true, hnext]
  | @element ps n ns node e s below belowHidden trees hidden hn hd hs hdisp _ _ ih1 ih2 =>
    intro p before hF hh
    obtain ⟨N1, hN1⟩ := ih1 n [] rfl (fun x hx => hh x (by simp [hx]))
    obtain ⟨N2, hN2⟩ := ih2 p (before ++ [n]) (by simp [hF]) (fun x hx => hh x (by simp [hx]))
    refine ⟨max N1 N2 + 1, fun fuel hf => ?_⟩
    obtain ⟨fuel, rfl⟩ : ∃ k, fuel = k + 1 := ⟨fuel - 1, by omega⟩
    obtain ⟨node', hn', hl⟩ := h.child p before n ns hF
    rw [hn] at hn'
    cases hn'
    have hfirst := (h.ends n node hn).1
    simp only [List.head?_cons, styledNodes, get_eq, hn, hl.next, hfirst, hN1 fuel (by omega), hN2 fuel (by omega), hd, hs, hdisp,
      if_false]

/-- There is a tree, if every element gets a style. -/
theorem StyledTree.exists (h : Represents d F) (ha : F.Acyclic)
    (hstyle : ∀ n node e, d.nodes[n]? = some node → node.data = .element e → ∀ ps, ∃ s, style n ps = some s) (p : Nat)
    (ps : ComputedValues) : ∃ trees hidden, StyledTree d F style ps (F p) trees hidden := by
  obtain ⟨out, ho⟩ : ∃ out, PreOrder F (F p) out := PreOrder.of_forall _ fun n _ => PreOrder.exists h ha n
  have key : ∀ {ns out : List Nat}, PreOrder F ns out → (∀ n ∈ ns, ∃ node, d.nodes[n]? = some node) → ∀ ps : ComputedValues,
      ∃ trees hidden, StyledTree d F style ps ns trees hidden := by
    intro ns out ho
    induction ho with
    | nil => exact fun _ _ => ⟨[], [], .nil⟩
    | @cons n ns below rest _ _ ih1 ih2 =>
      intro hns ps
      obtain ⟨trees, hidden, ht⟩ := ih2 (fun m hm => hns m (by simp [hm])) ps
      obtain ⟨node, hn⟩ := hns n (by simp)
      cases hd : node.data with
      | element e =>
        obtain ⟨s, hs⟩ := hstyle n node e hn hd ps
        by_cases hdisp : displayOf s = .none
        · exact ⟨_, _, .none hn hd hs hdisp ht⟩
        · obtain ⟨below, belowHidden, hb⟩ := ih1 (fun m hm => by
            obtain ⟨b, a, hba⟩ := List.append_of_mem hm
            obtain ⟨nd, hnd, _⟩ := h.child n b m a hba
            exact ⟨nd, hnd⟩) s
          exact ⟨_, _, .element hn hd hs hdisp hb ht⟩
      | text contents => exact ⟨_, _, .text hn hd ht⟩
      | _ => exact ⟨_, _, .ignored hn (by rw [hd]; simp) ht⟩
  exact key ho (fun m hm => by
    obtain ⟨b, a, hba⟩ := List.append_of_mem hm
    obtain ⟨nd, hnd, _⟩ := h.child p b m a hba
    exact ⟨nd, hnd⟩) ps

/-! ### C64 -/

variable {σ : Type} {E : Engine σ}

/-- The document has a root element with style `rootStyle`, which is displayed, and `tree` is what is in it; `hidden` are the elements
in it with `display: none`. (The choice of the root element is C09, of the style sheets C07, of the styles C28.) -/
structure Denotes (E : Engine σ) (d : Document) (F : Forest) (rootStyle : ComputedValues) (tree : List StyledNode) (hidden : List Nat) :
    Prop where
  represents : Represents d F
  acyclic : F.Acyclic
  styled : ∃ author root, parseStylesheets E d = some author ∧ d.rootElement d.nodes.length = some root ∧
    nodeStyle E author d root none = some rootStyle ∧ displayOf rootStyle ≠ .none ∧
    StyledTree d F (fun child parent => nodeStyle E author d child (some parent)) rootStyle (F root) tree hidden

theorem nodeStyle_get {root : Nat} : ∀ {author : StyleSet σ} {p : Option ComputedValues}
    {s : ComputedValues}, nodeStyle E author d root p = some s → ∃ node, d.nodes[root]? = some node := by
  intro author p s hs
  unfold nodeStyle at hs
  rcases hn : d.get root with _ | node
  · simp [hn] at hs
  · exact ⟨node, hn⟩

theorem constructDocument_sound {rootStyle : ComputedValues} {tree : List StyledNode} {hidden : List Nat}
    (h : Denotes E d F rootStyle tree hidden) {fuel : Nat} {root : BlockFormattingContext} (hc : constructDocument E d fuel = some root) :
    constructRoot rootStyle tree = some root ∧ ∀ x ∈ hidden, HasNext d x := by
  obtain ⟨author, r, h1, h2, h3, h4, h5⟩ := h.styled
  obtain ⟨node, hn⟩ := nodeStyle_get h3
  simp only [constructDocument, h1, h2, h3, if_neg h4, get_eq, hn, (h.represents.ends r node hn).1] at hc
  rcases h6 : styledNodes (fun child parent => nodeStyle E author d child (some parent)) d fuel rootStyle (F r).head? with _ | tree'
  · simp [h6] at hc
  · simp only [h6] at hc
    obtain ⟨hidden', t1, t2⟩ := styledNodes_sound h.represents fuel rootStyle r [] (F r) tree' rfl h6
    obtain ⟨rfl, rfl⟩ := h5.unique t1
    exact ⟨hc, t2⟩

theorem constructDocument_complete {rootStyle : ComputedValues} {tree : List StyledNode} {hidden : List Nat}
    (h : Denotes E d F rootStyle tree hidden) (hh : ∀ x ∈ hidden, HasNext d x) :
    ∃ N, ∀ fuel ≥ N, constructDocument E d fuel = constructRoot rootStyle tree := by
  obtain ⟨author, r, h1, h2, h3, h4, h5⟩ := h.styled
  obtain ⟨node, hn⟩ := nodeStyle_get h3
  obtain ⟨N, hN⟩ := styledNodes_complete h.represents h5 r [] rfl hh
  refine ⟨N, fun fuel hf => ?_⟩
  simp only [constructDocument, h1, h2, h3, if_neg h4, get_eq, hn, (h.represents.ends r node hn).1, hN fuel hf]

theorem constructRoot_container {style : ComputedValues} {children : List StyledNode} (hs : displayOf style ≠ .none) :
    (∃ root, constructRoot style children = some root) ↔ ∃ c f, constructContainer style children = some (c, f) := by
  rcases h : constructContainer style children with _ | ⟨c, f⟩
  · unfold constructRoot
    rcases hd : displayOf style with _ | _ | ⟨o, i⟩
    · exact absurd hd hs
    · simp [h]
    · simp [h]
  · refine ⟨fun _ => ⟨c, f, rfl⟩, fun _ => ?_⟩
    have hgen : ∃ root, (if (positionOf style).isAbsolutelyPositioned then
          some (⟨.blockLevelBoxes [.outOfFlowAbsolutelyPositioned style f c], false⟩ : BlockFormattingContext)
        else if (floatOf style).isFloating then some ⟨.blockLevelBoxes [.outOfFlowFloat style f c], true⟩
        else some ⟨.blockLevelBoxes [.independent style f c], false⟩) = some root := by
      split
      · exact ⟨_, rfl⟩
      · split <;> exact ⟨_, rfl⟩
    unfold constructRoot
    rcases hd : displayOf style with _ | _ | ⟨o, i⟩
    · exact absurd hd hs
    · simpa only [h] using hgen
    · simpa only [h] using hgen

/-- **C64**, exactly when boxes are made of a document: when every element with `display: none` has a next sibling, no inline element
contains a block in flow, and no element is an inline block. Missing: the other documents. -/
theorem C64_returns_partial (E : Engine σ) (d : Document) (F : Forest) (rootStyle : ComputedValues) (tree : List StyledNode)
    (hidden : List Nat) (h : Denotes E d F rootStyle tree hidden) :
    (∃ fuel root, constructDocument E d fuel = some root) ↔ (∀ x ∈ hidden, HasNext d x) ∧ allSupported false tree := by
  have hs : displayOf rootStyle ≠ .none := by
    obtain ⟨_, _, _, _, _, h4, _⟩ := h.styled
    exact h4
  rw [← C42_supported_partial rootStyle, ← constructRoot_container hs]
  constructor
  · rintro ⟨fuel, root, hc⟩
    obtain ⟨h1, h2⟩ := constructDocument_sound h hc
    exact ⟨h2, root, h1⟩
  · rintro ⟨hh, root, hr⟩
    obtain ⟨N, hN⟩ := constructDocument_complete h hh
    exact ⟨N, root, by rw [hN N (Nat.le_refl _), hr]⟩

/-- Every style of an element comes out of the cascade. -/
theorem nodeStyle_computed {author : StyleSet σ} {n : Nat} {p : Option ComputedValues} {s : ComputedValues}
    (h : nodeStyle E author d n p = some s) : Computed s := by
  unfold nodeStyle at h
  rcases h1 : (d.get n).bind Node.asElement with _ | e
  · simp [h1] at h
  · simp only [h1, styleForElement] at h
    rcases h2 : styleAttrBlock E.colors E.tokenize e with b | _ | _
    · simp only [h2, Option.some.injEq] at h
      exact ⟨_, h.symm⟩
    · simp [h2] at h
    · simp [h2] at h

theorem StyledTree.computed (hs : ∀ n p s, style n p = some s → Computed s) {ps : ComputedValues} {ns : List Nat}
    {trees : List StyledNode} {hidden : List Nat} (t : StyledTree d F style ps ns trees hidden) :
    nodesAll (fun s _ => Computed s) trees := by
  induction t with
  | nil => trivial
  | ignored _ _ _ ih => exact ⟨trivial, ih⟩
  | text _ _ _ ih => exact ⟨trivial, ih⟩
  | none _ _ _ hd _ ih => exact ⟨.inl hd, ih⟩
  | element _ _ h1 _ _ _ ih1 ih2 => exact ⟨.inr ⟨hs _ _ _ h1, ih1⟩, ih2⟩

/-- **C64**, **C58**: a document of which boxes are made is laid out, if the font has a glyph and a width for each character that is
displayed and for the space, whatever the size of the viewport and the division of the work between threads. -/
theorem C64_layout_partial {Err : Type} (font : FontApi Rat Err) (hsp : Shapable font 32) (E : Engine σ) (d : Document) (F : Forest)
    (rootStyle : ComputedValues) (tree : List StyledNode) (hidden : List Nat) (h : Denotes E d F rootStyle tree hidden)
    (hh : ∀ x ∈ hidden, HasNext d x) (hs : allSupported false tree) (htext : ∀ c ∈ visibleTexts tree, Shapable font c) :
    ∃ N, ∀ fuel ≥ N, ∀ (schedule : Oracle) (viewport : Vec2 Rat),
      ∃ fragments, layoutDocument E font d fuel schedule viewport = some fragments := by
  obtain ⟨N, hN⟩ := constructDocument_complete h hh
  obtain ⟨author, r, h1, h2, h3, h4, h5⟩ := h.styled
  obtain ⟨root, hr, hl⟩ := C42_layout hsp rootStyle tree (h5.computed fun n p s hs => nodeStyle_computed hs) htext hs
  refine ⟨max N root.contents.depth, fun fuel hf schedule viewport => ?_⟩
  obtain ⟨fragments, hfr⟩ := hl fuel (by omega) schedule viewport
  exact ⟨fragments, by simp only [layoutDocument, hN fuel (by omega), hr, hfr]⟩

theorem constructRoot_text {style : ComputedValues} {children : List StyledNode} {root : BlockFormattingContext}
    (hs : displayOf style ≠ .none) (h : constructRoot style children = some root) :
    ∃ c f, constructContainer style children = some (c, f) ∧ root.contents.styledText = c.styledText := by
  obtain ⟨c, f, hc⟩ := (constructRoot_container hs).1 ⟨root, h⟩
  refine ⟨c, f, hc, ?_⟩
  have hgen : (if (positionOf style).isAbsolutelyPositioned then
        some (⟨.blockLevelBoxes [.outOfFlowAbsolutelyPositioned style f c], false⟩ : BlockFormattingContext)
      else if (floatOf style).isFloating then some ⟨.blockLevelBoxes [.outOfFlowFloat style f c], true⟩
      else some ⟨.blockLevelBoxes [.independent style f c], false⟩) = some root := by
    unfold constructRoot at h
    rcases hd : displayOf style with _ | _ | ⟨o, i⟩
    · exact absurd hd hs
    · simpa only [hd, hc] using h
    · simpa only [hd, hc] using h
  split at hgen
  · cases hgen
    simp [BlockContainer.styledText, blocksStyledText, BlockLevelBox.styledText]
  · split at hgen
    · cases hgen
      simp [BlockContainer.styledText, blocksStyledText, BlockLevelBox.styledText]
    · cases hgen
      simp [BlockContainer.styledText, blocksStyledText, BlockLevelBox.styledText]

/-- **C42** for documents: the characters in the boxes that are not white space are those in the text nodes of the document that have
no ancestor with `display: none`, in document order. -/
theorem C42_document_order (E : Engine σ) (d : Document) (F : Forest) (rootStyle : ComputedValues) (tree : List StyledNode)
    (hidden : List Nat) (h : Denotes E d F rootStyle tree hidden) (fuel : Nat) (root : BlockFormattingContext)
    (hc : constructDocument E d fuel = some root) :
    (root.contents.styledText.map Prod.snd).filter (fun ch => !isAsciiWhitespace ch) =
      (visibleTexts tree).filter fun ch => !isAsciiWhitespace ch := by
  have hs : displayOf rootStyle ≠ .none := by
    obtain ⟨_, _, _, _, _, h4, _⟩ := h.styled
    exact h4
  obtain ⟨h1, _⟩ := constructDocument_sound h hc
  obtain ⟨c, f, h2, h3⟩ := constructRoot_text hs h1
  rw [h3]
  exact C42_order rootStyle tree c f h2

/-! ### Examples -/

/-- `display: …` in a style sheet. -/
def displayBlock (display : Display) : DeclarationBlock :=
  { declarations := [.value .display display], important := [false], anyNormal := ⟨false, true⟩ }

/-- A style system in which selectors are element names; `html`, `div` and `p` are blocks, `script` and `head` are not displayed. -/
def exampleEngine : Engine String where
  colors := noColors
  tokenize _ := []
  rulesOf _ := []
  specificity _ := 1
  isMatch name d n := ((d.get n).bind Node.asElement).any fun e => e.name.loc == name
  ua := ⟨[("html", displayBlock (.generatingBox .block .flow)), ("div", displayBlock (.generatingBox .block .flow)),
    ("p", displayBlock (.generatingBox .block .flow)), ("script", displayBlock .none), ("head", displayBlock .none)]⟩

/-- The styles of the elements of the examples. -/
def documentStyle (d : Document) (n : Nat) (parent : Option ComputedValues) : ComputedValues :=
  (nodeStyle exampleEngine ⟨[]⟩ d n parent).getD spanStyle

theorem exampleEngine_sheets {d : Document} (h : d.styleElements = []) : parseStylesheets exampleEngine d = some ⟨[]⟩ := by
  simp [parseStylesheets, h, Document.stylesheetTexts, addStylesheets, StyleSet.finish]

/-- The style of `html`. -/
def exampleRootStyle (d : Document) : ComputedValues := documentStyle d 2 none

/-- The contents of `exampleDocument`. -/
def exampleTree : List StyledNode :=
  let html := exampleRootStyle exampleDocument
  let div := documentStyle exampleDocument 3 (some html)
  [.element div [.element (documentStyle exampleDocument 4 (some div)) [.text (codes "a")], .text (codes "b")],
    .element (documentStyle exampleDocument 7 (some html)) []]

theorem exampleDocument_denotes : Denotes exampleEngine exampleDocument (forestOf exampleChildren)
    (exampleRootStyle exampleDocument) exampleTree [7] := by
  refine ⟨represents_of_check exampleDocument_check, acyclic_of_check exampleDocument_check, ⟨[]⟩, 2, exampleEngine_sheets rfl,
    by decide, rfl, by decide +kernel, ?_⟩
  exact .element (belowHidden := []) (n := 3) (node := _) rfl rfl rfl (by decide +kernel)
    (.element (belowHidden := []) (n := 4) rfl rfl rfl (by decide +kernel) (.text (n := 5) rfl rfl .nil)
      (.text (n := 6) rfl rfl .nil))
    (.none (n := 7) rfl rfl rfl (by decide +kernel) .nil)

/-- **C64** does not hold: of `<html><div><p>a</p>b</div><script></script></html>` no boxes are made, however long it runs, because
`script` is not displayed and is the last child of its parent. -/
theorem C64_violated : ∀ fuel, constructDocument exampleEngine exampleDocument fuel = none := by
  intro fuel
  rcases hc : constructDocument exampleEngine exampleDocument fuel with _ | root
  · rfl
  · obtain ⟨node, s, h1, h2⟩ := ((C64_returns_partial _ _ _ _ _ _ exampleDocument_denotes).1 ⟨fuel, root, hc⟩).1 7 (by simp)
    cases h1
    cases h2

/-- `<html><head></head><div><p>a</p>b</div></html>`: 1 is the document, 2 `html`, 3 `head`, 4 `div`, 5 `p`, 6 "a", 7 "b". -/
def exampleDocument2 : Document :=
  { Document.new with nodes :=
    [ Node.new .document,
      ⟨none, none, none, some 2, some 2, .document⟩,
      exampleElement "html" (some 1) none none (some 3) (some 4),
      exampleElement "head" (some 2) (some 4) none none none,
      exampleElement "div" (some 2) none (some 3) (some 5) (some 7),
      exampleElement "p" (some 4) (some 7) none (some 6) (some 6),
      ⟨some 5, none, none, none, none, .text "a"⟩,
      ⟨some 4, none, some 5, none, none, .text "b"⟩ ] }

/-- The children of the nodes of `exampleDocument2`. -/
def exampleChildren2 : List (List Nat) := [[], [2], [3, 4], [], [5, 7], [6], [], []]

theorem exampleDocument2_check : treeCheck exampleDocument2 exampleChildren2 = true := by decide +kernel

/-- The contents of `exampleDocument2`. -/
def exampleTree2 : List StyledNode :=
  let html := exampleRootStyle exampleDocument2
  let div := documentStyle exampleDocument2 4 (some html)
  [.element (documentStyle exampleDocument2 3 (some html)) [],
    .element div [.element (documentStyle exampleDocument2 5 (some div)) [.text (codes "a")], .text (codes "b")]]

theorem exampleDocument2_denotes : Denotes exampleEngine exampleDocument2 (forestOf exampleChildren2)
    (exampleRootStyle exampleDocument2) exampleTree2 [3] := by
  refine ⟨represents_of_check exampleDocument2_check, acyclic_of_check exampleDocument2_check, ⟨[]⟩, 2, exampleEngine_sheets rfl,
    by decide, rfl, by decide +kernel, ?_⟩
  exact .none (n := 3) (hidden := []) rfl rfl rfl (by decide +kernel)
    (.element (belowHidden := []) (hidden := []) (n := 4) rfl rfl rfl (by decide +kernel)
      (.element (belowHidden := []) (n := 5) rfl rfl rfl (by decide +kernel) (.text (n := 6) rfl rfl .nil)
        (.text (n := 7) rfl rfl .nil)) .nil)

/-- The hypotheses of the theorems above are met by `exampleDocument2`: boxes are made, and its text is kept. -/
example : HasNext exampleDocument2 3 ∧ allSupported false exampleTree2 ∧ visibleTexts exampleTree2 = codes "ab" ∧
    (constructDocument exampleEngine exampleDocument2 9).map (fun r => r.contents.styledText.map Prod.snd) = some (codes "ab") := by
  have hc : (constructDocument exampleEngine exampleDocument2 9).map (fun r => r.contents.styledText.map Prod.snd) = some (codes "ab") := by
    have hp : parseStylesheets exampleEngine exampleDocument2 = some ⟨[]⟩ := exampleEngine_sheets rfl
    simp only [constructDocument, hp]
    decide +kernel
  have hN : ∃ root, constructDocument exampleEngine exampleDocument2 9 = some root := by
    rcases hr : constructDocument exampleEngine exampleDocument2 9 with _ | root
    · rw [hr] at hc; cases hc
    · exact ⟨root, rfl⟩
  obtain ⟨root, hr⟩ := hN
  exact ⟨⟨_, 4, rfl, rfl⟩, ((C64_returns_partial _ _ _ _ _ _ exampleDocument2_denotes).1 ⟨9, root, hr⟩).2, by decide +kernel, hc⟩

end Verif.Layout
