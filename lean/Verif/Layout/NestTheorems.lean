/- C92: the text of an element is in the boxes of the element. -/
import Verif.Layout.NestLemmas
import Verif.Layout.BoundTheorems
namespace Verif.Layout
open Verif.Style Verif.Style.Spec Verif.Text Verif.Pdf Verif.Dom

/-! ### The document -/

section
variable {σ : Type} {E : Engine σ} {d : Document} {F : Forest} {ua author : List (σ × List (Declaration × Bool))}

/-- Without the boxes, it is what is displayed. -/
theorem Nested.displayed {Q : ComputedValues → ComputedValues → Prop} {parent : ComputedValues} {ns : List Nat} {text : BoxedText}
    (h : Nested E d F ua author Q parent ns text) :
    ∃ text', Displayed E d F ua author Q parent ns text' ∧ text'.map Prod.snd = text.map Prod.snd := by
  induction h with
  | nil => exact ⟨[], .nil, rfl⟩
  | ignored hn hd _ ih =>
    obtain ⟨t, h1, h2⟩ := ih
    exact ⟨t, .ignored hn hd h1, h2⟩
  | text hn hd _ ih =>
    obtain ⟨t, h1, h2⟩ := ih
    exact ⟨_, .text hn hd h1, by simp [h2, Function.comp_def]⟩
  | none hs hd _ ih =>
    obtain ⟨t, h1, h2⟩ := ih
    exact ⟨t, .none hs hd h1, h2⟩
  | contents hs hd hq _ _ ih1 ih2 =>
    obtain ⟨t, h1, h2⟩ := ih1
    obtain ⟨u, h3, h4⟩ := ih2
    exact ⟨_, .element hs (by simp [hd]) hq h1 h3, by simp [h2, h4]⟩
  | box hs hd hq _ _ ih1 ih2 =>
    obtain ⟨t, h1, h2⟩ := ih1
    obtain ⟨u, h3, h4⟩ := ih2
    obtain ⟨o, i, hd⟩ := hd
    exact ⟨_, .element hs (by simp [hd]) hq h1 h3, by simp [h2, h4, boxedBy, Function.comp_def]⟩

/-- What CSS says about the nesting is what there is in the tree of styles. -/
theorem Nested.styled {set : StyleSet σ} {Q : ComputedValues → ComputedValues → Prop}
    (hu : ∀ n parent style style', nodeStyle E set d n (some parent) = some style → HasStyle E d ua author n (some parent) style' →
      style' = style) {parent : ComputedValues} {ns : List Nat} {text : BoxedText}
    (h : Nested E d F ua author Q parent ns text) : ∀ {trees : List StyledNode} {hidden : List Nat},
    StyledTree d F (fun child parent => nodeStyle E set d child (some parent)) parent ns trees hidden → nodesBoxed trees = text := by
  induction h with
  | nil =>
    intro trees hidden t
    cases t
    rfl
  | @ignored parent n ns text node hn hd _ ih =>
    intro trees hidden t
    cases t with
    | ignored hn' hd' t => simpa [nodesBoxed, StyledNode.boxed] using ih t
    | text hn' hd' t => rw [hn] at hn'; cases hn'; simp [hd'] at hd
    | none hn' hd' _ _ t => rw [hn] at hn'; cases hn'; simp [hd'] at hd
    | element hn' hd' _ _ _ t => rw [hn] at hn'; cases hn'; simp [hd'] at hd
  | @text parent n ns contents text node hn hd _ ih =>
    intro trees hidden t
    cases t with
    | ignored hn' hd' t => rw [hn] at hn'; cases hn'; simp [hd] at hd'
    | text hn' hd' t =>
      rw [hn] at hn'; cases hn'
      rw [hd] at hd'; cases hd'
      simp [nodesBoxed, StyledNode.boxed, ih t, Function.comp_def]
    | none hn' hd' _ _ t => rw [hn] at hn'; cases hn'; simp [hd'] at hd
    | element hn' hd' _ _ _ t => rw [hn] at hn'; cases hn'; simp [hd'] at hd
  | @none parent n ns style text hs hd _ ih =>
    intro trees hidden t
    cases t with
    | ignored hn' hd' t => obtain ⟨e, he⟩ := hs.data hn'; simp [he] at hd'
    | text hn' hd' t => obtain ⟨e, he⟩ := hs.data hn'; simp [he] at hd'
    | none hn' hd' hs' h' t =>
      cases hu _ _ _ _ hs' hs
      simpa [nodesBoxed, StyledNode.boxed, hd] using ih t
    | element hn' hd' hs' h' _ t =>
      cases hu _ _ _ _ hs' hs
      exact absurd hd h'
  | @contents parent n ns style inner text hs hd hq' _ _ ih1 ih2 =>
    intro trees hidden t
    cases t with
    | ignored hn' hd' t => obtain ⟨e, he⟩ := hs.data hn'; simp [he] at hd'
    | text hn' hd' t => obtain ⟨e, he⟩ := hs.data hn'; simp [he] at hd'
    | none hn' hd' hs' h' t =>
      cases hu _ _ _ _ hs' hs
      simp [hd] at h'
    | element hn' hd' hs' h' t1 t2 =>
      cases hu _ _ _ _ hs' hs
      simp [nodesBoxed, StyledNode.boxed, hd, ih1 t1, ih2 t2]
  | @box parent n ns style inner text hs hd hq' _ _ ih1 ih2 =>
    intro trees hidden t
    obtain ⟨o, i, hd⟩ := hd
    cases t with
    | ignored hn' hd' t => obtain ⟨e, he⟩ := hs.data hn'; simp [he] at hd'
    | text hn' hd' t => obtain ⟨e, he⟩ := hs.data hn'; simp [he] at hd'
    | none hn' hd' hs' h' t =>
      cases hu _ _ _ _ hs' hs
      simp [hd] at h'
    | element hn' hd' hs' h' t1 t2 =>
      cases hu _ _ _ _ hs' hs
      simp [nodesBoxed, StyledNode.boxed, hd, ih1 t1, ih2 t2]

/-- There is something CSS says about the nesting, if styles can be found. -/
theorem StyledTree.nested {set : StyleSet σ}
    (hh : ∀ n parent style, nodeStyle E set d n (some parent) = some style → HasStyle E d ua author n (some parent) style)
    {parent : ComputedValues} {ns : List Nat} {trees : List StyledNode} {hidden : List Nat}
    (t : StyledTree d F (fun child parent => nodeStyle E set d child (some parent)) parent ns trees hidden) :
    ∀ (Q : ComputedValues → Prop), nodesAll (fun s _ => Q s) trees → Nested E d F ua author (fun _ s => Q s) parent ns (nodesBoxed trees) := by
  induction t with
  | nil => exact fun _ _ => .nil
  | ignored hn hd _ ih => exact fun Q hq => .ignored hn hd (ih Q hq.2)
  | @text ps n ns node contents trees hidden hn hd _ ih =>
    intro Q hq
    have := Nested.text (E := E) (ua := ua) (author := author) hn hd (ih Q hq.2)
    simpa [nodesBoxed, StyledNode.boxed, Function.comp_def] using this
  | none hn hd hs hdis _ ih =>
    intro Q hq
    have := Nested.none (hh _ _ _ hs) hdis (ih Q hq.2)
    simpa [nodesBoxed, StyledNode.boxed, hdis] using this
  | @element ps n ns node e s below bh trees hidden hn hd hs hdis _ _ ih1 ih2 =>
    intro Q hq
    obtain hq1 | hq1 := hq.1
    · exact absurd hq1 hdis
    · rcases hsd : displayOf s with _ | _ | ⟨o, i⟩
      · exact absurd hsd hdis
      · have := Nested.contents (hh _ _ _ hs) hsd hq1.1 (ih1 Q hq1.2) (ih2 Q hq.2)
        simpa [nodesBoxed, StyledNode.boxed, hsd] using this
      · have := Nested.box (hh _ _ _ hs) ⟨o, i, hsd⟩ hq1.1 (ih1 Q hq1.2) (ih2 Q hq.2)
        simpa [nodesBoxed, StyledNode.boxed, hsd] using this

/-- **C92**: what CSS says about the nesting is met by the styles that are found, with any `Q` that holds of them. -/
theorem C92_exists (hn : DocumentNodeIsRoot d) (hi : d.styleElements = d.idsWith NodeData.isStyle) (R : Rules E d F ua author)
    {rootStyle : ComputedValues} {tree : List StyledNode} {hidden : List Nat} (h : Denotes E d F rootStyle tree hidden)
    (Q : ComputedValues → Prop) (hQ : nodesAll (fun s _ => Q s) tree) :
    DocumentNests E d F ua author (fun _ s => Q s) rootStyle (boxedBy rootStyle (nodesBoxed tree)) := by
  obtain ⟨set, r, h1, h2, h3, h4, h5⟩ := h.styled
  obtain ⟨pre, post, e, h6, h7, h8⟩ := (C09_root_element d F h.represents hn d.nodes.length (Nat.le_refl _) r).1 h2
  exact ⟨R, r, pre, post, e, _, h6, h7, h8, (hasStyle_of h.represents hi R h1 h3).1, h4,
    h5.nested (fun n p s hs => (hasStyle_of h.represents hi R h1 hs).1) Q hQ, rfl⟩
end

/-! ### The page -/

theorem boxedGlyphs_append (t u : List (List (ComputedValues × Extent) × PageText)) : boxedGlyphs (t ++ u) = boxedGlyphs t ++ boxedGlyphs u := by
  simp [boxedGlyphs]

theorem boxedGlyphs_boxedBy (s : ComputedValues) (e : Extent) (t : List (List (ComputedValues × Extent) × PageText)) :
    boxedGlyphs (boxedBy (s, e) t) = boxedBy s (boxedGlyphs t) := by
  simp [boxedGlyphs, boxedBy, List.flatMap_map, List.map_flatMap, Function.comp_def]

mutual
theorem Fragment.item_boxed (origin : Vec2 Rat) : ∀ f : Fragment, boxedGlyphs (f.item origin).within = f.boxed
  | .box info children => by rw [Fragment.item, PageItem.within, boxedGlyphs_boxedBy, itemsAt_boxed, Fragment.boxed]
  | .anonymous rect children _ => by rw [Fragment.item, PageItem.within, itemsAt_boxed, Fragment.boxed]
  | .text _ _ segment => by simp [Fragment.item, PageItem.within, boxedGlyphs, Fragment.boxed]
theorem itemsAt_boxed (origin : Vec2 Rat) : ∀ fs : List Fragment, boxedGlyphs (itemsWithin (itemsAt origin fs)) = fragmentsBoxed fs
  | [] => rfl
  | f :: fs => by rw [itemsAt, itemsWithin, boxedGlyphs_append, Fragment.item_boxed origin f, itemsAt_boxed origin fs, fragmentsBoxed]
end

mutual
theorem PageItem.within_extents : ∀ (i : PageItem), ∀ x ∈ i.within, x.2.extent ∈ i.extents
  | .text t, x, hx => by
    simp only [PageItem.within, List.mem_singleton] at hx
    subst hx
    simp [PageItem.extents, PageText.extent]
  | .box s b c items, x, hx => by
    simp only [PageItem.within, boxedBy, List.mem_map] at hx
    obtain ⟨y, hy, rfl⟩ := hx
    exact List.mem_cons_of_mem _ (itemsWithin_extents items y hy)
  | .line items, x, hx => by
    simp only [PageItem.within] at hx
    exact itemsWithin_extents items x hx
theorem itemsWithin_extents : ∀ (is : List PageItem), ∀ x ∈ itemsWithin is, x.2.extent ∈ itemExtents is
  | [], x, hx => by simp [itemsWithin] at hx
  | i :: is, x, hx => by
    simp only [itemsWithin, List.mem_append] at hx
    simp only [itemExtents, List.mem_append]
    exact hx.imp (PageItem.within_extents i x) (itemsWithin_extents is x)
end

mutual
/-- What is nested stays in every box around it. -/
theorem PageItem.Holds.under : ∀ (i : PageItem) (onLine : Bool), i.Holds onLine → ∀ x ∈ i.within, ∀ b ∈ x.1, x.2.extent.Under b.2
  | .text t, _, _, x, hx, b, hb => by
    simp only [PageItem.within, List.mem_singleton] at hx
    subst hx
    simp at hb
  | .box s border content items, onLine, h, x, hx, b, hb => by
    obtain ⟨h1, h2, -, h4⟩ := h
    simp only [PageItem.within, boxedBy, List.mem_map] at hx
    obtain ⟨y, hy, rfl⟩ := hx
    rcases List.mem_cons.1 hb with rfl | hb
    · obtain ⟨k1, k2⟩ := h2 _ (itemsWithin_extents items y hy)
      obtain ⟨j1, j2, j3, j4⟩ := h1
      exact ⟨le_trans j1 k1, k2.imp id fun k => ⟨le_trans j2 k.1, le_trans k.2 j4⟩⟩
    · exact itemsHold.under items onLine h4 y hy b hb
  | .line items, onLine, h, x, hx, b, hb => by
    simp only [PageItem.within] at hx
    exact itemsHold.under items true h x hx b hb
theorem itemsHold.under : ∀ (is : List PageItem) (onLine : Bool), itemsHold onLine is → ∀ x ∈ itemsWithin is, ∀ b ∈ x.1, x.2.extent.Under b.2
  | [], _, _, x, hx, _, _ => by simp [itemsWithin] at hx
  | i :: is, onLine, h, x, hx, b, hb => by
    simp only [itemsWithin, List.mem_append] at hx
    exact hx.elim (fun hx => PageItem.Holds.under i onLine h.1 x hx b hb) fun hx => itemsHold.under is onLine h.2 x hx b hb
end

section
variable {R Err Er σ : Type} (P : Painter R Er) (E : Engine σ) (font : FontApi Rat Err) (d : Document)

/-- **C92**: whenever a PDF file is made of a document of which all elements that are displayed flow, without anything that makes them
overlap, and are not centred, a reader finds one page in it with texts and the backgrounds of nested boxes. Each character that is
displayed, but for white space, is once on it, in document order, in exactly the boxes of the elements it is in, nested in the same
way and each in the style that CSS gives to its element, but for anonymous boxes. It does not stick out of any of these boxes at the
top, at the bottom or at the left, nor out of those that are on a line at the right. Missing: as for C89. -/
theorem C92_nested_partial {readReal : List Byte → Option R} (hd : RealText P.floats.dtoa readReal) (hl : FloatLaws P.floats)
    (hv : P.fontView.Valid) (hg : ∀ c g, font.glyphId c = .ok g → g < 65536) (hF : Forward font) (F : Forest) (hr : Represents d F)
    (ha : F.Acyclic) (hn : DocumentNodeIsRoot d) (hi : d.styleElements = d.idsWith NodeData.isStyle)
    (ua author : List (σ × List (Declaration × Bool))) (rootStyle : ComputedValues) (displayed : List (List ComputedValues × Nat))
    (h : DocumentNests E d F ua author (fun _ s => InPlainFlow s) rootStyle displayed)
    (hroot : floatOf rootStyle = .none ∧ Upright rootStyle ∧ PlainLeft rootStyle)
    {fuel : Nat} {schedule : Oracle} {bytes : List Byte} (hb : toPdfBytes P E font d fuel schedule = some bytes)
    (hs : bytes.length ≤ 2 ^ 32) :
    ∃ m file page painted item text, (∀ fuel, m ≤ fuel → readDocument readReal fuel bytes = some file) ∧ file.pages = [page] ∧
      (∃ m, ∀ fuel, m ≤ fuel →
        paintContents readReal P.floats.zero P.floats.one (gsAlpha file.extGState) fuel page.contents = some painted) ∧
      AllMatch (MarkSeen P) painted (PageItem.marks item) ∧ item.Holds false ∧
      (∀ t ∈ item.within, ∀ box ∈ t.1, t.2.extent.Under box.2) ∧
      ShownBy font text (boxedGlyphs item.within) ∧
      List.Forall₂ (fun a b => a.2 = b.2 ∧ Around a.1 b.1) (inkedBy displayed) (inkedBy text) := by
  obtain ⟨r, pre, post, e, inner, r1, r2, r3, r4, r5, r6, rfl⟩ := h.root
  obtain ⟨text', hdisp', -⟩ := r6.displayed
  have hlooks : DocumentLooks E d F ua author (fun _ s => InPlainFlow s) rootStyle text' :=
    ⟨h.rules, r, pre, post, e, r1, r2, r3, r4, r5, hdisp'⟩
  obtain ⟨m, file, page, painted, fragment, border, content, inner', text, hlay, hitem, h1, h2, -, h3, hmarks, hholds, -, -, -⟩ :=
    layoutDocument_inside P E font d hd hl hv hg hF F hr ha hn hi ua author rootStyle text' hlooks hroot hb hs
  rw [← hitem] at hmarks hholds
  unfold layoutDocument at hlay
  rcases hc : constructDocument E d fuel with _ | root
  · simp [hc] at hlay
  simp only [hc] at hlay
  obtain ⟨tree, hidden, hden, -, hall, -⟩ := hlooks.denotes hr ha hn hi hc
  obtain ⟨hroot', -⟩ := constructDocument_sound hden hc
  have hflows := hall InPlainFlow fun _ _ h => h
  have habs : root.contents.Only NoAbsolutes := by
    refine constructRoot_only ⟨fun h => absurd h (by rw [hroot.2.1.position]; simp), fun _ => by simp⟩ ?_ hroot'
    exact nodesAll_mono (fun s _ hs => hs.elim
      (fun hs => .inr ⟨fun h => absurd h (by rw [hs.2.1.position]; simp), fun _ => by simp⟩) fun hs => .inl hs.1) tree hflows
  have hevery : root.contents.Every PlainUpright SizeOk := by
    refine constructRoot_every (fun _ => PlainUpright.anonymous) hroot.2 hroot.2.1.fontSize ?_ hroot'
    exact nodesAll_mono (fun s _ hs => hs.elim (fun hs => ⟨hs.2.1.fontSize, fun _ => hs.2⟩) fun hs => ⟨hs.2, fun h => absurd hs.1 h⟩) tree hflows
  have hboxed := layoutRoot_boxed hevery habs hlay
  rw [fragmentsBoxed, fragmentsBoxed, List.append_nil, ← Fragment.item_boxed ⟨0, 0⟩] at hboxed
  refine ⟨m, file, page, painted, fragment.item ⟨0, 0⟩, root.contents.boxed, h1, h2, h3, hmarks, hholds, PageItem.Holds.under _ _ hholds, hboxed, ?_⟩
  have htree : nodesBoxed tree = inner := by
    obtain ⟨set, r', e1, e2, e3, -, t⟩ := hden.styled
    have hr' := (C09_root_element d F hr hn d.nodes.length (Nat.le_refl _) r).2 ⟨pre, post, e, r1, r2, r3⟩
    cases hr'.symm.trans e2
    exact r6.styled (fun n p s s' hs hs' => (hasStyle_of hr hi h.rules e1 hs).2 _ hs') t
  rw [← htree]
  exact constructRoot_boxed r5 hroot.1 (by rw [hroot.2.1.position]; simp) (nodesAll_mono (fun s _ hs => hs.elim
    (fun hs => .inr ⟨by rw [hs.2.1.position]; simp, hs.1⟩) fun hs => .inl hs.1) tree hflows) hroot'

end

/-! ### Example -/

/-- The hypotheses of C92 about the document are met by `lookDocument`: `a` is in the elements `html` and `p`, and `b` in `b` as well. -/
theorem lookDocument_nests : (∃ ua author text, DocumentNests lookEngine lookDocument (forestOf lookChildren) ua author
      (fun _ s => InPlainFlow s) (lookStyle 2 none) text ∧
      text = [([lookStyle 2 none, lookStyle 8 (some (lookStyle 2 none))], 97),
        ([lookStyle 2 none, lookStyle 8 (some (lookStyle 2 none)), lookStyle 10 (some (lookStyle 8 (some (lookStyle 2 none))))], 98)]) ∧
    floatOf (lookStyle 2 none) = .none ∧ Upright (lookStyle 2 none) ∧ PlainLeft (lookStyle 2 none) := by
  refine ⟨?_, lookDocument_inside.2⟩
  obtain ⟨ua, author, h⟩ := lookDocument_rules
  refine ⟨ua, author, _, C92_exists ?_ ?_ h lookDocument_denotes _ ?_, ?_⟩
  · exact ⟨_, rfl, rfl, rfl⟩
  · decide +kernel
  · exact ⟨.inl (by decide +kernel), .inr ⟨.inl ⟨by decide +kernel, upright_of (by decide +kernel), .inl (by decide +kernel)⟩, trivial,
      .inr ⟨.inl ⟨by decide +kernel, upright_of (by decide +kernel), .inl (by decide +kernel)⟩, trivial, trivial⟩, trivial⟩, trivial⟩
  · have h1 : displayOf (lookStyle 3 (some (lookStyle 2 none))) = .none := by decide +kernel
    have h2 : displayOf (lookStyle 8 (some (lookStyle 2 none))) = .generatingBox .block .flow := by decide +kernel
    have h3 : displayOf (lookStyle 10 (some (lookStyle 8 (some (lookStyle 2 none))))) = .generatingBox .inline .flow := by decide +kernel
    simp only [lookTree, nodesBoxed, StyledNode.boxed, h1, h2, h3]
    rfl

end Verif.Layout
