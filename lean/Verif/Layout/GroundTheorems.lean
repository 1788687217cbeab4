/- C85: backgrounds on the page are those of the elements, as CSS says. -/
import Verif.Layout.GroundLemmas
import Verif.Layout.LookTheorems
namespace Verif.Layout
open Verif.Style Verif.Style.Spec Verif.Text Verif.Pdf Verif.Dom

section
variable {σ : Type} {E : Engine σ} {d : Document} {F : Forest} {ua author : List (σ × List (Declaration × Bool))}

/-- The elements that CSS says have boxes are those of the tree of styles. -/
theorem Boxed.styled {set : StyleSet σ}
    (hu : ∀ n parent style style', nodeStyle E set d n (some parent) = some style → HasStyle E d ua author n (some parent) style' →
      style' = style) {parent : ComputedValues} {ns : List Nat} {styles : List ComputedValues}
    (h : Boxed E d F ua author parent ns styles) : ∀ {trees : List StyledNode} {hidden : List Nat},
    StyledTree d F (fun child parent => nodeStyle E set d child (some parent)) parent ns trees hidden → nodesElements trees = styles := by
  induction h with
  | nil =>
    intro trees hidden t
    cases t
    rfl
  | other hn hd _ ih =>
    intro trees hidden t
    cases t with
    | ignored hn' hd' t => simpa [nodesElements, StyledNode.elements] using ih t
    | text hn' hd' t => simpa [nodesElements, StyledNode.elements] using ih t
    | none hn' hd' _ _ t => rw [hn] at hn'; cases hn'; exact absurd hd' (hd _)
    | element hn' hd' _ _ _ t => rw [hn] at hn'; cases hn'; exact absurd hd' (hd _)
  | none hs hd _ ih =>
    intro trees hidden t
    cases t with
    | ignored hn' hd' t => obtain ⟨e, he⟩ := hs.data hn'; simp [he] at hd'
    | text hn' hd' t => obtain ⟨e, he⟩ := hs.data hn'; simp [he] at hd'
    | none hn' hd' hs' h' t =>
      cases hu _ _ _ _ hs' hs
      simpa [nodesElements, StyledNode.elements, hd] using ih t
    | element hn' hd' hs' h' _ t =>
      cases hu _ _ _ _ hs' hs
      exact absurd hd h'
  | contents hs hd _ _ ih1 ih2 =>
    intro trees hidden t
    cases t with
    | ignored hn' hd' t => obtain ⟨e, he⟩ := hs.data hn'; simp [he] at hd'
    | text hn' hd' t => obtain ⟨e, he⟩ := hs.data hn'; simp [he] at hd'
    | none hn' hd' hs' h' t =>
      cases hu _ _ _ _ hs' hs
      rw [hd] at h'; cases h'
    | element hn' hd' hs' h' t1 t2 =>
      cases hu _ _ _ _ hs' hs
      simp [nodesElements, StyledNode.elements, hd, ih1 t1, ih2 t2]
  | @box parent n ns style inner styles hs hd hd2 _ _ ih1 ih2 =>
    intro trees hidden t
    cases t with
    | ignored hn' hd' t => obtain ⟨e, he⟩ := hs.data hn'; simp [he] at hd'
    | text hn' hd' t => obtain ⟨e, he⟩ := hs.data hn'; simp [he] at hd'
    | none hn' hd' hs' h' t =>
      cases hu _ _ _ _ hs' hs
      exact absurd h' hd
    | element hn' hd' hs' h' t1 t2 =>
      cases hu _ _ _ _ hs' hs
      rcases hdis : displayOf style with _ | _ | ⟨o, i⟩
      · exact absurd hdis hd
      · exact absurd hdis hd2
      · simp [nodesElements, StyledNode.elements, hdis, ih1 t1, ih2 t2]

/-- There are such elements, if styles can be found. -/
theorem StyledTree.boxed {set : StyleSet σ}
    (hh : ∀ n parent style, nodeStyle E set d n (some parent) = some style → HasStyle E d ua author n (some parent) style)
    {parent : ComputedValues} {ns : List Nat} {trees : List StyledNode} {hidden : List Nat}
    (t : StyledTree d F (fun child parent => nodeStyle E set d child (some parent)) parent ns trees hidden) :
    Boxed E d F ua author parent ns (nodesElements trees) := by
  induction t with
  | nil => exact .nil
  | ignored hn hd _ ih =>
    refine .other hn (fun e he => ?_) ih
    rw [he] at hd
    simp at hd
  | text hn hd _ ih => exact .other hn (fun e he => by rw [he] at hd; cases hd) ih
  | none hn hd hs hdis _ ih =>
    have := Boxed.none (hh _ _ _ hs) hdis ih
    simpa [nodesElements, StyledNode.elements, hdis] using this
  | @element ps n ns node e s below bh trees hidden hn hd hs hdis _ _ ih1 ih2 =>
    rcases hd2 : displayOf s with _ | _ | ⟨o, i⟩
    · exact absurd hd2 hdis
    · have := Boxed.contents (hh _ _ _ hs) hd2 ih1 ih2
      simpa [nodesElements, StyledNode.elements, hd2] using this
    · have := Boxed.box (hh _ _ _ hs) hdis (by rw [hd2]; simp) ih1 ih2
      simpa [nodesElements, StyledNode.elements, hd2] using this

theorem DocumentBoxed.denotes (hr : Represents d F) (ha : F.Acyclic) (hn : DocumentNodeIsRoot d)
    (hi : d.styleElements = d.idsWith NodeData.isStyle) {rootStyle : ComputedValues} {styles : List ComputedValues}
    (h : DocumentBoxed E d F ua author rootStyle styles) {fuel : Nat} {root : BlockFormattingContext}
    (hc : constructDocument E d fuel = some root) :
    ∃ tree hidden, Denotes E d F rootStyle tree hidden ∧ nodesElements tree = styles := by
  obtain ⟨r, pre, post, e, h1, h2, h3, h4, h5, h6⟩ := h.root
  have hroot := (C09_root_element d F hr hn d.nodes.length (Nat.le_refl _) r).2 ⟨pre, post, e, h1, h2, h3⟩
  unfold constructDocument at hc
  rcases hset : parseStylesheets E d with _ | set
  · simp [hset] at hc
  simp only [hset, hroot] at hc
  rcases hs : nodeStyle E set d r none with _ | style
  · simp [hs] at hc
  simp only [hs] at hc
  cases (hasStyle_of hr hi h.rules hset hs).2 _ h4
  obtain ⟨node, hnode⟩ := nodeStyle_get hs
  simp only [if_neg h5, get_eq, hnode, (hr.ends r node hnode).1] at hc
  rcases h7 : styledNodes (fun child parent => nodeStyle E set d child (some parent)) d fuel rootStyle (F r).head? with _ | tree
  · simp [h7] at hc
  obtain ⟨hidden, t1, t2⟩ := styledNodes_sound hr fuel rootStyle r [] (F r) tree rfl h7
  exact ⟨tree, hidden, ⟨hr, ha, set, r, hset, hroot, hs, h5, t1⟩,
    h6.styled (fun n p s s' hs hs' => (hasStyle_of hr hi h.rules hset hs).2 _ hs') t1⟩

end

/-! ### From fragments to the page -/

/-- The style, if it has a background. -/
def ground (style : ComputedValues) : List ComputedValues := if hasBackground style then [style] else []

/-- The colour of a rectangle. -/
def Shape.rectColors : Shape → List RGBA
  | .rect _ _ color => [color]
  | .glyphs _ _ _ _ => []

theorem shapesOf_rects (ascender : Rat) {origin : Vec2 Rat} {fs : List Fragment} {placed : List (Fragment × Vec2 Rat)} (h : Placed origin fs placed) :
    (shapesOf ascender placed).flatMap Shape.rectColors = (fragmentsCollect ground fs).map backgroundOf := by
  induction h with
  | nil => rfl
  | @cons origin f fs below rest _ _ ih1 ih2 =>
    simp only [shapesOf, List.flatMap_append, List.flatMap_cons, fragmentsCollect, List.map_append] at ih1 ih2 ⊢
    rw [ih1, ih2]
    congr 1
    cases f with
    | box info children =>
      simp only [Fragment.shape, Fragment.collect, Fragment.children, List.map_append, ground, hasBackground]
      split <;> simp_all [Shape.rectColors]
    | anonymous rect children mode => simp [Fragment.shape, Fragment.collect, Fragment.children]
    | text style rect segment => simp [Fragment.shape, Fragment.collect, Fragment.children, Shape.rectColors, fragmentsCollect]

theorem painted_rects {R Er : Type} (P : Painter R Er) {name : Nat → List Byte → Prop} : ∀ (painted : List (Painted R)) (shapes : List Shape),
    AllMatch (fun p s => Verif.Pdf.Matches P.floats name p (s.expected P)) painted shapes →
    AllMatch (fun (s : SeenRect R) c => s.Fills P c) (painted.flatMap seenRects) (shapes.flatMap Shape.rectColors)
  | [], [], _ => trivial
  | [], _ :: _, h => h.elim
  | _ :: _, [], h => h.elim
  | p :: ps, s :: ss, h => by
    obtain ⟨h1, h2⟩ := h
    rw [List.flatMap_cons, List.flatMap_cons]
    refine AllMatch.append ?_ (painted_rects P ps ss h2)
    cases p <;> cases s <;> simp only [Shape.expected, Verif.Pdf.Matches] at h1
    · obtain ⟨h3, rfl, h5⟩ := h1
      exact ⟨⟨h3, h5⟩, trivial⟩
    · trivial

theorem ofElements_ground (styles : List ComputedValues) : ofElements (ofAll ground) styles = styles.filter hasBackground := by
  induction styles with
  | nil => rfl
  | cons s styles ih =>
    simp only [ofElements, List.flatMap_cons] at ih ⊢
    rw [ih]
    simp only [ofAll, ground]
    split <;> simp_all

theorem ofElements_inline (styles : List ComputedValues) {s : ComputedValues} (h : s ∈ ofElements (ofInline ground) styles) :
    s ∈ styles ∧ isInline s = true ∧ hasBackground s = true := by
  simp only [ofElements, List.mem_flatMap] at h
  obtain ⟨t, ht, h⟩ := h
  simp only [ofInline, ground] at h
  split at h
  · split at h
    · simp only [List.mem_singleton] at h
      subst h
      exact ⟨ht, by assumption, by assumption⟩
    · cases h
  · cases h

theorem ground_anonymous (s : ComputedValues) : ground (ComputedValues.anonymousInheritingFrom (some s)) = [] := by
  have h : (ComputedValues.anonymousInheritingFrom (some s)).values .backgroundColor = initial .backgroundColor := rfl
  have h2 : (backgroundOf (ComputedValues.anonymousInheritingFrom (some s))).alpha = 0 := by
    unfold backgroundOf
    rw [h]
    rfl
  simp [ground, hasBackground, h2]

mutual
theorem all_of_elements {Q : ComputedValues → Prop} : ∀ n : StyledNode, (∀ s ∈ n.elements, Q s) → n.All fun s _ => displayOf s = .contents ∨ Q s
  | .ignored, _ => trivial
  | .text _, _ => trivial
  | .element s ch, h => by
    rcases hd : displayOf s with _ | _ | ⟨o, i⟩
    · exact .inl hd
    · exact .inr ⟨.inl hd, nodesAll_of_elements ch (by simpa [StyledNode.elements, hd] using h)⟩
    · have h' : Q s ∧ ∀ t ∈ nodesElements ch, Q t := by simpa [StyledNode.elements, hd] using h
      exact .inr ⟨.inr h'.1, nodesAll_of_elements ch h'.2⟩
theorem nodesAll_of_elements {Q : ComputedValues → Prop} :
    ∀ ns : List StyledNode, (∀ s ∈ nodesElements ns, Q s) → nodesAll (fun s _ => displayOf s = .contents ∨ Q s) ns
  | [], _ => trivial
  | n :: ns, h => ⟨all_of_elements n fun s hs => h s (List.mem_append_left _ hs),
      nodesAll_of_elements ns fun s hs => h s (List.mem_append_right _ hs)⟩
end

section
variable {R Err Er σ : Type} (P : Painter R Er) (E : Engine σ) (font : FontApi Rat Err) (d : Document)

/-- **C85**: whenever a PDF file is made of a document in which no element that has a box floats, a reader finds one page in it, and on
it one filled rectangle, in the colour that CSS gives, for each element that has a box and a background that is not transparent. The only
other rectangles are further pieces of such elements that are in lines. If no element is absolutely positioned and none of those in
lines has a background, the rectangles are painted in document order, so that an element is painted on top of the one that it is in.
Missing: documents with elements that float (`C85_floats_violated`), and those whose style elements the parser does not register
(`C07_xml_violated`). -/
theorem C85_backgrounds_partial {readReal : List Byte → Option R} (hd : RealText P.floats.dtoa readReal) (hl : FloatLaws P.floats)
    (hv : P.fontView.Valid) (hg : ∀ c g, font.glyphId c = .ok g → g < 65536) (F : Forest) (hr : Represents d F) (ha : F.Acyclic)
    (hn : DocumentNodeIsRoot d) (hi : d.styleElements = d.idsWith NodeData.isStyle) (ua author : List (σ × List (Declaration × Bool)))
    (rootStyle : ComputedValues) (elements : List ComputedValues) (h : DocumentBoxed E d F ua author rootStyle elements)
    (hfloat : ∀ s ∈ rootStyle :: elements, floatOf s = .none)
    {fuel : Nat} {schedule : Oracle} {bytes : List Byte} (hb : toPdfBytes P E font d fuel schedule = some bytes)
    (hs : bytes.length ≤ 2 ^ 32) :
    ∃ m file page painted styles pieces, (∀ fuel, m ≤ fuel → readDocument readReal fuel bytes = some file) ∧ file.pages = [page] ∧
      (∃ m, ∀ fuel, m ≤ fuel →
        paintContents readReal P.floats.zero P.floats.one (gsAlpha file.extGState) fuel page.contents = some painted) ∧
      AllMatch (fun s style => s.Fills P (backgroundOf style)) (painted.flatMap seenRects) styles ∧
      styles.Perm ((rootStyle :: elements).filter hasBackground ++ pieces) ∧
      (∀ s ∈ pieces, s ∈ elements ∧ isInline s ∧ hasBackground s) ∧
      ((∀ s ∈ rootStyle :: elements, positionOf s ≠ .absolute) → (∀ s ∈ elements, isInline s → ¬ hasBackground s) →
        styles = (rootStyle :: elements).filter hasBackground) := by
  classical
  unfold toPdfBytes at hb
  rcases hlay : layoutDocument E font d fuel schedule ⟨600, 800⟩ with _ | fragments
  · simp [hlay] at hb
  simp only [hlay] at hb
  rcases hdoc : paintDocument P fragments with _ | doc
  · simp [hdoc] at hb
  simp only [hdoc, Option.some.injEq] at hb
  subst hb
  unfold layoutDocument at hlay
  rcases hc : constructDocument E d fuel with _ | root
  · simp [hc] at hlay
  simp only [hc] at hlay
  obtain ⟨hm, -⟩ := layoutRoot_shown hlay
  obtain ⟨pieces, cov⟩ := layoutRoot_collect ground hlay
  obtain ⟨tree, hidden, hden, rfl⟩ := h.denotes hr ha hn hi hc
  obtain ⟨hroot', -⟩ := constructDocument_sound hden hc
  have hdisp : displayOf rootStyle ≠ .none := by
    obtain ⟨_, _, _, _, _, _, _, _, h, _⟩ := h.root
    exact h
  have hall := constructRoot_collect (f := ofAll ground) (fun s => ground_anonymous s) hdisp (hfloat _ List.mem_cons_self)
    (fun s hs => hfloat s (List.mem_cons_of_mem _ hs)) hroot'
  have hinl := constructRoot_collect (f := ofInline ground) (fun s => rfl) hdisp (hfloat _ List.mem_cons_self)
    (fun s hs => hfloat s (List.mem_cons_of_mem _ hs)) hroot'
  have hall : root.contents.collect (ofAll ground) = (rootStyle :: nodesElements tree).filter hasBackground := by
    rw [hall, ofElements_ground]
    simp only [ofAll, ground, List.filter_cons]
    split <;> rfl
  have hinl : root.contents.collect (ofInline ground) = ofElements (ofInline ground) (nodesElements tree) := by
    rw [hinl]
    rfl
  obtain ⟨placed, hp⟩ := Placed.exists fragments ⟨0, 0⟩
  obtain ⟨m, file, page, painted, h1, h2, -, h3, h4⟩ := C46_page P hd hl hv hp
    (fun e he style rect segment hs g hgm => by
      obtain ⟨c, hcg⟩ := made_glyphs hp hm e he style rect segment hs g hgm
      exact hg c g hcg) hdoc hs
  refine ⟨m, file, page, painted, fragmentsCollect ground fragments, pieces, h1, h2, h3, ?_, ?_, ?_, ?_⟩
  · have := painted_rects P _ _ h4
    rw [shapesOf_rects _ hp] at this
    exact AllMatch.of_map this
  · rw [← hall]
    refine List.perm_iff_count.2 fun s => ?_
    have := cov.count (· == s)
    simpa [List.count, pendingCollect, List.countP_append] using this
  · intro s hs
    have := cov.extra s hs
    rw [hinl] at this
    exact ofElements_inline _ this
  · intro habs hno
    have habs : root.contents.Only NoAbsolutes := by
      refine constructRoot_only ⟨fun h => absurd h (habs _ List.mem_cons_self), fun _ => by simp⟩ ?_ hroot'
      exact nodesAll_of_elements (Q := StyleOnly NoAbsolutes) tree
        (fun s hs => ⟨fun h => absurd h (habs s (List.mem_cons_of_mem _ hs)), fun _ => by simp⟩)
    rw [← hall]
    refine (cov.order habs).2 ?_
    rw [hinl]
    apply List.eq_nil_iff_forall_not_mem.2
    intro s hs
    obtain ⟨h1, h2, h3⟩ := ofElements_inline _ hs
    exact hno s h1 h2 h3

end

section
variable {σ : Type} {E : Engine σ} {d : Document} {F : Forest} {ua author : List (σ × List (Declaration × Bool))}

/-- **C85**: there are elements that CSS says have boxes, if styles are found. -/
theorem C85_exists (hn : DocumentNodeIsRoot d) (hi : d.styleElements = d.idsWith NodeData.isStyle) (R : Rules E d F ua author)
    {rootStyle : ComputedValues} {tree : List StyledNode} {hidden : List Nat} (h : Denotes E d F rootStyle tree hidden) :
    DocumentBoxed E d F ua author rootStyle (nodesElements tree) := by
  obtain ⟨set, r, h1, h2, h3, h4, h5⟩ := h.styled
  obtain ⟨pre, post, e, h6, h7, h8⟩ := (C09_root_element d F h.represents hn d.nodes.length (Nat.le_refl _) r).1 h2
  exact ⟨R, r, pre, post, e, h6, h7, h8, (hasStyle_of h.represents hi R h1 h3).1, h4,
    h5.boxed (fun n p s hs => (hasStyle_of h.represents hi R h1 hs).1)⟩

/-- **C85**: and only these. -/
theorem C85_unique (hr : Represents d F) (ha : F.Acyclic) (hn : DocumentNodeIsRoot d) (hi : d.styleElements = d.idsWith NodeData.isStyle)
    {s s' : ComputedValues} {styles styles' : List ComputedValues} (h : DocumentBoxed E d F ua author s styles)
    (h' : DocumentBoxed E d F ua author s' styles') {fuel : Nat} {root : BlockFormattingContext}
    (hc : constructDocument E d fuel = some root) : s = s' ∧ styles = styles' := by
  obtain ⟨tree, hidden, h1, rfl⟩ := h.denotes hr ha hn hi hc
  obtain ⟨tree', hidden', h1', rfl⟩ := h'.denotes hr ha hn hi hc
  obtain ⟨set, r, e1, e2, e3, -, t⟩ := h1.styled
  obtain ⟨set', r', e1', e2', e3', -, t'⟩ := h1'.styled
  cases e1.symm.trans e1'
  cases e2.symm.trans e2'
  cases e3.symm.trans e3'
  exact ⟨rfl, by rw [(t.unique t').1]⟩

end

/-! ### Examples -/

/-- `p { background-color: red }` -/
def groundSheet1 : List (SourceRule String) := [some (["p"], [.declaration "background-color" [.ident "red"]])]

/-- `* { background-color: blue }` -/
def groundSheet2 : List (SourceRule String) := [some (["*"], [.declaration "background-color" [.ident "blue"]])]

/-- `lookEngine` with other style sheets. -/
def groundEngine : Engine String := { lookEngine with rulesOf := fun s => if s = "1" then groundSheet1 else groundSheet2 }

/-- The rules of its style sheets: those that are more specific come last. -/
def groundSet : StyleSet String :=
  match addStylesheets twoColors ⟨[]⟩ [groundSheet2, groundSheet1] with
  | .ok set => set
  | _ => ⟨[]⟩

theorem groundSet_parsed : parseStylesheets groundEngine lookDocument = some groundSet := by
  have h1 : lookDocument.stylesheetTexts lookDocument.nodes.length lookDocument.styleElements = some ["1", "2"] := by decide +kernel
  have h2 : ∃ a b, addStylesheets twoColors ⟨[]⟩ [groundSheet1, groundSheet2] = .ok ⟨[("p", a), ("*", b)]⟩ ∧
      addStylesheets twoColors ⟨[]⟩ [groundSheet2, groundSheet1] = .ok ⟨[("*", b), ("p", a)]⟩ := ⟨_, _, rfl, rfl⟩
  obtain ⟨a, b, h2, h3⟩ := h2
  have h4 : addStylesheets groundEngine.colors ⟨[]⟩ (["1", "2"].map groundEngine.rulesOf) = .ok ⟨[("p", a), ("*", b)]⟩ := h2
  simp only [parseStylesheets, h1, h4, groundSet, h3]
  simp [StyleSet.finish, List.mergeSort, List.MergeSort.Internal.splitInTwo, groundEngine, lookEngine, lookSpecificity]

/-- The styles of its elements. -/
def groundStyle (n : Nat) (parent : Option ComputedValues) : ComputedValues :=
  (nodeStyle groundEngine groundSet lookDocument n parent).getD spanStyle

/-- The contents of `lookDocument` in these styles. -/
def groundTree : List StyledNode :=
  let html := groundStyle 2 none
  let p := groundStyle 8 (some html)
  [.element (groundStyle 3 (some html)) [], .element p [.text (codes "a"), .element (groundStyle 10 (some p)) [.text (codes "b")]]]

theorem groundDocument_denotes : Denotes groundEngine lookDocument (forestOf lookChildren) (groundStyle 2 none) groundTree [3] := by
  have hstyle : ∀ n parent, (nodeStyle groundEngine groundSet lookDocument n parent).isSome = true →
      nodeStyle groundEngine groundSet lookDocument n parent = some (groundStyle n parent) := by
    intro n parent h
    obtain ⟨s, hs⟩ := Option.isSome_iff_exists.1 h
    simp [groundStyle, hs]
  refine ⟨represents_of_check lookDocument_check, acyclic_of_check lookDocument_check, groundSet, 2, groundSet_parsed, by decide,
    hstyle _ _ (by decide +kernel), by decide +kernel, ?_⟩
  exact .none (n := 3) (hidden := []) rfl rfl (hstyle _ _ (by decide +kernel)) (by decide +kernel)
    (.element (belowHidden := []) (hidden := []) (n := 8) rfl rfl (hstyle _ _ (by decide +kernel)) (by decide +kernel)
      (.text (n := 9) rfl rfl
        (.element (belowHidden := []) (hidden := []) (n := 10) rfl rfl (hstyle _ _ (by decide +kernel)) (by decide +kernel)
          (.text (n := 11) rfl rfl .nil) .nil)) .nil)

theorem groundDocument_rules : ∃ ua author, Rules groundEngine lookDocument (forestOf lookChildren) ua author := by
  obtain ⟨ua, hua⟩ := C28_contents_exist twoColors [lookUserAgent].flatten
  obtain ⟨author, hauthor⟩ := C28_contents_exist groundEngine.colors
    (((lookDocument.idsWith fun x => x.isStyle && x.styleEnabled).map fun i =>
      textContent (lookDocument.dataOf (forestOf lookChildren i))).map groundEngine.rulesOf).flatten
  refine ⟨ua, author, ⟨[lookUserAgent], lookUaSet, rfl, ?_, hua⟩, hauthor⟩
  have h : lookUaSet.rules.Pairwise fun a b => decide (lookSpecificity a.1 ≤ lookSpecificity b.1) = true := by decide +kernel
  exact congrArg StyleSet.mk (List.mergeSort_of_pairwise h).symm

/-- What CSS says about the backgrounds of `lookDocument`: those of `html` and `b` are blue, that of `p` is red, and nothing floats. -/
theorem groundDocument_boxed : ∃ ua author elements,
    DocumentBoxed groundEngine lookDocument (forestOf lookChildren) ua author (groundStyle 2 none) elements ∧
    (∀ s ∈ groundStyle 2 none :: elements, floatOf s = .none ∧ positionOf s ≠ .absolute) ∧
    ((groundStyle 2 none :: elements).filter hasBackground).map (fun s => (backgroundOf s, isInline s)) =
      [(⟨0, 0, 255, 255⟩, false), (⟨255, 0, 0, 255⟩, false), (⟨0, 0, 255, 255⟩, true)] := by
  obtain ⟨ua, author, h⟩ := groundDocument_rules
  refine ⟨ua, author, _, C85_exists ⟨_, rfl, rfl, rfl⟩ (by decide +kernel) h groundDocument_denotes, ?_, by decide +kernel⟩
  decide +kernel

/-- A file is made of it. -/
theorem groundDocument_pdf : ∃ bytes, toPdfBytes examplePainter groundEngine basicFont lookDocument 9 inOrder = some bytes ∧
    bytes.length ≤ 2 ^ 32 := by
  have h : ((toPdfBytes examplePainter groundEngine basicFont lookDocument 9 inOrder).map fun bytes => decide (bytes.length ≤ 2 ^ 32)) =
      some true := by
    simp only [toPdfBytes, layoutDocument, constructDocument, groundSet_parsed]
    decide +kernel
  rcases hb : toPdfBytes examplePainter groundEngine basicFont lookDocument 9 inOrder with _ | bytes
  · rw [hb] at h; cases h
  · rw [hb] at h
    exact ⟨bytes, rfl, of_decide_eq_true (Option.some.inj h)⟩

/-- The other hypotheses of C85 are met by `lookDocument`. -/
example : RealText examplePainter.floats.dtoa readWhole ∧ FloatLaws examplePainter.floats ∧ examplePainter.fontView.Valid ∧
    (∀ c g, basicFont.glyphId c = .ok g → g < 65536) ∧ Represents lookDocument (forestOf lookChildren) ∧
    (forestOf lookChildren).Acyclic ∧ DocumentNodeIsRoot lookDocument ∧
    lookDocument.styleElements = lookDocument.idsWith NodeData.isStyle := by
  refine ⟨realText_whole, wholeFloats_laws, sample_valid.fonts 0, ?_, groundDocument_denotes.represents, groundDocument_denotes.acyclic,
    ⟨_, rfl, rfl, rfl⟩, by decide +kernel⟩
  intro c g h
  simp only [basicFont] at h
  split at h <;> cases h
  assumption

/-- A red background. -/
def redStyle (float : Style.Float) : ComputedValues :=
  styleWith (.generatingBox .block .flow) fun v => (v.set .backgroundColor (.rgba ⟨255, 0, 0, 255⟩)).set .float float

/-- **C85** does not hold for floats: `<html><p></p></html>` where `p` has a red background has a red rectangle on the page, but none if
`p` floats, because flow/mod.rs 284-287 makes nothing of floating boxes. -/
theorem C85_floats_violated :
    hasBackground (redStyle .left) = true ∧ isInline (redStyle .left) = false ∧
    ((constructRoot blockStyle [.element (redStyle .none) []]).bind fun root =>
      (layoutRoot basicFont 9 inOrder root ⟨600, 800⟩).map fun fs => (fragmentsCollect ground fs).map backgroundOf) =
        some [⟨255, 0, 0, 255⟩] ∧
    ((constructRoot blockStyle [.element (redStyle .left) []]).bind fun root =>
      (layoutRoot basicFont 9 inOrder root ⟨600, 800⟩).map fun fs => (fragmentsCollect ground fs).map backgroundOf) = some [] := by
  decide +kernel

end Verif.Layout
