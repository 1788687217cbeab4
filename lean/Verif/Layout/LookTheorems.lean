/- C80: the text on the page looks as CSS says. -/
import Verif.Layout.LookSpec
import Verif.Layout.ShownTheorems
import Verif.Dom.Style
namespace Verif.Layout
open Verif.Style Verif.Style.Spec Verif.Text Verif.Pdf Verif.Dom

section
variable {σ : Type} {E : Engine σ} {d : Document} {F : Forest} {ua author : List (σ × List (Declaration × Bool))}

theorem sheets_texts (hr : Represents d F) (hi : d.styleElements = d.idsWith NodeData.isStyle) :
    d.stylesheetTexts d.nodes.length d.styleElements =
      some ((d.idsWith fun x => x.isStyle && x.styleEnabled).map fun i => textContent (d.dataOf (F i))) := by
  rw [stylesheetTexts_eq hr (Nat.le_refl _)]
  · rw [hi]
    simp only [Document.idsWith, List.filter_filter]
    congr 2
    apply List.filter_congr
    intro i _
    cases (d.nodes[i]?).map Node.data with
    | none => rfl
    | some x => simp [Bool.and_comm]
  · intro i h
    rw [hi] at h
    exact (List.mem_filter.1 h).2

theorem attr_exists (E : Engine σ) (e : ElementData) : ∃ attr, AttrContents E.colors E.tokenize e attr := by
  unfold AttrContents
  split
  · split
    · exact contents_exist _ _
    · exact ⟨[], rfl⟩
  · exact ⟨[], rfl⟩

/-- The values that the rules of CSS give are determined by them. -/
theorem values_unique {specificity : σ → Nat} {isMatch : σ → Bool} {attr : List (Declaration × Bool)} {parent : Values} {v w : Values}
    (hv : ∀ c, Winner specificity isMatch ua author attr c → v c.declaration.longhand = valueOf v.fontSize parent c.declaration)
    (hw : ∀ c, Winner specificity isMatch ua author attr c → w c.declaration.longhand = valueOf w.fontSize parent c.declaration)
    (h : ∀ p, (∃ c, Winner specificity isMatch ua author attr c ∧ c.declaration.longhand = p) ∨ v p = w p) : v = w := by
  have hfs : v .fontSize = w .fontSize := by
    rcases h .fontSize with ⟨c, hc, hp⟩ | h
    · have h1 := hv c hc
      have h2 := hw c hc
      rcases c with ⟨o, i, il, sp, od, ps, decl⟩
      simp only at hp h1 h2
      cases decl with
      | value p x =>
        simp only [Declaration.longhand] at hp
        subst hp
        exact h1.trans h2.symm
      | cssWide p k =>
        simp only [Declaration.longhand] at hp
        subst hp
        cases k <;> exact h1.trans h2.symm
    · exact h
  have hfs' : v.fontSize = w.fontSize := hfs
  funext p
  rcases h p with ⟨c, hc, rfl⟩ | h
  · rw [hv c hc, hw c hc, hfs']
  · exact h

theorem hasStyle_of (hr : Represents d F) (hi : d.styleElements = d.idsWith NodeData.isStyle) (R : Rules E d F ua author)
    {set : StyleSet σ} (hset : parseStylesheets E d = some set) {n : Nat} {parent : Option ComputedValues} {style : ComputedValues}
    (h : nodeStyle E set d n parent = some style) :
    HasStyle E d ua author n parent style ∧ ∀ style', HasStyle E d ua author n parent style' → style' = style := by
  obtain ⟨sheets, uaSet, h1, h2, h3⟩ := R.ua
  unfold parseStylesheets at hset
  simp only [sheets_texts hr hi] at hset
  rcases h4 : addStylesheets E.colors ⟨[]⟩
    (((d.idsWith fun x => x.isStyle && x.styleEnabled).map fun i => textContent (d.dataOf (F i))).map E.rulesOf) with aset | _ | _
  case ok =>
    simp only [h4, Option.some.injEq] at hset
    subst hset
    unfold nodeStyle at h
    rcases hn : d.nodes[n]? with _ | node
    · simp [Document.get, hn] at h
    rcases hd : node.asElement with _ | e
    · simp [Document.get, hn, hd] at h
    have hd' : node.data = .element e := by
      unfold Node.asElement at hd
      split at hd
      · cases hd; assumption
      · cases hd
    simp only [Document.get, hn, Option.bind_some, hd, h2] at h
    rcases hs : styleForElement E.colors E.tokenize (uaSet.finish E.specificity) (aset.finish E.specificity)
      (fun s => E.isMatch s d n) e parent with st | _ | _
    case ok =>
      simp only [hs, Option.some.injEq] at h
      subst h
      constructor
      · obtain ⟨attr, ha⟩ := attr_exists E e
        obtain ⟨v, hv1, hv2, hv3⟩ := C28_winner h1 h4 hs h3 R.author ha
        refine ⟨node, e, attr, v, hn, hd', ha, hv1, hv2, fun p hp => ?_⟩
        rcases hv3 p with ⟨c, hc, hcp⟩ | h
        · exact absurd hcp (hp c hc.1)
        · exact h.2
      · rintro style' ⟨node', e', attr, w, hn', hde, ha, hw1, hw2, hw3⟩
        rw [hn] at hn'
        cases hn'
        rw [hd'] at hde
        cases hde
        obtain ⟨v, hv1, hv2, hv3⟩ := C28_winner h1 h4 hs h3 R.author ha
        have : w = v := by
          refine values_unique hw2 hv2 fun p => ?_
          rcases hv3 p with h | ⟨h, hu⟩
          · exact .inl h
          · exact .inr ((hw3 p h).trans hu.symm)
        subst this
        exact fixedUp_unique hw1 hv1
    all_goals simp [hs] at h
  all_goals (simp only [h4] at hset; cases hset)

theorem HasStyle.data {n : Nat} {parent : Option ComputedValues} {style : ComputedValues} (h : HasStyle E d ua author n parent style)
    {node : Node} (hn : d.nodes[n]? = some node) : ∃ e, node.data = .element e := by
  obtain ⟨node', e, _, _, hn', he, _⟩ := h
  rw [hn] at hn'
  cases hn'
  exact ⟨e, he⟩

/-- What CSS says is displayed is what there is in the tree of styles. -/
theorem Displayed.styled {set : StyleSet σ} {Q : ComputedValues → ComputedValues → Prop}
    (hu : ∀ n parent style style', nodeStyle E set d n (some parent) = some style → HasStyle E d ua author n (some parent) style' →
      style' = style) {parent : ComputedValues} {ns : List Nat} {text : List (ComputedValues × Nat)}
    (h : Displayed E d F ua author Q parent ns text) : ∀ {trees : List StyledNode} {hidden : List Nat},
    StyledTree d F (fun child parent => nodeStyle E set d child (some parent)) parent ns trees hidden →
    styledTexts parent trees = text ∧
      (∀ Q' : ComputedValues → Prop, (∀ p s, Q p s → Q' s) → nodesAll (fun s _ => Q' s) trees) ∧
      ((∀ p s, Q p s → displayOf s = .contents → look s = look p) → nodesContentsKeep look parent trees) := by
  induction h with
  | nil =>
    intro trees hidden t
    cases t
    exact ⟨rfl, fun _ _ => trivial, fun _ => trivial⟩
  | @ignored parent n ns text node hn hd _ ih =>
    intro trees hidden t
    cases t with
    | ignored hn' hd' t =>
      obtain ⟨h1, h2, h3⟩ := ih t
      exact ⟨by simpa [styledTexts, StyledNode.styledText] using h1, fun Q' hq => ⟨trivial, h2 Q' hq⟩, fun hq => ⟨trivial, h3 hq⟩⟩
    | text hn' hd' t => rw [hn] at hn'; cases hn'; simp [hd'] at hd
    | none hn' hd' _ _ t => rw [hn] at hn'; cases hn'; simp [hd'] at hd
    | element hn' hd' _ _ _ t => rw [hn] at hn'; cases hn'; simp [hd'] at hd
  | @text parent n ns contents text node hn hd _ ih =>
    intro trees hidden t
    cases t with
    | ignored hn' hd' t => rw [hn] at hn'; cases hn'; simp [hd] at hd'
    | text hn' hd' t =>
      rw [hn] at hn'; cases hn'
      rw [hd] at hd'; cases hd'
      obtain ⟨h1, h2, h3⟩ := ih t
      exact ⟨by simp [styledTexts, StyledNode.styledText, h1, Function.comp_def], fun Q' hq => ⟨trivial, h2 Q' hq⟩, fun hq => ⟨trivial, h3 hq⟩⟩
    | none hn' hd' _ _ t => rw [hn] at hn'; cases hn'; simp [hd'] at hd
    | element hn' hd' _ _ _ t => rw [hn] at hn'; cases hn'; simp [hd'] at hd
  | @none parent n ns style text hs hd _ ih =>
    intro trees hidden t
    cases t with
    | ignored hn' hd' t => obtain ⟨e, he⟩ := hs.data hn'; simp [he] at hd'
    | text hn' hd' t => obtain ⟨e, he⟩ := hs.data hn'; simp [he] at hd'
    | none hn' hd' hs' h' t =>
      cases hu _ _ _ _ hs' hs
      obtain ⟨h1, h2, h3⟩ := ih t
      exact ⟨by simpa [styledTexts, StyledNode.styledText, hd] using h1, fun Q' hq => ⟨.inl hd, h2 Q' hq⟩, fun hq => ⟨.inl hd, h3 hq⟩⟩
    | element hn' hd' hs' h' _ t =>
      cases hu _ _ _ _ hs' hs
      exact absurd hd h'
  | @element parent n ns style inner text hs hd hq' _ _ ih1 ih2 =>
    intro trees hidden t
    cases t with
    | ignored hn' hd' t => obtain ⟨e, he⟩ := hs.data hn'; simp [he] at hd'
    | text hn' hd' t => obtain ⟨e, he⟩ := hs.data hn'; simp [he] at hd'
    | none hn' hd' hs' h' t =>
      cases hu _ _ _ _ hs' hs
      exact absurd h' hd
    | element hn' hd' hs' h' t1 t2 =>
      cases hu _ _ _ _ hs' hs
      obtain ⟨h1, h2, h3⟩ := ih1 t1
      obtain ⟨h4, h5, h6⟩ := ih2 t2
      exact ⟨by simp [styledTexts, StyledNode.styledText, hd, h1, h4], fun Q' hq => ⟨.inr ⟨hq _ _ hq', h2 Q' hq⟩, h5 Q' hq⟩,
        fun hq => ⟨.inr ⟨hq _ _ hq', h3 hq⟩, h6 hq⟩⟩

/-- There is something CSS says is displayed, if styles can be found. -/
theorem StyledTree.displayed {set : StyleSet σ}
    (hh : ∀ n parent style, nodeStyle E set d n (some parent) = some style → HasStyle E d ua author n (some parent) style)
    {parent : ComputedValues} {ns : List Nat} {trees : List StyledNode} {hidden : List Nat}
    (t : StyledTree d F (fun child parent => nodeStyle E set d child (some parent)) parent ns trees hidden) :
    ∀ (Q : ComputedValues → Prop), nodesAll (fun s _ => Q s) trees →
      Displayed E d F ua author (fun _ s => Q s) parent ns (styledTexts parent trees) := by
  induction t with
  | nil => exact fun _ _ => .nil
  | ignored hn hd _ ih => exact fun Q hq => .ignored hn hd (ih Q hq.2)
  | @text ps n ns node contents trees hidden hn hd _ ih =>
    intro Q hq
    have := Displayed.text (E := E) (ua := ua) (author := author) hn hd (ih Q hq.2)
    simpa [styledTexts, StyledNode.styledText, Function.comp_def] using this
  | none hn hd hs hdis _ ih =>
    intro Q hq
    have := Displayed.none (hh _ _ _ hs) hdis (ih Q hq.2)
    simpa [styledTexts, StyledNode.styledText, hdis] using this
  | @element ps n ns node e s below bh trees hidden hn hd hs hdis _ _ ih1 ih2 =>
    intro Q hq
    obtain hq1 | hq1 := hq.1
    · exact absurd hq1 hdis
    · have := Displayed.element (hh _ _ _ hs) hdis hq1.1 (ih1 Q hq1.2) (ih2 Q hq.2)
      simpa [styledTexts, StyledNode.styledText, hdis] using this

theorem DocumentLooks.denotes (hr : Represents d F) (ha : F.Acyclic) (hn : DocumentNodeIsRoot d)
    (hi : d.styleElements = d.idsWith NodeData.isStyle) {Q : ComputedValues → ComputedValues → Prop} {rootStyle : ComputedValues}
    {text : List (ComputedValues × Nat)} (h : DocumentLooks E d F ua author Q rootStyle text) {fuel : Nat} {root : BlockFormattingContext}
    (hc : constructDocument E d fuel = some root) :
    ∃ tree hidden, Denotes E d F rootStyle tree hidden ∧ styledTexts rootStyle tree = text ∧
      (∀ Q' : ComputedValues → Prop, (∀ p s, Q p s → Q' s) → nodesAll (fun s _ => Q' s) tree) ∧
      ((∀ p s, Q p s → displayOf s = .contents → look s = look p) → nodesContentsKeep look rootStyle tree) := by
  obtain ⟨r, pre, post, e, h1, h2, h3, h4, h5, h6⟩ := h.root
  have hroot := (C09_root_element d F hr hn d.nodes.length (Nat.le_refl _) r).2 ⟨pre, post, e, h1, h2, h3⟩
  unfold constructDocument at hc
  rcases hset : parseStylesheets E d with _ | set
  · simp [hset] at hc
  simp only [hset, hroot] at hc
  rcases hs : nodeStyle E set d r none with _ | style
  · simp [hs] at hc
  simp only [hs] at hc
  cases (hasStyle_of hr hi h.rules hset hs).2 _ h4
  obtain ⟨node, hnode⟩ := nodeStyle_get hs
  simp only [if_neg h5, get_eq, hnode, (hr.ends r node hnode).1] at hc
  rcases h7 : styledNodes (fun child parent => nodeStyle E set d child (some parent)) d fuel rootStyle (F r).head? with _ | tree
  · simp [h7] at hc
  obtain ⟨hidden, t1, t2⟩ := styledNodes_sound hr fuel rootStyle r [] (F r) tree rfl h7
  exact ⟨tree, hidden, ⟨hr, ha, set, r, hset, hroot, hs, h5, t1⟩,
    h6.styled (fun n p s s' hs hs' => (hasStyle_of hr hi h.rules hset hs).2 _ hs') t1⟩

end

/-- The glyphs in a shape, with their font size and colour. -/
def Shape.looks : Shape → List (Nat × Rat × RGBA)
  | .rect _ _ _ => []
  | .glyphs ids fontSize _ color => ids.map fun g => (g, fontSize, color)

theorem shapesOf_looks (ascender : Rat) {origin : Vec2 Rat} {fs : List Fragment} {placed : List (Fragment × Vec2 Rat)} (h : Placed origin fs placed) :
    (shapesOf ascender placed).flatMap Shape.looks = (fragmentsGlyphs fs).map fun g => (g.2, look g.1) := by
  induction h with
  | nil => rfl
  | @cons origin f fs below rest _ _ ih1 ih2 =>
    simp only [shapesOf, List.flatMap_append, List.flatMap_cons, fragmentsGlyphs, List.map_append] at ih1 ih2 ⊢
    rw [ih1, ih2]
    congr 1
    cases f with
    | box info children =>
      simp only [Fragment.shape, Fragment.glyphs, Fragment.children]
      split <;> simp [Shape.looks]
    | anonymous rect children mode => simp [Fragment.shape, Fragment.glyphs, Fragment.children]
    | text style rect segment =>
      simp [Fragment.shape, Fragment.glyphs, Fragment.children, Shape.looks, fragmentsGlyphs, Function.comp_def, look, fontSizeOf]
      intros; rfl

theorem AllMatch.append {A B : Type} {r : A → B → Prop} : ∀ {as : List A} {bs : List B} {as' : List A} {bs' : List B},
    AllMatch r as bs → AllMatch r as' bs' → AllMatch r (as ++ as') (bs ++ bs')
  | [], [], _, _, _, h => h
  | [], _ :: _, _, _, h, _ => h.elim
  | _ :: _, [], _, _, h, _ => h.elim
  | _ :: _, _ :: _, _, _, h, h' => ⟨h.1, AllMatch.append h.2 h'⟩

theorem AllMatch.map {A B C : Type} {r : A → B → Prop} {f : C → A} {g : C → B} : ∀ (l : List C), (∀ c ∈ l, r (f c) (g c)) →
    AllMatch r (l.map f) (l.map g)
  | [], _ => trivial
  | c :: l, h => ⟨h c List.mem_cons_self, AllMatch.map l fun c hc => h c (List.mem_cons_of_mem _ hc)⟩

theorem painted_looks {R Er : Type} (P : Painter R Er) {name : Nat → List Byte → Prop} : ∀ (painted : List (Painted R)) (shapes : List Shape),
    AllMatch (fun p s => Verif.Pdf.Matches P.floats name p (s.expected P)) painted shapes →
    AllMatch (fun s (g : Nat × Rat × RGBA) => s.glyph = g.1 ∧ s.Looks P g.2) (painted.flatMap seenGlyphs) (shapes.flatMap Shape.looks)
  | [], [], _ => trivial
  | [], _ :: _, h => h.elim
  | _ :: _, [], h => h.elim
  | p :: ps, s :: ss, h => by
    obtain ⟨h1, h2⟩ := h
    rw [List.flatMap_cons, List.flatMap_cons]
    refine AllMatch.append ?_ (painted_looks P ps ss h2)
    cases p <;> cases s <;> simp only [Shape.expected, Verif.Pdf.Matches] at h1
    · trivial
    · obtain ⟨h3, h4, h5, h6, h7, h8⟩ := h1
      simp only [seenGlyphs, Shape.looks, h7, Option.getD_some]
      exact AllMatch.map _ fun g _ => ⟨rfl, h5, h3, ⟨_, _, h6⟩, h8⟩

theorem AllMatch.of_map {A B C : Type} {r : A → C → Prop} {g : B → C} : ∀ {as : List A} {bs : List B},
    AllMatch r as (bs.map g) → AllMatch (fun a b => r a (g b)) as bs
  | [], [], _ => trivial
  | [], _ :: _, h => h.elim
  | _ :: _, [], h => h.elim
  | _ :: _, _ :: _, h => ⟨h.1, AllMatch.of_map h.2⟩

section
variable {R Err Er σ : Type} (P : Painter R Er) (E : Engine σ) (font : FontApi Rat Err) (d : Document)

/-- **C80**: whenever a PDF file is made of a document, and no element that is displayed floats or changes the font size or colour while
it has `display: contents`, a reader finds one page in it, and each glyph on it with the font size and colour that CSS gives to the element that
its character is in. All characters that are displayed are there, each once, but for white space: in document order if no element is
absolutely positioned. Missing: documents with such elements (`C65_floats_violated`, `C62_style_violated`), and those whose style
elements the parser does not register (`C07_xml_violated`). -/
theorem C80_look_partial {readReal : List Byte → Option R} (hd : RealText P.floats.dtoa readReal) (hl : FloatLaws P.floats)
    (hv : P.fontView.Valid) (hg : ∀ c g, font.glyphId c = .ok g → g < 65536) (F : Forest) (hr : Represents d F) (ha : F.Acyclic)
    (hn : DocumentNodeIsRoot d) (hi : d.styleElements = d.idsWith NodeData.isStyle) (ua author : List (σ × List (Declaration × Bool)))
    (Q : ComputedValues → ComputedValues → Prop) (rootStyle : ComputedValues) (displayed : List (ComputedValues × Nat))
    (h : DocumentLooks E d F ua author Q rootStyle displayed) (hroot : floatOf rootStyle = .none)
    (hQ : ∀ parent s, Q parent s → floatOf s = .none ∧ (displayOf s = .contents → look s = look parent))
    {fuel : Nat} {schedule : Oracle} {bytes : List Byte} (hb : toPdfBytes P E font d fuel schedule = some bytes)
    (hs : bytes.length ≤ 2 ^ 32) :
    ∃ m file page painted text glyphs, (∀ fuel, m ≤ fuel → readDocument readReal fuel bytes = some file) ∧ file.pages = [page] ∧
      (∃ m, ∀ fuel, m ≤ fuel →
        paintContents readReal P.floats.zero P.floats.one (gsAlpha file.extGState) fuel page.contents = some painted) ∧
      AllMatch (fun s g => s.glyph = g.2 ∧ s.Looks P (look g.1)) (painted.flatMap seenGlyphs) glyphs ∧ Shown font text glyphs ∧
      (inkWith look text).Perm (inkWith look displayed) ∧
      (positionOf rootStyle ≠ .absolute ∧ (∀ parent s, Q parent s → positionOf s ≠ .absolute) →
        inkWith look text = inkWith look displayed) := by
  unfold toPdfBytes at hb
  rcases hlay : layoutDocument E font d fuel schedule ⟨600, 800⟩ with _ | fragments
  · simp [hlay] at hb
  simp only [hlay] at hb
  rcases hdoc : paintDocument P fragments with _ | doc
  · simp [hdoc] at hb
  simp only [hdoc, Option.some.injEq] at hb
  subst hb
  unfold layoutDocument at hlay
  rcases hc : constructDocument E d fuel with _ | root
  · simp [hc] at hlay
  simp only [hc] at hlay
  obtain ⟨hm, runs, hshown, hperm, hord⟩ := layoutRoot_shown hlay
  obtain ⟨tree, hidden, hden, htext, hall, hkeep⟩ := h.denotes hr ha hn hi hc
  obtain ⟨hroot', -⟩ := constructDocument_sound hden hc
  have hdisp : displayOf rootStyle ≠ .none := by
    obtain ⟨_, _, _, _, _, _, _, _, h, _⟩ := h.root
    exact h
  obtain ⟨c, f, hcont, hst⟩ := constructRoot_text hdisp hroot'
  have hink := construct_keeps look hcont (hkeep fun p s hq => (hQ p s hq).2)
  rw [← hst, htext] at hink
  have hnofloat : root.contents.Only NoFloats := by
    refine constructRoot_only ⟨fun _ => by simp, fun hf => absurd hroot hf⟩ ?_ hroot'
    exact nodesAll_mono (fun s _ hs => .inr ⟨fun _ => by simp, fun hf => absurd hs hf⟩) tree (hall _ fun p s hq => (hQ p s hq).1)
  have hflat := BlockContainer.runs_flatten root.contents hnofloat
  obtain ⟨placed, hp⟩ := Placed.exists fragments ⟨0, 0⟩
  obtain ⟨m, file, page, painted, h1, h2, -, h3, h4⟩ := C46_page P hd hl hv hp
    (fun e he style rect segment hs g hgm => by
      obtain ⟨c, hcg⟩ := made_glyphs hp hm e he style rect segment hs g hgm
      exact hg c g hcg) hdoc hs
  refine ⟨m, file, page, painted, runs.flatten, fragmentsGlyphs fragments, h1, h2, h3, ?_, hshown, ?_, ?_⟩
  · have := painted_looks P _ _ h4
    rw [shapesOf_looks _ hp] at this
    exact AllMatch.of_map this
  · rw [← hink, ← hflat]
    exact (hperm.flatten.filter _).map _
  · rintro ⟨ha, hn⟩
    have habs : root.contents.Only NoAbsolutes := by
      refine constructRoot_only ⟨fun h => absurd h ha, fun _ => by simp⟩ ?_ hroot'
      exact nodesAll_mono (fun s _ hs => .inr ⟨fun h => absurd h hs, fun _ => by simp⟩) tree (hall _ fun p s hq => hn p s hq)
    rw [hord habs, hflat]
    exact hink

end

section
variable {σ : Type} {E : Engine σ} {d : Document} {F : Forest} {ua author : List (σ × List (Declaration × Bool))}

/-- **C80**: what CSS says about how the text looks is met by the styles that are found, with any `Q` that holds of them. -/
theorem C80_exists (hn : DocumentNodeIsRoot d) (hi : d.styleElements = d.idsWith NodeData.isStyle) (R : Rules E d F ua author)
    {rootStyle : ComputedValues} {tree : List StyledNode} {hidden : List Nat} (h : Denotes E d F rootStyle tree hidden)
    (Q : ComputedValues → Prop) (hQ : nodesAll (fun s _ => Q s) tree) :
    DocumentLooks E d F ua author (fun _ s => Q s) rootStyle (styledTexts rootStyle tree) := by
  obtain ⟨set, r, h1, h2, h3, h4, h5⟩ := h.styled
  obtain ⟨pre, post, e, h6, h7, h8⟩ := (C09_root_element d F h.represents hn d.nodes.length (Nat.le_refl _) r).1 h2
  exact ⟨R, r, pre, post, e, h6, h7, h8, (hasStyle_of h.represents hi R h1 h3).1, h4,
    h5.displayed (fun n p s hs => (hasStyle_of h.represents hi R h1 hs).1) Q hQ⟩

/-- **C80**: it determines how the text looks, of a document of which boxes are made. -/
theorem C80_unique (hr : Represents d F) (ha : F.Acyclic) (hn : DocumentNodeIsRoot d) (hi : d.styleElements = d.idsWith NodeData.isStyle)
    {Q Q' : ComputedValues → ComputedValues → Prop} {s s' : ComputedValues} {text text' : List (ComputedValues × Nat)}
    (h : DocumentLooks E d F ua author Q s text) (h' : DocumentLooks E d F ua author Q' s' text') {fuel : Nat}
    {root : BlockFormattingContext} (hc : constructDocument E d fuel = some root) : s = s' ∧ text = text' := by
  obtain ⟨tree, hidden, h1, rfl, -⟩ := h.denotes hr ha hn hi hc
  obtain ⟨tree', hidden', h1', rfl, -⟩ := h'.denotes hr ha hn hi hc
  obtain ⟨set, r, e1, e2, e3, -, t⟩ := h1.styled
  obtain ⟨set', r', e1', e2', e3', -, t'⟩ := h1'.styled
  cases e1.symm.trans e1'
  cases e2.symm.trans e2'
  cases e3.symm.trans e3'
  exact ⟨rfl, by rw [(t.unique t').1]⟩

/-- **C80**: the documents that an HTML parser makes meet the hypotheses about the document. -/
theorem C80_documents (ops : List SinkOp) (hops : LegalHistory Document.new ops) :
    ∃ d F, Document.new.runOps ops = some d ∧ Represents d F ∧ F.Acyclic ∧ DocumentNodeIsRoot d ∧
      d.styleElements = d.idsWith NodeData.isStyle := by
  obtain ⟨d, F, h1, h2⟩ := Verif.Dom.Good.runOps ops _ _ Verif.Dom.Good.new hops
  exact ⟨d, F, h1, h2.rep, h2.acyclic, (docRoot_iff h2.rep).2 h2.root, StyleInv.runOps ops _ (by unfold StyleInv; decide) d h1⟩

end

/-! ### Example -/

/-- Red and blue. -/
def twoColors : Colors :=
  ⟨fun s => if s = "red" then some (.rgba ⟨255, 0, 0, 255⟩) else if s = "blue" then some (.rgba ⟨0, 0, 255, 255⟩) else none, fun _ => none⟩

/-- `head { display: none } html, p { display: block }` -/
def lookUserAgent : List (SourceRule String) :=
  [some (["head"], [.declaration "display" [.ident "none"]]), some (["html", "p"], [.declaration "display" [.ident "block"]])]

/-- `p { font-size: 2em; color: red }` -/
def lookSheet1 : List (SourceRule String) :=
  [some (["p"], [.declaration "font-size" [.dimension 2 "em"], .declaration "color" [.ident "red"]])]

/-- `* { color: blue }` -/
def lookSheet2 : List (SourceRule String) := [some (["*"], [.declaration "color" [.ident "blue"]])]

/-- How specific the selectors are. -/
def lookSpecificity (s : String) : Nat := if s = "*" then 0 else 1

/-- The rules of the user agent. -/
def lookUaSet : StyleSet String :=
  match addStylesheets twoColors ⟨[]⟩ [lookUserAgent] with
  | .ok set => set
  | _ => ⟨[]⟩

/-- A style system in which selectors are element names and `*`, with two style sheets. -/
def lookEngine : Engine String where
  colors := twoColors
  tokenize _ := []
  rulesOf s := if s = "1" then lookSheet1 else lookSheet2
  specificity := lookSpecificity
  isMatch name d n := name == "*" || ((d.get n).bind Node.asElement).any fun e => e.name.loc == name
  ua := lookUaSet

/-- `<html><head><style>1</style><style>2</style></head><p>a<b>b</b></p></html>` -/
def lookDocument : Document :=
  { Document.new with
    styleElements := [4, 6]
    nodes :=
    [ Node.new .document,
      ⟨none, none, none, some 2, some 2, .document⟩,
      exampleElement "html" (some 1) none none (some 3) (some 8),
      exampleElement "head" (some 2) (some 8) none (some 4) (some 6),
      exampleElement "style" (some 3) (some 6) none (some 5) (some 5),
      ⟨some 4, none, none, none, none, .text "1"⟩,
      exampleElement "style" (some 3) none (some 4) (some 7) (some 7),
      ⟨some 6, none, none, none, none, .text "2"⟩,
      exampleElement "p" (some 2) none (some 3) (some 9) (some 10),
      ⟨some 8, some 10, none, none, none, .text "a"⟩,
      exampleElement "b" (some 8) none (some 9) (some 11) (some 11),
      ⟨some 10, none, none, none, none, .text "b"⟩ ] }

/-- The children of the nodes of `lookDocument`. -/
def lookChildren : List (List Nat) := [[], [2], [3, 8], [4, 6], [5], [], [7], [], [9, 10], [], [11], []]

theorem lookDocument_check : treeCheck lookDocument lookChildren = true := by decide +kernel

/-- The rules of its style sheets: those that are more specific come last. -/
def lookSet : StyleSet String :=
  match addStylesheets twoColors ⟨[]⟩ [lookSheet2, lookSheet1] with
  | .ok set => set
  | _ => ⟨[]⟩

theorem lookSet_parsed : parseStylesheets lookEngine lookDocument = some lookSet := by
  have h1 : lookDocument.stylesheetTexts lookDocument.nodes.length lookDocument.styleElements = some ["1", "2"] := by decide +kernel
  have h2 : ∃ a b, addStylesheets twoColors ⟨[]⟩ [lookSheet1, lookSheet2] = .ok ⟨[("p", a), ("*", b)]⟩ ∧
      addStylesheets twoColors ⟨[]⟩ [lookSheet2, lookSheet1] = .ok ⟨[("*", b), ("p", a)]⟩ := ⟨_, _, rfl, rfl⟩
  obtain ⟨a, b, h2, h3⟩ := h2
  have h4 : addStylesheets lookEngine.colors ⟨[]⟩ (["1", "2"].map lookEngine.rulesOf) = .ok ⟨[("p", a), ("*", b)]⟩ := h2
  simp only [parseStylesheets, h1, h4, lookSet, h3]
  simp [StyleSet.finish, List.mergeSort, List.MergeSort.Internal.splitInTwo, lookEngine, lookSpecificity]

/-- The styles of its elements. -/
def lookStyle (n : Nat) (parent : Option ComputedValues) : ComputedValues := (nodeStyle lookEngine lookSet lookDocument n parent).getD spanStyle

/-- The contents of `lookDocument`. -/
def lookTree : List StyledNode :=
  let html := lookStyle 2 none
  let p := lookStyle 8 (some html)
  [.element (lookStyle 3 (some html)) [], .element p [.text (codes "a"), .element (lookStyle 10 (some p)) [.text (codes "b")]]]

theorem lookDocument_denotes : Denotes lookEngine lookDocument (forestOf lookChildren) (lookStyle 2 none) lookTree [3] := by
  have hstyle : ∀ n parent, (nodeStyle lookEngine lookSet lookDocument n parent).isSome = true →
      nodeStyle lookEngine lookSet lookDocument n parent = some (lookStyle n parent) := by
    intro n parent h
    obtain ⟨s, hs⟩ := Option.isSome_iff_exists.1 h
    simp [lookStyle, hs]
  refine ⟨represents_of_check lookDocument_check, acyclic_of_check lookDocument_check, lookSet, 2, lookSet_parsed, by decide,
    hstyle _ _ (by decide +kernel), by decide +kernel, ?_⟩
  exact .none (n := 3) (hidden := []) rfl rfl (hstyle _ _ (by decide +kernel)) (by decide +kernel)
    (.element (belowHidden := []) (hidden := []) (n := 8) rfl rfl (hstyle _ _ (by decide +kernel)) (by decide +kernel)
      (.text (n := 9) rfl rfl
        (.element (belowHidden := []) (hidden := []) (n := 10) rfl rfl (hstyle _ _ (by decide +kernel)) (by decide +kernel)
          (.text (n := 11) rfl rfl .nil) .nil)) .nil)

theorem lookDocument_rules : ∃ ua author, Rules lookEngine lookDocument (forestOf lookChildren) ua author := by
  obtain ⟨ua, hua⟩ := C28_contents_exist twoColors [lookUserAgent].flatten
  obtain ⟨author, hauthor⟩ := C28_contents_exist lookEngine.colors
    (((lookDocument.idsWith fun x => x.isStyle && x.styleEnabled).map fun i =>
      textContent (lookDocument.dataOf (forestOf lookChildren i))).map lookEngine.rulesOf).flatten
  refine ⟨ua, author, ⟨[lookUserAgent], lookUaSet, rfl, ?_, hua⟩, hauthor⟩
  have h : lookUaSet.rules.Pairwise fun a b => decide (lookSpecificity a.1 ≤ lookSpecificity b.1) = true := by decide +kernel
  exact congrArg StyleSet.mk (List.mergeSort_of_pairwise h).symm

/-- What CSS says about the text of `lookDocument`: `a` is red, and `b` is blue, because `*` is less specific than `p`, which does not match the
element `b`; both are twice as large as the initial font size. -/
theorem lookDocument_looks : ∃ ua author text, DocumentLooks lookEngine lookDocument (forestOf lookChildren) ua author
      (fun _ s => floatOf s = .none ∧ displayOf s ≠ .contents ∧ positionOf s ≠ .absolute) (lookStyle 2 none) text ∧
    inkWith look text = [((32, ⟨255, 0, 0, 255⟩), 97), ((32, ⟨0, 0, 255, 255⟩), 98)] := by
  obtain ⟨ua, author, h⟩ := lookDocument_rules
  refine ⟨ua, author, _, C80_exists ?_ ?_ h lookDocument_denotes _ ?_, by decide +kernel⟩
  · exact ⟨_, rfl, rfl, rfl⟩
  · decide +kernel
  · exact ⟨.inl (by decide +kernel), .inr ⟨by decide +kernel, trivial, .inr ⟨by decide +kernel, trivial, trivial⟩, trivial⟩, trivial⟩

/-- A file is made of `lookDocument`. -/
theorem lookDocument_pdf : ∃ bytes, toPdfBytes examplePainter lookEngine basicFont lookDocument 9 inOrder = some bytes ∧
    bytes.length ≤ 2 ^ 32 := by
  have h : ((toPdfBytes examplePainter lookEngine basicFont lookDocument 9 inOrder).map fun bytes => decide (bytes.length ≤ 2 ^ 32)) =
      some true := by
    simp only [toPdfBytes, layoutDocument, constructDocument, lookSet_parsed]
    decide +kernel
  rcases hb : toPdfBytes examplePainter lookEngine basicFont lookDocument 9 inOrder with _ | bytes
  · rw [hb] at h; cases h
  · rw [hb] at h
    exact ⟨bytes, rfl, of_decide_eq_true (Option.some.inj h)⟩

/-- The other hypotheses of C80 are met by `lookDocument`. -/
example : RealText examplePainter.floats.dtoa readWhole ∧ FloatLaws examplePainter.floats ∧ examplePainter.fontView.Valid ∧
    (∀ c g, basicFont.glyphId c = .ok g → g < 65536) ∧ Represents lookDocument (forestOf lookChildren) ∧
    (forestOf lookChildren).Acyclic ∧ DocumentNodeIsRoot lookDocument ∧
    lookDocument.styleElements = lookDocument.idsWith NodeData.isStyle ∧ floatOf (lookStyle 2 none) = .none ∧
    positionOf (lookStyle 2 none) ≠ .absolute := by
  refine ⟨realText_whole, wholeFloats_laws, sample_valid.fonts 0, ?_, lookDocument_denotes.represents, lookDocument_denotes.acyclic,
    ⟨_, rfl, rfl, rfl⟩, by decide +kernel, by decide +kernel, by decide +kernel⟩
  intro c g h
  simp only [basicFont] at h
  split at h <;> cases h
  assumption

end Verif.Layout
