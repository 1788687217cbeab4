/- C103: colours do not move anything. -/
import Verif.Layout.RecolorSpec
import Verif.Layout.DyeBuild
import Verif.Layout.LastTheorems
import Verif.Layout.ShowsSpec
namespace Verif.Layout
open Verif.Style Verif.Style.Spec Verif.Text Verif.Pdf Verif.Dom

/-! ### Styles without their colours -/

/-- A style with the initial colours. -/
def unpainted (s : ComputedValues) : ComputedValues :=
  ⟨fun p => if ColorProperty p then initialValues p else s.values p, s.specifiedDisplay⟩

theorem unpainted_eq {s s' : ComputedValues} (h : SameButColors s s') : unpainted s = unpainted s' := by
  obtain ⟨h1, h2⟩ := h
  unfold unpainted
  rw [h2]
  congr 1
  funext p
  rcases hp : ColorProperty p with _ | _
  · simpa [hp] using h1 p hp
  · simp

theorem unpainted_anonymous (s : ComputedValues) :
    ComputedValues.anonymousInheritingFrom (some (unpainted s)) = unpainted (ComputedValues.anonymousInheritingFrom (some s)) := by
  have e : ∀ a b : ComputedValues, a.values = b.values → a.specifiedDisplay = b.specifiedDisplay → a = b := by
    rintro ⟨v, d⟩ ⟨w, e⟩ rfl rfl
    rfl
  refine e _ _ (funext fun p => ?_) rfl
  cases p <;> rfl

/-- Layout does not notice colours. -/
def colorDye : Dye where
  box := unpainted
  text := unpainted
  move _ := Vec2.zero
  padding _ := rfl
  border _ := rfl
  margin _ := rfl
  position _ := rfl
  specified _ := rfl
  fontSize _ := rfl
  anonymous := unpainted_anonymous

theorem colorDye_total : colorDye.Total := fun _ => ⟨rfl, fun _ _ => rfl, rfl, rfl⟩

mutual
theorem StyledNode.Recolored.alike : ∀ (n n' : StyledNode) (p p' : ComputedValues) (ns ns' : List StyledNode), n.Recolored n' →
    AlikeBut colorDye p p' ns ns' → AlikeBut colorDye p p' (n :: ns) (n' :: ns')
  | .ignored, .ignored, _, _, _, _, _, hr => .ignored hr
  | .text _, .text _, _, _, _, _, h, hr => by
    rw [StyledNode.Recolored] at h
    subst h
    exact .text hr
  | .element s ch, .element s' ch', _, _, _, _, h, hr => by
    rw [StyledNode.Recolored] at h
    exact .element (unpainted_eq h.1) (unpainted_eq h.1) (h.1.1 .display rfl) (h.1.1 .position rfl) (h.1.1 .float rfl)
      (nodesRecolored_alike ch ch' s s' h.2) hr
  | .ignored, .text _, _, _, _, _, h, _ | .ignored, .element _ _, _, _, _, _, h, _ | .text _, .ignored, _, _, _, _, h, _
  | .text _, .element _ _, _, _, _, _, h, _ | .element _ _, .ignored, _, _, _, _, h, _ | .element _ _, .text _, _, _, _, _, h, _ => by
    rw [StyledNode.Recolored] at h
    exact h.elim
    all_goals simp
theorem nodesRecolored_alike : ∀ (ns ns' : List StyledNode) (p p' : ComputedValues), nodesRecolored ns ns' → AlikeBut colorDye p p' ns ns'
  | [], [], _, _, _ => .nil
  | n :: ns, n' :: ns', p, p', h => by
    rw [nodesRecolored] at h
    exact StyledNode.Recolored.alike n n' p p' ns ns' h.1 (nodesRecolored_alike ns ns' p p' h.2)
  | [], _ :: _, _, _, h | _ :: _, [], _, _, h => by
    rw [nodesRecolored] at h
    exact h.elim
    all_goals simp
end

/-! ### What is on the page -/

/-- What a fragment would add to the page if its background were not transparent. -/
def Fragment.outline (ascender : Rat) (f : Fragment) (origin : Vec2 Rat) : List Shape :=
  match f with
  | .box info _ =>
    [.rect ⟨origin.inline + info.contentRect.startCorner.inline - info.padding.inlineStart - info.border.inlineStart,
            origin.block + info.contentRect.startCorner.block - info.padding.blockStart - info.border.blockStart⟩
           ⟨info.border.inlineStart + info.padding.inlineStart + info.contentRect.size.inline + info.padding.inlineEnd +
               info.border.inlineEnd,
            info.border.blockStart + info.padding.blockStart + info.contentRect.size.block + info.padding.blockEnd +
               info.border.blockEnd⟩ (backgroundOf info.style)]
  | f => f.shape ascender origin

theorem outline_shape (ascender : Rat) (f : Fragment) (origin : Vec2 Rat) :
    f.shape ascender origin = (f.outline ascender origin).filter Shape.isPainted := by
  cases f with
  | box info children =>
    simp only [Fragment.shape, Fragment.outline, List.filter_cons, List.filter_nil, Shape.isPainted]
    by_cases h : (backgroundOf info.style).alpha = 0 <;> simp [h]
  | anonymous => rfl
  | text => rfl

theorem outline_same (ascender : Rat) (f f' : Fragment) (origin : Vec2 Rat) (h : dyeFragment colorDye f = dyeFragment colorDye f') :
    List.Forall₂ SameOutline (f.outline ascender origin) (f'.outline ascender origin) := by
  cases f <;> cases f' <;> simp only [dyeFragment, reduceCtorEq, Fragment.box.injEq, Fragment.anonymous.injEq, Fragment.text.injEq] at h
  · rename_i i _ i' _
    obtain ⟨h, -⟩ := h
    simp only [dyeInfo, BoxInfo.mk.injEq] at h
    obtain ⟨-, h1, h2, h3, -, -⟩ := h
    simp only [show ∀ s, colorDye.move s = Vec2.zero from fun _ => rfl, add_zero_vec] at h1
    replace h1 : i.contentRect = i'.contentRect := h1
    simp only [Fragment.outline, h1, h2, h3]
    exact .cons (.rect _ _ _ _) .nil
  · exact .nil
  · rename_i s _ _ s' _ _
    obtain ⟨h, rfl, rfl⟩ := h
    have : fontSizeOf s = fontSizeOf s' := by
      have := congrArg fontSizeOf h
      exact this
    simp only [Fragment.outline, Fragment.shape, this]
    exact .cons (.glyphs _ _ _ _ _) .nil

theorem dye_offset {D : Dye} (hD : ∀ s, D.move s = Vec2.zero) (f : Fragment) : (dyeFragment D f).offset = f.offset := by
  cases f <;> simp [dyeFragment, Fragment.offset, dyeInfo, hD, add_zero_vec]
theorem dye_children (D : Dye) (f : Fragment) : (dyeFragment D f).children = f.children.map (dyeFragment D) := by
  cases f <;> simp [dyeFragment, Fragment.children, dyeFragments_eq]

/-- Fragments that are the same but for their styles are at the same places. -/
theorem Placed.dyed {D : Dye} (hD : ∀ s, D.move s = Vec2.zero) {origin : Vec2 Rat} {fs : List Fragment} {placed : List (Fragment × Vec2 Rat)} (h : Placed origin fs placed) :
    ∀ {fs' : List Fragment} {placed' : List (Fragment × Vec2 Rat)}, Placed origin fs' placed' → fs.map (dyeFragment D) = fs'.map (dyeFragment D) →
      List.Forall₂ (fun e e' => dyeFragment D e.1 = dyeFragment D e'.1 ∧ e.2 = e'.2) placed placed' := by
  induction h with
  | nil =>
    intro fs' placed' h' he
    cases h' with
    | nil => exact .nil
    | cons => cases he
  | @cons origin f fs below rest _ _ ih1 ih2 =>
    intro fs' placed' h' he
    cases h' with
    | nil => cases he
    | @cons _ f' fs' below' rest' hb hr =>
      rw [List.map_cons, List.map_cons, List.cons.injEq] at he
      have ho : f.offset = f'.offset := by rw [← dye_offset hD f, he.1, dye_offset hD]
      rw [← ho] at hb
      have hc : f.children.map (dyeFragment D) = f'.children.map (dyeFragment D) := by rw [← dye_children, he.1, dye_children]
      exact .cons ⟨he.1, rfl⟩ (List.rel_append (ih1 hb hc) (ih2 hr he.2))

theorem sameButPaint_of {ascender : Rat} {placed placed' : List (Fragment × Vec2 Rat)}
    (h : List.Forall₂ (fun e e' => dyeFragment colorDye e.1 = dyeFragment colorDye e'.1 ∧ e.2 = e'.2) placed placed') :
    SameButPaint (shapesOf ascender placed) (shapesOf ascender placed') := by
  refine ⟨placed.flatMap fun e => e.1.outline ascender e.2, placed'.flatMap fun e => e.1.outline ascender e.2, ?_, ?_, ?_⟩
  · induction h with
    | nil => exact .nil
    | @cons e e' _ _ h _ ih =>
      obtain ⟨f, o⟩ := e
      obtain ⟨f', o'⟩ := e'
      obtain ⟨h1, rfl⟩ := h
      simp only [List.flatMap_cons]
      exact List.rel_append (outline_same ascender f f' o h1) ih
  · simp only [shapesOf, outline_shape, List.filter_flatMap]
  · simp only [shapesOf, outline_shape, List.filter_flatMap]

section
variable {σ σ' Err : Type} (font : FontApi Rat Err) {E : Engine σ} {E' : Engine σ'} {d d' : Document} {F F' : Forest}

/-- **C103**: two documents that are the same but for the colours of their elements. What is on their pages differs at most in colours, and
in backgrounds that are fully transparent on one of them: all glyphs are there in the same order, in the same sizes and at the same places,
and so is each background. -/
theorem C103_recolored {rootStyle rootStyle' : ComputedValues} {tree tree' : List StyledNode} {hidden hidden' : List Nat}
    (h : Denotes E d F rootStyle tree hidden) (h' : Denotes E' d' F' rootStyle' tree' hidden') (hs : SameButColors rootStyle rootStyle')
    (ht : nodesRecolored tree tree') {fuel fuel' : Nat} {schedule schedule' : Oracle} {viewport : Vec2 Rat}
    {fragments fragments' : List Fragment} (hl : layoutDocument E font d fuel schedule viewport = some fragments)
    (hl' : layoutDocument E' font d' fuel' schedule' viewport = some fragments') {placed placed' : List (Fragment × Vec2 Rat)}
    (hp : Placed ⟨0, 0⟩ fragments placed) (hp' : Placed ⟨0, 0⟩ fragments' placed') (ascender : Rat) :
    SameButPaint (shapesOf ascender placed) (shapesOf ascender placed') := by
  unfold layoutDocument at hl hl'
  rcases hc : constructDocument E d fuel with _ | root
  · simp [hc] at hl
  rcases hc' : constructDocument E' d' fuel' with _ | root'
  · simp [hc'] at hl'
  simp only [hc, hc'] at hl hl'
  obtain ⟨h1, -⟩ := constructDocument_sound h hc
  obtain ⟨h1', -⟩ := constructDocument_sound h' hc'
  have a1 := C58_fuel root fuel fuel' schedule schedule _ _ hl
  have a2 := C58_fuel root' fuel' fuel schedule' schedule _ _ hl'
  rw [Nat.add_comm] at a2
  have e := alike_layout (D := colorDye) font (unpainted_eq hs) (unpainted_eq hs) (hs.1 .display rfl) (hs.1 .position rfl) (hs.1 .float rfl)
    (nodesRecolored_alike tree tree' rootStyle rootStyle' ht) h1 h1' (colorDye_total.container _) (colorDye_total.container _) (fuel + fuel') schedule viewport
  rw [a1, a2, Option.map_some, Option.map_some, Option.some.injEq] at e
  exact sameButPaint_of (hp.dyed (fun _ => rfl) hp' e)

/-- **C103**: if layout does not return for one of these documents, it does not for the other one. -/
theorem C103_total {s s' : ComputedValues} {tree tree' : List StyledNode} (hs : SameButColors s s') (ht : nodesRecolored tree tree')
    (fuel : Nat) (schedule : Oracle) (viewport : Vec2 Rat) :
    ((constructRoot s tree).bind fun root => layoutRoot font fuel schedule root viewport).isSome =
      ((constructRoot s' tree').bind fun root => layoutRoot font fuel schedule root viewport).isSome := by
  have hn := nodesRecolored_alike tree tree' s s' ht
  rcases map_cases (alike_constructRoot (D := colorDye) (unpainted_eq hs) (unpainted_eq hs) (hs.1 .display rfl) (hs.1 .position rfl)
    (hs.1 .float rfl) hn) with ⟨e1, e2⟩ | ⟨r, r', e1, e2, -⟩
  · rw [e1, e2]
  · have e := alike_layout (D := colorDye) font (unpainted_eq hs) (unpainted_eq hs) (hs.1 .display rfl) (hs.1 .position rfl)
      (hs.1 .float rfl) hn e1 e2 (colorDye_total.container _) (colorDye_total.container _) fuel schedule viewport
    rw [e1, e2, Option.bind_some, Option.bind_some]
    simpa using congrArg Option.isSome e

/-- **C103** for the files. -/
theorem C103_pages {R Er : Type} (P : Painter R Er) {readReal : List Byte → Option R} (hd : RealText P.floats.dtoa readReal)
    (hfl : FloatLaws P.floats) (hv : P.fontView.Valid) (hg : ∀ c g, font.glyphId c = .ok g → g < 65536)
    {rootStyle rootStyle' : ComputedValues} {tree tree' : List StyledNode} {hidden hidden' : List Nat}
    (h : Denotes E d F rootStyle tree hidden) (h' : Denotes E' d' F' rootStyle' tree' hidden') (hs : SameButColors rootStyle rootStyle')
    (ht : nodesRecolored tree tree') {fuel fuel' : Nat} {schedule schedule' : Oracle} {bytes bytes' : List Byte}
    (hb : toPdfBytes P E font d fuel schedule = some bytes) (hb' : toPdfBytes P E' font d' fuel' schedule' = some bytes')
    (hlen : bytes.length ≤ 2 ^ 32) (hlen' : bytes'.length ≤ 2 ^ 32) :
    ∃ shapes shapes', PageShows P readReal bytes shapes ∧ PageShows P readReal bytes' shapes' ∧ SameButPaint shapes shapes' := by
  obtain ⟨fragments, placed, h1, h2, h3⟩ := toPdfBytes_shows hd hfl hv hg hb hlen
  obtain ⟨fragments', placed', h1', h2', h3'⟩ := toPdfBytes_shows hd hfl hv hg hb' hlen'
  exact ⟨_, _, h3, h3', C103_recolored font h h' hs ht h1 h1' h2 h2' P.ascender⟩

end

/-! ### Style sheets -/

/-- Two style systems in which the same declarations win for each element of the document, but for those of colours. -/
def SameWinnersButColors {σ σ' : Type} (E : Engine σ) (E' : Engine σ') (d : Document) (ua author : List (σ × List (Declaration × Bool)))
    (ua' author' : List (σ' × List (Declaration × Bool))) : Prop :=
  ∀ n node element attr attr', d.nodes[n]? = some node → node.data = .element element →
    AttrContents E.colors E.tokenize element attr → AttrContents E'.colors E'.tokenize element attr' →
    ∀ declaration, ColorProperty declaration.longhand = false →
      (Wins E.specificity (fun s => E.isMatch s d n) ua author attr declaration ↔
        Wins E'.specificity (fun s => E'.isMatch s d n) ua' author' attr' declaration)

theorem valueOf_uncolored {fontSize : Rat} {parent parent' : Values} (h : ∀ p, ColorProperty p = false → parent p = parent' p)
    (x : Declaration) (hx : ColorProperty x.longhand = false) : valueOf fontSize parent x = valueOf fontSize parent' x := by
  cases x with
  | value p v =>
    have hx' : ColorProperty p = false := hx
    have hf := h .fontSize rfl
    cases p <;> first | exact absurd hx' (by decide) | rfl | (simp only [valueOf, computed, hf]; rfl)
  | cssWide p k =>
    cases k with
    | inherit => exact h p hx
    | initial => rfl
    | unset =>
      simp only [valueOf, unset]
      rw [h p hx]

section
variable {σ σ' : Type} {E : Engine σ} {E' : Engine σ'} {d : Document} {F : Forest} {ua author : List (σ × List (Declaration × Bool))}
  {ua' author' : List (σ' × List (Declaration × Bool))}

theorem HasStyle.uncolored (h : SameWinnersButColors E E' d ua author ua' author') {n : Nat} {parent parent' : Option ComputedValues}
    {style style' : ComputedValues} (hp : ∀ p, ColorProperty p = false → parentValues parent p = parentValues parent' p)
    (hs : HasStyle E d ua author n parent style) (hs' : HasStyle E' d ua' author' n parent' style') : SameButColors style style' := by
  obtain ⟨node, e, attr, v, h1, h2, h3, h4, h5, h6⟩ := hs
  obtain ⟨node', e', attr', v', h1', h2', h3', h4', h5', h6'⟩ := hs'
  rw [h1, Option.some.injEq] at h1'
  subst h1'
  rw [h2, NodeData.element.injEq] at h2'
  subst h2'
  have hw := h n node e attr attr' h1 h2 h3 h3'
  have either : ∀ {τ : Type} (G : Engine τ) (u a : List (τ × List (Declaration × Bool))) (t : List (Declaration × Bool)) (p : Longhand),
      (∃ x, Wins G.specificity (fun s => G.isMatch s d n) u a t x ∧ x.longhand = p) ∨
        ∀ c, Applies G.specificity (fun s => G.isMatch s d n) u a t c → c.declaration.longhand ≠ p := by
    intro τ G u a t p
    rcases isLast_or ((allCandidates G.specificity (fun s => G.isMatch s d n) u a t).map Candidate.declaration) p with ⟨x, hx, hxp⟩ | hn
    · exact .inl ⟨x, wins_iff.2 (isLast_iff.1 hx), hxp⟩
    · exact .inr fun c hc => hn _ (List.mem_map_of_mem ((mem_allCandidates ..).mpr hc))
  have key : ∀ p, ColorProperty p = false →
      (∃ x : Declaration, ∃ _ : x.longhand = p, v x.longhand = valueOf v.fontSize (parentValues parent) x ∧
        v' x.longhand = valueOf v'.fontSize (parentValues parent') x) ∨
      (v p = unset (parentValues parent) p ∧ v' p = unset (parentValues parent') p) := by
    intro p hpc
    rcases either E ua author attr p with ⟨x, hx, rfl⟩ | hn
    · obtain ⟨c, hc, he⟩ := hx
      obtain ⟨c', hc', he'⟩ := (hw x hpc).1 ⟨c, hc, he⟩
      have a := h5 c hc
      have a' := h5' c' hc'
      rw [he] at a
      rw [he'] at a'
      exact .inl ⟨x, rfl, a, a'⟩
    · refine .inr ⟨h6 p hn, h6' p fun c hc hcp => ?_⟩
      rcases either E' ua' author' attr' p with ⟨x, hx, rfl⟩ | hn'
      · obtain ⟨c2, hc2, he2⟩ := (hw x hpc).2 hx
        exact hn c2 hc2.1 (by rw [he2])
      · exact hn' c hc hcp
  have hfont : v.fontSize = v'.fontSize := by
    rcases key .fontSize rfl with ⟨x, hx, a, a'⟩ | ⟨a, a'⟩
    · have b : valueOf v.fontSize (parentValues parent) x = valueOf v'.fontSize (parentValues parent') x := by
        rw [valueOf_uncolored hp x (by rw [hx]; rfl)]
        cases x with
        | value p w => cases (show p = .fontSize from hx); rfl
        | cssWide p k => cases k <;> rfl
      have c := a.trans (b.trans a'.symm)
      cases x with
      | value p w => cases (show p = .fontSize from hx); exact c
      | cssWide p k => cases (show p = .fontSize from hx); exact c
    · have hf := hp .fontSize rfl
      change v .fontSize = v' .fontSize
      rw [a, a', unset, unset, hf]
  have hv : ∀ p, ColorProperty p = false → v p = v' p := by
    intro p hpc
    rcases key p hpc with ⟨x, rfl, a, a'⟩ | ⟨a, a'⟩
    · rw [a, a', hfont, valueOf_uncolored hp x hpc]
    · rw [a, a', unset, unset, hp p hpc]
  refine ⟨fun p hpc => ?_, by rw [h4.specified, h4'.specified, hv .display rfl]⟩
  by_cases e0 : p = .display
  · subst e0; rw [h4.display, h4'.display, hv .display rfl, hv .position rfl, hv .float rfl]
  by_cases e1 : p = .borderTopWidth
  · subst e1; rw [h4.top, h4'.top, hv .borderTopStyle rfl, hv .borderTopWidth rfl]
  by_cases e2 : p = .borderLeftWidth
  · subst e2; rw [h4.left, h4'.left, hv .borderLeftStyle rfl, hv .borderLeftWidth rfl]
  by_cases e3 : p = .borderBottomWidth
  · subst e3; rw [h4.bottom, h4'.bottom, hv .borderBottomStyle rfl, hv .borderBottomWidth rfl]
  by_cases e4 : p = .borderRightWidth
  · subst e4; rw [h4.right, h4'.right, hv .borderRightStyle rfl, hv .borderRightWidth rfl]
  rw [h4.others p e0 e1 e2 e3 e4, h4'.others p e0 e1 e2 e3 e4, hv p hpc]

/-- The styles of a tree in another style system. -/
theorem StyledTree.restyle {style style' : Nat → ComputedValues → Option ComputedValues}
    (h : ∀ n p p' s, SameButColors p p' → style n p = some s → ∃ s', style' n p' = some s' ∧ SameButColors s s')
    {p : ComputedValues} {ns : List Nat} {tree : List StyledNode} {hidden : List Nat} (ht : StyledTree d F style p ns tree hidden) :
    ∀ {p' : ComputedValues}, SameButColors p p' → ∃ tree', StyledTree d F style' p' ns tree' hidden ∧ nodesRecolored tree tree' := by
  induction ht with
  | nil => exact fun _ => ⟨[], .nil, by rw [nodesRecolored]; trivial⟩
  | ignored h1 h2 _ ih =>
    intro p' hp
    obtain ⟨t, i1, i2⟩ := ih hp
    exact ⟨_, .ignored h1 h2 i1, by rw [nodesRecolored, StyledNode.Recolored]; exact ⟨trivial, i2⟩⟩
  | text h1 h2 _ ih =>
    intro p' hp
    obtain ⟨t, i1, i2⟩ := ih hp
    exact ⟨_, .text h1 h2 i1, by rw [nodesRecolored, StyledNode.Recolored]; exact ⟨rfl, i2⟩⟩
  | none h1 h2 h3 h4 _ ih =>
    intro p' hp
    obtain ⟨t, i1, i2⟩ := ih hp
    obtain ⟨s', j1, j2⟩ := h _ _ _ _ hp h3
    have h4' : displayOf s' = .none := by rw [← h4]; exact (j2.1 .display rfl).symm
    exact ⟨_, .none h1 h2 j1 h4' i1, by rw [nodesRecolored, StyledNode.Recolored, nodesRecolored]; exact ⟨⟨j2, trivial⟩, i2⟩⟩
  | element h1 h2 h3 h4 _ _ ih1 ih =>
    intro p' hp
    obtain ⟨t, i1, i2⟩ := ih hp
    obtain ⟨s', j1, j2⟩ := h _ _ _ _ hp h3
    obtain ⟨b, k1, k2⟩ := ih1 j2
    have h4' : displayOf s' ≠ .none := by
      have : displayOf s' = _ := (j2.1 .display rfl).symm
      rw [this]; exact h4
    exact ⟨_, .element h1 h2 j1 h4' k1 i1, by rw [nodesRecolored, StyledNode.Recolored]; exact ⟨⟨j2, k2⟩, i2⟩⟩

/-- The document in the other style system. -/
theorem Denotes.restyle (hi : d.styleElements = d.idsWith NodeData.isStyle) (R : Rules E d F ua author) (R' : Rules E' d F ua' author')
    (hw : SameWinnersButColors E E' d ua author ua' author') (hread' : Readable E' d) {rootStyle : ComputedValues} {tree : List StyledNode}
    {hidden : List Nat} (h : Denotes E d F rootStyle tree hidden) :
    ∃ rootStyle' tree', Denotes E' d F rootStyle' tree' hidden ∧ SameButColors rootStyle rootStyle' ∧ nodesRecolored tree tree' := by
  obtain ⟨hr, ha, set, root, h1, h2, h3, h4, h5⟩ := h
  obtain ⟨set', hset'⟩ := Option.isSome_iff_exists.1 hread'.sheets
  have key : ∀ n (p p' : Option ComputedValues) s, (∀ q, ColorProperty q = false → parentValues p q = parentValues p' q) →
      nodeStyle E set d n p = some s → ∃ s', nodeStyle E' set' d n p' = some s' ∧ SameButColors s s' := by
    intro n p p' s hp hs
    rcases hn : (d.get n).bind Node.asElement with _ | el
    · simp [nodeStyle, hn] at hs
    · obtain ⟨s', hs'⟩ := hread'.nodeStyle set' hn p'
      exact ⟨s', hs', HasStyle.uncolored hw hp (hasStyle_of hr hi R h1 hs).1 (hasStyle_of hr hi R' hset' hs').1⟩
  obtain ⟨rootStyle', k1, k2⟩ := key root none none rootStyle (fun _ _ => rfl) h3
  obtain ⟨tree', t1, t2⟩ := h5.restyle (style' := fun child parent => nodeStyle E' set' d child (some parent))
    (fun n p p' s hp hs => key n (some p) (some p') s hp.1 hs) k2
  have h4' : displayOf rootStyle' ≠ .none := by
    have : displayOf rootStyle' = displayOf rootStyle := (k2.1 .display rfl).symm
    rw [this]; exact h4
  exact ⟨rootStyle', tree', ⟨hr, ha, set', root, hset', h2, k1, h4', t1⟩, k2, t2⟩

/-- **C103** for style sheets: if in two style systems (of which one may be the other with changed style sheets and attributes) the same
declarations win for each element of a document, but for those of colours, then what is on the two pages differs at most in colours, and in
backgrounds that are fully transparent on one of them. -/
theorem C103_document {R Er Err : Type} (P : Painter R Er) (font : FontApi Rat Err) {readReal : List Byte → Option R}
    (hd : RealText P.floats.dtoa readReal) (hfl : FloatLaws P.floats) (hv : P.fontView.Valid)
    (hg : ∀ c g, font.glyphId c = .ok g → g < 65536) (hi : d.styleElements = d.idsWith NodeData.isStyle) (R : Rules E d F ua author)
    (R' : Rules E' d F ua' author') (hw : SameWinnersButColors E E' d ua author ua' author') (hread' : Readable E' d)
    {rootStyle : ComputedValues} {tree : List StyledNode} {hidden : List Nat} (h : Denotes E d F rootStyle tree hidden)
    {fuel fuel' : Nat} {schedule schedule' : Oracle} {bytes bytes' : List Byte}
    (hb : toPdfBytes P E font d fuel schedule = some bytes) (hb' : toPdfBytes P E' font d fuel' schedule' = some bytes')
    (hlen : bytes.length ≤ 2 ^ 32) (hlen' : bytes'.length ≤ 2 ^ 32) :
    ∃ shapes shapes', PageShows P readReal bytes shapes ∧ PageShows P readReal bytes' shapes' ∧ SameButPaint shapes shapes' := by
  obtain ⟨rootStyle', tree', h', hs, ht⟩ := h.restyle hi R R' hw hread'
  exact C103_pages font P hd hfl hv hg h h' hs ht hb hb' hlen hlen'

end

/-! ### Changes of style sheets that change only colours -/

/-- A block without its declarations of colours. -/
def withoutColors (contents : List (Declaration × Bool)) : List (Declaration × Bool) := contents.filter fun e => !ColorProperty e.1.longhand

theorem lastIn_withoutColors {p : Longhand} (hp : ColorProperty p = false) (important : Bool) (contents : List (Declaration × Bool)) :
    lastIn important p (withoutColors contents) = lastIn important p contents := by
  unfold lastIn withoutColors
  rw [List.filter_filter]
  congr 2
  refine List.filter_congr fun e _ => ?_
  by_cases h : e.1.longhand = p
  · rw [h, hp]; simp
  · simp [h]

theorem lastMatching_withoutColors {σ : Type} {p : Longhand} (hp : ColorProperty p = false) (specificity : σ → Nat) (isMatch : σ → Bool)
    (rules : List (σ × List (Declaration × Bool))) (k : Nat) (important : Bool) :
    lastMatching specificity isMatch (rules.map fun r => (r.1, withoutColors r.2)) k important p =
      lastMatching specificity isMatch rules k important p := by
  unfold lastMatching
  have app : ∀ a b : List (Declaration × Bool), lastIn important p (a ++ b) = (lastIn important p b).or (lastIn important p a) := by
    intro a b
    simp only [lastIn, List.filter_append, List.map_append, List.getLast?_append]
  induction rules with
  | nil => rfl
  | cons r rules ih =>
    simp only [matchingBlocks, List.map_cons, List.filter_cons] at ih ⊢
    by_cases hm : (isMatch r.1 && specificity r.1 == k) = true
    · simp only [hm, if_true, List.map_cons, List.flatten_cons, app, ih, lastIn_withoutColors hp]
    · simp only [hm, if_false, Bool.false_eq_true]
      exact ih

/-- **C103**: if the rules of two lists of style sheets and the attributes are the same, but for the declarations of colours in them (there
may be more of them, or fewer, or others), then the same declarations win, but for those of colours. -/
theorem C103_sheets {σ : Type} {E E' : Engine σ} {d : Document} {ua author ua' author' : List (σ × List (Declaration × Bool))}
    (hsp : E.specificity = E'.specificity) (hm : ∀ s n, E.isMatch s d n = E'.isMatch s d n)
    (h1 : (ua.map fun r => (r.1, withoutColors r.2)) = ua'.map fun r => (r.1, withoutColors r.2))
    (h2 : (author.map fun r => (r.1, withoutColors r.2)) = author'.map fun r => (r.1, withoutColors r.2))
    (h3 : ∀ element attr attr', AttrContents E.colors E.tokenize element attr → AttrContents E'.colors E'.tokenize element attr' →
      withoutColors attr = withoutColors attr') : SameWinnersButColors E E' d ua author ua' author' := by
  intro n node element attr attr' _ _ ha ha' x hx
  have e : (fun s => E.isMatch s d n) = fun s => E'.isMatch s d n := funext fun s => hm s n
  rw [wins_iff, wins_iff, hsp, e]
  have f1 : ∀ k important, lastMatching E'.specificity (fun s => E'.isMatch s d n) ua k important x.longhand =
      lastMatching E'.specificity (fun s => E'.isMatch s d n) ua' k important x.longhand := by
    intro k important
    rw [← lastMatching_withoutColors hx, h1, lastMatching_withoutColors hx]
  have f2 : ∀ k important, lastMatching E'.specificity (fun s => E'.isMatch s d n) author k important x.longhand =
      lastMatching E'.specificity (fun s => E'.isMatch s d n) author' k important x.longhand := by
    intro k important
    rw [← lastMatching_withoutColors hx, h2, lastMatching_withoutColors hx]
  have f3 : ∀ important, lastIn important x.longhand attr = lastIn important x.longhand attr' := by
    intro important
    rw [← lastIn_withoutColors hx, h3 element attr attr' ha ha', lastIn_withoutColors hx]
  simp only [allCandidates, List.map_append, lastFor_append, attr_declarations, lastFor_importance, f3,
    lastFor_candidates _ _ _ fun k => f1 k _, lastFor_candidates _ _ _ fun k => f2 k _]

/-! ### Example -/

/-- `p { font-size: 2em; background-color: red }` -/
def recolorSheet1 : List (SourceRule String) :=
  [some (["p"], [.declaration "font-size" [.dimension 2 "em"], .declaration "background-color" [.ident "red"]])]

/-- `lookEngine` with another first style sheet. -/
def recolorEngine : Engine String := { lookEngine with rulesOf := fun s => if s = "1" then recolorSheet1 else lookSheet2 }

/-- The rules of its style sheets: those that are more specific come last. -/
def recolorSet : StyleSet String :=
  match addStylesheets twoColors ⟨[]⟩ [lookSheet2, recolorSheet1] with
  | .ok set => set
  | _ => ⟨[]⟩

theorem recolorSet_parsed : parseStylesheets recolorEngine lookDocument = some recolorSet := by
  have h1 : lookDocument.stylesheetTexts lookDocument.nodes.length lookDocument.styleElements = some ["1", "2"] := by decide +kernel
  have h2 : ∃ a b, addStylesheets twoColors ⟨[]⟩ [recolorSheet1, lookSheet2] = .ok ⟨[("p", a), ("*", b)]⟩ ∧
      addStylesheets twoColors ⟨[]⟩ [lookSheet2, recolorSheet1] = .ok ⟨[("*", b), ("p", a)]⟩ := ⟨_, _, rfl, rfl⟩
  obtain ⟨a, b, h2, h3⟩ := h2
  have h4 : addStylesheets recolorEngine.colors ⟨[]⟩ (["1", "2"].map recolorEngine.rulesOf) = .ok ⟨[("p", a), ("*", b)]⟩ := h2
  simp only [parseStylesheets, h1, h4, recolorSet, h3]
  simp [StyleSet.finish, List.mergeSort, List.MergeSort.Internal.splitInTwo, recolorEngine, lookEngine, lookSpecificity]

/-- The hypotheses of C103 are met by `lookDocument` with the sheets of these two style systems. On one page, `a` is red; on the other one it
is blue, as `b` is, and there is a background. They are all at the same places. -/
theorem look_recolored : (∃ ua author ua' author', Rules lookEngine lookDocument (forestOf lookChildren) ua author ∧
      Rules recolorEngine lookDocument (forestOf lookChildren) ua' author' ∧
      SameWinnersButColors lookEngine recolorEngine lookDocument ua author ua' author') ∧
    Readable recolorEngine lookDocument ∧ Denotes lookEngine lookDocument (forestOf lookChildren) (lookStyle 2 none) lookTree [3] ∧
    lookDocument.styleElements = lookDocument.idsWith NodeData.isStyle ∧
    ((layoutDocument lookEngine exampleFont lookDocument 9 inOrder ⟨600, 800⟩).map (inkOf 1 ⟨0, 0⟩)) =
      some [.glyphs [97] 32 ⟨0, 32⟩ ⟨255, 0, 0, 255⟩, .glyphs [98] 32 ⟨32, 32⟩ ⟨0, 0, 255, 255⟩] ∧
    ((layoutDocument recolorEngine exampleFont lookDocument 9 inOrder ⟨600, 800⟩).map (inkOf 1 ⟨0, 0⟩)) =
      some [.rect ⟨0, 0⟩ ⟨600, 192 / 5⟩ ⟨255, 0, 0, 255⟩, .glyphs [97] 32 ⟨0, 32⟩ ⟨0, 0, 255, 255⟩,
        .glyphs [98] 32 ⟨32, 32⟩ ⟨0, 0, 255, 255⟩] := by
  refine ⟨?_, ⟨by rw [recolorSet_parsed]; rfl, fun _ _ _ _ _ _ _ => ⟨_, rfl⟩⟩, lookDocument_denotes, by decide +kernel, ?_, ?_⟩
  · obtain ⟨ua, hua⟩ := C28_contents_exist twoColors [lookUserAgent].flatten
    let red : Declaration × Bool := (.value .color (Color.rgba ⟨255, 0, 0, 255⟩), false)
    let redBackground : Declaration × Bool := (.value .backgroundColor (Color.rgba ⟨255, 0, 0, 255⟩), false)
    let blue : Declaration × Bool := (.value .color (Color.rgba ⟨0, 0, 255, 255⟩), false)
    let size : Declaration × Bool := (.value .fontSize (SpecifiedLength.em 2), false)
    have hred : Declares twoColors "color" [.ident "red"] [.value .color (Color.rgba ⟨255, 0, 0, 255⟩)] false :=
      .normal _ _ (.value _ _ _ rfl (by rintro s k h; cases h; simp [IsCssWide]) rfl)
    have hredBackground : Declares twoColors "background-color" [.ident "red"] [.value .backgroundColor (Color.rgba ⟨255, 0, 0, 255⟩)] false :=
      .normal _ _ (.value _ _ _ rfl (by rintro s k h; cases h; simp [IsCssWide]) rfl)
    have hblue : Declares twoColors "color" [.ident "blue"] [.value .color (Color.rgba ⟨0, 0, 255, 255⟩)] false :=
      .normal _ _ (.value _ _ _ rfl (by rintro s k h; cases h; simp [IsCssWide]) rfl)
    have hsize : Declares twoColors "font-size" [.dimension 2 "em"] [.value .fontSize (SpecifiedLength.em 2)] false :=
      .normal _ _ (.value _ _ _ rfl (by simp) rfl)
    have h1 : Contents twoColors _ [size, red] := .valid _ _ _ _ _ _ hsize (.valid _ _ _ _ _ _ hred .nil)
    have h2 : Contents twoColors _ [blue] := .valid _ _ _ _ _ _ hblue .nil
    have h3 : Contents twoColors _ [size, redBackground] := .valid _ _ _ _ _ _ hsize (.valid _ _ _ _ _ _ hredBackground .nil)
    have hsort : lookUaSet = lookUaSet.finish lookSpecificity := by
      have h : lookUaSet.rules.Pairwise fun a b => decide (lookSpecificity a.1 ≤ lookSpecificity b.1) = true := by decide +kernel
      exact congrArg StyleSet.mk (List.mergeSort_of_pairwise h).symm
    have htexts : ((lookDocument.idsWith fun x => x.isStyle && x.styleEnabled).map fun i =>
        textContent (lookDocument.dataOf (forestOf lookChildren i))) = ["1", "2"] := by decide +kernel
    refine ⟨ua, [("p", [size, red]), ("*", [blue])], ua, [("p", [size, redBackground]), ("*", [blue])],
      ⟨⟨[lookUserAgent], lookUaSet, rfl, hsort, hua⟩, ?_⟩, ⟨⟨[lookUserAgent], lookUaSet, rfl, hsort, hua⟩, ?_⟩,
      C103_sheets rfl (fun _ _ => rfl) rfl rfl fun e attr attr' ha ha' => ?_⟩
    · rw [htexts]
      exact .rule ["p"] _ _ _ _ h1 (.rule ["*"] _ _ _ _ h2 .nil)
    · rw [htexts]
      exact .rule ["p"] _ _ _ _ h3 (.rule ["*"] _ _ _ _ h2 .nil)
    · have : ∀ {x : List (Declaration × Bool)}, AttrContents twoColors (fun _ => []) e x → x = [] := by
        intro x hx
        unfold AttrContents at hx
        split at hx
        · split at hx
          · cases hx; rfl
          · exact hx
        · exact hx
      rw [this ha, this ha']
  · simp only [layoutDocument, constructDocument, lookSet_parsed]
    decide +kernel
  · simp only [layoutDocument, constructDocument, recolorSet_parsed]
    decide +kernel

end Verif.Layout
