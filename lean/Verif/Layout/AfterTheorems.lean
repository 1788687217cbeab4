/- **C99**: what is after a change moves as a whole. -/
import Verif.Layout.AfterLemmas
namespace Verif.Layout
open Verif.Style Verif.Style.Spec Verif.Text Verif.Pdf Verif.Dom

variable {Err : Type} {font : FontApi Rat Err}

/-! ### Boxes -/

/-- The boxes of what comes last, and their text. -/
theorem after_text {s : ComputedValues} {post : List StyledNode} {b0 B Be : Builder} (hst : b0.stack = []) (hon : b0.ongoing = [])
    (h : traverseNodes s s post b0 = some B) (he : B.endOngoing s = some Be) :
    ∃ ext, Be.blockLevelBoxes = b0.blockLevelBoxes ++ ext ∧ inked ((blocksStyledText ext).map Prod.snd) = inked (visibleTexts post) := by
  obtain ⟨ext, hext⟩ := traverse_grows h
  have hk := (traverseNodes_induct (traverse_keeps fun _ => ()) _ _ _ _ _ h).2 (nodesContentsKeep_unit _ _)
    (by simp [RunsHave, Builder.current, hst, hon])
  have hk := hk.2
  rw [← (endOngoing_styled he).1] at hk
  obtain ⟨-, h2, h3, h4⟩ := endOngoing_some he
  have hB : Be.blockLevelBoxes = b0.blockLevelBoxes ++ (ext ++ if B.ongoing = [] then [] else
      [.sameFormattingContextBlock (fade s) (.inlineFormattingContext B.ongoing)]) := by rw [h4, hext, List.append_assoc]
  have e : Be.styled = blocksStyledText Be.blockLevelBoxes := by simp [Builder.styled, h2, h3, stackStyled, inlinesStyledText]
  have e0 : b0.styled = blocksStyledText b0.blockLevelBoxes := by simp [Builder.styled, hst, hon, stackStyled, inlinesStyledText]
  refine ⟨_, hB, ?_⟩
  rw [e, e0, hB, blocksStyledText_append] at hk
  rw [inked, inked, ← styledTexts_snd s, ← inkWith_unit, ← inkWith_unit]
  have ha : ∀ x y : List (ComputedValues × Nat), inkWith (fun _ => ()) (x ++ y) = inkWith (fun _ => ()) x ++ inkWith (fun _ => ()) y := by
    intro x y
    simp [inkWith, ink]
  rw [ha, List.append_cancel_left_eq] at hk
  rw [hk]

/-- What comes last is the same from two builders on. -/
theorem after_same {s : ComputedValues} {post : List StyledNode} {b0 b0' B B' Be Be' : Builder} (hst : b0.stack = []) (hon : b0.ongoing = [])
    (hst' : b0'.stack = []) (hon' : b0'.ongoing = []) (h : traverseNodes s s post b0 = some B) (h' : traverseNodes s s post b0' = some B')
    (he : B.endOngoing s = some Be) (he' : B'.endOngoing s = some Be') :
    ∃ ext ext', Be.blockLevelBoxes = b0.blockLevelBoxes ++ ext ∧ Be'.blockLevelBoxes = b0'.blockLevelBoxes ++ ext' ∧ WrapL ext ext' ∧
      inked ((blocksStyledText ext).map Prod.snd) = inked (visibleTexts post) := by
  have st := stepped_nodes post s s s s b0 b0' B B' rfl rfl ⟨by rw [hon, hon'], by rw [hst, hst']⟩ h h'
  obtain ⟨-, ext, ext', e1, e2, -, e3⟩ := st.trans (ended_stepped rfl st.faded he he')
  obtain ⟨x, k1, k2⟩ := after_text hst hon h he
  rw [k1, List.append_cancel_left_eq] at e1
  subst e1
  exact ⟨_, _, k1, e2, e3, k2⟩

/-- What begins with a block has a block. -/
theorem begins_blocks {s : ComputedValues} {post : List StyledNode} (hb : BeginsWithBlock post) :
    ∀ {b B : Builder}, traverseNodes s s post b = some B → B.blockLevelBoxes ≠ [] := by
  induction hb with
  | ignored _ ih =>
    intro b B h
    simp only [traverseNodes, traverseNode] at h
    exact ih h
  | none hd _ ih =>
    intro b B h
    simp only [traverseNodes, traverseNode, hd] at h
    exact ih h
  | block hb =>
    intro b B h
    simp only [traverseNodes] at h
    split at h
    · cases h
    rename_i b1 t
    obtain ⟨b0, inner, contents, floats, x, fl, -, -, -, -, rfl, -⟩ := traverse_block hb t
    obtain ⟨ext, hext⟩ := traverse_grows h
    rw [hext]
    simp

theorem finish_blocks {s : ComputedValues} {B Be : Builder} (hs : B.stack = []) (hb : B.blockLevelBoxes ≠ []) (he : B.endOngoing s = some Be)
    {c : BlockContainer} {f : Bool} (hf : B.finish s = some (c, f)) : c = .blockLevelBoxes Be.blockLevelBoxes := by
  rw [finish_some hs hf, (endOngoing_some he).2.2.2]
  split
  · rw [List.append_nil]
  · rfl

/-- The boxes of two lists of contents that end in the same way do so, too. -/
theorem AgreeAfter.end {Q : ComputedValues → Prop} {nodes nodes' : List StyledNode} {after : List Nat} (h : AgreeAfter Q nodes nodes' after) :
    ∀ (s : ComputedValues) (c c' : BlockContainer) (f f' : Bool), nodesAll (fun s _ => BoxOnly NoFloats s) nodes →
      constructContainer s nodes = some (c, f) → constructContainer s nodes' = some (c', f') →
      ∃ t, End Q c c' t ∧ inked (t.map Prod.snd) = inked after := by
  induction h with
  | @here a b post hb =>
    intro s c c' f f' hno h1 h2
    have hno1 := constructContainer_only hno h1
    simp only [constructContainer] at h1 h2
    split at h1
    · cases h1
    rename_i B t1
    split at h2
    · cases h2
    rename_i B' t2
    obtain ⟨B1, t3, t4⟩ := traverse_append _ _ _ _ t1
    obtain ⟨B2, t5, t6⟩ := traverse_append _ _ _ _ t2
    have hs := traverse_stack rfl t3
    have hs' := traverse_stack rfl t5
    obtain ⟨b0, he⟩ := endOngoing_total hs s
    obtain ⟨b0', he'⟩ := endOngoing_total hs' s
    rw [begins_ended hb hs he] at t4
    rw [begins_ended hb hs' he'] at t6
    obtain ⟨-, o1, o2, -⟩ := endOngoing_some he
    obtain ⟨-, o1', o2', -⟩ := endOngoing_some he'
    have hsB := traverse_stack o1 t4
    have hsB' := traverse_stack o1' t6
    obtain ⟨Be, hBe⟩ := endOngoing_total hsB s
    obtain ⟨Be', hBe'⟩ := endOngoing_total hsB' s
    obtain ⟨ext, ext', e1, e2, e3, e4⟩ := after_same o1 o2 o1' o2' t4 t6 hBe hBe'
    have hc := finish_blocks hsB (begins_blocks hb t4) hBe h1
    have hc' := finish_blocks hsB' (begins_blocks hb t6) hBe' h2
    subst hc hc'
    rw [e1] at hno1 ⊢
    rw [e2]
    exact ⟨_, .here e3, by rw [blocksRuns_flatten _ ((blocksOnly_append _ _).1 hno1).2]; exact e4⟩
  | @inside a b st children children' post after hb hh hQ _ ih =>
    intro s c c' f f' hno h1 h2
    have hno1 := constructContainer_only hno h1
    have hnoc : nodesAll (fun s _ => BoxOnly NoFloats s) children := by
      have := (nodesAll_split hno).2.1
      simp only [StyledNode.All] at this
      obtain ⟨⟨ins, hd⟩, -, -⟩ := hb
      exact (this.resolve_left (by rw [hd]; simp)).2
    simp only [constructContainer] at h1 h2
    split at h1
    · cases h1
    rename_i B t1
    split at h2
    · cases h2
    rename_i B' t2
    obtain ⟨B1, t3, t4⟩ := traverse_append _ _ _ _ t1
    obtain ⟨B2, t5, t6⟩ := traverse_append _ _ _ _ t2
    simp only [traverseNodes] at t4 t6
    split at t4
    · cases t4
    rename_i B3 t7
    split at t6
    · cases t6
    rename_i B4 t8
    obtain ⟨b0, inner, contents, floats, x, fl, -, he, i1, f1, rfl, hx⟩ := traverse_block hb t7
    obtain ⟨b0', inner', contents', floats', x', fl', -, he', i1', f1', rfl, hx'⟩ := traverse_block hb t8
    obtain ⟨t, g1, g2⟩ := ih st contents contents' floats floats' hnoc (by simp only [constructContainer, i1, f1])
      (by simp only [constructContainer, i1', f1'])
    obtain ⟨-, o1, o2, -⟩ := endOngoing_some he
    obtain ⟨-, o1', o2', -⟩ := endOngoing_some he'
    have hsB : B.stack = [] := traverse_stack (b := { b0 with blockLevelBoxes := b0.blockLevelBoxes ++ [x], containsFloats := fl }) o1 t4
    have hsB' : B'.stack = [] := traverse_stack (b := { b0' with blockLevelBoxes := b0'.blockLevelBoxes ++ [x'], containsFloats := fl' }) o1' t6
    obtain ⟨Be, hBe⟩ := endOngoing_total hsB s
    obtain ⟨Be', hBe'⟩ := endOngoing_total hsB' s
    obtain ⟨ext, ext', e1, e2, e3, e4⟩ := after_same (b0 := { b0 with blockLevelBoxes := b0.blockLevelBoxes ++ [x], containsFloats := fl })
      (b0' := { b0' with blockLevelBoxes := b0'.blockLevelBoxes ++ [x'], containsFloats := fl' }) o1 o2 o1' o2' t4 t6 hBe hBe'
    have hne : B.blockLevelBoxes ≠ [] := by
      obtain ⟨ext, hext⟩ := traverse_grows t4
      rw [hext]
      simp
    have hne' : B'.blockLevelBoxes ≠ [] := by
      obtain ⟨ext, hext⟩ := traverse_grows t6
      rw [hext]
      simp
    have hc := finish_blocks hsB hne hBe h1
    have hc' := finish_blocks hsB' hne' hBe' h2
    subst hc hc'
    simp only [List.append_assoc, List.singleton_append] at e1 e2
    rw [e1] at hno1 ⊢
    rw [e2]
    rw [hx.trans (blockAround_of hb floats contents)] at hno1 ⊢
    rw [hx'.trans (blockAround_of hb floats' contents')]
    refine ⟨_, .inside (by split <;> simp) hQ hh g1 e3, ?_⟩
    rw [blocksRuns_flatten _ ((blocksOnly_append _ _).1 hno1).2.2, List.map_append]
    simp only [inked, List.filter_append] at g2 e4 ⊢
    rw [e4, g2]

theorem constructRoot_end {Q : ComputedValues → Prop} {s : ComputedValues} (hd : displayOf s ≠ .none) (hs : InFlowStyle s)
    {nodes nodes' : List StyledNode} {after : List Nat} (ha : AgreeAfter Q nodes nodes' after) (hno : nodesAll (fun s _ => BoxOnly NoFloats s) nodes)
    {r r' : BlockFormattingContext} (h1 : constructRoot s nodes = some r) (h2 : constructRoot s nodes' = some r') :
    ∃ t f f' c c', r.contents = .blockLevelBoxes [.independent s f c] ∧ r'.contents = .blockLevelBoxes [.independent s f' c'] ∧ End Q c c' t ∧
      inked (t.map Prod.snd) = inked after := by
  have hp : (positionOf s).isAbsolutelyPositioned = false := by
    rcases hq : positionOf s with _ | _ | _ <;> first | rfl | exact absurd hq hs.1
  have hfl : (floatOf s).isFloating = false := by rw [hs.2]; rfl
  unfold constructRoot at h1 h2
  simp only [hp, hfl, Bool.false_eq_true, if_false] at h1 h2
  rcases hd' : displayOf s with _ | _ | ⟨o, i⟩ <;> simp only [hd'] at h1 h2
  · exact absurd hd' hd
  all_goals
    rcases c1 : constructContainer s nodes with _ | ⟨c, f⟩
    · simp [c1] at h1
    rcases c2 : constructContainer s nodes' with _ | ⟨c', f'⟩
    · simp [c2] at h2
    obtain ⟨t, g1, g2⟩ := ha.end _ _ _ _ _ hno c1 c2
    simp only [c1, c2] at h1 h2
    cases h1
    cases h2
    exact ⟨t, f, f', c, c', rfl, rfl, g1, g2⟩

/-- The root element is at the same place. -/
theorem root_end {v : Look} (hv : v.Level) (asc : Rat) {s : ComputedValues} (hQ : v.Q s) {f f' : Bool} {c c' : BlockContainer}
    {t : List (ComputedValues × Nat)} (h : End v.Q c c' t) {cb : ContainingBlock} {coll : Bool} {fc fc' : FlowChildren} (hno : c.Only NoAbsolutes)
    (l : LaysC font cb coll (.blockLevelBoxes [.independent s f c]) fc) (l' : LaysC font cb coll (.blockLevelBoxes [.independent s f' c']) fc')
    (o : Vec2 Rat) : ∃ d common rest rest' glyphs, textOf v asc o fc.fragments = rest ++ common ∧
      textOf v asc o fc'.fragments = rest' ++ common.map (Shape.down d) ∧ Shown font t glyphs ∧ common.flatMap Shape.ids = glyphs.map Prod.snd := by
  cases l with
  | boxes l p =>
    cases l' with
    | boxes l' p' =>
      cases l with
      | cons l1 l2 =>
        cases l2
        cases l' with
        | cons l1' l2' =>
          cases l2'
          cases l1 with
          | independent k1 =>
            cases l1' with
            | independent k2 =>
              obtain ⟨e, k, r, r', gl, h1, h2, h9, h3, h4, -⟩ := h.same hv asc _ _ _ _ rfl hno k1 k2
              simp only [placeAll] at p p'
              split at p
              · cases p
              rename_i xa sa qa
              cases p
              split at p'
              · cases p'
              rename_i xb sb qb
              cases p'
              obtain ⟨x, rfl, rfl, -, -, -⟩ := place_begin qa qb (by simp [blockInfo, collapseWithChildren]) (by simp [blockInfo, collapseWithChildren])
                (by simp [blockInfo, collapseWithChildren])
              refine ⟨e, k (o.add (((blockInfo cb s .establishesAnIndependentFormattingContext .zero 0).moveBlock x).contentRect.startCorner)),
                r (o.add (((blockInfo cb s .establishesAnIndependentFormattingContext .zero 0).moveBlock x).contentRect.startCorner)),
                r' (o.add (((blockInfo cb s .establishesAnIndependentFormattingContext .zero 0).moveBlock x).contentRect.startCorner)),
                gl, ?_, ?_, h3, h4 _⟩
              · rw [textOf_box _ _ _ (by exact hQ), h1]
                simp only [textOf, inkOf, List.flatMap_nil, List.append_nil]
                rfl
              · rw [textOf_box _ _ _ (by exact hQ), h2]
                simp only [textOf, inkOf, List.flatMap_nil, List.append_nil]
                rfl

/-! ### The property -/

section
variable {R Er σ : Type} (P : Painter R Er) (E : Engine σ) (font : FontApi Rat Err) (d d' : Document)

theorem after_roots {v : Look} (hv : v.Level) {rootStyle : ComputedValues} {tree tree' : List StyledNode} {after : List Nat}
    (hd : displayOf rootStyle ≠ .none) (hs : InFlowStyle rootStyle) (hQ : v.Q rootStyle)
    (hf : nodesAll (fun s _ => InFlowStyle s) tree) (hf' : nodesAll (fun s _ => InFlowStyle s) tree') (ha : AgreeAfter v.Q tree tree' after)
    {root root' : BlockFormattingContext} (h1 : constructRoot rootStyle tree = some root) (h2 : constructRoot rootStyle tree' = some root')
    {fuel fuel' : Nat} {schedule schedule' : Oracle} {viewport : Vec2 Rat} {fragments fragments' : List Fragment}
    (hl : layoutRoot font fuel schedule root viewport = some fragments)
    (hl' : layoutRoot font fuel' schedule' root' viewport = some fragments') (ascender : Rat) :
    ∃ distance common rest rest' text glyphs, textOf v ascender ⟨0, 0⟩ fragments = rest ++ common ∧
      textOf v ascender ⟨0, 0⟩ fragments' = rest' ++ common.map (Shape.down distance) ∧ common.flatMap Shape.ids = glyphs.map Prod.snd ∧
      Shown font text glyphs ∧ inked (text.map Prod.snd) = inked after := by
  have hso : StyleOnly NoAbsolutes rootStyle := ⟨fun h => absurd h hs.1, fun _ => by simp⟩
  have no : ∀ {ns : List StyledNode}, nodesAll (fun s _ => InFlowStyle s) ns → nodesAll (fun s _ => BoxOnly NoAbsolutes s) ns :=
    fun hn => nodesAll_mono (fun s _ hs => .inr ⟨fun h => absurd h hs.1, fun _ => by simp⟩) _ hn
  obtain ⟨t, f, f', c, c', r1, r2, g1, g2⟩ := constructRoot_end hd hs ha
    (nodesAll_mono (fun s _ hs => .inr ⟨fun _ => by simp, fun h => absurd hs.2 h⟩) _ hf) h1 h2
  have n1 := constructRoot_only hso (no hf) h1
  have n2 := constructRoot_only hso (no hf') h2
  obtain ⟨fc, k1, rfl⟩ := layoutRoot_lays n1 hl
  obtain ⟨fc', k2, rfl⟩ := layoutRoot_lays n2 hl'
  rw [r1] at k1 n1
  rw [r2] at k2
  obtain ⟨x, common, rest, rest', gl, e1, e2, e3, e4⟩ := root_end hv ascender hQ g1 n1.1 k1 k2 ⟨0, 0⟩
  exact ⟨x, common, rest, rest', t, gl, e1, e2, e4, e3, g2⟩

theorem after_documents {v : Look} (hv : v.Level) (F F' : Forest) (rootStyle : ComputedValues) (tree tree' : List StyledNode)
    (hidden hidden' after : List Nat) (h : Denotes E d F rootStyle tree hidden) (h' : Denotes E d' F' rootStyle tree' hidden')
    (hs : InFlowStyle rootStyle) (hQ : v.Q rootStyle)
    (hf : nodesAll (fun s _ => InFlowStyle s) tree) (hf' : nodesAll (fun s _ => InFlowStyle s) tree') (ha : AgreeAfter v.Q tree tree' after)
    {fuel fuel' : Nat} {schedule schedule' : Oracle} {viewport : Vec2 Rat} {fragments fragments' : List Fragment}
    (hl : layoutDocument E font d fuel schedule viewport = some fragments)
    (hl' : layoutDocument E font d' fuel' schedule' viewport = some fragments') (ascender : Rat) :
    ∃ distance common rest rest' text glyphs, textOf v ascender ⟨0, 0⟩ fragments = rest ++ common ∧
      textOf v ascender ⟨0, 0⟩ fragments' = rest' ++ common.map (Shape.down distance) ∧ common.flatMap Shape.ids = glyphs.map Prod.snd ∧
      Shown font text glyphs ∧ inked (text.map Prod.snd) = inked after := by
  unfold layoutDocument at hl hl'
  rcases hc : constructDocument E d fuel with _ | root
  · simp [hc] at hl
  rcases hc' : constructDocument E d' fuel' with _ | root'
  · simp [hc'] at hl'
  simp only [hc, hc'] at hl hl'
  obtain ⟨h1, -⟩ := constructDocument_sound h hc
  obtain ⟨h2, -⟩ := constructDocument_sound h' hc'
  have hd : displayOf rootStyle ≠ .none := by
    obtain ⟨_, _, _, _, _, h4, _⟩ := h.styled
    exact h4
  exact after_roots font hv hd hs hQ hf hf' ha h1 h2 hl hl' ascender

/-- **C99**: two documents with the same style of the root element, in which everything is in flow, and that end in the same way: they are
the same from the beginning of a block on, which can be within other blocks, at any depth. Whenever both are laid out, the texts of both end
with the same glyphs, in the same size and colour and at the same distance from the left, all of them further down in one of them by the same
distance, and these are the glyphs of all of the text after the difference (but for white space). The blocks around the difference have no
fixed height. Missing: absolutely positioned and floating elements, and blocks with a fixed height. -/
theorem C99_after_partial (F F' : Forest) (rootStyle : ComputedValues) (tree tree' : List StyledNode) (hidden hidden' after : List Nat)
    (h : Denotes E d F rootStyle tree hidden) (h' : Denotes E d' F' rootStyle tree' hidden') (hs : InFlowStyle rootStyle)
    (hf : nodesAll (fun s _ => InFlowStyle s) tree) (hf' : nodesAll (fun s _ => InFlowStyle s) tree')
    (ha : AgreeAfter (fun _ => True) tree tree' after)
    {fuel fuel' : Nat} {schedule schedule' : Oracle} {viewport : Vec2 Rat} {fragments fragments' : List Fragment}
    (hl : layoutDocument E font d fuel schedule viewport = some fragments)
    (hl' : layoutDocument E font d' fuel' schedule' viewport = some fragments') (ascender : Rat)
    {placed placed' : List (Fragment × Vec2 Rat)} (hpl : Placed ⟨0, 0⟩ fragments placed) (hpl' : Placed ⟨0, 0⟩ fragments' placed') :
    ∃ distance common rest rest' text glyphs, (shapesOf ascender placed).filter Shape.isText = rest ++ common ∧
      (shapesOf ascender placed').filter Shape.isText = rest' ++ common.map (Shape.down distance) ∧
      common.flatMap Shape.ids = glyphs.map Prod.snd ∧ Shown font text glyphs ∧ inked (text.map Prod.snd) = inked after := by
  rw [hpl.text, hpl'.text]
  exact after_documents (v := .ofText) E font d d' Look.ofText_level F F' rootStyle tree tree' hidden hidden' after h h' hs trivial hf hf' ha hl hl' ascender

/-- **C99** with the backgrounds: if the root element and the blocks around the difference have none, what is on the page after the
difference, text and backgrounds, is the same further down. -/
theorem C99_visible_partial (F F' : Forest) (rootStyle : ComputedValues) (tree tree' : List StyledNode) (hidden hidden' after : List Nat)
    (h : Denotes E d F rootStyle tree hidden) (h' : Denotes E d' F' rootStyle tree' hidden') (hs : InFlowStyle rootStyle)
    (hbg : (backgroundOf rootStyle).alpha = 0)
    (hf : nodesAll (fun s _ => InFlowStyle s) tree) (hf' : nodesAll (fun s _ => InFlowStyle s) tree')
    (ha : AgreeAfter (fun s => (backgroundOf s).alpha = 0) tree tree' after)
    {fuel fuel' : Nat} {schedule schedule' : Oracle} {viewport : Vec2 Rat} {fragments fragments' : List Fragment}
    (hl : layoutDocument E font d fuel schedule viewport = some fragments)
    (hl' : layoutDocument E font d' fuel' schedule' viewport = some fragments') (ascender : Rat)
    {placed placed' : List (Fragment × Vec2 Rat)} (hpl : Placed ⟨0, 0⟩ fragments placed) (hpl' : Placed ⟨0, 0⟩ fragments' placed') :
    ∃ distance common rest rest' text glyphs, (shapesOf ascender placed).filter Shape.visible = rest ++ common ∧
      (shapesOf ascender placed').filter Shape.visible = rest' ++ common.map (Shape.down distance) ∧
      common.flatMap Shape.ids = glyphs.map Prod.snd ∧ Shown font text glyphs ∧ inked (text.map Prod.snd) = inked after := by
  rw [hpl.all, hpl'.all]
  exact after_documents (v := .ofAll) E font d d' Look.ofAll_level F F' rootStyle tree tree' hidden hidden' after h h' hs hbg hf hf' ha hl hl' ascender

/-- **C99** for the files: what a reader finds on the pages of both ends with the same text, further down in one of them, which is that after
the difference. -/
theorem C99_pages_partial {readReal : List Byte → Option R} (hd : RealText P.floats.dtoa readReal) (hfl : FloatLaws P.floats)
    (hv : P.fontView.Valid) (hg : ∀ c g, font.glyphId c = .ok g → g < 65536) (F F' : Forest) (rootStyle : ComputedValues)
    (tree tree' : List StyledNode) (hidden hidden' after : List Nat) (h : Denotes E d F rootStyle tree hidden)
    (h' : Denotes E d' F' rootStyle tree' hidden') (hst : InFlowStyle rootStyle) (hf : nodesAll (fun s _ => InFlowStyle s) tree)
    (hf' : nodesAll (fun s _ => InFlowStyle s) tree') (ha : AgreeAfter (fun _ => True) tree tree' after)
    {fuel fuel' : Nat} {schedule schedule' : Oracle} {bytes bytes' : List Byte} (hb : toPdfBytes P E font d fuel schedule = some bytes)
    (hb' : toPdfBytes P E font d' fuel' schedule' = some bytes') (hs : bytes.length ≤ 2 ^ 32) (hs' : bytes'.length ≤ 2 ^ 32) :
    ∃ shapes shapes' distance common rest rest' text glyphs, shapes.filter Shape.isText = rest ++ common ∧
      shapes'.filter Shape.isText = rest' ++ common.map (Shape.down distance) ∧ common.flatMap Shape.ids = glyphs.map Prod.snd ∧
      Shown font text glyphs ∧ inked (text.map Prod.snd) = inked after ∧
      ∀ r ∈ [(bytes, shapes), (bytes', shapes')],
        ∃ m file page painted, (∀ fuel, m ≤ fuel → readDocument readReal fuel r.1 = some file) ∧ file.pages = [page] ∧
          page.mediaBox = [.int 0, .int 0, .real (P.floats.mul (P.round 600) P.floats.scaleX), .real (P.floats.mul (P.round 800) P.floats.scaleY)] ∧
          (∃ m, ∀ fuel, m ≤ fuel →
            paintContents readReal P.floats.zero P.floats.one (gsAlpha file.extGState) fuel page.contents = some painted) ∧
          AllMatch (fun p shape => Verif.Pdf.Matches P.floats (fun _ name => ∃ id, dictGet file.fonts name = some (.ref id 0) ∧
            IsFont readReal r.1 P.fontView id) p (shape.expected P)) painted r.2 := by
  unfold toPdfBytes at hb hb'
  rcases hlay : layoutDocument E font d fuel schedule ⟨600, 800⟩ with _ | fragments
  · simp [hlay] at hb
  rcases hlay' : layoutDocument E font d' fuel' schedule' ⟨600, 800⟩ with _ | fragments'
  · simp [hlay'] at hb'
  simp only [hlay, hlay'] at hb hb'
  rcases hdoc : paintDocument P fragments with _ | doc
  · simp [hdoc] at hb
  rcases hdoc' : paintDocument P fragments' with _ | doc'
  · simp [hdoc'] at hb'
  simp only [hdoc, hdoc', Option.some.injEq] at hb hb'
  subst hb hb'
  obtain ⟨placed, hpl⟩ := Placed.exists fragments ⟨0, 0⟩
  obtain ⟨placed', hpl'⟩ := Placed.exists fragments' ⟨0, 0⟩
  have glyphs : ∀ {d : Document} {fuel : Nat} {schedule : Oracle} {fragments : List Fragment} {placed : List (Fragment × Vec2 Rat)},
      layoutDocument E font d fuel schedule ⟨600, 800⟩ = some fragments → Placed ⟨0, 0⟩ fragments placed →
      ∀ e ∈ placed, ∀ style rect segment, e.1 = .text style rect segment → ∀ g ∈ segment.glyphs, g < 65536 := by
    intro d fuel schedule fragments placed hl hpl e he style rect segment hs g hgm
    unfold layoutDocument at hl
    split at hl
    · cases hl
    · obtain ⟨hm, -⟩ := layoutRoot_shown hl
      obtain ⟨c, hcg⟩ := made_glyphs hpl hm e he style rect segment hs g hgm
      exact hg c g hcg
  obtain ⟨distance, common, rest, rest', text, gl, e1, e2, e3, e4, e5⟩ := C99_after_partial E font d d' F F' rootStyle tree tree' hidden hidden' after h h'
    hst hf hf' ha hlay hlay' P.ascender hpl hpl'
  refine ⟨_, _, distance, common, rest, rest', text, gl, e1, e2, e3, e4, e5, ?_⟩
  intro r hr
  rcases List.mem_cons.1 hr with rfl | hr
  · exact C46_page P hd hfl hv hpl (glyphs hlay hpl) hdoc hs
  · rcases List.mem_cons.1 hr with rfl | hr
    · exact C46_page P hd hfl hv hpl' (glyphs hlay' hpl') hdoc' hs'
    · cases hr

end

/-! ### Examples -/

/-- `<html><head></head><div><p>a</p>…<p>c</p></div></html>` with this text. -/
def middleDocument (text : String) : Document :=
  { Document.new with nodes :=
    [ Node.new .document,
      ⟨none, none, none, some 2, some 2, .document⟩,
      exampleElement "html" (some 1) none none (some 3) (some 4),
      exampleElement "head" (some 2) (some 4) none none none,
      exampleElement "div" (some 2) none (some 3) (some 5) (some 8),
      exampleElement "p" (some 4) (some 7) none (some 6) (some 6),
      ⟨some 5, none, none, none, none, .text "a"⟩,
      ⟨some 4, some 8, some 5, none, none, .text text⟩,
      exampleElement "p" (some 4) none (some 7) (some 9) (some 9),
      ⟨some 8, none, none, none, none, .text "c"⟩ ] }

/-- The contents of `middleDocument`. -/
def middleTree (text : String) : List StyledNode :=
  let html := exampleRootStyle longerDocument
  let div := documentStyle longerDocument 4 (some html)
  [.element (documentStyle longerDocument 3 (some html)) [],
    .element div [.element (documentStyle longerDocument 5 (some div)) [.text (codes "a")], .text (codes text),
      .element (documentStyle longerDocument 8 (some div)) [.text (codes "c")]]]

/-- A text that takes two lines. -/
def twoLines : String := "bbbbbbbbbbbbbbbbbbbbbbbbb bbbbbbbbbbbbbbbbbbbbbbbbbbb"

/-- The hypotheses of C99 are met by these documents, in which the text between two paragraphs takes one line and two lines. Both are laid
out, and the letter `c` is at 16 + 2 · 19.2 and 16 + 3 · 19.2 pixels. -/
theorem middleDocument_after : ∃ root tree tree',
    Denotes exampleEngine (middleDocument "b") (forestOf longerChildren) root tree [3] ∧
    Denotes exampleEngine (middleDocument twoLines) (forestOf longerChildren) root tree' [3] ∧
    InFlowStyle root ∧ (backgroundOf root).alpha = 0 ∧ nodesAll (fun s _ => InFlowStyle s) tree ∧ nodesAll (fun s _ => InFlowStyle s) tree' ∧
    AgreeAfter (fun s => (backgroundOf s).alpha = 0) tree tree' (codes "c") ∧ AgreeAfter (fun _ => True) tree tree' (codes "c") ∧
    ((layoutDocument exampleEngine exampleFont (middleDocument "b") 9 inOrder ⟨600, 800⟩).map fun fs => (textOf .ofText 1 ⟨0, 0⟩ fs).drop 2) =
      some [.glyphs (codes "c") 16 ⟨0, 272 / 5⟩ ⟨0, 0, 0, 255⟩] ∧
    ((layoutDocument exampleEngine exampleFont (middleDocument twoLines) 9 inOrder ⟨600, 800⟩).map fun fs => (textOf .ofText 1 ⟨0, 0⟩ fs).drop 3) =
      some [.glyphs (codes "c") 16 ⟨0, 368 / 5⟩ ⟨0, 0, 0, 255⟩] := by
  have den : ∀ text ∈ ["b", twoLines], Denotes exampleEngine (middleDocument text) (forestOf longerChildren) (exampleRootStyle longerDocument)
      (middleTree text) [3] := by
    intro text ht
    have hcheck : treeCheck (middleDocument text) longerChildren = true := by
      simp only [List.mem_cons, List.not_mem_nil, or_false] at ht
      rcases ht with rfl | rfl <;> decide +kernel
    refine ⟨represents_of_check hcheck, acyclic_of_check hcheck, ⟨[]⟩, 2, exampleEngine_sheets rfl, rfl, rfl, by decide +kernel, ?_⟩
    exact .none (n := 3) (hidden := []) rfl rfl rfl (by decide +kernel)
      (.element (belowHidden := []) (hidden := []) (n := 4) rfl rfl rfl (by decide +kernel)
        (.element (belowHidden := []) (hidden := []) (n := 5) rfl rfl rfl (by decide +kernel) (.text (n := 6) rfl rfl .nil)
          (.text (n := 7) rfl rfl (.element (belowHidden := []) (hidden := []) (n := 8) rfl rfl rfl (by decide +kernel) (.text (n := 9) rfl rfl .nil) .nil))) .nil)
  have flow : ∀ text, nodesAll (fun s _ => InFlowStyle s) (middleTree text) := fun text =>
    ⟨.inl (by decide +kernel), .inr ⟨⟨by decide +kernel, by decide +kernel⟩, .inr ⟨⟨by decide +kernel, by decide +kernel⟩, trivial, trivial⟩, trivial,
      .inr ⟨⟨by decide +kernel, by decide +kernel⟩, trivial, trivial⟩, trivial⟩, trivial⟩
  have agree : ∀ Q : ComputedValues → Prop, Q (documentStyle longerDocument 4 (some (exampleRootStyle longerDocument))) →
      AgreeAfter Q (middleTree "b") (middleTree twoLines) (codes "c") := fun Q hQ =>
    AgreeAfter.inside (a := [_]) (b := [_]) (post := []) (after := codes "c") ⟨⟨.flow, by decide +kernel⟩, by decide +kernel, by decide +kernel⟩
      rfl hQ (AgreeAfter.here (a := [_, _]) (b := [_, _]) (.block ⟨⟨.flow, by decide +kernel⟩, by decide +kernel, by decide +kernel⟩))
  refine ⟨_, _, _, den _ (by simp), den _ (by simp), ⟨by decide +kernel, by decide +kernel⟩, by decide +kernel, flow _, flow _, agree _ (by decide +kernel),
    agree _ trivial, ?_, ?_⟩
  · have hp : parseStylesheets exampleEngine (middleDocument "b") = some ⟨[]⟩ := exampleEngine_sheets rfl
    simp only [layoutDocument, constructDocument, hp]
    decide +kernel
  · have hp : parseStylesheets exampleEngine (middleDocument twoLines) = some ⟨[]⟩ := exampleEngine_sheets rfl
    simp only [layoutDocument, constructDocument, hp]
    decide +kernel

/-- Where a block around the difference has a fixed height, what comes after that block does not move with what is in it: `b` moves down
and `c` stays. -/
theorem C99_fixed_height :
    inkOfTree [.element tallStyle [.element blockStyle [.text (codes "b")]], .element blockStyle [.text (codes "c")]] =
      some [.glyphs [98] 16 ⟨0, 16⟩ ⟨0, 0, 0, 255⟩, .glyphs [99] 16 ⟨0, 116⟩ ⟨0, 0, 0, 255⟩] ∧
    inkOfTree [.element tallStyle [.element blockStyle [.text (codes "a")], .element blockStyle [.text (codes "b")]],
        .element blockStyle [.text (codes "c")]] =
      some [.glyphs [97] 16 ⟨0, 16⟩ ⟨0, 0, 0, 255⟩, .glyphs [98] 16 ⟨0, 176 / 5⟩ ⟨0, 0, 0, 255⟩, .glyphs [99] 16 ⟨0, 116⟩ ⟨0, 0, 0, 255⟩] := by
  constructor <;> decide +kernel

end Verif.Layout
