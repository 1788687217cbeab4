/- **C94**: what is before a change stays where it is. -/
import Verif.Layout.BeforeLemmas
namespace Verif.Layout
open Verif.Style Verif.Style.Spec Verif.Text Verif.Pdf Verif.Dom

variable {Err : Type}

/-! ### Boxes -/

theorem nodesAll_split {P : ComputedValues → List StyledNode → Prop} : ∀ {ns ms : List StyledNode}, nodesAll P (ns ++ ms) → nodesAll P ns ∧ nodesAll P ms
  | [], _, h => ⟨trivial, h⟩
  | _ :: _, _, h => ⟨⟨h.1, (nodesAll_split h.2).1⟩, (nodesAll_split h.2).2⟩

theorem visibleTexts_append : ∀ ns ms : List StyledNode, visibleTexts (ns ++ ms) = visibleTexts ns ++ visibleTexts ms
  | [], _ => rfl
  | n :: ns, ms => by rw [List.cons_append, visibleTexts, visibleTexts_append ns ms, visibleTexts, List.append_assoc]

theorem traverse_grows {cs ps : ComputedValues} {ns : List StyledNode} {b b1 : Builder} (h : traverseNodes cs ps ns b = some b1) :
    ∃ ext, b1.blockLevelBoxes = b.blockLevelBoxes ++ ext := by
  obtain ⟨ext, -, h1, -⟩ := (stepped_nodes ns cs cs ps ps b b b1 b1 rfl rfl ⟨rfl, rfl⟩ h h).blocks
  exact ⟨ext, h1⟩

/-- The text of the blocks that come first. -/
theorem pre_text {s : ComputedValues} {pre : List StyledNode} {b b0 : Builder} (h : traverseNodes s s pre Builder.new = some b)
    (he : b.endOngoing s = some b0) : inked ((blocksStyledText b0.blockLevelBoxes).map Prod.snd) = inked (visibleTexts pre) := by
  have hk := (traverseNodes_induct (traverse_keeps fun _ => ()) _ _ _ _ _ h).2 (nodesContentsKeep_unit _ _)
    (by simp [RunsHave, Builder.current, Builder.new])
  have hk := hk.2
  rw [← (endOngoing_styled he).1] at hk
  obtain ⟨-, h2, h3, -⟩ := endOngoing_some he
  have e : b0.styled = blocksStyledText b0.blockLevelBoxes := by simp [Builder.styled, h2, h3, stackStyled, inlinesStyledText]
  have e0 : Builder.new.styled = [] := rfl
  rw [e, e0] at hk
  rw [inked, inked, ← styledTexts_snd s, ← inkWith_unit, ← inkWith_unit, hk]
  rfl

/-- What is made of the blocks that come first. -/
theorem finish_begins {s : ComputedValues} {a : List StyledNode} {b b0 b1 : Builder} (hs : b.stack = []) (he : b.endOngoing s = some b0)
    (ha : BeginsWithBlock a) (h : traverseNodes s s a b = some b1) {c : BlockContainer} {f : Bool} (hf : b1.finish s = some (c, f)) :
    b0.blockLevelBoxes = [] ∨ ∃ ext, c = .blockLevelBoxes (b0.blockLevelBoxes ++ ext) := by
  rw [begins_ended ha hs he] at h
  obtain ⟨ext, hext⟩ := traverse_grows h
  have hs1 := traverse_stack (endOngoing_some he).2.1 h
  have hc := finish_some hs1 hf
  by_cases h0 : b0.blockLevelBoxes = []
  · exact .inl h0
  · refine .inr ?_
    rw [hc]
    split
    · exact ⟨ext, by rw [hext]⟩
    · rw [if_neg (by rw [hext]; simp [h0]), hext, List.append_assoc]
      exact ⟨_, rfl⟩

theorem finish_here {s : ComputedValues} {b b0 : Builder} (hs : b.stack = []) (he : b.endOngoing s = some b0) {c : BlockContainer} {f : Bool}
    (hf : b.finish s = some (c, f)) : c = .blockLevelBoxes b0.blockLevelBoxes ∨
      (c = .inlineFormattingContext b.ongoing ∧ b0.blockLevelBoxes = [anonymousBlock s b.ongoing]) := by
  have hc := finish_some hs hf
  have hb := (endOngoing_some he).2.2.2
  rw [hc, hb]
  by_cases h1 : b.ongoing = []
  · rw [if_pos h1, if_pos h1, List.append_nil]
    exact .inl rfl
  · rw [if_neg h1, if_neg h1]
    by_cases h2 : b.blockLevelBoxes = []
    · rw [if_pos h2, h2]
      exact .inr ⟨rfl, rfl⟩
    · rw [if_neg h2]
      exact .inl rfl

theorem blockAround_of {s : ComputedValues} (hb : BlockInFlow s) (floats : Bool) (contents : BlockContainer) :
    (match displayOf s with
        | .generatingBox .block .flowRoot => BlockLevelBox.independent s floats contents
        | _ => .sameFormattingContextBlock s contents) =
      blockAround s (if displayOf s = .generatingBox .block .flowRoot then some floats else none) contents := by
  obtain ⟨⟨inside, hd⟩, -, -⟩ := hb
  rw [hd]
  cases inside <;> simp [blockAround]

theorem Begin.forget {Q : ComputedValues → Prop} {c c' : BlockContainer} {t : List (ComputedValues × Nat)} (h : Begin Q true c c' t) : Begin Q false c c' t := by
  induction h with
  | nothing _ => exact .nothing (by simp)
  | here _ => exact .here (by simp)
  | added h1 h2 => exact .added h1 h2
  | removed h => cases h
  | inside h1 h2 _ _ ih => exact .inside h1 h2 (by simp) ih

/-- The boxes if something is added at the end. -/
theorem appended_begin (Q : ComputedValues → Prop) {pre b : List StyledNode} (s : ComputedValues) (c c' : BlockContainer) (f f' : Bool)
    (hb : BeginsWithBlock b) (hu : nodesUnmeasured pre) (hno : nodesAll (fun s _ => BoxOnly NoFloats s) pre)
    (h1 : constructContainer s pre = some (c, f)) (h2 : constructContainer s (pre ++ b) = some (c', f')) :
    ∃ t, Begin Q true c c' t ∧ Begin Q false c' c t ∧ inked (t.map Prod.snd) = inked (visibleTexts pre) := by
  have hno1 := constructContainer_only hno h1
  simp only [constructContainer] at h1 h2
  split at h1
  · cases h1
  rename_i B t1
  split at h2
  · cases h2
  rename_i B' t2
  obtain ⟨B2, t3, t4⟩ := traverse_append _ _ _ _ t2
  rw [t1] at t3
  cases t3
  have hs := traverse_stack rfl t1
  obtain ⟨b0, he⟩ := endOngoing_total hs s
  have ht := pre_text t1 he
  rcases finish_begins hs he hb t4 h2 with h0 | ⟨ext, rfl⟩
  · rw [h0] at ht
    rcases finish_here hs he h1 with rfl | ⟨-, e⟩
    · exact ⟨[], .nothing (fun _ => by rw [h0]), .nothing (by simp), ht⟩
    · rw [h0] at e
      cases e
  · rcases finish_here hs he h1 with rfl | ⟨rfl, e⟩
    · have := Begin.here (Q := Q) (last := true) (pre := b0.blockLevelBoxes) (a := []) (b := ext) (fun _ => rfl)
      have hr := Begin.here (Q := Q) (last := false) (pre := b0.blockLevelBoxes) (a := ext) (b := []) (by simp)
      rw [List.append_nil] at this hr
      exact ⟨_, this, hr, by rw [blocksRuns_flatten _ hno1]; exact ht⟩
    · have hun := (adds_nodes pre s s _ _ hu t1).1 ⟨trivial, by simp [Builder.new]⟩
      rw [e] at ht ⊢
      refine ⟨_, .added (bare_fade s) hun.ongoing, .removed rfl (bare_fade s) hun.ongoing, ?_⟩
      rw [inlinesRuns_flatten _ hno1]
      simpa only [blocksStyledText, anonymousBlock, BlockLevelBox.styledText, BlockContainer.styledText, List.append_nil] using ht

/-- The boxes if the difference is within a block. -/
theorem inside_begin {Q : ComputedValues → Prop} {last : Bool} {pre a b children children' : List StyledNode} {s : ComputedValues} (hb : BlockInFlow s)
    (hQ : Q s) (hlast : last = true → a = []) {before : List Nat}
    (ih : ∀ (s : ComputedValues) (c c' : BlockContainer) (f f' : Bool), nodesAll (fun s _ => BoxOnly NoFloats s) children →
      constructContainer s children = some (c, f) → constructContainer s children' = some (c', f') →
      ∃ t, Begin Q last c c' t ∧ inked (t.map Prod.snd) = inked before)
    (P : ComputedValues) (c c' : BlockContainer) (f f' : Bool) (hno : nodesAll (fun s _ => BoxOnly NoFloats s) (pre ++ .element s children :: a))
    (h1 : constructContainer P (pre ++ .element s children :: a) = some (c, f))
    (h2 : constructContainer P (pre ++ .element s children' :: b) = some (c', f')) :
    ∃ t, Begin Q last c c' t ∧ inked (t.map Prod.snd) = inked (visibleTexts pre ++ before) := by
  have hno1 := constructContainer_only hno h1
  have hnoc : nodesAll (fun s _ => BoxOnly NoFloats s) children := by
    have := (nodesAll_split hno).2.1
    simp only [StyledNode.All] at this
    obtain ⟨⟨ins, hd⟩, -, -⟩ := hb
    exact (this.resolve_left (by rw [hd]; simp)).2
  simp only [constructContainer] at h1 h2
  split at h1
  · cases h1
  rename_i B t1
  split at h2
  · cases h2
  rename_i B' t2
  obtain ⟨B1, t3, t4⟩ := traverse_append _ _ _ _ t1
  obtain ⟨B2, t5, t6⟩ := traverse_append _ _ _ _ t2
  rw [t3] at t5
  cases t5
  simp only [traverseNodes] at t4 t6
  split at t4
  · cases t4
  rename_i B3 t7
  split at t6
  · cases t6
  rename_i B4 t8
  obtain ⟨b0, inner, contents, floats, x, fl, -, e1, i1, f1, rfl, hx⟩ := traverse_block hb t7
  obtain ⟨b0', inner', contents', floats', x', fl', -, e1', i1', f1', rfl, hx'⟩ := traverse_block hb t8
  rw [e1] at e1'
  cases e1'
  obtain ⟨t, g1, g2⟩ := ih s contents contents' floats floats' hnoc (by simp only [constructContainer, i1, f1]) (by simp only [constructContainer, i1', f1'])
  have ht := pre_text t3 e1
  have hst := (endOngoing_some e1).2.1
  obtain ⟨ext, hext⟩ := traverse_grows t4
  obtain ⟨ext', hext'⟩ := traverse_grows t6
  have hc : ∀ {y : BlockLevelBox} {g : Bool} {ns : List StyledNode} {B : Builder} {ext : List BlockLevelBox} {c : BlockContainer} {f : Bool},
      traverseNodes P P ns { b0 with blockLevelBoxes := b0.blockLevelBoxes ++ [y], containsFloats := g } = some B →
      B.blockLevelBoxes = b0.blockLevelBoxes ++ [y] ++ ext → B.finish P = some (c, f) →
      ∃ ext, c = .blockLevelBoxes (b0.blockLevelBoxes ++ y :: ext) ∧ (ns = [] → ext = []) := by
    intro y g ns B ext c f hB hx hf
    have hs : B.stack = [] := traverse_stack (b := { b0 with blockLevelBoxes := b0.blockLevelBoxes ++ [y], containsFloats := g }) hst hB
    rw [finish_some hs hf, hx]
    have hn : ns = [] → ext = [] ∧ B.ongoing = [] := by
      rintro rfl
      cases hB
      exact ⟨by simpa using hx, (endOngoing_some e1).2.2.1⟩
    split
    · exact ⟨ext, by simp, fun h => (hn h).1⟩
    · rename_i ho
      rw [if_neg (by simp)]
      exact ⟨ext ++ [anonymousBlock P B.ongoing], by simp, fun h => absurd (hn h).2 ho⟩
  obtain ⟨x1, rfl, hx1⟩ := hc t4 hext h1
  obtain ⟨x2, rfl, -⟩ := hc t6 hext' h2
  rw [hx.trans (blockAround_of hb floats contents), hx'.trans (blockAround_of hb floats' contents')]
  refine ⟨_, .inside (by split <;> simp) hQ (fun hl => hx1 (hlast hl)) g1, ?_⟩
  rw [blocksRuns_flatten _ ((blocksOnly_append _ _).1 hno1).1, List.map_append]
  simp only [inked, List.filter_append] at ht g2 ⊢
  rw [ht, g2]

/-- The boxes of two lists of contents that begin in the same way do so, too. -/
theorem AgreeUntil.begin {nodes nodes' : List StyledNode} {before : List Nat} (h : AgreeUntil nodes nodes' before) :
    ∀ (s : ComputedValues) (c c' : BlockContainer) (f f' : Bool), nodesAll (fun s _ => BoxOnly NoFloats s) nodes →
      constructContainer s nodes = some (c, f) → constructContainer s nodes' = some (c', f') →
      ∃ t, Begin (fun _ => True) false c c' t ∧ inked (t.map Prod.snd) = inked before := by
  induction h with
  | @here pre a b ha hb =>
    intro s c c' f f' hno h1 h2
    have hno1 := constructContainer_only hno h1
    simp only [constructContainer] at h1 h2
    split at h1
    · cases h1
    rename_i B t1
    split at h2
    · cases h2
    rename_i B' t2
    obtain ⟨B1, t3, t4⟩ := traverse_append _ _ _ _ t1
    obtain ⟨B2, t5, t6⟩ := traverse_append _ _ _ _ t2
    rw [t3] at t5
    cases t5
    have hs := traverse_stack rfl t3
    obtain ⟨b0, he⟩ := endOngoing_total hs s
    have ht := pre_text t3 he
    rcases finish_begins hs he ha t4 h1 with h0 | ⟨ext, rfl⟩
    · rw [h0] at ht
      exact ⟨[], .nothing (by simp), ht⟩
    rcases finish_begins hs he hb t6 h2 with h0 | ⟨ext', rfl⟩
    · rw [h0] at ht
      exact ⟨[], .nothing (by simp), ht⟩
    exact ⟨_, .here (by simp), by rw [blocksRuns_flatten _ ((blocksOnly_append _ _).1 hno1).1]; exact ht⟩
  | added hb hu =>
    intro s c c' f f' hno h1 h2
    obtain ⟨t, a1, -, a2⟩ := appended_begin _ s c c' f f' hb hu hno h1 h2
    exact ⟨t, a1.forget, a2⟩
  | removed hb hu =>
    intro s c c' f f' hno h1 h2
    obtain ⟨t, -, a1, a2⟩ := appended_begin _ s c' c f' f hb hu (nodesAll_split hno).1 h2 h1
    exact ⟨t, a1, a2⟩
  | inside hb _ ih => exact inside_begin hb trivial (by simp) ih

/-- See `AgreeUntil.begin`. -/
theorem Appended.begin {nodes nodes' : List StyledNode} (h : Appended nodes nodes') :
    ∀ (s : ComputedValues) (c c' : BlockContainer) (f f' : Bool), nodesAll (fun s _ => BoxOnly NoFloats s) nodes →
      constructContainer s nodes = some (c, f) → constructContainer s nodes' = some (c', f') →
      ∃ t, Begin (fun s => (backgroundOf s).alpha = 0) true c c' t ∧ inked (t.map Prod.snd) = inked (visibleTexts nodes) := by
  induction h with
  | here hb hu =>
    intro s c c' f f' hno h1 h2
    obtain ⟨t, a1, -, a2⟩ := appended_begin _ s c c' f f' hb hu hno h1 h2
    exact ⟨t, a1, a2⟩
  | @inside pre s children children' b hb hQ _ ih =>
    intro P c c' f f' hno h1 h2
    obtain ⟨t, g1, g2⟩ := inside_begin hb hQ (fun _ => rfl) ih P c c' f f' hno h1 h2
    refine ⟨t, g1, g2.trans ?_⟩
    obtain ⟨⟨ins, hd⟩, -, -⟩ := hb
    rw [visibleTexts_append, visibleTexts, visibleTexts, StyledNode.visibleText, hd, if_neg (by simp), List.append_nil]

theorem constructRoot_begin {Q : ComputedValues → Prop} {last : Bool} {s : ComputedValues} (hd : displayOf s ≠ .none) (hs : InFlowStyle s) (hQ : Q s)
    {nodes nodes' : List StyledNode} {before : List Nat}
    (hgen : ∀ (c c' : BlockContainer) (f f' : Bool),
      constructContainer s nodes = some (c, f) → constructContainer s nodes' = some (c', f') →
      ∃ t, Begin Q last c c' t ∧ inked (t.map Prod.snd) = inked before) {r r' : BlockFormattingContext}
    (h1 : constructRoot s nodes = some r) (h2 : constructRoot s nodes' = some r') :
    ∃ t, Begin Q last r.contents r'.contents t ∧ inked (t.map Prod.snd) = inked before := by
  have hp : (positionOf s).isAbsolutelyPositioned = false := by
    rcases hq : positionOf s with _ | _ | _ <;> first | rfl | exact absurd hq hs.1
  have hfl : (floatOf s).isFloating = false := by rw [hs.2]; rfl
  unfold constructRoot at h1 h2
  simp only [hp, hfl, Bool.false_eq_true, if_false] at h1 h2
  rcases hd' : displayOf s with _ | _ | ⟨o, i⟩ <;> simp only [hd'] at h1 h2
  · exact absurd hd' hd
  all_goals
    rcases c1 : constructContainer s nodes with _ | ⟨c, f⟩
    · simp [c1] at h1
    rcases c2 : constructContainer s nodes' with _ | ⟨c', f'⟩
    · simp [c2] at h2
    obtain ⟨t, g1, g2⟩ := hgen _ _ _ _ c1 c2
    simp only [c1, c2] at h1 h2
    cases h1
    cases h2
    exact ⟨_, .inside (pre := []) (f := some f) (f' := some f') (a := []) (b := []) (by simp) hQ (fun _ => rfl) g1, by simpa [blocksRuns] using g2⟩

/-! ### The property -/

section
variable {R Er σ : Type} (P : Painter R Er) (E : Engine σ) (font : FontApi Rat Err) (d d' : Document)

/-- **C94**: two documents with the same style of the root element, in which everything is in flow, and that begin in the same way: they
differ from the beginning of a block on, or one of them ends there, at any depth. Whenever both are laid out, the texts of both begin with
the same glyphs, in the same size and colour and at the same places, and these are the glyphs of all of the text before the difference (but
for white space), however large the viewport is. Missing: absolutely positioned and floating elements
and the backgrounds. -/
theorem C94_before_partial (F F' : Forest) (rootStyle : ComputedValues) (tree tree' : List StyledNode) (hidden hidden' before : List Nat)
    (h : Denotes E d F rootStyle tree hidden) (h' : Denotes E d' F' rootStyle tree' hidden') (hs : InFlowStyle rootStyle)
    (hf : nodesAll (fun s _ => InFlowStyle s) tree) (hf' : nodesAll (fun s _ => InFlowStyle s) tree') (ha : AgreeUntil tree tree' before)
    {fuel fuel' : Nat} {schedule schedule' : Oracle} {viewport : Vec2 Rat} {fragments fragments' : List Fragment}
    (hl : layoutDocument E font d fuel schedule viewport = some fragments)
    (hl' : layoutDocument E font d' fuel' schedule' viewport = some fragments') (ascender : Rat)
    {placed placed' : List (Fragment × Vec2 Rat)} (hpl : Placed ⟨0, 0⟩ fragments placed) (hpl' : Placed ⟨0, 0⟩ fragments' placed') :
    ∃ common rest rest' text glyphs, (shapesOf ascender placed).filter Shape.isText = common ++ rest ∧
      (shapesOf ascender placed').filter Shape.isText = common ++ rest' ∧ common.flatMap Shape.ids = glyphs.map Prod.snd ∧
      Shown font text glyphs ∧ inked (text.map Prod.snd) = inked before := by
  unfold layoutDocument at hl hl'
  rcases hc : constructDocument E d fuel with _ | root
  · simp [hc] at hl
  rcases hc' : constructDocument E d' fuel' with _ | root'
  · simp [hc'] at hl'
  simp only [hc, hc'] at hl hl'
  obtain ⟨h1, -⟩ := constructDocument_sound h hc
  obtain ⟨h2, -⟩ := constructDocument_sound h' hc'
  have hd : displayOf rootStyle ≠ .none := by
    obtain ⟨_, _, _, _, _, h4, _⟩ := h.styled
    exact h4
  have hso : StyleOnly NoAbsolutes rootStyle := ⟨fun h => absurd h hs.1, fun _ => by simp⟩
  have no : ∀ {ns : List StyledNode}, nodesAll (fun s _ => InFlowStyle s) ns → nodesAll (fun s _ => BoxOnly NoAbsolutes s) ns :=
    fun hn => nodesAll_mono (fun s _ hs => .inr ⟨fun h => absurd h hs.1, fun _ => by simp⟩) _ hn
  obtain ⟨t, g1, g2⟩ := constructRoot_begin hd hs trivial (fun c c' f f' => ha.begin rootStyle c c' f f'
    (nodesAll_mono (fun s _ hs => .inr ⟨fun _ => by simp, fun h => absurd hs.2 h⟩) _ hf)) h1 h2
  have n1 := constructRoot_only hso (no hf) h1
  have n2 := constructRoot_only hso (no hf') h2
  obtain ⟨fc, k1, rfl⟩ := layoutRoot_lays n1 hl
  obtain ⟨fc', k2, rfl⟩ := layoutRoot_lays n2 hl'
  obtain ⟨k, r, r', gl, e1, e2, -, e3, e4, -⟩ := g1.same (v := .ofText) ascender _ _ _ _ rfl n1 n2 k1 k2
  exact ⟨k ⟨0, 0⟩, r ⟨0, 0⟩, r' ⟨0, 0⟩, t, gl, by rw [hpl.text, e1], by rw [hpl'.text, e2], e4 _, e3, g2⟩

/-- **C94** with the backgrounds: if something is added at the end of a document, or at the end of its last block, at any depth, all that
was on the page before is on the page afterwards, at the same places, and what is new comes after it. The blocks something is added to, and
the root element, have no background. Missing: absolutely positioned and floating elements, and text that is added to a line. -/
theorem C94_appended_partial (F F' : Forest) (rootStyle : ComputedValues) (tree tree' : List StyledNode) (hidden hidden' : List Nat)
    (h : Denotes E d F rootStyle tree hidden) (h' : Denotes E d' F' rootStyle tree' hidden') (hs : InFlowStyle rootStyle)
    (hbg : (backgroundOf rootStyle).alpha = 0)
    (hf : nodesAll (fun s _ => InFlowStyle s) tree) (hf' : nodesAll (fun s _ => InFlowStyle s) tree') (ha : Appended tree tree')
    {fuel fuel' : Nat} {schedule schedule' : Oracle} {viewport : Vec2 Rat} {fragments fragments' : List Fragment}
    (hl : layoutDocument E font d fuel schedule viewport = some fragments)
    (hl' : layoutDocument E font d' fuel' schedule' viewport = some fragments') (ascender : Rat)
    {placed placed' : List (Fragment × Vec2 Rat)} (hpl : Placed ⟨0, 0⟩ fragments placed) (hpl' : Placed ⟨0, 0⟩ fragments' placed') :
    ∃ new, (shapesOf ascender placed').filter Shape.visible = (shapesOf ascender placed).filter Shape.visible ++ new := by
  unfold layoutDocument at hl hl'
  rcases hc : constructDocument E d fuel with _ | root
  · simp [hc] at hl
  rcases hc' : constructDocument E d' fuel' with _ | root'
  · simp [hc'] at hl'
  simp only [hc, hc'] at hl hl'
  obtain ⟨h1, -⟩ := constructDocument_sound h hc
  obtain ⟨h2, -⟩ := constructDocument_sound h' hc'
  have hd : displayOf rootStyle ≠ .none := by
    obtain ⟨_, _, _, _, _, h4, _⟩ := h.styled
    exact h4
  have hso : StyleOnly NoAbsolutes rootStyle := ⟨fun h => absurd h hs.1, fun _ => by simp⟩
  have no : ∀ {ns : List StyledNode}, nodesAll (fun s _ => InFlowStyle s) ns → nodesAll (fun s _ => BoxOnly NoAbsolutes s) ns :=
    fun hn => nodesAll_mono (fun s _ hs => .inr ⟨fun h => absurd h hs.1, fun _ => by simp⟩) _ hn
  obtain ⟨t, g1, -⟩ := constructRoot_begin hd hs hbg (fun c c' f f' => ha.begin rootStyle c c' f f'
    (nodesAll_mono (fun s _ hs => .inr ⟨fun _ => by simp, fun h => absurd hs.2 h⟩) _ hf)) h1 h2
  have n1 := constructRoot_only hso (no hf) h1
  have n2 := constructRoot_only hso (no hf') h2
  obtain ⟨fc, k1, rfl⟩ := layoutRoot_lays n1 hl
  obtain ⟨fc', k2, rfl⟩ := layoutRoot_lays n2 hl'
  obtain ⟨k, r, r', gl, e1, e2, e3, -, -, -⟩ := g1.same (v := .ofAll) ascender _ _ _ _ rfl n1 n2 k1 k2
  refine ⟨r' ⟨0, 0⟩, ?_⟩
  rw [hpl.all, hpl'.all]
  refine (e2 _).trans ?_
  rw [show textOf .ofAll ascender ⟨0, 0⟩ fc.fragments = _ from e1 _, e3 rfl, List.append_nil]

/-- **C94** for the files: what a reader finds on the pages of both begins with the same text at the same places, which is that before the
difference. -/
theorem C94_pages_partial {readReal : List Byte → Option R} (hd : RealText P.floats.dtoa readReal) (hfl : FloatLaws P.floats)
    (hv : P.fontView.Valid) (hg : ∀ c g, font.glyphId c = .ok g → g < 65536) (F F' : Forest) (rootStyle : ComputedValues)
    (tree tree' : List StyledNode) (hidden hidden' before : List Nat) (h : Denotes E d F rootStyle tree hidden)
    (h' : Denotes E d' F' rootStyle tree' hidden') (hst : InFlowStyle rootStyle) (hf : nodesAll (fun s _ => InFlowStyle s) tree)
    (hf' : nodesAll (fun s _ => InFlowStyle s) tree') (ha : AgreeUntil tree tree' before)
    {fuel fuel' : Nat} {schedule schedule' : Oracle} {bytes bytes' : List Byte} (hb : toPdfBytes P E font d fuel schedule = some bytes)
    (hb' : toPdfBytes P E font d' fuel' schedule' = some bytes') (hs : bytes.length ≤ 2 ^ 32) (hs' : bytes'.length ≤ 2 ^ 32) :
    ∃ shapes shapes' common rest rest' text glyphs, shapes.filter Shape.isText = common ++ rest ∧
      shapes'.filter Shape.isText = common ++ rest' ∧ common.flatMap Shape.ids = glyphs.map Prod.snd ∧
      Shown font text glyphs ∧ inked (text.map Prod.snd) = inked before ∧
      ∀ r ∈ [(bytes, shapes), (bytes', shapes')],
        ∃ m file page painted, (∀ fuel, m ≤ fuel → readDocument readReal fuel r.1 = some file) ∧ file.pages = [page] ∧
          page.mediaBox = [.int 0, .int 0, .real (P.floats.mul (P.round 600) P.floats.scaleX), .real (P.floats.mul (P.round 800) P.floats.scaleY)] ∧
          (∃ m, ∀ fuel, m ≤ fuel →
            paintContents readReal P.floats.zero P.floats.one (gsAlpha file.extGState) fuel page.contents = some painted) ∧
          AllMatch (fun p shape => Verif.Pdf.Matches P.floats (fun _ name => ∃ id, dictGet file.fonts name = some (.ref id 0) ∧
            IsFont readReal r.1 P.fontView id) p (shape.expected P)) painted r.2 := by
  unfold toPdfBytes at hb hb'
  rcases hlay : layoutDocument E font d fuel schedule ⟨600, 800⟩ with _ | fragments
  · simp [hlay] at hb
  rcases hlay' : layoutDocument E font d' fuel' schedule' ⟨600, 800⟩ with _ | fragments'
  · simp [hlay'] at hb'
  simp only [hlay, hlay'] at hb hb'
  rcases hdoc : paintDocument P fragments with _ | doc
  · simp [hdoc] at hb
  rcases hdoc' : paintDocument P fragments' with _ | doc'
  · simp [hdoc'] at hb'
  simp only [hdoc, hdoc', Option.some.injEq] at hb hb'
  subst hb hb'
  obtain ⟨placed, hpl⟩ := Placed.exists fragments ⟨0, 0⟩
  obtain ⟨placed', hpl'⟩ := Placed.exists fragments' ⟨0, 0⟩
  have glyphs : ∀ {d : Document} {fuel : Nat} {schedule : Oracle} {fragments : List Fragment} {placed : List (Fragment × Vec2 Rat)},
      layoutDocument E font d fuel schedule ⟨600, 800⟩ = some fragments → Placed ⟨0, 0⟩ fragments placed →
      ∀ e ∈ placed, ∀ style rect segment, e.1 = .text style rect segment → ∀ g ∈ segment.glyphs, g < 65536 := by
    intro d fuel schedule fragments placed hl hpl e he style rect segment hs g hgm
    unfold layoutDocument at hl
    split at hl
    · cases hl
    · obtain ⟨hm, -⟩ := layoutRoot_shown hl
      obtain ⟨c, hcg⟩ := made_glyphs hpl hm e he style rect segment hs g hgm
      exact hg c g hcg
  obtain ⟨common, rest, rest', text, gl, e1, e2, e3, e4, e5⟩ := C94_before_partial E font d d' F F' rootStyle tree tree' hidden hidden' before h h'
    hst hf hf' ha hlay hlay' P.ascender hpl hpl'
  refine ⟨_, _, common, rest, rest', text, gl, e1, e2, e3, e4, e5, ?_⟩
  intro r hr
  rcases List.mem_cons.1 hr with rfl | hr
  · exact C46_page P hd hfl hv hpl (glyphs hlay hpl) hdoc hs
  · rcases List.mem_cons.1 hr with rfl | hr
    · exact C46_page P hd hfl hv hpl' (glyphs hlay' hpl') hdoc' hs'
    · cases hr

end

/-! ### Examples -/

/-- `<html><head></head><div><p>a</p>b<p>c</p></div></html>`: `exampleDocument2` with a paragraph added. -/
def longerDocument : Document :=
  { Document.new with nodes :=
    [ Node.new .document,
      ⟨none, none, none, some 2, some 2, .document⟩,
      exampleElement "html" (some 1) none none (some 3) (some 4),
      exampleElement "head" (some 2) (some 4) none none none,
      exampleElement "div" (some 2) none (some 3) (some 5) (some 8),
      exampleElement "p" (some 4) (some 7) none (some 6) (some 6),
      ⟨some 5, none, none, none, none, .text "a"⟩,
      ⟨some 4, some 8, some 5, none, none, .text "b"⟩,
      exampleElement "p" (some 4) none (some 7) (some 9) (some 9),
      ⟨some 8, none, none, none, none, .text "c"⟩ ] }

/-- The contents of `longerDocument`. -/
def longerTree : List StyledNode :=
  let html := exampleRootStyle longerDocument
  let div := documentStyle longerDocument 4 (some html)
  [.element (documentStyle longerDocument 3 (some html)) [],
    .element div [.element (documentStyle longerDocument 5 (some div)) [.text (codes "a")], .text (codes "b"),
      .element (documentStyle longerDocument 8 (some div)) [.text (codes "c")]]]

/-- The children of the nodes of `longerDocument`. -/
def longerChildren : List (List Nat) := [[], [2], [3, 4], [], [5, 7, 8], [6], [], [], [9], []]

theorem longerDocument_denotes : Denotes exampleEngine longerDocument (forestOf longerChildren) (exampleRootStyle exampleDocument2)
    longerTree [3] := by
  have hcheck : treeCheck longerDocument longerChildren = true := by decide +kernel
  refine ⟨represents_of_check hcheck, acyclic_of_check hcheck, ⟨[]⟩, 2, exampleEngine_sheets rfl, by decide, rfl, by decide +kernel, ?_⟩
  exact .none (n := 3) (hidden := []) rfl rfl rfl (by decide +kernel)
    (.element (belowHidden := []) (hidden := []) (n := 4) rfl rfl rfl (by decide +kernel)
      (.element (belowHidden := []) (hidden := []) (n := 5) rfl rfl rfl (by decide +kernel) (.text (n := 6) rfl rfl .nil)
        (.text (n := 7) rfl rfl (.element (belowHidden := []) (hidden := []) (n := 8) rfl rfl rfl (by decide +kernel) (.text (n := 9) rfl rfl .nil) .nil))) .nil)

/-- The style of the `div` in both documents. -/
def divStyle2 : ComputedValues := documentStyle exampleDocument2 4 (some (exampleRootStyle exampleDocument2))
/-- The style of the paragraph in both documents. -/
def paragraphStyle2 : ComputedValues := documentStyle exampleDocument2 5 (some divStyle2)
/-- The style of the added paragraph. -/
def addedStyle2 : ComputedValues := documentStyle longerDocument 8 (some divStyle2)

theorem longerTree_eq : longerTree = [.element (documentStyle exampleDocument2 3 (some (exampleRootStyle exampleDocument2))) [],
    .element divStyle2 [.element paragraphStyle2 [.text (codes "a")], .text (codes "b"), .element addedStyle2 [.text (codes "c")]]] := by
  have e3 : documentStyle longerDocument 3 (some (exampleRootStyle longerDocument)) =
      documentStyle exampleDocument2 3 (some (exampleRootStyle exampleDocument2)) := by
    refine sameStyle_of (fun p => ?_) (by decide +kernel)
    cases p <;> decide +kernel
  have e4 : documentStyle longerDocument 4 (some (exampleRootStyle longerDocument)) = divStyle2 := by
    refine sameStyle_of (fun p => ?_) (by decide +kernel)
    cases p <;> decide +kernel
  have e5 : documentStyle longerDocument 5 (some divStyle2) = paragraphStyle2 := by
    refine sameStyle_of (fun p => ?_) (by decide +kernel)
    cases p <;> decide +kernel
  simp only [longerTree, e3, e4, e5, addedStyle2]

theorem exampleTree2_eq : exampleTree2 = [.element (documentStyle exampleDocument2 3 (some (exampleRootStyle exampleDocument2))) [],
    .element divStyle2 [.element paragraphStyle2 [.text (codes "a")], .text (codes "b")]] := rfl

theorem divStyle2_block : BlockInFlow divStyle2 := ⟨⟨.flow, by decide +kernel⟩, by decide +kernel, by decide +kernel⟩
theorem addedStyle2_block : BlockInFlow addedStyle2 := ⟨⟨.flow, by decide +kernel⟩, by decide +kernel, by decide +kernel⟩
theorem paragraph2_unmeasured : nodesUnmeasured [.element paragraphStyle2 [.text (codes "a")], .text (codes "b")] := by
  have hd : displayOf paragraphStyle2 = .generatingBox .block .flow := by decide +kernel
  refine ⟨?_, trivial, trivial⟩
  simp only [StyledNode.Unmeasured, hd]
  exact not_percentage_of (by decide +kernel)

theorem longerTree_agrees : AgreeUntil exampleTree2 longerTree (codes "ab") := by
  rw [longerTree_eq, exampleTree2_eq]
  exact AgreeUntil.inside (pre := [_]) (a := []) (b := []) (before := codes "ab") divStyle2_block
    (AgreeUntil.added (pre := [_, _]) (.block addedStyle2_block) paragraph2_unmeasured)

theorem longerTree_appended : Appended exampleTree2 longerTree := by
  rw [longerTree_eq, exampleTree2_eq]
  exact Appended.inside (pre := [_]) (b := []) divStyle2_block (by decide +kernel)
    (Appended.here (pre := [_, _]) (.block addedStyle2_block) paragraph2_unmeasured)

/-- The hypotheses of C94 are met by these documents. Both are laid out, and there is text to see: the letters. -/
theorem longerDocument_before : Denotes exampleEngine exampleDocument2 (forestOf exampleChildren2) (exampleRootStyle exampleDocument2) exampleTree2 [3] ∧
    Denotes exampleEngine longerDocument (forestOf longerChildren) (exampleRootStyle exampleDocument2) longerTree [3] ∧
    InFlowStyle (exampleRootStyle exampleDocument2) ∧ nodesAll (fun s _ => InFlowStyle s) exampleTree2 ∧
    nodesAll (fun s _ => InFlowStyle s) longerTree ∧ AgreeUntil exampleTree2 longerTree (codes "ab") ∧
    (backgroundOf (exampleRootStyle exampleDocument2)).alpha = 0 ∧ Appended exampleTree2 longerTree ∧
    ((layoutDocument exampleEngine exampleFont exampleDocument2 9 inOrder ⟨600, 800⟩).map fun fs => (textOf .ofText 1 ⟨0, 0⟩ fs).map Shape.ids) =
      some [codes "a", codes "b"] ∧
    ((layoutDocument exampleEngine exampleFont longerDocument 9 inOrder ⟨600, 800⟩).map fun fs => (textOf .ofText 1 ⟨0, 0⟩ fs).map Shape.ids) =
      some [codes "a", codes "b", codes "c"] := by
  refine ⟨exampleDocument2_denotes, longerDocument_denotes, ⟨by decide +kernel, by decide +kernel⟩, ?_, ?_, longerTree_agrees, by decide +kernel, longerTree_appended, ?_, ?_⟩
  · exact ⟨.inl (by decide +kernel), .inr ⟨⟨by decide +kernel, by decide +kernel⟩, .inr ⟨⟨by decide +kernel, by decide +kernel⟩, trivial, trivial⟩, trivial, trivial⟩, trivial⟩
  · exact ⟨.inl (by decide +kernel), .inr ⟨⟨by decide +kernel, by decide +kernel⟩, .inr ⟨⟨by decide +kernel, by decide +kernel⟩, trivial, trivial⟩, trivial,
      .inr ⟨⟨by decide +kernel, by decide +kernel⟩, trivial, trivial⟩, trivial⟩, trivial⟩
  · have hp : parseStylesheets exampleEngine exampleDocument2 = some ⟨[]⟩ := exampleEngine_sheets rfl
    simp only [layoutDocument, constructDocument, hp]
    decide +kernel
  · have hp : parseStylesheets exampleEngine longerDocument = some ⟨[]⟩ := exampleEngine_sheets rfl
    simp only [layoutDocument, constructDocument, hp]
    decide +kernel

/-- `<div style="height: 100px">` -/
def tallStyle : ComputedValues := styleWith (.generatingBox .block .flow) (·.set .height (LengthOrPercentageOrAuto.length 100))
/-- `<span style="position: relative; top: 50%">` -/
def loweredStyle : ComputedValues := styleWith (.generatingBox .inline .flow) fun v =>
  (v.set .position Position.relative).set .top (LengthOrPercentageOrAuto.percentage (1 / 2))

/-- **C94** does not hold where offsets are percentages of the height of the block around the text: if a block is added at the end of
that block, its text is moved up by 50 pixels. -/
theorem C94_percentages_violated :
    inkOfTree [.element tallStyle [.element loweredStyle [.text (codes "a")]]] =
      some [.glyphs [97] 16 ⟨0, 66⟩ ⟨0, 0, 0, 255⟩] ∧
    inkOfTree [.element tallStyle [.element loweredStyle [.text (codes "a")], .element blockStyle [.text (codes "b")]]] =
      some [.glyphs [97] 16 ⟨0, 16⟩ ⟨0, 0, 0, 255⟩, .glyphs [98] 16 ⟨0, 176 / 5⟩ ⟨0, 0, 0, 255⟩] := by
  constructor <;> decide +kernel

end Verif.Layout
