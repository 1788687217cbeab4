/- The construction of two trees of boxes from nodes that differ in blocks that have nothing of their own. -/
import Verif.Layout.WrapSim
import Verif.Layout.ConstructInv
namespace Verif.Layout
open Verif.Style

/-! ### The same boxes -/

mutual
theorem WrapC.refl : ∀ c : BlockContainer, WrapC c c
  | .blockLevelBoxes bs => .boxes (WrapL.refl bs)
  | .inlineFormattingContext _ => .inlines rfl
theorem WrapB.refl : ∀ b : BlockLevelBox, WrapB b b
  | .sameFormattingContextBlock _ c => .same (.inl rfl) (WrapC.refl c)
  | .independent _ _ c => .independent (WrapC.refl c)
  | .outOfFlowAbsolutelyPositioned _ _ _ => .absolute
  | .outOfFlowFloat _ _ _ => .float
theorem WrapL.refl : ∀ bs : List BlockLevelBox, WrapL bs bs
  | [] => .nil
  | b :: bs => .cons (WrapB.refl b) (WrapL.refl bs)
end

theorem WrapL.append_aux {bs bs' : List BlockLevelBox} (h2 : WrapL bs bs') : ∀ (as' as : List BlockLevelBox), WrapL as as' → WrapL (as ++ bs) (as' ++ bs') := by
  intro as'
  induction as' with
  | nil =>
    intro as h
    cases h with
    | nil => exact h2
  | cons x as' ih =>
    intro as h
    cases h with
    | cons hb hr => exact .cons hb (ih _ hr)
    | wrap hs hu hm hr =>
      rw [List.append_assoc]
      exact .wrap hs hu hm (ih _ hr)

theorem WrapL.append {as as' bs bs' : List BlockLevelBox} (h1 : WrapL as as') (h2 : WrapL bs bs') : WrapL (as ++ bs) (as' ++ bs') :=
  append_aux h2 as' as h1

theorem WrapL.one {b b' : BlockLevelBox} (h : WrapB b b') : WrapL [b] [b'] := .cons h .nil

theorem WrapL.to_nil {as : List BlockLevelBox} (h : WrapL as []) : as = [] := by
  cases h
  rfl

theorem bare_fade (s : ComputedValues) : Bare (fade s) :=
  ⟨⟨rfl, rfl, rfl, rfl⟩, ⟨rfl, rfl, rfl, rfl⟩, ⟨rfl, rfl, rfl, rfl⟩, rfl, rfl, rfl, rfl⟩

/-! ### Builders -/

def OngoingInlineBox.fade (o : OngoingInlineBox) : OngoingInlineBox := { o with children := fadeInlines o.children }

/-- The ongoing inline boxes of the builders differ in the styles of texts only. -/
structure Builder.Faded (b b' : Builder) : Prop where
  ongoing : fadeInlines b.ongoing = fadeInlines b'.ongoing
  stack : b.stack.map OngoingInlineBox.fade = b'.stack.map OngoingInlineBox.fade

theorem fadeInlines_eq_nil {xs : List InlineLevelBox} : fadeInlines xs = [] ↔ xs = [] := by
  cases xs <;> simp [fadeInlines]

theorem fadeInlines_empty {xs xs' : List InlineLevelBox} (h : fadeInlines xs = fadeInlines xs') : xs.isEmpty = xs'.isEmpty := by
  cases xs <;> cases xs' <;> simp_all [fadeInlines]

theorem Builder.Faded.stack_cases {b b' : Builder} (h : b.Faded b') : (b.stack = [] ∧ b'.stack = []) ∨
    ∃ o rest o' rest', b.stack = o :: rest ∧ b'.stack = o' :: rest' ∧ o.style = o'.style ∧ o.firstFragment = o'.firstFragment ∧
      fadeInlines o.children = fadeInlines o'.children ∧ rest.map OngoingInlineBox.fade = rest'.map OngoingInlineBox.fade := by
  have hs := h.stack
  rcases h1 : b.stack with _ | ⟨o, rest⟩
  · rw [h1] at hs
    rcases h2 : b'.stack with _ | ⟨o', rest'⟩
    · exact .inl ⟨rfl, rfl⟩
    · simp [h2] at hs
  · rw [h1] at hs
    rcases h2 : b'.stack with _ | ⟨o', rest'⟩
    · simp [h2] at hs
    · simp only [h2, List.map_cons, List.cons.injEq, OngoingInlineBox.fade, OngoingInlineBox.mk.injEq] at hs
      exact .inr ⟨o, rest, o', rest', rfl, rfl, hs.1.1, hs.1.2.1, hs.1.2.2, hs.2⟩

theorem Builder.Faded.current {b b' : Builder} (h : b.Faded b') : fadeInlines b.current = fadeInlines b'.current := by
  rcases h.stack_cases with ⟨h1, h2⟩ | ⟨o, rest, o', rest', h1, h2, -, -, h3, -⟩
  · simp only [Builder.current, h1, h2, h.ongoing]
  · simp only [Builder.current, h1, h2, h3]

theorem Builder.Faded.setCurrent {b b' : Builder} (h : b.Faded b') {xs xs' : List InlineLevelBox} (hx : fadeInlines xs = fadeInlines xs') :
    (b.setCurrent xs).Faded (b'.setCurrent xs') := by
  rcases h.stack_cases with ⟨h1, h2⟩ | ⟨o, rest, o', rest', h1, h2, h3, h4, -, h5⟩
  · simp only [Builder.setCurrent, h1, h2]
    exact ⟨hx, by simp [h1, h2]⟩
  · simp only [Builder.setCurrent, h1, h2]
    exact ⟨h.ongoing, by simp [OngoingInlineBox.fade, h3, h4, h5, hx]⟩

theorem setCurrent_blocks (b : Builder) (xs : List InlineLevelBox) : (b.setCurrent xs).blockLevelBoxes = b.blockLevelBoxes := by
  unfold Builder.setCurrent
  split <;> rfl

theorem Builder.Faded.hasOngoing {b b' : Builder} (h : b.Faded b') : b.hasOngoing = b'.hasOngoing := by
  have h1 := fadeInlines_empty h.ongoing
  rcases h.stack_cases with ⟨h2, h3⟩ | ⟨o, rest, o', rest', h2, h3, -⟩ <;> simp [Builder.hasOngoing, h1, h2, h3]

mutual
theorem InlineLevelBox.spaceAfter_fade : ∀ b : InlineLevelBox, b.fade.spaceAfter = b.spaceAfter
  | .textRun _ _ => rfl
  | .outOfFlowAbsolutelyPositioned _ _ _ => rfl
  | .outOfFlowFloat _ _ _ => rfl
  | .inlineBox _ _ _ children => by rw [InlineLevelBox.fade, InlineLevelBox.spaceAfter, InlineLevelBox.spaceAfter, spaceAfterAll_fade]
theorem spaceAfterAll_fade : ∀ bs : List InlineLevelBox, spaceAfterAll (fadeInlines bs) = spaceAfterAll bs
  | [] => rfl
  | b :: bs => by rw [fadeInlines, spaceAfterAll, spaceAfterAll, spaceAfterAll_fade bs, InlineLevelBox.spaceAfter_fade b]
end

theorem appendText_fade (ps : ComputedValues) (out : List Nat) : ∀ bs : List InlineLevelBox,
    fadeInlines (appendText ps out bs) = appendText (fade ps) out (fadeInlines bs)
  | [] => rfl
  | [.textRun style text] => rfl
  | [.inlineBox _ _ _ _] => rfl
  | [.outOfFlowAbsolutelyPositioned _ _ _] => rfl
  | [.outOfFlowFloat _ _ _] => rfl
  | b :: c :: bs => by
    have ih := appendText_fade ps out (c :: bs)
    have e : ∀ (ps : ComputedValues) (b c : InlineLevelBox) (bs : List InlineLevelBox), appendText ps out (b :: c :: bs) = b :: appendText ps out (c :: bs) := by
      intro ps b c bs
      cases b <;> rfl
    rw [e, fadeInlines, ih]
    simp only [fadeInlines, e]

theorem Builder.Faded.handleText {b b' : Builder} (h : b.Faded b') {ps ps' : ComputedValues} (hp : look ps = look ps') (t : List Nat) :
    (b.handleText t ps).Faded (b'.handleText t ps') := by
  have hc := h.current
  have hs : spaceAfterAll b.current = spaceAfterAll b'.current := by rw [← spaceAfterAll_fade, hc, spaceAfterAll_fade]
  have hl : b.handleLeadingWhitespace t = b'.handleLeadingWhitespace t := by
    cases t <;> simp only [Builder.handleLeadingWhitespace, hs]
  simp only [Builder.handleText, hl]
  split
  · exact h.setCurrent (by rw [appendText_fade, appendText_fade, hc, fade_eq hp])
  · exact h

theorem handleText_blocks (b : Builder) (t : List Nat) (ps : ComputedValues) : (b.handleText t ps).blockLevelBoxes = b.blockLevelBoxes := by
  simp only [Builder.handleText]
  split
  · exact setCurrent_blocks _ _
  · rfl

/-- What the end of an inline formatting context gives. -/
theorem endOngoing_some {b b1 : Builder} {cs : ComputedValues} (h : b.endOngoing cs = some b1) : b.stack = [] ∧ b1.stack = [] ∧ b1.ongoing = [] ∧
    b1.blockLevelBoxes = b.blockLevelBoxes ++
      if b.ongoing = [] then [] else [.sameFormattingContextBlock (fade cs) (.inlineFormattingContext b.ongoing)] := by
  simp only [Builder.endOngoing] at h
  split at h
  · cases h
  · rename_i hs
    have hs : b.stack = [] := by simpa using hs
    split at h
    · rename_i ho
      cases h
      simp_all
    · rename_i ho
      cases h
      have ho : b.ongoing ≠ [] := by simpa using ho
      simp [hs, ho, fade]

/-- The builders after the same step. -/
structure Stepped (b b' b1 b1' : Builder) : Prop where
  faded : b1.Faded b1'
  blocks : ∃ ext ext', b1.blockLevelBoxes = b.blockLevelBoxes ++ ext ∧ b1'.blockLevelBoxes = b'.blockLevelBoxes ++ ext' ∧
    ext.length = ext'.length ∧ WrapL ext ext'

theorem Stepped.same {b b' b1 b1' : Builder} (h : b1.Faded b1') (e : b1.blockLevelBoxes = b.blockLevelBoxes)
    (e' : b1'.blockLevelBoxes = b'.blockLevelBoxes) : Stepped b b' b1 b1' := ⟨h, [], [], by simp [e], by simp [e'], rfl, .nil⟩

theorem Stepped.trans {b b' b1 b1' b2 b2' : Builder} (h1 : Stepped b b' b1 b1') (h2 : Stepped b1 b1' b2 b2') : Stepped b b' b2 b2' := by
  obtain ⟨-, e, e', a1, a2, al, a3⟩ := h1
  obtain ⟨hf, f, f', c1, c2, cl, c3⟩ := h2
  exact ⟨hf, e ++ f, e' ++ f', by rw [c1, a1, List.append_assoc], by rw [c2, a2, List.append_assoc], by simp [al, cl], a3.append c3⟩

theorem ended_stepped {b b' b1 b1' : Builder} {cs cs' : ComputedValues} (hl : look cs = look cs') (h : b.Faded b')
    (h1 : b.endOngoing cs = some b1) (h2 : b'.endOngoing cs' = some b1') : Stepped b b' b1 b1' := by
  obtain ⟨s1, s2, s3, s4⟩ := endOngoing_some h1
  obtain ⟨t1, t2, t3, t4⟩ := endOngoing_some h2
  refine ⟨⟨by rw [s3, t3], by rw [s2, t2]⟩, _, _, s4, t4, ?_⟩
  by_cases ho : b.ongoing = []
  · have ho' : b'.ongoing = [] := by
      have := h.ongoing
      rw [ho] at this
      exact fadeInlines_eq_nil.1 this.symm
    rw [if_pos ho, if_pos ho']
    exact ⟨rfl, .nil⟩
  · have ho' : b'.ongoing ≠ [] := by
      intro ho'
      have := h.ongoing
      rw [ho'] at this
      exact ho (fadeInlines_eq_nil.1 this)
    rw [if_neg ho, if_neg ho', fade_eq hl]
    exact ⟨rfl, .one (.same (.inl rfl) (.inlines h.ongoing))⟩

theorem Stepped.push {b b' b1 b1' : Builder} (h : Stepped b b' b1 b1') {x x' : BlockLevelBox} (hx : WrapB x x') (f f' : Bool) :
    Stepped b b' { b1 with blockLevelBoxes := b1.blockLevelBoxes ++ [x], containsFloats := f }
      { b1' with blockLevelBoxes := b1'.blockLevelBoxes ++ [x'], containsFloats := f' } := by
  obtain ⟨⟨hf1, hf2⟩, e, e', a1, a2, al, a3⟩ := h
  exact ⟨⟨hf1, hf2⟩, e ++ [x], e' ++ [x'], by simp [a1], by simp [a2], by simp [al], a3.append (.one hx)⟩

mutual
theorem stepped_node : ∀ (n : StyledNode) (cs cs' ps ps' : ComputedValues) (b b' b1 b1' : Builder), look cs = look cs' → look ps = look ps' →
    b.Faded b' → traverseNode cs ps n b = some b1 → traverseNode cs' ps' n b' = some b1' → Stepped b b' b1 b1'
  | .ignored => by
    intro cs cs' ps ps' b b' b1 b1' hc hp h h1 h2
    simp only [traverseNode] at h1 h2
    cases h1
    cases h2
    exact .same h rfl rfl
  | .text t => by
    intro cs cs' ps ps' b b' b1 b1' hc hp h h1 h2
    simp only [traverseNode] at h1 h2
    cases h1
    cases h2
    exact .same (h.handleText hp t) (handleText_blocks _ _ _) (handleText_blocks _ _ _)
  | .element s children => by
    intro cs cs' ps ps' b b' b1 b1' hc hp h h1 h2
    simp only [traverseNode] at h1 h2
    rcases hd : displayOf s with _ | _ | ⟨outside, inside⟩ <;> simp only [hd] at h1 h2
    · cases h1
      cases h2
      exact .same h rfl rfl
    · exact stepped_nodes children cs cs' s s b b' b1 b1' hc rfl h h1 h2
    · cases outside with
      | inline =>
        cases inside with
        | flowRoot => cases h1
        | flow =>
          simp only at h1 h2
          rcases t1 : traverseNodes cs s children { b with stack := ⟨s, true, []⟩ :: b.stack } with _ | c1
          · simp [t1] at h1
          · rcases t2 : traverseNodes cs' s children { b' with stack := ⟨s, true, []⟩ :: b'.stack } with _ | c2
            · simp [t2] at h2
            · have hf : Builder.Faded { b with stack := ⟨s, true, []⟩ :: b.stack } { b' with stack := ⟨s, true, []⟩ :: b'.stack } :=
                ⟨h.ongoing, by simp [h.stack]⟩
              have st := stepped_nodes children cs cs' s s _ _ c1 c2 hc rfl hf t1 t2
              simp only [t1, t2] at h1 h2
              rcases st.faded.stack_cases with ⟨s1, s2⟩ | ⟨o, rest, o', rest', s1, s2, s3, s4, s5, s6⟩
              · simp [s1] at h1
              · simp only [s1, s2, Option.some.injEq] at h1 h2
                subst h1 h2
                have hf1 : Builder.Faded { c1 with stack := rest } { c2 with stack := rest' } := ⟨st.faded.ongoing, s6⟩
                refine ⟨hf1.setCurrent ?_, ?_⟩
                · rw [fadeInlines_append, fadeInlines_append, hf1.current, s3, s4]
                  simp only [fadeInlines, InlineLevelBox.fade, s5]
                · obtain ⟨e, e', a1, a2, al, a3⟩ := st.blocks
                  exact ⟨e, e', by rw [setCurrent_blocks]; exact a1, by rw [setCurrent_blocks]; exact a2, al, a3⟩
      | block =>
        simp only at h1 h2
        rcases t : traverseNodes s s children Builder.new with _ | inner
        · simp only [t] at h1
          split at h1
          · cases h1
          · split at h1
            · cases h1
            · split at h1 <;> cases h1
        · simp only [t] at h1 h2
          rcases tf : inner.finish s with _ | ⟨contents, floats⟩
          · simp only [tf] at h1
            split at h1
            · cases h1
            · split at h1
              · cases h1
              · split at h1 <;> cases h1
          · simp only [tf] at h1 h2
            have ho := h.hasOngoing
            split at h1
            · rename_i hpos
              rw [if_pos hpos, ← ho] at h2
              split at h1
              · rename_i hon
                rw [if_pos hon] at h2
                cases h1
                cases h2
                refine .same (h.setCurrent ?_) (setCurrent_blocks _ _) (setCurrent_blocks _ _)
                rw [fadeInlines_append, fadeInlines_append, h.current]
              · rename_i hon
                rw [if_neg hon] at h2
                cases h1
                cases h2
                exact ⟨⟨h.ongoing, h.stack⟩, _, _, rfl, rfl, rfl, .one .absolute⟩
            · rename_i hpos
              rw [if_neg hpos] at h2
              split at h1
              · rename_i hfl
                rw [if_pos hfl] at h2
                have hf : Builder.Faded { b with containsFloats := true } { b' with containsFloats := true } := ⟨h.ongoing, h.stack⟩
                have e1 : Builder.hasOngoing { b with containsFloats := true } = b.hasOngoing := rfl
                have e2 : Builder.hasOngoing { b' with containsFloats := true } = b.hasOngoing := by rw [ho]; rfl
                rw [e1] at h1
                rw [e2] at h2
                split at h1
                · rename_i hon
                  rw [if_pos hon] at h2
                  cases h1
                  cases h2
                  refine .same (hf.setCurrent ?_) (setCurrent_blocks _ _) (setCurrent_blocks _ _)
                  rw [fadeInlines_append, fadeInlines_append, hf.current]
                · rename_i hon
                  rw [if_neg hon] at h2
                  cases h1
                  cases h2
                  exact ⟨⟨h.ongoing, h.stack⟩, _, _, rfl, rfl, rfl, .one .float⟩
              · rename_i hfl
                rw [if_neg hfl] at h2
                rcases p1 : b.splitInlines cs with _ | c1
                · simp [p1] at h1
                · rcases p2 : b'.splitInlines cs' with _ | c2
                  · simp [p2] at h2
                  · simp only [p1, p2] at h1 h2
                    have st := ended_stepped hc h (splitInlines_eq p1).2 (splitInlines_eq p2).2
                    cases inside with
                    | flow =>
                      cases h1
                      cases h2
                      exact st.push (.same (.inl rfl) (WrapC.refl contents)) _ _
                    | flowRoot =>
                      cases h1
                      cases h2
                      exact st.push (.independent (WrapC.refl contents)) _ _
theorem stepped_nodes : ∀ (ns : List StyledNode) (cs cs' ps ps' : ComputedValues) (b b' b1 b1' : Builder), look cs = look cs' → look ps = look ps' →
    b.Faded b' → traverseNodes cs ps ns b = some b1 → traverseNodes cs' ps' ns b' = some b1' → Stepped b b' b1 b1'
  | [] => by
    intro cs cs' ps ps' b b' b1 b1' hc hp h h1 h2
    simp only [traverseNodes] at h1 h2
    cases h1
    cases h2
    exact .same h rfl rfl
  | n :: ns => by
    intro cs cs' ps ps' b b' b1 b1' hc hp h h1 h2
    simp only [traverseNodes] at h1 h2
    rcases t1 : traverseNode cs ps n b with _ | c1
    · simp [t1] at h1
    · rcases t2 : traverseNode cs' ps' n b' with _ | c2
      · simp [t2] at h2
      · simp only [t1, t2] at h1 h2
        have st := stepped_node n cs cs' ps ps' b b' c1 c2 hc hp h t1 t2
        exact st.trans (stepped_nodes ns cs cs' ps ps' c1 c2 b1 b1' hc hp st.faded h1 h2)
end

end Verif.Layout
