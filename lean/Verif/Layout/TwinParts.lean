/- The boxes of two documents that are the same up to some point: the containers. -/
import Verif.Layout.TwinBuild
namespace Verif.Layout
open Verif.Style Verif.Style.Spec Verif.Text Verif.Pdf Verif.Dom

/-! ### Inline boxes that are not placed by heights -/

theorem traverse_unmeasured : TraversalCases
    (fun _ _ n b b' => SameOutside b b' ∧ (n.All (fun s _ => NotByHeight s) → b.Unmeasured → b'.Unmeasured))
    (fun _ _ ns b b' => SameOutside b b' ∧ (nodesAll (fun s _ => NotByHeight s) ns → b.Unmeasured → b'.Unmeasured)) where
  ignored _ _ b := ⟨.refl b, fun _ => id⟩
  text _ _ t b := ⟨.handleText _ _ _, fun _ h => h.handleText _ _⟩
  none _ _ _ _ b _ := ⟨.refl b, fun _ => id⟩
  contents _ _ s _ _ _ hd h := ⟨h.1, fun hn => h.2 (all_element hn (by rw [hd]; simp)).2⟩
  inline cs ps s ch b b1 o rest hd h hs := by
    refine ⟨traverse_shape.inline cs ps s ch b b1 o rest hd h.1 hs, fun hn hb => ?_⟩
    obtain ⟨h1, h2⟩ := all_element hn (by rw [hd]; simp)
    have hb1 := h.2 h2 ⟨hb.ongoing, fun o ho => by
      rcases List.mem_cons.1 ho with rfl | ho
      · exact ⟨h1 hd, trivial⟩
      · exact hb.stack o ho⟩
    have hr : Builder.Unmeasured { b1 with stack := rest } := ⟨hb1.ongoing, fun o ho => hb1.stack o (by simp [hs, ho])⟩
    exact hr.setCurrent (inlineAll_append.2 ⟨hr.current, hb1.stack o (by simp [hs]), trivial⟩)
  absoluteInline cs ps s ch b inner c f i h1 h2 h3 h4 h5 :=
    ⟨.setCurrent _ _, fun _ hb => hb.setCurrent (inlineAll_append.2 ⟨hb.current, trivial, trivial⟩)⟩
  absoluteBlock cs ps s ch b inner c f i h1 h2 h3 h4 h5 :=
    ⟨traverse_shape.absoluteBlock cs ps s ch b inner c f i h1 h2 h3.1 h4 h5, fun _ hb => ⟨hb.ongoing, hb.stack⟩⟩
  floatInline cs ps s ch b inner c f i h1 h2 h2' h3 h4 h5 :=
    ⟨traverse_shape.floatInline cs ps s ch b inner c f i h1 h2 h2' h3.1 h4 h5, fun _ hb => by
      have hb' : Builder.Unmeasured { b with containsFloats := true } := ⟨hb.ongoing, hb.stack⟩
      exact hb'.setCurrent (inlineAll_append.2 ⟨hb'.current, trivial, trivial⟩)⟩
  floatBlock cs ps s ch b inner c f i h1 h2 h2' h3 h4 h5 :=
    ⟨traverse_shape.floatBlock cs ps s ch b inner c f i h1 h2 h2' h3.1 h4 h5, fun _ hb => ⟨hb.ongoing, hb.stack⟩⟩
  block cs ps s ch b b1 inner c f i h1 h2 h2' h0 h3 h4 := by
    refine ⟨traverse_shape.block cs ps s ch b b1 inner c f i h1 h2 h2' h0 h3.1 h4, fun _ hb => ?_⟩
    have := (endOngoing_wraps (splitInlines_eq h0).2).1 hb
    exact ⟨this.ongoing, this.stack⟩
  nil _ _ b := ⟨.refl b, fun _ => id⟩
  cons _ _ _ _ _ _ _ h1 h2 := ⟨h1.1.trans h2.1, fun hn hb => h2.2 hn.2 (h1.2 hn.1 hb)⟩

theorem Builder.Unmeasured.new : Builder.new.Unmeasured := ⟨trivial, by simp [Builder.new]⟩

/-! ### The common beginning -/

/-- The second builder has this more. -/
structure Reach (b B : Builder) (w : List Nat) : Prop where
  ink : inked (B.styled.map Prod.snd) = inked (b.styled.map Prod.snd) ++ inked w
  short : Short b B w
  only : BuilderOnly NoFloats b → BuilderOnly NoFloats B

theorem inked_append (a b : List Nat) : inked (a ++ b) = inked a ++ inked b := List.filter_append ..

theorem Reach.trans {b b1 b2 : Builder} {w w' : List Nat} (h : Reach b b1 w) (h' : Reach b1 b2 w') : Reach b b2 (w ++ w') :=
  ⟨by rw [h'.ink, h.ink, inked_append, List.append_assoc], h.short.trans h'.short, fun hb => h'.only (h.only hb)⟩

theorem traverse_reach {cs ps : ComputedValues} {ns : List StyledNode} {b b1 : Builder} (hn : nodesAll (fun s _ => InFlowStyle s) ns)
    (h : traverseNodes cs ps ns b = some b1) : Reach b b1 (visibleTexts ns) := by
  refine ⟨?_, traverseNodes_induct traverse_short _ _ _ _ _ h, fun hb => ?_⟩
  · have hk := (traverseNodes_induct (traverse_keeps fun _ => ()) _ _ _ _ _ h).2 (nodesContentsKeep_unit _ _) (fun _ _ _ => rfl)
    have hk := congrArg (List.map Prod.snd) hk.2
    rw [List.map_append, inkWith_unit, inkWith_unit, inkWith_unit, styledTexts_snd] at hk
    exact hk
  · exact (traverseNodes_induct traverse_only _ _ _ _ _ h).2
      (nodesAll_mono (fun s _ hs => .inr ⟨fun _ => by simp, fun h => absurd hs.2 h⟩) _ hn) hb

theorem Reach.open (b : Builder) (s : ComputedValues) : Reach b { b with stack := ⟨s, true, []⟩ :: b.stack } [] :=
  ⟨by simp [Builder.styled, stackStyled, inlinesStyledText, inked], fun _ _ => by simp [Builder.current, tailAll],
    fun hb => ⟨hb.blocks, hb.inlines, by simpa [inlinesOnly] using hb.stack⟩⟩

/-- The text of two containers that begin in the same way is the text before, but for a part of the last word of it. -/
def Nearly (seen before : List Nat) : Prop :=
  ∃ rest, inked before = inked seen ++ rest ∧ ∀ w0, rest.length ≤ (lastWord (w0 ++ before)).length

/-- Both builders begin in the same way. -/
inductive Parts (cs : ComputedValues) (b b1 b1' : Builder) (before : List Nat) : Prop
  | common (B : Builder) : Reach b B before → Later cs B b1 → Later cs B b1' → Parts cs b b1 b1' before
  | block (pre : List BlockLevelBox) (s : ComputedValues) (f f' : Option Bool) (c c' : BlockContainer) (a a' : List BlockLevelBox)
      (t : List (ComputedValues × Nat)) (w w' : List Nat) : before = w ++ w' → b1.blockLevelBoxes = pre ++ blockAround s f c :: a →
      b1'.blockLevelBoxes = pre ++ blockAround s f' c' :: a' → (f = none ↔ f' = none) → Begins c c' t →
      inked ((blocksStyledText pre).map Prod.snd) = inked (b.styled.map Prod.snd) ++ inked w →
      (BuilderOnly NoFloats b → blocksOnly NoFloats pre) → Nearly (t.map Prod.snd) w' → Parts cs b b1 b1' before

theorem Parts.later {cs : ComputedValues} {b b1 b1' b2 b2' : Builder} {before : List Nat} (h : Parts cs b b1 b1' before)
    (h1 : Later cs b1 b2) (h2 : Later cs b1' b2') : Parts cs b b2 b2' before := by
  cases h with
  | common B a1 a2 a3 => exact .common B a1 (a2.trans h1) (a3.trans h2)
  | block pre s f f' c c' a a' t w w' e0 e1 e2 e3 e4 e5 e6 e7 =>
    obtain ⟨m, hm⟩ := h1.blocks
    obtain ⟨m', hm'⟩ := h2.blocks
    exact .block pre s f f' c c' (a ++ m) (a' ++ m') t w w' e0 (by rw [hm, e1]; simp) (by rw [hm', e2]; simp) e3 e4 e5 e6 e7

theorem Parts.reach {cs : ComputedValues} {b b0 b1 b1' : Builder} {w before : List Nat} (h0 : Reach b b0 w) (h : Parts cs b0 b1 b1' before) :
    Parts cs b b1 b1' (w ++ before) := by
  cases h with
  | common B a1 a2 a3 => exact .common B (h0.trans a1) a2 a3
  | block pre s f f' c c' a a' t w1 w' e0 e1 e2 e3 e4 e5 e6 e7 =>
    exact .block pre s f f' c c' a a' t (w ++ w1) w' (by rw [e0, List.append_assoc]) e1 e2 e3 e4
      (by rw [e5, h0.ink, inked_append, List.append_assoc]) (fun hb => e6 (h0.only hb)) e7

/-- What is made of a builder in which there is more than in another one. -/
theorem finish_later {cs : ComputedValues} {B b1 : Builder} (h : Later cs B b1) (hs : b1.stack = []) (hu : b1.Unmeasured) {c : BlockContainer} {f : Bool}
    (hf : b1.finish cs = some (c, f)) :
    (B.pending = [] ∧ (B.blockLevelBoxes = [] ∨ ∃ r, c = .blockLevelBoxes (B.blockLevelBoxes ++ r))) ∨
    (∃ ys r, c = .blockLevelBoxes (B.blockLevelBoxes ++ anonymousBlock cs ys :: r) ∧ Grown B.pending ys) ∨
    (∃ ys, B.blockLevelBoxes = [] ∧ c = .inlineFormattingContext ys ∧ Grown B.pending ys ∧ inlineAll UnmeasuredStyle ys) := by
  have e := finish_some hs hf
  have hp := pending_stack hs
  rcases h with ⟨h, g⟩ | ⟨ys, more, h, g⟩ | ⟨g, more, h⟩
  · rw [hp] at g
    rw [h] at e
    by_cases ho : b1.ongoing = []
    · rw [if_pos ho] at e
      rw [ho] at g
      exact .inl ⟨g.of_nil, .inr ⟨[], by rw [e, List.append_nil]⟩⟩
    · rw [if_neg ho] at e
      by_cases hb : B.blockLevelBoxes = []
      · rw [if_pos hb] at e
        exact .inr (.inr ⟨_, hb, e, g, hu.ongoing⟩)
      · rw [if_neg hb] at e
        exact .inr (.inl ⟨_, [], e, g⟩)
  · refine .inr (.inl ?_)
    rw [h, if_neg (c := B.blockLevelBoxes ++ anonymousBlock cs ys :: more = []) (by simp)] at e
    by_cases ho : b1.ongoing = []
    · rw [if_pos ho] at e
      exact ⟨ys, more, e, g⟩
    · rw [if_neg ho] at e
      exact ⟨ys, more ++ [anonymousBlock cs b1.ongoing], by rw [e]; simp, g⟩
  · refine .inl ⟨g, ?_⟩
    by_cases hb : B.blockLevelBoxes = []
    · exact .inl hb
    · right
      rw [h, if_neg (c := B.blockLevelBoxes ++ more = []) (by simp [hb])] at e
      by_cases ho : b1.ongoing = []
      · rw [if_pos ho] at e
        exact ⟨more, e⟩
      · rw [if_neg ho] at e
        exact ⟨more ++ [anonymousBlock cs b1.ongoing], by rw [e]; simp⟩

theorem anonymous_around (cs : ComputedValues) (ys : List InlineLevelBox) :
    anonymousBlock cs ys = blockAround (fade cs) none (.inlineFormattingContext ys) := rfl

theorem common_begins {cs : ComputedValues} {B b1 b1' : Builder} (h : Later cs B b1) (h' : Later cs B b1') (hs : b1.stack = []) (hs' : b1'.stack = [])
    (hu : b1.Unmeasured) (hu' : b1'.Unmeasured) {c c' : BlockContainer} {f f' : Bool}
    (hf : b1.finish cs = some (c, f)) (hf' : b1'.finish cs = some (c', f')) :
    Begins c c' ((blocksRuns B.blockLevelBoxes).flatten ++ safeAll B.pending) := by
  rcases finish_later h hs hu hf with ⟨p, e⟩ | ⟨ys, r, e, g⟩ | ⟨ys, hb, e, g, u⟩ <;>
    rcases finish_later h' hs' hu' hf' with ⟨p', e'⟩ | ⟨ys', r', e', g'⟩ | ⟨ys', hb', e', g', u'⟩
  · rw [p, safeAll, List.append_nil]
    by_cases hb : B.blockLevelBoxes = []
    · rw [hb]
      exact .nothing
    · obtain ⟨r, rfl⟩ := e.resolve_left hb
      obtain ⟨r', rfl⟩ := e'.resolve_left hb
      exact .here
  · rw [p, safeAll, List.append_nil]
    by_cases hb : B.blockLevelBoxes = []
    · rw [hb]
      exact .nothing
    · obtain ⟨r, rfl⟩ := e.resolve_left hb
      rw [e']
      exact .here
  · rw [p, safeAll, List.append_nil, hb']
    exact .nothing
  · rw [p', safeAll, List.append_nil]
    by_cases hb : B.blockLevelBoxes = []
    · rw [hb]
      exact .nothing
    · obtain ⟨r', rfl⟩ := e'.resolve_left hb
      rw [e]
      exact .here
  · rw [e, e', anonymous_around, anonymous_around]
    exact .inside Iff.rfl (.lines (g.twin g'))
  · rw [e, e', hb', anonymousBlock]
    exact .removed (bare_fade cs) u' (g.twin g')
  · rw [p', safeAll, List.append_nil, hb]
    exact .nothing
  · rw [e, e', hb, anonymousBlock]
    exact .added (bare_fade cs) u (g.twin g')
  · rw [e, e', hb]
    exact .lines (g.twin g')

theorem Parts.begins {cs : ComputedValues} {b1 b1' : Builder} {before : List Nat} (h : Parts cs Builder.new b1 b1' before)
    (hs : b1.stack = []) (hs' : b1'.stack = []) (hu : b1.Unmeasured) (hu' : b1'.Unmeasured) {c c' : BlockContainer} {f f' : Bool}
    (hf : b1.finish cs = some (c, f)) (hf' : b1'.finish cs = some (c', f')) : ∃ t, Begins c c' t ∧ Nearly (t.map Prod.snd) before := by
  have e0 : inked (Builder.new.styled.map Prod.snd) = [] := rfl
  cases h with
  | common B a1 a2 a3 =>
    refine ⟨_, common_begins a2 a3 hs hs' hu hu' hf hf', inked (tailAll B.pending), ?_, fun w0 => ?_⟩
    · have ho := a1.only .new
      have := a1.ink
      rw [e0, List.nil_append] at this
      rw [← this, ← inked_append, pending_styled, ← blocksRuns_flatten _ ho.blocks, ← inlinesRuns_flatten _ ho.pending, List.map_append, List.map_append,
        ← safeAll_tail, List.append_assoc]
    · refine Nat.le_trans (List.length_filter_le _ _) ?_
      rw [Builder.pending, nest_tail]
      exact a1.short w0 (by simp [Builder.current, Builder.new, tailAll])
  | block pre s f1 f1' c1 c1' a a' t w w' e0' e1 e2 e3 e4 e5 e6 e7 =>
    have k : ∀ {b : Builder} {x : BlockLevelBox} {a : List BlockLevelBox} {c : BlockContainer} {f : Bool}, b.stack = [] →
        b.blockLevelBoxes = pre ++ x :: a → b.finish cs = some (c, f) → ∃ r, c = .blockLevelBoxes (pre ++ x :: r) := by
      intro b x a c f hs hb hf
      have e := finish_some hs hf
      rw [hb, if_neg (c := pre ++ x :: a = []) (by simp)] at e
      split at e
      · exact ⟨_, e⟩
      · exact ⟨a ++ [anonymousBlock cs b.ongoing], by rw [e]; simp⟩
    obtain ⟨r, rfl⟩ := k hs e1 hf
    obtain ⟨r', rfl⟩ := k hs' e2 hf'
    refine ⟨_, .inside e3 e4, ?_⟩
    obtain ⟨rest, n1, n2⟩ := e7
    rw [e0, List.nil_append] at e5
    refine ⟨rest, ?_, fun w0 => ?_⟩
    · rw [e0', inked_append, n1, List.map_append, inked_append, blocksRuns_flatten _ (e6 .new), e5, List.append_assoc]
    · rw [e0', ← List.append_assoc]
      exact n2 _

theorem nodesAll_element {P : ComputedValues → List StyledNode → Prop} {pre a : List StyledNode} {n : StyledNode} (h : nodesAll P (pre ++ n :: a)) :
    nodesAll P pre ∧ n.All P ∧ nodesAll P a := ⟨(nodesAll_split h).1, (nodesAll_split h).2.1, (nodesAll_split h).2.2⟩

theorem handleText_append (b : Builder) (t u : List Nat) (ps : ComputedValues) : b.handleText (t ++ u) ps = (b.handleText t ps).handleText u ps := by
  induction t generalizing b with
  | nil => rw [handleText_nil]; rfl
  | cons c t ih => rw [List.cons_append, handleText_cons, ih, ← handleText_cons]

theorem traverse_step {cs ps : ComputedValues} {pre a : List StyledNode} {n : StyledNode} {b b1 : Builder}
    (h : traverseNodes cs ps (pre ++ n :: a) b = some b1) :
    ∃ b0 m, traverseNodes cs ps pre b = some b0 ∧ traverseNode cs ps n b0 = some m ∧ Later cs m b1 := by
  obtain ⟨b0, h1, h2⟩ := traverse_append _ _ _ _ h
  simp only [traverseNodes] at h2
  rcases t : traverseNode cs ps n b0 with _ | m
  · simp [t] at h2
  · simp only [t] at h2
    exact ⟨b0, m, h1, t, traverseNodes_induct traverse_later _ _ _ _ _ h2⟩

/-- Two lists of nodes that are the same up to some point. -/
theorem SameUntil.parts {nodes nodes' : List StyledNode} {before : List Nat} (h : SameUntil nodes nodes' before) :
    ∀ (cs ps : ComputedValues) (b b1 b1' : Builder), nodesAll (fun s _ => InFlowStyle s) nodes → nodesAll (fun s _ => InFlowStyle s) nodes' →
      nodesAll (fun s _ => NotByHeight s) nodes → nodesAll (fun s _ => NotByHeight s) nodes' →
      traverseNodes cs ps nodes b = some b1 → traverseNodes cs ps nodes' b = some b1' → Parts cs b b1 b1' before := by
  induction h with
  | @here pre a a' =>
    intro cs ps b b1 b1' hi hi' _ _ t t'
    obtain ⟨B, h1, h2⟩ := traverse_append _ _ _ _ t
    obtain ⟨B', h1', h2'⟩ := traverse_append _ _ _ _ t'
    cases h1.symm.trans h1'
    exact .common B (traverse_reach (nodesAll_split hi).1 h1) (traverseNodes_induct traverse_later _ _ _ _ _ h2)
      (traverseNodes_induct traverse_later _ _ _ _ _ h2')
  | @text pre w u u' a a' =>
    intro cs ps b b1 b1' hi hi' _ _ t t'
    obtain ⟨B, m, h1, h2, h3⟩ := traverse_step t
    obtain ⟨B', m', h1', h2', h3'⟩ := traverse_step t'
    cases h1.symm.trans h1'
    simp only [traverseNode, Option.some.injEq] at h2 h2'
    subst h2 h2'
    rw [handleText_append] at h3 h3'
    refine .common (B.handleText w ps) ?_ ((Later.handleText _ _ _ _).trans h3) ((Later.handleText _ _ _ _).trans h3')
    have hr := traverse_reach (nodesAll_split hi).1 h1
    have hr' := traverse_reach (cs := cs) (ps := ps) (ns := [.text w]) (b := B) ⟨trivial, trivial⟩ rfl
    simpa [visibleTexts, StyledNode.visibleText] using hr.trans hr'
  | @inside pre s ch ch' a a' w hd _ ih =>
    intro cs ps b b1 b1' hi hi' hn hn' t t'
    obtain ⟨B, m, h1, h2, h3⟩ := traverse_step t
    obtain ⟨B', m', h1', h2', h3'⟩ := traverse_step t'
    cases h1.symm.trans h1'
    obtain ⟨i1, i2, -⟩ := nodesAll_element hi
    obtain ⟨-, i2', -⟩ := nodesAll_element hi'
    obtain ⟨-, n2, -⟩ := nodesAll_element hn
    obtain ⟨-, n2', -⟩ := nodesAll_element hn'
    obtain ⟨is, ic⟩ := all_element i2 hd
    obtain ⟨-, ic'⟩ := all_element i2' hd
    obtain ⟨-, nc⟩ := all_element n2 hd
    obtain ⟨-, nc'⟩ := all_element n2' hd
    refine Parts.reach (traverse_reach i1 h1) (Parts.later ?_ h3 h3')
    rcases hds : displayOf s with _ | _ | ⟨outside, inside⟩
    · exact absurd hds hd
    · simp only [traverseNode, hds] at h2 h2'
      exact ih _ _ _ _ _ ic ic' nc nc' h2 h2'
    · cases outside with
      | inline =>
        cases inside with
        | flowRoot => simp [traverseNode, hds] at h2
        | flow =>
          simp only [traverseNode, hds] at h2 h2'
          rcases k : traverseNodes cs s ch { B with stack := ⟨s, true, []⟩ :: B.stack } with _ | x
          · simp [k] at h2
          rcases k' : traverseNodes cs s ch' { B with stack := ⟨s, true, []⟩ :: B.stack } with _ | x'
          · simp [k'] at h2'
          simp only [k, k'] at h2 h2'
          rcases q : x.stack with _ | ⟨o, rest⟩
          · simp [q] at h2
          rcases q' : x'.stack with _ | ⟨o', rest'⟩
          · simp [q'] at h2'
          simp only [q, q', Option.some.injEq] at h2 h2'
          subst h2 h2'
          exact ((ih _ _ _ _ _ ic ic' nc nc' k k').reach (Reach.open B s)).later (.close cs q) (.close cs q')
      | block =>
        have hb : BlockInFlow s := ⟨⟨inside, hds⟩, is⟩
        obtain ⟨b0, inner, c, fl, x, fg, -, k1, k2, k3, rfl, k4⟩ := traverse_block hb h2
        obtain ⟨b0', inner', c', fl', x', fg', -, k1', k2', k3', rfl, k4'⟩ := traverse_block hb h2'
        cases k1.symm.trans k1'
        obtain rfl := k4.trans (blockAround_of hb fl c)
        obtain rfl := k4'.trans (blockAround_of hb fl' c')
        have hs1 := traverse_stack rfl k2
        have hs2 := traverse_stack rfl k2'
        obtain ⟨t, g1, g2⟩ := (ih _ _ _ _ _ ic ic' nc nc' k2 k2').begins hs1 hs2
          ((traverseNodes_induct traverse_unmeasured _ _ _ _ _ k2).2 nc .new) ((traverseNodes_induct traverse_unmeasured _ _ _ _ _ k2').2 nc' .new) k3 k3'
        refine .block b0.blockLevelBoxes s _ _ c c' [] [] t [] w rfl rfl rfl ?_ g1 ?_ (fun hB => (hB.endOngoing k1).blocks) g2
        · split <;> simp
        · obtain ⟨-, e1, e2, -⟩ := endOngoing_some k1
          have := (endOngoing_styled k1).1
          simp only [Builder.styled, e1, e2, stackStyled, inlinesStyledText, List.append_nil] at this
          rw [this]
          simp [inked, Builder.styled]

theorem SameUntil.begins {nodes nodes' : List StyledNode} {before : List Nat} (h : SameUntil nodes nodes' before) (s : ComputedValues)
    (c c' : BlockContainer) (f f' : Bool) (hi : nodesAll (fun s _ => InFlowStyle s) nodes) (hi' : nodesAll (fun s _ => InFlowStyle s) nodes')
    (hn : nodesAll (fun s _ => NotByHeight s) nodes) (hn' : nodesAll (fun s _ => NotByHeight s) nodes')
    (h1 : constructContainer s nodes = some (c, f)) (h2 : constructContainer s nodes' = some (c', f')) :
    ∃ t, Begins c c' t ∧ Nearly (t.map Prod.snd) before := by
  unfold constructContainer at h1 h2
  rcases k : traverseNodes s s nodes Builder.new with _ | b
  · simp [k] at h1
  rcases k' : traverseNodes s s nodes' Builder.new with _ | b'
  · simp [k'] at h2
  simp only [k, k'] at h1 h2
  exact (h.parts _ _ _ _ _ hi hi' hn hn' k k').begins (traverse_stack rfl k) (traverse_stack rfl k')
    ((traverseNodes_induct traverse_unmeasured _ _ _ _ _ k).2 hn .new) ((traverseNodes_induct traverse_unmeasured _ _ _ _ _ k').2 hn' .new) h1 h2

theorem constructRoot_begins {s : ComputedValues} (hd : displayOf s ≠ .none) (hs : InFlowStyle s)
    {nodes nodes' : List StyledNode} {before : List Nat} (h : SameUntil nodes nodes' before)
    (hi : nodesAll (fun s _ => InFlowStyle s) nodes) (hi' : nodesAll (fun s _ => InFlowStyle s) nodes')
    (hn : nodesAll (fun s _ => NotByHeight s) nodes) (hn' : nodesAll (fun s _ => NotByHeight s) nodes') {r r' : BlockFormattingContext}
    (h1 : constructRoot s nodes = some r) (h2 : constructRoot s nodes' = some r') :
    ∃ t, Begins r.contents r'.contents t ∧ Nearly (t.map Prod.snd) before := by
  have hp : (positionOf s).isAbsolutelyPositioned = false := by
    rcases hq : positionOf s with _ | _ | _ <;> first | rfl | exact absurd hq hs.1
  have hfl : (floatOf s).isFloating = false := by rw [hs.2]; rfl
  unfold constructRoot at h1 h2
  simp only [hp, hfl, Bool.false_eq_true, if_false] at h1 h2
  rcases hd' : displayOf s with _ | _ | ⟨o, i⟩ <;> simp only [hd'] at h1 h2
  · exact absurd hd' hd
  all_goals
    rcases c1 : constructContainer s nodes with _ | ⟨c, f⟩
    · simp [c1] at h1
    rcases c2 : constructContainer s nodes' with _ | ⟨c', f'⟩
    · simp [c2] at h2
    obtain ⟨t, g1, g2⟩ := h.begins s _ _ _ _ hi hi' hn hn' c1 c2
    simp only [c1, c2] at h1 h2
    cases h1
    cases h2
    exact ⟨_, .inside (pre := []) (f := some f) (f' := some f') (a := []) (b := []) (by simp) g1, by simpa [blocksRuns] using g2⟩

theorem Nearly.prefix {seen before : List Nat} (h : Nearly seen before) : inked (beforeLastWord before) <+: inked seen ∧ inked seen <+: inked before := by
  obtain ⟨rest, h1, h2⟩ := h
  have h3 := h2 []
  rw [List.nil_append] at h3
  have e : inked before = inked (beforeLastWord before) ++ lastWord before := by
    rw [← lastWord_ink before, ← inked_append, beforeLastWord_append]
  refine ⟨?_, rest, h1.symm⟩
  refine List.prefix_of_prefix_length_le (l₃ := inked before) ⟨lastWord before, e.symm⟩ ⟨rest, h1.symm⟩ ?_
  have e1 := congrArg List.length e
  have e2 := congrArg List.length h1
  simp only [List.length_append] at e1 e2
  omega

end Verif.Layout
