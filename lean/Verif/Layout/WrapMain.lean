/- The boxes of a document to which blocks are added that have nothing of their own. -/
import Verif.Layout.WrapBuild
namespace Verif.Layout
open Verif.Style

/-! ### Nodes that make boxes -/

/-- There is a box in the builder. -/
def Builder.Occupied (b : Builder) : Prop := b.blockLevelBoxes ≠ [] ∨ b.ongoing ≠ [] ∨ b.stack ≠ []

theorem occupied_setCurrent (b : Builder) {xs : List InlineLevelBox} (hx : xs ≠ []) : (b.setCurrent xs).Occupied := by
  unfold Builder.setCurrent
  split
  · exact .inr (.inr (by simp))
  · exact .inr (.inl hx)

theorem appendText_ne_nil (ps : ComputedValues) (out : List Nat) (bs : List InlineLevelBox) : appendText ps out bs ≠ [] := by
  intro h
  have := appendText_cases ps out bs
  rcases this with e | ⟨pre, s, t, -, e⟩ <;> rw [e] at h <;> simp at h

theorem dropWhile_nil : ∀ l : List Nat, l.dropWhile isAsciiWhitespace = [] → l.all isAsciiWhitespace = true
  | [], _ => rfl
  | c :: l, h => by
    rw [List.dropWhile_cons] at h
    split at h
    · rename_i hc
      simp only [List.all_cons, hc, Bool.true_and]
      exact dropWhile_nil l h
    · cases h

mutual
theorem occupied_node : ∀ (n : StyledNode) (cs ps : ComputedValues) (b b1 : Builder), b.Occupied ∨ n.Occupies → traverseNode cs ps n b = some b1 →
    b1.Occupied
  | .ignored => by
    intro cs ps b b1 hn h
    simp only [traverseNode] at h
    cases h
    exact hn.resolve_right id
  | .text t => by
    intro cs ps b b1 hn h
    simp only [traverseNode] at h
    cases h
    simp only [Builder.handleText]
    split
    · exact occupied_setCurrent _ (appendText_ne_nil _ _ _)
    · rename_i hc
      refine hn.resolve_right fun ho => hc ?_
      simp only [StyledNode.Occupies] at ho
      have : (b.handleLeadingWhitespace t).2 ≠ [] := by
        intro hnil
        cases t with
        | nil => cases ho
        | cons c t =>
          simp only [Builder.handleLeadingWhitespace] at hnil
          split at hnil
          · rw [dropWhile_nil _ hnil] at ho
            cases ho
          · cases hnil
      simp [this]
  | .element s children => by
    intro cs ps b b1 hn h
    simp only [traverseNode] at h
    simp only [StyledNode.Occupies] at hn
    rcases hd : displayOf s with _ | _ | ⟨outside, inside⟩ <;> simp only [hd] at h hn
    · cases h
      simpa using hn
    · exact occupied_nodes children cs s b b1 (.inl (by simpa using hn)) h
    · cases outside with
      | inline =>
        cases inside with
        | flowRoot => cases h
        | flow =>
          simp only at h
          split at h
          · cases h
          · split at h
            · cases h
            · cases h
              exact occupied_setCurrent _ (by simp)
      | block =>
        simp only at h
        split at h
        · split at h
          · cases h
          · split at h
            · cases h
            · split at h
              · cases h
                exact occupied_setCurrent _ (by simp)
              · cases h
                exact .inl (by simp)
        · split at h
          · split at h
            · cases h
            · split at h
              · cases h
              · split at h
                · cases h
                  exact occupied_setCurrent _ (by simp)
                · cases h
                  exact .inl (by simp)
          · split at h
            · cases h
            · split at h
              · cases h
              · split at h
                · cases h
                · cases inside <;> cases h <;> exact .inl (by simp)
theorem occupied_nodes : ∀ (ns : List StyledNode) (cs ps : ComputedValues) (b b1 : Builder), b.Occupied ∨ (∃ n ∈ ns, n.Occupies) →
    traverseNodes cs ps ns b = some b1 → b1.Occupied
  | [] => by
    intro cs ps b b1 hn h
    simp only [traverseNodes] at h
    cases h
    simpa using hn
  | n :: ns => by
    intro cs ps b b1 hn h
    simp only [traverseNodes] at h
    rcases t : traverseNode cs ps n b with _ | c
    · simp [t] at h
    · simp only [t] at h
      refine occupied_nodes ns cs ps c b1 ?_ h
      rcases hn with hn | ⟨m, hm, ho⟩
      · exact .inl (occupied_node n cs ps b c (.inl hn) t)
      · rcases List.mem_cons.1 hm with e | hm
        · rw [e] at ho
          exact .inl (occupied_node n cs ps b c (.inr ho) t)
        · exact .inr ⟨m, hm, ho⟩
end

/-! ### The two constructions -/

/-- The anonymous block around the ongoing inline boxes. -/
def anonymousBlock (cs : ComputedValues) (xs : List InlineLevelBox) : BlockLevelBox := .sameFormattingContextBlock (fade cs) (.inlineFormattingContext xs)

/-- Both builders are at the same point. -/
structure Together (pre : List BlockLevelBox) (rest : List StyledNode) (b b' : Builder) : Prop where
  blocks : ∃ y, b.blockLevelBoxes = pre ++ y ∧ WrapL y b'.blockLevelBoxes
  ongoing : fadeInlines b.ongoing = fadeInlines b'.ongoing
  early : b.blockLevelBoxes = [] → b'.blockLevelBoxes ≠ [] → inlineAll UnmeasuredStyle b.ongoing ∧ nodesUnmeasured rest

/-- The second builder is at the end of a block, where the first has inline boxes that are ongoing. -/
structure Ahead (P : ComputedValues) (pre : List BlockLevelBox) (rest : List StyledNode) (b b' : Builder) : Prop where
  blocks : ∃ y, b.blockLevelBoxes = pre ++ y ∧ WrapL (y ++ [anonymousBlock P b.ongoing]) b'.blockLevelBoxes
  ongoing : b.ongoing ≠ []
  ended : b'.ongoing = []
  unmeasured : inlineAll UnmeasuredStyle b.ongoing
  rest : rest = [] ∨ BeginsWithBlock rest

/-- What is known of the two builders, before the rest of the nodes of the first is visited. -/
structure BuildersAlike (P : ComputedValues) (pre : List BlockLevelBox) (fresh : Bool) (rest : List StyledNode) (b b' : Builder) : Prop where
  stack : b.stack = []
  stack' : b'.stack = []
  fresh : fresh = true → b.ongoing = []
  state : Together pre rest b b' ∨ Ahead P pre rest b b'

/-- What is to be shown of nodes. -/
def RunsAlike (Q : ComputedValues) (fresh : Bool) (nodes nodes' : List StyledNode) : Prop :=
  ∀ (P : ComputedValues), look P = look Q → ∀ pre b b' b1 b1', b.stack = [] → b'.stack = [] → (fresh = true → b.ongoing = []) →
    Together pre nodes b b' → traverseNodes P P nodes b = some b1 → traverseNodes Q Q nodes' b' = some b1' →
    BuildersAlike P pre (freshAfter fresh nodes) [] b1 b1'

theorem endOngoing_total {b : Builder} (hs : b.stack = []) (cs : ComputedValues) : ∃ b0, b.endOngoing cs = some b0 := by
  simp only [Builder.endOngoing, hs, List.isEmpty_nil, Bool.not_true, Bool.false_eq_true, if_false]
  split <;> exact ⟨_, rfl⟩

/-- The inline boxes that are ongoing are at their end too. -/
theorem Ahead.ended_together {P : ComputedValues} {pre : List BlockLevelBox} {rest : List StyledNode} {b b' b0 : Builder} (h : Ahead P pre rest b b')
    (he : b.endOngoing P = some b0) : Together pre rest b0 b' ∧ b0.blockLevelBoxes = b.blockLevelBoxes ++ [anonymousBlock P b.ongoing] ∧
      b0.ongoing = [] ∧ b0.stack = [] := by
  obtain ⟨-, h2, h3, h4⟩ := endOngoing_some he
  rw [if_neg h.ongoing] at h4
  obtain ⟨y, hy, hw⟩ := h.blocks
  refine ⟨⟨⟨y ++ [anonymousBlock P b.ongoing], ?_, hw⟩, by rw [h3, h.ended], fun hn => ?_⟩, h4, h3, h2⟩
  · rw [h4, hy, List.append_assoc]
    rfl
  · rw [h4] at hn
    simp at hn

theorem RunsAlike.from {P Q : ComputedValues} {fresh : Bool} {nodes nodes' : List StyledNode} (h : RunsAlike Q fresh nodes nodes')
    (hl : look P = look Q) {pre : List BlockLevelBox} {b b' b1 b1' : Builder} (ha : BuildersAlike P pre fresh nodes b b')
    (h1 : traverseNodes P P nodes b = some b1) (h2 : traverseNodes Q Q nodes' b' = some b1') :
    BuildersAlike P pre (freshAfter fresh nodes) [] b1 b1' := by
  rcases ha.state with hs | hs
  · exact h P hl pre b b' b1 b1' ha.stack ha.stack' ha.fresh hs h1 h2
  · obtain ⟨b0, he⟩ := endOngoing_total ha.stack P
    obtain ⟨t1, t2, t3, t4⟩ := hs.ended_together he
    rcases hs.rest with rfl | hb
    · simp only [traverseNodes] at h1
      cases h1
      have hr := h P hl pre b0 b' b0 b1' t4 ha.stack' (fun _ => t3) t1 rfl h2
      rcases hr.state with hr' | hr'
      · refine ⟨ha.stack, hr.stack', ha.fresh, .inr ⟨?_, hs.ongoing, ?_, hs.unmeasured, .inl rfl⟩⟩
        · obtain ⟨y, hy, -⟩ := hs.blocks
          obtain ⟨z, hz, hw⟩ := hr'.blocks
          rw [t2, hy, List.append_assoc] at hz
          rw [← List.append_cancel_left hz] at hw
          exact ⟨y, hy, hw⟩
        · have := hr'.ongoing
          rw [t3] at this
          exact fadeInlines_eq_nil.1 this.symm
      · exact absurd t3 hr'.ongoing
    · rw [begins_ended hb ha.stack he] at h1
      exact h P hl pre b0 b' b1 b1' t4 ha.stack' (fun _ => t3) t1 h1 h2

theorem finish_some {b : Builder} {cs : ComputedValues} (hs : b.stack = []) {c : BlockContainer} {f : Bool} (h : b.finish cs = some (c, f)) :
    c = if b.ongoing = [] then .blockLevelBoxes b.blockLevelBoxes
      else if b.blockLevelBoxes = [] then .inlineFormattingContext b.ongoing
      else .blockLevelBoxes (b.blockLevelBoxes ++ [anonymousBlock cs b.ongoing]) := by
  simp only [Builder.finish, List.isEmpty_iff] at h
  split at h
  · rename_i ho
    cases h
    rw [if_pos ho]
  · rename_i ho
    rw [if_neg ho]
    split at h
    · rename_i hb
      cases h
      rw [if_pos hb]
    · rename_i hb
      rw [if_neg hb]
      obtain ⟨b0, he⟩ := endOngoing_total hs cs
      simp only [he] at h
      cases h
      have := (endOngoing_some he).2.2.2
      rw [if_neg ho] at this
      rw [this]
      rfl

/-- The contents of the blocks. -/
theorem finish_alike {P Q : ComputedValues} (hl : look P = look Q) {fresh : Bool} {b b' : Builder} (h : BuildersAlike P [] fresh [] b b')
    {c c' : BlockContainer} {f f' : Bool} (h1 : b.finish P = some (c, f)) (h2 : b'.finish Q = some (c', f')) : WrapC c c' := by
  rw [finish_some h.stack h1, finish_some h.stack' h2]
  rcases h.state with hs | hs
  · obtain ⟨y, hy, hw⟩ := hs.blocks
    rw [List.nil_append] at hy
    rw [← hy] at hw
    have hone : b.ongoing ≠ [] → WrapL [anonymousBlock P b.ongoing] [anonymousBlock Q b'.ongoing] := by
      intro _
      rw [anonymousBlock, anonymousBlock, fade_eq hl]
      exact .one (.same (.inl rfl) (.inlines hs.ongoing))
    by_cases ho : b.ongoing = []
    · have ho' : b'.ongoing = [] := by
        have := hs.ongoing
        rw [ho] at this
        exact fadeInlines_eq_nil.1 this.symm
      rw [if_pos ho, if_pos ho']
      exact .boxes hw
    · have ho' : b'.ongoing ≠ [] := by
        intro hn
        have := hs.ongoing
        rw [hn] at this
        exact ho (fadeInlines_eq_nil.1 this)
      rw [if_neg ho, if_neg ho']
      by_cases hb' : b'.blockLevelBoxes = []
      · have hb : b.blockLevelBoxes = [] := by
          rw [hb'] at hw
          exact hw.to_nil
        rw [if_pos hb, if_pos hb']
        exact .inlines hs.ongoing
      · rw [if_neg hb']
        by_cases hb : b.blockLevelBoxes = []
        · rw [if_pos hb]
          rw [hb] at hw
          exact .unwrap (bare_fade P) (hs.early hb hb').1 (hw.append (hone ho))
        · rw [if_neg hb]
          exact .boxes (hw.append (hone ho))
  · obtain ⟨y, hy, hw⟩ := hs.blocks
    rw [List.nil_append] at hy
    rw [← hy] at hw
    rw [if_neg hs.ongoing, if_pos hs.ended]
    by_cases hb : b.blockLevelBoxes = []
    · rw [if_pos hb]
      rw [hb] at hw
      exact .unwrap (bare_fade P) hs.unmeasured hw
    · rw [if_neg hb]
      exact .boxes hw

/-- What the construction of a block in flow gives. -/
theorem traverse_block {cs ps s : ComputedValues} {children : List StyledNode} {b b1 : Builder} (hb : BlockInFlow s)
    (h : traverseNode cs ps (.element s children) b = some b1) :
    ∃ b0 inner contents floats x f, b.stack = [] ∧ b.endOngoing cs = some b0 ∧ traverseNodes s s children Builder.new = some inner ∧
      inner.finish s = some (contents, floats) ∧ b1 = { b0 with blockLevelBoxes := b0.blockLevelBoxes ++ [x], containsFloats := f } ∧
      x = (match displayOf s with
        | .generatingBox .block .flowRoot => .independent s floats contents
        | _ => .sameFormattingContextBlock s contents) := by
  obtain ⟨⟨inside, hd⟩, hp, hf⟩ := hb
  have hp' : (positionOf s).isAbsolutelyPositioned = false := by
    rcases hq : positionOf s with _ | _ | _ <;> first | rfl | exact absurd hq hp
  have hfl : (floatOf s).isFloating = false := by rw [hf]; rfl
  simp only [traverseNode, hd, hp', hfl, Bool.false_eq_true, if_false] at h
  split at h
  · cases h
  · rename_i b0 he
    split at h
    · cases h
    · rename_i inner hi
      split at h
      · cases h
      · rename_i contents floats hfin
        obtain ⟨e1, e2⟩ := splitInlines_eq he
        cases inside with
        | flow =>
          cases h
          exact ⟨b0, inner, contents, floats, _, _, e1, e2, hi, hfin, rfl, by rw [hd]⟩
        | flowRoot =>
          cases h
          exact ⟨b0, inner, contents, floats, _, _, e1, e2, hi, hfin, rfl, by rw [hd]⟩

theorem traverse_append {cs ps : ComputedValues} : ∀ (ns ms : List StyledNode) (b b1 : Builder), traverseNodes cs ps (ns ++ ms) b = some b1 →
    ∃ b2, traverseNodes cs ps ns b = some b2 ∧ traverseNodes cs ps ms b2 = some b1
  | [], _, b, _, h => ⟨b, rfl, h⟩
  | n :: ns, ms, b, b1, h => by
    simp only [List.cons_append, traverseNodes] at h ⊢
    rcases t : traverseNode cs ps n b with _ | c
    · simp [t] at h
    · simp only [t] at h
      exact traverse_append ns ms c b1 h

theorem freshAfter_append : ∀ (ns ms : List StyledNode) (f : Bool), freshAfter f (ns ++ ms) = freshAfter (freshAfter f ns) ms
  | [], _, _ => rfl
  | n :: ns, ms, f => by
    simp only [List.cons_append, freshAfter]
    exact freshAfter_append ns ms _

theorem together_faded {pre : List BlockLevelBox} {rest : List StyledNode} {b b' : Builder} (h : Together pre rest b b') (h1 : b.stack = [])
    (h2 : b'.stack = []) : b.Faded b' := ⟨h.ongoing, by rw [h1, h2]⟩

/-- The boxes that the two documents have in a block. -/
theorem runs_alike {Q : ComputedValues} {fresh : Bool} {nodes nodes' : List StyledNode} (h : BlocksAdded Q fresh nodes nodes') :
    RunsAlike Q fresh nodes nodes' := by
  induction h with
  | nil =>
    intro P hl pre b b' b1 b1' s1 s2 hf ht h1 h2
    simp only [traverseNodes] at h1 h2
    cases h1
    cases h2
    exact ⟨s1, s2, hf, .inl ht⟩
  | @same Q fresh n ns ns' hn hr ih =>
    intro P hl pre b b' b1 b1' s1 s2 hf ht h1 h2
    simp only [traverseNodes] at h1 h2
    rcases t1 : traverseNode P P n b with _ | c
    · simp [t1] at h1
    · rcases t2 : traverseNode Q Q n b' with _ | c'
      · simp [t2] at h2
      · simp only [t1, t2] at h1 h2
        have st := stepped_node n P Q P Q b b' c c' hl hl (together_faded ht s1 s2) t1 t2
        have hfr : n.fresh fresh = true → c.ongoing = [] := fresh_node s1 hf t1
        refine ih P hl pre c c' b1 b1' (traverse_stack_node s1 t1) (traverse_stack_node s2 t2) hfr ⟨?_, st.faded.ongoing, fun hn1 hn2 => ?_⟩ h1 h2
        · obtain ⟨y, hy, hw⟩ := ht.blocks
          obtain ⟨e, e', a1, a2, -, a3⟩ := st.blocks
          exact ⟨y ++ e, by rw [a1, hy, List.append_assoc], by rw [a2]; exact hw.append a3⟩
        · obtain ⟨e, e', a1, a2, al, -⟩ := st.blocks
          rw [a1] at hn1
          rw [a2] at hn2
          obtain ⟨hb, he⟩ := List.append_eq_nil_iff.1 hn1
          have he' : e' = [] := by
            rw [he] at al
            exact List.eq_nil_of_length_eq_zero al.symm
          rw [he', List.append_nil] at hn2
          obtain ⟨hu, hun⟩ := ht.early hb hn2
          have ha := adds_node n P P b c hun.1 t1
          exact ⟨(ha.1 ⟨hu, by simp [s1]⟩).ongoing, hun.2⟩
  | @inside Q fresh s children children' ns ns' hb hc hr ihc ihr =>
    intro P hl pre b b' b1 b1' s1 s2 hf ht h1 h2
    simp only [traverseNodes] at h1 h2
    rcases t1 : traverseNode P P (.element s children) b with _ | c
    · simp [t1] at h1
    · rcases t2 : traverseNode Q Q (.element s children') b' with _ | c'
      · simp [t2] at h2
      · simp only [t1, t2] at h1 h2
        obtain ⟨b0, inner, contents, floats, x, f, -, e1, i1, f1, rfl, hx⟩ := traverse_block hb t1
        obtain ⟨b0', inner', contents', floats', x', f', -, e1', i1', f1', rfl, hx'⟩ := traverse_block hb t2
        have hin := ihc s rfl [] Builder.new Builder.new inner inner' rfl rfl (fun _ => rfl) ⟨⟨[], rfl, .nil⟩, rfl, fun _ hn => absurd rfl hn⟩ i1 i1'
        have hcon := finish_alike rfl hin f1 f1'
        have st := ended_stepped hl (together_faded ht s1 s2) e1 e1'
        have hxx : WrapB x x' := by
          obtain ⟨⟨ins, hd⟩, -, -⟩ := hb
          rw [hx, hx', hd]
          cases ins
          · exact .same (.inl rfl) hcon
          · exact .independent hcon
        have st := st.push hxx f f'
        have hfr : (StyledNode.element s children).fresh fresh = true := by
          obtain ⟨⟨ins, hd⟩, hp, hfl⟩ := hb
          simp only [StyledNode.fresh, hd, decide_eq_true_eq]
          exact ⟨hp, hfl⟩
        obtain ⟨-, z2, z3, -⟩ := endOngoing_some e1
        obtain ⟨-, z2', z3', -⟩ := endOngoing_some e1'
        rw [freshAfter, hfr]
        refine ihr P hl pre { b0 with blockLevelBoxes := b0.blockLevelBoxes ++ [x], containsFloats := f }
          { b0' with blockLevelBoxes := b0'.blockLevelBoxes ++ [x'], containsFloats := f' } b1 b1' z2 z2' (fun _ => z3) ⟨?_, st.faded.ongoing, fun hn1 => by simp at hn1⟩ h1 h2
        obtain ⟨y, hy, hw⟩ := ht.blocks
        obtain ⟨e, e', a1, a2, -, a3⟩ := st.blocks
        exact ⟨y ++ e, by rw [a1, hy, List.append_assoc], by rw [a2]; exact hw.append a3⟩
  | @added Q fresh s inner inner' ns ns' hp hu hi hstart hend hocc hr ihi ihr =>
    intro P hl pre b b' b1 b1' s1 s2 hf ht h1 h2
    obtain ⟨b2, r1, r2⟩ := traverse_append inner ns b b1 h1
    simp only [traverseNodes] at h2
    rcases t2 : traverseNode Q Q (.element s inner') b' with _ | c'
    · simp [t2] at h2
    · simp only [t2] at h2
      have hbl : BlockInFlow s := ⟨⟨_, hp.display⟩, by rw [hp.bare.position]; decide, hp.float⟩
      obtain ⟨b0', innerB, contents, floats, x, f, -, e1', i1', f1', rfl, hx⟩ := traverse_block hbl t2
      rw [hp.display] at hx
      simp only at hx
      obtain ⟨-, z2', z3', -⟩ := endOngoing_some e1'
      obtain ⟨b0, e1⟩ := endOngoing_total s1 P
      obtain ⟨-, z2, z3, z4⟩ := endOngoing_some e1
      have r1 : traverseNodes P P inner b0 = some b2 := by
        rcases hstart with hfresh | hbeg
        · have ho := hf hfresh
          have : b0 = b := by
            simp only [Builder.endOngoing, s1, ho, List.isEmpty_nil, Bool.not_true, Bool.false_eq_true, if_false, if_true, Option.some.injEq] at e1
            exact e1.symm
          rw [this]
          exact r1
        · rw [← begins_ended hbeg s1 e1]
          exact r1
      have st := ended_stepped hl (together_faded ht s1 s2) e1 e1'
      have hls : look P = look s := hl.trans hp.look.symm
      have hin := ihi P hls b0.blockLevelBoxes b0 Builder.new b2 innerB z2 rfl (fun _ => z3)
        ⟨⟨[], by simp, .nil⟩, by rw [z3]; rfl, fun _ hn => absurd rfl hn⟩ r1 i1'
      have hadds := adds_nodes inner P P b0 b2 hu r1
      have hb2u : inlineAll UnmeasuredStyle b2.ongoing := (hadds.1 ⟨by rw [z3]; trivial, by simp [z2]⟩).ongoing
      -- the blocks before
      obtain ⟨y0, hy0, hw0⟩ : ∃ y, b0.blockLevelBoxes = pre ++ y ∧ WrapL y b0'.blockLevelBoxes := by
        obtain ⟨y, hy, hw⟩ := ht.blocks
        obtain ⟨e, e', a1, a2, -, a3⟩ := st.blocks
        exact ⟨y ++ e, by rw [a1, hy, List.append_assoc], by rw [a2]; exact hw.append a3⟩
      have hmid : ∀ m, b2.blockLevelBoxes = b0.blockLevelBoxes ++ m → ∀ z ∈ m, BlockLevelBox.Unmeasured z := by
        intro m hm
        obtain ⟨ext, he, hx⟩ := hadds.2
        rw [he] at hm
        rw [← List.append_cancel_left hm]
        exact hx
      have hfresh2 : freshAfter fresh inner = true → b2.ongoing = [] := fun hfa => hin.fresh (fresh_mono inner fresh true (fun _ => rfl) hfa)
      rw [freshAfter_append]
      refine ihr.from hl (pre := pre) (b := b2)
        (b' := { b0' with blockLevelBoxes := b0'.blockLevelBoxes ++ [x], containsFloats := f }) ⟨hin.stack, z2', hfresh2, ?_⟩ r2 h2
      rw [finish_some hin.stack' f1'] at hx
      have hrest : b2.ongoing ≠ [] → ns = [] ∨ BeginsWithBlock ns := by
        intro hne
        rcases hend with hend | hend
        · exact absurd (hin.fresh hend) hne
        · exact hend
      rcases hin.state with hs | hs
      · obtain ⟨m, hm, hwm⟩ := hs.blocks
        by_cases ho : b2.ongoing = []
        · left
          have ho' : innerB.ongoing = [] := by
            have := hs.ongoing
            rw [ho] at this
            exact fadeInlines_eq_nil.1 this.symm
          rw [if_pos ho'] at hx
          refine ⟨⟨y0 ++ m, by rw [hm, hy0, List.append_assoc], ?_⟩, by rw [ho, z3'], fun hn _ => ⟨by rw [ho]; trivial, ?_⟩⟩
          · rw [hx]
            have := WrapL.wrap hp.bare (hmid m hm) hwm .nil
            rw [List.append_nil] at this
            exact hw0.append this
          · refine hocc.resolve_left fun hocc => ?_
            rcases occupied_nodes inner P P b0 b2 (.inr hocc) r1 with hq | hq | hq
            · exact hq hn
            · exact hq ho
            · exact hq hin.stack
        · right
          have ho' : innerB.ongoing ≠ [] := by
            intro hn
            have := hs.ongoing
            rw [hn] at this
            exact ho (fadeInlines_eq_nil.1 this)
          rw [if_neg ho'] at hx
          refine ⟨⟨y0 ++ m, by rw [hm, hy0, List.append_assoc], ?_⟩, ho, z3', hb2u, hrest ho⟩
          rw [List.append_assoc]
          refine hw0.append ?_
          by_cases hb' : innerB.blockLevelBoxes = []
          · rw [if_pos hb'] at hx
            rw [hb'] at hwm
            rw [hwm.to_nil, hx]
            exact .one (.same (.inr ⟨bare_fade P, hp.bare⟩) (.inlines hs.ongoing))
          · rw [if_neg hb'] at hx
            rw [hx]
            have hlast : WrapL [anonymousBlock P b2.ongoing] [anonymousBlock s innerB.ongoing] := by
              rw [anonymousBlock, anonymousBlock, fade_eq hls]
              exact .one (.same (.inl rfl) (.inlines hs.ongoing))
            have := WrapL.wrap hp.bare (mid := m ++ [anonymousBlock P b2.ongoing]) (fun z hz => by
              rcases List.mem_append.1 hz with hz | hz
              · exact hmid m hm z hz
              · rw [List.mem_singleton.1 hz]
                exact unmeasured_anonymous _ _) (hwm.append hlast) .nil
            rw [List.append_nil] at this
            exact this
      · obtain ⟨m, hm, hwm⟩ := hs.blocks
        right
        rw [if_pos hs.ended] at hx
        refine ⟨⟨y0 ++ m, by rw [hm, hy0, List.append_assoc], ?_⟩, hs.ongoing, z3', hb2u, hrest hs.ongoing⟩
        rw [List.append_assoc]
        refine hw0.append ?_
        rw [hx]
        have := WrapL.wrap hp.bare (mid := m ++ [anonymousBlock P b2.ongoing]) (fun z hz => by
          rcases List.mem_append.1 hz with hz | hz
          · exact hmid m hm z hz
          · rw [List.mem_singleton.1 hz]
            exact unmeasured_anonymous _ _) hwm .nil
        rw [List.append_nil] at this
        exact this

/-- The containers that are made of contents to which blocks are added. -/
theorem constructContainer_wrap {s : ComputedValues} {nodes nodes' : List StyledNode} (h : BlocksAdded s true nodes nodes') {c c' : BlockContainer}
    {f f' : Bool} (h1 : constructContainer s nodes = some (c, f)) (h2 : constructContainer s nodes' = some (c', f')) : WrapC c c' := by
  simp only [constructContainer] at h1 h2
  rcases t1 : traverseNodes s s nodes Builder.new with _ | b
  · simp [t1] at h1
  · rcases t2 : traverseNodes s s nodes' Builder.new with _ | b'
    · simp [t2] at h2
    · simp only [t1, t2] at h1 h2
      exact finish_alike rfl (runs_alike h s rfl [] Builder.new Builder.new b b' rfl rfl (fun _ => rfl)
        ⟨⟨[], rfl, .nil⟩, rfl, fun _ hn => absurd rfl hn⟩ t1 t2) h1 h2

end Verif.Layout
