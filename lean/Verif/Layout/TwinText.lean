/- Text that begins in the same way is laid out in the same way, up to the last space. -/
import Verif.Layout.TwinLines
namespace Verif.Layout
open Verif.Style Verif.Text

variable {Err : Type} {F : FontApi Rat Err} {v : Look}

/-! ### One line -/

/-- The characters through the last space. -/
def upToSpace (text : List Nat) : List Nat :=
  match text with
  | [] => []
  | c :: text => if 32 ∈ c :: text then c :: upToSpace text else []

theorem upToSpace_none {text : List Nat} (h : 32 ∉ text) : upToSpace text = [] := by
  cases text with
  | nil => rfl
  | cons c text => rw [upToSpace, if_neg h]

theorem upToSpace_append (a b : List Nat) : upToSpace (a ++ 32 :: b) = a ++ 32 :: upToSpace b := by
  induction a with
  | nil => simp [upToSpace]
  | cons c a ih =>
    rw [List.cons_append, upToSpace, if_pos (by simp), ih]
    rfl

/-- The inner loop on a part of the text: the line is broken, or it goes on. -/
def scan (F : FontApi Rat Err) (fontSize available : Rat) :
    List Nat → ShapedSegment Rat → Option (ShapedSegmentState Rat × List Nat) →
    Option ((ShapedSegment Rat × List Nat) ⊕ (ShapedSegment Rat × Option (ShapedSegmentState Rat × List Nat)))
  | [], shaped, last => some (.inr (shaped, last))
  | ch :: chars, shaped, last =>
    if ch = 32 ∧ fontSize * shaped.advanceWidth > available then
      match last with
      | some (state, iter) => some (.inl (shaped.restore state, iter))
      | none => some (.inl (shaped, chars))
    else
      match shaped.appendChar F ch with
      | (_, some _) => none
      | (shaped', none) => scan F fontSize available chars shaped' (if ch = 32 then some (shaped.save, chars) else last)

/-- The place of the last break with more text. -/
def lastWith (more : List Nat) (last : Option (ShapedSegmentState Rat × List Nat)) : Option (ShapedSegmentState Rat × List Nat) :=
  last.map fun l => (l.1, l.2 ++ more)

theorem scan_shapeLine (fontSize available : Rat) (more : List Nat) : ∀ (chars : List Nat) (shaped : ShapedSegment Rat)
    (last : Option (ShapedSegmentState Rat × List Nat)), shapeLine F fontSize available (chars ++ more) shaped (lastWith more last) =
      match scan F fontSize available chars shaped last with
      | none => none
      | some (.inl (shaped', rest)) => some (shaped', rest ++ more)
      | some (.inr (shaped', last')) => shapeLine F fontSize available more shaped' (lastWith more last') := by
  intro chars
  induction chars with
  | nil => intro shaped last; rfl
  | cons ch chars ih =>
    intro shaped last
    rw [List.cons_append]
    simp only [shapeLine, scan]
    split
    · cases last <;> rfl
    · rcases he : shaped.appendChar F ch with ⟨s', _ | e⟩
      · simp only []
        rw [← ih]
        congr 1
        split <;> rfl
      · rfl

theorem shapeLine_keeps (fontSize available : Rat) (g : List Nat) : ∀ (chars : List Nat) (shaped : ShapedSegment Rat)
    (last : Option (ShapedSegmentState Rat × List Nat)) (shaped' : ShapedSegment Rat) (rest : List Nat), g <+: shaped.glyphs →
    (∀ l, last = some l → g.length ≤ l.1.glyphs) → shapeLine F fontSize available chars shaped last = some (shaped', rest) → g <+: shaped'.glyphs := by
  have hr : ∀ (shaped : ShapedSegment Rat) (state : ShapedSegmentState Rat), g <+: shaped.glyphs → g.length ≤ state.glyphs →
      g <+: (shaped.restore state).glyphs := by
    intro shaped state h1 h2
    obtain ⟨t, h1⟩ := h1
    simp only [ShapedSegment.restore, ← h1]
    rw [List.take_append, List.take_of_length_le h2]
    exact List.prefix_append _ _
  intro chars
  induction chars with
  | nil =>
    intro shaped last shaped' rest h1 h2 h
    simp only [shapeLine] at h
    split at h
    · split at h
      · cases h
        exact hr _ _ h1 (h2 _ rfl)
      · cases h
        exact h1
    · cases h
      exact h1
  | cons ch chars ih =>
    intro shaped last shaped' rest h1 h2 h
    simp only [shapeLine] at h
    split at h
    · split at h
      · cases h
        exact hr _ _ h1 (h2 _ rfl)
      · cases h
        exact h1
    · rcases appendChar_eq F shaped ch with ⟨id, w, hid, hw, he⟩ | ⟨-, e, he⟩
      · simp only [he] at h
        refine ih _ _ _ _ (h1.trans (List.prefix_append _ _)) ?_ h
        intro l hl
        split at hl
        · cases hl
          exact h1.length_le
        · exact h2 l hl
      · simp [he] at h

/-- What is known of a line that goes on. -/
theorem scan_open (fontSize available : Rat) : ∀ (chars done : List Nat) (shaped : ShapedSegment Rat) (last : Option (ShapedSegmentState Rat × List Nat))
    (shaped' : ShapedSegment Rat) (last' : Option (ShapedSegmentState Rat × List Nat)),
    IsShaped F done shaped.glyphs shaped.advanceWidth → LastBreak F fontSize available done chars shaped last →
    scan F fontSize available chars shaped last = some (.inr (shaped', last')) →
    IsShaped F (done ++ chars) shaped'.glyphs shaped'.advanceWidth ∧ LastBreak F fontSize available (done ++ chars) [] shaped' last' := by
  intro chars
  induction chars with
  | nil =>
    intro done shaped last shaped' last' hs hl h
    cases h
    simpa using And.intro hs hl
  | cons ch chars ih =>
    intro done shaped last shaped' last' hs hl h
    simp only [scan] at h
    split at h
    · cases last <;> simp at h
    · rename_i hnot
      rcases appendChar_eq F shaped ch with ⟨id, w, hid, hw, he⟩ | ⟨-, e, he⟩
      · simp only [he] at h
        have hs' : IsShaped F (done ++ [ch]) (shaped.glyphs ++ [id]) (F.add shaped.advanceWidth w) := .snoc hs hid hw
        have key := ih (done ++ [ch]) _ _ shaped' last' hs' ?_ h
        · simpa using key
        · split
          · rename_i hch
            subst hch
            have hfit : fontSize * shaped.advanceWidth ≤ available := by
              by_contra hc
              exact hnot ⟨rfl, not_le.mp hc⟩
            refine ⟨done, [], _, rfl, by simp, rfl, ?_, ?_, hfit, rfl⟩
            · simpa [ShapedSegment.save] using hs
            · simp [ShapedSegment.save]
          · rename_i hch
            rcases last with _ | ⟨state, iter⟩
            · simp only [LastBreak] at hl ⊢
              simp only [List.mem_append, List.mem_singleton, not_or]
              exact ⟨hl, fun h => hch h.symm⟩
            · obtain ⟨t, w', g, rfl, hw', rfl, hshape, hle, hfit, -⟩ := hl
              refine ⟨t, w' ++ [ch], _, by simp, ?_, by simp, ?_, ?_, hfit, rfl⟩
              · simp only [List.mem_append, List.mem_singleton, not_or]
                exact ⟨hw', fun h => hch h.symm⟩
              · rw [List.take_append_of_le_length hle]; exact hshape
              · simp only [List.length_append]; omega
      · simp [he] at h

/-- What is known of a line that is broken. -/
theorem scan_broken (fontSize available : Rat) : ∀ (chars done : List Nat) (shaped : ShapedSegment Rat) (last : Option (ShapedSegmentState Rat × List Nat))
    (shaped' : ShapedSegment Rat) (rest : List Nat),
    IsShaped F done shaped.glyphs shaped.advanceWidth → LastBreak F fontSize available done chars shaped last →
    scan F fontSize available chars shaped last = some (.inl (shaped', rest)) →
    ∃ line, IsShaped F line shaped'.glyphs shaped'.advanceWidth ∧ done ++ chars = line ++ 32 :: rest := by
  intro chars
  induction chars with
  | nil =>
    intro done shaped last shaped' rest hs hl h
    cases h
  | cons ch chars ih =>
    intro done shaped last shaped' rest hs hl h
    simp only [scan] at h
    split at h
    · rename_i hover
      obtain ⟨rfl, hover⟩ := hover
      rcases last with _ | ⟨state, iter⟩
      · cases h
        exact ⟨done, hs, rfl⟩
      · cases h
        obtain ⟨t, w, g, rfl, hw, rfl, hshape, hle, hfit, -⟩ := hl
        exact ⟨t, hshape, by simp⟩
    · rename_i hnot
      rcases appendChar_eq F shaped ch with ⟨id, w, hid, hw, he⟩ | ⟨-, e, he⟩
      · simp only [he] at h
        have hs' : IsShaped F (done ++ [ch]) (shaped.glyphs ++ [id]) (F.add shaped.advanceWidth w) := .snoc hs hid hw
        have key := ih (done ++ [ch]) _ _ shaped' rest hs' ?_ h
        · simpa using key
        · split
          · rename_i hch
            subst hch
            have hfit : fontSize * shaped.advanceWidth ≤ available := by
              by_contra hc
              exact hnot ⟨rfl, not_le.mp hc⟩
            refine ⟨done, [], _, rfl, by simp, rfl, ?_, ?_, hfit, rfl⟩
            · simpa [ShapedSegment.save] using hs
            · simp [ShapedSegment.save]
          · rename_i hch
            rcases last with _ | ⟨state, iter⟩
            · simp only [LastBreak] at hl ⊢
              simp only [List.mem_append, List.mem_singleton, not_or]
              exact ⟨hl, fun h => hch h.symm⟩
            · obtain ⟨t, w', g, rfl, hw', rfl, hshape, hle, hfit, -⟩ := hl
              refine ⟨t, w' ++ [ch], _, by simp, ?_, by simp, ?_, ?_, hfit, rfl⟩
              · simp only [List.mem_append, List.mem_singleton, not_or]
                exact ⟨hw', fun h => hch h.symm⟩
              · rw [List.take_append_of_le_length hle]; exact hshape
              · simp only [List.length_append]; omega
      · simp [he] at h

/-! ### Texts that begin in the same way -/

/-- The two states come after `ifc`, and what is seen of them begins in the same way, with `t`. -/
def Shares (F : FontApi Rat Err) (v : Look) (asc : Rat) (ifc τ τ' : InlineState) (t : List (ComputedValues × Nat)) : Prop :=
  ∃ (new rest rest' : Vec2 Rat → List Shape) (glyphs : List (ComputedValues × Nat)), (∀ o, τ.text v asc o = ifc.text v asc o ++ (new o ++ rest o)) ∧
    (∀ o, τ'.text v asc o = ifc.text v asc o ++ (new o ++ rest' o)) ∧ Shown F t glyphs ∧ ∀ o, (new o).flatMap Shape.ids = glyphs.map Prod.snd

/-- What is seen of a line of text. -/
def lineText (v : Look) (asc : Rat) (s : ComputedValues) (ifc : InlineState) (o : Vec2 Rat) (glyphs : List Nat) : List Shape :=
  v.see (.glyphs glyphs (fontSizeOf s)
    ⟨(originOf (o.add ⟨0, ifc.lineBoxes.nextLineBlockPosition⟩) ifc.stack).inline + (ifc.inlinePosition - ifc.current.inlineStart),
     (originOf (o.add ⟨0, ifc.lineBoxes.nextLineBlockPosition⟩) ifc.stack).block + 0 + asc * fontSizeOf s⟩ ((s.values .color : RGBA)))

theorem lineText_ids (asc : Rat) (s : ComputedValues) (ifc : InlineState) (o : Vec2 Rat) (glyphs : List Nat) :
    (lineText v asc s ifc o glyphs).flatMap Shape.ids = (glyphs.map fun g => (s, g)).map Prod.snd := by
  rw [lineText, v.text]
  simp [Shape.ids]

/-- The state in which the next line begins. -/
def nextLine (cb : ContainingBlock) (ifc : InlineState) : InlineState :=
  match breakLine cb ifc.stack ifc.current ifc.inlinePosition ifc.lineBoxes with
  | (stack, current, lines) => { lineBoxes := lines, inlinePosition := 0, stack := stack, current := current }

theorem nextLine_text (hQ : ∀ s, v.Q s) (asc : Rat) (cb : ContainingBlock) (ifc : InlineState) (o : Vec2 Rat) : (nextLine cb ifc).text v asc o = ifc.text v asc o := by
  obtain ⟨b1, b2⟩ := breakLine_text hQ asc cb o ifc.stack ifc.current ifc.inlinePosition ifc.lineBoxes
  simp only [InlineState.text, nextLine] at b1 b2 ⊢
  rw [b1, b2, List.append_nil]

theorem textLines_succ (cb : ContainingBlock) (s : ComputedValues) (available : Rat) (fuel : Nat) (chars : List Nat) (ifc : InlineState) :
    textLines F cb s available (fuel + 1) chars ifc = match shapeLine F (fontSizeOf s) available chars (ShapedSegment.new F) none with
      | none => none
      | some (shaped, rest) => if rest = [] then some (pushText s shaped ifc) else textLines F cb s available fuel rest (nextLine cb (pushText s shaped ifc)) := rfl

/-- A line of text and what comes after it. -/
theorem line_seen (hQ : ∀ s, v.Q s) (asc : Rat) {cb : ContainingBlock} {s : ComputedValues} {available : Rat} {fuel : Nat} {chars : List Nat} {ifc τ : InlineState}
    {shaped : ShapedSegment Rat} {rest : List Nat} (hs : shapeLine F (fontSizeOf s) available chars (ShapedSegment.new F) none = some (shaped, rest))
    (h : textLines F cb s available (fuel + 1) chars ifc = some τ) :
    ∃ more : Vec2 Rat → List Shape, ∀ o, τ.text v asc o = ifc.text v asc o ++ (lineText v asc s ifc o shaped.glyphs ++ more o) := by
  rw [textLines_succ, hs] at h
  simp only [] at h
  split at h
  · cases h
    exact ⟨fun _ => [], fun o => by rw [pushText_text, List.append_nil]; rfl⟩
  · obtain ⟨new, hn⟩ := textLines_seen hQ asc cb s _ _ _ _ _ h
    exact ⟨new, fun o => by rw [hn, nextLine_text hQ, pushText_text, List.append_assoc]; rfl⟩

theorem textLines_shares (hv : v.Splits) (asc : Rat) (cb : ContainingBlock) (s : ComputedValues) (available : Rat) (u u' : List Nat) :
    ∀ (fuel fuel' : Nat) (t : List Nat) (ifc τ τ' : InlineState), textLines F cb s available fuel (t ++ u) ifc = some τ →
      textLines F cb s available fuel' (t ++ u') ifc = some τ' → Shares F v asc ifc τ τ' ((upToSpace t).map fun c => (s, c)) := by
  intro fuel
  induction fuel with
  | zero => intro fuel' t ifc τ τ' h; simp [textLines] at h
  | succ fuel ih =>
    intro fuel' t ifc τ τ' h h'
    cases fuel' with
    | zero => simp [textLines] at h'
    | succ fuel' =>
      have e := scan_shapeLine (F := F) (fontSizeOf s) available u t (ShapedSegment.new F) none
      have e' := scan_shapeLine (F := F) (fontSizeOf s) available u' t (ShapedSegment.new F) none
      change shapeLine F (fontSizeOf s) available (t ++ u) (ShapedSegment.new F) none = _ at e
      change shapeLine F (fontSizeOf s) available (t ++ u') (ShapedSegment.new F) none = _ at e'
      rcases hsc : scan F (fontSizeOf s) available t (ShapedSegment.new F) none with _ | ⟨shaped, rest⟩ | ⟨shaped, last⟩
      · rw [hsc] at e
        rw [textLines_succ, e] at h
        cases h
      · rw [hsc] at e e'
        obtain ⟨line, hline, ht⟩ := scan_broken _ _ t [] _ _ _ _ .nil (by simp [LastBreak]) hsc
        rw [List.nil_append] at ht
        by_cases hr : rest = []
        · obtain ⟨m, hm⟩ := line_seen hv.Q asc e h
          obtain ⟨m', hm'⟩ := line_seen hv.Q asc e' h'
          refine ⟨_, m, m', _, hm, hm', ?_, fun o => lineText_ids asc s ifc o _⟩
          rw [ht, hr, upToSpace_append, upToSpace, List.map_append, ← List.append_nil (List.map (fun g => (s, g)) shaped.glyphs)]
          exact (Shown.of_shaped hline s).append (.space .nil)
        · rw [textLines_succ, e] at h
          rw [textLines_succ, e'] at h'
          simp only [] at h h'
          rw [if_neg (by simp [hr])] at h h'
          obtain ⟨new, r, r', g, h1, h2, h3, h4⟩ := ih fuel' rest _ _ _ h h'
          refine ⟨fun o => lineText v asc s ifc o shaped.glyphs ++ new o, r, r',
            (shaped.glyphs.map fun g => (s, g)) ++ g, fun o => ?_, fun o => ?_, ?_, fun o => ?_⟩
          · rw [h1, nextLine_text hv.Q, pushText_text]
            simp only [List.append_assoc]
            rfl
          · rw [h2, nextLine_text hv.Q, pushText_text]
            simp only [List.append_assoc]
            rfl
          · rw [ht, upToSpace_append, List.map_append]
            exact (Shown.of_shaped hline s).append (.space h3)
          · rw [List.flatMap_append, lineText_ids, h4, List.map_append]
      · rw [hsc] at e e'
        obtain ⟨hshaped, hlast⟩ := scan_open _ _ t [] _ _ _ _ .nil (by simp [LastBreak]) hsc
        rw [List.nil_append] at hshaped hlast
        simp only [] at e e'
        rcases hs : shapeLine F (fontSizeOf s) available u shaped (lastWith u last) with _ | ⟨sh, rest⟩
        · rw [hs] at e
          rw [textLines_succ, e] at h
          cases h
        rcases hs' : shapeLine F (fontSizeOf s) available u' shaped (lastWith u' last) with _ | ⟨sh', rest'⟩
        · rw [hs'] at e'
          rw [textLines_succ, e'] at h'
          cases h'
        obtain ⟨m, hm⟩ := line_seen hv.Q asc (e.trans hs) h
        obtain ⟨m', hm'⟩ := line_seen hv.Q asc (e'.trans hs') h'
        -- the glyphs before the last space
        obtain ⟨g, hg1, hg2, hg3⟩ : ∃ g, g <+: shaped.glyphs ∧ (∀ l, last = some l → g.length ≤ l.1.glyphs) ∧
            Shown F ((upToSpace t).map fun c => (s, c)) (g.map fun g => (s, g)) := by
          rcases last with _ | ⟨state, iter⟩
          · refine ⟨[], List.nil_prefix, by simp, ?_⟩
            rw [upToSpace_none hlast]
            exact .nil
          · obtain ⟨t0, w, g, rfl, hw, -, hshape, hle, -, rfl⟩ := hlast
            refine ⟨shaped.glyphs.take state.glyphs, List.take_prefix _ _, ?_, ?_⟩
            · intro l hl
              cases hl
              simp
            · rw [upToSpace_append, upToSpace_none hw, List.map_append]
              rw [← List.append_nil (List.map (fun g => (s, g)) (List.take state.glyphs shaped.glyphs))]
              exact (Shown.of_shaped hshape s).append (.space .nil)
        obtain ⟨x, hx⟩ := shapeLine_keeps (F := F) _ _ g u shaped _ sh rest hg1 (by
          intro l hl
          cases last with
          | none => cases hl
          | some l0 => cases hl; exact hg2 l0 rfl) hs
        obtain ⟨x', hx'⟩ := shapeLine_keeps (F := F) _ _ g u' shaped _ sh' rest' hg1 (by
          intro l hl
          cases last with
          | none => cases hl
          | some l0 => cases hl; exact hg2 l0 rfl) hs'
        have hsp : ∀ x, ∃ k : Vec2 Rat → List Shape, ∀ o, lineText v asc s ifc o (g ++ x) = lineText v asc s ifc o g ++ k o := by
          intro x
          exact ⟨fun o => (hv.split g x (fontSizeOf s)
            ⟨(originOf (o.add ⟨0, ifc.lineBoxes.nextLineBlockPosition⟩) ifc.stack).inline + (ifc.inlinePosition - ifc.current.inlineStart),
             (originOf (o.add ⟨0, ifc.lineBoxes.nextLineBlockPosition⟩) ifc.stack).block + 0 + asc * fontSizeOf s⟩ ((s.values .color : RGBA))).choose,
            fun o => (hv.split g x _ _ _).choose_spec⟩
        obtain ⟨k, hk⟩ := hsp x
        obtain ⟨k', hk'⟩ := hsp x'
        refine ⟨fun o => lineText v asc s ifc o g, fun o => k o ++ m o, fun o => k' o ++ m' o, _, fun o => ?_, fun o => ?_, hg3,
          fun o => lineText_ids asc s ifc o _⟩
        · rw [hm, ← hx, hk, List.append_assoc]
        · rw [hm', ← hx', hk', List.append_assoc]

theorem textRun_shares (hv : v.Splits) (asc : Rat) {cb : ContainingBlock} {s : ComputedValues} {t u u' : List Nat} {ifc τ τ' : InlineState}
    (h : layoutTextRun F cb s (t ++ u) ifc = some τ) (h' : layoutTextRun F cb s (t ++ u') ifc = some τ') :
    Shares F v asc ifc τ τ' ((upToSpace t).map fun c => (s, c)) :=
  textLines_shares hv asc cb s _ u u' _ _ t ifc τ τ' h h'

/-! ### Boxes that begin in the same way -/

/-- The same stack, but for whether boxes end here: only outside the first `n`. -/
inductive Alike : Nat → List PartialInlineBox → List PartialInlineBox → Prop
  | nil {n} : Alike n [] []
  | out {p last r r'} : Alike 0 r r' → Alike 0 (p :: r) ({ p with lastBoxTreeFragment := last } :: r')
  | top {n p r r'} : Alike n r r' → Alike (n + 1) (p :: r) (p :: r')

theorem Alike.refl : ∀ (n : Nat) (r : List PartialInlineBox), Alike n r r
  | _, [] => .nil
  | 0, p :: r => .out (last := p.lastBoxTreeFragment) (Alike.refl 0 r)
  | n + 1, _ :: r => .top (Alike.refl n r)

/-- The same state, but for whether boxes end here. -/
structure Alikes (n : Nat) (ifc ifc' : InlineState) : Prop where
  lines : ifc'.lineBoxes = ifc.lineBoxes
  position : ifc'.inlinePosition = ifc.inlinePosition
  current : ifc'.current = ifc.current
  stack : Alike n ifc.stack ifc'.stack

theorem breakLine_alike (cb : ContainingBlock) {n : Nat} {stack stack' : List PartialInlineBox} (h : Alike n stack stack') :
    ∀ (level : NestingLevel) (x : Rat) (lines : LinesBoxes), Alike n (breakLine cb stack level x lines).1 (breakLine cb stack' level x lines).1 ∧
      (breakLine cb stack' level x lines).2 = (breakLine cb stack level x lines).2 := by
  induction h with
  | nil => intro level x lines; exact ⟨.nil, rfl⟩
  | @out p last r r' _ ih =>
    intro level x lines
    have hf : (PartialInlineBox.finish { p with lastBoxTreeFragment := last } { level with inlineStart := 0 } x true) =
        ({ (p.finish { level with inlineStart := 0 } x true).1 with lastBoxTreeFragment := last }, (p.finish { level with inlineStart := 0 } x true).2) := by
      simp [PartialInlineBox.finish]
    simp only [breakLine, hf]
    obtain ⟨h1, h2⟩ := ih (p.finish { level with inlineStart := 0 } x true).1.parentNestingLevel (p.finish { level with inlineStart := 0 } x true).2.2 lines
    have h3 := congrArg Prod.fst h2
    have h4 := congrArg Prod.snd h2
    rw [h3, h4]
    exact ⟨.out h1, rfl⟩
  | @top n p r r' _ ih =>
    intro level x lines
    simp only [breakLine]
    obtain ⟨h1, h2⟩ := ih (p.finish { level with inlineStart := 0 } x true).1.parentNestingLevel (p.finish { level with inlineStart := 0 } x true).2.2 lines
    have h3 := congrArg Prod.fst h2
    have h4 := congrArg Prod.snd h2
    rw [h3, h4]
    exact ⟨.top h1, rfl⟩

theorem nextLine_alike (cb : ContainingBlock) {n : Nat} {ifc ifc' : InlineState} (h : Alikes n ifc ifc') : Alikes n (nextLine cb ifc) (nextLine cb ifc') := by
  obtain ⟨h1, h2⟩ := breakLine_alike cb h.stack ifc.current ifc.inlinePosition ifc.lineBoxes
  rw [← h.lines, ← h.position, ← h.current] at h1 h2
  simp only [nextLine]
  rw [← h.lines, ← h.position, ← h.current]
  exact ⟨congrArg Prod.snd h2, rfl, congrArg Prod.fst h2, h1⟩

theorem pushText_alike {n : Nat} (s : ComputedValues) (shaped : ShapedSegment Rat) {ifc ifc' : InlineState} (h : Alikes n ifc ifc') :
    Alikes n (pushText s shaped ifc) (pushText s shaped ifc') := by
  refine ⟨h.lines, ?_, ?_, h.stack⟩
  · simp only [pushText, h.position]
  · simp only [pushText, h.position, h.current]

theorem textLines_alike {n : Nat} (cb : ContainingBlock) (s : ComputedValues) (available : Rat) : ∀ (fuel : Nat) (chars : List Nat) (ifc ifc' τ : InlineState),
    Alikes n ifc ifc' → textLines F cb s available fuel chars ifc = some τ → ∃ τ', textLines F cb s available fuel chars ifc' = some τ' ∧ Alikes n τ τ' := by
  intro fuel
  induction fuel with
  | zero => intro chars ifc ifc' τ _ h; simp [textLines] at h
  | succ fuel ih =>
    intro chars ifc ifc' τ ha h
    rw [textLines_succ] at h ⊢
    rcases hs : shapeLine F (fontSizeOf s) available chars (ShapedSegment.new F) none with _ | ⟨shaped, rest⟩
    · rw [hs] at h; cases h
    · rw [hs] at h
      simp only [] at h ⊢
      split at h
      · rename_i hr
        cases h
        rw [if_pos hr]
        exact ⟨_, rfl, pushText_alike s shaped ha⟩
      · rename_i hr
        rw [if_neg hr]
        exact ih _ _ _ _ (nextLine_alike cb (pushText_alike s shaped ha)) h

theorem startInlineBox_alike {n : Nat} (cb : ContainingBlock) (s : ComputedValues) (first last : Bool) {ifc ifc' : InlineState} (h : Alikes n ifc ifc') :
    Alikes (n + 1) (startInlineBox cb s first last [] ifc) (startInlineBox cb s first last [] ifc') := by
  refine ⟨h.lines, ?_, ?_, ?_⟩
  · simp only [startInlineBox, h.position]
  · simp only [startInlineBox, h.position]
  · simp only [startInlineBox, h.position, h.current]
    exact .top h.stack

theorem startInlineBox_other (cb : ContainingBlock) (s : ComputedValues) (first last last' : Bool) {ifc ifc' : InlineState} (h : Alikes 0 ifc ifc') :
    Alikes 0 (startInlineBox cb s first last [] ifc) (startInlineBox cb s first last' [] ifc') := by
  refine ⟨h.lines, ?_, ?_, ?_⟩
  · simp only [startInlineBox, h.position]
  · simp only [startInlineBox, h.position]
  · simp only [startInlineBox, h.position, h.current]
    exact .out (last := last') h.stack

theorem popBox_alike {n : Nat} {ifc ifc' τ : InlineState} (h : Alikes (n + 1) ifc ifc') (hp : popBox ifc = some τ) :
    ∃ τ', popBox ifc' = some τ' ∧ Alikes n τ τ' := by
  have hst := h.stack
  simp only [popBox] at hp ⊢
  generalize hA : ifc.stack = A at hst hp
  generalize hB : ifc'.stack = B at hst
  cases hst with
  | nil => cases hp
  | top hr =>
    cases hp
    refine ⟨_, rfl, h.lines, ?_, ?_, hr⟩
    · simp only [h.position, h.current]
    · simp only [h.position, h.current]

mutual
theorem execBox_alike (cb : ContainingBlock) : ∀ (b : InlineLevelBox) (n : Nat) (ifc ifc' τ : InlineState), Alikes n ifc ifc' → execBox F cb b ifc = some τ →
    ∃ τ', execBox F cb b ifc' = some τ' ∧ Alikes n τ τ'
  | .inlineBox s first last children => by
    intro n ifc ifc' τ ha h
    simp only [execBox] at h ⊢
    rcases h1 : execAll F cb children (startInlineBox cb s first last [] ifc) with _ | τ1
    · simp [h1] at h
    · simp only [h1] at h
      obtain ⟨τ1', h1', ha1⟩ := execAll_alike cb children (n + 1) _ _ _ (startInlineBox_alike cb s first last ha) h1
      rw [h1']
      exact popBox_alike ha1 h
  | .textRun s text => by
    intro n ifc ifc' τ ha h
    simp only [execBox, layoutTextRun] at h ⊢
    rw [ha.position]
    exact textLines_alike cb s _ _ _ _ _ _ ha h
  | .outOfFlowAbsolutelyPositioned _ _ _ => by
    intro n ifc ifc' τ ha h
    cases h
    exact ⟨_, rfl, ha⟩
  | .outOfFlowFloat _ _ _ => by
    intro n ifc ifc' τ ha h
    cases h
    exact ⟨_, rfl, ha⟩
theorem execAll_alike (cb : ContainingBlock) : ∀ (bs : List InlineLevelBox) (n : Nat) (ifc ifc' τ : InlineState), Alikes n ifc ifc' → execAll F cb bs ifc = some τ →
    ∃ τ', execAll F cb bs ifc' = some τ' ∧ Alikes n τ τ'
  | [] => by
    intro n ifc ifc' τ ha h
    cases h
    exact ⟨_, rfl, ha⟩
  | b :: bs => by
    intro n ifc ifc' τ ha h
    simp only [execAll] at h ⊢
    rcases h1 : execBox F cb b ifc with _ | τ1
    · simp [h1] at h
    · simp only [h1] at h
      obtain ⟨τ1', h1', ha1⟩ := execBox_alike cb b n _ _ _ ha h1
      rw [h1']
      exact execAll_alike cb bs n _ _ _ ha1 h
end

theorem Alike.text {n : Nat} {stack stack' : List PartialInlineBox} (h : Alike n stack stack') (asc : Rat) (o : Vec2 Rat) :
    (∀ level, openText v asc o stack' level = openText v asc o stack level) ∧ originOf o stack' = originOf o stack := by
  induction h with
  | nil => exact ⟨fun _ => rfl, rfl⟩
  | out _ ih => exact ⟨fun level => by simp only [openText, originOf, ih.1, ih.2], by simp only [originOf, ih.2]⟩
  | top _ ih => exact ⟨fun level => by simp only [openText, originOf, ih.1, ih.2], by simp only [originOf, ih.2]⟩

theorem Alikes.text {n : Nat} {ifc ifc' : InlineState} (h : Alikes n ifc ifc') (asc : Rat) (o : Vec2 Rat) : ifc'.text v asc o = ifc.text v asc o := by
  simp only [InlineState.text, h.lines, h.current, (h.stack.text asc _).1]

/-- The two lists of boxes begin in the same way, with this text. -/
inductive Twin : List InlineLevelBox → List InlineLevelBox → List (ComputedValues × Nat) → Prop
  | nil {a b} : Twin a b []
  | cons {x a b t} : Twin a b t → Twin (x :: a) (x :: b) (x.runs.flatten ++ t)
  | text {s t u u' a b} : Twin (.textRun s (t ++ u) :: a) (.textRun s (t ++ u') :: b) ((upToSpace t).map fun c => (s, c))
  | box {s first last last' cs cs' a b t} : Twin cs cs' t → Twin (.inlineBox s first last cs :: a) (.inlineBox s first last' cs' :: b) t

theorem Twin.symm {a b : List InlineLevelBox} {t : List (ComputedValues × Nat)} (h : Twin a b t) : Twin b a t := by
  induction h with
  | nil => exact .nil
  | cons _ ih => exact .cons ih
  | text => exact .text
  | box _ ih => exact .box ih

/-- More can come after. -/
theorem Shares.later {asc : Rat} {ifc τ τ' σ σ' : InlineState} {t : List (ComputedValues × Nat)} (h : Shares F v asc ifc τ τ' t)
    (h1 : ∃ new : Vec2 Rat → List Shape, ∀ o, σ.text v asc o = τ.text v asc o ++ new o)
    (h2 : ∃ new : Vec2 Rat → List Shape, ∀ o, σ'.text v asc o = τ'.text v asc o ++ new o) : Shares F v asc ifc σ σ' t := by
  obtain ⟨new, r, r', g, a1, a2, a3, a4⟩ := h
  obtain ⟨m, hm⟩ := h1
  obtain ⟨m', hm'⟩ := h2
  exact ⟨new, fun o => r o ++ m o, fun o => r' o ++ m' o, g, fun o => by rw [hm, a1]; simp only [List.append_assoc],
    fun o => by rw [hm', a2]; simp only [List.append_assoc], a3, a4⟩

theorem Grows.seen {asc : Rat} {ifc τ : InlineState} {t : List (ComputedValues × Nat)} (h : Grows F v asc ifc τ t) (hm : ifc.Made F) :
    ∃ new : Vec2 Rat → List Shape, ∀ o, τ.text v asc o = ifc.text v asc o ++ new o := by
  obtain ⟨new, -, h, -⟩ := h.text hm
  exact ⟨new, h⟩

theorem Alikes.made {n : Nat} {ifc ifc' : InlineState} (h : Alikes n ifc ifc') (hm : ifc.Made F) : ifc'.Made F := by
  refine ⟨by rw [h.lines]; exact hm.lines, ?_, by rw [h.current]; exact hm.current⟩
  have hst := h.stack
  have := hm.stack
  clear hm
  generalize ifc.stack = A at hst this
  generalize ifc'.stack = B at hst
  clear h
  induction hst with
  | nil => simp
  | @out q last r r' _ ih =>
    intro p hp
    rcases List.mem_cons.1 hp with rfl | hp
    · exact this q List.mem_cons_self
    · exact ih (fun q hq => this q (List.mem_cons_of_mem _ hq)) p hp
  | top _ ih =>
    intro p hp
    rcases List.mem_cons.1 hp with rfl | hp
    · exact this _ List.mem_cons_self
    · exact ih (fun q hq => this q (List.mem_cons_of_mem _ hq)) p hp

theorem Twin.exec (hv : v.Splits) (asc : Rat) {cb : ContainingBlock} (hm : cb.mode = (.horizontalTb, .ltr)) {bs bs' : List InlineLevelBox}
    {t : List (ComputedValues × Nat)} (h : Twin bs bs' t) : ∀ (ifc ifc' τ τ' : InlineState), Alikes 0 ifc ifc' → ifc.Made F → inlinesOnly NoAbsolutes bs →
      inlinesOnly NoAbsolutes bs' → execAll F cb bs ifc = some τ → execAll F cb bs' ifc' = some τ' → Shares F v asc ifc τ τ' t := by
  induction h with
  | nil =>
    intro ifc ifc' τ τ' ha hmade hno hno' h h'
    obtain ⟨n, hn⟩ := (execAll_grows hv.Q asc hm _ _ _ hno h).seen hmade
    obtain ⟨n', hn'⟩ := (execAll_grows hv.Q asc hm _ _ _ hno' h').seen (ha.made hmade)
    exact ⟨fun _ => [], n, n', [], fun o => hn o, fun o => by rw [hn', ha.text]; rfl, .nil, fun _ => rfl⟩
  | @cons x a b t _ ih =>
    intro ifc ifc' τ τ' ha hmade hno hno' h h'
    simp only [execAll] at h h'
    rcases h1 : execBox F cb x ifc with _ | σ
    · simp [h1] at h
    obtain ⟨σ', h1', ha1⟩ := execBox_alike cb x 0 _ _ _ ha h1
    simp only [h1] at h
    simp only [h1'] at h'
    have hg := execBox_grows hv.Q asc hm x _ _ hno.1 h1
    obtain ⟨n0, g0, c1, c2, c3⟩ := hg.text hmade
    obtain ⟨new, r, r', g, b1, b2, b3, b4⟩ := ih _ _ _ _ ha1 (hg.made hmade) hno.2 hno'.2 h h'
    exact ⟨fun o => n0 o ++ new o, r, r', g0 ++ g, fun o => by rw [b1, c1]; simp only [List.append_assoc],
      fun o => by rw [b2, c1]; simp only [List.append_assoc], c2.append b3, fun o => by rw [List.flatMap_append, c3, b4, List.map_append]⟩
  | @text s t u u' a b =>
    intro ifc ifc' τ τ' ha hmade hno hno' h h'
    simp only [execAll, execBox] at h h'
    rcases h1 : layoutTextRun F cb s (t ++ u) ifc with _ | σ
    · simp [h1] at h
    rcases h1' : layoutTextRun F cb s (t ++ u') ifc' with _ | σ'
    · simp [h1'] at h'
    simp only [h1] at h
    simp only [h1'] at h'
    have h2 : Alikes 0 ifc' ifc := by
      refine ⟨ha.lines.symm, ha.position.symm, ha.current.symm, ?_⟩
      have hst := ha.stack
      generalize ifc.stack = A at hst
      generalize ifc'.stack = B at hst
      generalize hn : 0 = n at hst ⊢
      induction hst with
      | nil => exact .nil
      | @out p last r r' _ ih => exact .out (p := { p with lastBoxTreeFragment := last }) (last := p.lastBoxTreeFragment) (ih rfl)
      | top _ ih => cases hn
    obtain ⟨σ'', h3, ha3⟩ := textLines_alike cb s _ _ _ _ _ _ h2 h1'
    rw [ha.position] at h3
    have := textRun_shares hv asc h1 h3
    refine this.later ((execAll_grows hv.Q asc hm _ _ _ hno.2 h).seen ((textRun_grows (v := v) hv.Q asc hm h1).made hmade)) ?_
    obtain ⟨n, hn⟩ := (execAll_grows hv.Q asc hm _ _ _ hno'.2 h').seen ((textRun_grows (v := v) hv.Q asc hm h1').made (ha.made hmade))
    exact ⟨n, fun o => by rw [hn, ha3.text]⟩
  | @box s first last last' cs cs' a b t _ ih =>
    intro ifc ifc' τ τ' ha hmade hno hno' h h'
    simp only [execAll, execBox] at h h'
    rcases h1 : execAll F cb cs (startInlineBox cb s first last [] ifc) with _ | σ
    · simp [h1] at h
    rcases h1' : execAll F cb cs' (startInlineBox cb s first last' [] ifc') with _ | σ'
    · simp [h1'] at h'
    simp only [h1] at h
    simp only [h1'] at h'
    rcases h2 : popBox σ with _ | ρ
    · simp [h2] at h
    rcases h2' : popBox σ' with _ | ρ'
    · simp [h2'] at h'
    simp only [h2] at h
    simp only [h2'] at h'
    have hs := startInlineBox_grows (F := F) (v := v) asc cb s first last [] ifc
    have hs' := startInlineBox_grows (F := F) (v := v) asc cb s first last' [] ifc'
    have hc := execAll_grows hv.Q asc hm _ _ _ hno.1 h1
    have hc' := execAll_grows hv.Q asc hm _ _ _ hno'.1 h1'
    have hp := popBox_grows (F := F) hv.Q asc h2
    have hp' := popBox_grows (F := F) hv.Q asc h2'
    have key := ih _ _ _ _ (startInlineBox_other cb s first last last' ha) (hs.made hmade) hno.1 hno'.1 h1 h1'
    have key2 : Shares F v asc ifc σ σ' t := by
      obtain ⟨new, r, r', g, b1, b2, b3, b4⟩ := key
      exact ⟨new, r, r', g, fun o => by rw [b1, startInlineBox_text], fun o => by rw [b2, startInlineBox_text], b3, b4⟩
    have hσ := hc.made (hs.made hmade)
    have hσ' := hc'.made (hs'.made (ha.made hmade))
    exact key2.later ((hp.trans (execAll_grows hv.Q asc hm _ _ _ hno.2 h)).seen hσ) ((hp'.trans (execAll_grows hv.Q asc hm _ _ _ hno'.2 h')).seen hσ')

/-- Inline formatting contexts that begin in the same way. -/
theorem Twin.layout (hv : v.Splits) (asc : Rat) {cb : ContainingBlock} (hm : cb.mode = (.horizontalTb, .ltr)) {xs ys : List InlineLevelBox}
    {t : List (ComputedValues × Nat)} (h : Twin xs ys t) {fc fc' : FlowChildren} {rank rank' : Nat} {as as' : List AbsolutelyPositionedFragment}
    (hno : inlinesOnly NoAbsolutes xs) (hno' : inlinesOnly NoAbsolutes ys) (l : layoutInline F xs cb rank [] = some (fc, as))
    (l' : layoutInline F ys cb rank' [] = some (fc', as')) :
    ∃ (common rest rest' : Vec2 Rat → List Shape) (glyphs : List (ComputedValues × Nat)),
      (∀ o, textOf v asc o fc.fragments = common o ++ rest o) ∧ (∀ o, textOf v asc o fc'.fragments = common o ++ rest' o) ∧
      Shown F t glyphs ∧ ∀ o, (common o).flatMap Shape.ids = glyphs.map Prod.snd := by
  obtain ⟨σ, h1, h2, rfl⟩ := layoutInline_exec hno l
  obtain ⟨σ', h1', h2', rfl⟩ := layoutInline_exec hno' l'
  have hfin : ∀ (σ : InlineState), σ.stack = [] → ∀ o, textOf v asc o (finishLine σ.lineBoxes σ.current cb).1.boxes = σ.text v asc o := by
    intro σ hs o
    simp only [finishLine, textOf_append, InlineState.text, hs, openText]
    congr 1
    simp [textOf, inkOf, Fragment.ink]
  obtain ⟨new, r, r', g, b1, b2, b3, b4⟩ := h.exec hv asc hm (initialInlineState []) (initialInlineState []) σ σ' ⟨rfl, rfl, rfl, .nil⟩
    ⟨by simp [initialInlineState]; trivial, by simp [initialInlineState], by simp [initialInlineState]; trivial⟩ hno hno' h1 h1'
  refine ⟨new, r, r', g, fun o => ?_, fun o => ?_, b3, b4⟩
  · exact (hfin σ h2 o).trans (b1 o)
  · exact (hfin σ' h2' o).trans (b2 o)

end Verif.Layout
