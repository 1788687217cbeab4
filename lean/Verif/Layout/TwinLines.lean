/- What is seen of an inline formatting context while it is laid out. -/
import Verif.Layout.TwinInline
namespace Verif.Layout
open Verif.Style Verif.Text

variable {Err : Type} {F : FontApi Rat Err} {v : Look}

/-- The glyphs of a text can be looked at one by one, and no background. -/
structure Look.Splits (v : Look) : Prop where
  Q : ∀ s, v.Q s
  split : ∀ ids more size baseline color, ∃ rest,
    v.see (.glyphs (ids ++ more) size baseline color) = v.see (.glyphs ids size baseline color) ++ rest

theorem eachGlyph_append (F : FontApi Rat Err) (size : Rat) (color : RGBA) : ∀ (ids more : List Nat) (baseline : Vec2 Rat),
    ∃ rest, eachGlyph F size color baseline (ids ++ more) = eachGlyph F size color baseline ids ++ rest
  | [], more, baseline => ⟨_, rfl⟩
  | g :: ids, more, baseline => by
    obtain ⟨rest, h⟩ := eachGlyph_append F size color ids more _
    exact ⟨rest, by rw [List.cons_append, eachGlyph, eachGlyph, List.cons_append]; exact congrArg _ h⟩

theorem Look.ofGlyphs_splits (F : FontApi Rat Err) : (Look.ofGlyphs F).Splits :=
  ⟨fun _ => trivial, fun ids more size baseline color => eachGlyph_append F size color ids more baseline⟩

/-! ### What is seen so far -/

/-- The point from which the places in the current nesting level are counted. -/
def originOf (o : Vec2 Rat) : List PartialInlineBox → Vec2 Rat
  | [] => o
  | p :: rest => (originOf o rest).add p.startCorner

/-- What is seen of the line that is not finished. -/
def openText (v : Look) (asc : Rat) (o : Vec2 Rat) : List PartialInlineBox → NestingLevel → List Shape
  | [], level => textOf v asc o level.fragmentsSoFar
  | p :: rest, level => openText v asc o rest p.parentNestingLevel ++ textOf v asc (originOf o (p :: rest)) level.fragmentsSoFar

/-- What is seen so far. -/
def InlineState.text (v : Look) (asc : Rat) (o : Vec2 Rat) (ifc : InlineState) : List Shape :=
  textOf v asc o ifc.lineBoxes.boxes ++ openText v asc (o.add ⟨0, ifc.lineBoxes.nextLineBlockPosition⟩) ifc.stack ifc.current

theorem openText_push (asc : Rat) (o : Vec2 Rat) (stack : List PartialInlineBox) (level level' : NestingLevel) (fs : List Fragment)
    (h : level'.fragmentsSoFar = level.fragmentsSoFar ++ fs) :
    openText v asc o stack level' = openText v asc o stack level ++ textOf v asc (originOf o stack) fs := by
  cases stack with
  | nil => rw [openText, h, textOf_append]; rfl
  | cons p rest => rw [openText, h, textOf_append, openText, List.append_assoc]

theorem openText_same (asc : Rat) (o : Vec2 Rat) (stack : List PartialInlineBox) (level level' : NestingLevel)
    (h : level'.fragmentsSoFar = level.fragmentsSoFar) : openText v asc o stack level' = openText v asc o stack level := by
  rw [openText_push asc o stack level level' [] (by simpa using h)]
  simp [textOf, inkOf]

theorem finish_text (hQ : ∀ s, v.Q s) (asc : Rat) (o : Vec2 Rat) (p : PartialInlineBox) (rest : List PartialInlineBox) (level : NestingLevel) (x : Rat) (br : Bool) :
    openText v asc o rest (p.finish level x br).1.parentNestingLevel = openText v asc o (p :: rest) level := by
  rw [openText_push asc o rest p.parentNestingLevel (p.finish level x br).1.parentNestingLevel [_] rfl, textOf_box _ _ _ (hQ _), openText]
  simp only [textOf, inkOf, List.flatMap_nil, List.append_nil]
  rfl

theorem breakLine_text (hQ : ∀ s, v.Q s) (asc : Rat) (cb : ContainingBlock) (o : Vec2 Rat) : ∀ (stack : List PartialInlineBox) (level : NestingLevel) (x : Rat)
    (lines : LinesBoxes), textOf v asc o (breakLine cb stack level x lines).2.2.boxes =
        textOf v asc o lines.boxes ++ openText v asc (o.add ⟨0, lines.nextLineBlockPosition⟩) stack level ∧
      ∀ o', openText v asc o' (breakLine cb stack level x lines).1 (breakLine cb stack level x lines).2.1 = [] := by
  intro stack
  induction stack with
  | nil =>
    intro level x lines
    refine ⟨?_, fun o' => rfl⟩
    simp only [breakLine, finishLine, textOf_append, openText]
    congr 1
    simp [textOf, inkOf, Fragment.ink]
  | cons p rest ih =>
    intro level x lines
    obtain ⟨h1, h2⟩ := ih (p.finish { level with inlineStart := 0 } x true).1.parentNestingLevel (p.finish { level with inlineStart := 0 } x true).2.2 lines
    simp only [breakLine]
    refine ⟨?_, fun o' => ?_⟩
    · rw [h1, finish_text hQ]
      rfl
    · simp only [openText, h2]
      rfl

theorem pushText_text (asc : Rat) (o : Vec2 Rat) (s : ComputedValues) (shaped : ShapedSegment Rat) (ifc : InlineState) :
    (pushText s shaped ifc).text v asc o = ifc.text v asc o ++
      v.see (.glyphs shaped.glyphs (fontSizeOf s)
        ⟨(originOf (o.add ⟨0, ifc.lineBoxes.nextLineBlockPosition⟩) ifc.stack).inline + (ifc.inlinePosition - ifc.current.inlineStart),
         (originOf (o.add ⟨0, ifc.lineBoxes.nextLineBlockPosition⟩) ifc.stack).block + 0 + asc * fontSizeOf s⟩ ((s.values .color : RGBA))) := by
  simp only [InlineState.text]
  rw [openText_push asc _ (pushText s shaped ifc).stack ifc.current (pushText s shaped ifc).current [_] rfl, ← List.append_assoc]
  congr 1
  simp only [textOf, inkOf, Fragment.ink, Fragment.shape, List.append_nil, List.flatMap_cons, List.flatMap_nil]
  rfl

theorem startInlineBox_text (asc : Rat) (o : Vec2 Rat) (cb : ContainingBlock) (s : ComputedValues) (first last : Bool) (children : List InlineLevelBox)
    (ifc : InlineState) : (startInlineBox cb s first last children ifc).text v asc o = ifc.text v asc o := by
  simp only [InlineState.text, startInlineBox, openText]
  simp [textOf, inkOf]

theorem popBox_text (hQ : ∀ s, v.Q s) (asc : Rat) (o : Vec2 Rat) {ifc ifc' : InlineState} (h : popBox ifc = some ifc') :
    ifc'.text v asc o = ifc.text v asc o := by
  simp only [popBox] at h
  split at h
  · cases h
  · rename_i p stack hs
    cases h
    simp only [InlineState.text, hs, finish_text hQ]

theorem openText_ids (asc : Rat) (o : Vec2 Rat) : ∀ (stack : List PartialInlineBox) (level : NestingLevel),
    (openText v asc o stack level).flatMap Shape.ids = (stackGlyphs stack ++ fragmentsGlyphs level.fragmentsSoFar).map Prod.snd
  | [], level => by rw [openText, textOf_ids]; rfl
  | p :: rest, level => by
    rw [openText, List.flatMap_append, openText_ids asc o rest, textOf_ids, stackGlyphs, ← List.map_append]

theorem InlineState.text_ids (asc : Rat) (o : Vec2 Rat) (ifc : InlineState) :
    (ifc.text v asc o).flatMap Shape.ids = ifc.glyphs.map Prod.snd := by
  rw [InlineState.text, List.flatMap_append, textOf_ids, openText_ids, ← List.map_append, InlineState.glyphs]

/-! ### More and more is seen -/

/-- `ifc'` comes after `ifc`, and `t` is laid out in between. -/
structure Grows (F : FontApi Rat Err) (v : Look) (asc : Rat) (ifc ifc' : InlineState) (t : List (ComputedValues × Nat)) : Prop where
  made : ifc.Made F → ifc'.Made F
  text : ifc.Made F → ∃ (new : Vec2 Rat → List Shape) (glyphs : List (ComputedValues × Nat)), (∀ o, ifc'.text v asc o = ifc.text v asc o ++ new o) ∧
    Shown F t glyphs ∧ ∀ o, (new o).flatMap Shape.ids = glyphs.map Prod.snd

theorem Grows.refl (asc : Rat) (ifc : InlineState) : Grows F v asc ifc ifc [] :=
  ⟨id, fun _ => ⟨fun _ => [], [], by simp, .nil, fun _ => rfl⟩⟩

theorem Grows.trans {asc : Rat} {a b c : InlineState} {t u : List (ComputedValues × Nat)} (h : Grows F v asc a b t) (h' : Grows F v asc b c u) :
    Grows F v asc a c (t ++ u) := by
  refine ⟨fun hm => h'.made (h.made hm), fun hm => ?_⟩
  obtain ⟨n1, g1, a1, a2, a3⟩ := h.text hm
  obtain ⟨n2, g2, b1, b2, b3⟩ := h'.text (h.made hm)
  exact ⟨fun o => n1 o ++ n2 o, g1 ++ g2, fun o => by rw [b1, a1, List.append_assoc], a2.append b2,
    fun o => by rw [List.flatMap_append, a3, b3, List.map_append]⟩

theorem textLines_seen (hQ : ∀ s, v.Q s) (asc : Rat) (cb : ContainingBlock) (s : ComputedValues) (available : Rat) : ∀ (fuel : Nat) (chars : List Nat)
    (ifc ifc' : InlineState), textLines F cb s available fuel chars ifc = some ifc' → ∃ new : Vec2 Rat → List Shape, ∀ o, ifc'.text v asc o = ifc.text v asc o ++ new o := by
  intro fuel
  induction fuel with
  | zero => intro chars ifc ifc' h; simp [textLines] at h
  | succ fuel ih =>
    intro chars ifc ifc' h
    simp only [textLines] at h
    split at h
    · cases h
    · rename_i shaped rest hs
      split at h
      · cases h
        exact ⟨_, fun o => pushText_text asc o s shaped ifc⟩
      · obtain ⟨new, hn⟩ := ih _ _ _ h
        refine ⟨fun o => v.see (.glyphs shaped.glyphs (fontSizeOf s)
          ⟨(originOf (o.add ⟨0, ifc.lineBoxes.nextLineBlockPosition⟩) ifc.stack).inline + (ifc.inlinePosition - ifc.current.inlineStart),
           (originOf (o.add ⟨0, ifc.lineBoxes.nextLineBlockPosition⟩) ifc.stack).block + 0 + asc * fontSizeOf s⟩ ((s.values .color : RGBA))) ++ new o, fun o => ?_⟩
        rw [hn]
        obtain ⟨b1, b2⟩ := breakLine_text hQ asc cb o (pushText s shaped ifc).stack (pushText s shaped ifc).current (pushText s shaped ifc).inlinePosition
          (pushText s shaped ifc).lineBoxes
        simp only [InlineState.text] at b1 b2 ⊢
        rw [b1, b2, List.append_nil]
        have := pushText_text (v := v) asc o s shaped ifc
        simp only [InlineState.text] at this
        rw [this, List.append_assoc, List.append_assoc]

theorem Grows.of_seen {asc : Rat} {ifc ifc' : InlineState} {t : List (ComputedValues × Nat)} (h1 : ifc.Made F → ifc'.Made F)
    (h2 : ∃ new : Vec2 Rat → List Shape, ∀ o, ifc'.text v asc o = ifc.text v asc o ++ new o)
    (h3 : ifc.Made F → ∃ g, Shown F t g ∧ ifc'.glyphs = ifc.glyphs ++ g) : Grows F v asc ifc ifc' t := by
  refine ⟨h1, fun hm => ?_⟩
  obtain ⟨new, hn⟩ := h2
  obtain ⟨g, hs, hg⟩ := h3 hm
  refine ⟨new, g, hn, hs, fun o => ?_⟩
  have := ifc'.text_ids (v := v) asc o
  rw [hn, List.flatMap_append, ifc.text_ids, hg, List.map_append] at this
  exact List.append_cancel_left this

theorem textRun_grows (hQ : ∀ s, v.Q s) (asc : Rat) {cb : ContainingBlock} (hm : cb.mode = (.horizontalTb, .ltr)) {s : ComputedValues} {text : List Nat}
    {ifc ifc' : InlineState} (h : layoutTextRun F cb s text ifc = some ifc') : Grows F v asc ifc ifc' (text.map fun c => (s, c)) :=
  .of_seen (fun hmade => (textLines_shown cb hm s _ _ _ _ _ hmade h).1) (textLines_seen hQ asc cb s _ _ _ _ _ h)
    (fun hmade => (textLines_shown cb hm s _ _ _ _ _ hmade h).2.2)

theorem startInlineBox_grows (asc : Rat) (cb : ContainingBlock) (s : ComputedValues) (first last : Bool) (children : List InlineLevelBox) (ifc : InlineState) :
    Grows F v asc ifc (startInlineBox cb s first last children ifc) [] := by
  refine .of_seen (fun h => ⟨h.lines, ?_, trivial⟩) ⟨fun _ => [], fun o => by rw [startInlineBox_text, List.append_nil]⟩ (fun _ => ⟨[], .nil, ?_⟩)
  · intro p hp
    simp only [startInlineBox] at hp
    rcases List.mem_cons.1 hp with rfl | hp
    · exact h.current
    · exact h.stack p hp
  · simp [startInlineBox, InlineState.glyphs, stackGlyphs, fragmentsGlyphs]

theorem popBox_grows (hQ : ∀ s, v.Q s) (asc : Rat) {ifc ifc' : InlineState} (h : popBox ifc = some ifc') : Grows F v asc ifc ifc' [] := by
  refine .of_seen (fun hm => ?_) ⟨fun _ => [], fun o => by rw [popBox_text hQ asc o h, List.append_nil]⟩ (fun _ => ⟨[], .nil, ?_⟩)
  all_goals
    simp only [popBox] at h
    split at h
    · cases h
    rename_i p stack hs
    cases h
  · refine ⟨hm.lines, fun q hq => hm.stack q (by rw [hs]; exact List.mem_cons_of_mem _ hq), ?_⟩
    simp only [PartialInlineBox.finish]
    rw [allMade_append]
    exact ⟨hm.stack p (by rw [hs]; exact List.mem_cons_self), hm.current, trivial⟩
  · simp [InlineState.glyphs, hs, stackGlyphs, PartialInlineBox.finish, fragmentsGlyphs_append, fragmentsGlyphs, Fragment.glyphs]

mutual
theorem execBox_grows (hQ : ∀ s, v.Q s) (asc : Rat) {cb : ContainingBlock} (hm : cb.mode = (.horizontalTb, .ltr)) : ∀ (b : InlineLevelBox) (ifc ifc' : InlineState),
    b.Only NoAbsolutes → execBox F cb b ifc = some ifc' → Grows F v asc ifc ifc' b.runs.flatten
  | .inlineBox s first last children => by
    intro ifc ifc' hno h
    simp only [execBox] at h
    rcases h1 : execAll F cb children (startInlineBox cb s first last [] ifc) with _ | ifc1
    · simp [h1] at h
    · simp only [h1] at h
      have := ((startInlineBox_grows (F := F) (v := v) asc cb s first last [] ifc).trans (execAll_grows hQ asc hm children _ _ hno h1)).trans (popBox_grows hQ asc h)
      simpa [InlineLevelBox.runs] using this
  | .textRun s text => by
    intro ifc ifc' hno h
    simpa [InlineLevelBox.runs] using textRun_grows hQ asc hm h
  | .outOfFlowAbsolutelyPositioned _ _ _ => fun _ _ hno => absurd rfl hno.1
  | .outOfFlowFloat _ _ _ => by
    intro ifc ifc' hno h
    cases h
    exact .refl asc ifc
theorem execAll_grows (hQ : ∀ s, v.Q s) (asc : Rat) {cb : ContainingBlock} (hm : cb.mode = (.horizontalTb, .ltr)) : ∀ (bs : List InlineLevelBox) (ifc ifc' : InlineState),
    inlinesOnly NoAbsolutes bs → execAll F cb bs ifc = some ifc' → Grows F v asc ifc ifc' (inlinesRuns bs).flatten
  | [] => by
    intro ifc ifc' _ h
    cases h
    exact .refl asc ifc
  | b :: bs => by
    intro ifc ifc' hno h
    simp only [execAll] at h
    rcases h1 : execBox F cb b ifc with _ | ifc1
    · simp [h1] at h
    · simp only [h1] at h
      simpa [inlinesRuns] using (execBox_grows hQ asc hm b _ _ hno.1 h1).trans (execAll_grows hQ asc hm bs _ _ hno.2 h)
end

end Verif.Layout
