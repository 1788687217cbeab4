/- Layout shows all the text of the boxes: lemmas. -/
import Verif.Layout.ShownSpec
import Verif.Layout.TotalTheorems
import Verif.Layout.InlineLemmas
namespace Verif.Layout
open Verif.Style Verif.Text
variable {Err : Type} {F : FontApi Rat Err}

/-! ### Glyphs -/

theorem fragmentsGlyphs_append (a b : List Fragment) : fragmentsGlyphs (a ++ b) = fragmentsGlyphs a ++ fragmentsGlyphs b := by
  induction a with
  | nil => rfl
  | cons f a ih => simp [fragmentsGlyphs, ih]

theorem Shown.append {R : Type} {F : FontApi R Err} {t u g h : List (ComputedValues × Nat)} (h1 : Shown F t g) (h2 : Shown F u h) : Shown F (t ++ u) (g ++ h) := by
  induction h1 with
  | nil => exact h2
  | char hc _ ih => exact .char hc ih
  | space _ ih => exact .space ih

theorem Shown.of_shaped {text glyphs : List Nat} {width : Rat} (h : IsShaped F text glyphs width) (s : ComputedValues) :
    Shown F (text.map fun c => (s, c)) (glyphs.map fun g => (s, g)) := by
  induction h with
  | nil => exact .nil
  | snoc _ hid _ ih =>
    rw [List.map_append, List.map_append]
    exact ih.append (.char hid .nil)

mutual
/-- What layout makes of fragments: everything is in the same writing mode, and glyphs come from the font. -/
def Fragment.Made (F : FontApi Rat Err) : Fragment → Prop
  | .box _ children => allMade F children
  | .anonymous _ children mode => mode = (.horizontalTb, .ltr) ∧ allMade F children
  | .text _ _ segment => ∀ g ∈ segment.glyphs, ∃ c, F.glyphId c = .ok g
/-- See `Fragment.Made`. -/
def allMade (F : FontApi Rat Err) : List Fragment → Prop
  | [] => True
  | f :: fs => f.Made F ∧ allMade F fs
end

theorem allMade_append (a b : List Fragment) : allMade F (a ++ b) ↔ allMade F a ∧ allMade F b := by
  induction a with
  | nil => simp [allMade]
  | cons f a ih => simp [allMade, ih, and_assoc]

theorem shaped_made {text glyphs : List Nat} {width : Rat} (h : IsShaped F text glyphs width) : ∀ g ∈ glyphs, ∃ c, F.glyphId c = .ok g := by
  induction h with
  | nil => simp
  | snoc _ hid _ ih =>
    intro g hg
    rcases List.mem_append.1 hg with hg | hg
    · exact ih g hg
    · rw [List.mem_singleton.1 hg]
      exact ⟨_, hid⟩

/-! ### Inline formatting contexts -/

/-- The glyphs in the nesting levels outside the current one. -/
def stackGlyphs : List PartialInlineBox → List (ComputedValues × Nat)
  | [] => []
  | p :: rest => stackGlyphs rest ++ fragmentsGlyphs p.parentNestingLevel.fragmentsSoFar

/-- All the glyphs so far. -/
def InlineState.glyphs (ifc : InlineState) : List (ComputedValues × Nat) :=
  fragmentsGlyphs ifc.lineBoxes.boxes ++ (stackGlyphs ifc.stack ++ fragmentsGlyphs ifc.current.fragmentsSoFar)

/-- All the fragments so far are as they should be. -/
structure InlineState.Made (F : FontApi Rat Err) (ifc : InlineState) : Prop where
  lines : allMade F ifc.lineBoxes.boxes
  stack : ∀ p ∈ ifc.stack, allMade F p.parentNestingLevel.fragmentsSoFar
  current : allMade F ifc.current.fragmentsSoFar

theorem breakLine_shown (cb : ContainingBlock) (hcb : cb.mode = (.horizontalTb, .ltr)) :
    ∀ (stack : List PartialInlineBox) (level : NestingLevel) (position : Rat) (lines : LinesBoxes),
      (∀ p ∈ stack, allMade F p.parentNestingLevel.fragmentsSoFar) → allMade F level.fragmentsSoFar → allMade F lines.boxes →
      fragmentsGlyphs (breakLine cb stack level position lines).2.2.boxes =
          fragmentsGlyphs lines.boxes ++ (stackGlyphs stack ++ fragmentsGlyphs level.fragmentsSoFar) ∧
        stackGlyphs (breakLine cb stack level position lines).1 = [] ∧
        (breakLine cb stack level position lines).2.1.fragmentsSoFar = [] ∧
        allMade F (breakLine cb stack level position lines).2.2.boxes ∧
        ∀ p ∈ (breakLine cb stack level position lines).1, p.parentNestingLevel.fragmentsSoFar = [] := by
  intro stack
  induction stack with
  | nil =>
    intro level position lines hs hl hb
    simp only [breakLine, finishLine, stackGlyphs, fragmentsGlyphs_append, allMade_append]
    refine ⟨by simp [fragmentsGlyphs, Fragment.glyphs], trivial, trivial, ⟨hb, ⟨hcb, hl⟩, trivial⟩, by simp⟩
  | cons p rest ih =>
    intro level position lines hs hl hb
    simp only [breakLine]
    obtain ⟨h1, h2, h3, h4, h5⟩ := ih (p.finish { level with inlineStart := 0 } position true).1.parentNestingLevel
      (p.finish { level with inlineStart := 0 } position true).2.2 lines (fun q hq => hs q (List.mem_cons_of_mem _ hq)) (by
        simp only [PartialInlineBox.finish]
        rw [allMade_append]
        exact ⟨hs p List.mem_cons_self, hl, trivial⟩) hb
    refine ⟨?_, ?_, rfl, h4, ?_⟩
    · rw [h1]
      simp [PartialInlineBox.finish, stackGlyphs, fragmentsGlyphs_append, fragmentsGlyphs, Fragment.glyphs]
    · simp only [stackGlyphs, h2, h3, fragmentsGlyphs, List.append_nil]
    · intro q hq
      rcases List.mem_cons.1 hq with rfl | hq
      · exact h3
      · exact h5 q hq

theorem textLines_shown (cb : ContainingBlock) (hcb : cb.mode = (.horizontalTb, .ltr)) (style : ComputedValues) (available : Rat) :
    ∀ (fuel : Nat) (chars : List Nat) (ifc ifc' : InlineState), ifc.Made F →
      textLines F cb style available fuel chars ifc = some ifc' →
      ifc'.Made F ∧ ifc'.allRemaining = ifc.allRemaining ∧
        ∃ g, Shown F (chars.map fun c => (style, c)) g ∧ ifc'.glyphs = ifc.glyphs ++ g := by
  intro fuel
  induction fuel with
  | zero => intro chars ifc ifc' _ h; simp [textLines] at h
  | succ fuel ih =>
    intro chars ifc ifc' hm h
    simp only [textLines] at h
    rcases hs : shapeLine F (fontSizeOf style) available chars (ShapedSegment.new F) none with _ | ⟨shaped, rest⟩
    · simp [hs] at h
    · obtain ⟨line, hline, -, hsplit⟩ := shapeLine_line _ _ _ _ _ hs
      simp only [hs] at h
      have hpush : (pushText style shaped ifc).Made F := by
        refine ⟨hm.lines, hm.stack, ?_⟩
        simp only [pushText]
        rw [allMade_append]
        exact ⟨hm.current, shaped_made hline, trivial⟩
      have hglyphs : (pushText style shaped ifc).glyphs = ifc.glyphs ++ shaped.glyphs.map fun g => (style, g) := by
        simp [pushText, InlineState.glyphs, fragmentsGlyphs_append, fragmentsGlyphs, Fragment.glyphs]
      by_cases hr : rest = []
      · rw [if_pos hr] at h
        cases h
        refine ⟨hpush, rfl, _, ?_, hglyphs⟩
        rcases hsplit with ⟨e, _⟩ | ⟨e, _⟩
        · rw [e]; exact .of_shaped hline style
        · rw [e, hr, List.map_append, ← List.append_nil (List.map (fun g => (style, g)) shaped.glyphs)]
          exact (Shown.of_shaped hline style).append (.space .nil)
      · rw [if_neg hr] at h
        obtain ⟨b1, b2, b3, b4, b5⟩ := breakLine_shown cb hcb (pushText style shaped ifc).stack (pushText style shaped ifc).current
          (pushText style shaped ifc).inlinePosition (pushText style shaped ifc).lineBoxes hpush.stack hpush.current hpush.lines
        obtain ⟨r1, r2⟩ := breakLine_remaining cb (pushText style shaped ifc).stack (pushText style shaped ifc).current
          (pushText style shaped ifc).inlinePosition (pushText style shaped ifc).lineBoxes
        obtain ⟨m, hrem, g, hg, he⟩ := ih rest _ ifc' ⟨b4, fun p hp => by rw [b5 p hp]; trivial, by rw [b3]; trivial⟩ h
        refine ⟨m, ?_, shaped.glyphs.map (fun g => (style, g)) ++ g, ?_, ?_⟩
        · rw [hrem]
          simp only [InlineState.allRemaining, r1, r2]
          rfl
        · rcases hsplit with ⟨_, e⟩ | ⟨e, _⟩
          · exact absurd e hr
          · rw [e, List.map_append]
            exact (Shown.of_shaped hline style).append (.space hg)
        · rw [he, ← List.append_assoc, ← hglyphs]
          simp only [InlineState.glyphs, b1, b2, b3, fragmentsGlyphs, List.append_nil]

/-- The texts of the boxes that are still to be laid out. -/
def pendingRuns (as : Absolutes) : List (List (ComputedValues × Nat)) := as.flatMap fun a => a.box.contents.contents.runs

/-- These texts are shown in the glyphs, but for those that are pending, perhaps in another order. -/
def Shows (F : FontApi Rat Err) (inOrder : Prop) (runs : List (List (ComputedValues × Nat))) (glyphs : List (ComputedValues × Nat))
    (as : Absolutes) : Prop :=
  ∃ p, Shown F p.flatten glyphs ∧ (p ++ pendingRuns as).Perm runs ∧ (inOrder → as = [] ∧ p = runs)

theorem Shows.nil (o : Prop) : Shows F o [] [] [] := ⟨[], .nil, by simp [pendingRuns], fun _ => ⟨rfl, rfl⟩⟩

theorem Shows.append {o o' : Prop} {r r' : List (List (ComputedValues × Nat))} {g g' : List (ComputedValues × Nat)} {as as' : Absolutes}
    (h : Shows F o r g as) (h' : Shows F o' r' g' as') : Shows F (o ∧ o') (r ++ r') (g ++ g') (as ++ as') := by
  obtain ⟨p, h1, h2, h3⟩ := h
  obtain ⟨p', h1', h2', h3'⟩ := h'
  refine ⟨p ++ p', by rw [List.flatten_append]; exact h1.append h1', ?_, ?_⟩
  · have : pendingRuns (as ++ as') = pendingRuns as ++ pendingRuns as' := by simp [pendingRuns]
    rw [this]
    refine List.Perm.trans ?_ (h2.append h2')
    rw [List.append_assoc, List.append_assoc]
    refine List.Perm.append_left p ?_
    rw [← List.append_assoc, ← List.append_assoc]
    exact List.Perm.append_right _ List.perm_append_comm
  · rintro ⟨ho, ho'⟩
    obtain ⟨rfl, rfl⟩ := h3 ho
    obtain ⟨rfl, rfl⟩ := h3' ho'
    exact ⟨rfl, rfl⟩

theorem Shows.mono {o o' : Prop} {r : List (List (ComputedValues × Nat))} {g : List (ComputedValues × Nat)} {as : Absolutes}
    (h : Shows F o r g as) (ho : o' → o) : Shows F o' r g as := by
  obtain ⟨p, h1, h2, h3⟩ := h
  exact ⟨p, h1, h2, fun h => h3 (ho h)⟩

/-- No absolutely positioned boxes. -/
abbrev NoAbsolutes : OutOfFlow → Prop := (· ≠ .absolute)

/-- The texts in the boxes that remain. -/
def remainingRuns (r : List (List InlineLevelBox)) : List (List (ComputedValues × Nat)) := r.flatMap inlinesRuns

theorem inlineLoop_shown (cb : ContainingBlock) (hcb : cb.mode = (.horizontalTb, .ltr)) (rank : Nat) :
    ∀ (fuel : Nat) (ifc : InlineState) (fc : FlowChildren) (as : Absolutes), ifc.Made F →
      inlineLoop F cb rank fuel ifc [] = some (fc, as) →
      allMade F fc.fragments ∧ ∃ g, fragmentsGlyphs fc.fragments = ifc.glyphs ++ g ∧
        Shows F (∀ bs ∈ ifc.allRemaining, inlinesOnly NoAbsolutes bs) (remainingRuns ifc.allRemaining) g as := by
  intro fuel
  induction fuel with
  | zero => intro ifc fc as _ h; simp [inlineLoop] at h
  | succ fuel ih =>
    intro ifc fc as hm h
    simp only [inlineLoop, inlineStep] at h
    rcases hr : ifc.current.remainingBoxes with _ | ⟨child, remaining⟩
    · simp only [hr] at h
      rcases hst : ifc.stack with _ | ⟨p, stack⟩
      · simp only [hst, Option.some.injEq, Prod.mk.injEq] at h
        obtain ⟨rfl, rfl⟩ := h
        refine ⟨?_, [], ?_, ?_⟩
        · simp only [finishLine]
          rw [allMade_append]
          exact ⟨hm.lines, ⟨hcb, hm.current⟩, trivial⟩
        · simp [finishLine, fragmentsGlyphs_append, fragmentsGlyphs, Fragment.glyphs, InlineState.glyphs, hst, stackGlyphs]
        · simp only [InlineState.allRemaining, hr, hst, List.map_nil, remainingRuns, List.flatMap_cons, List.flatMap_nil, inlinesRuns,
            List.append_nil]
          exact .nil _
      · simp only [hst] at h
        obtain ⟨m, g, e, hs⟩ := ih _ fc as (by
          refine ⟨hm.lines, fun q hq => hm.stack q (by rw [hst]; exact List.mem_cons_of_mem _ hq), ?_⟩
          simp only [PartialInlineBox.finish]
          rw [allMade_append]
          exact ⟨hm.stack p (by rw [hst]; exact List.mem_cons_self), hm.current, trivial⟩) h
        refine ⟨m, g, ?_, ?_⟩
        · rw [e]
          simp [InlineState.glyphs, hst, stackGlyphs, PartialInlineBox.finish, fragmentsGlyphs_append, fragmentsGlyphs, Fragment.glyphs]
        · have hrem : remainingRuns ifc.allRemaining = remainingRuns
              (({ ifc with
                  inlinePosition := (p.finish ifc.current ifc.inlinePosition false).2.2
                  stack := stack
                  current := (p.finish ifc.current ifc.inlinePosition false).1.parentNestingLevel } : InlineState).allRemaining) := by
            simp only [InlineState.allRemaining, hr, hst, remainingRuns, List.flatMap_cons, inlinesRuns, List.map_cons, List.nil_append]
            rfl
          rw [hrem]
          refine hs.mono fun ho bs hbs => ho bs ?_
          simp only [InlineState.allRemaining, hst, List.map_cons] at hbs ⊢
          exact List.mem_cons_of_mem _ hbs
    · simp only [hr] at h
      have hrem : remainingRuns ifc.allRemaining = child.runs ++ remainingRuns (remaining :: ifc.stack.map PartialInlineBox.remaining) := by
        simp only [InlineState.allRemaining, hr, remainingRuns, List.flatMap_cons, inlinesRuns, List.append_assoc]
      have hno : (∀ bs ∈ ifc.allRemaining, inlinesOnly NoAbsolutes bs) →
          child.Only NoAbsolutes ∧ ∀ bs ∈ remaining :: ifc.stack.map PartialInlineBox.remaining, inlinesOnly NoAbsolutes bs := by
        intro ho
        have h1 := ho (child :: remaining) (by simp [InlineState.allRemaining, hr])
        refine ⟨h1.1, fun bs hbs => ?_⟩
        rcases List.mem_cons.1 hbs with rfl | hbs
        · exact h1.2
        · exact ho bs (by simp only [InlineState.allRemaining]; exact List.mem_cons_of_mem _ hbs)
      rw [hrem]
      cases child with
      | inlineBox style first last children =>
        simp only at h
        obtain ⟨m, g, e, hs⟩ := ih _ fc as (by
            refine ⟨hm.lines, ?_, trivial⟩
            intro q hq
            simp only [startInlineBox] at hq
            rcases List.mem_cons.1 hq with rfl | hq
            · exact hm.current
            · exact hm.stack q hq) h
        refine ⟨m, g, ?_, ?_⟩
        · rw [e]
          simp [startInlineBox, InlineState.glyphs, stackGlyphs, fragmentsGlyphs]
        · have he : remainingRuns ((startInlineBox cb style first last children
              { ifc with current := { ifc.current with remainingBoxes := remaining } }).allRemaining) =
              (InlineLevelBox.inlineBox style first last children).runs ++
                remainingRuns (remaining :: ifc.stack.map PartialInlineBox.remaining) := by
            simp only [startInlineBox, InlineState.allRemaining, List.map_cons, remainingRuns, List.flatMap_cons, InlineLevelBox.runs]
            rfl
          rw [he] at hs
          refine hs.mono fun ho bs hbs => ?_
          obtain ⟨h1, h2⟩ := hno ho
          simp only [startInlineBox, InlineState.allRemaining, List.map_cons] at hbs
          rcases List.mem_cons.1 hbs with rfl | hbs
          · exact h1
          · exact h2 bs hbs
      | textRun style text =>
        simp only at h
        rcases ht : layoutTextRun F cb style text { ifc with current := { ifc.current with remainingBoxes := remaining } } with _ | ifc1
        · simp [ht] at h
        · simp only [ht] at h
          obtain ⟨m1, r1, g1, s1, e1⟩ := textLines_shown cb hcb style _ _ text _ ifc1 (by exact ⟨hm.lines, hm.stack, hm.current⟩) ht
          obtain ⟨m, g, e, hs⟩ := ih _ fc as m1 h
          refine ⟨m, g1 ++ g, ?_, ?_⟩
          · rw [e, e1]
            simp [InlineState.glyphs]
          · rw [r1] at hs
            have := Shows.append (F := F) (o := True) (r := [text.map fun c => (style, c)]) (g := g1) (as := [])
              ⟨[text.map fun c => (style, c)], by simpa using s1, by simp [pendingRuns], fun _ => ⟨rfl, rfl⟩⟩ hs
            refine Shows.mono this fun ho => ⟨trivial, (hno ho).2⟩
      | outOfFlowAbsolutelyPositioned style floats contents =>
        simp only at h
        rcases hi : staticInlineStart style ifc.inlinePosition with _ | i
        · simp [hi] at h
        · simp only [hi, List.nil_append] at h
          rw [inlineLoop_prepend] at h
          rcases hl : inlineLoop F cb rank fuel { ifc with current := { ifc.current with remainingBoxes := remaining } } [] with _ | ⟨fc1, as1⟩
          · simp [hl] at h
          · simp only [hl, prepend_some, Option.some.injEq, Prod.mk.injEq] at h
            obtain ⟨rfl, rfl⟩ := h
            obtain ⟨m, g, e, hs⟩ := ih _ _ _ (by exact ⟨hm.lines, hm.stack, hm.current⟩) hl
            refine ⟨m, g, e, ?_⟩
            have := Shows.append (F := F) (o := False) (r := contents.runs) (g := [])
              (as := [AbsolutelyPositionedBox.layout ⟨style, ⟨contents, floats⟩⟩ ⟨i, ifc.lineBoxes.nextLineBlockPosition⟩ rank])
              ⟨[], .nil, by simp [pendingRuns, AbsolutelyPositionedBox.layout], False.elim⟩ hs
            exact Shows.mono this fun ho => absurd rfl (hno ho).1.1
      | outOfFlowFloat style floats contents =>
        simp only at h
        obtain ⟨m, g, e, hs⟩ := ih _ fc as (by exact ⟨hm.lines, hm.stack, hm.current⟩) h
        exact ⟨m, g, e, hs.mono fun ho => (hno ho).2⟩

theorem layoutInline_shown (boxes : List InlineLevelBox) (cb : ContainingBlock) (hcb : cb.mode = (.horizontalTb, .ltr)) (rank : Nat)
    (fc : FlowChildren) (as : Absolutes) (h : layoutInline F boxes cb rank [] = some (fc, as)) :
    allMade F fc.fragments ∧ Shows F (inlinesOnly NoAbsolutes boxes) (inlinesRuns boxes) (fragmentsGlyphs fc.fragments) as := by
  obtain ⟨m, g, e, hs⟩ := inlineLoop_shown cb hcb rank _ _ fc as (by exact ⟨trivial, by simp [initialInlineState], trivial⟩) h
  refine ⟨m, ?_⟩
  rw [e]
  simp only [initialInlineState, InlineState.glyphs, stackGlyphs, fragmentsGlyphs, List.nil_append, InlineState.allRemaining, List.map_nil,
    remainingRuns, List.flatMap_cons, List.flatMap_nil, List.append_nil, List.mem_singleton, forall_eq] at hs ⊢
  exact hs

/-! ### Block-level boxes -/

theorem placeFragment_shown {s s' : PlacementState} {f f' : Fragment} (h : placeFragment s f = some (f', s')) :
    f'.glyphs = f.glyphs ∧ (f.Made F → f'.Made F) := by
  cases f with
  | text style rect segment => simp [placeFragment] at h
  | anonymous rect children mode =>
    simp only [placeFragment] at h
    split at h
    · cases h
      exact ⟨rfl, id⟩
    · cases h
  | box b children =>
    simp only [placeFragment] at h
    repeat' split at h
    all_goals first
      | cases h; exact ⟨rfl, id⟩
      | cases h

theorem placeAll_shown : ∀ (fs fs' : List Fragment) (s s' : PlacementState), placeAll s fs = some (fs', s') →
    fragmentsGlyphs fs' = fragmentsGlyphs fs ∧ (allMade F fs → allMade F fs') := by
  intro fs
  induction fs with
  | nil =>
    intro fs' s s' h
    simp only [placeAll] at h
    cases h
    exact ⟨rfl, id⟩
  | cons f fs ih =>
    intro fs' s s' h
    simp only [placeAll] at h
    rcases hp : placeFragment s f with _ | ⟨f1, s1⟩
    · simp [hp] at h
    · simp only [hp] at h
      rcases ha : placeAll s1 fs with _ | ⟨fs1, s2⟩
      · simp [ha] at h
      · simp only [ha] at h
        cases h
        obtain ⟨h1, h2⟩ := placeFragment_shown (F := F) hp
        obtain ⟨h3, h4⟩ := ih _ _ _ ha
        exact ⟨by simp only [fragmentsGlyphs, h1, h3], fun h => ⟨h2 h.1, h4 h.2⟩⟩

theorem adjustStaticPositions_pending (fs : List Fragment) (rank : Nat) : ∀ (as as' : Absolutes),
    adjustStaticPositions as fs rank = some as' → pendingRuns as' = pendingRuns as ∧ (as = [] → as' = []) := by
  intro as
  induction as with
  | nil =>
    intro as' h
    simp only [adjustStaticPositions] at h
    cases h
    exact ⟨rfl, id⟩
  | cons a as ih =>
    intro as' h
    simp only [adjustStaticPositions] at h
    repeat' split at h
    all_goals first
      | cases h; done
      | skip
    rename_i as1 h1
    cases h
    obtain ⟨h2, -⟩ := ih _ h1
    refine ⟨?_, by simp⟩
    simp only [pendingRuns, List.flatMap_cons] at h2 ⊢
    rw [h2]

theorem seqChildren_shown {g : Nat → BlockLevelBox → Option (Fragment × Absolutes)}
    (hg : ∀ rank b f as, g rank b = some (f, as) → f.Made F ∧ Shows F (b.Only NoAbsolutes) b.runs f.glyphs as) :
    ∀ (bs : List BlockLevelBox) (rank : Nat) (fs : List Fragment) (as : Absolutes), seqChildren g rank bs = some (fs, as) →
      allMade F fs ∧ Shows F (blocksOnly NoAbsolutes bs) (blocksRuns bs) (fragmentsGlyphs fs) as := by
  intro bs
  induction bs with
  | nil =>
    intro rank fs as h
    simp only [seqChildren] at h
    cases h
    exact ⟨trivial, .nil _⟩
  | cons b bs ih =>
    intro rank fs as h
    simp only [seqChildren] at h
    rcases h1 : g rank b with _ | ⟨f, as1⟩
    · simp [h1] at h
    · rcases h2 : seqChildren g (rank + 1) bs with _ | ⟨fs', as2⟩
      · simp [h1, h2] at h
      · simp only [h1, h2] at h
        cases h
        obtain ⟨m1, s1⟩ := hg _ _ _ _ h1
        obtain ⟨m2, s2⟩ := ih _ _ _ h2
        exact ⟨⟨m1, m2⟩, s1.append s2⟩

theorem canonicalChildren_shown {g : Nat → BlockLevelBox → Option (Fragment × Absolutes)}
    (hg : ∀ rank b f as, g rank b = some (f, as) → f.Made F ∧ Shows F (b.Only NoAbsolutes) b.runs f.glyphs as)
    (boxes : List BlockLevelBox) (rank : Nat) (coll : Bool) (fc : FlowChildren) (as : Absolutes)
    (h : canonicalChildren g boxes rank coll = some (fc, as)) :
    allMade F fc.fragments ∧ Shows F (blocksOnly NoAbsolutes boxes) (blocksRuns boxes) (fragmentsGlyphs fc.fragments) as := by
  simp only [canonicalChildren] at h
  rcases h1 : seqChildren g 0 boxes with _ | ⟨fs, as1⟩
  · simp [h1] at h
  · simp only [h1] at h
    rcases h2 : placeAll (.initial coll) fs with _ | ⟨fs', s⟩
    · simp [h2] at h
    · simp only [h2, finishChildren, List.drop_zero] at h
      rcases h3 : adjustStaticPositions as1 fs' rank with _ | as2
      · simp [h3] at h
      · simp only [h3, List.take_zero, List.nil_append] at h
        cases h
        obtain ⟨m, p, s1, s2, s3⟩ := seqChildren_shown hg _ _ _ _ h1
        obtain ⟨e, m'⟩ := placeAll_shown (F := F) _ _ _ _ h2
        obtain ⟨e', n'⟩ := adjustStaticPositions_pending _ _ _ _ h3
        refine ⟨m' m, p, by rw [e]; exact s1, by rw [e']; exact s2, fun h => ⟨n' (s3 h).1, (s3 h).2⟩⟩

/-- The text of an absolutely positioned box is shown in its fragment. -/
def ShowsAbsolute (F : FontApi Rat Err) (a : AbsolutelyPositionedFragment) (f : Fragment) : Prop :=
  f.Made F ∧ ∃ p : List (List (ComputedValues × Nat)), Shown F p.flatten f.glyphs ∧ p.Perm a.box.contents.contents.runs

theorem layoutAll_shown {la : Nat → AbsolutelyPositionedFragment → Option Fragment} :
    ∀ (as : Absolutes) (k : Nat) (fs : List Fragment), (∀ k a f, la k a = some f → ShowsAbsolute F a f) → layoutAll la k as = some fs →
      allMade F fs ∧ ∃ p : List (List (ComputedValues × Nat)), Shown F p.flatten (fragmentsGlyphs fs) ∧ p.Perm (pendingRuns as) := by
  intro as
  induction as with
  | nil =>
    intro k fs _ h
    simp only [layoutAll] at h
    cases h
    exact ⟨trivial, [], .nil, by simp [pendingRuns]⟩
  | cons a as ih =>
    intro k fs hla h
    simp only [layoutAll] at h
    rcases h1 : la k a with _ | f
    · simp [h1] at h
    · rcases h2 : layoutAll la (k + 1) as with _ | fs'
      · simp [h1, h2] at h
      · simp only [h1, h2] at h
        cases h
        obtain ⟨m1, p1, s1, r1⟩ := hla _ _ _ h1
        obtain ⟨m2, p2, s2, r2⟩ := ih _ _ hla h2
        refine ⟨⟨m1, m2⟩, p1 ++ p2, by rw [List.flatten_append]; exact s1.append s2, ?_⟩
        simp only [pendingRuns, List.flatMap_cons]
        exact r1.append r2

theorem inPositioned_shown {la : DefiniteContainingBlock → Nat → AbsolutelyPositionedFragment → Option Fragment}
    {as : Absolutes} {fs fs' : List Fragment} {size : Vec2 Rat} {padding : Sides Rat} {o : Prop} {runs : List (List (ComputedValues × Nat))}
    (hla : ∀ (cb : DefiniteContainingBlock) k a f, cb.mode = (.horizontalTb, .ltr) → la cb k a = some f → ShowsAbsolute F a f)
    (hm : allMade F fs) (hs : Shows F o runs (fragmentsGlyphs fs) as)
    (h : inPositionedContainingBlock la as fs size padding (.horizontalTb, .ltr) = some fs') :
    allMade F fs' ∧ Shows F o runs (fragmentsGlyphs fs') [] := by
  cases as with
  | nil =>
    simp only [inPositionedContainingBlock] at h
    cases h
    exact ⟨hm, hs⟩
  | cons a as =>
    simp only [inPositionedContainingBlock] at h
    rcases h1 : layoutAll (la ⟨((⟨Vec2.zero, size⟩ : Rect Rat).inflate padding).size, (.horizontalTb, .ltr)⟩) 0 (a :: as) with _ | children
    · simp [h1] at h
    · simp only [h1] at h
      cases h
      obtain ⟨m, q, s, r⟩ := layoutAll_shown _ _ _ (fun k a f hf => hla _ k a f rfl hf) h1
      obtain ⟨p, s1, s2, s3⟩ := hs
      refine ⟨by rw [allMade_append]; exact ⟨hm, ⟨rfl, m⟩, trivial⟩, p ++ q, ?_, ?_, fun h => ?_⟩
      · rw [fragmentsGlyphs_append, List.flatten_append]
        simp only [fragmentsGlyphs, Fragment.glyphs, List.append_nil]
        exact s1.append s
      · simp only [pendingRuns, List.flatMap_nil, List.append_nil]
        exact (List.Perm.append_left p r).trans s2
      · exact absurd (s3 h).1 (by simp)

theorem layoutInFlow_shown {cb : ContainingBlock} {style : ComputedValues} {kind : BlockLevelKind}
    {lc : ContainingBlock → Absolutes → Bool → Option (FlowChildren × Absolutes)}
    {la : DefiniteContainingBlock → Nat → AbsolutelyPositionedFragment → Option Fragment} {o : Prop} {runs : List (List (ComputedValues × Nat))}
    {f : Fragment} {as : Absolutes}
    (hlc : ∀ (cb : ContainingBlock) coll fc as, cb.mode = (.horizontalTb, .ltr) → lc cb [] coll = some (fc, as) →
      allMade F fc.fragments ∧ Shows F o runs (fragmentsGlyphs fc.fragments) as)
    (hla : ∀ (cb : DefiniteContainingBlock) k a f, cb.mode = (.horizontalTb, .ltr) → la cb k a = some f → ShowsAbsolute F a f)
    (h : layoutInFlow cb [] style kind lc la = some (f, as)) : f.Made F ∧ Shows F o runs f.glyphs as := by
  have hm : writingMode style = (.horizontalTb, .ltr) := rfl
  simp only [layoutInFlow, hm, ite_self] at h
  split at h
  · cases h
  · split at h
    · cases h
    · rename_i children as1 hl
      obtain ⟨m, s⟩ := hlc _ _ _ _ rfl hl
      split at h
      · split at h
        · cases h
        · rename_i fs hp
          cases h
          exact inPositioned_shown hla m s hp
      · cases h
        exact ⟨m, s⟩

theorem layout_shown : ∀ (fuel : Nat),
    (∀ c cb rank collapsible fc as, cb.mode = (.horizontalTb, .ltr) →
      layoutContainer F fuel inOrder c cb rank [] false collapsible = some (fc, as) →
      allMade F fc.fragments ∧ Shows F (c.Only NoAbsolutes) c.runs (fragmentsGlyphs fc.fragments) as) ∧
    (∀ b cb rank f as, cb.mode = (.horizontalTb, .ltr) → layoutBox F fuel inOrder b cb rank [] false = some (f, as) →
      f.Made F ∧ Shows F (b.Only NoAbsolutes) b.runs f.glyphs as) ∧
    (∀ (cb : DefiniteContainingBlock) a f, cb.mode = (.horizontalTb, .ltr) → layoutAbsolute F fuel inOrder cb a = some f →
      ShowsAbsolute F a f) := by
  intro fuel
  induction fuel with
  | zero =>
    refine ⟨?_, ?_, ?_⟩
    · intro c cb rank coll fc as _ h
      simp [layoutContainer] at h
    · intro b cb rank f as _ h
      simp [layoutBox] at h
    · intro cb a f _ h
      simp [layoutAbsolute] at h
  | succ fuel ih =>
    obtain ⟨ih1, ih2, ih3⟩ := ih
    have hp := layout_prepend F fuel
    have hmap (c : BlockContainer) (cb : ContainingBlock) (rank : Nat) (s : Oracle) (floats coll : Bool) (fc : FlowChildren) (as : Absolutes)
        (hcb : cb.mode = (.horizontalTb, .ltr))
        (h : mapFst FlowChildren.finishBlockFormattingContext (layoutContainer F fuel s c cb rank [] floats coll) = some (fc, as)) :
        allMade F fc.fragments ∧ Shows F (c.Only NoAbsolutes) c.runs (fragmentsGlyphs fc.fragments) as := by
      rw [hp.1 s, prepend_nil] at h
      rcases h1 : layoutContainer F fuel inOrder c cb rank [] false coll with _ | ⟨fc1, as1⟩
      · simp [h1, mapFst] at h
      · rw [h1] at h
        simp only [mapFst] at h
        cases h
        exact ih1 c cb rank coll fc1 _ hcb h1
    refine ⟨?_, ?_, ?_⟩
    · intro c cb rank coll fc as hcb h
      cases c with
      | inlineFormattingContext boxes =>
        simp only [layoutContainer] at h
        exact layoutInline_shown boxes cb hcb rank fc as h
      | blockLevelBoxes boxes =>
        simp only [layoutContainer] at h
        rw [layoutChildren_eq (g := fun rank b => layoutBox F fuel inOrder b cb rank [] false)
          (fun rank b absolute => hp.2.1 _ b cb rank absolute false), prepend_nil] at h
        exact canonicalChildren_shown (fun rank b f as hf => ih2 b cb rank f as hcb hf) boxes rank coll fc as h
    · intro b cb rank f as hcb h
      cases b with
      | sameFormattingContextBlock style contents =>
        simp only [layoutBox] at h
        exact layoutInFlow_shown (fun cb coll fc as hcb hl => ih1 contents cb rank coll fc as hcb
          (by rw [hp.1 (inOrder.sub 0), prepend_nil] at hl; exact hl))
          (fun cb k a f hcb hl => ih3 cb a f hcb (by rw [hp.2.2] at hl; exact hl)) h
      | independent style floats contents =>
        simp only [layoutBox] at h
        exact layoutInFlow_shown (fun cb coll fc as hcb hl => hmap contents cb rank _ _ _ fc as hcb hl)
          (fun cb k a f hcb hl => ih3 cb a f hcb (by rw [hp.2.2] at hl; exact hl)) h
      | outOfFlowAbsolutelyPositioned style floats contents =>
        simp only [layoutBox, List.nil_append] at h
        cases h
        refine ⟨⟨hcb, trivial⟩, [], .nil, by simp [pendingRuns, AbsolutelyPositionedBox.layout, BlockLevelBox.runs], fun h => absurd rfl h.1⟩
      | outOfFlowFloat style floats contents =>
        simp only [layoutBox] at h
        cases h
        exact ⟨⟨hcb, trivial⟩, (Shows.nil _)⟩
    · intro cb a f hcb h
      have hm : writingMode a.box.style = (.horizontalTb, .ltr) := rfl
      simp only [layoutAbsolute, hm, hcb, ne_eq, not_true_eq_false, if_false] at h
      split at h
      · cases h
      · rename_i fc as hl
        obtain ⟨m, s⟩ := hmap _ _ _ _ _ _ _ _ rfl hl
        split at h
        · cases h
        · rename_i fs hpos
          cases h
          obtain ⟨m', p, s1, s2, -⟩ := inPositioned_shown
            (fun cb k a f hcb hl => ih3 cb a f hcb (by rw [hp.2.2] at hl; exact hl)) m s hpos
          exact ⟨m', p, s1, by simpa [pendingRuns] using s2⟩

theorem layoutRoot_shown {fuel : Nat} {s : Oracle} {root : BlockFormattingContext} {viewport : Vec2 Rat} {fragments : List Fragment}
    (h : layoutRoot F fuel s root viewport = some fragments) :
    allMade F fragments ∧ ∃ p : List (List (ComputedValues × Nat)), Shown F p.flatten (fragmentsGlyphs fragments) ∧ p.Perm root.contents.runs ∧
      (root.contents.Only NoAbsolutes → p = root.contents.runs) := by
  simp only [layoutRoot, BlockFormattingContext.layout] at h
  rw [(layout_prepend F fuel).1 (s.sub 0), prepend_nil] at h
  rcases h1 : layoutContainer F fuel inOrder root.contents ⟨viewport.inline, .length viewport.block, (.horizontalTb, .ltr)⟩ 0 [] false
    false with _ | ⟨fc, as⟩
  · simp [h1, mapFst] at h
  · simp only [h1, mapFst] at h
    obtain ⟨m, p, s1, s2, s3⟩ := (layout_shown (F := F) fuel).1 _ _ _ _ _ _ rfl h1
    split at h
    · cases h
    · rename_i fs hl
      cases h
      obtain ⟨m', q, t1, t2⟩ := layoutAll_shown (F := F) _ _ _ (fun k a f hf => (layout_shown (F := F) fuel).2.2 _ _ _ rfl
        (by rw [(layout_prepend F fuel).2.2] at hf; exact hf)) hl
      refine ⟨by rw [allMade_append]; exact ⟨m, m'⟩, p ++ q, ?_, (List.Perm.append_left p t2).trans s2, ?_⟩
      · rw [List.flatten_append, fragmentsGlyphs_append]
        exact s1.append t1
      · intro ho
        obtain ⟨rfl, rfl⟩ := s3 ho
        have : q = [] := List.Perm.eq_nil (by simpa [pendingRuns] using t2)
        rw [this, List.append_nil]

mutual
theorem Fragment.Made.horizontal : ∀ (f : Fragment), f.Made F → f.Horizontal
  | .box _ children, h => allMade_horizontal children h
  | .anonymous _ children _, h => ⟨h.1, allMade_horizontal children h.2⟩
  | .text _ _ _, _ => trivial
theorem allMade_horizontal : ∀ (fs : List Fragment), allMade F fs → allHorizontal fs
  | [], _ => trivial
  | f :: fs, h => ⟨Fragment.Made.horizontal f h.1, allMade_horizontal fs h.2⟩
end

end Verif.Layout
