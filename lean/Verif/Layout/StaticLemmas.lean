/- Lemmas for C83 and C84: where the list of pending absolutely positioned boxes comes from. -/
import Verif.Layout.StaticSpec
import Verif.Layout.InlineTheorems
import Verif.Layout.ShownLemmas
namespace Verif.Layout
open Verif.Style Verif.Text

variable {Err : Type} {F : FontApi Rat Err}

/-! ### The pending fragments -/

/-- The pending fragments `as` are those of the boxes `boxes`, with static positions as `S` says. -/
def PendingAt (S : AbsolutelyPositionedBox → Vec2 Rat → Prop) (rank : Nat) (boxes : List AbsolutelyPositionedBox) (as : Absolutes) : Prop :=
  List.Forall₂ (fun box a => ∃ v, S box v ∧ a = AbsolutelyPositionedBox.layout box v rank) boxes as

theorem adjustStaticPositions_append (fs : List Fragment) (rank : Nat) : ∀ (as as' r : Absolutes),
    adjustStaticPositions (as ++ as') fs rank = some r →
      ∃ r1 r2, adjustStaticPositions as fs rank = some r1 ∧ adjustStaticPositions as' fs rank = some r2 ∧ r = r1 ++ r2 := by
  intro as
  induction as with
  | nil => intro as' r h; exact ⟨[], r, rfl, h, rfl⟩
  | cons a as ih =>
    intro as' r h
    simp only [List.cons_append, adjustStaticPositions] at h ⊢
    rcases h1 : fs[a.treeRank]? with _ | f
    · simp [h1] at h
    · simp only [h1] at h ⊢
      rcases h2 : f.rect? with _ | rect
      · simp [h2] at h
      · simp only [h2] at h ⊢
        rcases h3 : adjustStaticPositions (as ++ as') fs rank with _ | q
        · simp [h3] at h
        · simp only [h3, Option.some.injEq] at h
          obtain ⟨r1, r2, e1, e2, rfl⟩ := ih _ _ h3
          exact ⟨_, r2, by rw [e1], e2, by rw [← h]; rfl⟩

/-- The adjustment moves the static positions to where the fragment is that contains them. -/
theorem PendingAt.adjust {S : AbsolutelyPositionedBox → Vec2 Rat → Prop} {k rank : Nat} {boxes : List AbsolutelyPositionedBox}
    {as r : Absolutes} {fs : List Fragment} {f : Fragment} {rect : Rect Rat} (h : PendingAt S k boxes as) (hf : fs[k]? = some f)
    (hr : f.rect? = some rect) (ha : adjustStaticPositions as fs rank = some r) :
    PendingAt (fun box v => ∃ w, S box w ∧ v = rect.startCorner.add w) rank boxes r := by
  induction h generalizing r with
  | nil => simp only [adjustStaticPositions, Option.some.injEq] at ha; subst ha; exact .nil
  | cons hb _ ih =>
    obtain ⟨w, hs, rfl⟩ := hb
    simp only [adjustStaticPositions, AbsolutelyPositionedBox.layout, hf, hr] at ha
    split at ha
    · cases ha
    · rename_i q hq
      simp only [Option.some.injEq] at ha
      subst ha
      refine .cons ⟨_, ⟨w, hs, rfl⟩, ?_⟩ (ih hq)
      simp only [moveStatic_offsets, AbsolutelyPositionedBox.layout, Vec2.add, add_comm]

theorem PendingAt.mono {S T : AbsolutelyPositionedBox → Vec2 Rat → Prop} {rank : Nat} {boxes : List AbsolutelyPositionedBox}
    {as : Absolutes} (h : PendingAt S rank boxes as) (hst : ∀ box v, S box v → T box v) : PendingAt T rank boxes as :=
  List.Forall₂.imp (fun _ _ ⟨v, h1, h2⟩ => ⟨v, hst _ _ h1, h2⟩) h

theorem PendingAt.append {S : AbsolutelyPositionedBox → Vec2 Rat → Prop} {rank : Nat} {boxes boxes' : List AbsolutelyPositionedBox}
    {as as' : Absolutes} (h : PendingAt S rank boxes as) (h' : PendingAt S rank boxes' as') :
    PendingAt S rank (boxes ++ boxes') (as ++ as') :=
  List.rel_append h h'

/-! ### Inline formatting contexts -/

/-- The absolutely positioned boxes in the boxes that remain. -/
def remainingAbsolutes (r : List (List InlineLevelBox)) : List AbsolutelyPositionedBox := r.flatMap inlinesAbsolutes

theorem textLines_remaining {cb : ContainingBlock} {style : ComputedValues} {available : Rat} :
    ∀ (fuel : Nat) (chars : List Nat) (ifc ifc' : InlineState), textLines F cb style available fuel chars ifc = some ifc' →
      ifc'.allRemaining = ifc.allRemaining := by
  intro fuel
  induction fuel with
  | zero => intro chars ifc ifc' h; simp [textLines] at h
  | succ fuel ih =>
    intro chars ifc ifc' h
    simp only [textLines] at h
    rcases hs : shapeLine F (fontSizeOf style) available chars (ShapedSegment.new F) none with _ | ⟨shaped, rest⟩
    · simp [hs] at h
    · simp only [hs] at h
      by_cases hr : rest = []
      · rw [if_pos hr] at h
        cases h
        rfl
      · rw [if_neg hr] at h
        obtain ⟨r1, r2⟩ := breakLine_remaining cb (pushText style shaped ifc).stack (pushText style shaped ifc).current
          (pushText style shaped ifc).inlinePosition (pushText style shaped ifc).lineBoxes
        rw [ih rest _ ifc' h]
        simp only [InlineState.allRemaining, r1, r2]
        rfl

theorem layoutTextRun_remaining {cb : ContainingBlock} {style : ComputedValues} {text : List Nat} {ifc ifc' : InlineState}
    (h : layoutTextRun F cb style text ifc = some ifc') : ifc'.allRemaining = ifc.allRemaining :=
  textLines_remaining _ _ _ _ h

theorem inlineLoop_absolutes (cb : ContainingBlock) (rank : Nat) :
    ∀ (fuel : Nat) (ifc : InlineState) (fc : FlowChildren) (as : Absolutes), 
      inlineLoop F cb rank fuel ifc [] = some (fc, as) →
      PendingAt (fun _ _ => True) rank (remainingAbsolutes ifc.allRemaining) as := by
  intro fuel
  induction fuel with
  | zero => intro ifc fc as h; simp [inlineLoop] at h
  | succ fuel ih =>
    intro ifc fc as h
    simp only [inlineLoop, inlineStep] at h
    rcases hr : ifc.current.remainingBoxes with _ | ⟨child, remaining⟩
    · simp only [hr] at h
      rcases hst : ifc.stack with _ | ⟨p, stack⟩
      · simp only [hst, Option.some.injEq, Prod.mk.injEq] at h
        obtain ⟨-, rfl⟩ := h
        simp only [InlineState.allRemaining, hr, hst, List.map_nil, remainingAbsolutes, List.flatMap_cons, List.flatMap_nil,
          inlinesAbsolutes, List.append_nil]
        exact .nil
      · simp only [hst] at h
        have := ih _ fc as h
        simp only [InlineState.allRemaining, hr, hst, remainingAbsolutes, List.flatMap_cons, inlinesAbsolutes, List.map_cons,
          List.nil_append]
        exact this
    · simp only [hr] at h
      simp only [InlineState.allRemaining, hr, remainingAbsolutes, List.flatMap_cons, inlinesAbsolutes, List.append_assoc]
      cases child with
      | inlineBox style first last children =>
        have := ih _ fc as h
        simp only [InlineState.allRemaining, startInlineBox, remainingAbsolutes, List.flatMap_cons, List.map_cons] at this
        exact this
      | textRun style text =>
        simp only at h
        rcases ht : layoutTextRun F cb style text { ifc with current := { ifc.current with remainingBoxes := remaining } } with _ | ifc1
        · simp [ht] at h
        · simp only [ht] at h
          have := ih _ fc as h
          rw [layoutTextRun_remaining ht] at this
          exact this
      | outOfFlowAbsolutelyPositioned style floats contents =>
        simp only at h
        rcases hi : staticInlineStart style ifc.inlinePosition with _ | i
        · simp [hi] at h
        · simp only [hi, List.nil_append] at h
          rw [inlineLoop_prepend] at h
          rcases hl : inlineLoop F cb rank fuel { ifc with current := { ifc.current with remainingBoxes := remaining } } [] with _ | ⟨fc1, as1⟩
          · simp [hl] at h
          · simp only [hl, prepend_some, Option.some.injEq, Prod.mk.injEq] at h
            obtain ⟨rfl, rfl⟩ := h
            exact .cons ⟨_, trivial, rfl⟩ (ih _ _ _ hl)
      | outOfFlowFloat style floats contents =>
        have := ih _ fc as h
        exact this

theorem layoutInline_static {boxes : List InlineLevelBox} {cb : ContainingBlock} {rank : Nat} {fc : FlowChildren} {as : Absolutes}
    (h : layoutInline F boxes cb rank [] = some (fc, as)) :
    PendingAt (StaticIn F cb (.inlineFormattingContext boxes) fc.fragments) rank (inlinesAbsolutes boxes) as := by
  have h0 := inlineLoop_absolutes cb rank _ _ fc as h
  simp only [initialInlineState, InlineState.allRemaining, List.map_nil, remainingAbsolutes, List.flatMap_cons, List.flatMap_nil,
    List.append_nil] at h0
  by_cases hrel : inlineAll (fun s => positionOf s ≠ .relative) boxes
  · obtain ⟨s, height, h1, -, -, -, rfl⟩ := C60_flow_partial F boxes cb rank fc as hrel h
    have key : ∀ (bs : List AbsolutelyPositionedBox) (l : List (AbsolutelyPositionedBox × Vec2 Rat)), (∀ x ∈ l, x ∈ s.absolutes) →
        PendingAt (fun _ _ => True) rank bs (l.map fun a => a.1.layout a.2 rank) →
        PendingAt (StaticIn F cb (.inlineFormattingContext boxes) fc.fragments) rank bs (l.map fun a => a.1.layout a.2 rank) := by
      intro bs l hl h
      induction l generalizing bs with
      | nil => cases h; exact .nil
      | cons x l ih =>
        cases h with
        | cons hb hbs =>
          obtain ⟨v, -, hv⟩ := hb
          have hbox : x.1 = _ := congrArg AbsolutelyPositionedFragment.box hv
          simp only [AbsolutelyPositionedBox.layout] at hbox
          subst hbox
          refine .cons ⟨x.2, .inline fun _ => ⟨s, _, h1, hl x List.mem_cons_self⟩, rfl⟩
            (ih _ (fun y hy => hl y (List.mem_cons_of_mem _ hy)) hbs)
    exact key _ _ (fun _ h => h) h0
  · exact h0.mono fun _ _ _ => .inline fun hc => absurd hc hrel

/-! ### Block-level boxes -/

/-- Placing a fragment moves it, and leaves its children as they are. -/
theorem placeFragment_box {s s' : PlacementState} {info : BoxInfo} {children : List Fragment} {f' : Fragment}
    (h : placeFragment s (.box info children) = some (f', s')) : ∃ info', f' = .box info' children := by
  simp only [placeFragment] at h
  repeat' split at h
  all_goals first
    | cases h; exact ⟨_, rfl⟩
    | cases h

theorem placeAll_box : ∀ (fs out : List Fragment) (s s' : PlacementState), placeAll s fs = some (out, s') →
    ∀ (k : Nat) (info : BoxInfo) (children : List Fragment), fs[k]? = some (.box info children) →
      ∃ info', out[k]? = some (.box info' children) := by
  intro fs
  induction fs with
  | nil => intro out s s' _ k info children hk; simp at hk
  | cons f fs ih =>
    intro out s s' h k info children hk
    simp only [placeAll] at h
    rcases hp : placeFragment s f with _ | ⟨f1, s1⟩
    · simp [hp] at h
    · simp only [hp] at h
      rcases ha : placeAll s1 fs with _ | ⟨fs1, s2⟩
      · simp [ha] at h
      · simp only [ha] at h
        cases h
        cases k with
        | zero =>
          simp only [List.getElem?_cons_zero, Option.some.injEq] at hk ⊢
          subst hk
          exact placeFragment_box hp
        | succ k => exact ih _ _ _ ha k info children hk

theorem seqChildren_get {g : Nat → BlockLevelBox → Option (Fragment × Absolutes)} {pre post : List BlockLevelBox} {b : BlockLevelBox}
    {fs : List Fragment} {as as' : Absolutes} {f : Fragment} (h : seqChildren g 0 (pre ++ b :: post) = some (fs, as))
    (hb : g pre.length b = some (f, as')) : fs[pre.length]? = some f := by
  rw [seqChildren_append] at h
  rcases h1 : seqChildren g 0 pre with _ | ⟨fs1, as1⟩
  · simp [h1] at h
  · have hlen : fs1.length = pre.length :=
      (seqChildren_forall₂ (P := fun _ _ => True) (fun _ _ _ _ _ => trivial) _ _ _ _ h1).length_eq.symm
    simp only [h1, seqChildren, Nat.zero_add, hb] at h
    rcases h2 : seqChildren g (pre.length + 1) post with _ | ⟨fs2, as2⟩
    · simp [h2] at h
    · simp only [h2, Option.some.injEq, Prod.mk.injEq] at h
      rw [← h.1, ← hlen]
      simp

/-- The pending fragments of a list of boxes, box by box. -/
theorem seqChildren_pending {g : Nat → BlockLevelBox → Option (Fragment × Absolutes)} {boxes : List BlockLevelBox} {out : List Fragment}
    {rank : Nat} {S : AbsolutelyPositionedBox → Vec2 Rat → Prop}
    (H : ∀ pre b post f as r, boxes = pre ++ b :: post → g pre.length b = some (f, as) →
      adjustStaticPositions as out rank = some r → PendingAt S rank b.absolutes r) :
    ∀ (bs pre : List BlockLevelBox) (fs : List Fragment) (as r : Absolutes), boxes = pre ++ bs →
      seqChildren g pre.length bs = some (fs, as) → adjustStaticPositions as out rank = some r →
      PendingAt S rank (blocksAbsolutes bs) r := by
  intro bs
  induction bs with
  | nil =>
    intro pre fs as r _ h hr
    simp only [seqChildren, Option.some.injEq, Prod.mk.injEq] at h
    obtain ⟨-, rfl⟩ := h
    simp only [adjustStaticPositions, Option.some.injEq] at hr
    subst hr
    exact .nil
  | cons b bs ih =>
    intro pre fs as r hb h hr
    simp only [seqChildren] at h
    rcases h1 : g pre.length b with _ | ⟨f, as1⟩
    · simp [h1] at h
    · rcases h2 : seqChildren g (pre.length + 1) bs with _ | ⟨fs', as2⟩
      · simp [h1, h2] at h
      · simp only [h1, h2, Option.some.injEq, Prod.mk.injEq] at h
        obtain ⟨-, rfl⟩ := h
        obtain ⟨r1, r2, e1, e2, rfl⟩ := adjustStaticPositions_append _ _ _ _ _ hr
        exact (H pre b bs f as1 r1 hb h1 e1).append
          (ih (pre ++ [b]) fs' as2 r2 (by simp [hb]) (by simpa using h2) e2)

/-- Either all boxes are collapsed through or there is a last one that is not. -/
theorem last_solid (cb : ContainingBlock) : ∀ bs : List BlockLevelBox, (∀ b ∈ bs, Css.through cb b = true) ∨
    ∃ pre x mid, bs = pre ++ x :: mid ∧ Css.through cb x = false ∧ ∀ b ∈ mid, Css.through cb b = true := by
  intro bs
  induction bs with
  | nil => exact .inl (by simp)
  | cons b bs ih =>
    rcases ih with h | ⟨pre, x, mid, rfl, hx, hmid⟩
    · cases hb : Css.through cb b with
      | true => exact .inl (by simpa [hb] using h)
      | false => exact .inr ⟨[], b, bs, rfl, hb, h⟩
    · exact .inr ⟨b :: pre, x, mid, rfl, hx, hmid⟩

/-- Where the empty fragment of a box that is out of flow is. -/
theorem place_marker {cb : ContainingBlock} {collapsible : Bool} {pre post : List BlockLevelBox} {y : BlockLevelBox} {fs out : List Fragment}
    {s : PlacementState} (hun : List.Forall₂ (Unplaced cb) (pre ++ y :: post) fs)
    (hplace : placeAll (.initial collapsible) fs = some (out, s)) (hy : Css.inFlow y = false) :
    ∃ position, out[pre.length]? = some (.anonymous ⟨⟨0, position⟩, ⟨0, 0⟩⟩ [] cb.mode) ∧ BottomOf cb pre out position := by
  rcases last_solid cb pre with hall | ⟨pre, x, mid, rfl, hx, hmid⟩
  · obtain ⟨f, f', s1, s2, fp, rp, hux, hs1, hq, hget, -, -, -, -, -⟩ := place_at (placedBefore_initial cb collapsible) hun hplace
    obtain ⟨-, h2, -⟩ := place_step hs1 hux hq
    obtain ⟨rfl, rfl⟩ := h2 hy
    rw [hs1.position (by simpa using (throughAll_iff cb pre).2 hall)] at hget
    exact ⟨0, hget, .none hall⟩
  · rw [List.append_assoc, List.cons_append] at hun
    have hinx : Css.inFlow x = true := by cases x <;> simp_all [Css.inFlow, Css.through]
    obtain ⟨f, f', s1, s2, fp, rp, hux, hs1, hq, hget, -, hs2, hup, hp2, hdrop⟩ :=
      place_at (placedBefore_initial cb collapsible) hun hplace
    obtain ⟨-, -, h3⟩ := place_step hs1 hux hq
    obtain ⟨bx, cx, dx, rfl, rfl, -, hpos⟩ := h3 hinx
    rw [hx] at hpos
    simp only [Bool.false_eq_true, if_false] at hpos
    obtain ⟨g, g', t1, t2, fq, rq, huy, ht1, hq', hget', hsame, -, -, -, -⟩ := place_at hs2 hup hp2
    obtain ⟨-, h4, -⟩ := place_step ht1 huy hq'
    obtain ⟨rfl, -⟩ := h4 hy
    rw [← hdrop, List.getElem?_drop] at hget'
    have hp : t1.currentBlockDirectionPosition = flowBottom cb x (bx.moveBlock dx) := by
      rw [hsame ((throughAll_iff cb mid).2 hmid), hpos, (flowTop_moved hinx hux dx).2]
    refine ⟨_, ?_, .last hx hmid hget⟩
    rw [← hp]
    have hl : (pre ++ x :: mid).length = pre.length + 1 + mid.length := by simp; omega
    rw [hl]
    exact hget'

/-- What is pending after the layout of a box. -/
def BoxPending (F : FontApi Rat Err) (cb : ContainingBlock) (b : BlockLevelBox) (rank : Nat) (f : Fragment) (as : Absolutes) : Prop :=
  match b.unpositionedContents with
  | some contents => ∃ info children, f = .box info children ∧
      PendingAt (StaticIn F (Css.inner cb (Css.styleOf b)) contents children) rank b.absolutes as
  | none => PendingAt (fun box v => box ∈ b.absolutes ∧ v = Vec2.zero) rank b.absolutes as

/-- The pending fragments of an in-flow box, once it is placed. -/
theorem inFlow_pending {cb : ContainingBlock} {pre post : List BlockLevelBox} {b : BlockLevelBox} {fs out : List Fragment} {s s' : PlacementState}
    {f : Fragment} {as r : Absolutes} {rank : Nat} (hget : fs[pre.length]? = some f) (hplace : placeAll s fs = some (out, s'))
    (hin : (∃ style contents, b = .sameFormattingContextBlock style contents) ∨ ∃ style floats contents, b = .independent style floats contents)
    (hp : BoxPending F cb b pre.length f as) (hr : adjustStaticPositions as out rank = some r) :
    PendingAt (StaticIn F cb (.blockLevelBoxes (pre ++ b :: post)) out) rank b.absolutes r := by
  simp only [BoxPending] at hp
  rcases hc : b.unpositionedContents with _ | contents
  · simp only [hc] at hp
    have he : b.absolutes = [] := by
      rcases hin with ⟨style, contents, rfl⟩ | ⟨style, floats, contents, rfl⟩ <;>
        simp_all [BlockLevelBox.unpositionedContents, BlockLevelBox.absolutes]
    rw [he] at hp ⊢
    cases hp
    simp only [adjustStaticPositions, Option.some.injEq] at hr
    subst hr
    exact .nil
  · simp only [hc] at hp
    obtain ⟨info, children, rfl, hp⟩ := hp
    obtain ⟨info', hget'⟩ := placeAll_box _ _ _ _ hplace _ _ _ hget
    refine (PendingAt.adjust hp hget' rfl hr).mono ?_
    rintro box v ⟨w, hw, rfl⟩
    exact .nested hc hget' hw

/-- The pending fragments of an in-flow box, before it is placed. -/
theorem layoutInFlow_pending {cb : ContainingBlock} {b : BlockLevelBox} {kind : BlockLevelKind} {contents : BlockContainer} {rank : Nat}
    {lc : ContainingBlock → Absolutes → Bool → Option (FlowChildren × Absolutes)}
    {la : DefiniteContainingBlock → Nat → AbsolutelyPositionedFragment → Option Fragment} {f : Fragment} {as : Absolutes}
    (hb : b.unpositionedContents = if positionOf (Css.styleOf b) = .relative then none else some contents)
    (ha : b.absolutes = if positionOf (Css.styleOf b) = .relative then [] else contents.absolutes)
    (hlc : ∀ coll fc as, lc (Css.inner cb (Css.styleOf b)) [] coll = some (fc, as) →
      PendingAt (StaticIn F (Css.inner cb (Css.styleOf b)) contents fc.fragments) rank contents.absolutes as)
    (h : layoutInFlow cb [] (Css.styleOf b) kind lc la = some (f, as)) : BoxPending F cb b rank f as := by
  obtain ⟨fc, as', info, children, hl, rfl, -, -, -, -, -, -, -, hpos, -⟩ := layoutInFlow_some h
  have hrel : (positionOf (Css.styleOf b)).isRelativelyPositioned = decide (positionOf (Css.styleOf b) = .relative) := by
    cases positionOf (Css.styleOf b) <;> rfl
  simp only [BoxPending, hb, ha]
  by_cases hr : positionOf (Css.styleOf b) = .relative
  · simp only [hr, if_true] at hpos ⊢
    rw [hpos.1]
    exact .nil
  · simp only [hrel, hr, decide_false, Bool.false_eq_true, if_false] at hpos ⊢
    obtain ⟨rfl, rfl⟩ := hpos
    exact ⟨info, _, rfl, hlc _ _ _ hl⟩

theorem layout_static (F : FontApi Rat Err) : ∀ (fuel : Nat),
    (∀ c cb rank collapsible fc as, layoutContainer F fuel inOrder c cb rank [] false collapsible = some (fc, as) →
      PendingAt (StaticIn F cb c fc.fragments) rank c.absolutes as) ∧
    (∀ b cb rank f as, layoutBox F fuel inOrder b cb rank [] false = some (f, as) → BoxPending F cb b rank f as) := by
  intro fuel
  induction fuel with
  | zero => exact ⟨by intros; simp_all [layoutContainer], by intros; simp_all [layoutBox]⟩
  | succ fuel ih =>
    obtain ⟨ihc, ihb⟩ := ih
    refine ⟨?_, ?_⟩
    · intro c cb rank collapsible fc as h
      cases c with
      | inlineFormattingContext boxes =>
        simp only [layoutContainer] at h
        exact layoutInline_static h
      | blockLevelBoxes boxes =>
        simp only [layoutContainer] at h
        rw [layoutChildren_eq (g := fun rank b => layoutBox F fuel inOrder b cb rank [] false)
              (fun rank b absolute => (layout_prepend F fuel).2.1 _ b cb rank absolute false), prepend_nil] at h
        obtain ⟨fs, as', s, hseq, hplace, -, -, hadj⟩ := canonicalChildren_some h
        have hun := seqChildren_forall₂ (P := Unplaced cb) (fun rank b f as hb => (layout_margins F fuel).2 b cb rank f as hb) _ _ _ _ hseq
        refine seqChildren_pending ?_ boxes [] fs as' as rfl hseq hadj
        rintro pre b post f as1 r rfl hb hr
        have hp := ihb _ _ _ _ _ hb
        simp only [BoxPending] at hp
        cases b with
        | outOfFlowFloat style floats contents =>
          cases hp
          simp only [adjustStaticPositions, Option.some.injEq] at hr
          subst hr
          exact .nil
        | outOfFlowAbsolutelyPositioned style floats contents =>
          obtain ⟨y, hget, hbot⟩ := place_marker hun hplace rfl
          refine (PendingAt.adjust hp hget rfl hr).mono ?_
          rintro box v ⟨w, ⟨hm, rfl⟩, rfl⟩
          simp only [BlockLevelBox.absolutes, List.mem_singleton] at hm
          subst hm
          simp only [Vec2.add, Vec2.zero, add_zero]
          exact .block hbot
        | sameFormattingContextBlock style contents =>
          exact inFlow_pending (seqChildren_get hseq hb) hplace (.inl ⟨_, _, rfl⟩) (ihb _ _ _ _ _ hb) hr
        | independent style floats contents =>
          exact inFlow_pending (seqChildren_get hseq hb) hplace (.inr ⟨_, _, _, rfl⟩) (ihb _ _ _ _ _ hb) hr
    · intro b cb rank f as h
      cases b with
      | sameFormattingContextBlock style contents =>
        simp only [layoutBox] at h
        refine layoutInFlow_pending (b := .sameFormattingContextBlock style contents) rfl rfl ?_ h
        intro coll fc as hl
        rw [(layout_prepend F fuel).1, prepend_nil] at hl
        exact ihc _ _ _ _ _ _ hl
      | independent style floats contents =>
        simp only [layoutBox] at h
        refine layoutInFlow_pending (b := .independent style floats contents) rfl rfl ?_ h
        intro coll fc as hl
        rw [(layout_prepend F fuel).1, prepend_nil] at hl
        rcases hq : layoutContainer F fuel inOrder contents (Css.inner cb (Css.styleOf (.independent style floats contents))) rank [] false
          false with _ | ⟨fc', as'⟩
        · simp [hq, mapFst] at hl
        · simp only [hq, mapFst, Option.some.injEq, Prod.mk.injEq] at hl
          obtain ⟨rfl, rfl⟩ := hl
          have := ihc _ _ _ _ _ _ hq
          exact this
      | outOfFlowAbsolutelyPositioned style floats contents =>
        simp only [layoutBox, Option.some.injEq, Prod.mk.injEq] at h
        obtain ⟨-, rfl⟩ := h
        exact .cons ⟨_, ⟨List.mem_singleton.2 rfl, rfl⟩, rfl⟩ .nil
      | outOfFlowFloat style floats contents =>
        simp only [layoutBox, Option.some.injEq, Prod.mk.injEq] at h
        obtain ⟨-, rfl⟩ := h
        exact .nil

end Verif.Layout
