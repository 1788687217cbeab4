/- C37, C38: block layout. -/
import Verif.Layout.MarginLemmas2
import Mathlib.Data.List.Forall2
namespace Verif.Layout
open Verif.Style Verif.Text

/-! ### C38 -/

/-- The layout of a document does not depend on how the work is divided between threads. -/
theorem C38_schedules {Err : Type} (F : FontApi Rat Err) (fuel : Nat) (s s' : Oracle) (root : BlockFormattingContext)
    (viewport : Vec2 Rat) : layoutRoot F fuel s root viewport = layoutRoot F fuel s' root viewport := by
  have h := layout_prepend F fuel
  simp only [layoutRoot, BlockFormattingContext.layout, h.2.2]
  rw [h.1 (s.sub 0), h.1 (s'.sub 0)]

/-- The layout of a block container with its children in parallel, under any schedules, is that of its children one at a time
in order; and it leaves the absolutely positioned boxes that came before as they are and puts its own after them. -/
theorem C38_in_order {Err : Type} (F : FontApi Rat Err) (fuel : Nat) (s s' : Oracle) (c : BlockContainer)
    (cb : ContainingBlock) (rank : Nat) (absolute : Absolutes) (collapsible : Bool) :
    layoutContainer F fuel s c cb rank absolute false collapsible =
      layoutContainer F fuel s' c cb rank absolute true collapsible ∧
    layoutContainer F fuel s c cb rank absolute false collapsible =
      prepend absolute (layoutContainer F fuel s' c cb rank [] true collapsible) := by
  have h := (layout_prepend F fuel).1
  rw [h s c cb rank absolute false, h s' c cb rank absolute true, h s' c cb rank [] true, prepend_nil]
  exact ⟨rfl, rfl⟩

/-- What a task pool does with a list of boxes is what one task does, for every way of cutting the list. -/
theorem C38_mapfold (f : Nat → BlockLevelBox → Absolutes → Option (Fragment × Absolutes))
    (g : Nat → BlockLevelBox → Option (Fragment × Absolutes)) (h : Appends f g) (s : Schedule) (bs : List BlockLevelBox) :
    mapfold f s 0 bs = mapfold f .task 0 bs := by
  rw [mapfold_eq h, mapfold_eq h]

/-! ### C37 -/

/-- The top of the border box, before relative positioning. -/
def flowTop (cb : ContainingBlock) (b : BlockLevelBox) (info : BoxInfo) : Rat :=
  info.borderRect.startCorner.block - Css.relativeShift cb (Css.styleOf b)

/-- The bottom of the border box, before relative positioning. -/
def flowBottom (cb : ContainingBlock) (b : BlockLevelBox) (info : BoxInfo) : Rat :=
  flowTop cb b info + info.borderRect.size.block

theorem flowTop_moved {cb : ContainingBlock} {b : BlockLevelBox} {info : BoxInfo} {children : List Fragment}
    (hin : Css.inFlow b = true) (h : Unplaced cb b (.box info children)) (d : Rat) :
    flowTop cb b (info.moveBlock d) = d ∧ flowBottom cb b (info.moveBlock d) = d + info.borderBlockSize := by
  simp only [Unplaced, hin, if_true] at h
  obtain ⟨info', children', he, h1, h2, h3, -, -, -⟩ := h
  injection he with he1 he2
  subst he1
  have : flowTop cb b (info.moveBlock d) = d := by
    simp only [flowTop, BoxInfo.borderRect, BoxInfo.moveBlock, Rect.inflate, h1, h2, h3]; ring
  refine ⟨this, ?_⟩
  rw [flowBottom, this]
  simp only [BoxInfo.borderRect, BoxInfo.moveBlock, Rect.inflate, BoxInfo.borderBlockSize]; ring

theorem throughAll_iff (cb : ContainingBlock) (bs : List BlockLevelBox) :
    Css.throughAll cb bs = true ↔ ∀ b ∈ bs, Css.through cb b = true := by
  induction bs with
  | nil => simp [Css.throughAll]
  | cons b bs ih => simp [Css.throughAll, ih]

/-- Boxes that are collapsed through do not move what follows. -/
theorem place_through {cb : ContainingBlock} {collapsible : Bool} :
    ∀ (bs : List BlockLevelBox) (fs : List Fragment) (pre : List BlockLevelBox) (s s' : PlacementState) (fs' : List Fragment),
      PlacedBefore cb collapsible pre s → List.Forall₂ (Unplaced cb) bs fs → placeAll s fs = some (fs', s') →
      Css.throughAll cb bs = true → s'.currentBlockDirectionPosition = s.currentBlockDirectionPosition := by
  intro bs
  induction bs with
  | nil =>
    intro fs pre s s' fs' hs hf hp _
    cases hf
    simp only [placeAll, Option.some.injEq, Prod.mk.injEq] at hp
    rw [hp.2]
  | cons b bs ih =>
    intro fs pre s s' fs' hs hf hp ht
    cases hf with
    | cons hb hbs =>
      rename_i f fs
      simp only [Css.throughAll, Bool.and_eq_true] at ht
      simp only [placeAll] at hp
      rcases hq : placeFragment s f with _ | ⟨f', s1⟩
      · simp [hq] at hp
      · simp only [hq] at hp
        rcases hr : placeAll s1 fs with _ | ⟨r', s2⟩
        · simp [hr] at hp
        · simp only [hr, Option.some.injEq, Prod.mk.injEq] at hp
          obtain ⟨-, rfl⟩ := hp
          obtain ⟨h1, h2, h3⟩ := place_step hs hb hq
          rw [ih fs (pre ++ [b]) s1 s2 r' h1 hbs hr ht.2]
          by_cases hin : Css.inFlow b = true
          · obtain ⟨_, _, _, _, _, _, h4⟩ := h3 hin
            rw [h4, if_pos ht.1]
          · rw [(h2 (by simpa using hin)).2]

/-- What is known of a box of the list and of the states around it. -/
theorem place_at {cb : ContainingBlock} {collapsible : Bool} {pre post : List BlockLevelBox} {b : BlockLevelBox}
    {fs : List Fragment} {s s' : PlacementState} {pre0 : List BlockLevelBox} {r : List Fragment}
    (hs : PlacedBefore cb collapsible pre0 s)
    (hun : List.Forall₂ (Unplaced cb) (pre ++ b :: post) fs) (hp : placeAll s fs = some (r, s')) :
    ∃ f f' s1 s2 fpost rpost, Unplaced cb b f ∧ PlacedBefore cb collapsible (pre0 ++ pre) s1 ∧
      placeFragment s1 f = some (f', s2) ∧ r[pre.length]? = some f' ∧
      (Css.throughAll cb pre = true → s1.currentBlockDirectionPosition = s.currentBlockDirectionPosition) ∧
      PlacedBefore cb collapsible (pre0 ++ pre ++ [b]) s2 ∧ List.Forall₂ (Unplaced cb) post fpost ∧
      placeAll s2 fpost = some (rpost, s') ∧ r.drop (pre.length + 1) = rpost := by
  obtain ⟨f1, f2, h1, h2, rfl⟩ : ∃ f1 f2, List.Forall₂ (Unplaced cb) pre f1 ∧ List.Forall₂ (Unplaced cb) (b :: post) f2 ∧
      fs = f1 ++ f2 :=
    ⟨fs.take pre.length, fs.drop pre.length, by simpa using List.forall₂_take pre.length hun,
     by simpa using List.forall₂_drop pre.length hun, by simp⟩
  obtain ⟨r1, s1, r2, hp1, hp2, rfl⟩ := (placeAll_append _ _ _ _ _).mp hp
  cases h2 with
  | cons hb hpost =>
    rename_i f fpost
    have hs1 := place_list pre f1 pre0 s s1 r1 hs h1 hp1
    simp only [placeAll] at hp2
    rcases hq : placeFragment s1 f with _ | ⟨f', s2⟩
    · simp [hq] at hp2
    · simp only [hq] at hp2
      rcases hr : placeAll s2 fpost with _ | ⟨rp, s3⟩
      · simp [hr] at hp2
      · simp only [hr, Option.some.injEq, Prod.mk.injEq] at hp2
        obtain ⟨rfl, rfl⟩ := hp2
        have hlen : r1.length = pre.length := by rw [placeAll_length _ _ _ _ hp1, ← h1.length_eq]
        refine ⟨f, f', s1, s2, fpost, rp, hb, hs1, hq, ?_, ?_, (place_step hs1 hb hq).1, hpost, hr, ?_⟩
        · rw [← hlen]; simp
        · intro ht; exact place_through pre f1 pre0 s s1 r1 hs h1 hp1 ht
        · rw [← hlen, ← List.drop_drop]; simp

variable {Err : Type} {F : FontApi Rat Err} {fuel : Nat} {schedule : Oracle} {cb : ContainingBlock} {rank : Nat}
  {absolute as : Absolutes} {floats collapsible : Bool} {fc : FlowChildren}

theorem container_canonical {boxes : List BlockLevelBox}
    (h : layoutContainer F fuel schedule (.blockLevelBoxes boxes) cb rank absolute floats collapsible = some (fc, as)) :
    ∃ fs s, List.Forall₂ (Unplaced cb) boxes fs ∧ placeAll (.initial collapsible) fs = some (fc.fragments, s) ∧
      fc.blockSize = s.currentBlockDirectionPosition ∧
      fc.collapsibleMarginsInChildren =
        ⟨s.nextInFlowMarginCollapsesWithParentStartMargin, s.startMargin, s.currentMargin⟩ := by
  cases fuel with
  | zero => simp [layoutContainer] at h
  | succ fuel =>
    simp only [layoutContainer] at h
    rw [layoutChildren_eq (g := fun rank b => layoutBox F fuel inOrder b cb rank [] false)
          (fun rank b absolute => (layout_prepend F fuel).2.1 _ b cb rank absolute floats)] at h
    rcases hc : canonicalChildren (fun rank b => layoutBox F fuel inOrder b cb rank [] false) boxes rank collapsible with
      _ | ⟨fc', as'⟩
    · simp [hc] at h
    · simp only [hc, prepend_some, Option.some.injEq, Prod.mk.injEq] at h
      obtain ⟨rfl, -⟩ := h
      obtain ⟨fs, as'', s, hseq, hplace, h1, h2, -⟩ := canonicalChildren_some hc
      exact ⟨fs, s, seqChildren_forall₂ (fun rank b f as hb => (layout_margins F fuel).2 b cb rank f as hb) _ _ _ _ hseq,
        hplace, h1, h2⟩

/-- A box that follows another one, with only boxes between them that are collapsed through or out of flow: its top is at the
bottom of the other one plus the collapse of all the margins between them. -/
theorem C37_next {pre mid post : List BlockLevelBox} {x y : BlockLevelBox}
    (h : layoutContainer F fuel schedule (.blockLevelBoxes (pre ++ x :: (mid ++ y :: post))) cb rank absolute floats collapsible =
      some (fc, as))
    (hx : Css.through cb x = false) (hmid : ∀ b ∈ mid, Css.through cb b = true) (hy : Css.inFlow y = true) :
    ∃ bx childrenX by_ childrenY gap,
      fc.fragments[pre.length]? = some (.box bx childrenX) ∧
      fc.fragments[pre.length + 1 + mid.length]? = some (.box by_ childrenY) ∧
      CollapseTo (Css.endMargins cb x ++ Css.leading cb mid ++ Css.startMargins cb y) gap ∧
      flowTop cb y by_ = flowBottom cb x bx + gap := by
  obtain ⟨fs, s, hun, hplace, -, -⟩ := container_canonical h
  have hinx : Css.inFlow x = true := by cases x <;> simp_all [Css.inFlow, Css.through]
  obtain ⟨f, f', s1, s2, fp, rp, hux, hs1, hq, hget, -, hs2, hup, hp2, hdrop⟩ :=
    place_at (placedBefore_initial cb collapsible) hun hplace
  obtain ⟨-, -, h3⟩ := place_step hs1 hux hq
  obtain ⟨bx, cx, dx, rfl, rfl, -, hpos⟩ := h3 hinx
  rw [hx] at hpos
  simp only [Bool.false_eq_true, if_false] at hpos
  obtain ⟨g, g', t1, t2, fq, rq, huy, ht1, hq', hget', hsame, -, -, -, -⟩ := place_at hs2 hup hp2
  obtain ⟨-, -, h4⟩ := place_step ht1 huy hq'
  obtain ⟨by_, cy, dy, rfl, rfl, hcol, -⟩ := h4 hy
  have hmid' := (throughAll_iff cb mid).mpr hmid
  have hsolid : Css.throughAll cb ([] ++ pre ++ [x] ++ mid) = false := by
    simp [Css.throughAll_append, Css.throughAll, hx]
  rw [hsolid] at hcol
  simp only [Bool.and_false, Bool.false_eq_true, if_false] at hcol
  have htr : Css.trailing cb ([] ++ pre ++ [x] ++ mid) = Css.endMargins cb x ++ Css.leading cb mid := by
    have := Css.trailing_of_solid cb pre mid x hx hmid'
    simpa using this
  rw [htr] at hcol
  refine ⟨bx.moveBlock dx, cx, by_.moveBlock dy, cy, _, hget, ?_, hcol, ?_⟩
  · rw [← hdrop, List.getElem?_drop] at hget'
    exact hget'
  · rw [(flowTop_moved hy huy dy).1, (flowTop_moved hinx hux dx).2, hsame hmid', hpos]
    ring

/-- The first box, and those before it that are collapsed through or out of flow: its top is at the start of the contents plus
the collapse of all the margins before it, or at the start of the contents if these collapse with those of the parent. -/
theorem C37_first {pre post : List BlockLevelBox} {y : BlockLevelBox}
    (h : layoutContainer F fuel schedule (.blockLevelBoxes (pre ++ y :: post)) cb rank absolute floats collapsible =
      some (fc, as))
    (hpre : ∀ b ∈ pre, Css.through cb b = true) (hy : Css.inFlow y = true) :
    ∃ by_ childrenY, fc.fragments[pre.length]? = some (.box by_ childrenY) ∧
      if collapsible then flowTop cb y by_ = 0
      else CollapseTo (Css.leading cb pre ++ Css.startMargins cb y) (flowTop cb y by_) := by
  obtain ⟨fs, s, hun, hplace, -, -⟩ := container_canonical h
  obtain ⟨f, f', s1, s2, fp, rp, hux, hs1, hq, hget, hsame, -, -, -, -⟩ :=
    place_at (placedBefore_initial cb collapsible) hun hplace
  obtain ⟨-, -, h3⟩ := place_step hs1 hux hq
  obtain ⟨by_, cy, d, rfl, rfl, hcol, -⟩ := h3 hy
  have hpre' := (throughAll_iff cb pre).mpr hpre
  refine ⟨_, cy, hget, ?_⟩
  rw [(flowTop_moved hy hux d).1]
  simp only [List.nil_append, hpre', Bool.and_true] at hcol
  cases collapsible with
  | true => simpa using hcol
  | false =>
    simp only [Bool.false_eq_true, if_false] at hcol ⊢
    rw [hsame hpre'] at hcol
    rw [Css.trailing_of_through cb pre hpre'] at hcol
    simpa [PlacementState.initial] using hcol

/-- A float or an absolutely positioned box leaves an empty fragment. -/
theorem C37_out_of_flow {pre post : List BlockLevelBox} {y : BlockLevelBox}
    (h : layoutContainer F fuel schedule (.blockLevelBoxes (pre ++ y :: post)) cb rank absolute floats collapsible =
      some (fc, as))
    (hy : Css.inFlow y = false) :
    ∃ position, fc.fragments[pre.length]? = some (.anonymous ⟨⟨0, position⟩, ⟨0, 0⟩⟩ [] cb.mode) := by
  obtain ⟨fs, s, hun, hplace, -, -⟩ := container_canonical h
  obtain ⟨f, f', s1, s2, fp, rp, hux, hs1, hq, hget, -, -, -, -, -⟩ :=
    place_at (placedBefore_initial cb collapsible) hun hplace
  obtain ⟨-, h2, -⟩ := place_step hs1 hux hq
  obtain ⟨rfl, rfl⟩ := h2 hy
  exact ⟨_, hget⟩

/-- The block size of the contents is where the last box ends that is not collapsed through, and the margins after it are left
to the parent. -/
theorem C37_extent {pre mid : List BlockLevelBox} {x : BlockLevelBox}
    (h : layoutContainer F fuel schedule (.blockLevelBoxes (pre ++ x :: mid)) cb rank absolute floats collapsible =
      some (fc, as))
    (hx : Css.through cb x = false) (hmid : ∀ b ∈ mid, Css.through cb b = true) :
    ∃ bx childrenX, fc.fragments[pre.length]? = some (.box bx childrenX) ∧ fc.blockSize = flowBottom cb x bx ∧
      CollapseTo (Css.endMargins cb x ++ Css.leading cb mid) fc.collapsibleMarginsInChildren.end.solve := by
  obtain ⟨fs, s, hun, hplace, hsize, hmargins⟩ := container_canonical h
  have hinx : Css.inFlow x = true := by cases x <;> simp_all [Css.inFlow, Css.through]
  have hmid' := (throughAll_iff cb mid).mpr hmid
  have hend := place_list _ _ _ _ _ _ (placedBefore_initial cb collapsible) hun hplace
  obtain ⟨f, f', s1, s2, fp, rp, hux, hs1, hq, hget, -, hs2, hup, hp2, -⟩ :=
    place_at (placedBefore_initial cb collapsible) hun hplace
  obtain ⟨-, -, h3⟩ := place_step hs1 hux hq
  obtain ⟨bx, cx, dx, rfl, rfl, -, hpos⟩ := h3 hinx
  rw [hx] at hpos
  simp only [Bool.false_eq_true, if_false] at hpos
  refine ⟨_, cx, hget, ?_, ?_⟩
  · rw [(flowTop_moved hinx hux dx).2, hsize, place_through mid fp _ s2 s rp hs2 hup hp2 hmid', hpos]
  · rw [hmargins]
    have := hend.current
    simp only [List.nil_append, Css.throughAll_append, Css.throughAll, hx, Bool.false_and, Bool.and_false,
      Bool.false_eq_true, if_false, Css.trailing_of_solid cb pre mid x hx hmid'] at this
    exact this.solve

/-- If all the boxes are collapsed through or out of flow, the contents have no block size. -/
theorem C37_empty {boxes : List BlockLevelBox}
    (h : layoutContainer F fuel schedule (.blockLevelBoxes boxes) cb rank absolute floats collapsible = some (fc, as))
    (hb : ∀ b ∈ boxes, Css.through cb b = true) : fc.blockSize = 0 := by
  obtain ⟨fs, s, hun, hplace, hsize, -⟩ := container_canonical h
  have hend := place_list _ _ _ _ _ _ (placedBefore_initial cb collapsible) hun hplace
  rw [hsize]
  exact hend.position ((throughAll_iff cb _).mpr (by simpa using hb))

/-! The height of a box -/

/-- The fragments of the contents come first among the children of a box. -/
theorem inPositioned_prefix {la : DefiniteContainingBlock → Nat → AbsolutelyPositionedFragment → Option Fragment}
    {as : Absolutes} {fs children : List Fragment} {size : Vec2 Rat} {padding : Sides Rat} {mode : Mode}
    (h : inPositionedContainingBlock la as fs size padding mode = some children) : ∃ rest, children = fs ++ rest := by
  cases as with
  | nil => simp only [inPositionedContainingBlock, Option.some.injEq] at h; exact ⟨[], by simp [h]⟩
  | cons a as =>
    simp only [inPositionedContainingBlock] at h
    split at h
    · simp at h
    · simp only [Option.some.injEq] at h; exact ⟨_, h.symm⟩

theorem layoutInFlow_children {style : ComputedValues} {kind : BlockLevelKind}
    {lc : ContainingBlock → Absolutes → Bool → Option (FlowChildren × Absolutes)}
    {la : DefiniteContainingBlock → Nat → AbsolutelyPositionedFragment → Option Fragment} {info : BoxInfo}
    {children : List Fragment} (h : layoutInFlow cb [] style kind lc la = some (.box info children, as)) :
    ∃ fc as' rest,
      lc (Css.inner cb style) [] (decide (kind = .sameFormattingContextBlock) && Css.startCollapses cb style) = some (fc, as') ∧
      children = fc.fragments ++ rest ∧
      info.contentRect.size = ⟨Css.width cb style, (Css.height cb style).autoIs
        (collapseWithChildren (inFlowSizes cb style).margin
          (decide (kind = .sameFormattingContextBlock) && Css.startCollapses cb style)
          (decide (kind = .sameFormattingContextBlock) && Css.endCollapses cb style)
          fc.collapsibleMarginsInChildren fc.blockSize).2⟩ := by
  obtain ⟨fc, as', info', children', hl, he, -, -, -, -, -, hsize, -, hch, -⟩ := layoutInFlow_some h
  injection he with he1 he2
  subst he1; subst he2
  refine ⟨fc, as', ?_⟩
  by_cases hr : (positionOf style).isRelativelyPositioned = true
  · rw [if_pos hr] at hch
    obtain ⟨rest, hrest⟩ := inPositioned_prefix hch.2
    exact ⟨rest, hl, hrest, hsize⟩
  · rw [if_neg hr] at hch
    exact ⟨[], hl, by simp [hch.2], hsize⟩

theorem layoutBox_canonical {b : BlockLevelBox} {f : Fragment}
    (h : layoutBox F fuel schedule b cb rank absolute floats = some (f, as)) :
    ∃ as', layoutBox F fuel inOrder b cb rank [] false = some (f, as') := by
  rw [(layout_prepend F fuel).2.1] at h
  rcases hq : layoutBox F fuel inOrder b cb rank [] false with _ | ⟨f', as'⟩
  · simp [hq] at h
  · simp only [hq, prepend_some, Option.some.injEq, Prod.mk.injEq] at h
    exact ⟨as', by rw [h.1]⟩

/-- The height of a block box with block-level children, where the property `height` does not give it: to the bottom of the
last child that is not collapsed through, plus the margins after it unless they collapse with that of the box; nothing if
there is no such child, except the margins of the children if they collapse with neither margin of the box. -/
theorem C37_auto_height {style : ComputedValues} {boxes : List BlockLevelBox} {info : BoxInfo} {children : List Fragment}
    (h : layoutBox F fuel schedule (.sameFormattingContextBlock style (.blockLevelBoxes boxes)) cb rank absolute floats =
      some (.box info children, as))
    (hauto : Css.height cb style = .auto) :
    (∀ pre x mid, boxes = pre ++ x :: mid → Css.through (Css.inner cb style) x = false →
      (∀ b ∈ mid, Css.through (Css.inner cb style) b = true) →
      ∃ bx childrenX r, children[pre.length]? = some (.box bx childrenX) ∧
        (if Css.endCollapses cb style then r = 0
         else CollapseTo (Css.endMargins (Css.inner cb style) x ++ Css.leading (Css.inner cb style) mid) r) ∧
        info.contentRect.size.block = flowBottom (Css.inner cb style) x bx + r) ∧
    ((∀ b ∈ boxes, Css.through (Css.inner cb style) b = true) →
      if Css.startCollapses cb style || Css.endCollapses cb style then info.contentRect.size.block = 0
      else CollapseTo (Css.leading (Css.inner cb style) boxes) info.contentRect.size.block) := by
  obtain ⟨as', h⟩ := layoutBox_canonical h
  cases fuel with
  | zero => simp [layoutBox] at h
  | succ fuel =>
    simp only [layoutBox] at h
    obtain ⟨fc, as'', rest, hl, rfl, hsize⟩ := layoutInFlow_children h
    simp only [decide_true, Bool.true_and, hauto, LengthOrAuto.autoIs] at hl hsize
    have hm := (layout_margins F fuel).1 _ _ _ _ _ _ hl
    rw [hsize]
    refine ⟨?_, ?_⟩
    · rintro pre x mid rfl hx hmid
      obtain ⟨bx, cx, hget, hext, hmar⟩ := C37_extent hl hx hmid
      have hth : fc.collapsibleMarginsInChildren.collapsedThrough = false := by
        rw [hm.1]; simp [Css.throughContents, Css.throughAll_append, Css.throughAll, hx]
      have hget' : (fc.fragments ++ rest)[pre.length]? = some (.box bx cx) := by
        have : pre.length < fc.fragments.length := by
          by_contra hn
          rw [List.getElem?_eq_none (by omega)] at hget
          simp at hget
        rw [List.getElem?_append_left this]; exact hget
      refine ⟨bx, cx, if Css.endCollapses cb style then 0 else fc.collapsibleMarginsInChildren.end.solve, hget', ?_, ?_⟩
      · cases Css.endCollapses cb style
        · simpa using hmar
        · simp
      · simp only [collapseWithChildren, hth, Bool.and_false, Bool.false_eq_true, if_false, hext]
        cases Css.endCollapses cb style <;> simp
    · intro hall
      have hzero := C37_empty hl hall
      have hall' := (throughAll_iff _ _).mpr hall
      have h3 := hm.2.2
      simp only [Css.throughContents, hall', Bool.and_true, Css.trailingContents] at h3
      simp only [collapseWithChildren, hm.1, Css.throughContents, hall', Bool.and_true, hzero]
      cases hs : Css.startCollapses cb style
      · cases he : Css.endCollapses cb style
        · simp only [hs, Bool.false_eq_true, if_false] at h3
          rw [Css.trailing_of_through _ _ hall'] at h3
          simpa using h3.solve
        · simp
      · cases he : Css.endCollapses cb style <;> simp [solve_zero]

/-- The same for a box that establishes a block formatting context: no margin of a child collapses with those of the box. -/
theorem C37_auto_height_independent {style : ComputedValues} {containsFloats : Bool} {boxes : List BlockLevelBox}
    {info : BoxInfo} {children : List Fragment}
    (h : layoutBox F fuel schedule (.independent style containsFloats (.blockLevelBoxes boxes)) cb rank absolute floats =
      some (.box info children, as))
    (hauto : Css.height cb style = .auto) :
    (∀ pre x mid, boxes = pre ++ x :: mid → Css.through (Css.inner cb style) x = false →
      (∀ b ∈ mid, Css.through (Css.inner cb style) b = true) →
      ∃ bx childrenX r, children[pre.length]? = some (.box bx childrenX) ∧
        CollapseTo (Css.endMargins (Css.inner cb style) x ++ Css.leading (Css.inner cb style) mid) r ∧
        info.contentRect.size.block = flowBottom (Css.inner cb style) x bx + r) ∧
    ((∀ b ∈ boxes, Css.through (Css.inner cb style) b = true) →
      CollapseTo (Css.leading (Css.inner cb style) boxes) info.contentRect.size.block) := by
  obtain ⟨as', h⟩ := layoutBox_canonical h
  cases fuel with
  | zero => simp [layoutBox] at h
  | succ fuel =>
    simp only [layoutBox] at h
    obtain ⟨fc', as'', rest, hl', rfl, hsize⟩ := layoutInFlow_children h
    rcases hl : layoutContainer F fuel (inOrder.sub 0) (.blockLevelBoxes boxes) (Css.inner cb style) rank [] containsFloats false
      with _ | ⟨fc, as1⟩
    · simp [hl, mapFst] at hl'
    · have hd : decide (BlockLevelKind.establishesAnIndependentFormattingContext =
          BlockLevelKind.sameFormattingContextBlock) = false := by decide
      simp only [hl, mapFst, Option.some.injEq, Prod.mk.injEq] at hl'
      obtain ⟨rfl, -⟩ := hl'
      simp only [hauto, LengthOrAuto.autoIs, hd, Bool.false_and, collapseWithChildren, Bool.false_eq_true, if_false,
        FlowChildren.finishBlockFormattingContext, solve_zero, add_zero] at hsize
      rw [hsize]
      refine ⟨?_, ?_⟩
      · rintro pre x mid rfl hx hmid
        obtain ⟨bx, cx, hget, hext, hmar⟩ := C37_extent hl hx hmid
        have hget' : (fc.fragments ++ rest)[pre.length]? = some (.box bx cx) := by
          have : pre.length < fc.fragments.length := by
            by_contra hn
            rw [List.getElem?_eq_none (by omega)] at hget
            simp at hget
          rw [List.getElem?_append_left this]; exact hget
        exact ⟨bx, cx, _, hget', hmar, by rw [hext]⟩
      · intro hall
        have hzero := C37_empty hl hall
        have hall' := (throughAll_iff _ _).mpr hall
        rw [(layout_prepend F fuel).1] at hl
        simp only [prepend_nil] at hl
        have hm := (layout_margins F fuel).1 _ _ _ _ _ _ hl
        have h3 := hm.2.2
        simp only [Bool.false_and, Bool.false_eq_true, if_false, Css.trailingContents] at h3
        rw [Css.trailing_of_through _ _ hall'] at h3
        rw [hzero, zero_add]
        exact h3.solve

/-- A height that is given is the height of the content box. -/
theorem C37_height {b : BlockLevelBox} {info : BoxInfo} {children : List Fragment} {l : Rat}
    (hb : Css.inFlow b = true)
    (h : layoutBox F fuel schedule b cb rank absolute floats = some (.box info children, as))
    (hl : Css.height cb (Css.styleOf b) = .length l) : info.contentRect.size.block = l := by
  obtain ⟨as', h⟩ := layoutBox_canonical h
  cases fuel with
  | zero => simp [layoutBox] at h
  | succ fuel =>
    cases b with
    | sameFormattingContextBlock style contents =>
      simp only [layoutBox] at h
      obtain ⟨_, _, _, _, _, hsize⟩ := layoutInFlow_children h
      simp only [Css.styleOf] at hl
      rw [hsize, hl]; rfl
    | independent style f contents =>
      simp only [layoutBox] at h
      obtain ⟨_, _, _, _, _, hsize⟩ := layoutInFlow_children h
      simp only [Css.styleOf] at hl
      rw [hsize, hl]; rfl
    | outOfFlowAbsolutelyPositioned style f contents => simp [Css.inFlow] at hb
    | outOfFlowFloat style f contents => simp [Css.inFlow] at hb

/-! Examples -/

/-- A block box with these values. -/
def exampleStyle (top bottom : Rat) (height : LengthOrPercentageOrAuto) (paddingTop : Rat) : ComputedValues :=
  postCascadeFixups ((((((initialValues.set .display (Display.generatingBox .block .flow)).set .marginTop
    (LengthOrPercentageOrAuto.length top)).set .marginBottom (LengthOrPercentageOrAuto.length bottom)).set .height height).set
    .paddingTop (LengthOrPercentage.length paddingTop)))

/-- A font in which every character is one unit wide. -/
def exampleFont : FontApi Rat Unit := ⟨fun c => .ok c, fun _ => .ok 1, 0, (· + ·)⟩

/-- A block with margins 20 and 20, an empty one with margins 5 and 30, a block with margins -8 and 10 whose first child has a
margin of 40, and an absolutely positioned box. -/
def exampleBoxes : List BlockLevelBox :=
  [ .sameFormattingContextBlock (exampleStyle 20 20 (.length 100) 0) (.blockLevelBoxes []),
    .outOfFlowAbsolutelyPositioned (exampleStyle 1 1 (.length 7) 0) false (.blockLevelBoxes []),
    .sameFormattingContextBlock (exampleStyle 5 30 .auto 0) (.blockLevelBoxes []),
    .sameFormattingContextBlock (exampleStyle (-8) 10 .auto 0)
      (.blockLevelBoxes [.sameFormattingContextBlock (exampleStyle 40 3 (.length 50) 2) (.blockLevelBoxes [])]) ]

/-- The tops of the border boxes and the block sizes of the fragments. -/
def summary : List Fragment → List (Rat × Rat)
  | [] => []
  | .box info _ :: fs => (info.borderRect.startCorner.block, info.borderRect.size.block) :: summary fs
  | _ :: fs => summary fs

/-- The second block is at 100 + 32 = 132: the margins 20, 5, 30, -8 and 40 collapse to 40 - 8. -/
example :
    (layoutContainer exampleFont 10 inOrder (.blockLevelBoxes exampleBoxes) ⟨400, .auto, (.horizontalTb, .ltr)⟩ 0 [] false true).map
      (fun r => (summary r.1.fragments, r.1.blockSize, r.1.collapsibleMarginsInChildren.start.solve,
        r.1.collapsibleMarginsInChildren.end.solve, r.2.length)) =
      some ([(0, 100), (120, 0), (132, 52)], 184, 20, 10, 1) ∧
    (exampleBoxes.map (Css.through ⟨400, .auto, (.horizontalTb, .ltr)⟩)) = [false, true, true, false] := by
  constructor <;> decide +kernel

/-- The same in three tasks. -/
example :
    (layoutContainer exampleFont 10 (fun _ => .join 2 (.join 1 .task .task) .task) (.blockLevelBoxes exampleBoxes)
        ⟨400, .auto, (.horizontalTb, .ltr)⟩ 0 [] false true).map
      (fun r => (summary r.1.fragments, r.1.blockSize, r.1.collapsibleMarginsInChildren.start.solve,
        r.1.collapsibleMarginsInChildren.end.solve, r.2.length)) =
      some ([(0, 100), (120, 0), (132, 52)], 184, 20, 10, 1) := by
  decide +kernel

end Verif.Layout
