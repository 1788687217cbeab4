/- What comes before a change is laid out in the same way. -/
import Verif.Layout.BeforeSpec
import Verif.Layout.WrapTheorems
namespace Verif.Layout
open Verif.Style Verif.Text

variable {Err : Type} {F : FontApi Rat Err}

/-! ### Text -/

/-- How we look at shapes: at the text at least, perhaps glyph by glyph. `Q` is for styles of boxes whose rectangles we do not look at. -/
structure Look where
  see : Shape → List Shape
  Q : ComputedValues → Prop
  text : ∀ shape, (see shape).flatMap Shape.ids = shape.ids
  ground : ∀ (s : ComputedValues), Q s → ∀ (info : BoxInfo) (o : Vec2 Rat), info.style = s → (info.ink o).flatMap see = []

/-- What we look at of what is seen of fragments. -/
def textOf (v : Look) (asc : Rat) (o : Vec2 Rat) (fs : List Fragment) : List Shape := (inkOf asc o fs).flatMap v.see

variable {v : Look}

theorem textOf_append (asc : Rat) (o : Vec2 Rat) (fs gs : List Fragment) : textOf v asc o (fs ++ gs) = textOf v asc o fs ++ textOf v asc o gs := by
  simp only [textOf, inkOf_append, List.flatMap_append]

theorem textOf_box (asc : Rat) (o : Vec2 Rat) (info : BoxInfo) (hQ : v.Q info.style) (children fs : List Fragment) :
    textOf v asc o (.box info children :: fs) = textOf v asc (o.add info.contentRect.startCorner) children ++ textOf v asc o fs := by
  simp only [textOf, inkOf, Fragment.ink, List.flatMap_append, v.ground _ hQ info o rfl, List.nil_append]

theorem see_ids (v : Look) (shapes : List Shape) : (shapes.flatMap v.see).flatMap Shape.ids = shapes.flatMap Shape.ids := by
  rw [List.flatMap_assoc]
  exact congrArg (shapes.flatMap ·) (funext v.text)

theorem filter_visible_ids : ∀ shapes : List Shape, (shapes.filter Shape.visible).flatMap Shape.ids = shapes.flatMap Shape.ids
  | [] => rfl
  | shape :: shapes => by
    rw [List.filter_cons]
    split
    · rw [List.flatMap_cons, List.flatMap_cons, filter_visible_ids shapes]
    · rename_i h
      rw [List.flatMap_cons, filter_visible_ids shapes]
      cases shape <;> simp_all [Shape.visible, Shape.ids]

theorem textOf_ids (asc : Rat) (o : Vec2 Rat) (fs : List Fragment) : (textOf v asc o fs).flatMap Shape.ids = (fragmentsGlyphs fs).map Prod.snd := by
  obtain ⟨placed, h⟩ := Placed.exists fs o
  rw [textOf, see_ids, ← h.ink, filter_visible_ids, ← shapesOf_ids asc h]
  rfl

/-- A rectangle is not text. -/
theorem ink_rects (info : BoxInfo) (o : Vec2 Rat) : ∀ shape ∈ info.ink o, ∃ c z k, shape = .rect c z k := by
  intro shape h
  simp only [BoxInfo.ink, Fragment.shape] at h
  split at h
  · simp at h
  · rw [List.mem_filter, List.mem_singleton] at h
    exact ⟨_, _, _, h.1⟩

/-- The text. -/
def Look.ofText : Look where
  see := fun shape => if shape.isText then [shape] else []
  Q := fun _ => True
  text := fun shape => by cases shape <;> simp [Shape.isText, Shape.ids]
  ground := fun _ _ info o _ => by
    rw [List.flatMap_eq_nil_iff]
    intro shape h
    obtain ⟨_, _, _, rfl⟩ := ink_rects info o shape h
    rfl

/-- Everything. -/
def Look.ofAll : Look where
  see := fun shape => [shape]
  Q := fun s => (backgroundOf s).alpha = 0
  text := fun _ => by simp
  ground := fun s hs info o he => by
    subst he
    simp only [BoxInfo.ink, Fragment.shape, hs, if_true, List.filter_nil, List.flatMap_nil]

/-- The text glyph by glyph. -/
def Look.ofGlyphs (F : FontApi Rat Err) : Look where
  see := Shape.each F
  Q := fun _ => True
  text := fun shape => by
    cases shape with
    | rect => rfl
    | glyphs ids size baseline color =>
      simp only [Shape.each, Shape.ids]
      induction ids generalizing baseline with
      | nil => rfl
      | cons g ids ih => rw [eachGlyph, List.flatMap_cons, ih]; rfl
  ground := fun _ _ info o _ => by
    rw [List.flatMap_eq_nil_iff]
    intro shape h
    obtain ⟨_, _, _, rfl⟩ := ink_rects info o shape h
    rfl

theorem filter_visible_see (see : Shape → List Shape) (h : ∀ c z k, see (.rect c z k) = []) (shapes : List Shape) :
    (shapes.filter Shape.visible).flatMap see = shapes.flatMap see := by
  induction shapes with
  | nil => rfl
  | cons shape shapes ih =>
    rw [List.filter_cons]
    split
    · rw [List.flatMap_cons, List.flatMap_cons, ih]
    · rename_i hv
      rw [List.flatMap_cons, ih]
      cases shape with
      | rect => rw [h]; rfl
      | glyphs => simp [Shape.visible] at hv

theorem Placed.text {asc : Rat} {origin : Vec2 Rat} {fs : List Fragment} {placed : List (Fragment × Vec2 Rat)} (h : Placed origin fs placed) :
    (shapesOf asc placed).filter Shape.isText = textOf .ofText asc origin fs := by
  rw [textOf, ← h.ink, filter_visible_see _ (fun _ _ _ => rfl)]
  show _ = (shapesOf asc placed).flatMap _
  generalize shapesOf asc placed = shapes
  induction shapes with
  | nil => rfl
  | cons shape shapes ih =>
    rw [List.filter_cons, List.flatMap_cons, ← ih]
    simp only [Look.ofText]
    split <;> rfl

theorem Placed.glyphs {asc : Rat} {origin : Vec2 Rat} {fs : List Fragment} {placed : List (Fragment × Vec2 Rat)} (h : Placed origin fs placed) :
    (shapesOf asc placed).flatMap (Shape.each F) = textOf (.ofGlyphs F) asc origin fs := by
  rw [textOf, ← h.ink, filter_visible_see _ (fun _ _ _ => rfl)]
  rfl

theorem Placed.all {asc : Rat} {origin : Vec2 Rat} {fs : List Fragment} {placed : List (Fragment × Vec2 Rat)} (h : Placed origin fs placed) :
    (shapesOf asc placed).filter Shape.visible = textOf .ofAll asc origin fs := by
  rw [textOf, ← h.ink]
  exact (List.flatMap_singleton' _).symm

/-! ### The text of the boxes is shown -/

mutual
theorem LaysC.shown : ∀ {cb coll c fc}, LaysC F cb coll c fc → cb.mode = (.horizontalTb, .ltr) → c.Only NoAbsolutes →
    Shown F c.runs.flatten (fragmentsGlyphs fc.fragments)
  | _, _, _, _, .inlines h => by
    intro hm hno
    obtain ⟨-, p, h1, -, h3⟩ := layoutInline_shown _ _ hm _ _ _ h
    obtain ⟨-, rfl⟩ := h3 hno
    exact h1
  | _, _, _, _, .boxes h hp => by
    intro hm hno
    rw [(placeAll_shown (F := F) _ _ _ _ hp).1]
    exact LaysL.shown h hm hno
theorem LaysB.shown : ∀ {cb b f}, LaysB F cb b f → cb.mode = (.horizontalTb, .ltr) → b.Only NoAbsolutes → Shown F b.runs.flatten f.glyphs
  | _, _, _, .same h => fun _ hno => LaysC.shown h rfl hno
  | _, _, _, .independent h => fun _ hno => LaysC.shown h rfl hno
  | _, _, _, .float => fun _ _ => .nil
theorem LaysL.shown : ∀ {cb bs fs}, LaysL F cb bs fs → cb.mode = (.horizontalTb, .ltr) → blocksOnly NoAbsolutes bs →
    Shown F (blocksRuns bs).flatten (fragmentsGlyphs fs)
  | _, _, _, .nil => fun _ _ => .nil
  | _, _, _, .cons h1 h2 => by
    intro hm hno
    rw [blocksRuns, List.flatten_append]
    exact (LaysB.shown h1 hm hno.1).append (LaysL.shown h2 hm hno.2)
end

/-! ### Boxes that begin in the same way -/

/-- A block around these contents. -/
def blockAround (s : ComputedValues) (floats : Option Bool) (c : BlockContainer) : BlockLevelBox :=
  match floats with
  | none => .sameFormattingContextBlock s c
  | some f => .independent s f c

/-- The two containers begin in the same way, with this text. `last`: there is nothing more in the first one. -/
inductive Begin (Q : ComputedValues → Prop) (last : Bool) : BlockContainer → BlockContainer → List (ComputedValues × Nat) → Prop
  | nothing {c c'} : (last = true → c = .blockLevelBoxes []) → Begin Q last c c' []
  | here {pre a b} : (last = true → a = []) → Begin Q last (.blockLevelBoxes (pre ++ a)) (.blockLevelBoxes (pre ++ b)) (blocksRuns pre).flatten
  | added {s xs b} : Bare s → inlineAll UnmeasuredStyle xs → Begin Q last (.inlineFormattingContext xs)
      (.blockLevelBoxes (.sameFormattingContextBlock s (.inlineFormattingContext xs) :: b)) (inlinesRuns xs).flatten
  | removed {s xs a} : last = false → Bare s → inlineAll UnmeasuredStyle xs →
      Begin Q last (.blockLevelBoxes (.sameFormattingContextBlock s (.inlineFormattingContext xs) :: a)) (.inlineFormattingContext xs)
        (inlinesRuns xs).flatten
  | inside {pre s f f' c c' a b t} : (f = none ↔ f' = none) → Q s → (last = true → a = []) → Begin Q last c c' t →
      Begin Q last (.blockLevelBoxes (pre ++ blockAround s f c :: a)) (.blockLevelBoxes (pre ++ blockAround s f' c' :: b))
        ((blocksRuns pre).flatten ++ t)

/-- The two are laid out in the same way where the text is. -/
structure SameBegin (F : FontApi Rat Err) (v : Look) (last : Bool) (asc : Rat) (t : List (ComputedValues × Nat)) (fc fc' : FlowChildren) : Prop where
  text : ∃ (common rest rest' : Vec2 Rat → List Shape) (glyphs : List (ComputedValues × Nat)),
    (∀ o, textOf v asc o fc.fragments = common o ++ rest o) ∧ (∀ o, textOf v asc o fc'.fragments = common o ++ rest' o) ∧
    (last = true → ∀ o, rest o = []) ∧
    Shown F t glyphs ∧ (∀ o, (common o).flatMap Shape.ids = glyphs.map Prod.snd) ∧
    ((∀ o, common o = []) ∨ (fc.collapsibleMarginsInChildren.collapsedThrough = false ∧
      fc'.collapsibleMarginsInChildren.collapsedThrough = false ∧
      fc.collapsibleMarginsInChildren.start = fc'.collapsibleMarginsInChildren.start))

theorem place_settled {s t : PlacementState} {f g : Fragment} (h : placeFragment s f = some (g, t))
    (hs : s.nextInFlowMarginCollapsesWithParentStartMargin = false) :
    t.nextInFlowMarginCollapsesWithParentStartMargin = false ∧ t.startMargin = s.startMargin := by
  cases f with
  | text => simp [placeFragment] at h
  | anonymous r c m =>
    simp only [placeFragment] at h
    split at h
    · cases h; exact ⟨hs, rfl⟩
    · cases h
  | box i c =>
    simp only [placeFragment, hs, Bool.false_eq_true, if_false] at h
    split at h <;> cases h <;> exact ⟨rfl, rfl⟩

/-- Once something is placed, the margin at the start stays as it is. -/
theorem placeAll_settled : ∀ (fs gs : List Fragment) (s t : PlacementState), placeAll s fs = some (gs, t) →
    s.nextInFlowMarginCollapsesWithParentStartMargin = false →
    t.nextInFlowMarginCollapsesWithParentStartMargin = false ∧ t.startMargin = s.startMargin := by
  intro fs
  induction fs with
  | nil => intro gs s t h hs; cases h; exact ⟨hs, rfl⟩
  | cons f fs ih =>
    intro gs s t h hs
    simp only [placeAll] at h
    rcases h1 : placeFragment s f with _ | ⟨g, s1⟩
    · simp [h1] at h
    · rcases h2 : placeAll s1 fs with _ | ⟨gs1, s2⟩
      · simp [h1, h2] at h
      · simp only [h1, h2] at h
        cases h
        obtain ⟨a1, a2⟩ := place_settled h1 hs
        obtain ⟨b1, b2⟩ := ih _ _ _ h2 a1
        exact ⟨b1, by rw [b2, a2]⟩

theorem place_box {s t : PlacementState} {i : BoxInfo} {c : List Fragment} {g : Fragment} (h : placeFragment s (.box i c) = some (g, t)) :
    ∃ d, g = .box (i.moveBlock d) c := by
  have hz : i.moveBlock 0 = i := by simp [BoxInfo.moveBlock]
  simp only [placeFragment] at h
  split at h
  · split at h
    · split at h
      · cases h
        exact ⟨0, by rw [hz]⟩
      · cases h
        exact ⟨_, rfl⟩
    · cases h
  · split at h <;> cases h <;> exact ⟨_, rfl⟩

/-- Two boxes that begin in the same way are placed in the same way. -/
theorem place_begin {s t t' : PlacementState} {i i' : BoxInfo} {c c' : List Fragment} {g g' : Fragment}
    (h : placeFragment s (.box i c) = some (g, t)) (h' : placeFragment s (.box i' c') = some (g', t'))
    (hn : i.blockMarginsCollapsedWithChildren.collapsedThrough = false) (hn' : i'.blockMarginsCollapsedWithChildren.collapsedThrough = false)
    (hm : i.blockMarginsCollapsedWithChildren.start = i'.blockMarginsCollapsedWithChildren.start) :
    ∃ d, g = .box (i.moveBlock d) c ∧ g' = .box (i'.moveBlock d) c' ∧ t.nextInFlowMarginCollapsesWithParentStartMargin = false ∧
      t'.nextInFlowMarginCollapsesWithParentStartMargin = false ∧ t.startMargin = t'.startMargin := by
  simp only [placeFragment, hn, hn', ← hm, Bool.false_eq_true, if_false] at h h'
  split at h
  · rename_i hs
    rw [if_pos hs] at h'
    split at h
    · rename_i hz
      rw [if_pos hz] at h'
      cases h
      cases h'
      exact ⟨_, rfl, rfl, rfl, rfl, rfl⟩
    · cases h
  · rename_i hs
    rw [if_neg hs] at h'
    cases h
    cases h'
    exact ⟨_, rfl, rfl, by simpa using hs, by simpa using hs, rfl⟩

theorem SameBegin.nothing {last : Bool} {asc : Rat} (fc fc' : FlowChildren) (h : last = true → fc.fragments = []) : SameBegin F v last asc [] fc fc' :=
  ⟨fun _ => [], fun o => textOf v asc o fc.fragments, fun o => textOf v asc o fc'.fragments, [], fun _ => rfl, fun _ => rfl,
    fun hl o => by rw [h hl]; rfl, .nil, fun _ => rfl, .inl fun _ => rfl⟩

/-- The blocks at the beginning. -/
theorem pre_begin (asc : Rat) {cb : ContainingBlock} (hm : cb.mode = (.horizontalTb, .ltr)) {coll : Bool} {pre a b : List BlockLevelBox}
    (hno : blocksOnly NoAbsolutes pre) {fs fs' gs gs' : List Fragment} {t t' : PlacementState} (l : LaysL F cb (pre ++ a) fs) (l' : LaysL F cb (pre ++ b) fs')
    (p : placeAll (.initial coll) fs = some (gs, t)) (p' : placeAll (.initial coll) fs' = some (gs', t')) :
    ∃ (s : PlacementState) (g1 g1' g2 g2' fa fb : List Fragment), s.Reached ∧ gs = g1 ++ g2 ∧ gs' = g1' ++ g2' ∧ LaysL F cb a fa ∧ LaysL F cb b fb ∧
      placeAll s fa = some (g2, t) ∧ placeAll s fb = some (g2', t') ∧ (∀ o, textOf v asc o g1 = textOf v asc o g1') ∧
      Shown F (blocksRuns pre).flatten (fragmentsGlyphs g1) ∧
      (s.nextInFlowMarginCollapsesWithParentStartMargin = true → ∀ o, textOf v asc o g1 = []) := by
  obtain ⟨f1, fa, rfl, l1, la⟩ := LaysL.append l
  obtain ⟨f1', fb, rfl, l1', lb⟩ := LaysL.append l'
  obtain ⟨g1, s, g2, q1, q2, rfl⟩ := (placeAll_append _ _ _ _ _).1 p
  obtain ⟨g1', s', g2', q1', q2', rfl⟩ := (placeAll_append _ _ _ _ _).1 p'
  obtain ⟨rfl, hi⟩ := (WrapL.refl pre).alike asc _ _ _ _ hm rfl rfl (.inl rfl) l1 l1' _ (reached_initial coll) _ _ _ _ q1 q1'
  obtain ⟨gx, sx, r1, r2, r3⟩ := placeAll_sound _ _ (reached_initial coll) (l1.sound asc)
  rw [q1] at r1
  cases r1
  refine ⟨s, g1, g1', g2, g2', fa, fb, r2, rfl, rfl, la, lb, q2, q2', fun o => by rw [textOf, textOf, hi], ?_, fun h o => ?_⟩
  · rw [(placeAll_shown (F := F) _ _ _ _ q1).1]
    exact l1.shown hm hno
  · rw [textOf, (r3 h).2]
    rfl

theorem here_begin {last : Bool} (asc : Rat) {cb : ContainingBlock} (hm : cb.mode = (.horizontalTb, .ltr)) {coll : Bool} {pre a b : List BlockLevelBox}
    (hno : blocksOnly NoAbsolutes pre) (hlast : last = true → a = []) {fc fc' : FlowChildren} (l : LaysC F cb coll (.blockLevelBoxes (pre ++ a)) fc)
    (l' : LaysC F cb coll (.blockLevelBoxes (pre ++ b)) fc') : SameBegin F v last asc (blocksRuns pre).flatten fc fc' := by
  cases l with
  | boxes l p =>
    cases l' with
    | boxes l' p' =>
      obtain ⟨s, g1, g1', g2, g2', fa, fb, hs, rfl, rfl, la, lb, q, q', ht, hsh, hn⟩ := pre_begin asc hm hno l l' p p'
      refine ⟨fun o => textOf v asc o g1, fun o => textOf v asc o g2, fun o => textOf v asc o g2', fragmentsGlyphs g1, fun o => textOf_append _ _ _ _,
        fun o => by rw [textOf_append, ← ht], fun hl o => ?_, hsh, fun o => textOf_ids _ _ _, ?_⟩
      · cases hlast hl
        cases la
        cases q
        rfl
      cases hf : s.nextInFlowMarginCollapsesWithParentStartMargin with
      | true => exact .inl (hn hf)
      | false =>
        obtain ⟨a1, a2⟩ := placeAll_settled _ _ _ _ q hf
        obtain ⟨b1, b2⟩ := placeAll_settled _ _ _ _ q' hf
        exact .inr ⟨a1, b1, by rw [a2, b2]⟩

theorem laysB_around {cb : ContainingBlock} {s : ComputedValues} {floats : Option Bool} {c : BlockContainer} {f : Fragment}
    (h : LaysB F cb (blockAround s floats c) f) : ∃ fc kind h', LaysC F (Css.inner cb s) (decide (floats = none) && Css.startCollapses cb s) c fc ∧
      kind = (if floats = none then BlockLevelKind.sameFormattingContextBlock else .establishesAnIndependentFormattingContext) ∧
      f = .box (blockInfo cb s kind (if floats = none then fc.collapsibleMarginsInChildren else
        fc.finishBlockFormattingContext.collapsibleMarginsInChildren) h') fc.fragments := by
  cases floats with
  | none =>
    cases h with
    | same h => exact ⟨_, _, _, by simpa using h, rfl, rfl⟩
  | some x =>
    cases h with
    | independent h => exact ⟨_, _, _, by simpa using h, rfl, rfl⟩

/-- A block in which they begin in the same way. -/
theorem inside_same {last : Bool} (asc : Rat) {pre a b : List BlockLevelBox} {s : ComputedValues} {f f' : Option Bool} {c c' : BlockContainer}
    {t : List (ComputedValues × Nat)} (hff : f = none ↔ f' = none) (hQ : v.Q s) (hlast : last = true → a = [])
    (ih : ∀ (cb : ContainingBlock) (coll : Bool) (fc fc' : FlowChildren), cb.mode = (.horizontalTb, .ltr) → c.Only NoAbsolutes → c'.Only NoAbsolutes →
      LaysC F cb coll c fc → LaysC F cb coll c' fc' → SameBegin F v last asc t fc fc')
    (cb : ContainingBlock) (coll : Bool) (fc fc' : FlowChildren) (hm : cb.mode = (.horizontalTb, .ltr))
    (hno : (BlockContainer.blockLevelBoxes (pre ++ blockAround s f c :: a)).Only NoAbsolutes)
    (hno' : (BlockContainer.blockLevelBoxes (pre ++ blockAround s f' c' :: b)).Only NoAbsolutes)
    (l : LaysC F cb coll (.blockLevelBoxes (pre ++ blockAround s f c :: a)) fc)
    (l' : LaysC F cb coll (.blockLevelBoxes (pre ++ blockAround s f' c' :: b)) fc') :
    SameBegin F v last asc ((blocksRuns pre).flatten ++ t) fc fc' := by
  have hnoa := ((blocksOnly_append _ _).1 hno).2.1
  have hnob := ((blocksOnly_append _ _).1 hno').2.1
  cases l with
  | boxes l p =>
    cases l' with
    | boxes l' p' =>
      obtain ⟨s1, g1, g1', g2, g2', fa, fb, hs, rfl, rfl, la, lb, q, q', ht, hsh, hn⟩ := pre_begin asc hm ((blocksOnly_append _ _).1 hno).1 l l' p p'
      cases la with
      | cons la1 la2 =>
        cases lb with
        | cons lb1 lb2 =>
          obtain ⟨ca, ka, ha, k1, rfl, rfl⟩ := laysB_around la1
          obtain ⟨cb', kb, hb, k2, rfl, rfl⟩ := laysB_around lb1
          have hdec : decide (f' = none) = decide (f = none) := by simp [hff]
          have hno1 : c.Only NoAbsolutes := by cases f <;> exact hnoa
          have hno2 : c'.Only NoAbsolutes := by cases f' <;> exact hnob
          rw [hdec] at k2
          obtain ⟨k, r, r', gl, h1, h2, h9, h3, h4, h5⟩ := ih _ _ _ _ rfl hno1 hno2 k1 k2
          simp only [placeAll] at q q'
          split at q
          · cases q
          · rename_i xa sa qa
            split at q
            · cases q
            · rename_i ya ta qa2
              cases q
              split at q'
              · cases q'
              · rename_i xb sb qb
                split at q'
                · cases q'
                · rename_i yb tb qb2
                  cases q'
                  have hempty : last = true → ya = [] := by
                    intro hl
                    cases hlast hl
                    cases la2
                    cases qa2
                    rfl
                  rcases h5 with h5 | ⟨h5, h6, h7⟩
                  · refine ⟨fun o => textOf v asc o g1, fun o => textOf v asc o (xa :: ya), fun o => textOf v asc o (xb :: yb), fragmentsGlyphs g1 ++ gl,
                      fun o => textOf_append _ _ _ _, fun o => by rw [textOf_append, ← ht], fun hl o => ?_, hsh.append h3, fun o => ?_, ?_⟩
                    · rw [hempty hl]
                      obtain ⟨z, rfl⟩ := place_box qa
                      beta_reduce
                      rw [textOf_box _ _ _ (by exact hQ), h1, h5, h9 hl]
                      rfl
                    · have := h4 o
                      rw [h5 o] at this
                      rw [List.map_append, ← this, textOf_ids]
                      simp
                    · cases hf : s1.nextInFlowMarginCollapsesWithParentStartMargin with
                      | true => exact .inl (hn hf)
                      | false =>
                        obtain ⟨a1, a2⟩ := place_settled qa hf
                        obtain ⟨a3, a4⟩ := placeAll_settled _ _ _ _ qa2 a1
                        obtain ⟨b1, b2⟩ := place_settled qb hf
                        obtain ⟨b3, b4⟩ := placeAll_settled _ _ _ _ qb2 b1
                        exact .inr ⟨a3, b3, by rw [a4, b4, a2, b2]⟩
                  · have hmar : (if f = none then ca.collapsibleMarginsInChildren else ca.finishBlockFormattingContext.collapsibleMarginsInChildren).start =
                        (if f' = none then cb'.collapsibleMarginsInChildren else cb'.finishBlockFormattingContext.collapsibleMarginsInChildren).start := by
                      by_cases hf : f = none
                      · rw [if_pos hf, if_pos (hff.1 hf), h7]
                      · rw [if_neg hf, if_neg (fun h => hf (hff.2 h))]
                        exact h7
                    have hthr : (if f = none then ca.collapsibleMarginsInChildren else ca.finishBlockFormattingContext.collapsibleMarginsInChildren).collapsedThrough = false := by
                      split
                      · exact h5
                      · rfl
                    have hthr' : (if f' = none then cb'.collapsibleMarginsInChildren else cb'.finishBlockFormattingContext.collapsibleMarginsInChildren).collapsedThrough = false := by
                      split
                      · exact h6
                      · rfl
                    have hkind : (if f' = none then BlockLevelKind.sameFormattingContextBlock else .establishesAnIndependentFormattingContext) =
                        (if f = none then BlockLevelKind.sameFormattingContextBlock else .establishesAnIndependentFormattingContext) := by
                      simp [hff]
                    rw [hkind] at qb
                    obtain ⟨d, rfl, rfl, a1, b1, e1⟩ := place_begin qa qb (by simp [blockInfo, collapseWithChildren, hthr])
                      (by simp [blockInfo, collapseWithChildren, hthr']) (by
                        simp only [blockInfo, collapseWithChildren, hthr, hthr', hmar, Bool.and_false, Bool.false_eq_true, if_false])
                    obtain ⟨a3, a4⟩ := placeAll_settled _ _ _ _ qa2 a1
                    obtain ⟨b3, b4⟩ := placeAll_settled _ _ _ _ qb2 b1
                    refine ⟨fun o => textOf v asc o g1 ++ k (o.add (((blockInfo cb s (if f = none then BlockLevelKind.sameFormattingContextBlock else .establishesAnIndependentFormattingContext) .zero 0).moveBlock d).contentRect.startCorner)),
                      fun o => r (o.add (((blockInfo cb s (if f = none then BlockLevelKind.sameFormattingContextBlock else .establishesAnIndependentFormattingContext) .zero 0).moveBlock d).contentRect.startCorner)) ++ textOf v asc o ya,
                      fun o => r' (o.add (((blockInfo cb s (if f = none then BlockLevelKind.sameFormattingContextBlock else .establishesAnIndependentFormattingContext) .zero 0).moveBlock d).contentRect.startCorner)) ++ textOf v asc o yb,
                      fragmentsGlyphs g1 ++ gl, fun o => ?_, fun o => ?_, fun hl o => ?_, hsh.append h3, fun o => ?_, .inr ⟨a3, b3, by rw [a4, b4, e1]⟩⟩
                    · rw [textOf_append, textOf_box _ _ _ (by exact hQ), h1]
                      simp only [List.append_assoc]
                      rfl
                    · rw [textOf_append, textOf_box _ _ _ (by exact hQ), h2, ← ht]
                      simp only [List.append_assoc]
                      rfl
                    · beta_reduce
                      rw [hempty hl, h9 hl]
                      rfl
                    · rw [List.flatMap_append, h4, textOf_ids, List.map_append]

/-- The layouts of two containers that begin in the same way do so, too. -/
theorem Begin.same {last : Bool} (asc : Rat) {c c' : BlockContainer} {t : List (ComputedValues × Nat)} (h : Begin v.Q last c c' t) :
    ∀ (cb : ContainingBlock) (coll : Bool) (fc fc' : FlowChildren), cb.mode = (.horizontalTb, .ltr) → c.Only NoAbsolutes → c'.Only NoAbsolutes →
      LaysC F cb coll c fc → LaysC F cb coll c' fc' → SameBegin F v last asc t fc fc' := by
  have hadd : ∀ {s xs b} (cb : ContainingBlock) (coll : Bool) (fc fc' : FlowChildren), Bare s → inlineAll UnmeasuredStyle xs →
      cb.mode = (.horizontalTb, .ltr) → inlinesOnly NoAbsolutes xs → LaysC F cb coll (.inlineFormattingContext xs) fc →
      LaysC F cb coll (.blockLevelBoxes (.sameFormattingContextBlock s (.inlineFormattingContext xs) :: b)) fc' →
      SameBegin F v last asc (inlinesRuns xs).flatten fc fc' ∧
        (last = false → SameBegin F v last asc (inlinesRuns xs).flatten fc' fc) := by
    intro s xs b cb coll fc fc' hs hu hm hno l l'
    obtain ⟨f, gs, t, l1, p⟩ : ∃ f gs t, LaysL F cb [.sameFormattingContextBlock s (.inlineFormattingContext xs)] [f] ∧
        placeAll (.initial coll) [f] = some (gs, t) := by
      cases l' with
      | boxes l' p' =>
        cases l' with
        | cons l1 l2 =>
          obtain ⟨gs, t, q, -, -⟩ := placeAll_sound _ _ (reached_initial coll) ((LaysL.cons l1 .nil).sound asc)
          exact ⟨_, gs, t, .cons l1 .nil, q⟩
    have ha := (WrapC.unwrap hs hu (WrapL.refl _)).alike asc _ _ _ _ hm l (.boxes l1 p)
    have hb := here_begin (pre := [.sameFormattingContextBlock s (.inlineFormattingContext xs)]) (a := []) (b := b) (v := v) (last := true) asc hm ⟨hno, trivial⟩
      (fun _ => rfl) (.boxes l1 p) l'
    obtain ⟨k, r, r', gl, h1, h2, h6, h3, h4, h5⟩ := hb
    simp only [blocksRuns, BlockLevelBox.runs, BlockContainer.runs, List.append_nil] at h3
    have h1' : ∀ o, textOf v asc o fc.fragments = k o ++ r o := fun o => by rw [textOf, ha.ink o, ← h1 o]; rfl
    have h5' : (∀ o, k o = []) ∨ (fc.collapsibleMarginsInChildren.collapsedThrough = false ∧
      fc'.collapsibleMarginsInChildren.collapsedThrough = false ∧
      fc.collapsibleMarginsInChildren.start = fc'.collapsibleMarginsInChildren.start) := by
      rw [ha.margins]
      exact h5
    exact ⟨⟨k, r, r', gl, h1', h2, fun _ => h6 rfl, h3, h4, h5'⟩, fun hl => ⟨k, r', r, gl, h2, h1', fun h => (by rw [hl] at h; cases h), h3, h4,
      h5'.imp id fun h => ⟨h.2.1, h.1, h.2.2.symm⟩⟩⟩
  induction h with
  | nothing hc =>
    intro cb coll fc fc' _ _ _ l _
    refine .nothing _ _ fun hl => ?_
    cases hc hl
    cases l with
    | boxes l p =>
      cases l
      cases p
      rfl
  | here hlast =>
    intro cb coll fc fc' hm hno _ l l'
    exact here_begin asc hm ((blocksOnly_append _ _).1 hno).1 hlast l l'
  | added hs hu =>
    intro cb coll fc fc' hm hno _ l l'
    exact (hadd cb coll fc fc' hs hu hm hno l l').1
  | removed hl hs hu =>
    intro cb coll fc fc' hm _ hno l l'
    exact (hadd cb coll fc' fc hs hu hm hno l' l).2 hl
  | inside hff hQ hlast _ ih => exact inside_same asc hff hQ hlast ih

end Verif.Layout
