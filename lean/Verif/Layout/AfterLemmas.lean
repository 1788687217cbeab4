/- What comes after a change is laid out in the same way, further down. -/
import Verif.Layout.AfterSpec
import Verif.Layout.BeforeTheorems
namespace Verif.Layout
open Verif.Style Verif.Text

variable {Err : Type} {F : FontApi Rat Err}

/-! ### Further down -/

theorem Shape.down_down (d e : Rat) (shape : Shape) : (shape.down d).down e = shape.down (d + e) := by
  cases shape <;> simp [Shape.down, add_assoc]

theorem Shape.down_ids (d : Rat) (shape : Shape) : (shape.down d).ids = shape.ids := by cases shape <;> rfl

theorem map_down_down (d e : Rat) (shapes : List Shape) : (shapes.map (Shape.down d)).map (Shape.down e) = shapes.map (Shape.down (d + e)) := by
  rw [List.map_map]
  exact List.map_congr_left fun shape _ => Shape.down_down d e shape

theorem filter_down (d : Rat) (shapes : List Shape) : (shapes.map (Shape.down d)).filter Shape.visible = (shapes.filter Shape.visible).map (Shape.down d) := by
  rw [List.filter_map]
  congr 1
  refine List.filter_congr fun shape _ => ?_
  cases shape <;> rfl

theorem BoxInfo.ink_down (info : BoxInfo) (o : Vec2 Rat) (d : Rat) : info.ink (o.add ⟨0, d⟩) = (info.ink o).map (Shape.down d) := by
  rw [BoxInfo.ink, BoxInfo.ink, ← filter_down]
  congr 1
  simp only [Fragment.shape]
  by_cases h : (backgroundOf info.style).alpha = 0
  · simp only [if_pos h]
    rfl
  · simp only [if_neg h, List.map_cons, List.map_nil, Shape.down, Vec2.add]
    congr 3 <;> ring

theorem Vec2.add_swap (o p : Vec2 Rat) (d : Rat) : (o.add ⟨0, d⟩).add p = (o.add p).add ⟨0, d⟩ := by
  simp only [Vec2.add, Vec2.mk.injEq]
  constructor <;> ring

mutual
theorem Fragment.ink_down (asc : Rat) (d : Rat) : ∀ (f : Fragment) (o : Vec2 Rat), f.ink asc (o.add ⟨0, d⟩) = (f.ink asc o).map (Shape.down d)
  | .box info children, o => by
    rw [Fragment.ink, Fragment.ink, BoxInfo.ink_down, Vec2.add_swap, inkOf_down asc d children, List.map_append]
  | .anonymous rect children _, o => by
    rw [Fragment.ink, Fragment.ink, Vec2.add_swap, inkOf_down asc d children]
  | .text style rect segment, o => by
    simp only [Fragment.ink, Fragment.shape, List.map_cons, List.map_nil, Shape.down, Vec2.add]
    congr 3
    · ring
    · ring
theorem inkOf_down (asc : Rat) (d : Rat) : ∀ (fs : List Fragment) (o : Vec2 Rat), inkOf asc (o.add ⟨0, d⟩) fs = (inkOf asc o fs).map (Shape.down d)
  | [], _ => rfl
  | f :: fs, o => by rw [inkOf, inkOf, Fragment.ink_down asc d f, inkOf_down asc d fs, List.map_append]
end

/-- What we look at is the same further down. -/
def Look.Level (v : Look) : Prop := ∀ d shape, v.see (shape.down d) = (v.see shape).map (Shape.down d)

theorem Look.ofText_level : Look.ofText.Level := by
  intro d shape
  cases shape <;> rfl

theorem Look.ofAll_level : Look.ofAll.Level := fun _ _ => rfl

variable {v : Look}

theorem see_down (hv : v.Level) (d : Rat) (shapes : List Shape) : (shapes.map (Shape.down d)).flatMap v.see = (shapes.flatMap v.see).map (Shape.down d) := by
  rw [List.flatMap_map, List.map_flatMap]
  exact congrArg (shapes.flatMap ·) (funext (hv d))

theorem textOf_down (hv : v.Level) (asc : Rat) (d : Rat) (fs : List Fragment) (o : Vec2 Rat) :
    textOf v asc (o.add ⟨0, d⟩) fs = (textOf v asc o fs).map (Shape.down d) := by
  rw [textOf, textOf, inkOf_down, see_down hv]

/-! ### Placing the same blocks -/

/-- From two states on, the same is placed at two places that are this far from each other. -/
structure PlacementState.Apart (d : Rat) (s s' : PlacementState) : Prop where
  next : s.nextInFlowMarginCollapsesWithParentStartMargin = false
  next' : s'.nextInFlowMarginCollapsesWithParentStartMargin = false
  margin : s.currentMargin = s'.currentMargin
  position : s'.currentBlockDirectionPosition = s.currentBlockDirectionPosition + d

theorem PlacementState.from_apart {s s' a : PlacementState} (ha : a.nextInFlowMarginCollapsesWithParentStartMargin = false) :
    (s.from a).Apart (s'.down a - s.down a) (s'.from a) := by
  unfold PlacementState.from PlacementState.down
  rcases hs : s.nextInFlowMarginCollapsesWithParentStartMargin <;> rcases hs' : s'.nextInFlowMarginCollapsesWithParentStartMargin <;>
    refine ⟨?_, ?_, ?_, ?_⟩ <;> simp only [ha, Bool.false_eq_true, if_false, if_true] <;> ring

theorem PlacementState.Apart.from {d : Rat} {s s' : PlacementState} (h : s.Apart d s') (a : PlacementState) :
    (s.from a).Apart d (s'.from a) ∧ s'.down a = s.down a + d := by
  obtain ⟨h1, h2, h3, h4⟩ := h
  unfold PlacementState.from PlacementState.down
  simp only [h1, h2, h3, h4, Bool.false_eq_true, if_false]
  refine ⟨⟨?_, ?_, ?_, ?_⟩, by ring⟩
  · split <;> rfl
  · split <;> rfl
  · split <;> rfl
  · split <;> simp <;> ring

/-- The same blocks placed from two states on. -/
theorem post_end (hv : v.Level) (asc : Rat) {cb : ContainingBlock} (hm : cb.mode = (.horizontalTb, .ltr)) {post post' : List BlockLevelBox}
    (hw : WrapL post post') {fs fs' gs gs' : List Fragment} {s s' t t' : PlacementState} (hs : s.Reached) (hs' : s'.Reached) (l : LaysL F cb post fs)
    (l' : LaysL F cb post' fs') (p : placeAll s fs = some (gs, t)) (p' : placeAll s' fs' = some (gs', t')) :
    (∃ d, (∀ o, textOf v asc o gs' = (textOf v asc o gs).map (Shape.down d)) ∧ ((∀ o, textOf v asc o gs = []) ∨ t.Apart d t')) ∧
    ∀ d, s.Apart d s' → (∀ o, textOf v asc o gs' = (textOf v asc o gs).map (Shape.down d)) ∧ t.Apart d t' := by
  obtain ⟨g0, a, q, -, q3⟩ := placeAll_sound _ _ (reached_initial true) (l.sound asc)
  obtain ⟨g1, r1, r2, -⟩ := placeAll_from hs _ _ _ _ (reached_initial true) (l.sound asc) q
  obtain ⟨g2, u1, u2, -⟩ := placeAll_from hs' _ _ _ _ (reached_initial true) (l.sound asc) q
  rw [PlacementState.from_initial hs, p] at r1
  rw [PlacementState.from_initial hs'] at u1
  cases r1
  obtain ⟨rfl, hi⟩ := hw.alike asc _ _ _ _ hm rfl rfl (.inl rfl) l l' _ hs' _ _ _ _ u1 p'
  have h1 : ∀ o, textOf v asc o gs = (textOf v asc o g0).map (Shape.down (s.down a)) := fun o => by
    rw [← textOf_down hv, textOf, r2]
    rfl
  have h2 : ∀ o, textOf v asc o gs' = (textOf v asc o g0).map (Shape.down (s'.down a)) := fun o => by
    rw [← textOf_down hv, textOf, ← hi, u2]
    rfl
  refine ⟨⟨s'.down a - s.down a, fun o => ?_, ?_⟩, fun d hd => ⟨fun o => ?_, (hd.from a).1⟩⟩
  · rw [h1, h2, map_down_down]
    congr 2
    ring
  · cases hn : a.nextInFlowMarginCollapsesWithParentStartMargin with
    | true =>
      left
      intro o
      rw [h1, textOf, (q3 hn).2]
      rfl
    | false => exact .inr (PlacementState.from_apart hn)
  · rw [h1, h2, map_down_down, (hd.from a).2]

/-! ### Boxes that end in the same way -/

/-- The two containers end in the same way, with this text. -/
inductive End (Q : ComputedValues → Prop) : BlockContainer → BlockContainer → List (ComputedValues × Nat) → Prop
  | here {a b post post'} : WrapL post post' → End Q (.blockLevelBoxes (a ++ post)) (.blockLevelBoxes (b ++ post')) (blocksRuns post).flatten
  | inside {a b s f f' c c' post post' t} : (f = none ↔ f' = none) → Q s → (s.values .height : LengthOrPercentageOrAuto) = .auto → End Q c c' t →
      WrapL post post' → End Q (.blockLevelBoxes (a ++ blockAround s f c :: post)) (.blockLevelBoxes (b ++ blockAround s f' c' :: post'))
        (t ++ (blocksRuns post).flatten)

/-- The two are laid out in the same way where the text is, one of them further down. -/
structure SameEnd (F : FontApi Rat Err) (v : Look) (asc : Rat) (t : List (ComputedValues × Nat)) (fc fc' : FlowChildren) : Prop where
  text : ∃ (d : Rat) (common rest rest' : Vec2 Rat → List Shape) (glyphs : List (ComputedValues × Nat)),
    (∀ o, textOf v asc o fc.fragments = rest o ++ common o) ∧ (∀ o, textOf v asc o fc'.fragments = rest' o ++ (common o).map (Shape.down d)) ∧
    (∀ o e, common (o.add ⟨0, e⟩) = (common o).map (Shape.down e)) ∧
    Shown F t glyphs ∧ (∀ o, (common o).flatMap Shape.ids = glyphs.map Prod.snd) ∧
    ((∀ o, common o = []) ∨ (fc.collapsibleMarginsInChildren.collapsedThrough = false ∧
      fc'.collapsibleMarginsInChildren.collapsedThrough = false ∧
      fc.collapsibleMarginsInChildren.end = fc'.collapsibleMarginsInChildren.end ∧ fc'.blockSize = fc.blockSize + d))

/-- The places of two boxes that end in the same way. -/
theorem place_end {d : Rat} {s s' t t' : PlacementState} {i i' : BoxInfo} {c c' : List Fragment} {g g' : Fragment}
    (h : placeFragment s (.box i c) = some (g, t)) (h' : placeFragment s' (.box i' c') = some (g', t'))
    (hn : i.blockMarginsCollapsedWithChildren.collapsedThrough = false) (hn' : i'.blockMarginsCollapsedWithChildren.collapsedThrough = false)
    (hm : i.blockMarginsCollapsedWithChildren.end = i'.blockMarginsCollapsedWithChildren.end) (hb : i'.borderBlockSize = i.borderBlockSize + d) :
    ∃ x x', g = .box (i.moveBlock x) c ∧ g' = .box (i'.moveBlock x') c' ∧ t.Apart (x' - x + d) t' := by
  have one : ∀ {s t : PlacementState} {i : BoxInfo} {c : List Fragment} {g : Fragment}, placeFragment s (.box i c) = some (g, t) →
      i.blockMarginsCollapsedWithChildren.collapsedThrough = false → ∃ x, g = .box (i.moveBlock x) c ∧
        t.nextInFlowMarginCollapsesWithParentStartMargin = false ∧ t.currentMargin = i.blockMarginsCollapsedWithChildren.end ∧
        t.currentBlockDirectionPosition = x + i.borderBlockSize := by
    intro s t i c g h hn
    simp only [placeFragment, hn, Bool.false_eq_true, if_false] at h
    split at h
    · split at h
      · cases h
        exact ⟨_, rfl, rfl, rfl, by simp only; ring⟩
      · cases h
    · rename_i hs
      cases h
      exact ⟨_, rfl, by simpa using hs, rfl, by simp only; ring⟩
  obtain ⟨x, e1, e2, e3, e4⟩ := one h hn
  obtain ⟨x', k1, k2, k3, k4⟩ := one h' hn'
  exact ⟨x, x', e1, k1, e2, k2, by rw [e3, k3, hm], by rw [e4, k4, hb]; ring⟩

/-- The contents of a block as the block sees them. -/
def FlowChildren.within (fc : FlowChildren) (floats : Option Bool) : FlowChildren := if floats = none then fc else fc.finishBlockFormattingContext

theorem laysB_sized {cb : ContainingBlock} {s : ComputedValues} {floats : Option Bool} {c : BlockContainer} {f : Fragment}
    (h : LaysB F cb (blockAround s floats c) f) : ∃ fc, LaysC F (Css.inner cb s) (decide (floats = none) && Css.startCollapses cb s) c fc ∧
      f = .box (blockInfo cb s (if floats = none then BlockLevelKind.sameFormattingContextBlock else .establishesAnIndependentFormattingContext)
        (fc.within floats).collapsibleMarginsInChildren (fc.within floats).blockSize) fc.fragments := by
  cases floats with
  | none =>
    cases h with
    | same h => exact ⟨_, by simpa using h, rfl⟩
  | some x =>
    cases h with
    | independent h => exact ⟨_, by simpa using h, rfl⟩

theorem laysL_reached (asc : Rat) {cb : ContainingBlock} {bs : List BlockLevelBox} {fs gs : List Fragment} {s t : PlacementState} (hs : s.Reached)
    (l : LaysL F cb bs fs) (p : placeAll s fs = some (gs, t)) : t.Reached := by
  obtain ⟨gs', t', q, h, -⟩ := placeAll_sound _ _ hs (l.sound asc)
  rw [p] at q
  cases q
  exact h

theorem post_shown {cb : ContainingBlock} (hm : cb.mode = (.horizontalTb, .ltr)) {bs : List BlockLevelBox} {fs gs : List Fragment} {s t : PlacementState}
    (hno : blocksOnly NoAbsolutes bs) (l : LaysL F cb bs fs) (p : placeAll s fs = some (gs, t)) :
    Shown F (blocksRuns bs).flatten (fragmentsGlyphs gs) := by
  rw [(placeAll_shown (F := F) _ _ _ _ p).1]
  exact l.shown hm hno

/-- The layouts of two containers that end in the same way do so, too. -/
theorem End.same (hv : v.Level) (asc : Rat) {c c' : BlockContainer} {t : List (ComputedValues × Nat)} (h : End v.Q c c' t) :
    ∀ (cb : ContainingBlock) (coll : Bool) (fc fc' : FlowChildren), cb.mode = (.horizontalTb, .ltr) → c.Only NoAbsolutes →
      LaysC F cb coll c fc → LaysC F cb coll c' fc' → SameEnd F v asc t fc fc' := by
  induction h with
  | here hw =>
    intro cb coll fc fc' hm hno l l'
    cases l with
    | boxes l p =>
      cases l' with
      | boxes l' p' =>
        obtain ⟨f1, f2, rfl, l1, l2⟩ := LaysL.append l
        obtain ⟨f1', f2', rfl, l1', l2'⟩ := LaysL.append l'
        obtain ⟨g1, s, g2, q1, q2, rfl⟩ := (placeAll_append _ _ _ _ _).1 p
        obtain ⟨g1', s', g2', q1', q2', rfl⟩ := (placeAll_append _ _ _ _ _).1 p'
        obtain ⟨⟨d, h1, h2⟩, -⟩ := post_end hv asc hm hw (laysL_reached asc (reached_initial _) l1 q1) (laysL_reached asc (reached_initial _) l1' q1')
          l2 l2' q2 q2'
        refine ⟨d, fun o => textOf v asc o g2, fun o => textOf v asc o g1, fun o => textOf v asc o g1', fragmentsGlyphs g2,
          fun o => textOf_append _ _ _ _, fun o => by rw [textOf_append, h1], fun o e => textOf_down hv _ _ _ _,
          post_shown hm ((blocksOnly_append _ _).1 hno).2 l2 q2, fun o => textOf_ids _ _ _, h2.imp id fun h => ⟨h.next, h.next', h.margin, h.position⟩⟩
  | @inside a b st f f' c c' post post' tx hff hQ hh _ hw ih =>
    intro cb coll fc fc' hm hno l l'
    cases l with
    | boxes l p =>
      cases l' with
      | boxes l' p' =>
        obtain ⟨f1, f2, rfl, l1, l2⟩ := LaysL.append l
        obtain ⟨f1', f2', rfl, l1', l2'⟩ := LaysL.append l'
        obtain ⟨g1, s, g2, q1, q2, rfl⟩ := (placeAll_append _ _ _ _ _).1 p
        obtain ⟨g1', s', g2', q1', q2', rfl⟩ := (placeAll_append _ _ _ _ _).1 p'
        have hs := laysL_reached asc (reached_initial _) l1 q1
        have hs' := laysL_reached asc (reached_initial _) l1' q1'
        have hnoa := ((blocksOnly_append _ _).1 hno).2
        cases l2 with
        | cons la1 la2 =>
          cases l2' with
          | cons lb1 lb2 =>
            simp only [placeAll] at q2 q2'
            split at q2
            · cases q2
            rename_i xa sa qa
            split at q2
            · cases q2
            rename_i ya ta qa2
            cases q2
            split at q2'
            · cases q2'
            rename_i xb sb qb
            split at q2'
            · cases q2'
            rename_i yb tb qb2
            cases q2'
            have hsa : sa.Reached := by
              obtain ⟨_, _, r1, r2, -⟩ := place_sound hs (la1.sound asc)
              rw [qa] at r1
              cases r1
              exact r2
            have hsb : sb.Reached := by
              obtain ⟨_, _, r1, r2, -⟩ := place_sound hs' (lb1.sound asc)
              rw [qb] at r1
              cases r1
              exact r2
            obtain ⟨⟨d, e1, e2⟩, e3⟩ := post_end hv asc hm hw hsa hsb la2 lb2 qa2 qb2
            have e4 := post_shown hm hnoa.2 la2 qa2
            obtain ⟨ca, k1, rfl⟩ := laysB_sized la1
            obtain ⟨cb', k2, rfl⟩ := laysB_sized lb1
            have hdec : decide (f' = none) = decide (f = none) := by simp [hff]
            have hno1 : c.Only NoAbsolutes := by cases f <;> exact hnoa.1
            rw [hdec] at k2
            obtain ⟨e, k, r, r', gl, h1, h2, h9, h3, h4, h5⟩ := ih _ _ _ _ rfl hno1 k1 k2
            rcases h5 with h5 | ⟨h5, h6, h7, h8⟩
            · have h4' : gl.map Prod.snd = [] := by rw [← h4 ⟨0, 0⟩, h5]; rfl
              refine ⟨d, fun o => textOf v asc o ya, fun o => textOf v asc o (g1 ++ [xa]), fun o => textOf v asc o (g1' ++ [xb]), gl ++ fragmentsGlyphs ya,
                fun o => ?_, fun o => ?_, fun o e => textOf_down hv _ _ _ _, h3.append e4, fun o => ?_, e2.imp id fun h => ⟨h.next, h.next', h.margin, h.position⟩⟩
              · rw [← textOf_append, List.append_assoc]; rfl
              · rw [← e1, ← textOf_append, List.append_assoc]; rfl
              · rw [textOf_ids, List.map_append, h4', List.nil_append]
            · have hkind : (if f' = none then BlockLevelKind.sameFormattingContextBlock else .establishesAnIndependentFormattingContext) =
                  (if f = none then BlockLevelKind.sameFormattingContextBlock else .establishesAnIndependentFormattingContext) := by
                simp [hff]
              have hin : ∀ {c : FlowChildren} {f : Option Bool}, c.collapsibleMarginsInChildren.collapsedThrough = false →
                  (c.within f).collapsibleMarginsInChildren.collapsedThrough = false := by
                intro c f h
                unfold FlowChildren.within
                split
                · exact h
                · rfl
              have hend : (ca.within f).collapsibleMarginsInChildren.end = (cb'.within f').collapsibleMarginsInChildren.end ∧
                  (cb'.within f').blockSize = (ca.within f).blockSize + e := by
                unfold FlowChildren.within
                by_cases hf : f = none
                · rw [if_pos hf, if_pos (hff.1 hf)]
                  exact ⟨h7, h8⟩
                · rw [if_neg hf, if_neg (fun h => hf (hff.2 h))]
                  refine ⟨rfl, ?_⟩
                  simp only [FlowChildren.finishBlockFormattingContext, h7, h8]
                  ring
              rw [hkind] at qb
              have hauto : Css.height cb st = .auto := by simp only [Css.height, hh]
              obtain ⟨x, x', rfl, rfl, hap⟩ := place_end (d := e) qa qb (by simp [blockInfo, collapseWithChildren, hin h5])
                (by simp [blockInfo, collapseWithChildren, hin h6])
                (by simp only [blockInfo, collapseWithChildren, hin h5, hin h6, hend.1, Bool.and_false, Bool.false_eq_true, if_false])
                (by
                  simp only [BoxInfo.borderBlockSize, blockInfo, collapseWithChildren, hin h5, hin h6, hend.1, hend.2, hauto, LengthOrAuto.autoIs,
                    Bool.and_false, Bool.false_eq_true, if_false]
                  generalize (_ && Css.endCollapses cb st) = q
                  cases q <;> simp only [Bool.false_eq_true, if_false, if_true] <;> ring)
              obtain ⟨e5, e6⟩ := e3 _ hap
              have hcorner : ∀ (kind : BlockLevelKind) (m : CollapsedBlockMargins) (h y : Rat) (o : Vec2 Rat),
                  o.add ((blockInfo cb st kind m h).moveBlock y).contentRect.startCorner =
                    (o.add (blockInfo cb st kind .zero 0).contentRect.startCorner).add ⟨0, y⟩ := by
                intro kind m h y o
                simp only [blockInfo, BoxInfo.moveBlock, Vec2.add, Vec2.mk.injEq]
                constructor <;> ring
              refine ⟨x' - x + e, fun o => k (o.add (((blockInfo cb st (if f = none then BlockLevelKind.sameFormattingContextBlock
                  else .establishesAnIndependentFormattingContext) .zero 0).moveBlock x).contentRect.startCorner)) ++ textOf v asc o ya,
                fun o => textOf v asc o g1 ++ r (o.add (((blockInfo cb st (if f = none then BlockLevelKind.sameFormattingContextBlock
                  else .establishesAnIndependentFormattingContext) .zero 0).moveBlock x).contentRect.startCorner)),
                fun o => textOf v asc o g1' ++ r' (o.add (((blockInfo cb st (if f = none then BlockLevelKind.sameFormattingContextBlock
                  else .establishesAnIndependentFormattingContext) .zero 0).moveBlock x').contentRect.startCorner)),
                gl ++ fragmentsGlyphs ya, fun o => ?_, fun o => ?_, fun o y => ?_, h3.append e4, fun o => ?_,
                .inr ⟨e6.next, e6.next', e6.margin, e6.position⟩⟩
              · rw [textOf_append, textOf_box _ _ _ (by exact hQ), h1]
                simp only [List.append_assoc]
                rfl
              · rw [textOf_append, textOf_box _ _ _ (by exact hQ), h2, e5]
                simp only [List.append_assoc, List.map_append]
                congr 2
                simp only [hcorner, h9, map_down_down]
                congr 3
                ring
              · simp only [Vec2.add_swap _ _ y, h9, textOf_down hv, List.map_append]
              · rw [List.flatMap_append, h4, textOf_ids, List.map_append]

end Verif.Layout
