/- Containers that begin in the same way, up to some point in a line. -/
import Verif.Layout.TwinText
namespace Verif.Layout
open Verif.Style Verif.Text

variable {Err : Type} {F : FontApi Rat Err} {v : Look}

/-- The two containers begin in the same way, with this text, perhaps up to some point in a line. -/
inductive Begins : BlockContainer → BlockContainer → List (ComputedValues × Nat) → Prop
  | nothing {c c'} : Begins c c' []
  | here {pre a b} : Begins (.blockLevelBoxes (pre ++ a)) (.blockLevelBoxes (pre ++ b)) (blocksRuns pre).flatten
  | lines {xs ys t} : Twin xs ys t → Begins (.inlineFormattingContext xs) (.inlineFormattingContext ys) t
  | added {s xs ys b t} : Bare s → inlineAll UnmeasuredStyle xs → Twin xs ys t → Begins (.inlineFormattingContext xs)
      (.blockLevelBoxes (.sameFormattingContextBlock s (.inlineFormattingContext ys) :: b)) t
  | removed {s xs ys a t} : Bare s → inlineAll UnmeasuredStyle ys → Twin xs ys t →
      Begins (.blockLevelBoxes (.sameFormattingContextBlock s (.inlineFormattingContext xs) :: a)) (.inlineFormattingContext ys) t
  | inside {pre s f f' c c' a b t} : (f = none ↔ f' = none) → Begins c c' t →
      Begins (.blockLevelBoxes (pre ++ blockAround s f c :: a)) (.blockLevelBoxes (pre ++ blockAround s f' c' :: b)) ((blocksRuns pre).flatten ++ t)

theorem Begins.symm {c c' : BlockContainer} {t : List (ComputedValues × Nat)} (h : Begins c c' t) : Begins c' c t := by
  induction h with
  | nothing => exact .nothing
  | here => exact .here
  | lines h => exact .lines h.symm
  | added h1 h2 h3 => exact .removed h1 h2 h3.symm
  | removed h1 h2 h3 => exact .added h1 h2 h3.symm
  | inside h _ ih => exact .inside h.symm ih

theorem SameBegin.symm {asc : Rat} {t : List (ComputedValues × Nat)} {fc fc' : FlowChildren} (h : SameBegin F v false asc t fc fc') :
    SameBegin F v false asc t fc' fc := by
  obtain ⟨k, r, r', g, h1, h2, -, h3, h4, h5⟩ := h
  exact ⟨k, r', r, g, h2, h1, by simp, h3, h4, h5.imp id fun h => ⟨h.2.1, h.1, h.2.2.symm⟩⟩

theorem lines_same (hv : v.Splits) (asc : Rat) {xs ys : List InlineLevelBox} {t : List (ComputedValues × Nat)} (h : Twin xs ys t)
    (cb : ContainingBlock) (coll : Bool) (fc fc' : FlowChildren) (hm : cb.mode = (.horizontalTb, .ltr))
    (hno : (BlockContainer.inlineFormattingContext xs).Only NoAbsolutes) (hno' : (BlockContainer.inlineFormattingContext ys).Only NoAbsolutes)
    (l : LaysC F cb coll (.inlineFormattingContext xs) fc) (l' : LaysC F cb coll (.inlineFormattingContext ys) fc') : SameBegin F v false asc t fc fc' := by
  cases l with
  | inlines l =>
    cases l' with
    | inlines l' =>
      obtain ⟨k, r, r', g, h1, h2, h3, h4⟩ := h.layout hv asc hm hno hno' l l'
      have m1 := layoutInline_margins F _ _ _ _ _ _ _ l
      have m2 := layoutInline_margins F _ _ _ _ _ _ _ l'
      exact ⟨k, r, r', g, h1, h2, by simp, h3, h4, .inr ⟨by rw [m1]; rfl, by rw [m2]; rfl, by rw [m1, m2]⟩⟩

theorem added_same (hv : v.Splits) (asc : Rat) {s : ComputedValues} {xs ys : List InlineLevelBox} {b : List BlockLevelBox} {t : List (ComputedValues × Nat)}
    (hs : Bare s) (hu : inlineAll UnmeasuredStyle xs) (h : Twin xs ys t)
    (cb : ContainingBlock) (coll : Bool) (fc fc' : FlowChildren) (hm : cb.mode = (.horizontalTb, .ltr))
    (hno : (BlockContainer.inlineFormattingContext xs).Only NoAbsolutes)
    (hno' : (BlockContainer.blockLevelBoxes (.sameFormattingContextBlock s (.inlineFormattingContext ys) :: b)).Only NoAbsolutes)
    (l : LaysC F cb coll (.inlineFormattingContext xs) fc)
    (l' : LaysC F cb coll (.blockLevelBoxes (.sameFormattingContextBlock s (.inlineFormattingContext ys) :: b)) fc') : SameBegin F v false asc t fc fc' := by
  -- the lines in a block of their own
  obtain ⟨gs, st, l1⟩ : ∃ gs st, LaysC F cb coll (.blockLevelBoxes [.sameFormattingContextBlock s (.inlineFormattingContext xs)])
      ⟨gs, st, fc.collapsibleMarginsInChildren⟩ := by
    cases l with
    | inlines h1 =>
      have h0 := h1
      rw [layoutInline_height (F := F) (cb := cb) (cb' := Css.inner cb s) (by rw [hs.inner_eq]) (by rw [hs.inner_eq, hm]) xs hu] at h1
      have l1 : LaysL F cb [.sameFormattingContextBlock s (.inlineFormattingContext xs)] _ := .cons (.same (.inlines h1)) .nil
      obtain ⟨gs, t, p1, -, -⟩ := placeAll_sound (asc := asc) _ _ (reached_initial coll) (l1.sound asc)
      have l2 : LaysC F cb coll _ _ := .boxes l1 p1
      have ha := (WrapC.unwrap hs hu (WrapL.refl _)).alike asc _ _ _ _ hm (.inlines h0) l2
      rw [ha.margins]
      exact ⟨_, _, l2⟩
  have ha := (WrapC.unwrap hs hu (WrapL.refl _)).alike asc _ _ _ _ hm l l1
  have hb := inside_same (last := false) (pre := []) (a := []) (f := none) (f' := none) (v := v) asc (Iff.rfl) (hv.Q s) (by simp) (lines_same hv asc h)
    cb coll _ _ hm ⟨hno, trivial⟩ hno' l1 l'
  obtain ⟨k, r, r', g, h1, h2, -, h3, h4, h5⟩ := hb
  simp only [blocksRuns, List.flatten_nil, List.nil_append] at h3
  exact ⟨k, r, r', g, fun o => by rw [textOf, ha.ink o, ← h1 o]; rfl, h2, by simp, h3, h4, h5⟩

/-- The layouts of two containers that begin in the same way do so, too. -/
theorem Begins.same (hv : v.Splits) (asc : Rat) {c c' : BlockContainer} {t : List (ComputedValues × Nat)} (h : Begins c c' t) :
    ∀ (cb : ContainingBlock) (coll : Bool) (fc fc' : FlowChildren), cb.mode = (.horizontalTb, .ltr) → c.Only NoAbsolutes → c'.Only NoAbsolutes →
      LaysC F cb coll c fc → LaysC F cb coll c' fc' → SameBegin F v false asc t fc fc' := by
  induction h with
  | nothing => intro cb coll fc fc' _ _ _ _ _; exact .nothing _ _ (by simp)
  | here =>
    intro cb coll fc fc' hm hno _ l l'
    exact here_begin asc hm ((blocksOnly_append _ _).1 hno).1 (by simp) l l'
  | lines h => exact lines_same hv asc h
  | added h1 h2 h3 => exact added_same hv asc h1 h2 h3
  | removed h1 h2 h3 =>
    intro cb coll fc fc' hm hno hno' l l'
    exact (added_same hv asc h1 h2 h3.symm cb coll fc' fc hm hno' hno l' l).symm
  | inside hff _ ih => exact inside_same asc hff (hv.Q _) (by simp) ih

end Verif.Layout
