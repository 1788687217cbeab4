/- C126: the calls that paint a document with text. -/
import Verif.Layout.RowsPageSpec
import Verif.Layout.RowsTheorems
import Verif.Layout.WholePage
import Verif.Layout.MachineShown
namespace Verif.Layout.Machine
open Verif.Style Verif.Text Verif.Float Verif.Pdf

attribute [local instance] singleNumbers exactNumbers

section
variable {E Err : Type} (P : Painter Single E) (F : FontApi Single Err)

theorem RowCalls.append {P : Painter Single E} {F : FontApi Single Err} {a b : List (PageOp Single)} {s t : List Shape}
    (h : RowCalls P F a s) (h' : RowCalls P F b t) : RowCalls P F (a ++ b) (s ++ t) := by
  induction h with
  | nil => exact h'
  | rect h1 h2 _ ih => exact .rect h1 h2 ih
  | glyphs h1 h2 _ ih => exact .glyphs h1 h2 ih

variable {k : Nat} {T T' : Rat} (S : Simulation (R := Single) (R' := Rat) T' (WholeIs k))
include S

theorem background_row {B : Rat} {b : BoxInfo Single} {b' : Layout.BoxInfo} {c : List Layout.Fragment} {cb : PRect Single} {o : Vec2 Rat}
    (ascender : Rat) (hst : b.style = b'.style)
    (r1 : WholeIs k true T b.contentRect.startCorner.inline b'.contentRect.startCorner.inline)
    (r3 : WholeIs k true T b.contentRect.size.inline b'.contentRect.size.inline)
    (hp : SideWidthsAgree (WholeIs k true T) b.padding b'.padding) (hq : SideWidthsAgree (WholeIs k true T) b.border b'.border)
    (hx : WholeIs k true B cb.topLeft.x o.inline)
    (h1 : B + 3 * T ≤ T') (h2 : 5 * T ≤ T') (hT : 0 ≤ T) {ops : List (PageOp Single)}
    (h : backgroundCalls P b cb = some ops) : RowCalls P F ops ((Layout.Fragment.box b' c).shape ascender o) := by
  obtain ⟨p1, p2⟩ := hp
  obtain ⟨q1, q2⟩ := hq
  have nB := S.nonneg hx
  have hc : toRgba b.style (b.style.values .backgroundColor) = backgroundOf b'.style := by
    rw [← hst]
    rfl
  unfold backgroundCalls at h
  rw [hc] at h
  simp only [Layout.Fragment.shape]
  by_cases h0 : (backgroundOf b'.style).alpha = 0
  · rw [if_pos h0]
    rw [if_neg (by omega)] at h
    cases h
    exact .nil
  · rw [if_neg h0]
    rw [if_pos (by omega)] at h
    simp only [writingMode, Rect.toPhysical, Option.some.injEq] at h
    subst h
    have e1 := S.add (S.sub (S.sub r1 p1 (by linarith)) q1 (by linarith)) hx (by linarith)
    have e3 := S.add (S.add r3 (S.add p1 p2 (by linarith)) (by linarith)) (S.add q1 q2 (by linarith)) (by linarith)
    refine .rect ?_ ?_ .nil
    · have := e1.1
      rw [show (b'.contentRect.startCorner.inline - b'.padding.inlineStart - b'.border.inlineStart + o.inline : Rat) =
        o.inline + b'.contentRect.startCorner.inline - b'.padding.inlineStart - b'.border.inlineStart by ring] at this
      exact this
    · have := e3.1
      rw [show (b'.contentRect.size.inline + (b'.padding.inlineStart + b'.padding.inlineEnd) +
          (b'.border.inlineStart + b'.border.inlineEnd) : Rat) =
        b'.border.inlineStart + b'.padding.inlineStart + b'.contentRect.size.inline + b'.padding.inlineEnd + b'.border.inlineEnd by ring] at this
      exact this

mutual
theorem fragment_row (ascender : Rat) (hT : 0 ≤ T) (h5 : 5 * T ≤ T') : ∀ (g : Layout.Fragment) (f : Fragment Single) (n : Nat) (cb : PRect Single)
    (o : Vec2 Rat) (B : Rat) (ops : List (PageOp Single)), RowsAgree (WholeIs k true T) f (ofFragment g) → f.Made F → g.layers ≤ n →
    WholeIs k true B cb.topLeft.x o.inline → B + (n + 2) * T ≤ T' → fragmentCalls P cb f = some ops →
    ∃ below, Placed (o.add g.offset) g.children below ∧
      RowCalls P F ops (((g, o) :: below).flatMap fun e => e.1.shape ascender e.2)
  | .box b' c', f, n, cb, o, B, ops, ha, hm, hn, hx, hB, h => by
    rw [ofFragment] at ha
    cases ha with
    | @box b _ c _ hst r1 r3 hp hq _ hc =>
      rw [Layout.Fragment.layers] at hn
      obtain ⟨n, rfl⟩ : ∃ k, n = k + 1 := ⟨n - 1, by omega⟩
      push_cast at hB
      have nn : (0 : Rat) ≤ n * T := mul_nonneg (Nat.cast_nonneg n) hT
      simp only [fragmentCalls, writingMode, Rect.toPhysical] at h
      rcases e1 : backgroundCalls P b cb with _ | a
      · rw [e1] at h; cases h
      simp only [e1] at h
      rcases e2 : fragmentsCalls P (PRect.moved ⟨⟨b.contentRect.startCorner.inline, b.contentRect.startCorner.block⟩,
          b.contentRect.size.sizeToPhysical (.horizontalTb, .ltr)⟩ cb.topLeft) c with _ | ops'
      · rw [e2] at h; cases h
      rw [e2] at h
      simp only [Option.map_some, Option.some.injEq] at h
      subst h
      rw [Fragment.Made] at hm
      obtain ⟨below, hpl, hr⟩ := fragments_row ascender hT h5 c' c n _ (o.add (Layout.Fragment.box b' c').offset) (T + B) ops'
        hc hm (by omega) (by
          have := S.add r1 hx (by linarith)
          rw [add_comm ((ofInfo b').contentRect.startCorner.inline : Rat)] at this
          exact this) (by linarith) e2
      refine ⟨below, hpl, ?_⟩
      rw [List.flatMap_cons]
      exact (background_row P F S ascender hst r1 r3 hp hq hx (by linarith) h5 hT e1).append hr
  | .anonymous rect c' mode, f, n, cb, o, B, ops, ha, hm, hn, hx, hB, h => by
    rw [ofFragment] at ha
    cases ha with
    | @anonymous r _ c _ m r1 r3 hc =>
      rw [Layout.Fragment.layers] at hn
      obtain ⟨n, rfl⟩ : ∃ k, n = k + 1 := ⟨n - 1, by omega⟩
      push_cast at hB
      have nn : (0 : Rat) ≤ n * T := mul_nonneg (Nat.cast_nonneg n) hT
      rw [Fragment.Made] at hm
      obtain ⟨rfl, hm⟩ := hm
      simp only [fragmentCalls, Rect.toPhysical] at h
      obtain ⟨below, hpl, hr⟩ := fragments_row ascender hT h5 c' c n _ (o.add (Layout.Fragment.anonymous rect c' (.horizontalTb, .ltr)).offset)
        (T + B) ops hc hm (by omega) (by
          have := S.add r1 hx (by linarith)
          rw [add_comm (rect.startCorner.inline : Rat)] at this
          exact this) (by linarith) h
      exact ⟨below, hpl, hr⟩
  | .text style rect segment, f, n, cb, o, B, ops, ha, hm, hn, hx, hB, h => by
    rw [ofFragment] at ha
    cases ha with
    | @text _ r _ s _ r1 r3 hg _ =>
      have nn : (0 : Rat) ≤ n * T := mul_nonneg (Nat.cast_nonneg n) hT
      rw [Fragment.Made] at hm
      simp only [fragmentCalls, writingMode, Rect.toPhysical, Option.some.injEq] at h
      subst h
      refine ⟨[], .nil, ?_⟩
      simp only [List.flatMap_cons, List.flatMap_nil, List.append_nil, Layout.Fragment.shape]
      rw [← hg]
      refine .glyphs hm ?_ .nil
      have := (S.add r1 hx (by linarith)).1
      rw [add_comm (rect.startCorner.inline : Rat)] at this
      exact this
theorem fragments_row (ascender : Rat) (hT : 0 ≤ T) (h5 : 5 * T ≤ T') : ∀ (gs : List Layout.Fragment) (fs : List (Fragment Single)) (n : Nat)
    (cb : PRect Single) (o : Vec2 Rat) (B : Rat) (ops : List (PageOp Single)), List.Forall₂ (RowsAgree (WholeIs k true T)) fs (ofFragments gs) →
    allMade F fs → fragmentLayers gs ≤ n → WholeIs k true B cb.topLeft.x o.inline →
    B + (n + 2) * T ≤ T' → fragmentsCalls P cb fs = some ops →
    ∃ placed, Placed o gs placed ∧ RowCalls P F ops (placed.flatMap fun e => e.1.shape ascender e.2)
  | [], fs, n, cb, o, B, ops, ha, hm, hn, hx, hB, h => by
    rw [ofFragments] at ha
    cases ha
    simp only [fragmentsCalls, Option.some.injEq] at h
    subst h
    exact ⟨[], .nil, .nil⟩
  | g :: gs, fs, n, cb, o, B, ops, ha, hm, hn, hx, hB, h => by
    rw [ofFragments] at ha
    cases ha with
    | @cons f _ fs _ h1 h2 =>
      rw [fragmentLayers] at hn
      rw [allMade] at hm
      simp only [fragmentsCalls] at h
      rcases e1 : fragmentCalls P cb f with _ | a
      · rw [e1] at h; cases h
      rcases e2 : fragmentsCalls P cb fs with _ | b
      · rw [e1, e2] at h; cases h
      simp only [e1, e2, Option.some.injEq] at h
      subst h
      obtain ⟨below, p1, m1⟩ := fragment_row ascender hT h5 g f n cb o B a h1 hm.1 (by omega) hx hB e1
      obtain ⟨rest, p2, m2⟩ := fragments_row ascender hT h5 gs fs n cb o B b h2 hm.2 (by omega) hx hB e2
      refine ⟨(g, o) :: below ++ rest, .cons p1 p2, ?_⟩
      rw [List.flatMap_append]
      exact m1.append m2
end

end

end Verif.Layout.Machine
