/- C124: the calls that paint the backgrounds of blocks. -/
import Verif.Layout.WholeLow
import Verif.Layout.WholeTheorems
import Verif.Layout.MachineExact
import Verif.Layout.DtoaTheorems
namespace Verif.Layout.Machine
open Verif.Style Verif.Text Verif.Float Verif.Pdf

attribute [local instance] singleNumbers exactNumbers

/-- Calls that fill these rectangles in their colours; all numbers are on the grid. -/
inductive CallsFor {E : Type} (P : Painter Single E) (k : Nat) (T : Rat) : List (PageOp Single) → List Shape → Prop
  | nil : CallsFor P k T [] []
  | cons {x y w h ops corner size color shapes} : WholeIs k true T x corner.inline → WholeIs k true T y corner.block →
      WholeIs k true T w size.inline → WholeIs k true T h size.block → IsBytes color → CallsFor P k T ops shapes →
      CallsFor P k T (colorCall P color :: .rect x y w h :: ops) (.rect corner size color :: shapes)

theorem CallsFor.append {E : Type} {P : Painter Single E} {k : Nat} {T : Rat} {a b : List (PageOp Single)} {s t : List Shape}
    (h : CallsFor P k T a s) (h' : CallsFor P k T b t) : CallsFor P k T (a ++ b) (s ++ t) := by
  induction h with
  | nil => exact h'
  | cons h1 h2 h3 h4 h5 _ ih => exact .cons h1 h2 h3 h4 h5 ih

section
variable {E : Type} (P : Painter Single E) {k : Nat} {T T' : Rat} (S : Simulation (R := Single) (R' := Rat) T' (WholeIs k))
include S

theorem background_exact {B : Rat} {b : BoxInfo Single} {b' : Layout.BoxInfo} {c : List Layout.Fragment} {cb : PRect Single} {o : Vec2 Rat} (ascender : Rat)
    (hb : BoxesAgree (WholeIs k true T) b (ofInfo b')) (hx : WholeIs k true B cb.topLeft.x o.inline) (hy : WholeIs k true B cb.topLeft.y o.block)
    (h1 : B + 3 * T ≤ T') (h2 : 5 * T ≤ T') (hT : 0 ≤ T) (hq : IsBytes (backgroundOf b.style)) {ops : List (PageOp Single)}
    (h : backgroundCalls P b cb = some ops) : CallsFor P k T' ops ((Layout.Fragment.box b' c).shape ascender o) := by
  obtain ⟨hst, ⟨r1, r2, r3, r4⟩, ⟨p1, p2, p3, p4⟩, ⟨q1, q2, q3, q4⟩, -⟩ := hb
  have nB := S.nonneg hx
  have hst : b.style = b'.style := hst
  have hc : toRgba b.style (b.style.values .backgroundColor) = backgroundOf b'.style := by
    rw [← hst]
    rfl
  unfold backgroundCalls at h
  rw [hc] at h
  simp only [Layout.Fragment.shape]
  by_cases h0 : (backgroundOf b'.style).alpha = 0
  · rw [if_pos h0]
    rw [if_neg (by omega)] at h
    cases h
    exact .nil
  · rw [if_neg h0]
    rw [if_pos (by omega)] at h
    simp only [writingMode, Rect.toPhysical, Option.some.injEq] at h
    subst h
    have e1 := S.add (S.sub (S.sub r1 p1 (by linarith)) q1 (by linarith)) hx (by linarith)
    have e2 := S.add (S.sub (S.sub r2 p3 (by linarith)) q3 (by linarith)) hy (by linarith)
    have e3 := S.add (S.add r3 (S.add p1 p2 (by linarith)) (by linarith)) (S.add q1 q2 (by linarith)) (by linarith)
    have e4 := S.add (S.add r4 (S.add p3 p4 (by linarith)) (by linarith)) (S.add q3 q4 (by linarith)) (by linarith)
    refine .cons (S.mono (B := T + T + T + B) ?_ (by linarith)) (S.mono (B := T + T + T + B) ?_ (by linarith))
      (S.mono (B := T + (T + T) + (T + T)) ?_ (by linarith)) (S.mono (B := T + (T + T) + (T + T)) ?_ (by linarith)) (hst ▸ hq) .nil
    · have := e1
      rw [show ((ofInfo b').contentRect.startCorner.inline - (ofInfo b').padding.inlineStart - (ofInfo b').border.inlineStart + o.inline : Rat) =
        o.inline + b'.contentRect.startCorner.inline - b'.padding.inlineStart - b'.border.inlineStart by
          simp only [ofInfo]; ring] at this
      exact this
    · have := e2
      rw [show ((ofInfo b').contentRect.startCorner.block - (ofInfo b').padding.blockStart - (ofInfo b').border.blockStart + o.block : Rat) =
        o.block + b'.contentRect.startCorner.block - b'.padding.blockStart - b'.border.blockStart by
          simp only [ofInfo]; ring] at this
      exact this
    · have := e3
      rw [show ((ofInfo b').contentRect.size.inline + ((ofInfo b').padding.inlineStart + (ofInfo b').padding.inlineEnd) +
          ((ofInfo b').border.inlineStart + (ofInfo b').border.inlineEnd) : Rat) =
        b'.border.inlineStart + b'.padding.inlineStart + b'.contentRect.size.inline + b'.padding.inlineEnd + b'.border.inlineEnd by
          simp only [ofInfo]; ring] at this
      exact this
    · have := e4
      rw [show ((ofInfo b').contentRect.size.block + ((ofInfo b').padding.blockStart + (ofInfo b').padding.blockEnd) +
          ((ofInfo b').border.blockStart + (ofInfo b').border.blockEnd) : Rat) =
        b'.border.blockStart + b'.padding.blockStart + b'.contentRect.size.block + b'.padding.blockEnd + b'.border.blockEnd by
          simp only [ofInfo]; ring] at this
      exact this

mutual
theorem fragment_exact (ascender : Rat) (hT : 0 ≤ T) (h5 : 5 * T ≤ T') : ∀ (g : Layout.Fragment) (f : Fragment Single) (n : Nat) (cb : PRect Single)
    (o : Vec2 Rat) (B : Rat) (ops : List (PageOp Single)), FragmentsAgree (WholeIs k true T) f (ofFragment g) →
    Low (fun s => IsBytes (backgroundOf s)) n f → WholeIs k true B cb.topLeft.x o.inline → WholeIs k true B cb.topLeft.y o.block →
    B + (n + 2) * T ≤ T' → fragmentCalls P cb f = some ops →
    ∃ below, Placed (o.add g.offset) g.children below ∧
      CallsFor P k T' ops (((g, o) :: below).flatMap fun e => e.1.shape ascender e.2)
  | .box b' c', f, n, cb, o, B, ops, ha, hl, hx, hy, hB, h => by
    rw [ofFragment] at ha
    cases ha with
    | @box b _ c _ hb hc =>
      cases hl with
      | @box n _ _ hq hlow =>
        push_cast at hB
        have nn : (0 : Rat) ≤ n * T := mul_nonneg (Nat.cast_nonneg n) hT
        simp only [fragmentCalls, writingMode, Rect.toPhysical] at h
        rcases e1 : backgroundCalls P b cb with _ | a
        · rw [e1] at h; cases h
        simp only [e1] at h
        obtain ⟨hst, ⟨r1, r2, r3, r4⟩, -⟩ := id hb
        rcases e2 : fragmentsCalls P (PRect.moved ⟨⟨b.contentRect.startCorner.inline, b.contentRect.startCorner.block⟩,
            b.contentRect.size.sizeToPhysical (.horizontalTb, .ltr)⟩ cb.topLeft) c with _ | ops'
        · rw [e2] at h; cases h
        rw [e2] at h
        simp only [Option.map_some, Option.some.injEq] at h
        subst h
        obtain ⟨below, hp, hm⟩ := fragments_exact ascender hT h5 c' c n _ (o.add (Layout.Fragment.box b' c').offset) (T + B) ops'
          hc hlow (by
            have := S.add r1 hx (by linarith)
            rw [add_comm ((ofInfo b').contentRect.startCorner.inline : Rat)] at this
            exact this) (by
            have := S.add r2 hy (by linarith)
            rw [add_comm ((ofInfo b').contentRect.startCorner.block : Rat)] at this
            exact this) (by linarith) e2
        refine ⟨below, hp, ?_⟩
        rw [List.flatMap_cons]
        exact (background_exact P S ascender hb hx hy (by linarith) h5 hT hq e1).append hm
  | .anonymous rect c' mode, f, n, cb, o, B, ops, ha, hl, hx, hy, hB, h => by
    rw [ofFragment] at ha
    cases ha with
    | @anonymous r _ c _ m hr hc =>
      cases hl with
      | anonymous =>
        have hc' : c' = [] := by
          cases c' with
          | nil => rfl
          | cons g gs => rw [ofFragments] at hc; cases hc
        subst hc'
        simp only [fragmentCalls] at h
        split at h
        · cases h
        · simp only [fragmentsCalls, Option.some.injEq] at h
          subst h
          exact ⟨[], .nil, .nil⟩
  | .text style rect segment, f, n, cb, o, B, ops, ha, hl, hx, hy, hB, h => by
    rw [ofFragment] at ha
    cases ha
theorem fragments_exact (ascender : Rat) (hT : 0 ≤ T) (h5 : 5 * T ≤ T') : ∀ (gs : List Layout.Fragment) (fs : List (Fragment Single)) (n : Nat)
    (cb : PRect Single) (o : Vec2 Rat) (B : Rat) (ops : List (PageOp Single)), List.Forall₂ (FragmentsAgree (WholeIs k true T)) fs (ofFragments gs) →
    (∀ f ∈ fs, Low (fun s => IsBytes (backgroundOf s)) n f) → WholeIs k true B cb.topLeft.x o.inline → WholeIs k true B cb.topLeft.y o.block →
    B + (n + 2) * T ≤ T' → fragmentsCalls P cb fs = some ops →
    ∃ placed, Placed o gs placed ∧ CallsFor P k T' ops (placed.flatMap fun e => e.1.shape ascender e.2)
  | [], fs, n, cb, o, B, ops, ha, hl, hx, hy, hB, h => by
    rw [ofFragments] at ha
    cases ha
    simp only [fragmentsCalls, Option.some.injEq] at h
    subst h
    exact ⟨[], .nil, .nil⟩
  | g :: gs, fs, n, cb, o, B, ops, ha, hl, hx, hy, hB, h => by
    rw [ofFragments] at ha
    cases ha with
    | @cons f _ fs _ h1 h2 =>
      simp only [fragmentsCalls] at h
      rcases e1 : fragmentCalls P cb f with _ | a
      · rw [e1] at h; cases h
      rcases e2 : fragmentsCalls P cb fs with _ | b
      · rw [e1, e2] at h; cases h
      simp only [e1, e2, Option.some.injEq] at h
      subst h
      obtain ⟨below, p1, m1⟩ := fragment_exact ascender hT h5 g f n cb o B a h1 (hl f List.mem_cons_self) hx hy hB e1
      obtain ⟨rest, p2, m2⟩ := fragments_exact ascender hT h5 gs fs n cb o B b h2 (fun f hf => hl f (List.mem_cons_of_mem _ hf)) hx hy hB e2
      refine ⟨(g, o) :: below ++ rest, .cons p1 p2, ?_⟩
      rw [List.flatMap_append]
      exact m1.append m2
end

end

end Verif.Layout.Machine
