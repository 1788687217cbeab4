/- C128: the calls that paint a document with text, from top to bottom. -/
import Verif.Layout.ColumnsPageSpec
import Verif.Layout.ColumnsTheorems
import Verif.Layout.RowsPageTheorems
namespace Verif.Float.Single

theorem neg_value : ∀ a : Single, (neg a).value = -a.value
  | .nan => by simp [neg, value]
  | .num s b h => by cases s <;> simp [neg, value]

theorem neg_finite {a : Single} (h : a.Finite) : (neg a).Finite := by
  cases a with
  | nan => exact h
  | num s b hb =>
    obtain ⟨-, h1, h2⟩ := h
    refine ⟨by simp [neg], ?_⟩
    cases s <;> simp only [neg, key, Bool.not_false, Bool.not_true, Bool.false_eq_true, if_true, if_false] at h1 h2 ⊢ <;> omega

end Verif.Float.Single
namespace Verif.Layout.Machine
open Verif.Style Verif.Text Verif.Float Verif.Pdf

attribute [local instance] singleNumbers exactNumbers

namespace Follows
variable {n n' : Nat} {m m' : Rat} {a b : Single} {q r : Rat}

theorem neg (h : Follows n m a q) : Follows n m (Single.neg a) (-q) := by
  refine ⟨by rw [abs_neg]; exact h.1, fun h1 h2 => ?_⟩
  obtain ⟨f, e⟩ := h.2 h1 h2
  refine ⟨Single.neg_finite f, ?_⟩
  rw [Single.neg_value, show -a.value - -q = -(a.value - q) by ring, abs_neg]
  exact e

theorem sub (h : Follows n m a q) (h' : Follows n' m' b r) : Follows (Max.max n n' + 1) (m + m') (a - b) (q - r) := by
  have := h.add h'.neg
  rw [← sub_eq_add_neg] at this
  exact this

/-- The ascender of a text. -/
theorem ascender {s J : Rat} {asc : Single} (ha : asc.Finite) (h1 : 1 / 2 ^ 100 ≤ s) (hJ : s * (1 + |asc.value|) ≤ J) :
    Follows 3 J (Single.mul (Single.round s) asc) (asc.value * s) := by
  have hs : 0 < s := lt_of_lt_of_le (by positivity) h1
  have n0 := abs_nonneg asc.value
  have e0 : |asc.value * s| = |asc.value| * s := by rw [abs_mul, abs_of_pos hs]
  have hsJ : s ≤ J := by nlinarith
  refine ⟨by rw [e0]; nlinarith, fun _ h2 => ?_⟩
  obtain ⟨f, e⟩ := Single.round_bound (x := s) (B := s) false (by rw [abs_of_pos hs])
    (le_trans (by norm_num) h1) (le_trans (hsJ.trans h2) (by norm_num))
  generalize Single.round s = c at f e
  have p0 : |c.value * asc.value - asc.value * s| ≤ J / 2 ^ 24 := by
    rw [show c.value * asc.value - asc.value * s = asc.value * (c.value - s) by ring, abs_mul]
    refine (mul_le_mul_of_nonneg_left e n0).trans ?_
    rw [← mul_div_assoc]
    exact div_le_div_of_nonneg_right (by nlinarith) (by positivity)
  have p1 : |c.value * asc.value| ≤ 2 * J := by
    have : c.value * asc.value = (c.value * asc.value - asc.value * s) + asc.value * s := by ring
    rw [this]
    refine (abs_add_le _ _).trans ?_
    rw [e0]
    have : J / 2 ^ 24 ≤ J := div_le_self (by linarith) (by norm_num)
    nlinarith
  obtain ⟨g, t⟩ := Single.mul_bound f ha p1 (by
    have : (1 : Rat) / 2 ^ 126 ≤ 1 / 2 ^ 100 := by norm_num
    linarith) (by
    have : (2 : Rat) * 2 ^ 100 ≤ 2 ^ 127 := by norm_num
    linarith)
  refine ⟨g, ?_⟩
  have : (Single.mul c asc).value - asc.value * s =
    ((Single.mul c asc).value - c.value * asc.value) + (c.value * asc.value - asc.value * s) := by ring
  rw [this]
  refine (abs_add_le _ _).trans ((add_le_add t p0).trans ?_)
  push_cast
  have : (3 : Rat) * J / 2 ^ 23 = 2 * J / 2 ^ 24 + J / 2 ^ 24 + 3 * J / 2 ^ 24 := by ring
  rw [this]
  have : 0 ≤ 3 * J / 2 ^ 24 := div_nonneg (by linarith) (by positivity)
  linarith

end Follows

section
variable {E Err : Type} (P : Painter Single E) (F : FontApi Single Err)

theorem ColumnCalls.append {P : Painter Single E} {Q : Single → Rat → Prop} {a b : List (PageOp Single)} {s t : List Shape}
    (h : ColumnCalls P Q a s) (h' : ColumnCalls P Q b t) : ColumnCalls P Q (a ++ b) (s ++ t) := by
  induction h with
  | nil => exact h'
  | rect h1 h2 _ ih => exact .rect h1 h2 ih
  | glyphs h1 _ ih => exact .glyphs h1 ih

theorem ColumnCalls.imp {P : Painter Single E} {Q Q' : Single → Rat → Prop} (hi : ∀ a a', Q a a' → Q' a a') {a : List (PageOp Single)}
    {s : List Shape} (h : ColumnCalls P Q a s) : ColumnCalls P Q' a s := by
  induction h with
  | nil => exact .nil
  | rect h1 h2 _ ih => exact .rect (hi _ _ h1) (hi _ _ h2) ih
  | glyphs h1 _ ih => exact .glyphs (hi _ _ h1) ih

variable {N L : Nat} {M J : Rat}

theorem background_column {nb n : Nat} {B : Rat} {b : BoxInfo Single} {b' : Layout.BoxInfo} {c : List Layout.Fragment} {cb : PRect Single}
    {o : Vec2 Rat} (ascender : Rat) (hst : b.style = b'.style)
    (r1 : Follows N M b.contentRect.startCorner.block b'.contentRect.startCorner.block)
    (r3 : Follows N M b.contentRect.size.block b'.contentRect.size.block)
    (hp : SideHeightsAgree (Follows N M) b.padding b'.padding) (hq : SideHeightsAgree (Follows N M) b.border b'.border)
    (hx : Follows nb B cb.topLeft.y o.block) (hJ : 0 ≤ J)
    (h0 : nb + (n + 1) ≤ N + L) (h1 : B + (n + 1 + 2) * M ≤ (L + 5) * M) {ops : List (PageOp Single)}
    (h : backgroundCalls P b cb = some ops) :
    ColumnCalls P (Follows (N + L + 4) ((L + 5) * M + J)) ops ((Layout.Fragment.box b' c).shape ascender o) := by
  obtain ⟨p1, p2⟩ := hp
  obtain ⟨q1, q2⟩ := hq
  have nM := r1.nonneg
  have nL : (0 : Rat) ≤ L * M := mul_nonneg (Nat.cast_nonneg L) nM
  have nn : (0 : Rat) ≤ n * M := mul_nonneg (Nat.cast_nonneg n) nM
  have hc : toRgba b.style (b.style.values .backgroundColor) = backgroundOf b'.style := by
    rw [← hst]
    rfl
  unfold backgroundCalls at h
  rw [hc] at h
  simp only [Layout.Fragment.shape]
  by_cases h0 : (backgroundOf b'.style).alpha = 0
  · rw [if_pos h0]
    rw [if_neg (by omega)] at h
    cases h
    exact .nil
  · rw [if_neg h0]
    rw [if_pos (by omega)] at h
    simp only [writingMode, Rect.toPhysical, Option.some.injEq] at h
    subst h
    have e1 := ((r1.sub p1).sub q1).add hx
    have e3 := (r3.add (p1.add p2)).add (q1.add q2)
    refine .rect ?_ ?_ .nil
    · have := e1.mono (n' := N + L + 4) (m' := (L + 5) * M + J) (by omega) (by linarith)
      rw [show (b'.contentRect.startCorner.block - b'.padding.blockStart - b'.border.blockStart + o.block : Rat) =
        o.block + b'.contentRect.startCorner.block - b'.padding.blockStart - b'.border.blockStart by ring] at this
      exact this
    · have := e3.mono (n' := N + L + 4) (m' := (L + 5) * M + J) (by omega) (by linarith)
      rw [show (b'.contentRect.size.block + (b'.padding.blockStart + b'.padding.blockEnd) +
          (b'.border.blockStart + b'.border.blockEnd) : Rat) =
        b'.border.blockStart + b'.padding.blockStart + b'.contentRect.size.block + b'.padding.blockEnd + b'.border.blockEnd by ring] at this
      exact this

mutual
theorem fragment_column (hM : 0 ≤ M) (hJ : 0 ≤ J) (ha : P.ascender.Finite) : ∀ (g : Layout.Fragment) (f : Fragment Single) (n nb : Nat)
    (cb : PRect Single) (o : Vec2 Rat) (B : Rat) (ops : List (PageOp Single)) (below : List (Layout.Fragment × Vec2 Rat)),
    ColumnsAgree (Follows N M) f (ofFragment g) → RowsAgree Exactly f (ofFragment g) → f.Made F → g.layers ≤ n →
    Follows nb B cb.topLeft.y o.block → N ≤ nb → nb + n ≤ N + L → B + (n + 2) * M ≤ (L + 5) * M → fragmentCalls P cb f = some ops →
    Placed (o.add g.offset) g.children below →
    TextsTo J P.ascender.value (((g, o) :: below).flatMap fun e => e.1.shape P.ascender.value e.2) →
    ColumnCalls P (Follows (N + L + 4) ((L + 5) * M + J)) ops (((g, o) :: below).flatMap fun e => e.1.shape P.ascender.value e.2)
  | .box b' c', f, n, nb, cb, o, B, ops, below, hA, hR, hm, hn, hx, hN, hL, hB, h, hpl, ht => by
    rw [ofFragment] at hA hR
    cases hA with
    | @box b _ c _ hst r1 r3 hp hq _ hc =>
      cases hR with
      | box _ _ _ _ _ _ hRc =>
      rw [Layout.Fragment.layers] at hn
      obtain ⟨n, rfl⟩ : ∃ k, n = k + 1 := ⟨n - 1, by omega⟩
      push_cast at hB
      simp only [fragmentCalls, writingMode, Rect.toPhysical] at h
      rcases e1 : backgroundCalls P b cb with _ | a
      · rw [e1] at h; cases h
      simp only [e1] at h
      rcases e2 : fragmentsCalls P (PRect.moved ⟨⟨b.contentRect.startCorner.inline, b.contentRect.startCorner.block⟩,
          b.contentRect.size.sizeToPhysical (.horizontalTb, .ltr)⟩ cb.topLeft) c with _ | ops'
      · rw [e2] at h; cases h
      rw [e2] at h
      simp only [Option.map_some, Option.some.injEq] at h
      subst h
      rw [Fragment.Made] at hm
      rw [List.flatMap_cons] at ht ⊢
      have rest := fragments_column hM hJ ha c' c n (nb + 1) _ (o.add (Layout.Fragment.box b' c').offset) (M + B) ops' below hc hRc hm (by omega) (by
          have := (r1.add hx).mono (n' := nb + 1) (m' := M + B) (by omega) (le_refl _)
          rw [add_comm ((ofInfo b').contentRect.startCorner.block : Rat)] at this
          exact this) (by omega) (by omega) (by linarith) e2 hpl
        (fun ids size base color hg => ht ids size base color (List.mem_append_right _ hg))
      exact (background_column P _ hst r1 r3 hp hq hx hJ hL hB e1).append rest
  | .anonymous rect c' mode, f, n, nb, cb, o, B, ops, below, hA, hR, hm, hn, hx, hN, hL, hB, h, hpl, ht => by
    rw [ofFragment] at hA hR
    cases hA with
    | @anonymous r _ c _ m r1 r3 hc =>
      cases hR with
      | anonymous _ _ hRc =>
      rw [Layout.Fragment.layers] at hn
      obtain ⟨n, rfl⟩ : ∃ k, n = k + 1 := ⟨n - 1, by omega⟩
      push_cast at hB
      rw [Fragment.Made] at hm
      obtain ⟨rfl, hm⟩ := hm
      simp only [fragmentCalls, Rect.toPhysical] at h
      exact fragments_column hM hJ ha c' c n (nb + 1) _ (o.add (Layout.Fragment.anonymous rect c' (.horizontalTb, .ltr)).offset) (M + B) ops below
        hc hRc hm (by omega) (by
          have := (r1.add hx).mono (n' := nb + 1) (m' := M + B) (by omega) (le_refl _)
          rw [add_comm (rect.startCorner.block : Rat)] at this
          exact this) (by omega) (by omega) (by linarith) h hpl ht
  | .text style rect segment, f, n, nb, cb, o, B, ops, below, hA, hR, hm, hn, hx, hN, hL, hB, h, hpl, ht => by
    rw [ofFragment] at hA hR
    cases hA with
    | @text _ r _ s _ r1 r3 =>
      cases hR with
      | text _ _ hg _ =>
      have nn : (0 : Rat) ≤ n * M := mul_nonneg (Nat.cast_nonneg n) hM
      simp only [fragmentCalls, writingMode, Rect.toPhysical, Option.some.injEq] at h
      subst h
      cases hpl
      simp only [List.flatMap_cons, List.flatMap_nil, List.append_nil, Layout.Fragment.shape] at ht ⊢
      obtain ⟨t1, t2⟩ := ht _ _ _ _ (List.mem_singleton.2 rfl)
      rw [← hg]
      refine .glyphs ?_ .nil
      have := ((r1.add hx).add (Follows.ascender ha t1 t2)).mono (n' := N + L + 4) (m' := (L + 5) * M + J) (by omega) (by linarith)
      rw [add_comm (rect.startCorner.block : Rat)] at this
      exact this
theorem fragments_column (hM : 0 ≤ M) (hJ : 0 ≤ J) (ha : P.ascender.Finite) : ∀ (gs : List Layout.Fragment) (fs : List (Fragment Single))
    (n nb : Nat) (cb : PRect Single) (o : Vec2 Rat) (B : Rat) (ops : List (PageOp Single)) (placed : List (Layout.Fragment × Vec2 Rat)),
    List.Forall₂ (ColumnsAgree (Follows N M)) fs (ofFragments gs) → List.Forall₂ (RowsAgree Exactly) fs (ofFragments gs) → allMade F fs →
    fragmentLayers gs ≤ n → Follows nb B cb.topLeft.y o.block → N ≤ nb → nb + n ≤ N + L → B + (n + 2) * M ≤ (L + 5) * M →
    fragmentsCalls P cb fs = some ops → Placed o gs placed →
    TextsTo J P.ascender.value (placed.flatMap fun e => e.1.shape P.ascender.value e.2) →
    ColumnCalls P (Follows (N + L + 4) ((L + 5) * M + J)) ops (placed.flatMap fun e => e.1.shape P.ascender.value e.2)
  | [], fs, n, nb, cb, o, B, ops, placed, hA, hR, hm, hn, hx, hN, hL, hB, h, hpl, ht => by
    rw [ofFragments] at hA
    cases hA
    simp only [fragmentsCalls, Option.some.injEq] at h
    subst h
    cases hpl
    exact .nil
  | g :: gs, fs, n, nb, cb, o, B, ops, placed, hA, hR, hm, hn, hx, hN, hL, hB, h, hpl, ht => by
    rw [ofFragments] at hA hR
    cases hA with
    | @cons f _ fs _ h1 h2 =>
      cases hR with
      | cons h3 h4 =>
      rw [fragmentLayers] at hn
      rw [allMade] at hm
      simp only [fragmentsCalls] at h
      rcases e1 : fragmentCalls P cb f with _ | a
      · rw [e1] at h; cases h
      rcases e2 : fragmentsCalls P cb fs with _ | b
      · rw [e1, e2] at h; cases h
      simp only [e1, e2, Option.some.injEq] at h
      subst h
      cases hpl with
      | @cons _ _ _ below rest p1 p2 =>
      rw [List.flatMap_append] at ht ⊢
      exact (fragment_column hM hJ ha g f n nb cb o B a below h1 h3 hm.1 (by omega) hx hN hL hB e1 p1
          (fun ids size base color hg => ht ids size base color (List.mem_append_left _ hg))).append
        (fragments_column hM hJ ha gs fs n nb cb o B b rest h2 h4 hm.2 (by omega) hx hN hL hB e2 p2
          (fun ids size base color hg => ht ids size base color (List.mem_append_right _ hg)))
end
end

end Verif.Layout.Machine
