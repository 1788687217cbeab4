/- **C123**: blocks whose lengths are whole numbers of pixels are laid out without any rounding. -/
import Verif.Layout.WholeFlow
import Verif.Layout.SingleLines
namespace Verif.Layout.Machine
open Verif.Style Verif.Text Verif.Float

/-- Such a number is one of single precision if it is not too large. -/
theorem whole_round {k : Nat} (hk : k ≤ 101) {q : Rat} (z : Bool) (h : Whole k q) (hq : |q| < 2 ^ 24 / 2 ^ k) :
    Exactly (Single.round q z) q := by
  obtain ⟨n, rfl⟩ := h
  have hp : (0 : Rat) < 2 ^ k := by positivity
  have hn : n.natAbs < 2 ^ 24 := by
    rw [abs_div, abs_of_pos hp, div_lt_div_iff_of_pos_right hp] at hq
    have : ((n.natAbs : Int) : Rat) < 2 ^ 24 := by rw [Int.natCast_natAbs]; exact_mod_cast hq
    exact_mod_cast this
  have habs : |(n : Rat) / 2 ^ k| * 2 ^ 149 = ((n.natAbs * 2 ^ (149 - k) : Nat) : Rat) := by
    have e : (2 : Rat) ^ 149 = 2 ^ (149 - k) * 2 ^ k := by rw [← pow_add]; congr 1; omega
    rw [abs_div, abs_of_pos hp, e, div_mul_eq_mul_div, ← mul_assoc, mul_div_cancel_right₀ _ hp.ne']
    push_cast
    rw [Nat.cast_natAbs]; push_cast; rfl
  by_cases h0 : (n : Rat) / 2 ^ k < 0
  · obtain ⟨b, hb, e, h1, -, h2⟩ := Single.signed_exact true hn (show 149 - k ≤ 253 by omega) habs
    have e' : Single.round ((n : Rat) / 2 ^ k) z = .num true b hb := by
      unfold Single.round
      rw [if_neg h0.ne, decide_eq_true h0, e]
    rw [e']
    refine ⟨Single.finite_num.2 h1, ?_⟩
    simp only [Single.value, if_true]
    rw [h2, abs_of_neg h0]
    ring
  · rw [abs_of_nonneg (not_lt.1 h0)] at habs
    exact round_exact z hn (by omega) habs

theorem whole_add {k : Nat} {p q : Rat} (h : Whole k p) (h' : Whole k q) : Whole k (p + q) := by
  obtain ⟨m, rfl⟩ := h
  obtain ⟨n, rfl⟩ := h'
  exact ⟨m + n, by push_cast; ring⟩

theorem whole_neg {k : Nat} {p : Rat} (h : Whole k p) : Whole k (-p) := by
  obtain ⟨m, rfl⟩ := h
  exact ⟨-m, by push_cast; ring⟩

theorem whole_succ {k : Nat} {p : Rat} (h : Whole k p) : Whole (k + 1) p := by
  obtain ⟨m, rfl⟩ := h
  refine ⟨2 * m, ?_⟩
  push_cast
  rw [pow_succ]
  field_simp

theorem whole_half {k : Nat} {p : Rat} (h : Whole k p) : Whole (k + 1) (p / 2) := by
  obtain ⟨m, rfl⟩ := h
  refine ⟨m, ?_⟩
  rw [pow_succ, div_div]

/-- How the numbers correspond. -/
def WholeIs (k : Nat) (g : Bool) (B : Rat) (a : Single) (q : Rat) : Prop := Exactly a q ∧ Whole (if g then k + 1 else k) q ∧ |q| ≤ B

theorem max_exactly {a b : Single} {p q : Rat} (ha : Exactly a p) (hb : Exactly b q) : Exactly (Single.max a b) (max p q) := by
  obtain ⟨fa, rfl⟩ := ha
  obtain ⟨fb, rfl⟩ := hb
  cases a with
  | nan => exact absurd rfl fa.1
  | num n i hi =>
    cases b with
    | nan => exact absurd rfl fb.1
    | num m j hj =>
      simp only [Single.max]
      split
      · rename_i h
        exact ⟨fb, (max_eq_right (Single.value_le fa.1 fb.1 h.le)).symm⟩
      · rename_i h
        exact ⟨fa, (max_eq_left (Single.value_le fb.1 fa.1 (not_lt.1 h))).symm⟩

theorem min_exactly {a b : Single} {p q : Rat} (ha : Exactly a p) (hb : Exactly b q) : Exactly (Single.min a b) (min p q) := by
  obtain ⟨fa, rfl⟩ := ha
  obtain ⟨fb, rfl⟩ := hb
  cases a with
  | nan => exact absurd rfl fa.1
  | num n i hi =>
    cases b with
    | nan => exact absurd rfl fb.1
    | num m j hj =>
      simp only [Single.min]
      split
      · rename_i h
        exact ⟨fb, (min_eq_right (Single.value_le fb.1 fa.1 h.le)).symm⟩
      · rename_i h
        exact ⟨fa, (min_eq_left (Single.value_le fa.1 fb.1 (not_lt.1 h))).symm⟩

theorem isZero_exactly {a : Single} {p : Rat} (ha : Exactly a p) : Single.eq a .zero = decide (p = 0) := by
  obtain ⟨fa, rfl⟩ := ha
  cases a with
  | nan => exact absurd rfl fa.1
  | num n i hi =>
    simp only [Single.eq, Single.zero]
    congr 1
    apply propext
    change (Single.num n i hi).key = Single.zero.key ↔ _
    constructor
    · intro h
      have h1 := Single.value_le fa.1 Single.zero_finite.1 h.le
      have h2 := Single.value_le Single.zero_finite.1 fa.1 h.ge
      rw [Single.zero_value] at h1 h2
      exact le_antisymm h1 h2
    · intro h
      have := Single.nearestKey_value fa.1
      rw [h] at this
      have h0 := Single.nearestKey_value Single.zero_finite.1
      rw [Single.zero_value] at h0
      rw [← this, ← h0]

theorem neg_exactly {a : Single} {p : Rat} (ha : Exactly a p) : Exactly (Single.neg a) (-p) := by
  obtain ⟨fa, rfl⟩ := ha
  cases a with
  | nan => exact absurd rfl fa.1
  | num n i hi =>
    refine ⟨Single.finite_num.2 (Single.finite_num.1 fa), ?_⟩
    cases n <;> simp [Single.neg, Single.value]

attribute [local instance] singleNumbers exactNumbers

theorem whole_simulation {k : Nat} (hk : k ≤ 100) {T : Rat} (hT : T < 2 ^ 23 / 2 ^ k) :
    Simulation (R := Single) (R' := Rat) T (WholeIs k) := by
  have hT' : ∀ (g : Bool) {q : Rat}, |q| ≤ T → |q| < 2 ^ 24 / 2 ^ (if g then k + 1 else k) := by
    intro g q hq
    refine lt_of_le_of_lt hq (lt_of_lt_of_le hT ?_)
    have hp : (0 : Rat) < 2 ^ k := by positivity
    cases g
    · simp only [Bool.false_eq_true, if_false]
      exact div_le_div_of_nonneg_right (by norm_num) hp.le
    · simp only [if_true]
      rw [pow_succ (2 : Rat) k, div_le_div_iff₀ hp (by positivity)]
      nlinarith
  have hk' : ∀ g : Bool, (if g then k + 1 else k) ≤ 101 := by intro g; split <;> omega
  have add : ∀ {g B C a b} {p q : Rat}, WholeIs k g B a p → WholeIs k g C b q → B + C ≤ T → WholeIs k g (B + C) (Single.add a b) (p + q) := by
    intro g B C a b p q h h' hB
    obtain ⟨⟨fa, rfl⟩, wa, ba⟩ := h
    obtain ⟨⟨fb, rfl⟩, wb, bb⟩ := h'
    obtain ⟨z, e⟩ := (Single.C116_operations fa fb).1
    have hab := le_trans (abs_add_le a.value b.value) (add_le_add ba bb)
    rw [e]
    exact ⟨whole_round (hk' g) z (whole_add wa wb) (hT' g (le_trans hab hB)), whole_add wa wb, hab⟩
  have neg : ∀ {g B a} {p : Rat}, WholeIs k g B a p → WholeIs k g B (Single.neg a) (-p) := by
    intro g B a p h
    exact ⟨neg_exactly h.1, whole_neg h.2.1, by rw [abs_neg]; exact h.2.2⟩
  refine { fine := ?_, mono := ?_, nonneg := ?_, zero := ?_, add := add, sub := ?_, neg := neg, max := ?_, min := ?_, half := ?_, isZero := ?_ }
  · intro B a p h
    exact ⟨h.1, whole_succ h.2.1, h.2.2⟩
  · intro g B C a p h hB
    exact ⟨h.1, h.2.1, le_trans h.2.2 hB⟩
  · intro g B a p h
    exact le_trans (abs_nonneg _) h.2.2
  · intro g
    exact ⟨⟨Single.zero_finite, Single.zero_value⟩, ⟨0, by simp⟩, by rw [abs_zero]⟩
  · intro g B C a p b q h h' hB
    have := add h (neg h') hB
    rwa [← sub_eq_add_neg] at this
  · intro g B C a p b q h h'
    have n1 := le_trans (abs_nonneg _) h.2.2
    have n2 := le_trans (abs_nonneg _) h'.2.2
    refine ⟨max_exactly h.1 h'.1, ?_, ?_⟩
    · rcases max_choice p q with e | e <;> rw [show (Max.max p q : Rat) = _ from e]
      · exact h.2.1
      · exact h'.2.1
    · rcases max_choice p q with e | e <;> rw [show (Max.max p q : Rat) = _ from e]
      · linarith [h.2.2]
      · linarith [h'.2.2]
  · intro g B C a p b q h h'
    have n1 := le_trans (abs_nonneg _) h.2.2
    have n2 := le_trans (abs_nonneg _) h'.2.2
    refine ⟨min_exactly h.1 h'.1, ?_, ?_⟩
    · rcases min_choice p q with e | e <;> rw [show (Min.min p q : Rat) = _ from e]
      · exact h.2.1
      · exact h'.2.1
    · rcases min_choice p q with e | e <;> rw [show (Min.min p q : Rat) = _ from e]
      · linarith [h.2.2]
      · linarith [h'.2.2]
  · intro B a p h hB
    obtain ⟨⟨fa, rfl⟩, wa, ba⟩ := h
    have two : Exactly (Single.round 2) 2 := whole_round (k := 0) (by norm_num) false ⟨2, by norm_num⟩ (by norm_num)
    obtain ⟨z, e⟩ := (Single.C116_operations fa two.1).2.2.2.1 (by rw [two.2]; norm_num)
    rw [two.2] at e
    have hb : |a.value / 2| ≤ B := by
      rw [abs_div, abs_of_pos (by norm_num : (0 : Rat) < 2)]
      linarith [abs_nonneg a.value]
    change WholeIs k true B (Single.div a (Single.round 2)) (a.value / 2)
    rw [e]
    exact ⟨whole_round (hk' true) z (whole_half wa) (hT' true (le_trans hb hB)), whole_half wa, hb⟩
  · intro g B a p h
    exact isZero_exactly h.1

section
variable {R R' : Type} {P Q : R → R' → Prop} (hi : ∀ a a', P a a' → Q a a')
include hi

theorem RectsAgree.imp {r : Rect R} {r' : Rect R'} (h : RectsAgree P r r') : RectsAgree Q r r' :=
  ⟨hi _ _ h.1, hi _ _ h.2.1, hi _ _ h.2.2.1, hi _ _ h.2.2.2⟩

theorem SidesAgree.imp {r : Sides R} {r' : Sides R'} (h : SidesAgree P r r') : SidesAgree Q r r' :=
  ⟨hi _ _ h.1, hi _ _ h.2.1, hi _ _ h.2.2.1, hi _ _ h.2.2.2⟩

mutual
theorem FragmentsAgree.imp : ∀ (f : Fragment R) (f' : Fragment R'), FragmentsAgree P f f' → FragmentsAgree Q f f'
  | .box _ c, .box _ c', h => by
    cases h with
    | box h hc => exact .box ⟨h.1, h.2.1.imp hi, h.2.2.1.imp hi, h.2.2.2.1.imp hi, h.2.2.2.2.imp hi⟩ (FragmentsAgree.impAll c c' hc)
  | .anonymous _ c m, .anonymous _ c' m', h => by
    cases h with
    | anonymous h hc => exact .anonymous (h.imp hi) (FragmentsAgree.impAll c c' hc)
  | .text _ _ _, _, h => by cases h
  | .box _ _, .anonymous _ _ _, h => by cases h
  | .box _ _, .text _ _ _, h => by cases h
  | .anonymous _ _ _, .box _ _, h => by cases h
  | .anonymous _ _ _, .text _ _ _, h => by cases h
theorem FragmentsAgree.impAll : ∀ (fs : List (Fragment R)) (fs' : List (Fragment R')), List.Forall₂ (FragmentsAgree P) fs fs' →
    List.Forall₂ (FragmentsAgree Q) fs fs'
  | [], _, h => by cases h; exact .nil
  | f :: fs, _, h => by
    cases h with
    | cons h1 h2 => exact .cons (FragmentsAgree.imp f _ h1) (FragmentsAgree.impAll fs _ h2)
end
end

theorem extent_style {k : Nat} (hk : k ≤ 100) {T : Rat} (hT : T < 2 ^ 23 / 2 ^ k) {style : ComputedValues} (h : WholeStyle k style)
    (hs : lengthsSum style ≤ T) : StylesAgree (R := Single) (R' := Rat) (WholeIs k false (lengthsSum style)) (Numbers.lengths style)
      (Numbers.lengths style) := by
  obtain ⟨⟨m1, m2, m3, m4⟩, ⟨p1, p2, p3, p4⟩, ⟨b1, b2, b3, b4⟩, ⟨o1, o2, o3, o4⟩, w, hh⟩ := h
  have n := extent_nonneg
  have n' := extentAuto_nonneg
  have num : ∀ x : Rat, Whole k x → |x| ≤ lengthsSum style → WholeIs k false (lengthsSum style) (Single.round x) x := by
    intro x hx hb
    refine ⟨whole_round (by omega) false hx ?_, hx, hb⟩
    refine lt_of_le_of_lt (le_trans hb hs) (lt_trans hT ?_)
    exact div_lt_div_of_pos_right (by norm_num) (by positivity)
  have len : ∀ v : Style.LengthOrPercentage, v.Whole k → v.extent ≤ lengthsSum style →
      LengthsAgree (R := Single) (R' := Rat) (WholeIs k false (lengthsSum style))
        (match v with | .length x => .length (Single.round x) | .percentage x => .percentage (Single.round x))
        (match v with | .length x => .length (id x) | .percentage x => .percentage (id x)) := by
    intro v hv hb
    cases v with
    | length x => exact num x hv hb
    | percentage => exact hv.elim
  have aut : ∀ v : Style.LengthOrPercentageOrAuto, v.Whole k → v.extent ≤ lengthsSum style →
      AutosAgree (R := Single) (R' := Rat) (WholeIs k false (lengthsSum style))
        (match v with | .length x => .length (Single.round x) | .percentage x => .percentage (Single.round x) | .auto => .auto)
        (match v with | .length x => .length (id x) | .percentage x => .percentage (id x) | .auto => .auto) := by
    intro v hv hb
    cases v with
    | length x => exact num x hv hb
    | percentage => exact hv.elim
    | auto => trivial
  have q1 := n' (style.values .marginTop)
  have q2 := n' (style.values .marginRight)
  have q3 := n' (style.values .marginBottom)
  have q4 := n' (style.values .marginLeft)
  have q5 := n (style.values .paddingTop)
  have q6 := n (style.values .paddingRight)
  have q7 := n (style.values .paddingBottom)
  have q8 := n (style.values .paddingLeft)
  have q9 := n (style.values .borderTopWidth)
  have q10 := n (style.values .borderRightWidth)
  have q11 := n (style.values .borderBottomWidth)
  have q12 := n (style.values .borderLeftWidth)
  have q13 := n' (style.values .top)
  have q14 := n' (style.values .right)
  have q15 := n' (style.values .bottom)
  have q16 := n' (style.values .left)
  have q17 := n' (style.values .width)
  have q18 := n' (style.values .height)
  exact ⟨⟨aut (style.values .left) o4 (by unfold lengthsSum; linarith), aut (style.values .right) o2 (by unfold lengthsSum; linarith), aut (style.values .top) o1 (by unfold lengthsSum; linarith),
      aut (style.values .bottom) o3 (by unfold lengthsSum; linarith)⟩,
    aut (style.values .width) w (by unfold lengthsSum; linarith), aut (style.values .height) hh (by unfold lengthsSum; linarith),
    ⟨len (style.values .paddingLeft) p4 (by unfold lengthsSum; linarith), len (style.values .paddingRight) p2 (by unfold lengthsSum; linarith), len (style.values .paddingTop) p1 (by unfold lengthsSum; linarith),
      len (style.values .paddingBottom) p3 (by unfold lengthsSum; linarith)⟩,
    ⟨len (style.values .borderLeftWidth) b4 (by unfold lengthsSum; linarith), len (style.values .borderRightWidth) b2 (by unfold lengthsSum; linarith), len (style.values .borderTopWidth) b1 (by unfold lengthsSum; linarith),
      len (style.values .borderBottomWidth) b3 (by unfold lengthsSum; linarith)⟩,
    ⟨aut (style.values .marginLeft) m4 (by unfold lengthsSum; linarith), aut (style.values .marginRight) m2 (by unfold lengthsSum; linarith), aut (style.values .marginTop) m1 (by unfold lengthsSum; linarith),
      aut (style.values .marginBottom) m3 (by unfold lengthsSum; linarith)⟩⟩

/-- **C123**: with `f32`, a tree of blocks whose lengths are whole numbers of pixels, or of the fraction `1 / 2 ^ k` of them, and whose sum is
not too large, is laid out exactly as with the numbers of mathematics: every position and size of every box is the same number. -/
theorem C123_blocks {Err Err' : Type} (F : FontApi Single Err) (F' : FontApi Rat Err') (k : Nat) (hk : k ≤ 100) (root : BlockFormattingContext)
    (width height : Rat) (hb : root.contents.OnlyBlocks k) (hw : Whole k width)
    (hs : |width| + 16 * root.contents.lengthsSum < 2 ^ 23 / 2 ^ k) (fuel : Nat) (schedule : Oracle) :
    ResultsAgree (List.Forall₂ (FragmentsAgree Exactly))
      (layoutRoot F fuel schedule root ⟨Single.round width, Single.round height⟩) (layoutRoot F' fuel schedule root ⟨width, height⟩) := by
  have S := whole_simulation hk hs
  have n0 := containerSum_nonneg root.contents
  have hI : WholeIs k false |width| (Single.round width) width := by
    refine ⟨whole_round (by omega) false hw (lt_of_le_of_lt (show |width| ≤ |width| + 16 * root.contents.lengthsSum by linarith)
      (lt_trans hs ?_)), hw, le_refl _⟩
    exact div_lt_div_of_pos_right (by norm_num) (by positivity)
  have h := layoutRoot_agree S F F' (k := k) (fun style h1 h2 => extent_style hk hs h1 h2) fuel schedule root
    ⟨Single.round width, Single.round height⟩ ⟨width, height⟩ |width| hb hI (le_refl _)
  rcases e1 : layoutRoot F fuel schedule root ⟨Single.round width, Single.round height⟩ with _ | fs <;>
    rcases e2 : layoutRoot F' fuel schedule root ⟨width, height⟩ with _ | gs <;> rw [e1, e2] at h
  · trivial
  · exact h
  · exact h
  · exact FragmentsAgree.impAll (fun a a' h => h.1) fs gs h

/-- **C123** of a document, on the page of 600 by 800 pixels that the code makes. -/
theorem C123_document {σ Err Err' : Type} (engine : Engine σ) (F : FontApi Single Err) (F' : FontApi Rat Err') (d : Verif.Dom.Document) (k : Nat)
    (hk : k ≤ 100) (root : BlockFormattingContext) (fuel : Nat) (schedule : Oracle) (hd : constructDocument engine d fuel = some root)
    (hb : root.contents.OnlyBlocks k) (hs : 600 + 16 * root.contents.lengthsSum < 2 ^ 23 / 2 ^ k) :
    ResultsAgree (List.Forall₂ (FragmentsAgree Exactly))
      (layoutDocument engine F d fuel schedule ⟨Single.round 600, Single.round 800⟩) (layoutDocument engine F' d fuel schedule ⟨600, 800⟩) := by
  simp only [layoutDocument, hd]
  refine C123_blocks F F' k hk root 600 800 hb ⟨600 * 2 ^ k, ?_⟩ ?_ fuel schedule
  · push_cast
    rw [mul_div_assoc, div_self (by positivity), mul_one]
  · rw [abs_of_pos (by norm_num)]
    exact hs

/-- **C123**: and there is such a layout. -/
theorem C123_exists {Err Err' : Type} (F : FontApi Single Err) (F' : FontApi Rat Err') (k : Nat) (hk : k ≤ 100) (root : BlockFormattingContext)
    (width height : Rat) (hb : root.contents.OnlyBlocks k) (hw : Whole k width)
    (hs : |width| + 16 * root.contents.lengthsSum < 2 ^ 23 / 2 ^ k) (hwf : root.contents.Wf F) (fuel : Nat) (hfuel : root.contents.depth ≤ fuel)
    (schedule : Oracle) :
    ∃ fs gs, layoutRoot F fuel schedule root ⟨Single.round width, Single.round height⟩ = some fs ∧
      layoutRoot F' fuel schedule root ⟨width, height⟩ = some gs ∧ List.Forall₂ (FragmentsAgree Exactly) fs gs := by
  have hz : ZeroLaws Single := single_zeroLaws
  obtain ⟨fs, hfs⟩ := C115_total F root hwf fuel hfuel schedule ⟨Single.round width, Single.round height⟩
  have h := C123_blocks F F' k hk root width height hb hw hs fuel schedule
  rw [hfs] at h
  rcases e2 : layoutRoot F' fuel schedule root ⟨width, height⟩ with _ | gs <;> rw [e2] at h
  · exact h.elim
  · exact ⟨fs, gs, hfs, rfl, h⟩

/-! ### An example -/

/-- `div { margin: 20px auto -5px; padding-top: 7px; width: 301px } p { margin: 10px 3px 15px; height: 33px }
nav { position: relative; top: 4px; margin: -8px 0 6px; height: 21px }` -/
def boxEngine : Engine String :=
  { exampleEngine with
    ua := ⟨[("html", displayBlock (.generatingBox .block .flow)),
            ("div", { declarations := [.value .display (.generatingBox .block .flow), .value .marginTop (.length (.absolute 20)),
                        .value .marginBottom (.length (.absolute (-5))), .value .marginLeft .auto, .value .marginRight .auto,
                        .value .paddingTop (.length (.absolute 7)), .value .width (.length (.absolute 301))],
                      important := [false, false, false, false, false, false, false], anyNormal := ⟨false, true⟩ }),
            ("p", { declarations := [.value .display (.generatingBox .block .flow), .value .marginTop (.length (.absolute 10)),
                      .value .marginBottom (.length (.absolute 15)), .value .marginLeft (.length (.absolute 3)),
                      .value .marginRight (.length (.absolute 3)), .value .height (.length (.absolute 33))],
                    important := [false, false, false, false, false, false], anyNormal := ⟨false, true⟩ }),
            ("nav", { declarations := [.value .display (.generatingBox .block .flow), .value .marginTop (.length (.absolute (-8))),
                        .value .marginBottom (.length (.absolute 6)), .value .position .relative, .value .top (.length (.absolute 4)),
                        .value .height (.length (.absolute 21))],
                      important := [false, false, false, false, false, false], anyNormal := ⟨false, true⟩ })]⟩ }

/-- `<html><div><p></p><nav></nav></div></html>` -/
def boxDocument : Verif.Dom.Document :=
  { Verif.Dom.Document.new with nodes :=
    [ Verif.Dom.Node.new .document,
      ⟨none, none, none, some 2, some 2, .document⟩,
      exampleElement "html" (some 1) none none (some 3) (some 3),
      exampleElement "div" (some 2) none none (some 4) (some 5),
      exampleElement "p" (some 3) (some 5) none none none,
      exampleElement "nav" (some 3) none (some 4) none none ] }

/-- A test for `Whole`. -/
def wholeTest (k : Nat) (x : Rat) : Bool := (x * 2 ^ k).den == 1
/-- A test for `WholeStyle`. -/
def wholeStyleTest (k : Nat) (s : ComputedValues) : Bool :=
  let len : Style.LengthOrPercentage → Bool := fun | .length x => wholeTest k x | .percentage _ => false
  let aut : Style.LengthOrPercentageOrAuto → Bool := fun | .length x => wholeTest k x | .percentage _ => false | .auto => true
  ((aut (s.values .marginTop) && (aut (s.values .marginRight) && (aut (s.values .marginBottom) && aut (s.values .marginLeft)))) &&
  ((len (s.values .paddingTop) && (len (s.values .paddingRight) && (len (s.values .paddingBottom) && len (s.values .paddingLeft)))) &&
  ((len (s.values .borderTopWidth) && (len (s.values .borderRightWidth) && (len (s.values .borderBottomWidth) && len (s.values .borderLeftWidth)))) &&
  ((aut (s.values .top) && (aut (s.values .right) && (aut (s.values .bottom) && aut (s.values .left)))) &&
  (aut (s.values .width) && aut (s.values .height))))))

theorem wholeTest_sound {k : Nat} {x : Rat} (h : wholeTest k x = true) : Whole k x := by
  have h : (x * 2 ^ k).den = 1 := by simpa [wholeTest] using h
  refine ⟨(x * 2 ^ k).num, ?_⟩
  have e : ((x * 2 ^ k).num : Rat) = x * 2 ^ k := by
    conv_rhs => rw [← Rat.num_div_den (x * 2 ^ k), h]
    simp
  rw [e, mul_div_assoc, div_self (by positivity), mul_one]

theorem wholeStyleTest_sound {k : Nat} {s : ComputedValues} (h : wholeStyleTest k s = true) : WholeStyle k s := by
  have len : ∀ v : Style.LengthOrPercentage,
      (match v with | .length x => wholeTest k x | .percentage _ => false) = true → v.Whole k := by
    intro v hv
    cases v with
    | length x => exact wholeTest_sound hv
    | percentage => cases hv
  have aut : ∀ v : Style.LengthOrPercentageOrAuto,
      (match v with | .length x => wholeTest k x | .percentage _ => false | .auto => true) = true → v.Whole k := by
    intro v hv
    cases v with
    | length x => exact wholeTest_sound hv
    | percentage => cases hv
    | auto => trivial
  simp only [wholeStyleTest, Bool.and_eq_true] at h
  obtain ⟨⟨m1, m2, m3, m4⟩, ⟨p1, p2, p3, p4⟩, ⟨b1, b2, b3, b4⟩, ⟨o1, o2, o3, o4⟩, w, hh⟩ := h
  exact ⟨⟨aut _ m1, aut _ m2, aut _ m3, aut _ m4⟩, ⟨len _ p1, len _ p2, len _ p3, len _ p4⟩, ⟨len _ b1, len _ b2, len _ b3, len _ b4⟩,
    ⟨aut _ o1, aut _ o2, aut _ o3, aut _ o4⟩, aut _ w, aut _ hh⟩

mutual
/-- A test for `BlockContainer.OnlyBlocks`. -/
def containerTest (k : Nat) : BlockContainer → Bool
  | .blockLevelBoxes boxes => boxesTest k boxes
  | .inlineFormattingContext _ => false
/-- A test for `BlockLevelBox.OnlyBlocks`. -/
def boxTest (k : Nat) : BlockLevelBox → Bool
  | .sameFormattingContextBlock style contents => wholeStyleTest k style && containerTest k contents
  | .outOfFlowAbsolutelyPositioned _ _ _ => false
  | .outOfFlowFloat _ _ _ => true
  | .independent style _ contents => wholeStyleTest k style && containerTest k contents
/-- A test for `onlyBlocks`. -/
def boxesTest (k : Nat) : List BlockLevelBox → Bool
  | [] => true
  | b :: bs => boxTest k b && boxesTest k bs
end

mutual
theorem containerTest_sound {k : Nat} : ∀ {c : BlockContainer}, containerTest k c = true → c.OnlyBlocks k
  | .blockLevelBoxes boxes, h => by rw [containerTest] at h; rw [BlockContainer.OnlyBlocks]; exact boxesTest_sound h
  | .inlineFormattingContext _, h => by rw [containerTest] at h; cases h
theorem boxTest_sound {k : Nat} : ∀ {b : BlockLevelBox}, boxTest k b = true → b.OnlyBlocks k
  | .sameFormattingContextBlock style contents, h => by
    rw [boxTest, Bool.and_eq_true] at h; rw [BlockLevelBox.OnlyBlocks]; exact ⟨wholeStyleTest_sound h.1, containerTest_sound h.2⟩
  | .outOfFlowAbsolutelyPositioned _ _ _, h => by rw [boxTest] at h; cases h
  | .outOfFlowFloat _ _ _, h => by rw [BlockLevelBox.OnlyBlocks]; trivial
  | .independent style _ contents, h => by
    rw [boxTest, Bool.and_eq_true] at h; rw [BlockLevelBox.OnlyBlocks]; exact ⟨wholeStyleTest_sound h.1, containerTest_sound h.2⟩
theorem boxesTest_sound {k : Nat} : ∀ {bs : List BlockLevelBox}, boxesTest k bs = true → onlyBlocks k bs
  | [], _ => by rw [onlyBlocks]; trivial
  | b :: bs, h => by
    rw [boxesTest, Bool.and_eq_true] at h; rw [onlyBlocks]; exact ⟨boxTest_sound h.1, boxesTest_sound h.2⟩
end

/-- The rectangles of boxes, from the outside to the inside. -/
def boxRects {R A : Type} (f : R → A) : Nat → List (Fragment R) → List (A × A × A × A)
  | 0, _ => []
  | n + 1, fs => fs.flatMap fun
    | .box b c => (f b.contentRect.startCorner.inline, f b.contentRect.startCorner.block, f b.contentRect.size.inline, f b.contentRect.size.block) ::
      boxRects f n c
    | _ => []

theorem boxEngine_sheets {d : Verif.Dom.Document} (h : d.styleElements = []) : parseStylesheets boxEngine d = some ⟨[]⟩ := by
  simp [parseStylesheets, h, Verif.Dom.Document.stylesheetTexts, addStylesheets, StyleSet.finish]

/-- The hypotheses of `C123_document` are met by `boxDocument`, with whole pixels, and its boxes are where one expects them: the `div` is in the
middle of the page, 149.5 pixels from both sides, and 20 + 7 pixels from the top; in it, the `nav` is 10 + 33 + 15 - 8 pixels
from the top, and moved by 4 more. -/
theorem C123_example :
    (constructDocument boxEngine boxDocument 9).map (fun root => (containerTest 0 root.contents, decide (root.contents.lengthsSum = 436))) =
      some (true, true) ∧
    (600 + 16 * 436 : Rat) < 2 ^ 23 / 2 ^ 0 ∧
    (layoutDocument boxEngine (plainFont (Single.round 1)) boxDocument 9 inOrder ⟨Single.round 600, Single.round 800⟩).map
      (boxRects Single.value 9) =
      some [(0, 0, 600, 99), (299 / 2, 27, 301, 71), (3, 10, 295, 33), (0, 54, 301, 21)] := by
  have hp : parseStylesheets boxEngine boxDocument = some ⟨[]⟩ := boxEngine_sheets rfl
  refine ⟨?_, by norm_num, ?_⟩
  · simp only [constructDocument, hp]
    decide +kernel
  · simp only [layoutDocument, constructDocument, hp]
    decide +kernel

end Verif.Layout.Machine
