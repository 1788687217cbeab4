/- C69: a declaration of a longhand property has the meaning that CSS gives to it. -/
import Verif.Style.BlockTheorems
namespace Verif.Style
open Spec

/-- The tokens that are lengths: those of the units `px` and `em`, in any case, and zero. -/
inductive Spec.IsLength : Token → SpecifiedLength → Prop
  | px (x : Rat) (unit : String) : asciiLower unit = "px" → IsLength (.dimension x unit) (.absolute x)
  | em (x : Rat) (unit : String) : asciiLower unit = "em" → IsLength (.dimension x unit) (.em x)
  | zero : IsLength (.number 0) (.absolute 0)

/-- A length or a percentage. -/
inductive Spec.IsLengthOrPercentage : Token → SpecifiedLengthOrPercentage → Prop
  | length (t : Token) (l : SpecifiedLength) : IsLength t l → IsLengthOrPercentage t (.length l)
  | percentage (x : Rat) : IsLengthOrPercentage (.percentage x) (.percentage x)

/-- A length, a percentage or `auto`. -/
inductive Spec.IsLengthOrPercentageOrAuto : Token → SpecifiedLengthOrPercentageOrAuto → Prop
  | length (t : Token) (l : SpecifiedLength) : IsLength t l → IsLengthOrPercentageOrAuto t (.length l)
  | percentage (x : Rat) : IsLengthOrPercentageOrAuto (.percentage x) (.percentage x)
  | auto : IsLengthOrPercentageOrAuto (.ident "auto") .auto

/-- The width of a border: a length, a percentage or one of three keywords. -/
inductive Spec.IsLineWidth : Token → SpecifiedLengthOrPercentage → Prop
  | value (t : Token) (v : SpecifiedLengthOrPercentage) : IsLengthOrPercentage t v → IsLineWidth t v
  | thin : IsLineWidth (.ident "thin") (.length (.absolute 1))
  | medium : IsLineWidth (.ident "medium") (.length (.absolute 3))
  | thick : IsLineWidth (.ident "thick") (.length (.absolute 5))

/-- The style of a border. -/
inductive Spec.IsLineStyle : Token → LineStyle → Prop
  | none : IsLineStyle (.ident "none") .none
  | solid : IsLineStyle (.ident "solid") .solid

/-- css-display-3: what the keywords of `display` stand for. -/
inductive Spec.IsDisplay : Token → Display → Prop
  | none : IsDisplay (.ident "none") .none
  | contents : IsDisplay (.ident "contents") .contents
  | block : IsDisplay (.ident "block") (.generatingBox .block .flow)
  | flowRoot : IsDisplay (.ident "flow-root") (.generatingBox .block .flowRoot)
  | inline : IsDisplay (.ident "inline") (.generatingBox .inline .flow)

inductive Spec.IsFloat : Token → Float → Prop
  | none : IsFloat (.ident "none") .none
  | left : IsFloat (.ident "left") .left
  | right : IsFloat (.ident "right") .right

inductive Spec.IsPosition : Token → Position → Prop
  | static : IsPosition (.ident "static") .static
  | relative : IsPosition (.ident "relative") .relative
  | absolute : IsPosition (.ident "absolute") .absolute

/-- A colour, as cssparser reads it. -/
inductive Spec.IsColor (colors : Colors) : Token → Color → Prop
  | keyword (s : String) (c : Color) : colors.keyword s = some c → IsColor colors (.ident s) c
  | other (s : String) (c : Color) : colors.other s = some c → IsColor colors (.other s) c

/-- The values of each property, as far as implemented: each is one token. Which numbers are allowed is said by `InRange`. -/
def Spec.Means (colors : Colors) : (p : Longhand) → Token → p.kind.Specified → Prop := fun p =>
  match p with
  | .fontSize => IsLength
  | .color => IsColor colors
  | .position => IsPosition
  | .float => IsFloat
  | .display => IsDisplay
  | .top | .left | .bottom | .right | .width | .height => IsLengthOrPercentageOrAuto
  | .marginTop | .marginLeft | .marginBottom | .marginRight => IsLengthOrPercentageOrAuto
  | .paddingTop | .paddingLeft | .paddingBottom | .paddingRight => IsLengthOrPercentage
  | .borderTopColor | .borderLeftColor | .borderBottomColor | .borderRightColor => IsColor colors
  | .borderTopStyle | .borderLeftStyle | .borderBottomStyle | .borderRightStyle => IsLineStyle
  | .borderTopWidth | .borderLeftWidth | .borderBottomWidth | .borderRightWidth => IsLineWidth
  | .backgroundColor => IsColor colors

/-- The number of the token is not negative. -/
def Spec.NotNegative : Token → Prop
  | .dimension x _ => 0 ≤ x
  | .percentage x => 0 ≤ x
  | _ => True

/-- CSS 2, sections 8.4, 8.5.1, 10.2, 10.5 and 15.7: paddings, widths of borders, widths, heights and font sizes cannot be negative, and
widths of borders cannot be percentages. -/
def Spec.InRange : Longhand → Token → Prop
  | .paddingTop | .paddingLeft | .paddingBottom | .paddingRight | .width | .height | .fontSize => NotNegative
  | .borderTopWidth | .borderLeftWidth | .borderBottomWidth | .borderRightWidth => fun t => NotNegative t ∧ ∀ x, t ≠ .percentage x
  | _ => fun _ => True

/-- The token is a value of the property according to CSS, and this is what it stands for. -/
def Spec.CssMeans (colors : Colors) (p : Longhand) (t : Token) (v : p.kind.Specified) : Prop := Means colors p t v ∧ InRange p t

/-- A parser reads one token as the relation says. -/
private def Reads {α : Type} (p : Parser α) (R : Token → α → Prop) : Prop :=
  ∀ ts v rest, p ts = some (v, rest) ↔ ∃ t, ts = t :: rest ∧ R t v

private theorem reads_length : Reads SpecifiedLength.parse IsLength := by
  intro ts v rest
  constructor
  · intro h
    unfold SpecifiedLength.parse at h
    split at h
    · split at h
      · rename_i hu; cases h; exact ⟨_, rfl, .px _ _ hu⟩
      · split at h
        · rename_i hu; cases h; exact ⟨_, rfl, .em _ _ hu⟩
        · cases h
    · split at h
      · rename_i hv; cases h; rw [hv]; exact ⟨_, rfl, .zero⟩
      · cases h
    · cases h
  · rintro ⟨t, rfl, h⟩
    cases h with
    | px x unit hu => simp [SpecifiedLength.parse, hu]
    | em x unit hu => simp [SpecifiedLength.parse, hu]
    | zero => simp [SpecifiedLength.parse]

private theorem reads_keywords {α : Type} (keywords : List (String × α)) :
    Reads (parseKeyword keywords) (fun t v => ∃ s, t = .ident s ∧ keywords.lookup s = some v) := by
  intro ts v rest
  constructor
  · intro h
    unfold parseKeyword expectIdent at h
    split at h
    · cases h
    · rename_i s rest' he
      split at he
      · cases he
        split at h
        · rename_i a hl; cases h; exact ⟨_, rfl, _, rfl, hl⟩
        · cases h
      · cases he
  · rintro ⟨t, rfl, s, rfl, h⟩
    simp [parseKeyword, expectIdent, h]

private theorem reads_percentage : Reads expectPercentage (fun t v => t = .percentage v) := by
  intro ts v rest
  constructor
  · intro h
    unfold expectPercentage at h
    split at h
    · cases h; exact ⟨_, rfl, rfl⟩
    · cases h
  · rintro ⟨t, rfl, rfl⟩
    rfl

private theorem reads_none {α : Type} {p : Parser α} {R : Token → α → Prop} (h : Reads p R) {t : Token} {ts : List Token}
    (hn : ∀ v, ¬ R t v) : p (t :: ts) = none := by
  rcases hp : p (t :: ts) with _ | ⟨v, rest⟩
  · rfl
  · obtain ⟨t', ht, hr⟩ := (h _ _ _).mp hp
    cases ht
    exact absurd hr (hn v)

private theorem reads_lengthOrPercentage : Reads SpecifiedLengthOrPercentage.parse IsLengthOrPercentage := by
  intro ts v rest
  constructor
  · intro h
    unfold SpecifiedLengthOrPercentage.parse at h
    split at h
    · rename_i l rest' hl
      cases h
      obtain ⟨t, rfl, hr⟩ := (reads_length _ _ _).mp hl
      exact ⟨t, rfl, .length _ _ hr⟩
    · split at h
      · rename_i p rest' hp
        cases h
        obtain ⟨t, rfl, rfl⟩ := (reads_percentage _ _ _).mp hp
        exact ⟨_, rfl, .percentage _⟩
      · cases h
  · rintro ⟨t, rfl, h⟩
    cases h with
    | length _ l h => simp [SpecifiedLengthOrPercentage.parse, (reads_length _ _ _).mpr ⟨t, rfl, h⟩]
    | percentage x =>
      have : SpecifiedLength.parse (.percentage x :: rest) = none := rfl
      simp [SpecifiedLengthOrPercentage.parse, this, expectPercentage]

private theorem reads_lengthOrPercentageOrAuto : Reads SpecifiedLengthOrPercentageOrAuto.parse IsLengthOrPercentageOrAuto := by
  intro ts v rest
  constructor
  · intro h
    unfold SpecifiedLengthOrPercentageOrAuto.parse at h
    split at h
    · rename_i l rest' hl
      cases h
      obtain ⟨t, rfl, hr⟩ := (reads_length _ _ _).mp hl
      exact ⟨t, rfl, .length _ _ hr⟩
    · split at h
      · rename_i p rest' hp
        cases h
        obtain ⟨t, rfl, rfl⟩ := (reads_percentage _ _ _).mp hp
        exact ⟨_, rfl, .percentage _⟩
      · obtain ⟨t, rfl, s, rfl, hl⟩ := (reads_keywords _ _ _ _).mp h
        simp only [List.lookup] at hl
        split at hl
        · rename_i hs; cases hl; rw [eq_of_beq hs]; exact ⟨_, rfl, .auto⟩
        · cases hl
  · rintro ⟨t, rfl, h⟩
    cases h with
    | length _ l h => simp [SpecifiedLengthOrPercentageOrAuto.parse, (reads_length _ _ _).mpr ⟨t, rfl, h⟩]
    | percentage x =>
      have : SpecifiedLength.parse (.percentage x :: rest) = none := rfl
      simp [SpecifiedLengthOrPercentageOrAuto.parse, this, expectPercentage]
    | auto => rfl

private theorem lookup_cons {α : Type} (s k : String) (a : α) (l : List (String × α)) (v : α) :
    ((k, a) :: l).lookup s = some v ↔ s = k ∧ v = a ∨ s ≠ k ∧ l.lookup s = some v := by
  simp only [List.lookup]
  split
  · rename_i h
    rw [eq_of_beq h]
    simp [eq_comm]
  · rename_i h
    have : s ≠ k := by intro e; subst e; simp at h
    simp [this]

private theorem reads_lineWidth : Reads parseLineWidth IsLineWidth := by
  intro ts v rest
  constructor
  · intro h
    unfold parseLineWidth at h
    split at h
    · rename_i r hr
      cases h
      obtain ⟨t, rfl, hm⟩ := (reads_lengthOrPercentage _ _ _).mp hr
      exact ⟨t, rfl, .value _ _ hm⟩
    · obtain ⟨t, rfl, s, rfl, hl⟩ := (reads_keywords _ _ _ _).mp h
      simp only [lookup_cons, List.lookup_nil] at hl
      rcases hl with ⟨rfl, rfl⟩ | ⟨-, ⟨rfl, rfl⟩ | ⟨-, ⟨rfl, rfl⟩ | ⟨-, h⟩⟩⟩
      · exact ⟨_, rfl, .thin⟩
      · exact ⟨_, rfl, .medium⟩
      · exact ⟨_, rfl, .thick⟩
      · cases h
  · rintro ⟨t, rfl, h⟩
    cases h with
    | value _ _ h => simp [parseLineWidth, (reads_lengthOrPercentage _ _ _).mpr ⟨t, rfl, h⟩]
    | thin => rfl
    | medium => rfl
    | thick => rfl

private theorem reads_lineStyle : Reads LineStyle.parse IsLineStyle := by
  intro ts v rest
  unfold LineStyle.parse
  rw [reads_keywords]
  constructor
  · rintro ⟨t, rfl, s, rfl, hl⟩
    simp only [lookup_cons, List.lookup_nil] at hl
    rcases hl with ⟨rfl, rfl⟩ | ⟨-, ⟨rfl, rfl⟩ | ⟨-, h⟩⟩
    · exact ⟨_, rfl, .none⟩
    · exact ⟨_, rfl, .solid⟩
    · cases h
  · rintro ⟨t, rfl, h⟩
    cases h <;> exact ⟨_, rfl, _, rfl, rfl⟩

private theorem reads_display : Reads Display.parse IsDisplay := by
  intro ts v rest
  unfold Display.parse
  rw [reads_keywords]
  constructor
  · rintro ⟨t, rfl, s, rfl, hl⟩
    simp only [lookup_cons, List.lookup_nil] at hl
    rcases hl with ⟨rfl, rfl⟩ | ⟨-, ⟨rfl, rfl⟩ | ⟨-, ⟨rfl, rfl⟩ | ⟨-, ⟨rfl, rfl⟩ | ⟨-, ⟨rfl, rfl⟩ | ⟨-, h⟩⟩⟩⟩⟩
    · exact ⟨_, rfl, .none⟩
    · exact ⟨_, rfl, .contents⟩
    · exact ⟨_, rfl, .block⟩
    · exact ⟨_, rfl, .flowRoot⟩
    · exact ⟨_, rfl, .inline⟩
    · cases h
  · rintro ⟨t, rfl, h⟩
    cases h <;> exact ⟨_, rfl, _, rfl, rfl⟩

private theorem reads_float : Reads Float.parse IsFloat := by
  intro ts v rest
  unfold Float.parse
  rw [reads_keywords]
  constructor
  · rintro ⟨t, rfl, s, rfl, hl⟩
    simp only [lookup_cons, List.lookup_nil] at hl
    rcases hl with ⟨rfl, rfl⟩ | ⟨-, ⟨rfl, rfl⟩ | ⟨-, ⟨rfl, rfl⟩ | ⟨-, h⟩⟩⟩
    · exact ⟨_, rfl, .none⟩
    · exact ⟨_, rfl, .left⟩
    · exact ⟨_, rfl, .right⟩
    · cases h
  · rintro ⟨t, rfl, h⟩
    cases h <;> exact ⟨_, rfl, _, rfl, rfl⟩

private theorem reads_position : Reads Position.parse IsPosition := by
  intro ts v rest
  unfold Position.parse
  rw [reads_keywords]
  constructor
  · rintro ⟨t, rfl, s, rfl, hl⟩
    simp only [lookup_cons, List.lookup_nil] at hl
    rcases hl with ⟨rfl, rfl⟩ | ⟨-, ⟨rfl, rfl⟩ | ⟨-, ⟨rfl, rfl⟩ | ⟨-, h⟩⟩⟩
    · exact ⟨_, rfl, .static⟩
    · exact ⟨_, rfl, .relative⟩
    · exact ⟨_, rfl, .absolute⟩
    · cases h
  · rintro ⟨t, rfl, h⟩
    cases h <;> exact ⟨_, rfl, _, rfl, rfl⟩

private theorem reads_color (colors : Colors) : Reads (Color.parse colors) (IsColor colors) := by
  intro ts v rest
  constructor
  · intro h
    unfold Color.parse at h
    split at h
    · rw [Option.map_eq_some_iff] at h
      obtain ⟨c, hc, he⟩ := h
      cases he
      exact ⟨_, rfl, .keyword _ _ hc⟩
    · rw [Option.map_eq_some_iff] at h
      obtain ⟨c, hc, he⟩ := h
      cases he
      exact ⟨_, rfl, .other _ _ hc⟩
    · cases h
  · rintro ⟨t, rfl, h⟩
    cases h with
    | keyword s _ h => simp [Color.parse, h]
    | other s _ h => simp [Color.parse, h]

private theorem reads_kind (colors : Colors) (p : Longhand) : Reads (parseKind colors p.kind) (Means colors p) := by
  cases p
  all_goals first
    | exact reads_length | exact reads_color colors | exact reads_position | exact reads_float | exact reads_display
    | exact reads_lengthOrPercentageOrAuto | exact reads_lengthOrPercentage | exact reads_lineStyle | exact reads_lineWidth

/-- **C69**: `name: value` for a longhand property sets this property and nothing else. The value is one of the CSS-wide keywords, or
a single token that is a value of this property (`Means`), and the property is set to what it stands for. Every other value is
invalid. Missing: `border-right-color`, which is not known by its name (C57), and numbers that CSS does not allow
(`C69_negative_violated`, `C69_percentage_violated`). -/
theorem C69_value_partial (colors : Colors) (p : Longhand) (hp : p ≠ .borderRightColor) (value : List Token) (ds : List Declaration) :
    SetsTo colors (cssName p) value ds ↔
      (∃ s k, value = [.ident s] ∧ IsCssWide s k ∧ ds = [.cssWide p k]) ∨
      (∃ t v, value = [t] ∧ (∀ s k, t = .ident s → ¬ IsCssWide s k) ∧ Means colors p t v ∧ ds = [.value p v]) := by
  have hd : propertyDataByName colors (cssName p) = some (longhandData colors p) := by
    cases p <;> first | exact absurd rfl hp | rfl
  constructor
  · rintro (⟨data, s, k, h1, h2, h3⟩ | ⟨data, ds, ph, h1, h2, h3⟩)
    · rw [hd] at h1; cases h1
      exact .inl ⟨s, k, h2, h3, rfl⟩
    · rw [hd] at h1; cases h1
      simp only [longhandData] at h3
      split at h3
      · cases h3
      · rename_i v rest hv
        simp only [Option.some.injEq, Prod.mk.injEq] at h3
        obtain ⟨⟨rfl, _⟩, rfl⟩ := h3
        obtain ⟨t, rfl, hm⟩ := (reads_kind colors p _ _ _).mp hv
        exact .inr ⟨t, v, rfl, fun s k ht => h2 s k (by rw [ht]; rfl), hm, rfl⟩
  · rintro (⟨s, k, rfl, hk, rfl⟩ | ⟨t, v, rfl, hw, hm, rfl⟩)
    · exact .cssWide _ s k hd rfl hk
    · refine .value _ _ ⟨p.isEarly, !p.isEarly⟩ hd (by simpa using hw) ?_
      simp only [longhandData, (reads_kind colors p _ _ _).mpr ⟨t, rfl, hm⟩]

/-- **C69** for values with numbers that CSS allows for this property: they have the meaning of CSS. Missing: as above. -/
theorem C69_css_partial (colors : Colors) (p : Longhand) (hp : p ≠ .borderRightColor) (value : List Token)
    (hr : ∀ t ∈ value, InRange p t) (ds : List Declaration) :
    SetsTo colors (cssName p) value ds ↔
      (∃ s k, value = [.ident s] ∧ IsCssWide s k ∧ ds = [.cssWide p k]) ∨
      (∃ t v, value = [t] ∧ (∀ s k, t = .ident s → ¬ IsCssWide s k) ∧ CssMeans colors p t v ∧ ds = [.value p v]) := by
  rw [C69_value_partial colors p hp]
  refine or_congr_right ⟨?_, ?_⟩
  · rintro ⟨t, v, rfl, h1, h2, h3⟩
    exact ⟨t, v, rfl, h1, ⟨h2, hr t (by simp)⟩, h3⟩
  · rintro ⟨t, v, h0, h1, h2, h3⟩
    exact ⟨t, v, h0, h1, h2.1, h3⟩

/-- Every negative length, of every property for which CSS does not allow it, is accepted all the same. -/
theorem C69_negative_violated (colors : Colors) (p : Longhand)
    (hp : p ∈ [.paddingTop, .paddingLeft, .paddingBottom, .paddingRight, .width, .height, .fontSize, .borderTopWidth, .borderLeftWidth,
      .borderBottomWidth, .borderRightWidth]) (x : Rat) (hx : x < 0) :
    (∃ ds, SetsTo colors (cssName p) [.dimension x "px"] ds) ∧ ¬ ∃ v, CssMeans colors p (.dimension x "px") v := by
  have hneg : ¬ NotNegative (.dimension x "px") := fun h => absurd hx (not_lt.2 h)
  have hl : IsLength (.dimension x "px") (.absolute x) := .px _ _ (by decide +kernel)
  simp only [List.mem_cons, List.not_mem_nil, or_false] at hp
  rcases hp with rfl | rfl | rfl | rfl | rfl | rfl | rfl | rfl | rfl | rfl | rfl
  all_goals
    constructor
    · refine ⟨_, (C69_value_partial colors _ (by decide) _ _).mpr (.inr ⟨_, ?_, rfl, by simp, ?_, rfl⟩)⟩
      rotate_left
      first
      | exact hl
      | exact IsLengthOrPercentage.length _ _ hl
      | exact IsLengthOrPercentageOrAuto.length _ _ hl
      | exact IsLineWidth.value _ (.length (.absolute x)) (.length _ _ hl)
    · rintro ⟨v, -, hr⟩
      first
      | exact hneg hr
      | exact hneg hr.1

/-- Every percentage is accepted as the width of a border, though CSS allows none. -/
theorem C69_percentage_violated (colors : Colors) (p : Longhand)
    (hp : p ∈ [.borderTopWidth, .borderLeftWidth, .borderBottomWidth, .borderRightWidth]) (x : Rat) :
    (∃ ds, SetsTo colors (cssName p) [.percentage x] ds) ∧ ¬ ∃ v, CssMeans colors p (.percentage x) v := by
  simp only [List.mem_cons, List.not_mem_nil, or_false] at hp
  rcases hp with rfl | rfl | rfl | rfl
  all_goals
    constructor
    · refine ⟨_, (C69_value_partial colors _ (by decide) _ _).mpr (.inr ⟨_, ?_, rfl, by simp, ?_, rfl⟩)⟩
      rotate_left
      exact IsLineWidth.value _ (.percentage x) (.percentage x)
    · rintro ⟨v, -, -, hr⟩
      exact hr x rfl

/-- A value stands for one thing only. -/
theorem C69_unique (colors : Colors) (p : Longhand) (t : Token) (v v' : p.kind.Specified) (h : Means colors p t v)
    (h' : Means colors p t v') : v = v' := by
  have h1 := (reads_kind colors p [t] v []).mpr ⟨t, rfl, h⟩
  have h2 := (reads_kind colors p [t] v' []).mpr ⟨t, rfl, h'⟩
  rw [h1] at h2
  cases h2
  rfl

/-- `display: flow-root`. -/
example : SetsTo noColors "display" [.ident "flow-root"] [.value .display (.generatingBox .block .flowRoot)] :=
  (C69_value_partial noColors .display (by decide) _ _).mpr (.inr ⟨_, _, rfl, by
    intro s k hs; simp only [Token.ident.injEq] at hs; subst hs; simp [IsCssWide], .flowRoot, rfl⟩)

/-- `width: 50%` and `border-top-width: thin` are allowed. -/
example : CssMeans noColors .width (.percentage (1 / 2)) (.percentage (1 / 2)) ∧
    CssMeans noColors .borderTopWidth (.ident "thin") (.length (.absolute 1)) :=
  ⟨⟨.percentage _, show (0 : Rat) ≤ 1 / 2 by decide +kernel⟩, ⟨.thin, trivial, by simp⟩⟩

/-- `margin-top: 2EM`. -/
example : SetsTo noColors "margin-top" [.dimension 2 "EM"] [.value .marginTop (.length (.em 2))] :=
  (C69_value_partial noColors .marginTop (by decide) _ _).mpr (.inr ⟨_, _, rfl, by simp, .length _ _ (.em _ _ (by decide +kernel)), rfl⟩)

end Verif.Style
