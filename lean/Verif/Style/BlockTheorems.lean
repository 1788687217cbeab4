/- Properties of declaration blocks: C29, C30, C34, C55, C56, C57. -/
import Verif.Style.BlockLemmas
import Verif.Style.BorderLemmas
namespace Verif.Style
open Spec

/-- **C29**: what a block that was read holds: the declarations of its valid items in order, each with its importance; its
debug assertions hold. Applying its normal (important) declarations in either phase applies precisely those, in order. -/
theorem C29_block {colors : Colors} {items : List Item} {block : DeclarationBlock}
    (h : DeclarationBlock.parse colors items = .ok block) :
    ∃ contents, Contents colors items contents ∧
      block.declarations = contents.map Prod.fst ∧ block.important = contents.map Prod.snd ∧ block.Consistent ∧
      ∀ phase inherited start,
        block.cascadeNormal phase inherited start =
          ((contents.filter (fun e => e.2 = false)).map Prod.fst).foldl (phase.cascade inherited) start ∧
        block.cascadeImportant phase inherited start =
          ((contents.filter (fun e => e.2 = true)).map Prod.fst).foldl (phase.cascade inherited) start := by
  obtain ⟨hg, hc⟩ := parse_spec h
  have h1 : block.entries.map Prod.fst = block.declarations := List.map_fst_zip (by rw [hg.length])
  have h2 : block.entries.map Prod.snd = block.important := List.map_snd_zip (by rw [hg.length])
  have any_phase : ∀ b, (block.entries.any (inPhase .early b) || block.entries.any (inPhase .late b)) =
      block.entries.any (fun e => e.2 == b) := by
    intro b
    induction block.entries with
    | nil => rfl
    | cons e es ih =>
      simp only [List.any_cons, ← ih, inPhase]
      cases e.2 == b <;> cases e.1.longhand.isEarly <;> simp
  refine ⟨block.entries, hc, h1.symm, h2.symm, ⟨hg.length, ?_, ?_⟩, ?_⟩
  · have e1 := hg.normal .early
    have e2 := hg.normal .late
    simp only [Phase.select] at e1 e2
    rw [e1, e2, any_phase, ← h2, List.all_map, List.not_all_eq_any_not]
    congr 1; funext ⟨d, b⟩; cases b <;> rfl
  · have e1 := hg.important .early
    have e2 := hg.important .late
    simp only [Phase.select] at e1 e2
    rw [e1, e2, any_phase, ← h2, List.all_map, List.not_all_eq_any_not]
    congr 1; funext ⟨d, b⟩; cases b <;> rfl
  · intro phase inherited start
    obtain ⟨c1, c2⟩ := cascade_good hg phase inherited start
    rw [c1, c2]
    constructor <;> (unfold ofImportance; congr 2)

/-- **C29**: the contents of a block are determined by its source. -/
theorem C29_unique {colors : Colors} {items : List Item} {c c' : List (Declaration × Bool)} (h : Contents colors items c)
    (h' : Contents colors items c') : c = c' := contents_unique h h'

/-- **C30**: reading a block panics exactly when some item is not valid as a whole, but starts with a valid declaration.
(Full statement: reading a block never panics and ignores what is not valid.) -/
theorem C30_panic_iff (colors : Colors) (items : List Item) :
    DeclarationBlock.parse colors items = .panic ↔
      ∃ name tokens, Item.declaration name tokens ∈ items ∧ ¬ Valid colors (.declaration name tokens) ∧
        ∃ k, Valid colors (.declaration name (tokens.take k)) := by
  have ht : (∃ item ∈ items, Trailing colors item) ↔ ∃ name tokens, Item.declaration name tokens ∈ items ∧
      ¬ Valid colors (.declaration name tokens) ∧ ∃ k, Valid colors (.declaration name (tokens.take k)) := by
    constructor
    · rintro ⟨item, hm, hi⟩
      match item, hi with
      | .declaration name tokens, hi => exact ⟨name, tokens, hm, hi⟩
    · rintro ⟨name, tokens, hm, hi⟩
      exact ⟨_, hm, hi⟩
  rw [← ht]
  rcases parseItems_spec colors items {} good_empty with ⟨block', contents, h1, _, _, _, h5⟩ | ⟨h1, h2⟩
  · unfold DeclarationBlock.parse
    rw [h1]
    simp only [reduceCtorEq, false_iff]
    rintro ⟨item, hm, hi⟩
    exact h5 item hm hi
  · unfold DeclarationBlock.parse
    rw [h1]
    simpa using h2

theorem parseItems_append (colors : Colors) (after : List Item) : ∀ (before : List Item) (block : DeclarationBlock),
    block.parseItems colors (before ++ after) = match block.parseItems colors before with
      | .ok block' => block'.parseItems colors after
      | .err => .err
      | .panic => .panic
  | [], block => rfl
  | item :: before, block => by
    simp only [List.cons_append, DeclarationBlock.parseItems]
    cases block.parseItem colors item with
    | ok block' => exact parseItems_append colors after before block'
    | err => rfl
    | panic => rfl

/-- **C30**, the part that holds: with no such item, the block is read, and an item that is not valid makes no difference: without
it the block is the same. Missing: declarations with something after a valid value. -/
theorem C30_ignored_partial (colors : Colors) (items : List Item)
    (h : ∀ name tokens, Item.declaration name tokens ∈ items → ¬ Valid colors (.declaration name tokens) →
      ∀ k, ¬ Valid colors (.declaration name (tokens.take k))) :
    ∃ block, DeclarationBlock.parse colors items = .ok block ∧
      ∀ before item after, items = before ++ item :: after → ¬ Valid colors item →
        DeclarationBlock.parse colors (before ++ after) = .ok block := by
  rcases parseItems_spec colors items {} good_empty with ⟨block, contents, h1, _, _, _, h5⟩ | ⟨h1, _⟩
  · refine ⟨block, h1, ?_⟩
    rintro before item after rfl hv
    unfold DeclarationBlock.parse
    rw [← h1, parseItems_append, parseItems_append]
    cases ({} : DeclarationBlock).parseItems colors before with
    | err => rfl
    | panic => rfl
    | ok b =>
      simp only [DeclarationBlock.parseItems]
      rcases parseItem_invalid hv b with ⟨hb, _⟩ | ⟨_, ht⟩
      · rw [hb]
      · exact absurd ht (h5 item (by simp))
  · exfalso
    obtain ⟨name, tokens, hm, hv, k, hk⟩ := (C30_panic_iff colors items).mp h1
    exact h name tokens hm hv k hk

/-- No colours; enough for the examples. -/
def noColors : Colors := ⟨fun _ => none, fun _ => none⟩

/-- `width: 1px 2px` -/
def trailingItem : Item := .declaration "width" [.dimension 1 "px", .dimension 2 "px"]

/-- **C30** fails: a declaration with something after its value is not ignored, it panics. -/
theorem C30_violated : DeclarationBlock.parse noColors [.declaration "height" [.number 0], trailingItem] = .panic := rfl

/-- The hypothesis of `C30_ignored_partial` with a valid declaration, an unknown property, a value that does not parse and
something that is no declaration; the valid one is read. -/
example : ∃ block, DeclarationBlock.parse noColors [.declaration "color-mix" [.ident "none"], .declaration "width" [.ident "wide"],
    .invalid, .declaration "DISPLAY" [.ident "none", .delim '!', .ident "Important"]] = .ok block ∧ block.important = [true] :=
  ⟨_, rfl, rfl⟩

/-- The sides `top, right, bottom, left` of a list of one to four values (CSS 2, 8.3). -/
def Spec.sides {α : Type} : List α → Option (α × α × α × α)
  | [a] => some (a, a, a, a)
  | [a, b] => some (a, b, a, b)
  | [a, b, c] => some (a, b, c, b)
  | [a, b, c, d] => some (a, b, c, d)
  | _ => none

/-- The shorthands for four sides and their properties for top, right, bottom and left. -/
inductive Spec.FourSided : String → Longhand → Longhand → Longhand → Longhand → Prop
  | margin : FourSided "margin" .marginTop .marginRight .marginBottom .marginLeft
  | padding : FourSided "padding" .paddingTop .paddingRight .paddingBottom .paddingLeft
  | style : FourSided "border-style" .borderTopStyle .borderRightStyle .borderBottomStyle .borderLeftStyle
  | color : FourSided "border-color" .borderTopColor .borderRightColor .borderBottomColor .borderLeftColor
  | width : FourSided "border-width" .borderTopWidth .borderRightWidth .borderBottomWidth .borderLeftWidth

/-- The declaration of the property `p` with the one token `t` as its value. -/
def Spec.Sets (colors : Colors) (p : Longhand) (t : Token) (d : Declaration) : Prop :=
  ∃ v, parseKind colors p.kind [t] = some (v, []) ∧ d = .value p v

/-- The sides as the code takes them: the second value is for the left. -/
def codeSides {α : Type} : List α → Option (α × α × α × α)
  | [a, b, c, d] => some (a, d, c, b)
  | ts => Spec.sides ts

theorem fourSides_parse (colors : Colors) (t l b r : Longhand) {α : Type} (P : Parser α) (hP : Atomic P)
    (ht : α → t.kind.Specified) (hl : α → l.kind.Specified) (hb : α → b.kind.Specified) (hr : α → r.kind.Specified)
    (Ht : ∀ tok w, parseKind colors t.kind [tok] = some (w, []) ↔ ∃ v, P [tok] = some (v, []) ∧ w = ht v)
    (Hl : ∀ tok w, parseKind colors l.kind [tok] = some (w, []) ↔ ∃ v, P [tok] = some (v, []) ∧ w = hl v)
    (Hb : ∀ tok w, parseKind colors b.kind [tok] = some (w, []) ↔ ∃ v, P [tok] = some (v, []) ∧ w = hb v)
    (Hr : ∀ tok w, parseKind colors r.kind [tok] = some (w, []) ↔ ∃ v, P [tok] = some (v, []) ∧ w = hr v)
    (ts : List Token) (ds : List Declaration) :
    (∃ ph, (fourSidesData t l b r P ht hl hb hr).parse ts = some ((ds, ph), [])) ↔
      ∃ x y z w dt dr db dl, codeSides ts = some (x, y, z, w) ∧ Spec.Sets colors t x dt ∧ Spec.Sets colors r y dr ∧
        Spec.Sets colors b z db ∧ Spec.Sets colors l w dl ∧ ds = [dt, dl, db, dr] := by
  obtain ⟨f, hf, rfl⟩ := hP
  have one : ∀ tok v, atomic f [tok] = some (v, []) ↔ f tok = some v := by
    intro tok v; simp [atomic]
  have St : ∀ tok d, Spec.Sets colors t tok d ↔ ∃ v, f tok = some v ∧ d = .value t (ht v) := by
    intro tok d; simp only [Spec.Sets, Ht, one]; grind
  have Sl : ∀ tok d, Spec.Sets colors l tok d ↔ ∃ v, f tok = some v ∧ d = .value l (hl v) := by
    intro tok d; simp only [Spec.Sets, Hl, one]; grind
  have Sb : ∀ tok d, Spec.Sets colors b tok d ↔ ∃ v, f tok = some v ∧ d = .value b (hb v) := by
    intro tok d; simp only [Spec.Sets, Hb, one]; grind
  have Sr : ∀ tok d, Spec.Sets colors r tok d ↔ ∃ v, f tok = some v ∧ d = .value r (hr v) := by
    intro tok d; simp only [Spec.Sets, Hr, one]; grind
  simp only [St, Sl, Sb, Sr, fourSidesData, shorthandData]
  match ts with
  | [] => simp [FourSides.parse, atomic, codeSides, Spec.sides]
  | [t1] =>
    simp only [FourSides.parse, atomic, codeSides, Spec.sides]
    cases h1 : f t1 <;> simp [h1] <;> grind
  | [t1, t2] =>
    simp only [FourSides.parse, atomic, codeSides, Spec.sides]
    cases h1 : f t1 <;> cases h2 : f t2 <;> simp [h1, h2] <;> grind
  | [t1, t2, t3] =>
    simp only [FourSides.parse, atomic, codeSides, Spec.sides]
    cases h1 : f t1 <;> cases h2 : f t2 <;> cases h3 : f t3 <;> simp [h1, h2, h3] <;> grind
  | [t1, t2, t3, t4] =>
    simp only [FourSides.parse, atomic, codeSides]
    cases h1 : f t1 <;> cases h2 : f t2 <;> cases h3 : f t3 <;> cases h4 : f t4 <;> simp [h1, h2, h3, h4] <;> grind
  | t1 :: t2 :: t3 :: t4 :: t5 :: ts =>
    simp only [FourSides.parse, atomic, codeSides, Spec.sides]
    cases h1 : f t1 <;> cases h2 : f t2 <;> cases h3 : f t3 <;> cases h4 : f t4 <;> simp [h1, h2, h3, h4]

theorem fourSided_sets {colors : Colors} {name : String} {T R B L : Longhand} (h : Spec.FourSided name T R B L) (ts : List Token)
    (hw : ∀ s k, ts.head? = some (.ident s) → ¬ IsCssWide s k) (ds : List Declaration) :
    SetsTo colors name ts ds ↔ ∃ x y z w dt dr db dl, codeSides ts = some (x, y, z, w) ∧ Spec.Sets colors T x dt ∧
      Spec.Sets colors R y dr ∧ Spec.Sets colors B z db ∧ Spec.Sets colors L w dl ∧ ds = [dt, dl, db, dr] := by
  have key : ∀ data, propertyDataByName colors name = some data →
      (SetsTo colors name ts ds ↔ ∃ ph, data.parse ts = some ((ds, ph), [])) := by
    intro data hd
    constructor
    · rintro (⟨data', s, k, h1, h2, h3⟩ | ⟨data', _, ph, h1, h2, h3⟩)
      · exact absurd h3 (hw s k (by rw [h2]; rfl))
      · rw [hd] at h1; cases h1; exact ⟨ph, h3⟩
    · rintro ⟨ph, h⟩
      exact .value data ds ph hd hw h
  cases h
  · rw [key (fourSidesData .marginTop .marginLeft .marginBottom .marginRight SpecifiedLengthOrPercentageOrAuto.parse id id id id) rfl]
    apply fourSides_parse
    · exact atomic_lengthOrPercentageOrAuto
    all_goals (intro tok w; exact ⟨fun h => ⟨w, h, rfl⟩, by rintro ⟨v, h, rfl⟩; exact h⟩)
  · rw [key (fourSidesData .paddingTop .paddingLeft .paddingBottom .paddingRight SpecifiedLengthOrPercentage.parse id id id id) rfl]
    apply fourSides_parse
    · exact atomic_lengthOrPercentage
    all_goals (intro tok w; exact ⟨fun h => ⟨w, h, rfl⟩, by rintro ⟨v, h, rfl⟩; exact h⟩)
  · rw [key (fourSidesData .borderTopStyle .borderLeftStyle .borderBottomStyle .borderRightStyle LineStyle.parse id id id id) rfl]
    apply fourSides_parse
    · exact atomic_keyword _
    all_goals (intro tok w; exact ⟨fun h => ⟨w, h, rfl⟩, by rintro ⟨v, h, rfl⟩; exact h⟩)
  · rw [key (fourSidesData .borderTopColor .borderLeftColor .borderBottomColor .borderRightColor (Color.parse colors) id id id id) rfl]
    apply fourSides_parse
    · exact atomic_color colors
    all_goals (intro tok w; exact ⟨fun h => ⟨w, h, rfl⟩, by rintro ⟨v, h, rfl⟩; exact h⟩)
  · rw [key (fourSidesData .borderTopWidth .borderLeftWidth .borderBottomWidth .borderRightWidth parseLineWidth id id id id) rfl]
    apply fourSides_parse
    · exact atomic_lineWidth
    all_goals (intro tok w; exact ⟨fun h => ⟨w, h, rfl⟩, by rintro ⟨v, h, rfl⟩; exact h⟩)

/-- **C34**, the part that holds: with one, two or three values (or none, or more than four) a shorthand for four sides is what
CSS says: valid only if each value is, and each side is set as its own property would be. (The four properties differ, so the order
of the declarations is of no importance.) Missing: four values. -/
theorem C34_sides_partial {colors : Colors} {name : String} {T R B L : Longhand} (h : Spec.FourSided name T R B L) (ts : List Token)
    (hw : ∀ s k, ts.head? = some (.ident s) → ¬ IsCssWide s k) (hlen : ts.length ≠ 4) (ds : List Declaration) :
    SetsTo colors name ts ds ↔ ∃ top right bottom left dt dr db dl, Spec.sides ts = some (top, right, bottom, left) ∧
      Spec.Sets colors T top dt ∧ Spec.Sets colors R right dr ∧ Spec.Sets colors B bottom db ∧ Spec.Sets colors L left dl ∧
      ds = [dt, dl, db, dr] := by
  rw [fourSided_sets h ts hw ds]
  have : codeSides ts = Spec.sides ts := by
    unfold codeSides
    split
    · exact absurd rfl hlen
    · rfl
  rw [this]

/-- **C34**: with four values, the second is taken for the left side and the fourth for the right. -/
theorem C34_four_values {colors : Colors} {name : String} {T R B L : Longhand} (h : Spec.FourSided name T R B L) (a b c d : Token)
    (hw : ∀ s k, a = .ident s → ¬ IsCssWide s k) (ds : List Declaration) :
    SetsTo colors name [a, b, c, d] ds ↔ ∃ dt dr db dl, Spec.Sets colors T a dt ∧ Spec.Sets colors L b dl ∧
      Spec.Sets colors B c db ∧ Spec.Sets colors R d dr ∧ ds = [dt, dl, db, dr] := by
  rw [fourSided_sets h [a, b, c, d] (by simpa using hw) ds]
  simp only [codeSides, Option.some.injEq, Prod.mk.injEq]
  constructor
  · rintro ⟨x, y, z, w, dt, dr, db, dl, ⟨rfl, rfl, rfl, rfl⟩, h1, h2, h3, h4, h5⟩
    exact ⟨dt, dr, db, dl, h1, h4, h3, h2, h5⟩
  · rintro ⟨dt, dr, db, dl, h1, h4, h3, h2, h5⟩
    exact ⟨a, d, c, b, dt, dr, db, dl, ⟨rfl, rfl, rfl, rfl⟩, h1, h2, h3, h4, h5⟩

/-- **C34** fails: `margin: 1px 2px 3px 4px` makes the right margin 4px and the left one 2px. -/
theorem C34_violated :
    SetsTo noColors "margin" [.dimension 1 "px", .dimension 2 "px", .dimension 3 "px", .dimension 4 "px"]
      [.value .marginTop (.length (.absolute 1)), .value .marginLeft (.length (.absolute 2)),
        .value .marginBottom (.length (.absolute 3)), .value .marginRight (.length (.absolute 4))] ∧
    Spec.sides [1, 2, 3, 4] = some (1, 2, 3, 4) :=
  ⟨.value _ _ _ rfl (by simp) rfl, rfl⟩

/-- `padding: 1px 2EM` -/
example : SetsTo noColors "padding" [.dimension 1 "px", .dimension 2 "EM"]
    [.value .paddingTop (.length (.absolute 1)), .value .paddingLeft (.length (.em 2)),
      .value .paddingBottom (.length (.absolute 1)), .value .paddingRight (.length (.em 2))] :=
  .value _ _ _ rfl (by simp) rfl

/-- **C55** fails: keywords are compared with their case. -/
theorem C55_keywords_violated :
    Valid noColors (.declaration "display" [.ident "block"]) ∧ ¬ Valid noColors (.declaration "display" [.ident "BLOCK"]) ∧
    Valid noColors (.declaration "width" [.ident "inherit"]) ∧ ¬ Valid noColors (.declaration "width" [.ident "Inherit"]) := by
  have no : ∀ name s data, propertyDataByName noColors name = some data → parseDeclared data [.ident s] = none →
      ¬ Valid noColors (.declaration name [.ident s]) := by
    rintro name s data hd hp ⟨ds, imp, h⟩
    obtain ⟨data', ph, rest, h1, h2, _⟩ := (declares_iff ..).mp h
    rw [hd] at h1; cases h1
    rw [hp] at h2; cases h2
  refine ⟨⟨_, false, .normal _ _ (.value (longhandData noColors .display) [.value .display (Display.generatingBox .block .flow)] _ rfl ?_ rfl)⟩,
    no _ _ _ rfl rfl, ⟨_, false, .normal _ _ (.cssWide (longhandData noColors .width) "inherit" .inherit rfl rfl (.inl ⟨rfl, rfl⟩))⟩,
    no _ _ _ rfl rfl⟩
  intro s k hs
  simp only [List.head?_cons, Option.some.injEq, Token.ident.injEq] at hs
  subst hs
  simp [IsCssWide]

/-- A token with its unit, if any, in lower case. -/
def Spec.lowerUnit : Token → Token
  | .dimension x u => .dimension x (asciiLower u)
  | t => t

theorem toLower_toLower (c : Char) : c.toLower.toLower = c.toLower := by
  unfold Char.toLower
  split
  · split
    · rename_i h1 h2
      exfalso
      simp only [UInt32.le_iff_toNat_le] at h1 h2
      simp at h1 h2
      omega
    · rfl
  · rfl

theorem asciiLower_asciiLower (s : String) : asciiLower (asciiLower s) = asciiLower s := by
  simp [asciiLower, Function.comp_def, toLower_toLower]

/-- Reading does not depend on the case of units. -/
def CaseBlind {α : Type} (P : Parser α) : Prop :=
  ∀ ts, P (ts.map Spec.lowerUnit) = (P ts).map (fun r => (r.1, r.2.map Spec.lowerUnit))

theorem blind_atomic {α : Type} {P : Parser α} (h : Atomic P) (h1 : ∀ t, P [Spec.lowerUnit t] = P [t]) : CaseBlind P := by
  obtain ⟨f, _, rfl⟩ := h
  have hf : ∀ t, f (Spec.lowerUnit t) = f t := by
    intro t
    have := h1 t
    simp only [atomic] at this
    cases ha : f (Spec.lowerUnit t) <;> cases hb : f t <;> simp [ha, hb] at this ⊢
    exact this
  intro ts
  cases ts with
  | nil => rfl
  | cons t ts => simp only [List.map_cons, atomic, hf]; cases f t <;> rfl

theorem blind_keyword {α : Type} (l : List (String × α)) : CaseBlind (parseKeyword l) :=
  blind_atomic (atomic_keyword l) (by intro t; cases t <;> rfl)

theorem blind_color (colors : Colors) : CaseBlind (Color.parse colors) :=
  blind_atomic (atomic_color colors) (by intro t; cases t <;> rfl)

theorem length_lowerUnit (t : Token) : SpecifiedLength.parse [Spec.lowerUnit t] = SpecifiedLength.parse [t] := by
  cases t with
  | dimension x u => simp only [Spec.lowerUnit, SpecifiedLength.parse, asciiLower_asciiLower]
  | ident _ | number _ | percentage _ | delim _ | other _ => rfl

theorem percentage_lowerUnit (t : Token) : expectPercentage [Spec.lowerUnit t] = expectPercentage [t] := by cases t <;> rfl

theorem blind_length : CaseBlind SpecifiedLength.parse := blind_atomic atomic_length length_lowerUnit

theorem lengthOrPercentage_lowerUnit (t : Token) :
    SpecifiedLengthOrPercentage.parse [Spec.lowerUnit t] = SpecifiedLengthOrPercentage.parse [t] := by
  simp only [SpecifiedLengthOrPercentage.parse, length_lowerUnit, percentage_lowerUnit]

theorem keyword_lowerUnit {α : Type} (l : List (String × α)) (t : Token) : parseKeyword l [Spec.lowerUnit t] = parseKeyword l [t] := by
  cases t <;> rfl

theorem blind_kind (colors : Colors) (k : Kind) : CaseBlind (parseKind colors k) := by
  refine blind_atomic (atomic_kind colors k) ?_
  intro t
  cases k
  · exact length_lowerUnit t
  · cases t <;> rfl
  · exact keyword_lowerUnit _ t
  · exact keyword_lowerUnit _ t
  · exact keyword_lowerUnit _ t
  · simp only [parseKind, SpecifiedLengthOrPercentageOrAuto.parse, length_lowerUnit, percentage_lowerUnit, keyword_lowerUnit]
  · exact lengthOrPercentage_lowerUnit t
  · cases t <;> rfl
  · exact keyword_lowerUnit _ t
  · simp only [parseKind, parseLineWidth, lengthOrPercentage_lowerUnit, keyword_lowerUnit]

theorem blind_fourSides {α : Type} {P : Parser α} (h : CaseBlind P) : CaseBlind (FourSides.parse P) := by
  intro ts
  unfold FourSides.parse
  rw [h]
  cases P ts with
  | none => rfl
  | some a =>
    obtain ⟨a, ts⟩ := a
    simp only [Option.map_some]
    rw [h]
    cases P ts with
    | none => rfl
    | some b =>
      obtain ⟨b, ts⟩ := b
      simp only [Option.map_some]
      rw [h]
      cases P ts with
      | none => rfl
      | some c =>
        obtain ⟨c, ts⟩ := c
        simp only [Option.map_some]
        rw [h]
        cases P ts <;> rfl

theorem blind_step (colors : Colors) (v : BorderSide) : CaseBlind (BorderSide.step colors v) := by
  intro ts
  unfold BorderSide.step
  rw [show LineStyle.parse = parseKind colors .lineStyle from rfl, show parseLineWidth = parseKind colors .lineWidth from rfl,
    blind_color, blind_kind, blind_kind]
  cases v.style <;> cases v.color <;> cases v.width <;> cases parseKind colors .lineStyle ts <;> cases Color.parse colors ts <;>
    cases parseKind colors .lineWidth ts <;> rfl

theorem blind_loop (colors : Colors) : ∀ n v ts, BorderSide.loop colors n v (ts.map Spec.lowerUnit) =
    ((BorderSide.loop colors n v ts).1, (BorderSide.loop colors n v ts).2.map Spec.lowerUnit)
  | 0, v, ts => rfl
  | n + 1, v, ts => by
    simp only [BorderSide.loop]
    rw [blind_step]
    cases BorderSide.step colors v ts with
    | none => rfl
    | some r => exact blind_loop colors n r.1 r.2

theorem blind_borderSide (colors : Colors) : CaseBlind (BorderSide.parse colors) := by
  intro ts
  unfold BorderSide.parse
  rw [blind_loop]
  dsimp only
  split <;> rfl

theorem CaseBlind.map {α β : Type} {P : Parser α} {Q : Parser β} (h : CaseBlind P) (g : α → β)
    (hQ : ∀ ts, Q ts = (P ts).map (fun r => (g r.1, r.2))) : CaseBlind Q := by
  intro ts
  rw [hQ, hQ, h]
  cases P ts <;> rfl

theorem blind_longhandData (colors : Colors) (p : Longhand) : CaseBlind (longhandData colors p).parse :=
  (blind_kind colors p.kind).map (fun v => ([Declaration.value p v], (⟨p.isEarly, !p.isEarly⟩ : PerPhase))) (by
    intro ts; simp only [longhandData]; cases parseKind colors p.kind ts <;> rfl)

theorem blind_shorthandData {ls : List Longhand} {P : Parser (List Declaration)} (h : CaseBlind P) :
    CaseBlind (shorthandData ls P).parse :=
  h.map (fun ds => (ds, (⟨ls.any Longhand.isEarly, ls.any (!·.isEarly)⟩ : PerPhase))) (by
    intro ts; simp only [shorthandData]; cases P ts <;> rfl)

theorem blind_fourSidesData (t l b r : Longhand) {α : Type} {p : Parser α} (hp : CaseBlind p) (ht : α → t.kind.Specified)
    (hl : α → l.kind.Specified) (hb : α → b.kind.Specified) (hr : α → r.kind.Specified) :
    CaseBlind (fourSidesData t l b r p ht hl hb hr).parse := by
  refine blind_shorthandData ((blind_fourSides hp).map (fun s => [.value t (ht s.top), .value l (hl s.left),
    .value b (hb s.bottom), .value r (hr s.right)]) ?_)
  intro ts; cases FourSides.parse p ts <;> rfl

theorem blind_table (colors : Colors) : ∀ e ∈ propertyTable colors, CaseBlind e.2.parse := by
  have hl : ∀ p, CaseBlind (longhandData colors p).parse := blind_longhandData colors
  intro e he
  simp only [propertyTable, List.mem_cons, List.not_mem_nil, or_false] at he
  iterate 32 (rcases he with rfl | he; exact hl _)
  rcases he with rfl | rfl | rfl | rfl | rfl | rfl | rfl
  · exact blind_fourSidesData _ _ _ _ (blind_kind colors .lengthOrPercentageOrAuto) _ _ _ _
  · exact blind_fourSidesData _ _ _ _ (blind_kind colors .lengthOrPercentage) _ _ _ _
  · exact blind_fourSidesData _ _ _ _ (blind_kind colors .lineStyle) _ _ _ _
  · exact blind_fourSidesData _ _ _ _ (blind_color colors) _ _ _ _
  · exact blind_fourSidesData _ _ _ _ (blind_kind colors .lineWidth) _ _ _ _
  · refine blind_shorthandData ((blind_borderSide colors).map (fun s => [valueOrInitial .borderTopStyle s.style,
      valueOrInitial .borderTopColor s.color, valueOrInitial .borderTopWidth s.width]) ?_)
    intro ts; cases BorderSide.parse colors ts <;> rfl
  · refine blind_shorthandData ((blind_color colors).map (fun c => [valueOrInitial .backgroundColor (some c)]) ?_)
    intro ts; cases Color.parse colors ts <;> rfl

theorem blind_parseDeclared {data : PropertyData} (h : CaseBlind data.parse) : CaseBlind (parseDeclared data) := by
  intro ts
  unfold parseDeclared
  rw [show CssWideKeyword.parse = parseKeyword _ from rfl, blind_keyword, h]
  cases parseKeyword [("inherit", CssWideKeyword.inherit), ("initial", CssWideKeyword.initial), ("unset", CssWideKeyword.unset)] ts with
  | none => rfl
  | some r => rfl

theorem blind_important (rest : List Token) :
    tryImportant (rest.map Spec.lowerUnit) = ((tryImportant rest).1, (tryImportant rest).2.map Spec.lowerUnit) := by
  match rest with
  | [] => rfl
  | [t] =>
    have : ∀ t, parseImportant [t] = none := by
      intro t; unfold parseImportant; split
      · rename_i h; simp at h
      · rfl
    simp [tryImportant, this]
  | t :: t' :: rest =>
    cases t
    case delim c =>
      cases t'
      case ident s =>
        by_cases hc : c = '!'
        · subst hc
          simp only [List.map_cons, Spec.lowerUnit, tryImportant, parseImportant]
          split
          · rename_i h
            split at h
            · rename_i hs; cases h; rw [if_pos hs]
            · cases h
          · rename_i h
            split at h
            · cases h
            · rename_i hs; rw [if_neg hs]; rfl
        · have : ∀ r : List Token, parseImportant (.delim c :: .ident s :: r) = none := by
            intro r
            unfold parseImportant
            split
            · rename_i heq; simp only [List.cons.injEq, Token.delim.injEq] at heq; exact absurd heq.1 hc
            · rfl
          simp only [List.map_cons, Spec.lowerUnit, tryImportant, this]
      all_goals
        have : ∀ t r, (∀ s, t ≠ Token.ident s) → parseImportant (.delim c :: t :: r) = none := by
          intro t r ht
          unfold parseImportant
          split
          · rename_i heq; simp only [List.cons.injEq] at heq; exact absurd heq.2.1 (ht _)
          · rfl
        simp [Spec.lowerUnit, tryImportant, this]
    all_goals rfl

/-- **C55**, the part that holds: the case of ASCII letters in the name of a property and in units (and in `!important`, see
`Spec.Declares`) makes no difference. Missing: keywords. -/
theorem C55_names_and_units_partial {colors : Colors} {name name' : String} {ts ts' : List Token}
    (hn : asciiLower name = asciiLower name') (ht : ts.map Spec.lowerUnit = ts'.map Spec.lowerUnit) (ds : List Declaration)
    (important : Bool) : Declares colors name ts ds important ↔ Declares colors name' ts' ds important := by
  have units : ∀ ts, Declares colors name ts ds important ↔ Declares colors name (ts.map Spec.lowerUnit) ds important := by
    intro ts
    rw [declares_iff, declares_iff]
    constructor
    · rintro ⟨data, ph, rest, h1, h2, h3⟩
      obtain ⟨_, hm⟩ := mem_of_lookup h1
      refine ⟨data, ph, rest.map Spec.lowerUnit, h1, ?_, ?_⟩
      · rw [blind_parseDeclared (blind_table colors _ hm), h2]; rfl
      · rw [blind_important, h3]; rfl
    · rintro ⟨data, ph, rest, h1, h2, h3⟩
      obtain ⟨_, hm⟩ := mem_of_lookup h1
      rw [blind_parseDeclared (blind_table colors _ hm), Option.map_eq_some_iff] at h2
      obtain ⟨⟨r, rest'⟩, h2, h4⟩ := h2
      simp only [Prod.mk.injEq] at h4
      obtain ⟨rfl, rfl⟩ := h4
      rw [blind_important] at h3
      simp only [Prod.mk.injEq, List.map_eq_nil_iff] at h3
      exact ⟨data, ph, rest', h1, h2, by rw [← h3.1, ← h3.2]⟩
  have names : Declares colors name ts' ds important ↔ Declares colors name' ts' ds important := by
    rw [declares_iff, declares_iff]
    unfold propertyDataByName
    rw [hn]
  rw [units ts, ht, ← units ts', names]

/-- `WIDTH: 2EM !IMPORTANT` -/
example : ∃ ds, Declares noColors "WIDTH" [.dimension 2 "EM", .delim '!', .ident "IMPORTANT"] ds true ∧
    asciiLower "WIDTH" = asciiLower "width" :=
  ⟨_, .important [.dimension 2 "EM"] "IMPORTANT" [.value .width (.length (.em 2))] (by decide +kernel)
    (.value (longhandData noColors .width) _ _ rfl (by simp) rfl), by decide +kernel⟩

/-- The declaration of the property `p` in a shorthand whose value has the tokens `ts`: of the token that is a value for it, or
`initial` if there is none. -/
def Spec.SetsOrInitial (colors : Colors) (p : Longhand) (ts : List Token) (d : Declaration) : Prop :=
  (∃ t ∈ ts, Spec.Sets colors p t d) ∨ (∀ t ∈ ts, ∀ d', ¬ Spec.Sets colors p t d') ∧ d = .cssWide p .initial

/-- The token is a value for the property. -/
def Spec.IsFor (colors : Colors) (p : Longhand) (t : Token) : Prop := ∃ d, Spec.Sets colors p t d

theorem sets_iff {colors : Colors} {p : Longhand} {f : Token → Option p.kind.Specified} (h : parseKind colors p.kind = atomic f) (t : Token)
    (d : Declaration) : Spec.Sets colors p t d ↔ ∃ v, f t = some v ∧ d = .value p v := by
  simp only [Spec.Sets, h, atomic]
  cases f t with
  | none => simp
  | some x => simp

theorem isFor_iff {colors : Colors} {p : Longhand} {f : Token → Option p.kind.Specified} (h : parseKind colors p.kind = atomic f) (t : Token) :
    Spec.IsFor colors p t ↔ (f t).isSome = true := by
  simp only [Spec.IsFor, sets_iff h]
  cases f t with
  | none => simp
  | some x => simp

theorem setsOrInitial_iff {colors : Colors} {p : Longhand} {f : Token → Option p.kind.Specified}
    (hf : ∀ t d, Spec.Sets colors p t d ↔ ∃ v, f t = some v ∧ d = .value p v) :
    ∀ {ts : List Token}, ts.Pairwise (fun a b => ¬ ((f a).isSome ∧ (f b).isSome)) → ∀ d,
    Spec.SetsOrInitial colors p ts d ↔ d = valueOrInitial p (ts.findSome? f)
  | [], _, d => by simp [Spec.SetsOrInitial, valueOrInitial]
  | t :: ts, hp, d => by
    obtain ⟨h1, h2⟩ := List.pairwise_cons.mp hp
    have ih := setsOrInitial_iff hf h2 d
    simp only [Spec.SetsOrInitial, hf, List.mem_cons, exists_eq_or_imp, forall_eq_or_imp] at ih ⊢
    cases ht : f t with
    | some v =>
      have hn : ∀ x ∈ ts, f x = none := by
        intro x hx
        have := h1 x hx
        simpa [ht] using this
      rw [List.findSome?_cons, ht]
      simp only [valueOrInitial]
      constructor
      · rintro ((⟨v', h, rfl⟩ | ⟨x, hx, v', h, _⟩) | ⟨⟨h, _⟩, _⟩)
        · cases h; rfl
        · rw [hn x hx] at h; cases h
        · exact absurd ⟨v, rfl, rfl⟩ (h (.value p v))
      · intro h
        exact .inl (.inl ⟨v, rfl, h⟩)
    | none =>
      rw [List.findSome?_cons, ht, ← ih]
      simp

/-- **C56**: the value of `border-top` is a line style, a colour and a width, each at most once, in any order and not all
missing; what is missing is reset. (The colour names of cssparser are not keywords for a style or a width.) -/
theorem C56_border_top (colors : Colors)
    (hc : ∀ s, s = "none" ∨ s = "solid" ∨ s = "thin" ∨ s = "medium" ∨ s = "thick" → colors.keyword s = none)
    (ts : List Token) (hw : ∀ s k, ts.head? = some (.ident s) → ¬ IsCssWide s k) (ds : List Declaration) :
    SetsTo colors "border-top" ts ds ↔ ts ≠ [] ∧
      (∀ t ∈ ts, Spec.IsFor colors .borderTopStyle t ∨ Spec.IsFor colors .borderTopColor t ∨ Spec.IsFor colors .borderTopWidth t) ∧
      (∀ p ∈ [Longhand.borderTopStyle, .borderTopColor, .borderTopWidth],
        ts.Pairwise (fun a b => ¬ (Spec.IsFor colors p a ∧ Spec.IsFor colors p b))) ∧
      ∃ style color width, Spec.SetsOrInitial colors .borderTopStyle ts style ∧ Spec.SetsOrInitial colors .borderTopColor ts color ∧
        Spec.SetsOrInitial colors .borderTopWidth ts width ∧ ds = [style, color, width] := by
  obtain ⟨fs, _, es⟩ : Atomic LineStyle.parse := atomic_keyword _
  obtain ⟨fc, _, ec⟩ := atomic_color colors
  obtain ⟨fw, _, ew⟩ := atomic_lineWidth
  have dj := disjoint_readers es ec ew hc
  have Ss := sets_iff (p := .borderTopStyle) (colors := colors) (f := fs) es
  have Sc := sets_iff (p := .borderTopColor) (f := fc) ec
  have Sw := sets_iff (p := .borderTopWidth) (colors := colors) (f := fw) ew
  have Is := isFor_iff (p := .borderTopStyle) (colors := colors) (f := fs) es
  have Ic := isFor_iff (p := .borderTopColor) (f := fc) ec
  have Iw := isFor_iff (p := .borderTopWidth) (colors := colors) (f := fw) ew
  have key : SetsTo colors "border-top" ts ds ↔ ∃ v, BorderSide.parse colors ts = some (v, []) ∧
      ds = [valueOrInitial .borderTopStyle v.style, valueOrInitial .borderTopColor v.color, valueOrInitial .borderTopWidth v.width] := by
    have hd : propertyDataByName colors "border-top" = some _ := rfl
    constructor
    · rintro (⟨data', s, k, h1, h2, h3⟩ | ⟨data', _, ph, h1, h2, h3⟩)
      · exact absurd h3 (hw s k (by rw [h2]; rfl))
      · rw [hd] at h1; cases h1
        simp only [shorthandData] at h3
        cases hb : BorderSide.parse colors ts with
        | none => simp [hb] at h3
        | some r =>
          obtain ⟨v, rest⟩ := r
          simp only [hb, Option.some.injEq, Prod.mk.injEq] at h3
          obtain ⟨⟨rfl, _⟩, rfl⟩ := h3
          exact ⟨v, rfl, rfl⟩
    · rintro ⟨v, h, rfl⟩
      refine .value _ _ ⟨([.borderTopStyle, .borderTopColor, .borderTopWidth] : List Longhand).any Longhand.isEarly, ([.borderTopStyle, .borderTopColor, .borderTopWidth] : List Longhand).any (!·.isEarly)⟩ hd hw ?_
      simp only [shorthandData, h]
  have hparse : ∀ v, BorderSide.parse colors ts = some (v, []) ↔ ts ≠ [] ∧ Filled fs fc fw {} ts v := by
    intro v
    rw [← fill_iff dj, ← loop_fill dj es ec ew 3 {} ts v (by decide)]
    simp only [BorderSide.parse]
    constructor
    · intro h
      split at h
      · rename_i h0
        simp only [Option.some.injEq, Prod.mk.injEq] at h
        refine ⟨?_, Prod.ext h.1 h.2⟩
        rintro rfl
        rw [(loop_fill dj es ec ew 3 {} [] {} (by decide)).mpr (.nil _)] at h0
        simp at h0
      · cases h
    · rintro ⟨hne, h⟩
      have hf := (fill_iff dj _ _ _).mp ((loop_fill dj es ec ew 3 {} ts v (by decide)).mp h)
      rw [h, if_pos]
      obtain ⟨t, ts', rfl⟩ := List.exists_cons_of_ne_nil hne
      have h1 := hf.es; have h2 := hf.ec; have h3 := hf.ew
      simp only [Option.none_or] at h1 h2 h3
      simp only [h1, h2, h3, List.findSome?_isSome_iff]
      rcases hf.all t (by simp) with h | h | h
      · exact .inl ⟨t, by simp, h⟩
      · exact .inr (.inl ⟨t, by simp, h⟩)
      · exact .inr (.inr ⟨t, by simp, h⟩)
  simp only [List.mem_cons, List.not_mem_nil, or_false, forall_eq_or_imp, forall_eq, Is, Ic, Iw]
  rw [key]
  constructor
  · rintro ⟨v, h, rfl⟩
    obtain ⟨hne, hf⟩ := (hparse v).mp h
    refine ⟨hne, hf.all, ⟨hf.s, hf.c, hf.w⟩, _, _, _, (setsOrInitial_iff Ss hf.s _).mpr rfl, (setsOrInitial_iff Sc hf.c _).mpr rfl,
      (setsOrInitial_iff Sw hf.w _).mpr rfl, ?_⟩
    rw [hf.es, hf.ec, hf.ew]
    rfl
  · rintro ⟨hne, hall, ⟨hs, hcc, hww⟩, ds, dc, dw, h1, h2, h3, rfl⟩
    rw [setsOrInitial_iff Ss hs] at h1
    rw [setsOrInitial_iff Sc hcc] at h2
    rw [setsOrInitial_iff Sw hww] at h3
    refine ⟨⟨ts.findSome? fs, ts.findSome? fc, ts.findSome? fw⟩, (hparse _).mpr ⟨hne, ⟨hall, hs, hcc, hww, by simp, by simp, by simp,
      rfl, rfl, rfl⟩⟩, ?_⟩
    rw [h1, h2, h3]
    rfl

/-- `border-top: thick solid`: the colour is reset. -/
example : SetsTo noColors "border-top" [.ident "thick", .ident "solid"]
    [.value .borderTopStyle LineStyle.solid, .cssWide .borderTopColor .initial,
      .value .borderTopWidth (.length (.absolute 5))] :=
  .value _ _ _ rfl (by intro s k h; cases h; simp [IsCssWide]) rfl

/-- The names of the longhand properties in CSS. -/
def Spec.cssName : Longhand → String
  | .fontSize => "font-size"
  | .color => "color"
  | .position => "position"
  | .float => "float"
  | .display => "display"
  | .top => "top"
  | .left => "left"
  | .bottom => "bottom"
  | .right => "right"
  | .width => "width"
  | .height => "height"
  | .marginTop => "margin-top"
  | .marginLeft => "margin-left"
  | .marginBottom => "margin-bottom"
  | .marginRight => "margin-right"
  | .paddingTop => "padding-top"
  | .paddingLeft => "padding-left"
  | .paddingBottom => "padding-bottom"
  | .paddingRight => "padding-right"
  | .borderTopColor => "border-top-color"
  | .borderLeftColor => "border-left-color"
  | .borderBottomColor => "border-bottom-color"
  | .borderRightColor => "border-right-color"
  | .borderTopStyle => "border-top-style"
  | .borderLeftStyle => "border-left-style"
  | .borderBottomStyle => "border-bottom-style"
  | .borderRightStyle => "border-right-style"
  | .borderTopWidth => "border-top-width"
  | .borderLeftWidth => "border-left-width"
  | .borderBottomWidth => "border-bottom-width"
  | .borderRightWidth => "border-right-width"
  | .backgroundColor => "background-color"

/-- **C57**, the part that holds: a longhand property other than `border-right-color` is set by its name in CSS, to each value of
its kind. Missing: `border-right-color`. -/
theorem C57_names_partial (colors : Colors) (p : Longhand) (hp : p ≠ .borderRightColor) (t : Token) (d : Declaration)
    (hw : ∀ s k, t = .ident s → ¬ IsCssWide s k) : SetsTo colors (Spec.cssName p) [t] [d] ↔ Spec.Sets colors p t d := by
  have hd : propertyDataByName colors (Spec.cssName p) = some (longhandData colors p) := by
    cases p <;> first | exact absurd rfl hp | rfl
  constructor
  · generalize hds : [d] = ds
    rintro (⟨data, s, k, h1, h2, h3⟩ | ⟨data, _, ph, h1, h2, h3⟩)
    · exact absurd h3 (hw s k (by simpa using h2))
    · subst hds
      rw [hd] at h1; cases h1
      simp only [longhandData] at h3
      split at h3
      · cases h3
      · rename_i v rest hv
        simp only [Option.some.injEq, Prod.mk.injEq, List.cons.injEq, and_true] at h3
        obtain ⟨⟨rfl, _⟩, rfl⟩ := h3
        exact ⟨v, hv, rfl⟩
  · rintro ⟨v, hv, rfl⟩
    refine .value _ _ ⟨p.isEarly, !p.isEarly⟩ hd (by simpa using hw) ?_
    simp only [longhandData, hv]

/-- **C57** fails: `border-right-color` is not known (it has been given the name `border-color-right`). -/
theorem C57_violated (colors : Colors) : propertyDataByName colors (Spec.cssName .borderRightColor) = none ∧
    ∀ ts ds, ¬ SetsTo colors "border-right-color" ts ds := by
  have h : propertyDataByName colors "border-right-color" = none := by
    unfold propertyDataByName
    rw [show asciiLower "border-right-color" = "border-right-color" by decide +kernel]
    rfl
  refine ⟨h, ?_⟩
  rintro ts ds (⟨data, s, k, h1, h2, h3⟩ | ⟨data, _, ph, h1, h2, h3⟩) <;> (rw [h] at h1; cases h1)

example : SetsTo noColors (Spec.cssName .borderRightWidth) [.ident "thick"] [.value .borderRightWidth (.length (.absolute 5))] :=
  (C57_names_partial noColors .borderRightWidth (by decide) _ _ (by
    intro s k hs; simp only [Token.ident.injEq] at hs; subst hs; simp [IsCssWide])).mpr ⟨_, rfl, rfl⟩

end Verif.Style
