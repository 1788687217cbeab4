/- C70 and C71: what the derive macros generate. -/
import Verif.Macros.Derive
import Verif.Font.Cmap
namespace Verif.Macros
open Verif.Style

/-! ## C70 -/

/-- A name in CamelCase: ASCII letters, the first in upper case. -/
def Camel (name : List Char) : Prop := (∃ c rest, name = c :: rest ∧ c.isUpper = true) ∧ ∀ c ∈ name, c.isUpper = true ∨ c.isLower = true

/-- How the letters after the first are written. -/
private def code (c : Char) : List Char := if c.isLower then [c] else ['-', c.toLower]

private theorem upper_cases (c : Char) (h : c.isUpper = true) : ∃ n : Fin 26, c = Char.ofNat (65 + n.val) := by
  have hr : 65 ≤ c.toNat ∧ c.toNat ≤ 90 := by
    simp only [Char.isUpper, Bool.and_eq_true, decide_eq_true_eq, ge_iff_le] at h
    have h1 : (65 : UInt32).toNat ≤ c.val.toNat := UInt32.le_iff_toNat_le.mp h.1
    have h2 : c.val.toNat ≤ (90 : UInt32).toNat := UInt32.le_iff_toNat_le.mp h.2
    exact ⟨h1, h2⟩
  refine ⟨⟨c.toNat - 65, by omega⟩, ?_⟩
  have : 65 + (c.toNat - 65) = c.toNat := by omega
  simp only [this]
  exact (Char.ofNat_toNat c).symm

private theorem upper_facts : ∀ n m : Fin 26, (Char.ofNat (65 + n.val)).isLower = false ∧ (Char.ofNat (65 + n.val)).toLower.isLower = true ∧
    ((Char.ofNat (65 + n.val)).toLower = (Char.ofNat (65 + m.val)).toLower → n = m) := by decide +kernel

private theorem upper_not_lower {c : Char} (h : c.isUpper = true) : c.isLower = false := by
  obtain ⟨n, rfl⟩ := upper_cases c h; exact (upper_facts n n).1

private theorem upper_toLower {c : Char} (h : c.isUpper = true) : c.toLower.isLower = true := by
  obtain ⟨n, rfl⟩ := upper_cases c h; exact (upper_facts n n).2.1

private theorem upper_inj {c d : Char} (hc : c.isUpper = true) (hd : d.isUpper = true) (h : c.toLower = d.toLower) : c = d := by
  obtain ⟨n, rfl⟩ := upper_cases c hc
  obtain ⟨m, rfl⟩ := upper_cases d hd
  rw [(upper_facts n m).2.2 h]

private theorem dash_not_lower : ('-' : Char).isLower = false := by decide +kernel

private theorem kebab_rest : ∀ (rest out : List Char), out ≠ [] → (∀ c ∈ rest, c.isUpper = true ∨ c.isLower = true) →
    rest.foldlM kebabStep out = some (out ++ (rest.map code).flatten)
  | [], out, _, _ => by simp
  | c :: rest, out, ho, h => by
    have hs : kebabStep out c = some (out ++ code c) := by
      unfold kebabStep code
      rcases h c (by simp) with hu | hl
      · simp [upper_not_lower hu, hu, ho]
      · simp [hl]
    rw [List.foldlM_cons, hs]
    show rest.foldlM kebabStep (out ++ code c) = _
    rw [kebab_rest rest _ (by simp [ho]) fun c hc => h c (List.mem_cons_of_mem _ hc)]
    simp

private theorem kebab_camel {c : Char} {rest : List Char} (h : Camel (c :: rest)) :
    kebab (c :: rest) = some (c.toLower :: (rest.map code).flatten) := by
  obtain ⟨⟨c', rest', he, hu⟩, hall⟩ := h
  cases he
  have hs : kebabStep [] c = some [c.toLower] := by
    simp [kebabStep, upper_not_lower hu, hu]
  rw [kebab, List.foldlM_cons, hs]
  show rest.foldlM kebabStep [c.toLower] = _
  rw [kebab_rest rest _ (by simp) fun c hc => hall c (List.mem_cons_of_mem _ hc)]
  simp

private theorem codes_inj : ∀ (a b : List Char), (∀ c ∈ a, c.isUpper = true ∨ c.isLower = true) →
    (∀ c ∈ b, c.isUpper = true ∨ c.isLower = true) → (a.map code).flatten = (b.map code).flatten → a = b
  | [], [], _, _, _ => rfl
  | [], d :: b, _, _, h => by
    simp only [List.map_nil, List.flatten_nil, List.map_cons, List.flatten_cons] at h
    have := congrArg List.length h
    unfold code at this
    split at this <;> simp at this
  | c :: a, [], _, _, h => by
    simp only [List.map_nil, List.flatten_nil, List.map_cons, List.flatten_cons] at h
    have := congrArg List.length h
    unfold code at this
    split at this <;> simp at this
  | c :: a, d :: b, ha, hb, h => by
    have ih := codes_inj a b (fun c hc => ha c (List.mem_cons_of_mem _ hc)) (fun c hc => hb c (List.mem_cons_of_mem _ hc))
    simp only [List.map_cons, List.flatten_cons] at h
    rcases ha c (by simp) with hc | hc <;> rcases hb d (by simp) with hd | hd
    · simp only [code, upper_not_lower hc, upper_not_lower hd, Bool.false_eq_true, if_false, List.cons_append, List.nil_append,
        List.cons.injEq, true_and] at h
      rw [upper_inj hc hd h.1, ih h.2]
    · simp only [code, upper_not_lower hc, hd, Bool.false_eq_true, if_false, if_true, List.cons_append, List.nil_append,
        List.cons.injEq] at h
      rw [← h.1, dash_not_lower] at hd
      simp at hd
    · simp only [code, upper_not_lower hd, hc, Bool.false_eq_true, if_false, if_true, List.cons_append, List.nil_append,
        List.cons.injEq] at h
      rw [h.1, dash_not_lower] at hc
      simp at hc
    · simp only [code, hc, hd, if_true, List.cons_append, List.nil_append, List.cons.injEq] at h
      rw [h.1, ih h.2]

/-- **C70**: each name of a variant has a keyword, which is in lower case, with `-` inside only; and different names have different keywords. -/
theorem C70_keyword (a : List Char) (ha : Camel a) : ∃ k, kebab a = some k ∧ k ≠ [] ∧ k.head? ≠ some '-' ∧
    (∀ c ∈ k, c.isLower = true ∨ c = '-') ∧ ∀ b, Camel b → kebab b = some k → a = b := by
  obtain ⟨⟨c, rest, rfl, hu⟩, hall⟩ := ha
  refine ⟨_, kebab_camel ⟨⟨c, rest, rfl, hu⟩, hall⟩, by simp, ?_, ?_, ?_⟩
  · intro h
    simp only [List.head?_cons, Option.some.injEq] at h
    have := upper_toLower hu
    rw [h, dash_not_lower] at this
    simp at this
  · intro d hd
    rcases List.mem_cons.mp hd with rfl | hd
    · exact .inl (upper_toLower hu)
    · simp only [List.mem_flatten, List.mem_map] at hd
      obtain ⟨_, ⟨e, he, rfl⟩, hd⟩ := hd
      unfold code at hd
      split at hd
      · rename_i hl; simp only [List.mem_singleton] at hd; subst hd; exact .inl hl
      · rename_i hl
        simp only [List.mem_cons, List.not_mem_nil, or_false] at hd
        rcases hd with rfl | rfl
        · exact .inr rfl
        · rcases hall e (List.mem_cons_of_mem _ he) with h | h
          · exact .inl (upper_toLower h)
          · exact absurd h hl
  · intro b hb h
    obtain ⟨⟨d, rest', rfl, hu'⟩, hall'⟩ := hb
    rw [kebab_camel ⟨⟨d, rest', rfl, hu'⟩, hall'⟩] at h
    simp only [Option.some.injEq, List.cons.injEq] at h
    rw [upper_inj hu' hu h.1, codes_inj _ _ (fun c hc => hall' c (List.mem_cons_of_mem _ hc))
      (fun c hc => hall c (List.mem_cons_of_mem _ hc)) h.2]

/-- The variants without fields, by name. -/
def units {α : Type} : List (Variant α) → List (List Char × α)
  | [] => []
  | ⟨name, .unit value⟩ :: rest => (name, value) :: units rest
  | ⟨_, .field _⟩ :: rest => units rest

private theorem keywords_spec {α : Type} : ∀ (variants : List (Variant α)), (∀ u ∈ units variants, Camel u.1) → ((units variants).map Prod.fst).Nodup →
    ∃ ks, keywords variants = some ks ∧
      ∀ (name : List Char) (k : List Char) (v : α), Camel name → kebab name = some k →
        (ks.lookup (String.ofList k) = some v ↔ (name, v) ∈ units variants)
  | [], _, _ => ⟨[], rfl, by intro name k v _ _; simp [units]⟩
  | ⟨name, .field p⟩ :: rest, hc, hn => keywords_spec rest hc hn
  | ⟨name, .unit value⟩ :: rest, hc, hn => by
    simp only [units, List.map_cons, List.nodup_cons] at hn
    obtain ⟨ks, h1, h2⟩ := keywords_spec rest (fun u hu => hc u (List.mem_cons_of_mem _ hu)) hn.2
    have hcn : Camel name := hc (name, value) (List.mem_cons_self ..)
    obtain ⟨k, hk, -, -, -, hinj⟩ := C70_keyword name hcn
    refine ⟨(String.ofList k, value) :: ks, by simp only [keywords, hk, h1], ?_⟩
    intro name' k' v hc' hk'
    simp only [List.lookup]
    split
    · rename_i he
      have he := eq_of_beq he
      have hkk : k' = k := by simpa using congrArg String.toList he
      subst hkk
      have : name = name' := hinj name' hc' hk'
      subst this
      simp only [Option.some.injEq, units, List.mem_cons, Prod.mk.injEq, true_and]
      constructor
      · intro h; exact .inl h.symm
      · rintro (h | h)
        · exact h.symm
        · exact absurd (List.mem_map_of_mem (f := Prod.fst) h) hn.1
    · rename_i he
      have hne : name' ≠ name := by
        rintro rfl
        rw [hk] at hk'
        cases hk'
        simp at he
      rw [h2 name' k' v hc' hk']
      simp [units, hne]

/-- **C70**: for an enum with variants that have different names in CamelCase, the macro generates a parser. An identifier that no variant with
a field accepts is accepted if and only if it is the keyword of a variant, and stands for this variant. Other tokens are left to the
variants with a field, of which the first that accepts them is taken. -/
theorem C70_parse {α : Type} (variants : List (Variant α)) (hc : ∀ u ∈ units variants, Camel u.1)
    (hn : ((units variants).map Prod.fst).Nodup) : ∃ parse, deriveParse variants = some parse ∧
      (∀ name k rest, Camel name → kebab name = some k → (∀ p ∈ fieldParsers variants, p (.ident (String.ofList k) :: rest) = none) →
        ∀ r, parse (.ident (String.ofList k) :: rest) = some r ↔ ∃ v, (name, v) ∈ units variants ∧ r = (v, rest)) ∧
      (∀ before p after r tokens, fieldParsers variants = before ++ p :: after → (∀ q ∈ before, q tokens = none) → p tokens = some r →
        parse tokens = some r) ∧
      (∀ tokens, (∀ s rest, tokens ≠ .ident s :: rest) → (∀ p ∈ fieldParsers variants, p tokens = none) → parse tokens = none) := by
  obtain ⟨ks, h1, h2⟩ := keywords_spec variants hc hn
  have hnone : ∀ (ps : List (Parser α)) tokens, (∀ p ∈ ps, p tokens = none) → tryFields ps tokens = none := by
    intro ps tokens h
    induction ps with
    | nil => rfl
    | cons p ps ih =>
      rw [tryFields, h p (by simp)]
      exact ih fun q hq => h q (List.mem_cons_of_mem _ hq)
  refine ⟨_, by simp only [deriveParse, h1]; rfl, ?_, ?_, ?_⟩
  · intro name k rest hcn hk hf r
    simp only [hnone _ _ hf]
    have hl := fun v => h2 name k v hcn hk
    by_cases hks : ks = []
    · subst hks
      simp only [if_true, reduceCtorEq, false_iff]
      rintro ⟨v, hv, -⟩
      have := (hl v).mpr hv
      simp at this
    · simp only [hks, if_false, parseKeyword, expectIdent]
      rcases hlk : ks.lookup (String.ofList k) with _ | v
      · simp only [reduceCtorEq, false_iff]
        rintro ⟨v, hv, -⟩
        rw [(hl v).mpr hv] at hlk
        simp at hlk
      · simp only [Option.some.injEq]
        constructor
        · intro h; exact ⟨v, (hl v).mp hlk, h.symm⟩
        · rintro ⟨v', hv', rfl⟩
          rw [(hl v').mpr hv'] at hlk
          cases hlk
          rfl
  · intro before p after r tokens hf hb hp
    have : ∀ before : List (Parser α), (∀ q ∈ before, q tokens = none) → tryFields (before ++ p :: after) tokens = some r := by
      intro before hb
      induction before with
      | nil => simp only [List.nil_append, tryFields, hp]
      | cons q before ih =>
        simp only [List.cons_append, tryFields, hb q (by simp)]
        exact ih fun q' hq' => hb q' (List.mem_cons_of_mem _ hq')
    simp only [hf, this before hb]
  · intro tokens ht hf
    simp only [hnone _ _ hf]
    split
    · rfl
    · unfold parseKeyword expectIdent
      match tokens with
      | [] => rfl
      | .ident s :: rest => exact absurd rfl (ht s rest)
      | .dimension .. :: _ => rfl
      | .number _ :: _ => rfl
      | .percentage _ :: _ => rfl
      | .delim _ :: _ => rfl
      | .other _ :: _ => rfl

/-- The enum `Position` of values/box_.rs 128-133. -/
def positionVariants : List (Variant Position) :=
  [⟨"Static".toList, .unit .static⟩, ⟨"Relative".toList, .unit .relative⟩, ⟨"Absolute".toList, .unit .absolute⟩]

/-- The enum `Float` of values/box_.rs 111-116. -/
def floatVariants : List (Variant Style.Float) :=
  [⟨"None".toList, .unit .none⟩, ⟨"Left".toList, .unit .left⟩, ⟨"Right".toList, .unit .right⟩]

/-- The enum `LineStyle` of values/border.rs 6-10. -/
def lineStyleVariants : List (Variant LineStyle) := [⟨"None".toList, .unit .none⟩, ⟨"Solid".toList, .unit .solid⟩]

/-- The enum `CssWideKeyword` of values/mod.rs 47-52. -/
def cssWideVariants : List (Variant CssWideKeyword) :=
  [⟨"Inherit".toList, .unit .inherit⟩, ⟨"Initial".toList, .unit .initial⟩, ⟨"Unset".toList, .unit .unset⟩]

/-- A parser followed by a constructor. -/
def mapParser {α β : Type} (f : α → β) (p : Parser α) : Parser β := fun tokens => (p tokens).map fun r => (f r.1, r.2)

/-- The enum `SpecifiedLengthOrPercentage` of values/length.rs 27-31. -/
def lengthOrPercentageVariants : List (Variant SpecifiedLengthOrPercentage) :=
  [⟨"Length".toList, .field (mapParser .length SpecifiedLength.parse)⟩, ⟨"Percentage".toList, .field (mapParser .percentage expectPercentage)⟩]

/-- The enum `SpecifiedLengthOrPercentageOrAuto` of values/length.rs 39-44. -/
def lengthOrPercentageOrAutoVariants : List (Variant SpecifiedLengthOrPercentageOrAuto) :=
  [⟨"Length".toList, .field (mapParser .length SpecifiedLength.parse)⟩, ⟨"Percentage".toList, .field (mapParser .percentage expectPercentage)⟩,
    ⟨"Auto".toList, .unit .auto⟩]

/-- The enum `ParsedLineWidth` of values/border.rs 12-18, with the widths of 38-49. -/
def lineWidthVariants : List (Variant SpecifiedLengthOrPercentage) :=
  [⟨"Thin".toList, .unit (.length (.absolute 1))⟩, ⟨"Medium".toList, .unit (.length (.absolute 3))⟩,
    ⟨"Thick".toList, .unit (.length (.absolute 5))⟩, ⟨"Other".toList, .field SpecifiedLengthOrPercentage.parse⟩]

/-- The parsers of the style model are those that the macro generates for the enums of the code. -/
theorem C70_expansions : deriveParse positionVariants = some Position.parse ∧ deriveParse floatVariants = some Style.Float.parse ∧
    deriveParse lineStyleVariants = some LineStyle.parse ∧ deriveParse cssWideVariants = some CssWideKeyword.parse ∧
    deriveParse lengthOrPercentageVariants = some SpecifiedLengthOrPercentage.parse ∧
    deriveParse lengthOrPercentageOrAutoVariants = some SpecifiedLengthOrPercentageOrAuto.parse ∧
    deriveParse lineWidthVariants = some parseLineWidth := by
  have k1 : keywords positionVariants = some [("static", .static), ("relative", .relative), ("absolute", .absolute)] := by decide +kernel
  have k2 : keywords floatVariants = some [("none", .none), ("left", .left), ("right", .right)] := by decide +kernel
  have k3 : keywords lineStyleVariants = some [("none", .none), ("solid", .solid)] := by decide +kernel
  have k4 : keywords cssWideVariants = some [("inherit", .inherit), ("initial", .initial), ("unset", .unset)] := by decide +kernel
  have k5 : keywords lengthOrPercentageVariants = some [] := rfl
  have k6 : keywords lengthOrPercentageOrAutoVariants = some [("auto", .auto)] := by decide +kernel
  have k7 : keywords lineWidthVariants = some [("thin", .length (.absolute 1)), ("medium", .length (.absolute 3)),
      ("thick", .length (.absolute 5))] := by decide +kernel
  refine ⟨?_, ?_, ?_, ?_, ?_, ?_, ?_⟩
  · simp only [deriveParse, k1]; rfl
  · simp only [deriveParse, k2]; rfl
  · simp only [deriveParse, k3]; rfl
  · simp only [deriveParse, k4]; rfl
  · simp only [deriveParse, k5, Option.some.injEq]
    funext tokens
    simp only [lengthOrPercentageVariants, fieldParsers, tryFields, mapParser, SpecifiedLengthOrPercentage.parse]
    rcases SpecifiedLength.parse tokens with _ | ⟨l, rest⟩
    · rcases expectPercentage tokens with _ | ⟨l, rest⟩ <;> rfl
    · rfl
  · simp only [deriveParse, k6, Option.some.injEq]
    funext tokens
    simp only [lengthOrPercentageOrAutoVariants, fieldParsers, tryFields, mapParser, SpecifiedLengthOrPercentageOrAuto.parse]
    rcases SpecifiedLength.parse tokens with _ | ⟨l, rest⟩
    · rcases expectPercentage tokens with _ | ⟨l, rest⟩ <;> rfl
    · rfl
  · simp only [deriveParse, k7, Option.some.injEq]
    funext tokens
    simp only [lineWidthVariants, fieldParsers, tryFields, parseLineWidth]
    rcases SpecifiedLengthOrPercentage.parse tokens with _ | r <;> rfl

example : kebab "HorizontalTb".toList = some "horizontal-tb".toList := by decide +kernel
example : (∀ u ∈ units lineWidthVariants, Camel u.1) ∧ ((units lineWidthVariants).map Prod.fst).Nodup := by
  refine ⟨?_, by decide +kernel⟩
  intro u hu
  simp only [lineWidthVariants, units, List.mem_cons, List.not_mem_nil, or_false] at hu
  rcases hu with rfl | rfl | rfl
  all_goals exact ⟨⟨_, _, rfl, by decide +kernel⟩, by decide +kernel⟩

/-! ## C71 -/

/-- The sum of the sizes of fields. -/
def totalSize : List (String × String) → Nat
  | [] => 0
  | (_, type) :: rest => (fieldSize type).getD 0 + totalSize rest

private theorem fieldOffsets_spec : ∀ (fields : List (String × String)) (start : Nat) (offsets : List (String × Nat)) (total : Nat),
    fieldOffsets start fields = some (offsets, total) →
      total = start + totalSize fields ∧ offsets.length = fields.length ∧
      ∀ before name type after, fields = before ++ (name, type) :: after →
        ∃ size, fieldSize type = some size ∧ offsets[before.length]? = some (name, start + totalSize before) ∧
          (start + totalSize before) % min size 4 = 0
  | [], start, offsets, total, h => by
    simp only [fieldOffsets, Option.some.injEq, Prod.mk.injEq] at h
    obtain ⟨rfl, rfl⟩ := h
    refine ⟨rfl, rfl, fun before name type after h => ?_⟩
    simp at h
  | (name, type) :: rest, start, offsets, total, h => by
    rw [fieldOffsets] at h
    split at h
    · cases h
    · rename_i size hs
      split at h
      · cases h
      · rename_i hal
        split at h
        · cases h
        · rename_i os t hr
          simp only [Option.some.injEq, Prod.mk.injEq] at h
          obtain ⟨rfl, rfl⟩ := h
          obtain ⟨h1, h2, h3⟩ := fieldOffsets_spec rest _ _ _ hr
          refine ⟨by simp only [totalSize, hs, Option.getD_some]; omega, by simp [h2], fun before n ty after hb => ?_⟩
          cases before with
          | nil =>
            simp only [List.nil_append, List.cons.injEq, Prod.mk.injEq] at hb
            obtain ⟨⟨rfl, rfl⟩, -⟩ := hb
            exact ⟨size, hs, by simp [totalSize], by simpa [totalSize] using hal⟩
          | cons b before =>
            simp only [List.cons_append, List.cons.injEq] at hb
            obtain ⟨rfl, hb⟩ := hb
            obtain ⟨size', g1, g2, g3⟩ := h3 before n ty after hb
            have e : start + totalSize ((name, type) :: before) = start + size + totalSize before := by
              simp only [totalSize, hs, Option.getD_some]; omega
            exact ⟨size', g1, by rw [e]; simpa using g2, by rw [e]; exact g3⟩

/-- **C71**: whenever the macro accepts a struct, the field is read directly after the fields before it, at a position aligned to its size (to 4
bytes at most), and the size of the struct is the sum of the sizes of its fields. -/
theorem C71_fields (fields : List (String × String)) (offsets : List (String × Nat)) (total : Nat)
    (h : deriveSfntTable fields = some (offsets, total)) :
    total = totalSize fields ∧ offsets.length = fields.length ∧
      ∀ before name type after, fields = before ++ (name, type) :: after →
        ∃ size, fieldSize type = some size ∧ offsets[before.length]? = some (name, totalSize before) ∧ totalSize before % min size 4 = 0 := by
  simpa using fieldOffsets_spec fields 0 offsets total h

private theorem totalSize_append (a b : List (String × String)) : totalSize (a ++ b) = totalSize a + totalSize b := by
  induction a with
  | nil => simp [totalSize]
  | cons x a ih =>
    obtain ⟨n, t⟩ := x
    simp only [List.cons_append, totalSize, ih]
    omega

/-- **C71**: the bytes of different fields are different bytes, and all are in the struct. -/
theorem C71_disjoint (fields : List (String × String)) (offsets : List (String × Nat)) (total : Nat)
    (h : deriveSfntTable fields = some (offsets, total)) (i j : Nat) (hij : i < j) (f g : String × String) (hi : fields[i]? = some f)
    (hj : fields[j]? = some g) :
    ∃ a b s t, offsets[i]? = some (f.1, a) ∧ offsets[j]? = some (g.1, b) ∧ fieldSize f.2 = some s ∧ fieldSize g.2 = some t ∧
      a + s ≤ b ∧ b + t ≤ total := by
  obtain ⟨h1, -, h2⟩ := C71_fields fields offsets total h
  have split : ∀ k x, fields[k]? = some x → ∃ before after, fields = before ++ x :: after ∧ before.length = k := by
    intro k x hk
    obtain ⟨hlt, hx⟩ := List.getElem?_eq_some_iff.mp hk
    refine ⟨fields.take k, fields.drop (k + 1), ?_, by simp; omega⟩
    rw [← hx, ← List.drop_eq_getElem_cons hlt, List.take_append_drop]
  obtain ⟨b1, a1, e1, l1⟩ := split i f hi
  obtain ⟨b2, a2, e2, l2⟩ := split j g hj
  obtain ⟨s, g1, g2, -⟩ := h2 b1 f.1 f.2 a1 e1
  obtain ⟨t, g3, g4, -⟩ := h2 b2 g.1 g.2 a2 e2
  refine ⟨_, _, s, t, l1 ▸ g2, l2 ▸ g4, g1, g3, ?_, ?_⟩
  · have hb : b1 ++ [f] <+: b2 := by
      have p1 : b1 ++ [f] <+: fields := ⟨a1, by rw [e1]; simp⟩
      have p2 : b2 <+: fields := ⟨g :: a2, by rw [e2]⟩
      exact List.prefix_of_prefix_length_le p1 p2 (by simp; omega)
    obtain ⟨r, hr⟩ := hb
    rw [← hr, totalSize_append, totalSize_append]
    simp only [totalSize, g1, Option.getD_some]
    omega
  · rw [h1, e2, totalSize_append]
    simp only [totalSize, g3, Option.getD_some]
    omega

/-! The structs of fonts/tables.rs. -/

/-- tables.rs 6-13. -/
def offsetSubtable : List (String × String) :=
  [("scaler_type", "u32"), ("table_count", "u16"), ("_search_range", "u16"), ("_entry_selector", "u16"), ("_range_shift", "u16")]
/-- tables.rs 15-21. -/
def tableDirectoryEntry : List (String × String) := [("tag", "Tag"), ("_checksum", "u32"), ("table_offset", "u32"), ("_length", "u32")]
/-- tables.rs 23-30. -/
def maximumProfile : List (String × String) := [("_version", "FixedPoint"), ("num_glyphs", "u16"), ("_padding", "u16")]
/-- tables.rs 32-38. -/
def namingTableHeader : List (String × String) := [("_format", "u16"), ("count", "u16"), ("string_offset", "u16")]
/-- tables.rs 40-48. -/
def nameRecord : List (String × String) :=
  [("platform_id", "u16"), ("encoding_id", "u16"), ("_language_id", "u16"), ("name_id", "u16"), ("length", "u16"), ("string_offset", "u16")]
/-- tables.rs 50-55. -/
def cmapHeader : List (String × String) := [("_version", "u16"), ("num_tables", "u16")]
/-- tables.rs 57-62. -/
def cmapEncodingRecord : List (String × String) := [("platform_id", "u16"), ("encoding_id", "u16"), ("subtable_offset", "u32")]
/-- tables.rs 64-73. -/
def cmapFormat4Header : List (String × String) :=
  [("_format", "u16"), ("_length", "u16"), ("_language", "u16"), ("segment_count_x2", "u16"), ("_search_range", "u16"),
    ("_entry_selector", "u16"), ("_range_shift", "u16")]
/-- tables.rs 75-82. -/
def cmapFormat12Header : List (String × String) :=
  [("_format", "u16"), ("__reserved", "u16"), ("_length", "u32"), ("_language", "u32"), ("num_groups", "u32")]
/-- tables.rs 84-89. -/
def cmapFormat12Group : List (String × String) := [("start_char_code", "u32"), ("end_char_code", "u32"), ("start_glyph_id", "u32")]
/-- tables.rs 91-112. -/
def fontHeader : List (String × String) :=
  [("_version", "FixedPoint"), ("_font_revision", "FixedPoint"), ("_checksum_adjustment", "u32"), ("_magic_number", "u32"), ("_flags", "u16"),
    ("units_per_em", "FontDesignUnitsPerEmFactorU16"), ("_created", "LongDateTime"), ("_modified", "LongDateTime"), ("min_x", "FWord"),
    ("min_y", "FWord"), ("max_x", "FWord"), ("max_y", "FWord"), ("_mac_style", "u16"), ("_smallest_readable_size_in_px_per_em", "u16"),
    ("_font_direction_hint", "i16"), ("_index_to_loc_format", "i16"), ("_glyph_data_format", "i16"), ("__padding", "u16")]
/-- tables.rs 114-134. -/
def horizontalHeader : List (String × String) :=
  [("_version", "FixedPoint"), ("ascender", "FWord"), ("descender", "FWord"), ("_line_gap", "FWord"), ("_max_advance_width", "UFWord"),
    ("_min_left_side_bearing", "FWord"), ("_max_left_side_bearing", "FWord"), ("_x_max_extent", "FWord"), ("_caret_slope_rise", "i16"),
    ("_caret_slope_run", "i16"), ("_carret_offset", "FWord"), ("__reserved_1", "i16"), ("__reserved_2", "i16"), ("__reserved_3", "i16"),
    ("__reserved_4", "i16"), ("_metric_data_format", "i16"), ("number_of_long_horizontal_metrics", "u16")]
/-- tables.rs 136-141. -/
def longHorizontalMetricsRecord : List (String × String) := [("advance_width", "UFWord"), ("_left_side_bearing", "i16")]

/-- The macro reads this field of this struct at this offset. -/
def At (fields : List (String × String)) (name : String) (offset : Nat) : Prop :=
  ∃ offsets total, deriveSfntTable fields = some (offsets, total) ∧ offsets.lookup name = some offset

/-- The struct has this size. -/
def Size (fields : List (String × String)) (size : Nat) : Prop := (deriveSfntTable fields).map Prod.snd = some size

/-- **C71** for the structs of the code: the macro accepts each of them, and the positions and sizes that it computes are those that the font
model uses, which are those of the TrueType format. -/
theorem C71_tables :
    (At offsetSubtable "scaler_type" 0 ∧ At offsetSubtable "table_count" 4 ∧ Size offsetSubtable Font.sizeOffsetSubtable) ∧
    (At tableDirectoryEntry "tag" 0 ∧ At tableDirectoryEntry "table_offset" 8 ∧ Size tableDirectoryEntry Font.sizeTableDirectoryEntry) ∧
    At maximumProfile "num_glyphs" 4 ∧
    (At namingTableHeader "count" 2 ∧ At namingTableHeader "string_offset" 4 ∧ Size namingTableHeader Font.sizeNamingTableHeader) ∧
    (At nameRecord "platform_id" 0 ∧ At nameRecord "encoding_id" 2 ∧ At nameRecord "name_id" 6 ∧ At nameRecord "length" 8 ∧
      At nameRecord "string_offset" 10 ∧ Size nameRecord Font.sizeNameRecord) ∧
    (At cmapHeader "num_tables" 2 ∧ Size cmapHeader Font.sizeCmapHeader) ∧
    (At cmapEncodingRecord "platform_id" 0 ∧ At cmapEncodingRecord "encoding_id" 2 ∧ At cmapEncodingRecord "subtable_offset" 4 ∧
      Size cmapEncodingRecord Font.sizeCmapEncodingRecord) ∧
    (At cmapFormat4Header "segment_count_x2" 6 ∧ Size cmapFormat4Header Font.sizeCmapFormat4Header) ∧
    (At cmapFormat12Header "num_groups" 12 ∧ Size cmapFormat12Header Font.sizeCmapFormat12Header) ∧
    (At cmapFormat12Group "start_char_code" 0 ∧ At cmapFormat12Group "end_char_code" 4 ∧ At cmapFormat12Group "start_glyph_id" 8 ∧
      Size cmapFormat12Group Font.sizeCmapFormat12Group) ∧
    (At fontHeader "units_per_em" 18 ∧ At fontHeader "min_x" 36 ∧ At fontHeader "min_y" 38 ∧ At fontHeader "max_x" 40 ∧
      At fontHeader "max_y" 42) ∧
    (At horizontalHeader "ascender" 4 ∧ At horizontalHeader "descender" 6 ∧ At horizontalHeader "number_of_long_horizontal_metrics" 34) ∧
    (At longHorizontalMetricsRecord "advance_width" 0 ∧ Size longHorizontalMetricsRecord Font.sizeLongHorizontalMetricsRecord) := by
  have go : ∀ fields name offset, ((deriveSfntTable fields).bind fun r => r.1.lookup name) = some offset → At fields name offset := by
    intro fields name offset h
    rw [Option.bind_eq_some_iff] at h
    obtain ⟨⟨offsets, total⟩, h1, h2⟩ := h
    exact ⟨offsets, total, h1, h2⟩
  refine ⟨⟨?_, ?_, ?_⟩, ⟨?_, ?_, ?_⟩, ?_, ⟨?_, ?_, ?_⟩, ⟨?_, ?_, ?_, ?_, ?_, ?_⟩, ⟨?_, ?_⟩, ⟨?_, ?_, ?_, ?_⟩, ⟨?_, ?_⟩, ⟨?_, ?_⟩,
    ⟨?_, ?_, ?_, ?_⟩, ⟨?_, ?_, ?_, ?_, ?_⟩, ⟨?_, ?_, ?_⟩, ⟨?_, ?_⟩⟩
  all_goals first
    | (apply go; decide +kernel)
    | (unfold Size; decide +kernel)

example : deriveSfntTable [("a", "u16"), ("b", "u32")] = none := by decide +kernel

end Verif.Macros
