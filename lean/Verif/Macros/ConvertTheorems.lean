/- C105: what the generated conversions do. -/
import Verif.Macros.Convert
import Mathlib.Data.List.Forall2
import Mathlib.Data.List.Nodup
namespace Verif.Macros
open Verif.Style

/-! ## Specification -/

/-- The second payload has the fields of the definition, and in each of them the converted value of the same field (by position, or by name)
of the first payload, which has no other fields. -/
inductive Converted {α β : Type} (conv : String → α → β) : Fields → Payload α → Payload β → Prop
  | unit : Converted conv .unit .unit .unit
  | unnamed (types : List String) (values : List α) : types.length = values.length →
      Converted conv (.unnamed types) (.tuple values) (.tuple (List.zipWith conv types values))
  | named (fields : List (String × String)) (values : List (String × α)) (results : List (String × β)) :
      fields.length = values.length → (fields.map Prod.fst).Nodup →
      List.Forall₂ (fun f r => r.1 = f.1 ∧ ∃ v, values.lookup f.1 = some v ∧ r.2 = conv f.2 v) fields results →
      Converted conv (.named fields) (.record values) (.record results)

/-- The variants of a type, a struct having a single one without a name. -/
def TypeDef.variants (d : TypeDef) : List (Option String × Fields) :=
  match d.body with
  | .struct fields => [(none, fields)]
  | .enum variants => variants.map fun v => (some v.1, v.2)
  | .union => []

/-! ## Names of unnamed fields -/

theorem fieldName_injective {i j : Nat} (h : fieldName i = fieldName j) : i = j := by
  unfold fieldName at h
  have h1 : Nat.repr i = Nat.repr j := by
    have := congrArg String.toList h
    simp only [String.toList_append] at this
    exact String.toList_injective (List.append_cancel_left this)
  rw [Nat.repr_eq_ofList_toDigits, Nat.repr_eq_ofList_toDigits] at h1
  have h2 : Nat.toDigits 10 i = Nat.toDigits 10 j := by
    have := congrArg String.toList h1
    simpa using this
  have := congrArg (fun l => Nat.ofDigitChars 10 l 0) h2
  simpa [Nat.ofDigitChars_toDigits] using this

private theorem lookup_zip {α : Type} : ∀ (names : List String) (values : List α) (i : Nat) (n : String) (v : α), names.Nodup →
    names[i]? = some n → values[i]? = some v → (names.zip values).lookup n = some v
  | [], _, _, _, _, _, h, _ => by simp at h
  | _ :: _, [], _, _, _, _, _, h => by simp at h
  | a :: names, b :: values, 0, n, v, _, h, h' => by
    simp only [List.getElem?_cons_zero, Option.some.injEq] at h h'
    subst h h'
    simp
  | a :: names, b :: values, i + 1, n, v, hd, h, h' => by
    simp only [List.getElem?_cons_succ] at h h'
    rw [List.nodup_cons] at hd
    have hne : n ≠ a := by
      rintro rfl
      exact hd.1 (List.mem_of_getElem? h)
    rw [List.zip_cons_cons, List.lookup_cons, beq_eq_false_iff_ne.mpr hne]
    exact lookup_zip names values i n v hd.2 h h'

private theorem mapM_some {γ δ : Type} {f : γ → Option δ} : ∀ {l : List γ} {r : List δ}, List.Forall₂ (fun a b => f a = some b) l r →
    l.mapM f = some r
  | _, _, .nil => rfl
  | _, _, .cons h hs => by
    rw [List.mapM_cons, h, mapM_some hs]
    rfl

/-- An arm of the generated code, on a value of its variant. -/
theorem genVariant_run {α β : Type} (conv : String → α → β) (s name : String) (variant : Option String) {fields : Fields} {p : Payload α}
    {p' : Payload β} (h : Converted conv fields p p') :
    (genVariant s name variant fields).run conv ⟨⟨s, variant⟩, p⟩ = some ⟨⟨name, variant⟩, p'⟩ := by
  cases h with
  | unit => simp [genVariant, MatchArm.run, Pattern.bind, Rebuilt.eval]
  | unnamed types values hl =>
    have hn : (types.zipIdx.map fun t => fieldName t.2).Nodup := by
      have : (types.zipIdx.map fun t => fieldName t.2) = (List.range types.length).map fieldName := by
        rw [List.range_eq_range', ← List.zipIdx_map_snd 0 types, List.map_map]; rfl
      rw [this]
      exact List.Nodup.map (fun _ _ => fieldName_injective) List.nodup_range
    simp only [genVariant, MatchArm.run, Pattern.bind, Rebuilt.eval, if_true, List.length_map, List.length_zipIdx, hl]
    rw [mapM_some (r := List.zipWith conv types values)]
    · rfl
    · rw [List.forall₂_iff_get]
      refine ⟨by simp [hl], fun i hi hi' => ?_⟩
      simp only [List.length_map, List.length_zipIdx] at hi
      simp only [List.get_eq_getElem, List.getElem_map, List.getElem_zipIdx, List.getElem_zipWith, Nat.zero_add]
      rw [lookup_zip _ values i (fieldName i) (values[i]'(by omega)) hn]
      · rfl
      · simp [hi]
      · simp [hl ▸ hi]
  | named fields values results hl hd hf =>
    simp only [genVariant, MatchArm.run, Pattern.bind, Rebuilt.eval, if_true, List.length_map, hl]
    have h1 : ∃ env : List (String × α), List.Forall₂ (fun n e => ((values.lookup n).map fun v => (n, v)) = some e) (fields.map Prod.fst) env ∧
        env.map Prod.fst = fields.map Prod.fst := by
      clear hl hd
      induction hf with
      | nil => exact ⟨[], .nil, rfl⟩
      | cons h _ ih =>
        obtain ⟨env, e1, e2⟩ := ih
        obtain ⟨-, v, hv, -⟩ := h
        exact ⟨(_, v) :: env, .cons (by rw [hv]; rfl) e1, by simp [e2]⟩
    obtain ⟨env, e1, e2⟩ := h1
    rw [mapM_some e1]
    simp only []
    have h2 : ∀ n v, n ∈ fields.map Prod.fst → values.lookup n = some v → env.lookup n = some v := by
      intro n v hn hv
      obtain ⟨i, hi, rfl⟩ := List.getElem_of_mem hn
      have hi' : i < env.length := by rw [← e1.length_eq]; exact hi
      have h3 := (List.forall₂_iff_get.mp e1).2 i hi hi'
      simp only [List.get_eq_getElem, hv, Option.map_some, Option.some.injEq] at h3
      have : env = (env.map Prod.fst).zip (env.map Prod.snd) := by
        clear h3 hi' e1 e2
        induction env with
        | nil => rfl
        | cons e env ih => simp [← ih]
      rw [this]
      refine lookup_zip _ _ i _ v (e2 ▸ hd) ?_ ?_
      · rw [e2]; exact List.getElem?_eq_getElem hi
      · rw [List.getElem?_map, List.getElem?_eq_getElem hi', ← h3]; rfl
    rw [mapM_some (r := results)]
    · rfl
    · rw [List.forall₂_map_left_iff, List.forall₂_iff_get]
      refine ⟨hf.length_eq, fun i hi hi' => ?_⟩
      obtain ⟨h4, v, h5, h6⟩ := (List.forall₂_iff_get.mp hf).2 i hi hi'
      rw [h2 _ v (List.mem_map_of_mem (List.get_mem fields ⟨i, hi⟩)) h5, Option.map_some, ← h6, ← h4]

/-! ## C105 -/

private theorem runArms_variant {α β : Type} (conv : String → α → β) (s name : String) : ∀ (variants : List (Option String × Fields)),
    (variants.map Prod.fst).Nodup → ∀ (variant : Option String) (fields : Fields), (variant, fields) ∈ variants →
    ∀ (p : Payload α) (p' : Payload β), Converted conv fields p p' →
    runArms conv (variants.map fun v => genVariant s name v.1 v.2) ⟨⟨s, variant⟩, p⟩ = some ⟨⟨name, variant⟩, p'⟩
  | [], _, _, _, hm, _, _, _ => by simp at hm
  | (w, f) :: rest, hd, variant, fields, hm, p, p', h => by
    rw [List.map_cons, List.nodup_cons] at hd
    rw [List.map_cons, runArms]
    rcases List.mem_cons.mp hm with e | hr
    · obtain ⟨rfl, rfl⟩ := Prod.mk.inj e
      rw [genVariant_run conv s name variant h]
    · have hne : variant ≠ w := by
        rintro rfl
        exact hd.1 (List.mem_map.mpr ⟨_, hr, rfl⟩)
      have : (genVariant s name w f).run conv ⟨⟨s, variant⟩, p⟩ = none := by
        have : (genVariant s name w f).source = ⟨s, w⟩ := by cases f <;> rfl
        unfold MatchArm.run
        rw [this, if_neg]
        intro e
        exact hne (congrArg Path.variant e)
      rw [this]
      exact runArms_variant conv s name rest hd.2 variant fields hr p p' h

/-- **C105**: the conversion of specified values that `derive(FromSpecified)` generates keeps the variant, and converts each field by itself,
in its place. It is generated for all structs and enums. -/
theorem C105_specified {α β : Type} (conv : String → α → β) (d : TypeDef) (hu : d.body ≠ .union) (hd : (d.variants.map Prod.fst).Nodup) :
    ∃ arms, deriveFromSpecified d = some arms ∧
      ∀ variant fields, (variant, fields) ∈ d.variants → ∀ p p', Converted conv fields p p' →
        runArms conv arms ⟨⟨specifiedName d, variant⟩, p⟩ = some ⟨⟨d.name, variant⟩, p'⟩ := by
  obtain ⟨name, params, body⟩ := d
  cases body with
  | union => exact absurd rfl hu
  | struct fields =>
    refine ⟨_, rfl, fun variant fields' hm p p' h => ?_⟩
    exact runArms_variant conv _ name [(none, fields)] hd variant fields' hm p p' h
  | enum variants =>
    refine ⟨_, rfl, fun variant fields' hm p p' h => ?_⟩
    have := runArms_variant conv (specifiedName ⟨name, params, .enum variants⟩) name _ hd variant fields' hm p p' h
    simpa [TypeDef.variants, List.map_map, Function.comp_def] using this

private theorem mem_variantImpls {name : String} : ∀ {variants : List (String × Fields)} {i : FromImpl}, i ∈ variantImpls name variants ↔
    ∃ variant type, (variant, Fields.unnamed [type]) ∈ variants ∧ i = ⟨type, ⟨name, some variant⟩⟩
  | [], i => by simp [variantImpls]
  | (v, f) :: rest, i => by
    have ih := mem_variantImpls (name := name) (variants := rest) (i := i)
    by_cases hf : ∃ type, f = .unnamed [type]
    · obtain ⟨type, rfl⟩ := hf
      rw [variantImpls, List.mem_cons, ih]
      constructor
      · rintro (rfl | ⟨w, t, hm, rfl⟩)
        · exact ⟨v, type, by simp, rfl⟩
        · exact ⟨w, t, by simp [hm], rfl⟩
      · rintro ⟨w, t, hm, rfl⟩
        rcases List.mem_cons.mp hm with e | hm
        · cases e; exact .inl rfl
        · exact .inr ⟨w, t, hm, rfl⟩
    · have e : variantImpls name ((v, f) :: rest) = variantImpls name rest := by
        rw [variantImpls]
        intro _ type e
        exact hf ⟨type, (Prod.mk.inj e).2⟩
      rw [e, ih]
      constructor
      · rintro ⟨w, t, hm, rfl⟩
        exact ⟨w, t, by simp [hm], rfl⟩
      · rintro ⟨w, t, hm, rfl⟩
        rcases List.mem_cons.mp hm with e | hm
        · cases e; exact absurd ⟨t, rfl⟩ hf
        · exact ⟨w, t, hm, rfl⟩

/-- **C105**: the conversions that `derive(FromVariants)` generates wrap a value in the variant that holds values of its type, unchanged. They
are generated for the types of all variants with a single unnamed field, and for no other types. -/
theorem C105_variants {α : Type} (name : String) (params : List String) (variants : List (String × Fields)) (impls : List FromImpl)
    (h : deriveFromVariants ⟨name, params, .enum variants⟩ = some impls) (hc : Coherent impls) :
    (∀ variant type, (variant, Fields.unnamed [type]) ∈ variants → ∀ x : α,
      runFrom impls type x = some ⟨⟨name, some variant⟩, .tuple [x]⟩) ∧
    ∀ type (x : α), (∀ variant, (variant, Fields.unnamed [type]) ∉ variants) → runFrom impls type x = none := by
  have hi : impls = variantImpls name variants := by
    simp only [deriveFromVariants] at h
    split at h
    · cases h
    · simpa using h.symm
  subst hi
  constructor
  · intro variant type hm x
    have hmem : (⟨type, ⟨name, some variant⟩⟩ : FromImpl) ∈ variantImpls name variants := mem_variantImpls.mpr ⟨variant, type, hm, rfl⟩
    rcases hf : (variantImpls name variants).find? fun i => i.type = type with _ | i
    · have := List.find?_eq_none.mp hf _ hmem
      simp at this
    · have h1 := List.find?_some hf
      have h2 := List.mem_of_find?_eq_some hf
      simp only [decide_eq_true_eq] at h1
      have : i = ⟨type, ⟨name, some variant⟩⟩ := List.inj_on_of_nodup_map hc h2 hmem h1
      subst this
      rw [runFrom, hf]
      rfl
  · intro type x hn
    rw [runFrom, List.find?_eq_none.mpr]
    · rfl
    · intro i hi
      obtain ⟨variant, t, hm, rfl⟩ := mem_variantImpls.mp hi
      simp only [decide_eq_true_eq]
      rintro rfl
      exact hn _ hm

/-! ### The types of the code -/

/-- values/length.rs 33-37. -/
def lengthOrPercentageDef : TypeDef := ⟨"LengthOrPercentage", [], .enum [("Length", .unnamed ["Length"]), ("Percentage", .unnamed ["Percentage"])]⟩

/-- values/length.rs 46-51. -/
def lengthOrPercentageOrAutoDef : TypeDef :=
  ⟨"LengthOrPercentageOrAuto", [], .enum [("Length", .unnamed ["Length"]), ("Percentage", .unnamed ["Percentage"]), ("Auto", .unit)]⟩

/-- values/border.rs 23-24. -/
def lineWidthDef : TypeDef := ⟨"LineWidth", [], .struct (.unnamed ["LengthOrPercentage"])⟩

/-- The specified values of fields: of the types `SpecifiedLength`, `Percentage` and `SpecifiedLengthOrPercentage`. -/
inductive SpecifiedField where
  | length (l : SpecifiedLength)
  | percentage (unitValue : Rat)
  | lengthOrPercentage (v : SpecifiedLengthOrPercentage)

/-- The computed values of fields: of the types `Length`, `Percentage` and `LengthOrPercentage`. -/
inductive ComputedField where
  | length (px : Rat)
  | percentage (unitValue : Rat)
  | lengthOrPercentage (v : LengthOrPercentage)

/-- `from_specified` of the fields: values/length.rs 85-92 for lengths, `SpecifiedAsComputed` (proc-macros/src/style.rs 3-29) for percentages. -/
def fieldFromSpecified (fontSize : Rat) : String → SpecifiedField → ComputedField
  | _, .length l => .length (l.compute fontSize)
  | _, .percentage p => .percentage p
  | _, .lengthOrPercentage v => .lengthOrPercentage (v.compute fontSize)

def specifiedLop : SpecifiedLengthOrPercentage → Value SpecifiedField
  | .length l => ⟨⟨"SpecifiedLengthOrPercentage", some "Length"⟩, .tuple [.length l]⟩
  | .percentage p => ⟨⟨"SpecifiedLengthOrPercentage", some "Percentage"⟩, .tuple [.percentage p]⟩

def computedLop : LengthOrPercentage → Value ComputedField
  | .length l => ⟨⟨"LengthOrPercentage", some "Length"⟩, .tuple [.length l]⟩
  | .percentage p => ⟨⟨"LengthOrPercentage", some "Percentage"⟩, .tuple [.percentage p]⟩

def specifiedLopa : SpecifiedLengthOrPercentageOrAuto → Value SpecifiedField
  | .length l => ⟨⟨"SpecifiedLengthOrPercentageOrAuto", some "Length"⟩, .tuple [.length l]⟩
  | .percentage p => ⟨⟨"SpecifiedLengthOrPercentageOrAuto", some "Percentage"⟩, .tuple [.percentage p]⟩
  | .auto => ⟨⟨"SpecifiedLengthOrPercentageOrAuto", some "Auto"⟩, .unit⟩

def computedLopa : LengthOrPercentageOrAuto → Value ComputedField
  | .length l => ⟨⟨"LengthOrPercentageOrAuto", some "Length"⟩, .tuple [.length l]⟩
  | .percentage p => ⟨⟨"LengthOrPercentageOrAuto", some "Percentage"⟩, .tuple [.percentage p]⟩
  | .auto => ⟨⟨"LengthOrPercentageOrAuto", some "Auto"⟩, .unit⟩

/-- **C105** for the types of the code: the computed values of the model are those of the generated code. -/
theorem C105_lengths (fontSize : Rat) :
    (∃ arms, deriveFromSpecified lengthOrPercentageDef = some arms ∧
      ∀ v, runArms (fieldFromSpecified fontSize) arms (specifiedLop v) = some (computedLop (v.compute fontSize))) ∧
    (∃ arms, deriveFromSpecified lengthOrPercentageOrAutoDef = some arms ∧
      ∀ v, runArms (fieldFromSpecified fontSize) arms (specifiedLopa v) = some (computedLopa (v.compute fontSize))) ∧
    ∃ arms, deriveFromSpecified lineWidthDef = some arms ∧
      ∀ v, runArms (fieldFromSpecified fontSize) arms ⟨⟨"SpecifiedLineWidth", none⟩, .tuple [.lengthOrPercentage v]⟩ =
        some ⟨⟨"LineWidth", none⟩, .tuple [.lengthOrPercentage (v.compute fontSize)]⟩ := by
  refine ⟨?_, ?_, ?_⟩
  · obtain ⟨arms, h1, h2⟩ := C105_specified (fieldFromSpecified fontSize) lengthOrPercentageDef (by simp [lengthOrPercentageDef]) (by decide +kernel)
    refine ⟨arms, h1, fun v => ?_⟩
    cases v with
    | length l => exact h2 (some "Length") (.unnamed ["Length"]) (by decide +kernel) _ _ (.unnamed ["Length"] [SpecifiedField.length l] rfl)
    | percentage p => exact h2 (some "Percentage") (.unnamed ["Percentage"]) (by decide +kernel) _ _ (.unnamed ["Percentage"] [SpecifiedField.percentage p] rfl)
  · obtain ⟨arms, h1, h2⟩ := C105_specified (fieldFromSpecified fontSize) lengthOrPercentageOrAutoDef (by simp [lengthOrPercentageOrAutoDef])
      (by decide +kernel)
    refine ⟨arms, h1, fun v => ?_⟩
    cases v with
    | length l => exact h2 (some "Length") (.unnamed ["Length"]) (by decide +kernel) _ _ (.unnamed ["Length"] [SpecifiedField.length l] rfl)
    | percentage p => exact h2 (some "Percentage") (.unnamed ["Percentage"]) (by decide +kernel) _ _ (.unnamed ["Percentage"] [SpecifiedField.percentage p] rfl)
    | auto => exact h2 (some "Auto") .unit (by decide +kernel) _ _ .unit
  · obtain ⟨arms, h1, h2⟩ := C105_specified (fieldFromSpecified fontSize) lineWidthDef (by simp [lineWidthDef]) (by decide +kernel)
    exact ⟨arms, h1, fun v => h2 none (.unnamed ["LengthOrPercentage"]) (by decide +kernel) _ _
      (.unnamed ["LengthOrPercentage"] [SpecifiedField.lengthOrPercentage v] rfl)⟩

/-- values/length.rs 21-25: `into` makes a `SpecifiedLength` of a `Length`, with no other meaning than `Absolute`. -/
example : ∃ impls, deriveFromVariants ⟨"SpecifiedLength", [], .enum [("Absolute", .unnamed ["Length"]), ("Em", .unnamed ["f32"])]⟩ = some impls ∧
    Coherent impls ∧ runFrom impls "Length" (3 : Nat) = some ⟨⟨"SpecifiedLength", some "Absolute"⟩, .tuple [3]⟩ := by
  refine ⟨_, rfl, by unfold Coherent; decide +kernel, rfl⟩

/-- A struct with named fields, whose specified value has them in another order. -/
example : ∃ arms, deriveFromSpecified ⟨"Pair", [], .struct (.named [("a", "A"), ("b", "B")])⟩ = some arms ∧
    runArms (fun t (n : Nat) => (t, n)) arms ⟨⟨"SpecifiedPair", none⟩, .record [("b", 2), ("a", 1)]⟩ =
      some ⟨⟨"Pair", none⟩, .record [("a", ("A", 1)), ("b", ("B", 2))]⟩ := by
  obtain ⟨arms, h1, h2⟩ := C105_specified (fun t (n : Nat) => (t, n)) ⟨"Pair", [], .struct (.named [("a", "A"), ("b", "B")])⟩ (by simp)
    (by decide +kernel)
  refine ⟨arms, h1, h2 none (.named [("a", "A"), ("b", "B")]) (by decide +kernel) _ _ (.named _ _ _ rfl (by decide +kernel) ?_)⟩
  exact .cons ⟨rfl, 1, rfl, rfl⟩ (.cons ⟨rfl, 2, rfl, rfl⟩ .nil)

end Verif.Macros
