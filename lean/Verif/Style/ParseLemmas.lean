/- Lemmas about the value parsers: each reads whole tokens from the front and stops before `!`. -/
import Verif.Style.Spec
namespace Verif.Style

/-- What a parser reads does not depend on what follows, as long as that starts with a delimiter or is empty. -/
def Local {α : Type} (P : Parser α) : Prop := ∀ ts r rest, P ts = some (r, rest) → ∃ used, ts = used ++ rest ∧
  (∀ t ∈ used, ∀ c, t ≠ .delim c) ∧ used ≠ [] ∧ P used = some (r, []) ∧
  (∀ c rest', P (used ++ .delim c :: rest') = some (r, .delim c :: rest')) ∧ ∀ rest', P (used ++ rest') ≠ none

/-- Reads one token. -/
def atomic {α : Type} (f : Token → Option α) : Parser α
  | t :: rest => (f t).map (·, rest)
  | [] => none

/-- One token other than a delimiter decides. -/
def Atomic {α : Type} (P : Parser α) : Prop := ∃ f : Token → Option α, (∀ c, f (.delim c) = none) ∧ P = atomic f

theorem Atomic.local {α : Type} {P : Parser α} (h : Atomic P) : Local P := by
  obtain ⟨f, hf, rfl⟩ := h
  intro ts r rest h
  cases ts with
  | nil => simp [atomic] at h
  | cons t ts =>
    simp only [atomic, Option.map_eq_some_iff, Prod.mk.injEq] at h
    obtain ⟨a, ha, rfl, rfl⟩ := h
    refine ⟨[t], rfl, ?_, by simp, by simp [atomic, ha], by simp [atomic, ha], by simp [atomic, ha]⟩
    intro t' ht' c hc
    rw [List.mem_singleton.mp ht'] at hc
    rw [hc, hf] at ha
    cases ha

theorem atomic_keyword {α : Type} (l : List (String × α)) : Atomic (parseKeyword l) := by
  refine ⟨fun t => match t with | .ident s => l.lookup s | _ => none, fun c => rfl, ?_⟩
  funext ts
  match ts with
  | [] => rfl
  | .ident s :: rest =>
    simp only [parseKeyword, expectIdent, atomic]
    cases l.lookup s <;> rfl
  | .dimension _ _ :: _ | .number _ :: _ | .percentage _ :: _ | .delim _ :: _ | .other _ :: _ => rfl

theorem atomic_color (colors : Colors) : Atomic (Color.parse colors) := by
  refine ⟨fun t => match t with | .ident s => colors.keyword s | .other s => colors.other s | _ => none, fun c => rfl, ?_⟩
  funext ts
  match ts with
  | [] => rfl
  | .ident s :: rest => rfl
  | .other s :: rest => rfl
  | .dimension _ _ :: _ | .number _ :: _ | .percentage _ :: _ | .delim _ :: _ => rfl

theorem atomic_length : Atomic SpecifiedLength.parse := by
  refine ⟨fun t => match t with
    | .dimension v u => if asciiLower u = "px" then some (.absolute v) else if asciiLower u = "em" then some (.em v) else none
    | .number v => if v = 0 then some (.absolute 0) else none
    | _ => none, fun c => rfl, ?_⟩
  funext ts
  match ts with
  | [] => rfl
  | .dimension v u :: rest =>
    simp only [SpecifiedLength.parse, atomic]
    split
    · rfl
    · split <;> rfl
  | .number v :: rest => simp only [SpecifiedLength.parse, atomic]; split <;> rfl
  | .ident _ :: _ | .percentage _ :: _ | .delim _ :: _ | .other _ :: _ => rfl

theorem atomic_percentage : Atomic expectPercentage := by
  refine ⟨fun t => match t with | .percentage v => some v | _ => none, fun c => rfl, ?_⟩
  funext ts
  match ts with
  | [] => rfl
  | .percentage v :: rest => rfl
  | .ident _ :: _ | .dimension _ _ :: _ | .number _ :: _ | .delim _ :: _ | .other _ :: _ => rfl

theorem atomic_map {α β : Type} {P : Parser α} (h : Atomic P) (g : α → β) :
    Atomic (fun ts => match P ts with | some (a, rest) => some (g a, rest) | none => none) := by
  obtain ⟨f, hf, rfl⟩ := h
  refine ⟨fun t => (f t).map g, by simp [hf], ?_⟩
  funext ts
  cases ts with
  | nil => rfl
  | cons t ts => simp only [atomic]; cases f t <;> rfl

theorem atomic_or {α : Type} {P Q : Parser α} (hP : Atomic P) (hQ : Atomic Q) :
    Atomic (fun ts => match P ts with | some r => some r | none => Q ts) := by
  obtain ⟨f, hf, rfl⟩ := hP
  obtain ⟨g, hg, rfl⟩ := hQ
  refine ⟨fun t => match f t with | some a => some a | none => g t, by simp [hf, hg], ?_⟩
  funext ts
  cases ts with
  | nil => rfl
  | cons t ts => simp only [atomic]; cases f t <;> rfl

theorem atomic_lengthOrPercentage : Atomic SpecifiedLengthOrPercentage.parse := by
  have h := atomic_or (atomic_map atomic_length SpecifiedLengthOrPercentage.length)
    (atomic_map atomic_percentage SpecifiedLengthOrPercentage.percentage)
  convert h using 1
  funext ts
  unfold SpecifiedLengthOrPercentage.parse
  cases SpecifiedLength.parse ts with
  | some _ => rfl
  | none => cases expectPercentage ts <;> rfl

theorem atomic_lengthOrPercentageOrAuto : Atomic SpecifiedLengthOrPercentageOrAuto.parse := by
  have h := atomic_or (atomic_map atomic_length SpecifiedLengthOrPercentageOrAuto.length)
    (atomic_or (atomic_map atomic_percentage SpecifiedLengthOrPercentageOrAuto.percentage)
      (atomic_keyword [("auto", SpecifiedLengthOrPercentageOrAuto.auto)]))
  convert h using 1
  funext ts
  unfold SpecifiedLengthOrPercentageOrAuto.parse
  cases SpecifiedLength.parse ts with
  | some _ => rfl
  | none => cases expectPercentage ts <;> rfl

theorem atomic_lineWidth : Atomic parseLineWidth := by
  have h := atomic_or atomic_lengthOrPercentage (atomic_keyword [("thin", SpecifiedLengthOrPercentage.length (.absolute 1)),
    ("medium", .length (.absolute 3)), ("thick", .length (.absolute 5))])
  convert h using 1
  funext ts
  unfold parseLineWidth
  cases SpecifiedLengthOrPercentage.parse ts <;> rfl

theorem atomic_kind (colors : Colors) (k : Kind) : Atomic (parseKind colors k) := by
  cases k
  · exact atomic_length
  · exact atomic_color colors
  · exact atomic_keyword _
  · exact atomic_keyword _
  · exact atomic_keyword _
  · exact atomic_lengthOrPercentageOrAuto
  · exact atomic_lengthOrPercentage
  · exact atomic_color colors
  · exact atomic_keyword _
  · exact atomic_lineWidth

theorem local_fourSides {α : Type} {P : Parser α} (h : Atomic P) : Local (FourSides.parse P) := by
  obtain ⟨f, hf, rfl⟩ := h
  intro ts r rest h
  have key : ∀ t a, f t = some a → ∀ c, t ≠ .delim c := by
    intro t a ha c hc; rw [hc, hf] at ha; cases ha
  have some_ne : ∀ rest', (FourSides.parse (atomic f) (rest' : List Token)) = none ↔ atomic f rest' = none := by
    intro rest'
    unfold FourSides.parse
    cases atomic f rest' with
    | none => simp
    | some p =>
      obtain ⟨a, r1⟩ := p
      simp only [reduceCtorEq, iff_false]
      cases atomic f r1 with
      | none => simp
      | some p =>
        obtain ⟨b, r2⟩ := p
        dsimp only
        cases atomic f r2 with
        | none => simp
        | some p =>
          obtain ⟨c, r3⟩ := p
          dsimp only
          cases atomic f r3 <;> simp
  match ts with
  | [] => simp [FourSides.parse, atomic] at h
  | t1 :: ts =>
    cases h1 : f t1 with
    | none => simp [FourSides.parse, atomic, h1] at h
    | some a =>
      have stop1 : ∀ rest', FourSides.parse (atomic f) (t1 :: rest') ≠ none := by
        intro rest'; rw [Ne, some_ne]; simp [atomic, h1]
      match ts with
      | [] =>
        simp only [FourSides.parse, atomic, h1, Option.map_some, Option.some.injEq, Prod.mk.injEq] at h
        obtain ⟨rfl, rfl⟩ := h
        refine ⟨[t1], rfl, by simpa using key _ _ h1, by simp, by simp [FourSides.parse, atomic, h1],
          by simp [FourSides.parse, atomic, h1, hf], stop1⟩
      | t2 :: ts =>
        cases h2 : f t2 with
        | none =>
          simp only [FourSides.parse, atomic, h1, h2, Option.map_some, Option.map_none, Option.some.injEq, Prod.mk.injEq] at h
          obtain ⟨rfl, rfl⟩ := h
          refine ⟨[t1], rfl, by simpa using key _ _ h1, by simp, by simp [FourSides.parse, atomic, h1],
            by simp [FourSides.parse, atomic, h1, hf], stop1⟩
        | some b =>
          match ts with
          | [] =>
            simp only [FourSides.parse, atomic, h1, h2, Option.map_some, Option.some.injEq, Prod.mk.injEq] at h
            obtain ⟨rfl, rfl⟩ := h
            refine ⟨[t1, t2], rfl, by simpa using ⟨key _ _ h1, key _ _ h2⟩, by simp,
              by simp [FourSides.parse, atomic, h1, h2], by simp [FourSides.parse, atomic, h1, h2, hf], fun r => stop1 _⟩
          | t3 :: ts =>
            cases h3 : f t3 with
            | none =>
              simp only [FourSides.parse, atomic, h1, h2, h3, Option.map_some, Option.map_none, Option.some.injEq, Prod.mk.injEq] at h
              obtain ⟨rfl, rfl⟩ := h
              refine ⟨[t1, t2], rfl, by simpa using ⟨key _ _ h1, key _ _ h2⟩, by simp,
                by simp [FourSides.parse, atomic, h1, h2], by simp [FourSides.parse, atomic, h1, h2, hf], fun r => stop1 _⟩
            | some c =>
              match ts with
              | [] =>
                simp only [FourSides.parse, atomic, h1, h2, h3, Option.map_some, Option.some.injEq, Prod.mk.injEq] at h
                obtain ⟨rfl, rfl⟩ := h
                refine ⟨[t1, t2, t3], rfl, by simpa using ⟨key _ _ h1, key _ _ h2, key _ _ h3⟩, by simp,
                  by simp [FourSides.parse, atomic, h1, h2, h3], by simp [FourSides.parse, atomic, h1, h2, h3, hf], fun r => stop1 _⟩
              | t4 :: ts =>
                cases h4 : f t4 with
                | none =>
                  simp only [FourSides.parse, atomic, h1, h2, h3, h4, Option.map_some, Option.map_none, Option.some.injEq, Prod.mk.injEq] at h
                  obtain ⟨rfl, rfl⟩ := h
                  refine ⟨[t1, t2, t3], rfl, by simpa using ⟨key _ _ h1, key _ _ h2, key _ _ h3⟩, by simp,
                    by simp [FourSides.parse, atomic, h1, h2, h3], by simp [FourSides.parse, atomic, h1, h2, h3, hf], fun r => stop1 _⟩
                | some d =>
                  simp only [FourSides.parse, atomic, h1, h2, h3, h4, Option.map_some, Option.some.injEq, Prod.mk.injEq] at h
                  obtain ⟨rfl, rfl⟩ := h
                  refine ⟨[t1, t2, t3, t4], rfl, by simpa using ⟨key _ _ h1, key _ _ h2, key _ _ h3, key _ _ h4⟩, by simp,
                    by simp [FourSides.parse, atomic, h1, h2, h3, h4], by simp [FourSides.parse, atomic, h1, h2, h3, h4], fun r => stop1 _⟩

/-- Some field is set. -/
def BorderSide.Any (v : BorderSide) : Prop := v.style.isSome ∨ v.color.isSome ∨ v.width.isSome

theorem step_atomic (colors : Colors) (v : BorderSide) : ∃ f : Token → Option BorderSide, (∀ c, f (.delim c) = none) ∧
    (∀ t v', f t = some v' → v'.Any) ∧ BorderSide.step colors v = atomic f := by
  obtain ⟨fs, hfs, es⟩ := atomic_keyword [("none", LineStyle.none), ("solid", LineStyle.solid)]
  obtain ⟨fc, hfc, ec⟩ := atomic_color colors
  obtain ⟨fw, hfw, ew⟩ := atomic_lineWidth
  let tw : Token → Option BorderSide := fun t => match v.width with
    | some _ => none
    | none => (fw t).map (fun w => { v with width := some w })
  let tc : Token → Option BorderSide := fun t => match v.color with
    | some _ => tw t
    | none => match fc t with
      | some c => some { v with color := some c }
      | none => tw t
  let tt : Token → Option BorderSide := fun t => match v.style with
    | some _ => tc t
    | none => match fs t with
      | some s => some { v with style := some s }
      | none => tc t
  have aw : ∀ t v', tw t = some v' → v'.Any := by
    intro t v' h
    simp only [tw] at h
    split at h
    · cases h
    · obtain ⟨w, _, rfl⟩ := Option.map_eq_some_iff.mp h
      simp [BorderSide.Any]
  have ac : ∀ t v', tc t = some v' → v'.Any := by
    intro t v' h
    simp only [tc] at h
    split at h
    · exact aw t v' h
    · split at h
      · cases h; simp [BorderSide.Any]
      · exact aw t v' h
  refine ⟨tt, ?_, ?_, ?_⟩
  · intro c
    simp only [tt, tc, tw, hfs, hfc, hfw]
    cases v.style <;> cases v.color <;> cases v.width <;> rfl
  · intro t v' h
    simp only [tt] at h
    split at h
    · exact ac t v' h
    · split at h
      · cases h; simp [BorderSide.Any]
      · exact ac t v' h
  · funext ts
    unfold BorderSide.step
    rw [show LineStyle.parse = atomic fs from es, ec, ew]
    cases ts with
    | nil => simp only [atomic]; cases v.style <;> cases v.color <;> cases v.width <;> rfl
    | cons t ts =>
      simp only [atomic, tt, tc, tw]
      cases v.style <;> cases v.color <;> cases v.width <;> cases fs t <;> cases fc t <;> cases fw t <;> rfl

theorem step_any (colors : Colors) (v : BorderSide) (ts : List Token) (v' : BorderSide) (rest : List Token)
    (h : BorderSide.step colors v ts = some (v', rest)) : v'.Any := by
  obtain ⟨f, _, ha, he⟩ := step_atomic colors v
  rw [he] at h
  cases ts with
  | nil => simp [atomic] at h
  | cons t ts =>
    simp only [atomic, Option.map_eq_some_iff, Prod.mk.injEq] at h
    obtain ⟨a, h1, rfl, _⟩ := h
    exact ha _ _ h1

theorem loop_any (colors : Colors) : ∀ n (v : BorderSide) ts, v.Any → (BorderSide.loop colors n v ts).1.Any
  | 0, v, ts, h => h
  | n + 1, v, ts, h => by
    unfold BorderSide.loop
    cases hs : BorderSide.step colors v ts with
    | none => exact h
    | some p => exact loop_any colors n p.1 p.2 (step_any colors v ts p.1 p.2 hs)

theorem loop_local (colors : Colors) : ∀ n (v : BorderSide) ts v' rest, BorderSide.loop colors n v ts = (v', rest) →
    ∃ used, ts = used ++ rest ∧ (∀ t ∈ used, ∀ c, t ≠ .delim c) ∧ BorderSide.loop colors n v used = (v', []) ∧
      ∀ c rest', BorderSide.loop colors n v (used ++ .delim c :: rest') = (v', .delim c :: rest')
  | 0, v, ts, v', rest, h => by
    simp only [BorderSide.loop, Prod.mk.injEq] at h
    obtain ⟨rfl, rfl⟩ := h
    exact ⟨[], rfl, by simp, rfl, fun _ _ => rfl⟩
  | n + 1, v, ts, v', rest, h => by
    obtain ⟨f, hf, _, he⟩ := step_atomic colors v
    have stop : v = v' → ts = rest → ∃ used, ts = used ++ rest ∧ (∀ t ∈ used, ∀ c, t ≠ .delim c) ∧
        BorderSide.loop colors (n + 1) v used = (v', []) ∧
        ∀ c rest', BorderSide.loop colors (n + 1) v (used ++ .delim c :: rest') = (v', .delim c :: rest') := by
      rintro rfl rfl
      refine ⟨[], rfl, by simp, ?_, ?_⟩
      · simp [BorderSide.loop, he, atomic]
      · intro c rest'; simp [BorderSide.loop, he, atomic, hf]
    unfold BorderSide.loop at h
    rw [he] at h
    cases ts with
    | nil =>
      simp only [atomic, Prod.mk.injEq] at h
      exact stop h.1 h.2
    | cons t ts =>
      simp only [atomic] at h
      cases ht : f t with
      | none =>
        rw [ht] at h
        simp only [Option.map_none, Prod.mk.injEq] at h
        exact stop h.1 h.2
      | some w =>
        rw [ht] at h
        simp only [Option.map_some] at h
        obtain ⟨used, h1, h2, h3, h4⟩ := loop_local colors n w ts v' rest h
        refine ⟨t :: used, by rw [h1]; rfl, ?_, ?_, ?_⟩
        · intro t' ht' c
          rcases List.mem_cons.mp ht' with rfl | h'
          · intro hc; rw [hc, hf] at ht; cases ht
          · exact h2 t' h' c
        · simp only [BorderSide.loop, he, atomic, ht, Option.map_some]; exact h3
        · intro c rest'
          simp only [BorderSide.loop, he, List.cons_append, atomic, ht, Option.map_some]; exact h4 c rest'

theorem local_borderSide (colors : Colors) : Local (BorderSide.parse colors) := by
  intro ts r rest h
  unfold BorderSide.parse at h
  rcases hl : BorderSide.loop colors 3 {} ts with ⟨v', rest'⟩
  rw [hl] at h
  dsimp only at h
  split at h
  case isFalse => cases h
  rename_i hany
  simp only [Option.some.injEq, Prod.mk.injEq] at h
  obtain ⟨rfl, rfl⟩ := h
  obtain ⟨used, h1, h2, h3, h4⟩ := loop_local colors 3 {} ts v' rest' hl
  have hne : used ≠ [] := by
    rintro rfl
    obtain ⟨f, _, _, he⟩ := step_atomic colors ({} : BorderSide)
    simp only [BorderSide.loop, he, atomic, Prod.mk.injEq, and_true] at h3
    subst h3
    simp at hany
  refine ⟨used, h1, h2, hne, by simp [BorderSide.parse, h3, hany], fun c r => by simp [BorderSide.parse, h4, hany], ?_⟩
  intro rest''
  match used, hne with
  | t :: used, _ =>
    obtain ⟨f, hf, ha, he⟩ := step_atomic colors ({} : BorderSide)
    cases ht : f t with
    | none =>
      simp only [BorderSide.loop, he, atomic, ht, Option.map_none, Prod.mk.injEq] at h3
      cases h3.2
    | some w =>
      have : (BorderSide.loop colors 3 {} (t :: used ++ rest'')).1.Any := by
        simp only [BorderSide.loop.eq_2, he, List.cons_append, atomic, ht, Option.map_some]
        exact loop_any colors 2 w _ (ha _ _ ht)
      unfold BorderSide.parse
      dsimp only
      split
      · simp
      · exact absurd this ‹_›

theorem Local.map {α β : Type} {P : Parser α} {Q : Parser β} (h : Local P) (g : α → β)
    (hQ : ∀ ts, Q ts = (P ts).map (fun r => (g r.1, r.2))) : Local Q := by
  intro ts r rest hr
  rw [hQ, Option.map_eq_some_iff] at hr
  obtain ⟨⟨a, rest1⟩, hP, hr⟩ := hr
  simp only [Prod.mk.injEq] at hr
  obtain ⟨rfl, rfl⟩ := hr
  obtain ⟨used, h1, h2, h3, h4, h5, h6⟩ := h ts a rest1 hP
  refine ⟨used, h1, h2, h3, by simp [hQ, h4], fun c r => by simp [hQ, h5], fun r => ?_⟩
  rw [hQ, Ne, Option.map_eq_none_iff]
  exact h6 r

theorem local_longhandData (colors : Colors) (p : Longhand) : Local (longhandData colors p).parse :=
  (atomic_kind colors p.kind).local.map (fun v => ([Declaration.value p v], (⟨p.isEarly, !p.isEarly⟩ : PerPhase))) (by
    intro ts; simp only [longhandData]; cases parseKind colors p.kind ts <;> rfl)

theorem local_shorthandData {ls : List Longhand} {P : Parser (List Declaration)} (h : Local P) :
    Local (shorthandData ls P).parse :=
  h.map (fun ds => (ds, (⟨ls.any Longhand.isEarly, ls.any (!·.isEarly)⟩ : PerPhase))) (by
    intro ts; simp only [shorthandData]; cases P ts <;> rfl)

/-- The longhands a property parses to, and the phases it reports. -/
def Faithful (data : PropertyData) : Prop := data.longhands ≠ [] ∧ ∀ ts ds phase rest, data.parse ts = some ((ds, phase), rest) →
  ds.map Declaration.longhand = data.longhands ∧
    phase = ⟨data.longhands.any Longhand.isEarly, data.longhands.any (!·.isEarly)⟩

theorem faithful_longhandData (colors : Colors) (p : Longhand) : Faithful (longhandData colors p) := by
  refine ⟨by simp [longhandData], ?_⟩
  intro ts ds phase rest h
  simp only [longhandData] at h
  split at h
  · cases h
  · simp only [Option.some.injEq, Prod.mk.injEq] at h
    obtain ⟨⟨rfl, rfl⟩, _⟩ := h
    simp [longhandData, Declaration.longhand]

theorem faithful_shorthandData {ls : List Longhand} {P : Parser (List Declaration)} (hne : ls ≠ [])
    (h : ∀ ts ds rest, P ts = some (ds, rest) → ds.map Declaration.longhand = ls) : Faithful (shorthandData ls P) := by
  refine ⟨hne, ?_⟩
  intro ts ds phase rest h'
  simp only [shorthandData] at h'
  split at h'
  · cases h'
  · rename_i ds' rest' hP
    simp only [Option.some.injEq, Prod.mk.injEq] at h'
    obtain ⟨⟨rfl, rfl⟩, _⟩ := h'
    exact ⟨h _ _ _ hP, rfl⟩

theorem good_fourSides (t l b r : Longhand) {α : Type} {p : Parser α} (hp : Atomic p) (ht : α → t.kind.Specified)
    (hl : α → l.kind.Specified) (hb : α → b.kind.Specified) (hr : α → r.kind.Specified) :
    Local (fourSidesData t l b r p ht hl hb hr).parse ∧ Faithful (fourSidesData t l b r p ht hl hb hr) := by
  constructor
  · refine local_shorthandData ((local_fourSides hp).map (fun s => [.value t (ht s.top), .value l (hl s.left),
      .value b (hb s.bottom), .value r (hr s.right)]) ?_)
    intro ts; cases FourSides.parse p ts <;> rfl
  · refine faithful_shorthandData (by simp) ?_
    intro ts ds rest h
    split at h
    · cases h
    · simp only [Option.some.injEq, Prod.mk.injEq] at h
      obtain ⟨rfl, _⟩ := h
      rfl

theorem longhand_valueOrInitial (p : Longhand) (o : Option p.kind.Specified) : (valueOrInitial p o).longhand = p := by
  cases o <;> rfl

theorem good_table (colors : Colors) : ∀ e ∈ propertyTable colors, Local e.2.parse ∧ Faithful e.2 := by
  have hl : ∀ p, Local (longhandData colors p).parse ∧ Faithful (longhandData colors p) :=
    fun p => ⟨local_longhandData colors p, faithful_longhandData colors p⟩
  intro e he
  simp only [propertyTable, List.mem_cons, List.not_mem_nil, or_false] at he
  iterate 32 (rcases he with rfl | he; exact hl _)
  rcases he with rfl | rfl | rfl | rfl | rfl | rfl | rfl
  · exact good_fourSides _ _ _ _ atomic_lengthOrPercentageOrAuto _ _ _ _
  · exact good_fourSides _ _ _ _ atomic_lengthOrPercentage _ _ _ _
  · exact good_fourSides _ _ _ _ (atomic_keyword _) _ _ _ _
  · exact good_fourSides _ _ _ _ (atomic_color colors) _ _ _ _
  · exact good_fourSides _ _ _ _ atomic_lineWidth _ _ _ _
  · refine ⟨local_shorthandData ((local_borderSide colors).map (fun s => [valueOrInitial .borderTopStyle s.style,
      valueOrInitial .borderTopColor s.color, valueOrInitial .borderTopWidth s.width]) (by
      intro ts; cases BorderSide.parse colors ts <;> rfl)), faithful_shorthandData (by simp) ?_⟩
    intro ts ds rest h
    split at h
    · cases h
    · simp only [Option.some.injEq, Prod.mk.injEq] at h
      obtain ⟨rfl, _⟩ := h
      exact congrArg₂ List.cons (longhand_valueOrInitial .borderTopStyle _) (congrArg₂ List.cons
        (longhand_valueOrInitial .borderTopColor _) (congrArg₂ List.cons (longhand_valueOrInitial .borderTopWidth _) rfl))
  · refine ⟨local_shorthandData ((atomic_color colors).local.map (fun c => [valueOrInitial .backgroundColor (some c)]) (by
      intro ts; cases Color.parse colors ts <;> rfl)), faithful_shorthandData (by simp) ?_⟩
    intro ts ds rest h
    split at h
    · cases h
    · simp only [Option.some.injEq, Prod.mk.injEq] at h
      obtain ⟨rfl, _⟩ := h
      rfl

theorem mem_of_lookup {α β : Type} [BEq α] {l : List (α × β)} {a : α} {b : β} (h : l.lookup a = some b) :
    ∃ a', (a', b) ∈ l := by
  induction l with
  | nil => cases h
  | cons e l ih =>
    obtain ⟨k, v⟩ := e
    rw [List.lookup_cons] at h
    split at h
    · cases h; exact ⟨k, List.mem_cons_self ..⟩
    · obtain ⟨a', h'⟩ := ih h; exact ⟨a', List.mem_cons_of_mem _ h'⟩

theorem good_data (colors : Colors) (name : String) (data : PropertyData) (h : propertyDataByName colors name = some data) :
    Local data.parse ∧ Faithful data := by
  obtain ⟨a, ha⟩ := mem_of_lookup h
  exact good_table colors _ ha

end Verif.Style
