/- Lemmas about the `border-top` shorthand. -/
import Verif.Style.BlockLemmas
namespace Verif.Style
open Spec

section
variable (fs : Token → Option LineStyle) (fc : Token → Option Color) (fw : Token → Option SpecifiedLengthOrPercentage)

/-- Each token fills a field that is not filled. -/
inductive Fill : BorderSide → List Token → BorderSide → Prop
  | nil (v) : Fill v [] v
  | style (v t ts v' s) : fs t = some s → v.style = none → Fill { v with style := some s } ts v' → Fill v (t :: ts) v'
  | color (v t ts v' c) : fc t = some c → v.color = none → Fill { v with color := some c } ts v' → Fill v (t :: ts) v'
  | width (v t ts v' w) : fw t = some w → v.width = none → Fill { v with width := some w } ts v' → Fill v (t :: ts) v'

/-- The readers accept different tokens. -/
structure Disjoint : Prop where
  sc : ∀ t s, fs t = some s → fc t = none
  sw : ∀ t s, fs t = some s → fw t = none
  cw : ∀ t c, fc t = some c → fw t = none

/-- What the list of tokens may hold when some fields are filled, and the fields at the end. -/
structure Filled (v : BorderSide) (ts : List Token) (v' : BorderSide) : Prop where
  all : ∀ t ∈ ts, (fs t).isSome ∨ (fc t).isSome ∨ (fw t).isSome
  s : ts.Pairwise (fun a b => ¬ ((fs a).isSome ∧ (fs b).isSome))
  c : ts.Pairwise (fun a b => ¬ ((fc a).isSome ∧ (fc b).isSome))
  w : ts.Pairwise (fun a b => ¬ ((fw a).isSome ∧ (fw b).isSome))
  s' : v.style.isSome → ∀ t ∈ ts, fs t = none
  c' : v.color.isSome → ∀ t ∈ ts, fc t = none
  w' : v.width.isSome → ∀ t ∈ ts, fw t = none
  es : v'.style = v.style.or (ts.findSome? fs)
  ec : v'.color = v.color.or (ts.findSome? fc)
  ew : v'.width = v.width.or (ts.findSome? fw)

variable {fs fc fw}

theorem fill_iff (d : Disjoint fs fc fw) : ∀ (ts : List Token) (v v' : BorderSide),
    Fill fs fc fw v ts v' ↔ Filled fs fc fw v ts v'
  | [], v, v' => by
    constructor
    · rintro ⟨⟩
      refine ⟨by simp, .nil, .nil, .nil, by simp, by simp, by simp, by simp, by simp, by simp⟩
    · intro h
      have h1 := h.es; have h2 := h.ec; have h3 := h.ew
      simp only [List.findSome?_nil, Option.or_none] at h1 h2 h3
      have : v' = v := by cases v; cases v'; simp_all
      subst this
      exact .nil _
  | t :: ts, v, v' => by
    constructor
    · intro h
      cases h with
      | style _ _ _ _ s ht hv h =>
        have ih := (fill_iff d ts _ _).mp h
        have h1 := d.sc t s ht; have h2 := d.sw t s ht
        have ns : ∀ t ∈ ts, fs t = none := ih.s' rfl
        refine ⟨?_, ?_, ?_, ?_, by simp [hv], ?_, ?_, ?_, ?_, ?_⟩
        · intro x hx; rcases List.mem_cons.mp hx with rfl | hx; simp [ht]; exact ih.all x hx
        · exact .cons (by intro x hx; simp [ns x hx]) ih.s
        · exact .cons (by intro x hx; simp [h1]) ih.c
        · exact .cons (by intro x hx; simp [h2]) ih.w
        · intro hc x hx; rcases List.mem_cons.mp hx with rfl | hx; exact h1; exact ih.c' hc x hx
        · intro hc x hx; rcases List.mem_cons.mp hx with rfl | hx; exact h2; exact ih.w' hc x hx
        · rw [ih.es]; simp [hv, ht]
        · rw [ih.ec]; simp [h1]
        · rw [ih.ew]; simp [h2]
      | color _ _ _ _ s ht hv h =>
        have ih := (fill_iff d ts _ _).mp h
        have h2 := d.cw t s ht
        have h1 : fs t = none := by
          cases hs : fs t with
          | none => rfl
          | some x => rw [d.sc t x hs] at ht; cases ht
        have ns : ∀ t ∈ ts, fc t = none := ih.c' rfl
        refine ⟨?_, ?_, ?_, ?_, ?_, by simp [hv], ?_, ?_, ?_, ?_⟩
        · intro x hx; rcases List.mem_cons.mp hx with rfl | hx; simp [ht]; exact ih.all x hx
        · exact .cons (by intro x hx; simp [h1]) ih.s
        · exact .cons (by intro x hx; simp [ns x hx]) ih.c
        · exact .cons (by intro x hx; simp [h2]) ih.w
        · intro hc x hx; rcases List.mem_cons.mp hx with rfl | hx; exact h1; exact ih.s' hc x hx
        · intro hc x hx; rcases List.mem_cons.mp hx with rfl | hx; exact h2; exact ih.w' hc x hx
        · rw [ih.es]; simp [h1]
        · rw [ih.ec]; simp [hv, ht]
        · rw [ih.ew]; simp [h2]
      | width _ _ _ _ s ht hv h =>
        have ih := (fill_iff d ts _ _).mp h
        have h1 : fs t = none := by
          cases hs : fs t with
          | none => rfl
          | some x => rw [d.sw t x hs] at ht; cases ht
        have h2 : fc t = none := by
          cases hs : fc t with
          | none => rfl
          | some x => rw [d.cw t x hs] at ht; cases ht
        have ns : ∀ t ∈ ts, fw t = none := ih.w' rfl
        refine ⟨?_, ?_, ?_, ?_, ?_, ?_, by simp [hv], ?_, ?_, ?_⟩
        · intro x hx; rcases List.mem_cons.mp hx with rfl | hx; simp [ht]; exact ih.all x hx
        · exact .cons (by intro x hx; simp [h1]) ih.s
        · exact .cons (by intro x hx; simp [h2]) ih.c
        · exact .cons (by intro x hx; simp [ns x hx]) ih.w
        · intro hc x hx; rcases List.mem_cons.mp hx with rfl | hx; exact h1; exact ih.s' hc x hx
        · intro hc x hx; rcases List.mem_cons.mp hx with rfl | hx; exact h2; exact ih.c' hc x hx
        · rw [ih.es]; simp [h1]
        · rw [ih.ec]; simp [h2]
        · rw [ih.ew]; simp [hv, ht]
    · intro h
      have hs := List.pairwise_cons.mp h.s
      have hc := List.pairwise_cons.mp h.c
      have hw := List.pairwise_cons.mp h.w
      cases ht : fs t with
      | some s =>
        have h1 := d.sc t s ht; have h2 := d.sw t s ht
        have hv : v.style = none := by
          cases hv : v.style with
          | none => rfl
          | some x => rw [h.s' (by simp [hv]) t (by simp)] at ht; cases ht
        refine .style _ _ _ _ s ht hv ((fill_iff d ts _ _).mpr ?_)
        refine ⟨fun x hx => h.all x (by simp [hx]), hs.2, hc.2, hw.2, ?_, fun h' x hx => h.c' h' x (by simp [hx]),
          fun h' x hx => h.w' h' x (by simp [hx]), ?_, ?_, ?_⟩
        · intro _ x hx
          have := hs.1 x hx
          simpa [ht] using this
        · rw [h.es]; simp [hv, ht]
        · rw [h.ec]; simp [h1]
        · rw [h.ew]; simp [h2]
      | none =>
        cases ht2 : fc t with
        | some c =>
          have h2 := d.cw t c ht2
          have hv : v.color = none := by
            cases hv : v.color with
            | none => rfl
            | some x => rw [h.c' (by simp [hv]) t (by simp)] at ht2; cases ht2
          refine .color _ _ _ _ c ht2 hv ((fill_iff d ts _ _).mpr ?_)
          refine ⟨fun x hx => h.all x (by simp [hx]), hs.2, hc.2, hw.2, fun h' x hx => h.s' h' x (by simp [hx]), ?_,
            fun h' x hx => h.w' h' x (by simp [hx]), ?_, ?_, ?_⟩
          · intro _ x hx
            have := hc.1 x hx
            simpa [ht2] using this
          · rw [h.es]; simp [ht]
          · rw [h.ec]; simp [hv, ht2]
          · rw [h.ew]; simp [h2]
        | none =>
          obtain ⟨w, ht3⟩ : ∃ w, fw t = some w := by
            have := h.all t (by simp)
            simp only [ht, ht2, Option.isSome_none, Bool.false_eq_true, false_or] at this
            exact Option.isSome_iff_exists.mp this
          have hv : v.width = none := by
            cases hv : v.width with
            | none => rfl
            | some x => rw [h.w' (by simp [hv]) t (by simp)] at ht3; cases ht3
          refine .width _ _ _ _ w ht3 hv ((fill_iff d ts _ _).mpr ?_)
          refine ⟨fun x hx => h.all x (by simp [hx]), hs.2, hc.2, hw.2, fun h' x hx => h.s' h' x (by simp [hx]),
            fun h' x hx => h.c' h' x (by simp [hx]), ?_, ?_, ?_, ?_⟩
          · intro _ x hx
            have := hw.1 x hx
            simpa [ht3] using this
          · rw [h.es]; simp [ht]
          · rw [h.ec]; simp [ht2]
          · rw [h.ew]; simp [hv, ht3]

/-- The number of fields that are not filled. -/
def BorderSide.open (v : BorderSide) : Nat :=
  (if v.style.isNone then 1 else 0) + (if v.color.isNone then 1 else 0) + (if v.width.isNone then 1 else 0)

theorem loop_fill (d : Disjoint fs fc fw) {colors : Colors} (es : LineStyle.parse = atomic fs) (ec : Color.parse colors = atomic fc)
    (ew : parseLineWidth = atomic fw) : ∀ (n : Nat) (v : BorderSide) (ts : List Token) (v' : BorderSide), v.open ≤ n →
    (BorderSide.loop colors n v ts = (v', []) ↔ Fill fs fc fw v ts v')
  | 0, v, ts, v', h => by
    simp only [BorderSide.loop, Prod.mk.injEq]
    constructor
    · rintro ⟨rfl, rfl⟩; exact .nil _
    · intro hf
      unfold BorderSide.open at h
      cases hf with
      | nil => exact ⟨rfl, rfl⟩
      | style _ _ _ _ _ _ hv => simp [hv] at h
      | color _ _ _ _ _ _ hv => simp [hv] at h
      | width _ _ _ _ _ _ hv => simp [hv] at h
  | n + 1, v, [], v', h => by
    have : BorderSide.loop colors (n + 1) v [] = (v, []) := by
      simp only [BorderSide.loop, BorderSide.step, es, ec, ew, atomic]
      cases v.style <;> cases v.color <;> cases v.width <;> rfl
    rw [this]
    constructor
    · intro h; cases h; exact .nil _
    · intro h; cases h; rfl
  | n + 1, v, t :: ts, v', h => by
    have stop : BorderSide.step colors v (t :: ts) = none → (¬ ∃ s, fs t = some s ∧ v.style = none) →
        (¬ ∃ s, fc t = some s ∧ v.color = none) → (¬ ∃ s, fw t = some s ∧ v.width = none) →
        (BorderSide.loop colors (n + 1) v (t :: ts) = (v', []) ↔ Fill fs fc fw v (t :: ts) v') := by
      intro h0 h1 h2 h3
      rw [BorderSide.loop, h0]
      constructor
      · intro h; simp at h
      · intro h
        cases h with
        | style _ _ _ _ s ht hv => exact absurd ⟨s, ht, hv⟩ h1
        | color _ _ _ _ s ht hv => exact absurd ⟨s, ht, hv⟩ h2
        | width _ _ _ _ s ht hv => exact absurd ⟨s, ht, hv⟩ h3
    have go : ∀ w, BorderSide.step colors v (t :: ts) = some (w, ts) → w.open ≤ n →
        (Fill fs fc fw v (t :: ts) v' ↔ Fill fs fc fw w ts v') →
        (BorderSide.loop colors (n + 1) v (t :: ts) = (v', []) ↔ Fill fs fc fw v (t :: ts) v') := by
      intro w h0 h1 h2
      rw [h2, ← loop_fill d es ec ew n w ts v' h1, BorderSide.loop, h0]
    cases hs : fs t with
    | some s =>
      have h1 := d.sc t s hs; have h2 := d.sw t s hs
      cases hv : v.style with
      | some x =>
        apply stop
        · simp only [BorderSide.step, es, ec, ew, atomic, hs, h1, h2, hv]
          cases v.color <;> cases v.width <;> rfl
        · simp [hv]
        · simp [h1]
        · simp [h2]
      | none =>
        apply go { v with style := some s }
        · simp [BorderSide.step, es, atomic, hs, hv]
        · unfold BorderSide.open at h ⊢
          simp [hv] at h ⊢
          omega
        · constructor
          · intro h
            cases h with
            | style _ _ _ _ s' ht _ h => rw [hs] at ht; cases ht; exact h
            | color _ _ _ _ s' ht _ h => rw [h1] at ht; cases ht
            | width _ _ _ _ s' ht _ h => rw [h2] at ht; cases ht
          · exact .style _ _ _ _ s hs hv
    | none =>
      cases hc : fc t with
      | some c =>
        have h2 := d.cw t c hc
        cases hv : v.color with
        | some x =>
          apply stop
          · simp only [BorderSide.step, es, ec, ew, atomic, hs, hc, h2, hv]
            cases v.style <;> cases v.width <;> rfl
          · simp [hs]
          · simp [hv]
          · simp [h2]
        | none =>
          apply go { v with color := some c }
          · simp only [BorderSide.step, es, ec, atomic, hs, hc, hv]
            cases v.style <;> rfl
          · unfold BorderSide.open at h ⊢
            simp [hv] at h ⊢
            omega
          · constructor
            · intro h
              cases h with
              | style _ _ _ _ s' ht _ h => rw [hs] at ht; cases ht
              | color _ _ _ _ s' ht _ h => rw [hc] at ht; cases ht; exact h
              | width _ _ _ _ s' ht _ h => rw [h2] at ht; cases ht
            · exact .color _ _ _ _ c hc hv
      | none =>
        cases hw : fw t with
        | some w =>
          cases hv : v.width with
          | some x =>
            apply stop
            · simp only [BorderSide.step, es, ec, ew, atomic, hs, hc, hv]
              cases v.style <;> cases v.color <;> rfl
            · simp [hs]
            · simp [hc]
            · simp [hv]
          | none =>
            apply go { v with width := some w }
            · simp only [BorderSide.step, es, ec, ew, atomic, hs, hc, hw, hv]
              cases v.style <;> cases v.color <;> rfl
            · unfold BorderSide.open at h ⊢
              simp [hv] at h ⊢
              omega
            · constructor
              · intro h
                cases h with
                | style _ _ _ _ s' ht _ h => rw [hs] at ht; cases ht
                | color _ _ _ _ s' ht _ h => rw [hc] at ht; cases ht
                | width _ _ _ _ s' ht _ h => rw [hw] at ht; cases ht; exact h
              · exact .width _ _ _ _ w hw hv
        | none =>
          apply stop
          · simp only [BorderSide.step, es, ec, ew, atomic, hs, hc, hw]
            cases v.style <;> cases v.color <;> cases v.width <;> rfl
          · simp [hs]
          · simp [hc]
          · simp [hw]

end

theorem disjoint_readers {fs : Token → Option LineStyle} {fc : Token → Option Color} {fw : Token → Option SpecifiedLengthOrPercentage}
    {colors : Colors} (es : LineStyle.parse = atomic fs) (ec : Color.parse colors = atomic fc) (ew : parseLineWidth = atomic fw)
    (hc : ∀ s, s = "none" ∨ s = "solid" ∨ s = "thin" ∨ s = "medium" ∨ s = "thick" → colors.keyword s = none) :
    Disjoint fs fc fw := by
  have one : ∀ {α : Type} (f : Token → Option α) (P : Parser α), P = atomic f → ∀ t, P [t] = (f t).map (·, []) := by
    rintro α f P rfl t; rfl
  have style : ∀ t s, fs t = some s → t = .ident "none" ∨ t = .ident "solid" := by
    intro t s h
    have h' := one fs _ es t
    rw [h] at h'
    cases t with
    | ident x =>
      simp only [LineStyle.parse, parseKeyword, expectIdent, List.lookup, Option.map_some] at h'
      by_cases h1 : x = "none"
      · left; rw [h1]
      · by_cases h2 : x = "solid"
        · right; rw [h2]
        · simp [beq_false_of_ne h1, beq_false_of_ne h2] at h'
    | dimension _ _ | number _ | percentage _ | delim _ | other _ => simp [LineStyle.parse, parseKeyword, expectIdent] at h'
  have color0 : ∀ s, s = "none" ∨ s = "solid" → fc (.ident s) = none := by
    intro s hs
    have h' := one fc _ ec (.ident s)
    rw [show Color.parse colors [.ident s] = (colors.keyword s).map (·, []) from rfl, hc s (by grind)] at h'
    simpa using h'.symm
  have width0 : ∀ s, s = "none" ∨ s = "solid" → fw (.ident s) = none := by
    intro s hs
    have h' := one fw _ ew (.ident s)
    have : parseLineWidth [.ident s] = none := by rcases hs with rfl | rfl <;> rfl
    rw [this] at h'
    simpa using h'.symm
  refine ⟨?_, ?_, ?_⟩
  · intro t s h
    rcases style t s h with rfl | rfl
    · exact color0 _ (.inl rfl)
    · exact color0 _ (.inr rfl)
  · intro t s h
    rcases style t s h with rfl | rfl
    · exact width0 _ (.inl rfl)
    · exact width0 _ (.inr rfl)
  · intro t c h
    have h1 := one fc _ ec t
    rw [h] at h1
    have h2 := one fw _ ew t
    have h3 : parseLineWidth [t] = none := by
      cases t with
      | ident x =>
        rw [show Color.parse colors [.ident x] = (colors.keyword x).map (·, []) from rfl] at h1
        simp only [parseLineWidth, SpecifiedLengthOrPercentage.parse, SpecifiedLength.parse, expectPercentage, parseKeyword,
          expectIdent, List.lookup]
        by_cases e1 : x = "thin"
        · rw [hc x (by grind)] at h1; simp at h1
        · by_cases e2 : x = "medium"
          · rw [hc x (by grind)] at h1; simp at h1
          · by_cases e3 : x = "thick"
            · rw [hc x (by grind)] at h1; simp at h1
            · simp [beq_false_of_ne e1, beq_false_of_ne e2, beq_false_of_ne e3]
      | other x => rfl
      | dimension _ _ | number _ | percentage _ | delim _ => simp [Color.parse] at h1
    rw [h3] at h2
    simpa using h2.symm

end Verif.Style
