/- C76: how elements are displayed by default. -/
import Verif.Style.UserAgent
import Verif.Style.CascadeTheorems
import Verif.Style.Selectors
namespace Verif.Style
open Verif.Dom Spec

/-! ### What HTML says -/

/-- Elements that are not displayed. -/
def Spec.hiddenElements : List String := ["area", "base", "basefont", "datalist", "head", "link", "meta", "noembed", "noframes", "param",
  "rp", "script", "source", "style", "template", "track", "title"]

/-- Elements that are blocks: the root and the body, and flow content. -/
def Spec.blockElements : List String := ["html", "body", "address", "blockquote", "center", "dialog", "div", "figure", "figcaption",
  "footer", "form", "header", "hr", "legend", "listing", "main", "p", "plaintext", "pre", "xmp"]

/-- The element has the attribute, with a value as described. -/
def Spec.HasAttr (e : ElementData) (name : String) (value : String → Prop) : Prop :=
  ∃ a ∈ e.attrs, a.name.ns = "" ∧ a.name.loc = name ∧ value a.value

/-- An `input` element of type hidden. -/
def Spec.HiddenInput (e : ElementData) : Prop :=
  e.name.loc = "input" ∧ HasAttr e "type" fun v => Document.eqIgnoreAsciiCase v "hidden" = true

/-- How an element is displayed by default. -/
inductive Spec.DefaultDisplay (e : ElementData) : Display → Prop
  | input : HiddenInput e → DefaultDisplay e .none
  | hidden : HasAttr e "hidden" (fun _ => True) → e.name.loc ≠ "embed" → DefaultDisplay e .none
  | embed : HasAttr e "hidden" (fun _ => True) → e.name.loc = "embed" → DefaultDisplay e (.generatingBox .inline .flow)
  | hiddenElement : e.name.loc ∈ hiddenElements → DefaultDisplay e .none
  | block : ¬ HasAttr e "hidden" (fun _ => True) → e.name.loc ∈ blockElements → DefaultDisplay e (.generatingBox .block .flow)
  | other : ¬ HiddenInput e → ¬ HasAttr e "hidden" (fun _ => True) → e.name.loc ∉ hiddenElements → e.name.loc ∉ blockElements →
      DefaultDisplay e (.generatingBox .inline .flow)

/-- The author sets the property for the element, in a rule with a selector that matches it or in its `style` attribute. -/
def Spec.AuthorSets {σ : Type} (isMatch : σ → Bool) (author : List (σ × List (Declaration × Bool))) (attr : List (Declaration × Bool))
    (p : Longhand) : Prop :=
  (∃ r ∈ author, isMatch r.1 = true ∧ ∃ d ∈ r.2, d.1.longhand = p) ∨ ∃ d ∈ attr, d.1.longhand = p

/-! ### The sheet -/

inductive UaKind where
  | hide
  | embed
  | input
  | block
  | margin
deriving DecidableEq

/-- The selectors of the sheet in order. -/
def uaKinds : List (UaSelector × UaKind) :=
  uaHidden.map (·, .hide) ++ ([(⟨some "embed", some ("hidden", none)⟩, .embed)] ++
    ([(⟨some "input", some ("type", some "hidden")⟩, .input)] ++ ([(⟨some "html", none⟩, .block), (⟨some "body", none⟩, .block)] ++
      ([(⟨some "body", none⟩, .margin)] ++ uaBlocks.map (·, .block)))))

def UaKind.contents : UaKind → List (Declaration × Bool)
  | .hide => [(.value .display Display.none, false)]
  | .embed => [(.value .display (Display.generatingBox .inline .flow), false), (.value .height (.length (.absolute 0)), false),
      (.value .width (.length (.absolute 0)), false)]
  | .input => [(.value .display Display.none, true)]
  | .block => [(.value .display (Display.generatingBox .block .flow), false)]
  | .margin => [(.value .marginTop (.length (.absolute 8)), false), (.value .marginLeft (.length (.absolute 8)), false),
      (.value .marginBottom (.length (.absolute 8)), false), (.value .marginRight (.length (.absolute 8)), false)]

def uaContents {σ : Type} (embed : UaSelector → σ) : List (σ × List (Declaration × Bool)) :=
  uaKinds.map fun r => (embed r.1, r.2.contents)

theorem declares_of_parse {colors : Colors} {name : String} {data : PropertyData} {tokens : List Token} {ds : List Declaration}
    {ph : PerPhase} (h1 : propertyDataByName colors name = some data) (h2 : parseDeclared data tokens = some ((ds, ph), [])) :
    SetsTo colors name tokens ds := (setsTo_iff h1 tokens ds).mpr ⟨ph, h2⟩

theorem ua_appearances {σ : Type} (colors : Colors) (embed : UaSelector → σ) :
    Appearances colors (userAgentSheet embed) (uaContents embed) := by
  have hnone : SetsTo colors "display" [.ident "none"] [.value .display Display.none] := declares_of_parse rfl rfl
  have hblock : SetsTo colors "display" [.ident "block"] [.value .display (Display.generatingBox .block .flow)] := declares_of_parse rfl rfl
  have hinline : SetsTo colors "display" [.ident "inline"] [.value .display (Display.generatingBox .inline .flow)] :=
    declares_of_parse rfl rfl
  have hheight : SetsTo colors "height" [.number 0] [.value .height (.length (.absolute 0))] := declares_of_parse rfl rfl
  have hwidth : SetsTo colors "width" [.number 0] [.value .width (.length (.absolute 0))] := declares_of_parse rfl rfl
  have hmargin : SetsTo colors "margin" [.dimension 8 "px"] (UaKind.margin.contents.map Prod.fst) := declares_of_parse rfl rfl
  have e : uaContents embed = (uaHidden.map embed).map (·, UaKind.hide.contents) ++
      (([⟨some "embed", some ("hidden", none)⟩].map embed).map (·, UaKind.embed.contents) ++
      (([⟨some "input", some ("type", some "hidden")⟩].map embed).map (·, UaKind.input.contents) ++
      (([⟨some "html", none⟩, ⟨some "body", none⟩].map embed).map (·, UaKind.block.contents) ++
      (([⟨some "body", none⟩].map embed).map (·, UaKind.margin.contents) ++
      ((uaBlocks.map embed).map (·, UaKind.block.contents) ++ []))))) := by
    simp [uaContents, uaKinds, List.map_append, Function.comp_def]
  rw [e]
  refine .invalid _ _ (.rule _ _ _ _ _ ?_ (.rule _ _ _ _ _ ?_ (.rule _ _ _ _ _ ?_ (.rule _ _ _ _ _ ?_ (.rule _ _ _ _ _ ?_
    (.rule _ _ _ _ _ ?_ .nil))))))
  · exact .valid _ _ _ _ _ _ (.normal _ _ hnone) .nil
  · exact .valid _ _ _ _ _ _ (.normal _ _ hinline) (.valid _ _ _ _ _ _ (.normal _ _ hheight) (.valid _ _ _ _ _ _ (.normal _ _ hwidth) .nil))
  · exact .valid _ _ _ _ _ _ (.important [.ident "none"] "important" _ (by decide +kernel) hnone) .nil
  · exact .valid _ _ _ _ _ _ (.normal _ _ hblock) .nil
  · exact .valid _ _ _ _ _ _ (.normal _ _ hmargin) .nil
  · exact .valid _ _ _ _ _ _ (.normal _ _ hblock) .nil

/-! ### Which rules apply -/

theorem hasAttr_iff (e : ElementData) (name : String) (value : Option String) :
    (e.attrs.any fun a => a.name.loc == name && a.name.ns == "" &&
      (match value with | none => true | some v => Document.eqIgnoreAsciiCase a.value v)) = true ↔
    HasAttr e name fun x => match value with | none => True | some v => Document.eqIgnoreAsciiCase x v = true := by
  rw [List.any_eq_true]
  constructor
  · rintro ⟨a, ha, h⟩
    simp only [Bool.and_eq_true, beq_iff_eq] at h
    refine ⟨a, ha, h.1.2, h.1.1, ?_⟩
    cases value with
    | none => trivial
    | some v => exact h.2
  · rintro ⟨a, ha, h1, h2, h3⟩
    refine ⟨a, ha, ?_⟩
    cases value with
    | none => simp [h1, h2]
    | some v => simp [h1, h2, h3]

/-- The selectors are matched as the crate is told by selectors.rs. -/
theorem ua_matches_attr (d : Document) (node : Nat) (e : ElementData) (h : elementOf d node = some e) (name : String) (value : Option String) :
    attrMatches d node (some "") name (fun a => match value with | none => true | some v => Document.eqIgnoreAsciiCase a v) =
      some (UaSelector.matches ⟨none, some (name, value)⟩ e) := by
  simp only [attrMatches, h, Option.map_some, UaSelector.matches, Bool.true_and]
  rfl

theorem matches_tag (e : ElementData) (tag : String) : UaSelector.matches ⟨some tag, none⟩ e = true ↔ e.name.loc = tag := by
  simp [UaSelector.matches]

theorem matches_hidden (e : ElementData) : UaSelector.matches ⟨none, some ("hidden", none)⟩ e = true ↔ HasAttr e "hidden" (fun _ => True) := by
  simp only [UaSelector.matches, Bool.true_and]
  exact hasAttr_iff e "hidden" none

theorem matches_embed (e : ElementData) : UaSelector.matches ⟨some "embed", some ("hidden", none)⟩ e = true ↔
    e.name.loc = "embed" ∧ HasAttr e "hidden" (fun _ => True) := by
  simp only [UaSelector.matches, Bool.and_eq_true, beq_iff_eq]
  exact and_congr Iff.rfl (hasAttr_iff e "hidden" none)

theorem matches_input (e : ElementData) : UaSelector.matches ⟨some "input", some ("type", some "hidden")⟩ e = true ↔ HiddenInput e := by
  simp only [UaSelector.matches, Bool.and_eq_true, beq_iff_eq]
  exact and_congr Iff.rfl (hasAttr_iff e "type" (some "hidden"))

def UaKind.display : UaKind → Display
  | .hide | .input => .none
  | .embed => .generatingBox .inline .flow
  | .block | .margin => .generatingBox .block .flow

/-- The candidate for `display` of a rule. -/
def uaCandidate (i : Nat) (t : UaSelector) (k : UaKind) : Candidate :=
  ⟨.userAgent, k == .input, false, t.specificity, i, 0, .value .display k.display⟩

section
variable {σ : Type} {specificity : σ → Nat} {isMatch : σ → Bool} {embed : UaSelector → σ} {e : ElementData}
  {author : List (σ × List (Declaration × Bool))} {attr : List (Declaration × Bool)}

theorem applies_author {c : Candidate} (h : Applies specificity isMatch (uaContents embed) author attr c) (ho : c.origin = .author) :
    AuthorSets isMatch author attr c.declaration.longhand := by
  unfold Applies at h
  split at h
  · exact .inr ⟨_, List.mem_of_getElem? h.2.2.2, rfl⟩
  · obtain ⟨s, contents, h1, h2, _, h4⟩ := h
    rw [ho] at h1
    exact .inl ⟨_, List.mem_of_getElem? h1, h2, _, List.mem_of_getElem? h4, rfl⟩

theorem applies_ua {c : Candidate} (h : Applies specificity isMatch (uaContents embed) author attr c) (ho : c.origin = .userAgent) :
    c.inline = false ∧ ∃ t k, uaKinds[c.order]? = some (t, k) ∧ isMatch (embed t) = true ∧ c.specificity = specificity (embed t) ∧
      k.contents[c.position]? = some (c.declaration, c.important) := by
  unfold Applies at h
  split at h
  · rw [h.1] at ho; cases ho
  · rename_i hi
    obtain ⟨s, contents, h1, h2, h3, h4⟩ := h
    rw [ho] at h1
    simp only [uaContents, List.getElem?_map, Option.map_eq_some_iff] at h1
    obtain ⟨⟨t, k⟩, g1, g2⟩ := h1
    simp only [Prod.mk.injEq] at g2
    obtain ⟨rfl, rfl⟩ := g2
    exact ⟨by simpa using hi, t, k, g1, h2, h3, h4⟩

theorem applies_display (hm : ∀ t, isMatch (embed t) = t.matches e) (hs : ∀ t, specificity (embed t) = t.specificity) {c : Candidate}
    (h : Applies specificity isMatch (uaContents embed) author attr c) (ho : c.origin = .userAgent)
    (hd : c.declaration.longhand = .display) : ∃ t k, uaKinds[c.order]? = some (t, k) ∧ k ≠ .margin ∧ t.matches e = true ∧
      c = uaCandidate c.order t k := by
  obtain ⟨hi, t, k, h1, h2, h3, h4⟩ := applies_ua h ho
  obtain ⟨origin, important, inline, spec, order, position, declaration⟩ := c
  dsimp only at *
  subst ho hi
  rw [hm] at h2
  rw [hs] at h3
  subst h3
  refine ⟨t, k, h1, ?_, h2, ?_⟩
  · rintro rfl
    rcases position with _ | _ | _ | _ | n <;> simp [UaKind.contents] at h4 <;> rw [← h4.1] at hd <;> cases hd
  · cases k <;> rcases position with _ | _ | _ | _ | n <;> simp [UaKind.contents] at h4 <;>
      obtain ⟨rfl, rfl⟩ := h4 <;> first | rfl | cases hd

theorem candidate_applies (hm : ∀ t, isMatch (embed t) = t.matches e) (hs : ∀ t, specificity (embed t) = t.specificity) {i : Nat}
    {t : UaSelector} {k : UaKind} (h : uaKinds[i]? = some (t, k)) (hk : k ≠ .margin) (ht : t.matches e = true) :
    Applies specificity isMatch (uaContents embed) author attr (uaCandidate i t k) := by
  unfold Applies uaCandidate
  simp only [Bool.false_eq_true, if_false]
  refine ⟨embed t, k.contents, ?_, by rw [hm, ht], (hs t).symm, ?_⟩
  · simp [uaContents, h]
  · cases k <;> first | rfl | exact absurd rfl hk

/-- What rules there are for `display`. -/
theorem uaKinds_cases : ∀ i < 41, ∀ r, uaKinds[i]? = some r →
    (i = 19 ∧ r = (⟨some "input", some ("type", some "hidden")⟩, .input)) ∨ (i = 18 ∧ r = (⟨some "embed", some ("hidden", none)⟩, .embed)) ∨
    (i = 0 ∧ r = (⟨none, some ("hidden", none)⟩, .hide)) ∨ (r.2 = .hide ∧ r.1.attr = none ∧ ∃ s ∈ hiddenElements, r.1.tag = some s) ∨
    (r.2 = .block ∧ r.1.attr = none ∧ ∃ s ∈ blockElements, r.1.tag = some s) ∨ (i = 22 ∧ r = (⟨some "body", none⟩, .margin)) := by
  have h : ∀ i < 41, (match uaKinds[i]? with
      | none => false
      | some r => (i == 19 && r == (⟨some "input", some ("type", some "hidden")⟩, .input)) ||
        (i == 18 && r == (⟨some "embed", some ("hidden", none)⟩, .embed)) || (i == 0 && r == (⟨none, some ("hidden", none)⟩, .hide)) ||
        (r.2 == .hide && r.1.attr == none && hiddenElements.any fun s => r.1.tag == some s) ||
        (r.2 == .block && r.1.attr == none && blockElements.any fun s => r.1.tag == some s) ||
        (i == 22 && r == (⟨some "body", none⟩, .margin)) : Bool) = true := by decide +kernel
  intro i hi r hr
  have := h i hi
  rw [hr] at this
  simp only [Bool.or_eq_true, Bool.and_eq_true, beq_iff_eq, List.any_eq_true] at this
  rcases this with ((((h | h) | h) | ⟨⟨h1, h2⟩, h3⟩) | ⟨⟨h1, h2⟩, h3⟩) | h
  · exact .inl h
  · exact .inr (.inl h)
  · exact .inr (.inr (.inl h))
  · exact .inr (.inr (.inr (.inl ⟨h1, h2, h3⟩)))
  · exact .inr (.inr (.inr (.inr (.inl ⟨h1, h2, h3⟩))))
  · exact .inr (.inr (.inr (.inr (.inr h))))

theorem uaKinds_length : uaKinds.length = 41 := by decide +kernel

theorem lt_of_uaKinds {i : Nat} {r : UaSelector × UaKind} (h : uaKinds[i]? = some r) : i < 41 := by
  rw [← uaKinds_length]
  by_contra hn
  rw [List.getElem?_eq_none (by omega)] at h
  cases h

/-- Each name is in one rule for `display`. -/
theorem uaKinds_unique {i j : Nat} {r r' : UaSelector × UaKind} (hi : uaKinds[i]? = some r) (hj : uaKinds[j]? = some r')
    (h1 : r.2 ≠ .margin) (h2 : r'.2 ≠ .margin) (h3 : r.1.attr = none) (h4 : r'.1.attr = none) (h5 : r.1.tag = r'.1.tag) : i = j := by
  have h : ∀ i < 41, ∀ j < 41, (match uaKinds[i]?, uaKinds[j]? with
      | some r, some r' => r.2 == .margin || r'.2 == .margin || r.1.attr != none || r'.1.attr != none || r.1.tag != r'.1.tag || i == j
      | _, _ => true : Bool) = true := by decide +kernel
  have := h i (lt_of_uaKinds hi) j (lt_of_uaKinds hj)
  rw [hi, hj] at this
  simp only [Bool.or_eq_true, beq_iff_eq, bne_iff_ne, ne_eq] at this
  tauto

theorem uaKinds_hidden : ∀ s ∈ hiddenElements, ∃ i : Nat, uaKinds[i]? = some (⟨some s, none⟩, .hide) := by
  have h : ∀ s ∈ hiddenElements, (⟨some s, none⟩, UaKind.hide) ∈ uaKinds := by decide +kernel
  exact fun s hs => List.mem_iff_getElem?.mp (h s hs)

theorem uaKinds_block : ∀ s ∈ blockElements, ∃ i : Nat, uaKinds[i]? = some (⟨some s, none⟩, .block) := by
  have h : ∀ s ∈ blockElements, (⟨some s, none⟩, UaKind.block) ∈ uaKinds := by decide +kernel
  exact fun s hs => List.mem_iff_getElem?.mp (h s hs)

/-- A rule that is better than all others that match wins, if the author does not set `display`, or if it is important. -/
theorem ua_wins (hm : ∀ t, isMatch (embed t) = t.matches e) (hs : ∀ t, specificity (embed t) = t.specificity) {i : Nat} {t : UaSelector}
    {k : UaKind} (h : uaKinds[i]? = some (t, k)) (hk : k ≠ .margin) (ht : t.matches e = true)
    (ha : k = .input ∨ ¬ AuthorSets isMatch author attr .display)
    (hb : ∀ j t' k', uaKinds[j]? = some (t', k') → k' ≠ .margin → t'.matches e = true →
      j = i ∨ (k = .input ∧ k' ≠ .input) ∨ (k' ≠ .input ∧ t'.specificity < t.specificity)) :
    Winner specificity isMatch (uaContents embed) author attr (uaCandidate i t k) := by
  refine ⟨candidate_applies hm hs h hk ht, ?_⟩
  intro c hc hd
  cases ho : c.origin with
  | author =>
    rcases ha with rfl | ha
    · refine .inr (.inl ?_)
      simp only [Candidate.level, ho, uaCandidate, beq_self_eq_true]
      cases c.important <;> decide
    · have hd' : c.declaration.longhand = .display := hd
      exact absurd (hd' ▸ applies_author hc ho) ha
  | userAgent =>
    obtain ⟨t', k', h1, h2, h3, h4⟩ := applies_display hm hs hc ho hd
    rcases hb _ _ _ h1 h2 h3 with hj | ⟨hj1, hj2⟩ | ⟨hj1, hj2⟩
    · rw [hj] at h1 h4
      rw [h] at h1
      cases h1
      exact .inl h4
    · refine .inr (.inl ?_)
      rw [h4]
      subst hj1
      have e1 : (k' == UaKind.input) = false := by simpa using hj2
      simp only [Candidate.level, uaCandidate, beq_self_eq_true, e1]
      decide
    · refine .inr ?_
      rw [h4]
      have e1 : (k' == UaKind.input) = false := by simpa using hj1
      cases hki : (k == UaKind.input) with
      | true => exact .inl (by simp [Candidate.level, uaCandidate, hki, e1])
      | false => exact .inr ⟨by simp [Candidate.level, uaCandidate, hki, e1], .inr ⟨rfl, .inl hj2⟩⟩

theorem default_winner (hm : ∀ t, isMatch (embed t) = t.matches e) (hs : ∀ t, specificity (embed t) = t.specificity)
    {D : Display} (hD : DefaultDisplay e D) (ha : HiddenInput e ∨ ¬ AuthorSets isMatch author attr .display) :
    (∃ c, Winner specificity isMatch (uaContents embed) author attr c ∧ c.declaration = .value .display D) ∨
      (D = .generatingBox .inline .flow ∧
        ∀ c, Applies specificity isMatch (uaContents embed) author attr c → c.declaration.longhand ≠ .display) := by
  by_cases hin : HiddenInput e
  · have hD : D = .none := by
      cases hD with
      | input _ | hidden _ _ | hiddenElement _ => rfl
      | embed _ h => rw [hin.1] at h; exact absurd h (by decide)
      | block _ h => rw [hin.1] at h; exact absurd h (by decide +kernel)
      | other h => exact absurd hin h
    subst hD
    refine .inl ⟨uaCandidate 19 ⟨some "input", some ("type", some "hidden")⟩ .input, ua_wins hm hs rfl (by decide)
      ((matches_input e).mpr hin) (.inl rfl) ?_, rfl⟩
    intro j t' k' hj hk' _
    rcases uaKinds_cases j (lt_of_uaKinds hj) _ hj with ⟨h, _⟩ | ⟨_, h⟩ | ⟨_, h⟩ | ⟨h, _⟩ | ⟨h, _⟩ | ⟨_, h⟩
    · exact .inl h
    · cases h; exact .inr (.inl ⟨rfl, by decide⟩)
    · cases h; exact .inr (.inl ⟨rfl, by decide⟩)
    · dsimp only at h; subst h; exact .inr (.inl ⟨rfl, by decide⟩)
    · dsimp only at h; subst h; exact .inr (.inl ⟨rfl, by decide⟩)
    · cases h; exact absurd rfl hk'
  · replace ha : ¬ AuthorSets isMatch author attr .display := ha.resolve_left hin
    -- the names of a rule that matches
    have tag : ∀ {t' : UaSelector} {s : String}, t'.attr = none → t'.tag = some s → t'.matches e = true → e.name.loc = s := by
      intro t' s h1 h2 h3
      obtain ⟨tag, attr⟩ := t'
      dsimp only at h1 h2
      subst h1 h2
      exact (matches_tag e s).mp h3
    by_cases hh : HasAttr e "hidden" (fun _ => True)
    · by_cases he : e.name.loc = "embed"
      · have hD : D = .generatingBox .inline .flow := by
          cases hD with
          | input h => exact absurd h hin
          | hidden _ h => exact absurd he h
          | embed _ _ => rfl
          | hiddenElement h => rw [he] at h; exact absurd h (by decide +kernel)
          | block h => exact absurd hh h
          | other _ h => exact absurd hh h
        subst hD
        refine .inl ⟨uaCandidate 18 ⟨some "embed", some ("hidden", none)⟩ .embed, ua_wins hm hs rfl (by decide)
          ((matches_embed e).mpr ⟨he, hh⟩) (.inr ha) ?_, rfl⟩
        intro j t' k' hj hk' ht'
        rcases uaKinds_cases j (lt_of_uaKinds hj) _ hj with ⟨_, h⟩ | ⟨h, _⟩ | ⟨_, h⟩ | ⟨h, h1, s, h2, h3⟩ | ⟨h, h1, s, h2, h3⟩ | ⟨_, h⟩
        · cases h; exact absurd ((matches_input e).mp ht') hin
        · exact .inl h
        · cases h; exact .inr (.inr ⟨by decide, by decide⟩)
        · rw [tag h1 h3 ht'] at he; subst he; exact absurd h2 (by decide +kernel)
        · rw [tag h1 h3 ht'] at he; subst he; exact absurd h2 (by decide +kernel)
        · cases h; exact absurd rfl hk'
      · have hD : D = .none := by
          cases hD with
          | input _ | hidden _ _ | hiddenElement _ => rfl
          | embed _ h => exact absurd h he
          | block h => exact absurd hh h
          | other _ h => exact absurd hh h
        subst hD
        refine .inl ⟨uaCandidate 0 ⟨none, some ("hidden", none)⟩ .hide, ua_wins hm hs rfl (by decide)
          ((matches_hidden e).mpr hh) (.inr ha) ?_, rfl⟩
        have small : ∀ {t' : UaSelector}, t'.attr = none → t'.specificity < 1024 := by
          intro t' h
          unfold UaSelector.specificity
          rw [h]
          simp only [Option.isSome_none, Bool.false_eq_true, if_false]
          split <;> omega
        intro j t' k' hj hk' ht'
        rcases uaKinds_cases j (lt_of_uaKinds hj) _ hj with ⟨_, h⟩ | ⟨_, h⟩ | ⟨h, _⟩ | ⟨h, h1, s, h2, h3⟩ | ⟨h, h1, s, h2, h3⟩ | ⟨_, h⟩
        · cases h; exact absurd ((matches_input e).mp ht') hin
        · cases h; exact absurd ((matches_embed e).mp ht').1 he
        · exact .inl h
        · dsimp only at h; subst h; exact .inr (.inr ⟨by decide, small h1⟩)
        · dsimp only at h; subst h; exact .inr (.inr ⟨by decide, small h1⟩)
        · cases h; exact absurd rfl hk'
    · -- only rules with names can match
      have byName : ∀ (i : Nat) (k : UaKind) (s : String), uaKinds[i]? = some (⟨some s, none⟩, k) → k ≠ .margin → e.name.loc = s →
          Winner specificity isMatch (uaContents embed) author attr (uaCandidate i ⟨some s, none⟩ k) := by
        intro i k s hi hk hs'
        refine ua_wins hm hs hi hk ((matches_tag e s).mpr hs') (.inr ha) ?_
        intro j t' k' hj hk' ht'
        rcases uaKinds_cases j (lt_of_uaKinds hj) _ hj with ⟨_, h⟩ | ⟨_, h⟩ | ⟨_, h⟩ | ⟨h, h1, s', h2, h3⟩ | ⟨h, h1, s', h2, h3⟩ | ⟨_, h⟩
        · cases h; exact absurd ((matches_input e).mp ht') hin
        · cases h; exact absurd ((matches_embed e).mp ht').2 hh
        · cases h; exact absurd ((matches_hidden e).mp ht') hh
        · refine .inl (uaKinds_unique hj hi hk' hk h1 rfl ?_)
          rw [h3, ← tag h1 h3 ht', hs']
        · refine .inl (uaKinds_unique hj hi hk' hk h1 rfl ?_)
          rw [h3, ← tag h1 h3 ht', hs']
        · cases h; exact absurd rfl hk'
      cases hD with
      | input h => exact absurd h hin
      | hidden h => exact absurd h hh
      | embed h => exact absurd h hh
      | hiddenElement h =>
        obtain ⟨i, hi⟩ := uaKinds_hidden _ h
        exact .inl ⟨_, byName i _ _ hi (by decide) rfl, rfl⟩
      | block _ h =>
        obtain ⟨i, hi⟩ := uaKinds_block _ h
        exact .inl ⟨_, byName i _ _ hi (by decide) rfl, rfl⟩
      | other _ _ h1 h2 =>
        refine .inr ⟨rfl, ?_⟩
        intro c hc hd
        cases ho : c.origin with
        | author => exact ha (hd ▸ applies_author hc ho)
        | userAgent =>
          obtain ⟨t', k', hj, hk', ht', _⟩ := applies_display hm hs hc ho hd
          rcases uaKinds_cases _ (lt_of_uaKinds hj) _ hj with ⟨_, h⟩ | ⟨_, h⟩ | ⟨_, h⟩ | ⟨h, g1, s', g2, g3⟩ | ⟨h, g1, s', g2, g3⟩ | ⟨_, h⟩
          · cases h; exact hin ((matches_input e).mp ht')
          · cases h; exact hh ((matches_embed e).mp ht').2
          · cases h; exact hh ((matches_hidden e).mp ht')
          · exact h1 (tag g1 g3 ht' ▸ g2)
          · exact h2 (tag g1 g3 ht' ▸ g2)
          · cases h; exact hk' rfl

/-- A property of which only one rule of the sheet says something. -/
theorem only_winner (hm : ∀ t, isMatch (embed t) = t.matches e) (hs : ∀ t, specificity (embed t) = t.specificity) {i n : Nat}
    {t : UaSelector} {k : UaKind} {d : Declaration} (h : uaKinds[i]? = some (t, k)) (ht : t.matches e = true)
    (hn : k.contents[n]? = some (d, false)) (ha : ¬ AuthorSets isMatch author attr d.longhand)
    (ho : ∀ j t' k' m d' b, uaKinds[j]? = some (t', k') → k'.contents[m]? = some (d', b) → d'.longhand = d.longhand →
      j = i ∧ m = n) :
    Winner specificity isMatch (uaContents embed) author attr ⟨.userAgent, false, false, t.specificity, i, n, d⟩ := by
  refine ⟨?_, ?_⟩
  · unfold Applies
    simp only [Bool.false_eq_true, if_false]
    exact ⟨embed t, k.contents, by simp [uaContents, h], by rw [hm, ht], (hs t).symm, hn⟩
  · intro c hc hd
    cases hor : c.origin with
    | author =>
      have hd' : c.declaration.longhand = d.longhand := hd
      exact absurd (hd' ▸ applies_author hc hor) ha
    | userAgent =>
      obtain ⟨hi, t', k', h1, h2, h3, h4⟩ := applies_ua hc hor
      obtain ⟨e1, e2⟩ := ho _ _ _ _ _ _ h1 h4 hd
      rw [e1, h] at h1
      cases h1
      rw [e2, hn] at h4
      rw [hs] at h3
      obtain ⟨origin, important, inline, spec, order, position, declaration⟩ := c
      dsimp only at *
      cases h4
      subst hor hi h3 e1 e2
      exact .inl rfl

theorem no_candidate {p : Longhand} (ha : ¬ AuthorSets isMatch author attr p)
    (ho : ∀ (i : Nat) t k, uaKinds[i]? = some (t, k) → isMatch (embed t) = true → ∀ d ∈ k.contents, d.1.longhand ≠ p) :
    ∀ c, Applies specificity isMatch (uaContents embed) author attr c → c.declaration.longhand ≠ p := by
  intro c hc hd
  cases hor : c.origin with
  | author => exact ha (hd ▸ applies_author hc hor)
  | userAgent =>
    obtain ⟨_, t, k, h1, h2, _, h4⟩ := applies_ua hc hor
    exact ho _ t k h1 h2 _ (List.mem_of_getElem? h4) hd

end

/-! ### The property -/

/-- The sheet of the user agent is read without panicking. -/
theorem userAgent_ok {σ : Type} (colors : Colors) (embed : UaSelector → σ) :
    ∃ set, addStylesheets colors ⟨[]⟩ [userAgentSheet embed] = .ok set := ⟨_, rfl⟩

section
variable {σ : Type} {colors : Colors} {tokenize : String → List Item} {specificity : σ → Nat} {isMatch : σ → Bool}
  {embed : UaSelector → σ} {authorSheets : List (List (SourceRule σ))} {uaSet authorSet : StyleSet σ} {e : ElementData}
  {parent : Option ComputedValues} {style : ComputedValues} {author : List (σ × List (Declaration × Bool))}
  {attr : List (Declaration × Bool)}

/-- **C76**: an element for which the author does not set `display` is displayed as HTML says, for the elements that are listed in
`hiddenElements` and `blockElements`, for the attribute `hidden`, and inline otherwise. (Missing: other elements that HTML makes blocks,
and elements of other languages: see `C76_blocks_violated` and `C76_namespace_violated`. `specifiedDisplay` is the value before the fix-ups
for floating and absolute boxes, C33.) -/
theorem C76_display_partial (hm : ∀ t, isMatch (embed t) = t.matches e) (hs : ∀ t, specificity (embed t) = t.specificity)
    (hua : addStylesheets colors ⟨[]⟩ [userAgentSheet embed] = .ok uaSet) (hauthor : addStylesheets colors ⟨[]⟩ authorSheets = .ok authorSet)
    (hstyle : styleForElement colors tokenize (uaSet.finish specificity) (authorSet.finish specificity) isMatch e parent = .ok style)
    (Hauthor : Appearances colors authorSheets.flatten author) (Hattr : AttrContents colors tokenize e attr)
    (ha : ¬ AuthorSets isMatch author attr .display) (D : Display) (hD : DefaultDisplay e D) :
    style.specifiedDisplay = D ∧ (¬ AuthorSets isMatch author attr .position → ¬ AuthorSets isMatch author attr .float →
      style.values .display = D) := by
  have Hua : Appearances colors [userAgentSheet embed].flatten (uaContents embed) := by simpa using ua_appearances colors embed
  obtain ⟨v, hf, hw, hu⟩ := C28_winner hua hauthor hstyle Hua Hauthor Hattr
  have hv : v .display = D := by
    rcases default_winner hm hs hD (.inr ha) with ⟨c, hc, hd⟩ | ⟨rfl, hn⟩
    · have := hw c hc
      rw [hd] at this
      exact this
    · rcases hu .display with ⟨c, hc, hd⟩ | ⟨_, h⟩
      · exact absurd hd (hn c hc.1)
      · rw [h]; rfl
  refine ⟨hf.specified.trans hv, fun hp hfl => ?_⟩
  have other : ∀ p, p = .position ∨ p = .float → ¬ AuthorSets isMatch author attr p → v p = unset (parentValues parent) p := by
    intro p hp ha
    have hn := no_candidate (specificity := specificity) (embed := embed) ha (by
      intro i t k _ _ d hd
      rcases hp with rfl | rfl <;> cases k <;> simp [UaKind.contents] at hd
      all_goals first | (obtain rfl := hd; simp [Declaration.longhand]) | (rcases hd with rfl | rfl | rfl <;> simp [Declaration.longhand]) | (rcases hd with rfl | rfl | rfl | rfl <;> simp [Declaration.longhand]))
    rcases hu p with ⟨c, hc, hd⟩ | ⟨_, h⟩
    · exact absurd hd (hn c hc.1)
    · exact h
  have e1 : v .position = Position.static := other .position (.inl rfl) hp
  have e2 : v .float = Float.none := other .float (.inr rfl) hfl
  rw [hf.display, e1, e2, hv]
  rfl

/-- **C76**: an `input` element of type hidden is not displayed, whatever the author says. -/
theorem C76_hidden_input (hm : ∀ t, isMatch (embed t) = t.matches e) (hs : ∀ t, specificity (embed t) = t.specificity)
    (hua : addStylesheets colors ⟨[]⟩ [userAgentSheet embed] = .ok uaSet) (hauthor : addStylesheets colors ⟨[]⟩ authorSheets = .ok authorSet)
    (hstyle : styleForElement colors tokenize (uaSet.finish specificity) (authorSet.finish specificity) isMatch e parent = .ok style)
    (Hauthor : Appearances colors authorSheets.flatten author) (Hattr : AttrContents colors tokenize e attr) (he : HiddenInput e) :
    style.values .display = Display.none := by
  have Hua : Appearances colors [userAgentSheet embed].flatten (uaContents embed) := by simpa using ua_appearances colors embed
  obtain ⟨v, hf, hw, hu⟩ := C28_winner hua hauthor hstyle Hua Hauthor Hattr
  have hv : v .display = Display.none := by
    rcases default_winner (author := author) (attr := attr) hm hs (.input he) (.inl he) with ⟨c, hc, hd⟩ | ⟨h, _⟩
    · have := hw c hc
      rw [hd] at this
      exact this
    · cases h
  rw [hf.display, hv]
  unfold usedDisplay
  split <;> rfl

/-- **C76**: the body has margins of 8px, other elements have none, where the author does not set them. -/
theorem C76_margins (hm : ∀ t, isMatch (embed t) = t.matches e) (hs : ∀ t, specificity (embed t) = t.specificity)
    (hua : addStylesheets colors ⟨[]⟩ [userAgentSheet embed] = .ok uaSet) (hauthor : addStylesheets colors ⟨[]⟩ authorSheets = .ok authorSet)
    (hstyle : styleForElement colors tokenize (uaSet.finish specificity) (authorSet.finish specificity) isMatch e parent = .ok style)
    (Hauthor : Appearances colors authorSheets.flatten author) (Hattr : AttrContents colors tokenize e attr) :
    (¬ AuthorSets isMatch author attr .marginTop → style.values .marginTop = .length (if e.name.loc = "body" then 8 else 0)) ∧
    (¬ AuthorSets isMatch author attr .marginLeft → style.values .marginLeft = .length (if e.name.loc = "body" then 8 else 0)) ∧
    (¬ AuthorSets isMatch author attr .marginBottom → style.values .marginBottom = .length (if e.name.loc = "body" then 8 else 0)) ∧
    (¬ AuthorSets isMatch author attr .marginRight → style.values .marginRight = .length (if e.name.loc = "body" then 8 else 0)) := by
  have Hua : Appearances colors [userAgentSheet embed].flatten (uaContents embed) := by simpa using ua_appearances colors embed
  obtain ⟨v, hf, hw, hu⟩ := C28_winner hua hauthor hstyle Hua Hauthor Hattr
  -- only the rule for the body is about margins
  have only : ∀ (i : Nat) t k, uaKinds[i]? = some (t, k) → k = .margin → i = 22 ∧ t = ⟨some "body", none⟩ := by
    intro i t k hi hk
    subst hk
    rcases uaKinds_cases i (lt_of_uaKinds hi) _ hi with ⟨_, h⟩ | ⟨_, h⟩ | ⟨_, h⟩ | ⟨h, _⟩ | ⟨h, _⟩ | ⟨h, h'⟩
    · cases h
    · cases h
    · cases h
    · cases h
    · cases h
    · cases h'; exact ⟨h, rfl⟩
  have key : ∀ (n : Nat) (d : Declaration), UaKind.margin.contents[n]? = some (d, false) → ¬ AuthorSets isMatch author attr d.longhand →
      (∀ (k : UaKind) (m : Nat) (d' : Declaration) (b : Bool), (UaKind.contents k)[m]? = some (d', b) → d'.longhand = d.longhand → k = .margin ∧ m = n) →
      v d.longhand = if e.name.loc = "body" then valueOf v.fontSize (parentValues parent) d else unset (parentValues parent) d.longhand := by
    intro n d hn ha huniq
    split
    · rename_i hb
      exact hw _ (only_winner hm hs (i := 22) (n := n) rfl ((matches_tag e "body").mpr hb) hn ha
        (fun j t' k' m d' b hj hc hd => by
          obtain ⟨h1, h2⟩ := huniq k' m d' b hc hd
          exact ⟨(only j t' k' hj h1).1, h2⟩))
    · rename_i hb
      have hno := no_candidate (specificity := specificity) (embed := embed) ha (by
        intro i t k hi ht d' hd' hdl
        obtain ⟨m, hm'⟩ := List.mem_iff_getElem?.mp hd'
        obtain ⟨h1, _⟩ := huniq k m d'.1 d'.2 hm' hdl
        obtain ⟨_, rfl⟩ := only i t k hi h1
        rw [hm] at ht
        exact hb ((matches_tag e "body").mp ht))
      rcases hu d.longhand with ⟨c, hc, hd⟩ | ⟨_, h⟩
      · exact absurd hd (hno c hc.1)
      · exact h
  have uniq : ∀ (n : Nat) (d : Declaration), UaKind.margin.contents[n]? = some (d, false) →
      ∀ (k : UaKind) (m : Nat) (d' : Declaration) (b : Bool), (UaKind.contents k)[m]? = some (d', b) →
      d'.longhand = d.longhand → k = .margin ∧ m = n := by
    intro n d hn k m d' b hc hd
    rcases n with _ | _ | _ | _ | n <;> simp [UaKind.contents] at hn <;> subst hn <;> cases k <;>
      rcases m with _ | _ | _ | _ | m <;> simp [UaKind.contents] at hc <;> obtain ⟨rfl, rfl⟩ := hc <;>
      first | exact ⟨rfl, rfl⟩ | cases hd
  have other : ∀ p, p ≠ .display → p ≠ .borderTopWidth → p ≠ .borderLeftWidth → p ≠ .borderBottomWidth → p ≠ .borderRightWidth →
      style.values p = v p := hf.others
  refine ⟨fun ha => ?_, fun ha => ?_, fun ha => ?_, fun ha => ?_⟩
  · refine (other _ (by decide) (by decide) (by decide) (by decide) (by decide)).trans ((key 0 _ rfl ha (uniq 0 _ rfl)).trans ?_)
    split <;> rfl
  · refine (other _ (by decide) (by decide) (by decide) (by decide) (by decide)).trans ((key 1 _ rfl ha (uniq 1 _ rfl)).trans ?_)
    split <;> rfl
  · refine (other _ (by decide) (by decide) (by decide) (by decide) (by decide)).trans ((key 2 _ rfl ha (uniq 2 _ rfl)).trans ?_)
    split <;> rfl
  · refine (other _ (by decide) (by decide) (by decide) (by decide) (by decide)).trans ((key 3 _ rfl ha (uniq 3 _ rfl)).trans ?_)
    split <;> rfl

/-- Without style sheets of the author and without attributes, by the name of the element alone. -/
theorem default_of_name (hm : ∀ t, isMatch (embed t) = t.matches e) (hs : ∀ t, specificity (embed t) = t.specificity)
    (hua : addStylesheets colors ⟨[]⟩ [userAgentSheet embed] = .ok uaSet) (he : e.attrs = []) (D : Display) (hD : DefaultDisplay e D) :
    ∃ style, styleForElement colors tokenize (uaSet.finish specificity) ⟨[]⟩ isMatch e parent = .ok style ∧
      style.values .display = D := by
  have hattr : styleAttrBlock colors tokenize e = .ok [] := by
    unfold styleAttrBlock
    split
    · simp [ElementData.getAttr, he]
    · rfl
  have hfin : StyleSet.finish specificity (⟨[]⟩ : StyleSet σ) = ⟨[]⟩ := by simp [StyleSet.finish]
  refine ⟨_, by simp only [styleForElement, hattr]; rfl, ?_⟩
  have Hattr : AttrContents colors tokenize e [] := by
    unfold AttrContents
    split
    · simp [ElementData.getAttr, he]
    · rfl
  refine (C76_display_partial (authorSheets := []) (authorSet := ⟨[]⟩) (author := []) (attr := []) (tokenize := tokenize) (parent := parent)
    hm hs hua rfl ?_ .nil Hattr ?_ D hD).2 ?_ ?_
  · rw [hfin]
    simp only [styleForElement, hattr]
  all_goals
    rintro (⟨_, h, _⟩ | ⟨_, h, _⟩) <;> cases h

/-- **C76** fails for elements of other languages: one that has the name of a block of HTML is a block, as the declaration of the name space
in the sheet is ignored. -/
theorem C76_namespace_violated (hm : ∀ t, isMatch (embed t) = t.matches e) (hs : ∀ t, specificity (embed t) = t.specificity)
    (hua : addStylesheets colors ⟨[]⟩ [userAgentSheet embed] = .ok uaSet)
    (he : e = { name := ⟨none, "http://example.com/poetry", "header"⟩, attrs := [], mathmlIntegrationPoint := false }) :
    ∃ style, styleForElement colors tokenize (uaSet.finish specificity) ⟨[]⟩ isMatch e parent = .ok style ∧
      style.values .display = Display.generatingBox .block .flow := by
  subst he
  exact default_of_name hm hs hua rfl _ (.block (by rintro ⟨_, h, _⟩; cases h) (by decide +kernel))

/-- **C76** fails for HTML elements that are not in the sheet: headings, sections and lists are displayed inline. -/
theorem C76_blocks_violated (hm : ∀ t, isMatch (embed t) = t.matches e) (hs : ∀ t, specificity (embed t) = t.specificity)
    (hua : addStylesheets colors ⟨[]⟩ [userAgentSheet embed] = .ok uaSet) (name : String)
    (hn : name ∈ ["article", "aside", "h1", "h2", "h3", "h4", "h5", "h6", "hgroup", "nav", "section", "dd", "dl", "dt", "ol", "ul",
      "details", "fieldset"])
    (he : e = { name := ⟨none, htmlNs, name⟩, attrs := [], mathmlIntegrationPoint := false }) :
    ∃ style, styleForElement colors tokenize (uaSet.finish specificity) ⟨[]⟩ isMatch e parent = .ok style ∧
      style.values .display = Display.generatingBox .inline .flow := by
  subst he
  have h : ∀ name ∈ ["article", "aside", "h1", "h2", "h3", "h4", "h5", "h6", "hgroup", "nav", "section", "dd", "dl", "dt", "ol", "ul",
      "details", "fieldset"], name ≠ "input" ∧ name ∉ hiddenElements ∧ name ∉ blockElements := by decide +kernel
  obtain ⟨h1, h2, h3⟩ := h name hn
  exact default_of_name hm hs hua rfl _ (.other (fun h => h1 h.1) (by rintro ⟨_, h, _⟩; cases h) h2 h3)

end

/-- Every element is displayed in one way by default. -/
theorem C76_display_total (e : ElementData) : ∃ D, DefaultDisplay e D ∧ ∀ D', DefaultDisplay e D' → D' = D := by
  have d1 : ∀ s ∈ hiddenElements, s ≠ "embed" ∧ s ∉ blockElements := by decide +kernel
  have d2 : ∀ s ∈ blockElements, s ≠ "input" := by decide +kernel
  by_cases hin : HiddenInput e
  · refine ⟨_, .input hin, fun D' h => ?_⟩
    cases h with
    | input _ | hidden _ _ | hiddenElement _ => rfl
    | embed _ h => rw [hin.1] at h; exact absurd h (by decide)
    | block _ h => exact absurd hin.1 (d2 _ h)
    | other h => exact absurd hin h
  · by_cases hh : HasAttr e "hidden" (fun _ => True)
    · by_cases he : e.name.loc = "embed"
      · refine ⟨_, .embed hh he, fun D' h => ?_⟩
        cases h with
        | input h => exact absurd h hin
        | hidden _ h => exact absurd he h
        | embed _ _ => rfl
        | hiddenElement h => exact absurd he (d1 _ h).1
        | block h => exact absurd hh h
        | other _ h => exact absurd hh h
      · refine ⟨_, .hidden hh he, fun D' h => ?_⟩
        cases h with
        | input _ | hidden _ _ | hiddenElement _ => rfl
        | embed _ h => exact absurd h he
        | block h => exact absurd hh h
        | other _ h => exact absurd hh h
    · by_cases h1 : e.name.loc ∈ hiddenElements
      · refine ⟨_, .hiddenElement h1, fun D' h => ?_⟩
        cases h with
        | input _ | hidden _ _ | hiddenElement _ => rfl
        | embed h => exact absurd h hh
        | block _ h => exact absurd h (d1 _ h1).2
        | other _ _ h => exact absurd h1 h
      · by_cases h2 : e.name.loc ∈ blockElements
        · refine ⟨_, .block hh h2, fun D' h => ?_⟩
          cases h with
          | input h => exact absurd h hin
          | hidden h => exact absurd h hh
          | embed h => exact absurd h hh
          | hiddenElement h => exact absurd h h1
          | block _ _ => rfl
          | other _ _ _ h => exact absurd h2 h
        · refine ⟨_, .other hin hh h1 h2, fun D' h => ?_⟩
          cases h with
          | input h => exact absurd h hin
          | hidden h => exact absurd h hh
          | embed h => exact absurd h hh
          | hiddenElement h => exact absurd h h1
          | block _ h => exact absurd h h2
          | other _ _ _ _ => rfl

/-- Examples: with the selectors themselves as those of the crate, and an author who sets the colour of all; `<input type=HIDDEN>` with
`display: block !important` in the `style` attribute. -/
def exampleInput : ElementData :=
  { name := ⟨none, htmlNs, "input"⟩, attrs := [{ name := ⟨none, "", "type"⟩, value := "HIDDEN" },
    { name := ⟨none, "", "style"⟩, value := "display: block !important" }], mathmlIntegrationPoint := false }

example : ∃ set style, addStylesheets noColors ⟨[]⟩ [userAgentSheet id] = .ok set ∧
    styleForElement noColors (fun _ => [.declaration "display" [.ident "block", .delim '!', .ident "important"]])
      (set.finish UaSelector.specificity) ⟨[]⟩ (fun t => t.matches exampleInput) exampleInput none = .ok style ∧ HiddenInput exampleInput ∧
    style.values .display = Display.none := by
  refine ⟨_, _, rfl, rfl, ?_, ?_⟩
  · exact ⟨rfl, _, List.mem_cons_self .., rfl, rfl, by decide +kernel⟩
  · refine C76_hidden_input (embed := id) (authorSheets := []) (authorSet := ⟨[]⟩) (author := [])
      (attr := [(.value .display (Display.generatingBox .block .flow), true)])
      (tokenize := fun _ => [.declaration "display" [.ident "block", .delim '!', .ident "important"]]) (colors := noColors) (parent := none)
      (specificity := UaSelector.specificity) (isMatch := fun t => t.matches exampleInput) (e := exampleInput)
      (fun _ => rfl) (fun _ => rfl) rfl rfl (by simp [StyleSet.finish]; rfl) .nil ?_ ?_
    · have hblock : SetsTo noColors "display" [.ident "block"] [.value .display (Display.generatingBox .block .flow)] :=
        declares_of_parse rfl rfl
      unfold AttrContents
      simp only [exampleInput, htmlNs, true_or, if_true]
      exact .valid _ _ _ _ _ _ (.important [.ident "block"] "important" _ (by decide +kernel) hblock) .nil
    · exact ⟨rfl, _, List.mem_cons_self .., rfl, rfl, by decide +kernel⟩

end Verif.Style
