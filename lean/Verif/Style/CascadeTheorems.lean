/- Properties of computed styles: C28, C31, C32, C33. -/
import Verif.Style.CascadeLemmas
import Verif.Style.BlockTheorems
namespace Verif.Style
open Spec

/-- The block-level counterpart of a value of `display` (css-display-3, 2.7). -/
def Spec.blockified : Display → Display
  | .none => .none
  | .contents => .contents
  | .generatingBox _ inside => .generatingBox .block inside

/-- The display type used: a box that floats or is absolutely positioned is block-level (CSS 2, 9.7). -/
def Spec.usedDisplay (position : Position) (float : Float) (display : Display) : Display :=
  if position = .absolute ∨ float = .left ∨ float = .right then blockified display else display

/-- The border width used: without a line there is none (css-backgrounds-3, 4.3). -/
def Spec.usedWidth (style : LineStyle) (width : LengthOrPercentage) : LengthOrPercentage :=
  if style = .none then .length 0 else width

/-- How the values used differ from those of the cascade. -/
structure Spec.FixedUp (v : Values) (s : ComputedValues) : Prop where
  specified : s.specifiedDisplay = v .display
  display : s.values .display = usedDisplay (v .position) (v .float) (v .display)
  top : s.values .borderTopWidth = usedWidth (v .borderTopStyle) (v .borderTopWidth)
  left : s.values .borderLeftWidth = usedWidth (v .borderLeftStyle) (v .borderLeftWidth)
  bottom : s.values .borderBottomWidth = usedWidth (v .borderBottomStyle) (v .borderBottomWidth)
  right : s.values .borderRightWidth = usedWidth (v .borderRightStyle) (v .borderRightWidth)
  others : ∀ p, p ≠ .display → p ≠ .borderTopWidth → p ≠ .borderLeftWidth → p ≠ .borderBottomWidth → p ≠ .borderRightWidth →
    s.values p = v p

theorem lineWidthFixup_eq (w : LengthOrPercentage) (s : LineStyle) : lineWidthFixup w s = usedWidth s w := by
  cases s <;> rfl

theorem blockify_eq (d : Display) : d.blockify = blockified d := by cases d <;> rfl

theorem floating_iff (f : Float) : f.isFloating = true ↔ f = .left ∨ f = .right := by cases f <;> simp [Float.isFloating]

theorem borderFixups_other (v : Values) (p : Longhand) (h1 : p ≠ .borderTopWidth) (h2 : p ≠ .borderLeftWidth)
    (h3 : p ≠ .borderBottomWidth) (h4 : p ≠ .borderRightWidth) : borderFixups v p = v p :=
  (set_ne _ _ h4.symm).trans ((set_ne _ _ h3.symm).trans ((set_ne _ _ h2.symm).trans (set_ne _ _ h1.symm)))

theorem displayFixup_other (v : Values) (p : Longhand) (h : p ≠ .display) : (displayFixup v).values p = v p := by
  unfold displayFixup
  dsimp only
  split
  · split
    · exact set_ne _ _ h.symm
    · rfl
  · rfl

theorem displayFixup_display (v : Values) : (displayFixup v).values .display = usedDisplay (v .position) (v .float) (v .display) := by
  have key : ∀ (p : Position) (f : Float) (d : Display), v .display = d →
      (if p.isAbsolutelyPositioned ∨ f.isFloating then
        if d.blockify ≠ d then (⟨v.set .display d.blockify, d⟩ : ComputedValues) else ⟨v, d⟩
      else ⟨v, d⟩).values .display = usedDisplay p f d := by
    intro p f d hd
    unfold usedDisplay
    simp only [Position.isAbsolutelyPositioned, decide_eq_true_eq, floating_iff, blockify_eq]
    by_cases h : p = .absolute ∨ f = .left ∨ f = .right
    · rw [if_pos h, if_pos h]
      by_cases h' : blockified d = d
      · rw [if_neg (not_not.mpr h'), h']; exact hd
      · rw [if_pos h']; exact set_self v .display _
    · rw [if_neg h, if_neg h]; exact hd
  exact key (v .position) (v .float) (v .display) rfl

theorem displayFixup_specified (v : Values) : (displayFixup v).specifiedDisplay = v .display := by
  unfold displayFixup
  dsimp only
  split
  · split <;> rfl
  · rfl

/-- **C33**: the values used are those of the cascade with the border widths and the display type fixed up, and nothing else. -/
theorem C33_fixups (v : Values) : FixedUp v (postCascadeFixups v) where
  specified := displayFixup_specified _
  display := displayFixup_display _
  top := (displayFixup_other _ _ (by decide)).trans (lineWidthFixup_eq _ _)
  left := (displayFixup_other _ _ (by decide)).trans (lineWidthFixup_eq _ _)
  bottom := (displayFixup_other _ _ (by decide)).trans (lineWidthFixup_eq _ _)
  right := (displayFixup_other _ _ (by decide)).trans (lineWidthFixup_eq _ _)
  others := fun _ h0 h1 h2 h3 h4 => (displayFixup_other _ _ h0).trans (borderFixups_other _ _ h1 h2 h3 h4)

theorem fixedUp_unique {v : Values} {s t : ComputedValues} (hs : FixedUp v s) (ht : FixedUp v t) : s = t := by
  have hv : s.values = t.values := by
    funext p
    by_cases h0 : p = .display
    · subst h0; rw [hs.display, ht.display]
    by_cases h1 : p = .borderTopWidth
    · subst h1; rw [hs.top, ht.top]
    by_cases h2 : p = .borderLeftWidth
    · subst h2; rw [hs.left, ht.left]
    by_cases h3 : p = .borderBottomWidth
    · subst h3; rw [hs.bottom, ht.bottom]
    by_cases h4 : p = .borderRightWidth
    · subst h4; rw [hs.right, ht.right]
    rw [hs.others p h0 h1 h2 h3 h4, ht.others p h0 h1 h2 h3 h4]
  have hd := hs.specified.trans ht.specified.symm
  cases s; cases t
  simp_all

theorem usedDisplay_idem (p : Position) (f : Float) (d : Display) : usedDisplay p f (usedDisplay p f d) = usedDisplay p f d := by
  unfold usedDisplay
  split
  · cases d <;> rfl
  · rfl

theorem usedWidth_idem (s : LineStyle) (w : LengthOrPercentage) : usedWidth s (usedWidth s w) = usedWidth s w := by
  cases s <;> rfl

/-- **C33**: fixing up again changes no value. -/
theorem C33_idempotent (v : Values) : (postCascadeFixups (postCascadeFixups v).values).values = (postCascadeFixups v).values := by
  have h := C33_fixups v
  have h' := C33_fixups (postCascadeFixups v).values
  generalize postCascadeFixups (postCascadeFixups v).values = t at h'
  generalize postCascadeFixups v = s at h h'
  have hp : s.values .position = v .position := h.others _ (by decide) (by decide) (by decide) (by decide) (by decide)
  have hf : s.values .float = v .float := h.others _ (by decide) (by decide) (by decide) (by decide) (by decide)
  have h1 : s.values .borderTopStyle = v .borderTopStyle := h.others _ (by decide) (by decide) (by decide) (by decide) (by decide)
  have h2 : s.values .borderLeftStyle = v .borderLeftStyle := h.others _ (by decide) (by decide) (by decide) (by decide) (by decide)
  have h3 : s.values .borderBottomStyle = v .borderBottomStyle := h.others _ (by decide) (by decide) (by decide) (by decide) (by decide)
  have h4 : s.values .borderRightStyle = v .borderRightStyle := h.others _ (by decide) (by decide) (by decide) (by decide) (by decide)
  funext p
  by_cases e0 : p = .display
  · subst e0; rw [h'.display, hp, hf, h.display]; exact usedDisplay_idem ..
  by_cases e1 : p = .borderTopWidth
  · subst e1; rw [h'.top, h1, h.top]; exact usedWidth_idem ..
  by_cases e2 : p = .borderLeftWidth
  · subst e2; rw [h'.left, h2, h.left]; exact usedWidth_idem ..
  by_cases e3 : p = .borderBottomWidth
  · subst e3; rw [h'.bottom, h3, h.bottom]; exact usedWidth_idem ..
  by_cases e4 : p = .borderRightWidth
  · subst e4; rw [h'.right, h4, h.right]; exact usedWidth_idem ..
  exact h'.others p e0 e1 e2 e3 e4

/-- A floating inline box is a block, and its border without a line has no width. -/
example : (postCascadeFixups (initialValues.set .float Float.left)).values .display = Display.generatingBox .block .flow ∧
    (postCascadeFixups (initialValues.set .float Float.left)).specifiedDisplay = .generatingBox .inline .flow ∧
    (postCascadeFixups (initialValues.set .float Float.left)).values .borderTopWidth = LengthOrPercentage.length 0 := ⟨rfl, rfl, rfl⟩

/-- The candidate wins: it beats all others for its property. -/
def Spec.Winner {σ : Type} (specificity : σ → Nat) (isMatch : σ → Bool) (ua author : List (σ × List (Declaration × Bool)))
    (attr : List (Declaration × Bool)) (c : Candidate) : Prop :=
  Applies specificity isMatch ua author attr c ∧
    ∀ c', Applies specificity isMatch ua author attr c' → c'.declaration.longhand = c.declaration.longhand → c' = c ∨ Beats c c'

theorem Beats.asymm {a b : Candidate} (h : Beats a b) : ¬ Beats b a := by
  unfold Beats at *
  rintro h'
  cases ha : a.inline <;> cases hb : b.inline <;> simp only [ha, hb] at h h' <;> simp at h h' <;> omega

theorem Beats.irrefl (a : Candidate) : ¬ Beats a a := fun h => Beats.asymm h h

/-- In a list with each element beating those before, the winners are the last for their property. -/
theorem winner_last {cs : List Candidate} (hp : cs.Pairwise (fun a b => Beats b a)) {c : Candidate} (hc : c ∈ cs)
    (hw : ∀ c' ∈ cs, c'.declaration.longhand = c.declaration.longhand → c' = c ∨ Beats c c') :
    IsLast (cs.map Candidate.declaration) c.declaration := by
  obtain ⟨before, after, rfl⟩ := List.append_of_mem hc
  refine ⟨before.map Candidate.declaration, after.map Candidate.declaration, by simp, ?_⟩
  intro d hd
  obtain ⟨c', hc', rfl⟩ := List.mem_map.mp hd
  intro he
  have hb : Beats c' c := (List.pairwise_cons.mp (List.pairwise_append.mp hp).2.1).1 c' hc'
  rcases hw c' (by simp [hc']) he with rfl | h
  · exact Beats.irrefl _ hb
  · exact Beats.asymm h hb

theorem last_winner {cs : List Candidate} (hp : cs.Pairwise (fun a b => Beats b a)) {d : Declaration}
    (hl : IsLast (cs.map Candidate.declaration) d) :
    ∃ c ∈ cs, c.declaration = d ∧ ∀ c' ∈ cs, c'.declaration.longhand = c.declaration.longhand → c' = c ∨ Beats c c' := by
  obtain ⟨b, a, he, ha⟩ := hl
  obtain ⟨b', r', rfl, hb, hr⟩ := List.map_eq_append_iff.mp he
  obtain ⟨c, a', rfl, rfl, rfl⟩ := List.map_eq_cons_iff.mp hr
  refine ⟨c, by simp, rfl, ?_⟩
  intro c' hc' hl
  rcases List.mem_append.mp hc' with h | h
  · exact .inr ((List.pairwise_append.mp hp).2.2 c' h c (by simp))
  · rcases List.mem_cons.mp h with h | h
    · exact .inl h
    · exact absurd hl (ha _ (List.mem_map_of_mem h))

theorem start_unset (inherited : Values) :
    (fun p : Longhand => if p.isInherited = true then inherited p else initialValues p) = unset inherited := by
  funext p
  simp only [unset, initialValues_eq]
  by_cases h : Inherited p
  · simp [h, (isInherited_iff p).mpr h]
  · simp [h, mt (isInherited_iff p).mp h]

theorem cascaded_eq (parent : Option ComputedValues) (m : MatchingDeclarations) :
    cascaded parent (some m) = m.cascade .late (parentValues parent) (m.cascade .early (parentValues parent) (unset (parentValues parent))) := by
  cases parent with
  | none =>
    rw [← start_unset, show parentValues none = initialValues from initialValues_eq.symm]
    rfl
  | some p =>
    rw [← start_unset]
    rfl

theorem style_values {σ : Type} {colors : Colors} {tokenize : String → List Item} {specificity : σ → Nat} {isMatch : σ → Bool}
    {uaSheets authorSheets : List (List (SourceRule σ))} {uaSet authorSet : StyleSet σ} {element : Verif.Dom.ElementData}
    {parent : Option ComputedValues} {style : ComputedValues} {ua author : List (σ × List (Declaration × Bool))}
    {attr : List (Declaration × Bool)}
    (hua : addStylesheets colors ⟨[]⟩ uaSheets = .ok uaSet) (hauthor : addStylesheets colors ⟨[]⟩ authorSheets = .ok authorSet)
    (hstyle : styleForElement colors tokenize (uaSet.finish specificity) (authorSet.finish specificity) isMatch element parent =
      .ok style)
    (Hua : Appearances colors uaSheets.flatten ua) (Hauthor : Appearances colors authorSheets.flatten author)
    (Hattr : AttrContents colors tokenize element attr) :
    let ds := (allCandidates specificity isMatch ua author attr).map Candidate.declaration
    style = postCascadeFixups (ds.foldl (Phase.late.cascade (parentValues parent))
      (ds.foldl (Phase.early.cascade (parentValues parent)) (unset (parentValues parent)))) := by
  intro ds
  have mu : RulesMatch uaSet.rules ua := by
    simpa using addStylesheets_spec hua (rules := []) ⟨rfl, by simp⟩ Hua
  have ma : RulesMatch authorSet.rules author := by
    simpa using addStylesheets_spec hauthor (rules := []) ⟨rfl, by simp⟩ Hauthor
  unfold styleForElement at hstyle
  cases hb : styleAttrBlock colors tokenize element with
  | err => simp [hb] at hstyle
  | panic => simp [hb] at hstyle
  | ok blocks =>
    simp only [hb, Outcome.ok.injEq] at hstyle
    obtain ⟨ga, ea⟩ := styleAttrBlock_spec hb Hattr
    rw [← hstyle]
    unfold ComputedValues.new
    rw [cascaded_eq]
    have hgood : ∀ b ∈ (authorSet.finish specificity).pushMatching isMatch [] ++ blocks, b.Good := by
      intro b hb
      rcases List.mem_append.mp hb with h | h
      · exact finish_good ma specificity isMatch b h
      · exact ga b h
    rw [cascade_sequence _ (finish_good mu specificity isMatch) hgood, cascade_sequence _ (finish_good mu specificity isMatch) hgood]
    have hseq : MatchingDeclarations.sequence { ua := (uaSet.finish specificity).pushMatching isMatch [], author := (authorSet.finish specificity).pushMatching isMatch [] ++ blocks } = ds := by
      unfold MatchingDeclarations.sequence
      simp only [List.flatMap_append, finish_matching mu, finish_matching ma, ea, ds, allCandidates, List.map_append,
        candidates_declarations, attr_declarations]
    rw [hseq]

/-- **C28**: the value of each property of an element comes from the winning declaration among those that apply to it, by origin
and importance, the `style` attribute, specificity and order; or is that of `unset` when no declaration applies. The style of the
element is what the fix-ups make of it. -/
theorem C28_winner {σ : Type} {colors : Colors} {tokenize : String → List Item} {specificity : σ → Nat} {isMatch : σ → Bool}
    {uaSheets authorSheets : List (List (SourceRule σ))} {uaSet authorSet : StyleSet σ} {element : Verif.Dom.ElementData}
    {parent : Option ComputedValues} {style : ComputedValues} {ua author : List (σ × List (Declaration × Bool))}
    {attr : List (Declaration × Bool)}
    (hua : addStylesheets colors ⟨[]⟩ uaSheets = .ok uaSet) (hauthor : addStylesheets colors ⟨[]⟩ authorSheets = .ok authorSet)
    (hstyle : styleForElement colors tokenize (uaSet.finish specificity) (authorSet.finish specificity) isMatch element parent =
      .ok style)
    (Hua : Appearances colors uaSheets.flatten ua) (Hauthor : Appearances colors authorSheets.flatten author)
    (Hattr : AttrContents colors tokenize element attr) :
    ∃ v, FixedUp v style ∧
      (∀ c, Winner specificity isMatch ua author attr c →
        v c.declaration.longhand = valueOf v.fontSize (parentValues parent) c.declaration) ∧
      ∀ p, (∃ c, Winner specificity isMatch ua author attr c ∧ c.declaration.longhand = p) ∨
        (∀ c, Applies specificity isMatch ua author attr c → c.declaration.longhand ≠ p) ∧ v p = unset (parentValues parent) p := by
  have h := style_values hua hauthor hstyle Hua Hauthor Hattr
  have hp := pairwise_allCandidates specificity isMatch ua author attr
  obtain ⟨t1, t2⟩ := two_phases (parentValues parent) (unset (parentValues parent))
    ((allCandidates specificity isMatch ua author attr).map Candidate.declaration)
  refine ⟨_, h ▸ C33_fixups _, ?_, ?_⟩
  · rintro c ⟨hc, hw⟩
    apply t1
    exact winner_last hp ((mem_allCandidates ..).mpr hc) (fun c' hc' => hw c' ((mem_allCandidates ..).mp hc'))
  · intro p
    rcases isLast_or ((allCandidates specificity isMatch ua author attr).map Candidate.declaration) p with ⟨d, hd, hdp⟩ | hn
    · obtain ⟨c, hc, rfl, hw⟩ := last_winner hp hd
      exact .inl ⟨c, ⟨(mem_allCandidates ..).mp hc, fun c' hc' => hw c' ((mem_allCandidates ..).mpr hc')⟩, hdp⟩
    · refine .inr ⟨?_, t2 p hn⟩
      intro c hc
      exact hn _ (List.mem_map_of_mem ((mem_allCandidates ..).mpr hc))

/-- **C28**: at most one declaration wins for each property. -/
theorem C28_one_winner {σ : Type} {specificity : σ → Nat} {isMatch : σ → Bool} {ua author : List (σ × List (Declaration × Bool))}
    {attr : List (Declaration × Bool)} {a b : Candidate} (ha : Winner specificity isMatch ua author attr a)
    (hb : Winner specificity isMatch ua author attr b) (h : a.declaration.longhand = b.declaration.longhand) : a = b := by
  rcases ha.2 b hb.1 h.symm with e | h1
  · exact e.symm
  · rcases hb.2 a ha.1 h with e | h2
    · exact e
    · exact absurd h2 (Beats.asymm h1)

theorem contents_exist (colors : Colors) : ∀ items : List Item, ∃ contents, Contents colors items contents
  | [] => ⟨[], .nil⟩
  | item :: items => by
    obtain ⟨rest, hr⟩ := contents_exist colors items
    by_cases h : Valid colors item
    · cases item with
      | invalid => exact absurd h (by simp [Valid])
      | declaration name tokens =>
        obtain ⟨ds, imp, hd⟩ := h
        exact ⟨_, .valid name tokens ds imp items rest hd hr⟩
    · exact ⟨rest, .ignored item items rest h hr⟩

/-- Whatever the sheets and the attribute, there are contents for which C28 says something. -/
theorem C28_contents_exist (colors : Colors) {σ : Type} (sheet : List (SourceRule σ)) : ∃ rules, Appearances colors sheet rules := by
  induction sheet with
  | nil => exact ⟨[], .nil⟩
  | cons r sheet ih =>
    obtain ⟨rest, hr⟩ := ih
    cases r with
    | none => exact ⟨rest, .invalid _ _ hr⟩
    | some x =>
      obtain ⟨selectors, items⟩ := x
      obtain ⟨contents, hc⟩ := contents_exist colors items
      exact ⟨_, .rule selectors items sheet contents rest hc hr⟩

/-- **C31**: lengths in em of all other properties use the font size of the element itself, whatever the order of the
declarations; font sizes in em use that of the parent. -/
theorem C31_em {σ : Type} {colors : Colors} {tokenize : String → List Item} {specificity : σ → Nat} {isMatch : σ → Bool}
    {uaSheets authorSheets : List (List (SourceRule σ))} {uaSet authorSet : StyleSet σ} {element : Verif.Dom.ElementData}
    {parent : Option ComputedValues} {style : ComputedValues} {ua author : List (σ × List (Declaration × Bool))}
    {attr : List (Declaration × Bool)}
    (hua : addStylesheets colors ⟨[]⟩ uaSheets = .ok uaSet) (hauthor : addStylesheets colors ⟨[]⟩ authorSheets = .ok authorSet)
    (hstyle : styleForElement colors tokenize (uaSet.finish specificity) (authorSet.finish specificity) isMatch element parent =
      .ok style)
    (Hua : Appearances colors uaSheets.flatten ua) (Hauthor : Appearances colors authorSheets.flatten author)
    (Hattr : AttrContents colors tokenize element attr) (c : Candidate) (hc : Winner specificity isMatch ua author attr c) (x : Rat) :
    (c.declaration = .value .fontSize (SpecifiedLength.em x) → style.values .fontSize = x * (parentValues parent).fontSize) ∧
    (c.declaration = .value .width (.length (.em x)) → style.values .width = .length (x * style.values.fontSize)) ∧
    (c.declaration = .value .height (.length (.em x)) → style.values .height = .length (x * style.values.fontSize)) ∧
    (c.declaration = .value .top (.length (.em x)) → style.values .top = .length (x * style.values.fontSize)) ∧
    (c.declaration = .value .left (.length (.em x)) → style.values .left = .length (x * style.values.fontSize)) ∧
    (c.declaration = .value .bottom (.length (.em x)) → style.values .bottom = .length (x * style.values.fontSize)) ∧
    (c.declaration = .value .right (.length (.em x)) → style.values .right = .length (x * style.values.fontSize)) ∧
    (c.declaration = .value .marginTop (.length (.em x)) → style.values .marginTop = .length (x * style.values.fontSize)) ∧
    (c.declaration = .value .marginLeft (.length (.em x)) → style.values .marginLeft = .length (x * style.values.fontSize)) ∧
    (c.declaration = .value .marginBottom (.length (.em x)) → style.values .marginBottom = .length (x * style.values.fontSize)) ∧
    (c.declaration = .value .marginRight (.length (.em x)) → style.values .marginRight = .length (x * style.values.fontSize)) ∧
    (c.declaration = .value .paddingTop (.length (.em x)) → style.values .paddingTop = .length (x * style.values.fontSize)) ∧
    (c.declaration = .value .paddingLeft (.length (.em x)) → style.values .paddingLeft = .length (x * style.values.fontSize)) ∧
    (c.declaration = .value .paddingBottom (.length (.em x)) → style.values .paddingBottom = .length (x * style.values.fontSize)) ∧
    (c.declaration = .value .paddingRight (.length (.em x)) → style.values .paddingRight = .length (x * style.values.fontSize)) := by
  obtain ⟨v, hf, h, _⟩ := C28_winner hua hauthor hstyle Hua Hauthor Hattr
  have hs : style.values.fontSize = v.fontSize := hf.others _ (by decide) (by decide) (by decide) (by decide) (by decide)
  have key : ∀ p s, p ≠ .display → p ≠ .borderTopWidth → p ≠ .borderLeftWidth → p ≠ .borderBottomWidth → p ≠ .borderRightWidth →
      c.declaration = .value p s → style.values p = computed style.values.fontSize (parentValues parent) p s := by
    intro p s h0 h1 h2 h3 h4 he
    have := h c hc
    rw [he] at this
    rw [hf.others p h0 h1 h2 h3 h4, hs]
    exact this
  refine ⟨?_, ?_, ?_, ?_, ?_, ?_, ?_, ?_, ?_, ?_, ?_, ?_, ?_, ?_, ?_⟩ <;> intro he <;>
    exact key _ _ (by decide) (by decide) (by decide) (by decide) (by decide) he

/-- **C32**: a property whose winning declaration is a CSS-wide keyword takes the value of the parent, its initial value, or one
or the other by whether it is inherited; so does one without any declaration. At the root, the parent's values are the initial
ones. (The border widths and `display` are then fixed up: C33.) -/
theorem C32_css_wide {σ : Type} {colors : Colors} {tokenize : String → List Item} {specificity : σ → Nat} {isMatch : σ → Bool}
    {uaSheets authorSheets : List (List (SourceRule σ))} {uaSet authorSet : StyleSet σ} {element : Verif.Dom.ElementData}
    {parent : Option ComputedValues} {style : ComputedValues} {ua author : List (σ × List (Declaration × Bool))}
    {attr : List (Declaration × Bool)}
    (hua : addStylesheets colors ⟨[]⟩ uaSheets = .ok uaSet) (hauthor : addStylesheets colors ⟨[]⟩ authorSheets = .ok authorSet)
    (hstyle : styleForElement colors tokenize (uaSet.finish specificity) (authorSet.finish specificity) isMatch element parent =
      .ok style)
    (Hua : Appearances colors uaSheets.flatten ua) (Hauthor : Appearances colors authorSheets.flatten author)
    (Hattr : AttrContents colors tokenize element attr) :
    ∃ v, FixedUp v style ∧ ∀ p,
      ((∃ c, Winner specificity isMatch ua author attr c ∧ c.declaration = .cssWide p .inherit) → v p = parentValues parent p) ∧
      ((∃ c, Winner specificity isMatch ua author attr c ∧ c.declaration = .cssWide p .initial) → v p = initial p) ∧
      ((∃ c, Winner specificity isMatch ua author attr c ∧ c.declaration = .cssWide p .unset) ∨
          (∀ c, Applies specificity isMatch ua author attr c → c.declaration.longhand ≠ p) →
        v p = if p = .fontSize ∨ p = .color then parentValues parent p else initial p) := by
  obtain ⟨v, hf, h, h'⟩ := C28_winner hua hauthor hstyle Hua Hauthor Hattr
  have key : ∀ c p k, Winner specificity isMatch ua author attr c → c.declaration = .cssWide p k →
      v p = valueOf v.fontSize (parentValues parent) (.cssWide p k) := by
    intro c p k hc he
    have := h c hc
    rw [he] at this
    exact this
  refine ⟨v, hf, fun p => ⟨?_, ?_, ?_⟩⟩
  · rintro ⟨c, hc, he⟩; exact key c p _ hc he
  · rintro ⟨c, hc, he⟩; exact key c p _ hc he
  · rintro (⟨c, hc, he⟩ | hn)
    · exact key c p _ hc he
    · rcases h' p with ⟨c, hc, he⟩ | ⟨_, hv⟩
      · exact absurd he (hn c hc.1)
      · exact hv

/-- **C32**: an anonymous box inherits the font size and the colour, all else is initial; without border lines, the border widths
are zero. -/
theorem C32_anonymous (parent : ComputedValues) (p : Longhand) :
    (ComputedValues.anonymousInheritingFrom (some parent)).values p =
      match p with
      | .fontSize => parent.values .fontSize
      | .color => parent.values .color
      | .borderTopWidth | .borderLeftWidth | .borderBottomWidth | .borderRightWidth => LengthOrPercentage.length 0
      | p => initial p := by
  cases p <;> rfl

/-- Selectors for the examples: a specificity, and whether it matches. -/
abbrev ExampleSelector := Nat × Bool

/-- `p { display: block; width: 1px !important }` of the user agent. -/
def exampleUa : List (List (SourceRule ExampleSelector)) :=
  [[some ([(1, true)], [.declaration "display" [.ident "block"],
    .declaration "width" [.dimension 1 "px", .delim '!', .ident "important"]])]]

/-- `.c { height: 2em; width: 3px !important } p { height: 1px; font-size: 2em; color: inherit } q { height: 5px }`. -/
def exampleAuthor : List (List (SourceRule ExampleSelector)) :=
  [[some ([(10, true)], [.declaration "height" [.dimension 2 "em"],
      .declaration "width" [.dimension 3 "px", .delim '!', .ident "important"]])],
    [some ([(1, true)], [.declaration "height" [.dimension 1 "px"], .declaration "font-size" [.dimension 2 "em"],
      .declaration "color" [.ident "inherit"]]), none, some ([(20, false)], [.declaration "height" [.dimension 5 "px"]])]]

/-- `<p style>` with `float: left` in the attribute. -/
def exampleElement : Verif.Dom.ElementData :=
  { name := ⟨none, Verif.Dom.htmlNs, "p"⟩, attrs := [{ name := ⟨none, "", "style"⟩, value := "float: left" }],
    mathmlIntegrationPoint := false }

def exampleTokenize : String → List Item := fun _ => [.declaration "float" [.ident "left"], .invalid]

/-- C28 applies to it. -/
example : ∃ ua author style, addStylesheets noColors ⟨[]⟩ exampleUa = .ok ua ∧ addStylesheets noColors ⟨[]⟩ exampleAuthor = .ok author ∧
    styleForElement noColors exampleTokenize (ua.finish Prod.fst) (author.finish Prod.fst) Prod.snd exampleElement none = .ok style :=
  ⟨_, _, _, rfl, rfl, rfl⟩

/-- The style of the example with the sorted sheets. -/
def exampleStyle (ua author : Outcome (StyleSet ExampleSelector)) (sort : StyleSet ExampleSelector → StyleSet ExampleSelector) :
    Option (Rat × LengthOrPercentageOrAuto × LengthOrPercentageOrAuto × Display) :=
  match ua, author with
  | .ok ua, .ok author =>
    match styleForElement noColors exampleTokenize (sort ua) (sort author) Prod.snd exampleElement none with
    | .ok s => some (s.values .fontSize, s.values .height, s.values .width, s.values .display)
    | _ => none
  | _, _ => none

/-- What it gives: the height by specificity, in em of the font size of the element; the width of the user agent by importance. -/
example : exampleStyle (addStylesheets noColors ⟨[]⟩ exampleUa) (addStylesheets noColors ⟨[]⟩ exampleAuthor) (StyleSet.finish Prod.fst) =
    some (32, .length 64, .length 1, .generatingBox .block .flow) := by
  have h1 : ∀ a : ExampleSelector × DeclarationBlock, StyleSet.finish Prod.fst ⟨[a]⟩ = ⟨[a]⟩ := fun a => by simp [StyleSet.finish]
  have h3 : ∀ a b c : ExampleSelector × DeclarationBlock, b.1.1 < a.1.1 → a.1.1 < c.1.1 →
      StyleSet.finish Prod.fst ⟨[a, b, c]⟩ = ⟨[b, a, c]⟩ := by
    intro a b c h1 h2
    have hba : ¬ a.1.1 ≤ b.1.1 := by omega
    have hac : a.1.1 ≤ c.1.1 := by omega
    have hbc : b.1.1 ≤ c.1.1 := by omega
    simp [StyleSet.finish, List.mergeSort, List.MergeSort.Internal.splitInTwo, List.splitAt, List.splitAt.go, List.merge, *]
  have e1 : exampleStyle (addStylesheets noColors ⟨[]⟩ exampleUa) (addStylesheets noColors ⟨[]⟩ exampleAuthor) (StyleSet.finish Prod.fst) =
      exampleStyle (addStylesheets noColors ⟨[]⟩ exampleUa) (addStylesheets noColors ⟨[]⟩ exampleAuthor)
        (fun s => match s.rules with | [a, b, c] => ⟨[b, a, c]⟩ | _ => s) := by
    unfold exampleStyle
    rw [show addStylesheets noColors ⟨[]⟩ exampleUa = .ok ⟨[_]⟩ from rfl,
      show addStylesheets noColors ⟨[]⟩ exampleAuthor = .ok ⟨[_, _, _]⟩ from rfl]
    dsimp only
    rw [h1, h3 _ _ _ (by decide) (by decide)]
  rw [e1]
  decide +kernel

end Verif.Style
