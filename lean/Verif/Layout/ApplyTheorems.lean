/- C107: properties make no difference where they do not apply. C108: borders are not painted. -/
import Verif.Layout.ApplyBoxes
import Verif.Layout.CollapseTheorems
namespace Verif.Layout
open Verif.Style Verif.Style.Spec Verif.Text Verif.Pdf Verif.Dom

variable {A : ComputedValues → Longhand → Bool}

theorem SameWhere.display (hA : ∀ s p, usedHere s p = true → A s p = true) {s s' : ComputedValues} (h : SameWhere A s s') :
    displayOf s = displayOf s' := h.1 .display (hA _ _ rfl)

theorem SameWhere.value (hA : ∀ s p, usedHere s p = true → A s p = true) {s s' : ComputedValues} (h : SameWhere A s s') {p : Longhand}
    (hp : usedHere s p = true) : s.values p = s'.values p := h.1 p (hA _ _ hp)

theorem SameWhere.position (hA : ∀ s p, usedHere s p = true → A s p = true) {s s' : ComputedValues} (h : SameWhere A s s')
    (hb : hasBox s = true) : positionOf s = positionOf s' :=
  h.value hA (p := .position) (by simp [usedHere, appliesHere, Css.applies, BorderPaint, hb])

theorem SameWhere.float (hA : ∀ s p, usedHere s p = true → A s p = true) {s s' : ComputedValues} (h : SameWhere A s s')
    (hb : hasBox s = true) : floatOf s = floatOf s' :=
  h.value hA (p := .float) (by simp [usedHere, appliesHere, Css.applies, BorderPaint, hb])

theorem SameWhere.look (hA : ∀ s p, usedHere s p = true → A s p = true) {s s' : ComputedValues} (h : SameWhere A s s')
    (hd : displayOf s ≠ .none) : textLook s = textLook s' := by
  unfold textLook
  rw [h.value hA (p := .fontSize) (by simp [usedHere, appliesHere, Css.applies, BorderPaint, hd]),
    h.value hA (p := .color) (by simp [usedHere, appliesHere, Css.applies, BorderPaint, hd])]

theorem SameWhere.relevant (hA : ∀ s p, usedHere s p = true → A s p = true) {s s' : ComputedValues} (h : SameWhere A s s')
    (hb : hasBox s = true) : relevant s = relevant s' := by
  have e1 := h.display hA
  have e2 := h.position hA hb
  have e3 := h.float hA hb
  have hb' : hasBox s' = true := by rw [← hb, hasBox, hasBox, e1]
  have ei : inlineElement s = inlineElement s' := by unfold inlineElement; rw [e1, e2, e3]
  have eu : ∀ p, usedHere s p = usedHere s' p := by
    intro p
    cases p <;> simp [usedHere, appliesHere, Css.applies, BorderPaint, hb, hb', ei, e1, e2]
  unfold Layout.relevant
  rw [if_pos hb, if_pos hb', h.2 hb]
  congr 1
  funext p
  rw [← eu p]
  split
  · rename_i hu
    exact h.value hA hu
  · rfl

mutual
theorem StyledNode.SameWhere.alike (hA : ∀ s p, usedHere s p = true → A s p = true) : ∀ (n n' : StyledNode) (p p' : ComputedValues)
    (ns ns' : List StyledNode), n.SameWhere A n' → AlikeBut relevantDye p p' ns ns' → AlikeBut relevantDye p p' (n :: ns) (n' :: ns')
  | .ignored, .ignored, _, _, _, _, _, hr => .ignored hr
  | .text _, .text _, _, _, _, _, h, hr => by
    rw [StyledNode.SameWhere] at h
    subst h
    exact .text hr
  | .element s ch, .element s' ch', _, _, _, _, h, hr => by
    rw [StyledNode.SameWhere] at h
    obtain ⟨h1, h2⟩ := h
    have hd := h1.display hA
    rcases h2 with h2 | h2
    · exact .hidden h2 (hd ▸ h2) hr
    · have hi := nodesSameWhere_alike hA ch ch' s s' h2
      rcases h3 : displayOf s with _ | _ | ⟨o, i⟩
      · exact .hidden h3 (hd ▸ h3) hr
      · exact .bare h3 (hd ▸ h3) (h1.look hA (by simp [h3])) hi hr
      · have hb : hasBox s = true := by simp [hasBox, h3]
        exact .element (h1.relevant hA hb) (h1.look hA (by simp [h3])) hd (h1.position hA hb) (h1.float hA hb) hi hr
  | .ignored, .text _, _, _, _, _, h, _ | .ignored, .element _ _, _, _, _, _, h, _ | .text _, .ignored, _, _, _, _, h, _
  | .text _, .element _ _, _, _, _, _, h, _ | .element _ _, .ignored, _, _, _, _, h, _ | .element _ _, .text _, _, _, _, _, h, _ => by
    rw [StyledNode.SameWhere] at h
    exact h.elim
    all_goals simp
theorem nodesSameWhere_alike (hA : ∀ s p, usedHere s p = true → A s p = true) : ∀ (ns ns' : List StyledNode) (p p' : ComputedValues),
    nodesSameWhere A ns ns' → AlikeBut relevantDye p p' ns ns'
  | [], [], _, _, _ => .nil
  | n :: ns, n' :: ns', p, p', h => by
    rw [nodesSameWhere] at h
    exact StyledNode.SameWhere.alike hA n n' p p' ns ns' h.1 (nodesSameWhere_alike hA ns ns' p p' h.2)
  | [], _ :: _, _, _, h | _ :: _, [], _, _, h => by
    rw [nodesSameWhere] at h
    exact h.elim
    all_goals simp
end

theorem relevant_background (s : ComputedValues) : backgroundOf (relevant s) = backgroundOf s := by
  have h1 : (relevant s).values .backgroundColor = s.values .backgroundColor :=
    relevant_value s _ fun hb => by simp [usedHere, appliesHere, Css.applies, BorderPaint, hb]
  have h2 : (relevant s).values .color = s.values .color :=
    relevant_value s _ fun hb => by simp [usedHere, appliesHere, Css.applies, BorderPaint, displayed_of_box hb]
  unfold backgroundOf
  rw [h1, h2]

theorem shape_relevant (ascender : Rat) (f : Fragment) (origin : Vec2 Rat) :
    (dyeFragment relevantDye f).shape ascender origin = f.shape ascender origin := by
  cases f with
  | box info children => simp only [dyeFragment, Fragment.shape, dyeInfo, relevantDye, relevant_background, add_zero_vec]
  | anonymous => rfl
  | text => rfl

section
variable {σ σ' : Type} {E : Engine σ} {E' : Engine σ'} {Err : Type} (font : FontApi Rat Err) {d d' : Document} {F F' : Forest}

/-- What is on the pages of documents whose styles are the same where it matters. -/
theorem sameWhere_shapes (hA : ∀ s p, usedHere s p = true → A s p = true) {rootStyle rootStyle' : ComputedValues} {tree tree' : List StyledNode}
    {hidden hidden' : List Nat} (h : Denotes E d F rootStyle tree hidden) (h' : Denotes E' d' F' rootStyle' tree' hidden')
    (hroot : hasBox rootStyle = true ∧ inlineElement rootStyle = false) (hs : SameWhere A rootStyle rootStyle') (ht : nodesSameWhere A tree tree')
    {fuel fuel' : Nat} {schedule schedule' : Oracle} {viewport : Vec2 Rat} {fragments fragments' : List Fragment}
    (hl : layoutDocument E font d fuel schedule viewport = some fragments)
    (hl' : layoutDocument E' font d' fuel' schedule' viewport = some fragments') {placed placed' : List (Fragment × Vec2 Rat)}
    (hp : Placed ⟨0, 0⟩ fragments placed) (hp' : Placed ⟨0, 0⟩ fragments' placed') (ascender : Rat) :
    shapesOf ascender placed = shapesOf ascender placed' := by
  unfold layoutDocument at hl hl'
  rcases hc : constructDocument E d fuel with _ | root
  · simp [hc] at hl
  rcases hc' : constructDocument E' d' fuel' with _ | root'
  · simp [hc'] at hl'
  simp only [hc, hc'] at hl hl'
  obtain ⟨h1, -⟩ := constructDocument_sound h hc
  obtain ⟨h1', -⟩ := constructDocument_sound h' hc'
  have a1 := C58_fuel root fuel fuel' schedule schedule _ _ hl
  have a2 := C58_fuel root' fuel' fuel schedule' schedule _ _ hl'
  rw [Nat.add_comm] at a2
  have ei : inlineElement rootStyle' = false := by
    rw [← hroot.2]
    unfold inlineElement
    rw [hs.display hA, hs.position hA hroot.1, hs.float hA hroot.1]
  have e := alike_layout (D := relevantDye) font (hs.relevant hA hroot.1) (hs.look hA (displayed_of_box hroot.1)) (hs.display hA)
    (hs.position hA hroot.1) (hs.float hA hroot.1) (nodesSameWhere_alike hA _ _ _ _ ht) h1 h1' (constructRoot_fits relevantDye_suits (relevantDye_root hroot.2) h1)
    (constructRoot_fits relevantDye_suits (relevantDye_root ei) h1') (fuel + fuel') schedule viewport
  rw [a1, a2, Option.map_some, Option.map_some, Option.some.injEq] at e
  have k := hp.dyed (fun _ => rfl) hp' e
  unfold shapesOf
  clear hp hp' e a1 a2 hl hl'
  induction k with
  | nil => rfl
  | @cons x y _ _ hxy _ ih =>
    simp only [List.flatMap_cons, ih]
    rw [← shape_relevant, hxy.1, hxy.2, shape_relevant]

/-- Layout returns for both of them or for none. -/
theorem sameWhere_total (hA : ∀ s p, usedHere s p = true → A s p = true) {s s' : ComputedValues} {tree tree' : List StyledNode}
    (hroot : hasBox s = true ∧ inlineElement s = false) (hs : SameWhere A s s') (ht : nodesSameWhere A tree tree') (fuel : Nat)
    (schedule : Oracle) (viewport : Vec2 Rat) :
    ((constructRoot s tree).bind fun root => layoutRoot font fuel schedule root viewport).isSome =
      ((constructRoot s' tree').bind fun root => layoutRoot font fuel schedule root viewport).isSome := by
  have hn := nodesSameWhere_alike hA _ _ s s' ht
  have ei : inlineElement s' = false := by
    rw [← hroot.2]
    unfold inlineElement
    rw [hs.display hA, hs.position hA hroot.1, hs.float hA hroot.1]
  rcases map_cases (alike_constructRoot (D := relevantDye) (hs.relevant hA hroot.1) (hs.look hA (displayed_of_box hroot.1)) (hs.display hA)
    (hs.position hA hroot.1) (hs.float hA hroot.1) hn) with ⟨e1, e2⟩ | ⟨r, r', e1, e2, -⟩
  · rw [e1, e2]
  · have e := alike_layout (D := relevantDye) font (hs.relevant hA hroot.1) (hs.look hA (displayed_of_box hroot.1)) (hs.display hA)
      (hs.position hA hroot.1) (hs.float hA hroot.1) hn e1 e2 (constructRoot_fits relevantDye_suits (relevantDye_root hroot.2) e1) (constructRoot_fits relevantDye_suits (relevantDye_root ei) e2) fuel schedule viewport
    rw [e1, e2, Option.bind_some, Option.bind_some]
    simpa using congrArg Option.isSome e

/-! ### C107 -/

theorem used_applies (s : ComputedValues) (p : Longhand) (h : usedHere s p = true) : appliesHere s p = true := by
  simp only [usedHere, Bool.and_eq_true] at h
  exact h.1

/-- **C107**, part: two documents in which the properties have the same values wherever they apply, whatever their values are where they do
not. The same is on both pages, at the same places, in the same order. What is missing: vertical margins of inline elements, which do not apply
for CSS, do make a difference (see `C107_violated`), and the root element has to be a block. -/
theorem C107_applies_partial {rootStyle rootStyle' : ComputedValues} {tree tree' : List StyledNode}
    {hidden hidden' : List Nat} (h : Denotes E d F rootStyle tree hidden) (h' : Denotes E' d' F' rootStyle' tree' hidden')
    (hroot : hasBox rootStyle = true ∧ inlineElement rootStyle = false) (hs : SameWhere appliesHere rootStyle rootStyle')
    (ht : nodesSameWhere appliesHere tree tree')
    {fuel fuel' : Nat} {schedule schedule' : Oracle} {viewport : Vec2 Rat} {fragments fragments' : List Fragment}
    (hl : layoutDocument E font d fuel schedule viewport = some fragments)
    (hl' : layoutDocument E' font d' fuel' schedule' viewport = some fragments') {placed placed' : List (Fragment × Vec2 Rat)}
    (hp : Placed ⟨0, 0⟩ fragments placed) (hp' : Placed ⟨0, 0⟩ fragments' placed') (ascender : Rat) :
    shapesOf ascender placed = shapesOf ascender placed' :=
  sameWhere_shapes font used_applies h h' hroot hs ht hl hl' hp hp' ascender

/-- **C107**, part: the same file is made of both. See `C107_applies_partial`. -/
theorem C107_bytes_partial {R Er : Type} (P : Painter R Er) {rootStyle rootStyle' : ComputedValues} {tree tree' : List StyledNode}
    {hidden hidden' : List Nat} (h : Denotes E d F rootStyle tree hidden) (h' : Denotes E' d' F' rootStyle' tree' hidden')
    (hroot : hasBox rootStyle = true ∧ inlineElement rootStyle = false) (hs : SameWhere appliesHere rootStyle rootStyle')
    (ht : nodesSameWhere appliesHere tree tree') {fuel fuel' : Nat} {schedule schedule' : Oracle} {bytes bytes' : List Byte}
    (hb : toPdfBytes P E font d fuel schedule = some bytes) (hb' : toPdfBytes P E' font d' fuel' schedule' = some bytes') : bytes = bytes' :=
  bytes_of_shapes (fun hl hl' hp hp' => C107_applies_partial font h h' hroot hs ht hl hl' hp hp' P.ascender) hb hb'

/-- **C107**, part: layout returns for both of them or for none. See `C107_applies_partial`. -/
theorem C107_total_partial {s s' : ComputedValues} {tree tree' : List StyledNode} (hroot : hasBox s = true ∧ inlineElement s = false)
    (hs : SameWhere appliesHere s s') (ht : nodesSameWhere appliesHere tree tree') (fuel : Nat) (schedule : Oracle) (viewport : Vec2 Rat) :
    ((constructRoot s tree).bind fun root => layoutRoot font fuel schedule root viewport).isSome =
      ((constructRoot s' tree').bind fun root => layoutRoot font fuel schedule root viewport).isSome :=
  sameWhere_total font used_applies hroot hs ht fuel schedule viewport

/-! ### C108 -/

theorem used_notPaint (s : ComputedValues) (p : Longhand) (h : usedHere s p = true) : (!BorderPaint p) = true := by
  simp only [usedHere, Bool.and_eq_true] at h
  exact h.2

theorem used_seen (s : ComputedValues) (p : Longhand) (h : usedHere s p = true) : seenBorders s p = true := by
  have := used_notPaint s p h
  cases p <;> first | rfl | cases this

/-- **C108**, part: a border without style is not painted: its colour makes no difference to the file. What is missing: that other borders are
painted, which is false (see `C108_paint_violated`). -/
theorem C108_none_partial {R Er : Type} (P : Painter R Er) {rootStyle rootStyle' : ComputedValues} {tree tree' : List StyledNode}
    {hidden hidden' : List Nat} (h : Denotes E d F rootStyle tree hidden) (h' : Denotes E' d' F' rootStyle' tree' hidden')
    (hroot : hasBox rootStyle = true ∧ inlineElement rootStyle = false) (hs : SameWhere seenBorders rootStyle rootStyle')
    (ht : nodesSameWhere seenBorders tree tree') {fuel fuel' : Nat} {schedule schedule' : Oracle} {bytes bytes' : List Byte}
    (hb : toPdfBytes P E font d fuel schedule = some bytes) (hb' : toPdfBytes P E' font d' fuel' schedule' = some bytes') : bytes = bytes' :=
  bytes_of_shapes (fun hl hl' hp hp' => sameWhere_shapes font used_seen h h' hroot hs ht hl hl' hp hp' P.ascender) hb hb'

/-- Borders are never painted: the colours and the styles of borders can be changed at will without anything on the page being changed, as
long as their widths stay as they are. -/
theorem C108_paint_violated {rootStyle rootStyle' : ComputedValues} {tree tree' : List StyledNode}
    {hidden hidden' : List Nat} (h : Denotes E d F rootStyle tree hidden) (h' : Denotes E' d' F' rootStyle' tree' hidden')
    (hroot : hasBox rootStyle = true ∧ inlineElement rootStyle = false) (hs : SameWhere (fun _ p => !BorderPaint p) rootStyle rootStyle')
    (ht : nodesSameWhere (fun _ p => !BorderPaint p) tree tree')
    {fuel fuel' : Nat} {schedule schedule' : Oracle} {viewport : Vec2 Rat} {fragments fragments' : List Fragment}
    (hl : layoutDocument E font d fuel schedule viewport = some fragments)
    (hl' : layoutDocument E' font d' fuel' schedule' viewport = some fragments') {placed placed' : List (Fragment × Vec2 Rat)}
    (hp : Placed ⟨0, 0⟩ fragments placed) (hp' : Placed ⟨0, 0⟩ fragments' placed') (ascender : Rat) :
    shapesOf ascender placed = shapesOf ascender placed' :=
  sameWhere_shapes font used_notPaint h h' hroot hs ht hl hl' hp hp' ascender

/-- The same file is made of both. See `C108_paint_violated`. -/
theorem C108_bytes_violated {R Er : Type} (P : Painter R Er) {rootStyle rootStyle' : ComputedValues} {tree tree' : List StyledNode}
    {hidden hidden' : List Nat} (h : Denotes E d F rootStyle tree hidden) (h' : Denotes E' d' F' rootStyle' tree' hidden')
    (hroot : hasBox rootStyle = true ∧ inlineElement rootStyle = false) (hs : SameWhere (fun _ p => !BorderPaint p) rootStyle rootStyle')
    (ht : nodesSameWhere (fun _ p => !BorderPaint p) tree tree') {fuel fuel' : Nat} {schedule schedule' : Oracle} {bytes bytes' : List Byte}
    (hb : toPdfBytes P E font d fuel schedule = some bytes) (hb' : toPdfBytes P E' font d' fuel' schedule' = some bytes') : bytes = bytes' :=
  bytes_of_shapes (fun hl hl' hp hp' => C108_paint_violated font h h' hroot hs ht hl hl' hp hp' P.ascender) hb hb'

end

/-! ### Examples -/

/-- `html, div { display: block } head { display: none } p { … }`. -/
def applyEngine (extra : List Declaration) : Engine String :=
  { exampleEngine with
    ua := ⟨[("html", displayBlock (.generatingBox .block .flow)), ("div", displayBlock (.generatingBox .block .flow)),
            ("p", { declarations := extra, important := extra.map fun _ => false, anyNormal := ⟨false, true⟩ }),
            ("head", displayBlock .none)]⟩ }

/-- `width: 50px; left: 5px; border-top-color: #ff0000`. -/
def idleDeclarations : List Declaration :=
  [.value .width (.length (.absolute 50)), .value .left (.length (.absolute 5)), .value .borderTopColor (.rgba ⟨255, 0, 0, 255⟩)]

/-- `margin-top: 10px`. -/
def marginDeclarations : List Declaration := [.value .marginTop (.length (.absolute 10))]

/-- `border-top: 2px solid …`. -/
def borderDeclarations (color : RGBA) : List Declaration :=
  [.value .borderTopStyle .solid, .value .borderTopWidth (.length (.absolute 2)), .value .borderTopColor (.rgba color)]

/-- The styles of the elements of `exampleDocument2`. -/
def applyStyle (extra : List Declaration) (n : Nat) (parent : Option ComputedValues) : ComputedValues :=
  (nodeStyle (applyEngine extra) ⟨[]⟩ exampleDocument2 n parent).getD spanStyle

/-- The contents of `exampleDocument2`. -/
def applyTree (extra : List Declaration) : List StyledNode :=
  let html := applyStyle extra 2 none
  let div := applyStyle extra 4 (some html)
  [.element (applyStyle extra 3 (some html)) [],
    .element div [.element (applyStyle extra 5 (some div)) [.text (codes "a")], .text (codes "b")]]

theorem applyEngine_sheets (extra : List Declaration) : parseStylesheets (applyEngine extra) exampleDocument2 = some ⟨[]⟩ := by
  simp [parseStylesheets, show exampleDocument2.styleElements = [] from rfl, Document.stylesheetTexts, addStylesheets, StyleSet.finish]

theorem applyDocument_denotes {extra : List Declaration}
    (h : extra = [] ∨ extra = idleDeclarations ∨ extra = marginDeclarations ∨ extra = borderDeclarations ⟨255, 0, 0, 255⟩ ∨
      extra = borderDeclarations ⟨0, 0, 255, 255⟩) :
    Denotes (applyEngine extra) exampleDocument2 (forestOf exampleChildren2) (applyStyle extra 2 none) (applyTree extra) [3] := by
  refine ⟨represents_of_check exampleDocument2_check, acyclic_of_check exampleDocument2_check, ⟨[]⟩, 2, applyEngine_sheets extra, by decide,
    rfl, by rcases h with rfl | rfl | rfl | rfl | rfl <;> decide +kernel, ?_⟩
  rcases h with rfl | rfl | rfl | rfl | rfl
  all_goals
    exact .none (n := 3) (hidden := []) rfl rfl rfl (by decide +kernel)
      (.element (belowHidden := []) (hidden := []) (n := 4) rfl rfl rfl (by decide +kernel)
        (.element (belowHidden := []) (n := 5) rfl rfl rfl (by decide +kernel) (.text (n := 6) rfl rfl .nil)
          (.text (n := 7) rfl rfl .nil)) .nil)

theorem sameWhere_of {s s' : ComputedValues} (h : ∀ p : Longhand, (!A s p || sameValue p.kind (s.values p) (s'.values p)) = true)
    (hd : s.specifiedDisplay = s'.specifiedDisplay) : SameWhere A s s' := by
  refine ⟨fun p hp => ?_, fun _ => hd⟩
  have := h p
  simp only [hp, Bool.not_true, Bool.false_or] at this
  exact sameValue_of _ _ _ this

/-- Two documents that differ only in the styles of `p`, which are the same where it matters. -/
def ApplyPair (A : ComputedValues → Longhand → Bool) (extra extra' : List Declaration) : Prop :=
  SameWhere A (applyStyle extra 2 none) (applyStyle extra' 2 none) ∧ nodesSameWhere A (applyTree extra) (applyTree extra') ∧
  hasBox (applyStyle extra 2 none) = true ∧ inlineElement (applyStyle extra 2 none) = false

/-- The hypotheses of C107 are met by documents in which an inline element has a width, an offset and a colour of a border it has not got,
or none of them, and both are laid out. -/
theorem applyDocument_example : ApplyPair appliesHere [] idleDeclarations ∧
    Denotes (applyEngine []) exampleDocument2 (forestOf exampleChildren2) (applyStyle [] 2 none) (applyTree []) [3] ∧
    Denotes (applyEngine idleDeclarations) exampleDocument2 (forestOf exampleChildren2) (applyStyle idleDeclarations 2 none)
      (applyTree idleDeclarations) [3] ∧
    (nodeStyle (applyEngine idleDeclarations) ⟨[]⟩ exampleDocument2 5 none).map (fun s => sameValue .lengthOrPercentageOrAuto (s.values .width) (.length 50)) = some true ∧
    ∀ extra ∈ [[], idleDeclarations], (layoutDocument (applyEngine extra) exampleFont exampleDocument2 9 inOrder ⟨600, 800⟩).map (inkOf 1 ⟨0, 0⟩) =
      some [.glyphs [97] 16 ⟨0, 16⟩ ⟨0, 0, 0, 255⟩, .glyphs [98] 16 ⟨16, 16⟩ ⟨0, 0, 0, 255⟩] := by
  refine ⟨⟨?_, ?_, by decide +kernel, by decide +kernel⟩, applyDocument_denotes (by simp), applyDocument_denotes (by simp), by decide +kernel, ?_⟩
  · exact sameWhere_of (fun p => by cases p <;> decide +kernel) (by decide +kernel)
  · refine ⟨⟨?_, .inr trivial⟩, ⟨?_, .inr ⟨⟨?_, .inr ⟨rfl, trivial⟩⟩, rfl, trivial⟩⟩, trivial⟩ <;>
      exact sameWhere_of (fun p => by cases p <;> decide +kernel) (by decide +kernel)
  · intro extra he
    simp only [List.mem_cons, List.not_mem_nil, or_false] at he
    rcases he with rfl | rfl
    all_goals
      simp only [layoutDocument, constructDocument, applyEngine_sheets]
      decide +kernel

/-- The margin above an inline element moves what is below it, though for CSS it does not apply: the text is lower by 10 pixels. -/
theorem C107_violated : ApplyPair Css.applies [] marginDeclarations ∧
    Denotes (applyEngine []) exampleDocument2 (forestOf exampleChildren2) (applyStyle [] 2 none) (applyTree []) [3] ∧
    Denotes (applyEngine marginDeclarations) exampleDocument2 (forestOf exampleChildren2) (applyStyle marginDeclarations 2 none)
      (applyTree marginDeclarations) [3] ∧
    (layoutDocument (applyEngine []) exampleFont exampleDocument2 9 inOrder ⟨600, 800⟩).map (inkOf 1 ⟨0, 0⟩) =
      some [.glyphs [97] 16 ⟨0, 16⟩ ⟨0, 0, 0, 255⟩, .glyphs [98] 16 ⟨16, 16⟩ ⟨0, 0, 0, 255⟩] ∧
    (layoutDocument (applyEngine marginDeclarations) exampleFont exampleDocument2 9 inOrder ⟨600, 800⟩).map (inkOf 1 ⟨0, 0⟩) =
      some [.glyphs [97] 16 ⟨0, 26⟩ ⟨0, 0, 0, 255⟩, .glyphs [98] 16 ⟨16, 16⟩ ⟨0, 0, 0, 255⟩] := by
  refine ⟨⟨?_, ?_, by decide +kernel, by decide +kernel⟩, applyDocument_denotes (by simp), applyDocument_denotes (by simp), ?_, ?_⟩
  · exact sameWhere_of (fun p => by cases p <;> decide +kernel) (by decide +kernel)
  · refine ⟨⟨?_, .inr trivial⟩, ⟨?_, .inr ⟨⟨?_, .inr ⟨rfl, trivial⟩⟩, rfl, trivial⟩⟩, trivial⟩ <;>
      exact sameWhere_of (fun p => by cases p <;> decide +kernel) (by decide +kernel)
  · simp only [layoutDocument, constructDocument, applyEngine_sheets]
    decide +kernel
  · simp only [layoutDocument, constructDocument, applyEngine_sheets]
    decide +kernel

/-- The hypotheses of `C108_paint_violated` are met by documents in which an inline element has a red border, or a blue one, and both are laid
out, the border being there: it takes 2 pixels. -/
theorem borderDocument_example : ApplyPair (fun _ p => !BorderPaint p) (borderDeclarations ⟨255, 0, 0, 255⟩) (borderDeclarations ⟨0, 0, 255, 255⟩) ∧
    ∀ color ∈ [(⟨255, 0, 0, 255⟩ : RGBA), ⟨0, 0, 255, 255⟩],
      Denotes (applyEngine (borderDeclarations color)) exampleDocument2 (forestOf exampleChildren2) (applyStyle (borderDeclarations color) 2 none)
        (applyTree (borderDeclarations color)) [3] ∧
      (nodeStyle (applyEngine (borderDeclarations color)) ⟨[]⟩ exampleDocument2 5 none).map (fun s => sameValue .color (s.values .borderTopColor) (.rgba color)) =
        some true ∧
      (layoutDocument (applyEngine (borderDeclarations color)) exampleFont exampleDocument2 9 inOrder ⟨600, 800⟩).map (inkOf 1 ⟨0, 0⟩) =
        some [.glyphs [97] 16 ⟨0, 18⟩ ⟨0, 0, 0, 255⟩, .glyphs [98] 16 ⟨16, 16⟩ ⟨0, 0, 0, 255⟩] := by
  refine ⟨⟨?_, ?_, by decide +kernel, by decide +kernel⟩, ?_⟩
  · exact sameWhere_of (fun p => by cases p <;> decide +kernel) (by decide +kernel)
  · refine ⟨⟨?_, .inr trivial⟩, ⟨?_, .inr ⟨⟨?_, .inr ⟨rfl, trivial⟩⟩, rfl, trivial⟩⟩, trivial⟩ <;>
      exact sameWhere_of (fun p => by cases p <;> decide +kernel) (by decide +kernel)
  · intro color he
    simp only [List.mem_cons, List.not_mem_nil, or_false] at he
    rcases he with rfl | rfl
    all_goals
      refine ⟨applyDocument_denotes (by simp), by decide +kernel, ?_⟩
      simp only [layoutDocument, constructDocument, applyEngine_sheets]
      decide +kernel

end Verif.Layout
