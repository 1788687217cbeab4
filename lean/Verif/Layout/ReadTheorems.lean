/- C88: the page reads from top to bottom and from left to right. -/
import Verif.Layout.ReadLemmas
import Verif.Layout.LookTheorems
namespace Verif.Layout
open Verif.Style Verif.Text Verif.Dom Verif.Pdf

/-! ### Construction of boxes -/

section
variable {P T : ComputedValues → Prop}

theorem inlinesEvery_append (bs cs : List InlineLevelBox) : inlinesEvery P T (bs ++ cs) ↔ inlinesEvery P T bs ∧ inlinesEvery P T cs := by
  induction bs with
  | nil => simp [inlinesEvery]
  | cons b bs ih => simp [inlinesEvery, ih, and_assoc]

theorem blocksEvery_append (bs cs : List BlockLevelBox) : blocksEvery P T (bs ++ cs) ↔ blocksEvery P T bs ∧ blocksEvery P T cs := by
  induction bs with
  | nil => simp [blocksEvery]
  | cons b bs ih => simp [blocksEvery, ih, and_assoc]

/-- The boxes in a builder satisfy `Every`. -/
structure BuilderEvery (P T : ComputedValues → Prop) (b : Builder) : Prop where
  blocks : blocksEvery P T b.blockLevelBoxes
  inlines : inlinesEvery P T b.ongoing
  stack : ∀ o ∈ b.stack, inlinesEvery P T o.children

theorem BuilderEvery.new : BuilderEvery P T Builder.new := ⟨trivial, trivial, by simp [Builder.new]⟩

theorem BuilderEvery.current {b : Builder} (h : BuilderEvery P T b) : inlinesEvery P T b.current := by
  unfold Builder.current
  split
  · rename_i o rest hs
    exact h.stack o (by simp [hs])
  · exact h.inlines

theorem BuilderEvery.setCurrent {b : Builder} (h : BuilderEvery P T b) {bs : List InlineLevelBox} (h1 : inlinesEvery P T bs) :
    BuilderEvery P T (b.setCurrent bs) := by
  unfold Builder.setCurrent
  split
  · rename_i o rest hs
    refine ⟨h.blocks, h.inlines, fun o' ho' => ?_⟩
    rcases List.mem_cons.mp ho' with rfl | ho'
    · exact h1
    · exact h.stack o' (by simp [hs, ho'])
  · exact ⟨h.blocks, h1, h.stack⟩

theorem BuilderEvery.push {b : Builder} (h : BuilderEvery P T b) {box : InlineLevelBox} (h1 : box.Every P T) :
    BuilderEvery P T (b.push box) :=
  h.setCurrent ((inlinesEvery_append _ _).mpr ⟨h.current, h1, trivial⟩)

theorem BuilderEvery.handleText {b : Builder} (h : BuilderEvery P T b) (t : List Nat) {ps : ComputedValues} (hp : T ps) :
    BuilderEvery P T (b.handleText t ps) := by
  rw [handleText_eq]
  split
  · exact h
  · refine h.setCurrent ?_
    have hcur := h.current
    rcases appendText_cases ps (b.added t) b.current with h1 | ⟨pre, s, u, h1, h2⟩
    · rw [h1, inlinesEvery_append]
      exact ⟨hcur, hp, trivial⟩
    · rw [h2, inlinesEvery_append]
      rw [h1, inlinesEvery_append] at hcur
      exact ⟨hcur.1, hcur.2.1, trivial⟩

theorem BuilderEvery.endOngoing {b b1 : Builder} {cs : ComputedValues} (h : BuilderEvery P T b)
    (hcs : P (ComputedValues.anonymousInheritingFrom (some cs))) (he : b.endOngoing cs = some b1) : BuilderEvery P T b1 := by
  unfold Builder.endOngoing at he
  split at he
  · cases he
  · split at he
    · injection he with he
      exact he ▸ h
    · injection he with he
      subst he
      exact ⟨(blocksEvery_append _ _).mpr ⟨h.blocks, ⟨hcs, h.inlines⟩, trivial⟩, trivial, h.stack⟩

theorem BuilderEvery.finish {b : Builder} {cs : ComputedValues} {c : BlockContainer} {f : Bool} (h : BuilderEvery P T b)
    (hcs : P (ComputedValues.anonymousInheritingFrom (some cs))) (he : b.finish cs = some (c, f)) : c.Every P T := by
  unfold Builder.finish at he
  split at he
  · simp only [Option.some.injEq, Prod.mk.injEq] at he
    obtain ⟨rfl, -⟩ := he
    exact h.blocks
  · split at he
    · simp only [Option.some.injEq, Prod.mk.injEq] at he
      obtain ⟨rfl, -⟩ := he
      exact h.inlines
    · rcases h1 : b.endOngoing cs with _ | b1
      · simp [h1] at he
      · simp only [h1, Option.some.injEq, Prod.mk.injEq] at he
        obtain ⟨rfl, -⟩ := he
        exact (h.endOngoing hcs h1).blocks

theorem BuilderEvery.pushBlock {b : Builder} (h : BuilderEvery P T b) {box : BlockLevelBox} (f : Bool) (hb : box.Every P T) :
    BuilderEvery P T { b with blockLevelBoxes := b.blockLevelBoxes ++ [box], containsFloats := f } :=
  ⟨(blocksEvery_append _ _).mpr ⟨h.blocks, hb, trivial⟩, h.inlines, h.stack⟩

/-- What is asked of the styles of elements. -/
abbrev ElementStyle (P T : ComputedValues → Prop) (s : ComputedValues) : Prop := T s ∧ (displayOf s ≠ .contents → P s)

theorem traverse_every (hanon : ∀ s, P s → P (ComputedValues.anonymousInheritingFrom (some s))) : TraversalCases
    (fun cs ps n b b' => SameOutside b b' ∧
      (n.All (fun s _ => ElementStyle P T s) → P cs → T ps → BuilderEvery P T b → BuilderEvery P T b'))
    (fun cs ps ns b b' => SameOutside b b' ∧
      (nodesAll (fun s _ => ElementStyle P T s) ns → P cs → T ps → BuilderEvery P T b → BuilderEvery P T b')) where
  ignored _ _ b := ⟨.refl b, fun _ _ _ => id⟩
  text _ _ t b := ⟨.handleText _ _ _, fun _ _ hp h => h.handleText _ hp⟩
  none _ _ _ _ b _ := ⟨.refl b, fun _ _ _ => id⟩
  contents _ _ s _ _ _ hd h := ⟨h.1, fun hn hcs _ => by
    obtain ⟨hc, hn⟩ := all_element hn (by rw [hd]; simp)
    exact h.2 hn hcs hc.1⟩
  inline cs ps s ch b b1 o rest hd h hs := by
    refine ⟨traverse_shape.inline cs ps s ch b b1 o rest hd h.1 hs, fun hn hcs hps hb => ?_⟩
    obtain ⟨rfl, h1, -, h2, h3⟩ := inline_inner h.1 hs
    obtain ⟨hc, hn⟩ := all_element hn (by rw [hd]; simp)
    have hb1 := h.2 hn hcs hc.1 ⟨hb.blocks, hb.inlines, by simpa [inlinesEvery] using hb.stack⟩
    have hb2 : BuilderEvery P T { b1 with stack := b.stack } := ⟨hb1.blocks, hb1.inlines, hb.stack⟩
    exact hb2.push ⟨by rw [h1]; exact hc.2 (by rw [hd]; simp), hb1.stack o (by simp [hs])⟩
  absoluteInline cs ps s ch b inner c f i h1 h2 h3 h4 h5 :=
    ⟨.setCurrent _ _, fun hn _ _ hb => by
      obtain ⟨hc, hn⟩ := all_element hn (by rw [h1]; simp)
      have hp := hc.2 (by rw [h1]; simp)
      exact hb.push ⟨hp, (h3.2 hn hp hc.1 .new).finish (hanon _ hp) h4⟩⟩
  absoluteBlock cs ps s ch b inner c f i h1 h2 h3 h4 h5 :=
    ⟨traverse_shape.absoluteBlock cs ps s ch b inner c f i h1 h2 h3.1 h4 h5, fun hn _ _ hb => by
      obtain ⟨hc, hn⟩ := all_element hn (by rw [h1]; simp)
      have hp := hc.2 (by rw [h1]; simp)
      exact hb.pushBlock _ ⟨hp, (h3.2 hn hp hc.1 .new).finish (hanon _ hp) h4⟩⟩
  floatInline cs ps s ch b inner c f i h1 h2 h2' h3 h4 h5 :=
    ⟨traverse_shape.floatInline cs ps s ch b inner c f i h1 h2 h2' h3.1 h4 h5, fun hn _ _ hb => by
      obtain ⟨hc, hn⟩ := all_element hn (by rw [h1]; simp)
      have hp := hc.2 (by rw [h1]; simp)
      exact BuilderEvery.push (b := { b with containsFloats := true }) ⟨hb.blocks, hb.inlines, hb.stack⟩
        ⟨hp, (h3.2 hn hp hc.1 .new).finish (hanon _ hp) h4⟩⟩
  floatBlock cs ps s ch b inner c f i h1 h2 h2' h3 h4 h5 :=
    ⟨traverse_shape.floatBlock cs ps s ch b inner c f i h1 h2 h2' h3.1 h4 h5, fun hn _ _ hb => by
      obtain ⟨hc, hn⟩ := all_element hn (by rw [h1]; simp)
      have hp := hc.2 (by rw [h1]; simp)
      exact hb.pushBlock _ ⟨hp, (h3.2 hn hp hc.1 .new).finish (hanon _ hp) h4⟩⟩
  block cs ps s ch b b1 inner c f i h1 h2 h2' h0 h3 h4 := by
    refine ⟨traverse_shape.block cs ps s ch b b1 inner c f i h1 h2 h2' h0 h3.1 h4, fun hn hcs hps hb => ?_⟩
    obtain ⟨hc, hn⟩ := all_element hn (by rw [h1]; simp)
    have hp := hc.2 (by rw [h1]; simp)
    have hcc := (h3.2 hn hp hc.1 .new).finish (hanon _ hp) h4
    refine (hb.endOngoing (hanon _ hcs) (splitInlines_eq h0).2).pushBlock _ ?_
    cases i <;> exact ⟨hp, hcc⟩
  nil _ _ b := ⟨.refl b, fun _ _ _ => id⟩
  cons _ _ _ _ _ _ _ h h' := ⟨h.1.trans h'.1, fun hn hcs hps hb => h'.2 hn.2 hcs hps (h.2 hn.1 hcs hps hb)⟩

theorem constructContainer_every (hanon : ∀ s, P s → P (ComputedValues.anonymousInheritingFrom (some s))) {style : ComputedValues}
    {children : List StyledNode} {c : BlockContainer} {f : Bool} (hp : P style) (ht : T style)
    (hn : nodesAll (fun s _ => ElementStyle P T s) children) (h : constructContainer style children = some (c, f)) : c.Every P T := by
  unfold constructContainer at h
  rcases h1 : traverseNodes style style children Builder.new with _ | b
  · simp [h1] at h
  · simp only [h1] at h
    exact ((traverseNodes_induct (traverse_every hanon) _ _ _ _ _ h1).2 hn hp ht .new).finish (hanon _ hp) h

theorem constructRoot_every (hanon : ∀ s, P s → P (ComputedValues.anonymousInheritingFrom (some s))) {style : ComputedValues}
    {children : List StyledNode} {root : BlockFormattingContext} (hp : P style) (ht : T style)
    (hn : nodesAll (fun s _ => ElementStyle P T s) children) (h : constructRoot style children = some root) :
    root.contents.Every P T := by
  unfold constructRoot at h
  split at h
  · cases h
    trivial
  all_goals
    split at h
    · cases h
    · rename_i c f hc
      have hc := constructContainer_every hanon hp ht hn hc
      split at h
      · cases h
        exact ⟨⟨hp, hc⟩, trivial⟩
      · split at h
        · cases h
          exact ⟨⟨hp, hc⟩, trivial⟩
        · cases h
          exact ⟨⟨hp, hc⟩, trivial⟩

end

/-- Anonymous boxes are upright. -/
theorem Upright.anonymous {s : ComputedValues} (h : Upright s) : Upright (ComputedValues.anonymousInheritingFrom (some s)) :=
  ⟨rfl, rfl, h.fontSize, le_refl _, le_refl _, le_refl _, le_refl _, le_refl _, le_refl _, le_refl _, le_refl _, le_refl _, le_refl _,
    le_refl _, le_refl _⟩

/-! ### The file -/

mutual
theorem Fragment.pageTexts_glyphs (origin : Vec2 Rat) : ∀ f : Fragment,
    ((f.pageTexts origin).flatMap fun t => t.glyphs.map fun g => (t.style, g)) = f.glyphs
  | .box info children => by rw [Fragment.pageTexts, Fragment.glyphs]; exact pageTexts_glyphs _ children
  | .anonymous rect children _ => by rw [Fragment.pageTexts, Fragment.glyphs]; exact pageTexts_glyphs _ children
  | .text style rect segment => by simp [Fragment.pageTexts, Fragment.glyphs]
theorem pageTexts_glyphs (origin : Vec2 Rat) : ∀ fs : List Fragment,
    ((pageTextsOf origin fs).flatMap fun t => t.glyphs.map fun g => (t.style, g)) = fragmentsGlyphs fs
  | [] => rfl
  | f :: fs => by
    rw [pageTextsOf, List.flatMap_append, Fragment.pageTexts_glyphs origin f, pageTexts_glyphs origin fs, fragmentsGlyphs]
end

theorem painted_texts {R Er : Type} (P : Painter R Er) {name : Nat → List Byte → Prop} : ∀ (placed : List (Fragment × Vec2 Rat))
    (painted : List (Painted R)),
    AllMatch (fun p s => Verif.Pdf.Matches P.floats name p (s.expected P)) painted (shapesOf P.ascender placed) →
    AllMatch (fun p (t : PageText) => t.SeenAs P p) (painted.filter isText) (placed.flatMap placedText)
  | [], [], _ => trivial
  | [], _ :: _, h => h.elim
  | (.anonymous _ _ _, _) :: placed, painted, h => painted_texts P placed painted h
  | (.box info children, origin) :: placed, painted, h => by
    have ih := painted_texts P (name := name) placed
    simp only [shapesOf, List.flatMap_cons, Fragment.shape] at h
    rw [List.flatMap_cons, placedText, List.nil_append]
    split at h
    · exact ih painted h
    · cases painted with
      | nil => exact h.elim
      | cons p ps =>
        obtain ⟨h1, h2⟩ := h
        cases p with
        | fill cm path rgb alpha => exact ih ps h2
        | «show» cm font size matrix s rgb alpha => exact h1.elim
  | (.text style rect segment, origin) :: placed, painted, h => by
    have ih := painted_texts P (name := name) placed
    simp only [shapesOf, List.flatMap_cons, Fragment.shape] at h
    cases painted with
    | nil => exact h.elim
    | cons p ps =>
      obtain ⟨h1, h2⟩ := h
      cases p with
      | fill cm path rgb alpha => exact h1.elim
      | «show» cm font size matrix s rgb alpha =>
        obtain ⟨e1, -, e3, e4, e5, -⟩ := h1
        exact ⟨⟨e1, e3, e5, e4⟩, ih ps h2⟩

section
variable {R Err Er σ : Type} (P : Painter R Er) (E : Engine σ) (font : FontApi Rat Err) (d : Document)

/-- **C88**: whenever a PDF file is made of a document of which all elements that are displayed flow, without anything that makes them
overlap, a reader finds one page in it, the text on which is in lines that are below each other, none of them above the top of the page.
On each line, the texts follow each other from left to right without overlap. Who reads line by line, from left to right on each line,
reads the text of the document: all characters that are displayed, in document order, but for white space. -/
theorem C88_reads {readReal : List Byte → Option R} (hd : RealText P.floats.dtoa readReal) (hl : FloatLaws P.floats)
    (hv : P.fontView.Valid) (hg : ∀ c g, font.glyphId c = .ok g → g < 65536) (hF : Forward font) (F : Forest) (hr : Represents d F)
    (ha : F.Acyclic) (hn : DocumentNodeIsRoot d) (hi : d.styleElements = d.idsWith NodeData.isStyle)
    (ua author : List (σ × List (Declaration × Bool))) (rootStyle : ComputedValues) (displayed : List (ComputedValues × Nat))
    (h : DocumentLooks E d F ua author (fun _ s => InTextFlow s) rootStyle displayed)
    (hroot : floatOf rootStyle = .none ∧ Upright rootStyle)
    {fuel : Nat} {schedule : Oracle} {bytes : List Byte} (hb : toPdfBytes P E font d fuel schedule = some bytes)
    (hs : bytes.length ≤ 2 ^ 32) :
    ∃ m file page painted lines text, (∀ fuel, m ≤ fuel → readDocument readReal fuel bytes = some file) ∧ file.pages = [page] ∧
      (∃ m, ∀ fuel, m ≤ fuel →
        paintContents readReal P.floats.zero P.floats.one (gsAlpha file.extGState) fuel page.contents = some painted) ∧
      AllMatch (fun p (t : PageText) => t.SeenAs P p) (painted.filter isText) (lines.flatMap PageLine.texts) ∧
      TopDown lines ∧ (∀ l ∈ lines, l.Reads font ∧ 0 ≤ l.top) ∧
      Shown font text (glyphsRead lines) ∧ inked (text.map Prod.snd) = inked (displayed.map Prod.snd) := by
  unfold toPdfBytes at hb
  rcases hlay : layoutDocument E font d fuel schedule ⟨600, 800⟩ with _ | fragments
  · simp [hlay] at hb
  simp only [hlay] at hb
  rcases hdoc : paintDocument P fragments with _ | doc
  · simp [hdoc] at hb
  simp only [hdoc, Option.some.injEq] at hb
  subst hb
  unfold layoutDocument at hlay
  rcases hc : constructDocument E d fuel with _ | root
  · simp [hc] at hlay
  simp only [hc] at hlay
  obtain ⟨hm, runs, hshown, hperm, hord⟩ := layoutRoot_shown hlay
  obtain ⟨tree, hidden, hden, htext, hall, -⟩ := h.denotes hr ha hn hi hc
  obtain ⟨hroot', -⟩ := constructDocument_sound hden hc
  have hflows := hall InTextFlow fun _ _ h => h
  have hkeep := C42_document_order E d F rootStyle tree hidden hden fuel root hc
  have hnofloat : root.contents.Only NoFloats := by
    refine constructRoot_only ⟨fun _ => by simp, fun hf => absurd hroot.1 hf⟩ ?_ hroot'
    exact nodesAll_mono (fun s _ hs => hs.elim (fun hs => .inr ⟨fun _ => by simp, fun hf => absurd hs.1 hf⟩) fun hs => .inl hs.1) tree hflows
  have habs : root.contents.Only NoAbsolutes := by
    refine constructRoot_only ⟨fun h => absurd h (by rw [hroot.2.position]; simp), fun _ => by simp⟩ ?_ hroot'
    exact nodesAll_mono (fun s _ hs => hs.elim
      (fun hs => .inr ⟨fun h => absurd h (by rw [hs.2.position]; simp), fun _ => by simp⟩) fun hs => .inl hs.1) tree hflows
  have hflat := BlockContainer.runs_flatten root.contents hnofloat
  have hevery : root.contents.Every Upright SizeOk := by
    refine constructRoot_every (fun _ => Upright.anonymous) hroot.2 hroot.2.fontSize ?_ hroot'
    exact nodesAll_mono (fun s _ hs => hs.elim (fun hs => ⟨hs.2.fontSize, fun _ => hs.2⟩) fun hs => ⟨hs.2, fun h => absurd hs.1 h⟩) tree hflows
  obtain ⟨bottom, lines, l1, l2, l3⟩ := layoutRoot_lined hF hevery habs hlay ⟨0, 0⟩
  obtain ⟨placed, hp⟩ := Placed.exists fragments ⟨0, 0⟩
  obtain ⟨m, file, page, painted, h1, h2, -, h3, h4⟩ := C46_page P hd hl hv hp
    (fun e he style rect segment hs g hgm => by
      obtain ⟨c, hcg⟩ := made_glyphs hp hm e he style rect segment hs g hgm
      exact hg c g hcg) hdoc hs
  refine ⟨m, file, page, painted, lines, runs.flatten, h1, h2, h3, ?_, l1, fun l hl => ⟨(l2 l hl).1, (l2 l hl).2.1⟩, ?_, ?_⟩
  · rw [l3, ← hp.pageTexts]
    exact painted_texts P placed painted h4
  · rw [glyphsRead, l3, pageTexts_glyphs]
    exact hshown
  · rw [hord habs, hflat, ← htext, styledTexts_snd]
    exact hkeep

end

/-! ### Example -/

/-- Decides `NotNegative`. -/
def notNegative (l : LengthOrPercentage) : Bool :=
  match l with
  | .length l => decide (0 ≤ l)
  | .percentage p => decide (p = 0)

/-- Decides `AutoOrNotNegative`. -/
def autoOrNotNegative (l : LengthOrPercentageOrAuto) : Bool :=
  match l with
  | .length l => decide (0 ≤ l)
  | .percentage p => decide (p = 0)
  | .auto => true

theorem notNegative_of {l : LengthOrPercentage} (h : notNegative l = true) : NotNegative l := by
  cases l <;> simpa [notNegative, NotNegative] using h

theorem autoOrNotNegative_of {l : LengthOrPercentageOrAuto} (h : autoOrNotNegative l = true) : AutoOrNotNegative l := by
  cases l <;> simpa [autoOrNotNegative, AutoOrNotNegative] using h

/-- Decides `Upright`. -/
def upright (s : ComputedValues) : Bool :=
  (decide (positionOf s = .static) && decide (Css.heightProperty s = .auto) && decide (0 ≤ fontSizeOf s)) &&
  (autoOrNotNegative (s.values .marginTop) && autoOrNotNegative (s.values .marginRight) && autoOrNotNegative (s.values .marginBottom) &&
    autoOrNotNegative (s.values .marginLeft)) &&
  (notNegative (s.values .paddingTop) && notNegative (s.values .paddingRight) && notNegative (s.values .paddingBottom) &&
    notNegative (s.values .paddingLeft)) &&
  (notNegative (s.values .borderTopWidth) && notNegative (s.values .borderRightWidth) && notNegative (s.values .borderBottomWidth) &&
    notNegative (s.values .borderLeftWidth))

theorem upright_of {s : ComputedValues} (h : upright s = true) : Upright s := by
  simp only [upright, Bool.and_eq_true, decide_eq_true_eq] at h
  obtain ⟨⟨⟨⟨⟨h1, h2⟩, h3⟩, ⟨⟨h4, h5⟩, h6⟩, h7⟩, ⟨⟨h8, h9⟩, h10⟩, h11⟩, ⟨⟨h12, h13⟩, h14⟩, h15⟩ := h
  exact ⟨h1, h2, h3, autoOrNotNegative_of h4, autoOrNotNegative_of h5, autoOrNotNegative_of h6, autoOrNotNegative_of h7,
    notNegative_of h8, notNegative_of h9, notNegative_of h10, notNegative_of h11, notNegative_of h12, notNegative_of h13,
    notNegative_of h14, notNegative_of h15⟩

/-- The hypotheses of C88 about the document and the font are met by `lookDocument`, of which the text is `ab`, and `basicFont`; for the
others see the end of LookTheorems.lean. -/
theorem lookDocument_reads : (∃ ua author text, DocumentLooks lookEngine lookDocument (forestOf lookChildren) ua author
      (fun _ s => InTextFlow s) (lookStyle 2 none) text ∧ inked (text.map Prod.snd) = [97, 98]) ∧
    floatOf (lookStyle 2 none) = .none ∧ Upright (lookStyle 2 none) ∧ Forward basicFont := by
  refine ⟨?_, by decide +kernel, upright_of (by decide +kernel), rfl, fun _ _ => rfl, ?_⟩
  · obtain ⟨ua, author, h⟩ := lookDocument_rules
    refine ⟨ua, author, _, C80_exists ?_ ?_ h lookDocument_denotes _ ?_, by decide +kernel⟩
    · exact ⟨_, rfl, rfl, rfl⟩
    · decide +kernel
    · exact ⟨.inl (by decide +kernel), .inr ⟨.inl ⟨by decide +kernel, upright_of (by decide +kernel)⟩, trivial,
        .inr ⟨.inl ⟨by decide +kernel, upright_of (by decide +kernel)⟩, trivial, trivial⟩, trivial⟩, trivial⟩
  · intro g w h
    cases h
    decide

end Verif.Layout
