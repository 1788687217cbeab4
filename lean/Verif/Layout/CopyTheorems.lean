/- C77: the text of a document can be copied out of the PDF file. -/
import Verif.Layout.CopySpec
import Verif.Layout.FontUse
import Verif.Layout.ShownTheorems
import Verif.Font.Example
namespace Verif.Layout
open Verif.Style Verif.Text Verif.Pdf Verif.Dom
open Verif.Font (Font isChar NameText FontError Format4At Format4Ok Format12At Format12Ok Maps4 Maps12 U16At)

/-! ### Fonts -/

theorem failable_ok {α : Type} {r : Verif.Font.Res α} {a : α} : failable r = .ok a ↔ r = .ok a := by
  cases r <;> simp [failable]

theorem u16At_lt {bytes : List Byte} {p v : Nat} (h : U16At bytes p v) : v < 65536 := by
  obtain ⟨a, b, -, rfl⟩ := h
  have := a.isLt; have := b.isLt
  omega

/-- Every character has a glyph number, which fits 16 bits. -/
theorem WellFormed.glyph {font : Font} (h : WellFormed font) (c : Nat) : ∃ g, g < 65536 ∧ font.glyphId c = .ok g := by
  rcases h.map with ⟨k, segs, hu, hat, hok⟩ | ⟨k, groups, hu, hat, hok, hfit⟩
  · obtain ⟨h1, h2⟩ := Verif.Font.C23_lookup font k hu segs h.size hat hok c
    by_cases hm : ∃ g, Maps4 font.bytes k segs c g
    · obtain ⟨g, hg⟩ := hm
      refine ⟨g, ?_, h1 g hg⟩
      obtain ⟨i, hi, -, -, ⟨-, rfl⟩ | ⟨-, w, -, rfl⟩⟩ := hg
      · omega
      · split <;> omega
    · exact ⟨0, by omega, h2 fun g hg => hm ⟨g, hg⟩⟩
  · obtain ⟨h1, h2⟩ := Verif.Font.C24_lookup font k hu groups h.size hat hok c
    by_cases hm : ∃ g, Maps12 groups c g
    · obtain ⟨g, hg⟩ := hm
      refine ⟨_, ?_, h1 g hg⟩
      split <;> omega
    · exact ⟨0, by omega, h2 fun g hg => hm ⟨g, hg⟩⟩

/-- The characters that the font lists are those it has a glyph for. -/
theorem WellFormed.listed {font : Font} (h : WellFormed font) : ∃ l, font.eachCodePoint = .ok l ∧
    ∀ c g, (c, g) ∈ l ↔ g ≠ 0 ∧ isChar c = true ∧ font.glyphId c = .ok g := by
  rcases h.map with ⟨k, segs, hu, hat, hok⟩ | ⟨k, groups, hu, hat, hok, hfit⟩
  · obtain ⟨l, h1, -, h2⟩ := Verif.Font.C23_enumeration font k hu segs h.size hat hok
    exact ⟨l, h1, h2⟩
  · obtain ⟨l, h1, -, h2⟩ := Verif.Font.C24_enumeration_partial font k hu groups h.size hat hok hfit
    exact ⟨l, h1, h2⟩

theorem u16At_exists {bytes : List Byte} {p : Nat} (h : p + 2 ≤ bytes.length) : ∃ v, U16At bytes p v := by
  rcases Verif.Font.readU16_eq bytes p with ⟨v, hv, _⟩ | ⟨hn, _⟩
  · exact ⟨v, hv⟩
  · omega

/-- Every glyph has a width. -/
theorem WellFormed.width {font : Font} (h : WellFormed font) {R : Type} (ems : Int → Nat → R) (g : Nat) :
    ∃ w, font.glyphWidth ems g = .ok w := by
  obtain ⟨h1, h2⟩ := h.metrics
  by_cases hg : g < font.horizontalMetrics.count
  · obtain ⟨v, hv⟩ := u16At_exists (bytes := font.bytes) (p := font.horizontalMetrics.start + 4 * g) (by omega)
    exact ⟨_, Verif.Font.C25_own_width ems font h.size g v hg hv⟩
  · obtain ⟨v, hv⟩ := u16At_exists (bytes := font.bytes)
      (p := font.horizontalMetrics.start + 4 * (font.horizontalMetrics.count - 1)) (by omega)
    exact ⟨_, Verif.Font.C25_last_width ems font h.size g v h1 (by omega) hv⟩

theorem WellFormed.shapable {font : Font} (h : WellFormed font) (ems : Int → Nat → Rat) (c : Nat) : Shapable (fontApi ems font) c := by
  obtain ⟨g, -, hg⟩ := h.glyph c
  obtain ⟨w, hw⟩ := h.width ems g
  exact ⟨g, w, failable_ok.2 hg, failable_ok.2 hw⟩

theorem WellFormed.view {font : Font} (h : WellFormed font) (units : Int → Nat → Int) (utf8 : NameText → List Byte) :
    (fontView units utf8 font).Ok ∧ ∀ c g, (c, g) ∈ (fontView units utf8 font).codePoints ↔
      g ≠ 0 ∧ isChar c = true ∧ font.glyphId c = .ok g := by
  obtain ⟨l, hl, hm⟩ := h.listed
  refine ⟨⟨by simp [fontView, hl, failable], fun i _ => ?_⟩, fun c g => ?_⟩
  · obtain ⟨w, hw⟩ := h.width units i
    exact ⟨w, failable_ok.2 hw⟩
  · simp only [fontView, hl, failable]
    exact hm c g

theorem WellFormed.valid {font : Font} (h : WellFormed font) (units : Int → Nat → Int) (utf8 : NameText → List Byte)
    (hname : 35 ∉ utf8 font.postscriptName) : (fontView units utf8 font).Valid := by
  refine ⟨hname, fun e he => ?_⟩
  obtain ⟨-, hc, hg⟩ := ((h.view units utf8).2 e.1 e.2).1 he
  obtain ⟨g, hlt, hg'⟩ := h.glyph e.1
  rw [hg] at hg'
  cases hg'
  refine ⟨?_, hlt⟩
  simp only [isChar, Bool.or_eq_true, Bool.and_eq_true, decide_eq_true_eq] at hc
  omega

/-! ### Decoding -/

theorem Decoded.append {pairs : List (Nat × Nat)} {a t : List Nat} (h : Decoded pairs a t) {b u : List Nat} (h' : Decoded pairs b u) :
    Decoded pairs (a ++ b) (t ++ u) := by
  induction h with
  | nil => exact h'
  | char hm _ ih => exact .char hm ih
  | unknown hn _ ih => exact .unknown hn ih

theorem Decoded.split {pairs : List (Nat × Nat)} : ∀ (a : List Nat) {b t : List Nat}, Decoded pairs (a ++ b) t →
    ∃ u v, t = u ++ v ∧ Decoded pairs a u ∧ Decoded pairs b v
  | [], _, t, h => ⟨[], t, rfl, .nil, h⟩
  | g :: a, _, _, h => by
    cases h with
    | char hm h =>
      obtain ⟨u, v, rfl, h1, h2⟩ := Decoded.split a h
      exact ⟨_ :: u, v, rfl, .char hm h1, h2⟩
    | unknown hn h =>
      obtain ⟨u, v, rfl, h1, h2⟩ := Decoded.split a h
      exact ⟨u, v, rfl, .unknown hn h1, h2⟩

theorem Decoded.agree {pairs : List (Nat × Nat)} {codes t : List Nat} (h : Decoded pairs codes t) : ∀ {u : List Nat},
    Decoded pairs codes u → List.Forall₂ (fun c c' => ∃ g, (c, g) ∈ pairs ∧ (c', g) ∈ pairs) t u := by
  induction h with
  | nil => intro u h; cases h; exact .nil
  | @char g c codes text hm _ ih =>
    intro u h
    cases h with
    | char hm' h => exact .cons ⟨g, hm, hm'⟩ (ih h)
    | unknown hn h => exact absurd hm (hn c)
  | @unknown g codes text hn _ ih =>
    intro u h
    cases h with
    | char hm' h => exact absurd hm' (hn _)
    | unknown _ h => exact ih h

section
variable {R E : Type} (P : Painter R E) {readReal : List Byte → Option R} {bytes : List Byte} {fonts : List (List Byte × Val R)}

theorem isFont_reads {v : FontView E} {id m : Nat} {f : FontRead} (h : IsFont readReal bytes v id)
    (hf : ∀ fuel, m ≤ fuel → readFont readReal fuel bytes id = some f) : f.toUnicode = v.codePoints := by
  obtain ⟨m', ws, h, -⟩ := h
  have h1 := h (max m m') (by omega)
  rw [hf _ (by omega), Option.some.injEq] at h1
  rw [h1]

theorem copied_iff : ∀ (painted : List (Painted R)) (shapes : List Shape),
    AllMatch (fun p s => Verif.Pdf.Matches P.floats (fun _ name => ∃ id, dictGet fonts name = some (.ref id 0) ∧
      IsFont readReal bytes P.fontView id) p (s.expected P)) painted shapes →
    ∀ text, Copied readReal bytes fonts painted text ↔ Decoded P.fontView.codePoints (shapes.flatMap Shape.ids) text
  | [], [], _, text => by
    constructor
    · rintro rfl; exact .nil
    · intro h; cases h; rfl
  | [], _ :: _, h, _ => h.elim
  | _ :: _, [], h, _ => h.elim
  | p :: ps, s :: ss, h, text => by
    obtain ⟨h1, h2⟩ := h
    have ih := copied_iff ps ss h2
    have hone : ∀ t, CopiedOne readReal bytes fonts p t ↔ Decoded P.fontView.codePoints s.ids t := by
      intro t
      cases p <;> cases s <;> simp only [Shape.expected, Verif.Pdf.Matches] at h1
      · simp only [CopiedOne, Shape.ids]
        constructor
        · rintro rfl; exact .nil
        · intro h; cases h; rfl
      · obtain ⟨-, ⟨id, hid, hfont⟩, -, -, hcodes, -⟩ := h1
        simp only [CopiedOne, Shape.ids]
        constructor
        · rintro ⟨id', f, m, codes, hid', hf, hc, ht⟩
          rw [hid, Option.some.injEq, Val.ref.injEq] at hid'
          obtain ⟨rfl, -⟩ := hid'
          rw [hcodes, Option.some.injEq] at hc
          subst hc
          rw [← isFont_reads hfont hf]
          exact ht
        · intro ht
          obtain ⟨m, ws, hf, -⟩ := hfont
          exact ⟨id, _, m, _, hid, hf, hcodes, ht⟩
    rw [List.flatMap_cons]
    constructor
    · rintro ⟨a, b, rfl, ha, hb⟩
      exact ((hone a).1 ha).append ((ih b).1 hb)
    · intro ht
      obtain ⟨a, b, rfl, ha, hb⟩ := Decoded.split _ ht
      exact ⟨a, b, rfl, (hone a).2 ha, (ih b).2 hb⟩

end

/-! ### The characters in boxes -/

/-- A font that has glyphs for these characters only. -/
def memFont (S : List Nat) : FontApi Rat Unit := ⟨fun c => if c ∈ S then .ok c else .error (), fun _ => .ok 0, 0, (· + ·)⟩

theorem memFont_shapable {S : List Nat} {c : Nat} : Shapable (memFont S) c ↔ c ∈ S := by
  constructor
  · rintro ⟨g, w, h, -⟩
    simp only [memFont] at h
    split at h
    · assumption
    · cases h
  · intro h
    exact ⟨c, 0, by simp [memFont, h], rfl⟩

section
variable {S : List Nat}

mutual
theorem BlockContainer.runs_mem : ∀ c : BlockContainer, c.Wf (memFont S) → ∀ e ∈ c.runs.flatten, e.2 ∈ S
  | .blockLevelBoxes boxes, h => blocksRuns_mem boxes h
  | .inlineFormattingContext boxes, h => inlinesRuns_mem boxes h
theorem BlockLevelBox.runs_mem : ∀ b : BlockLevelBox, b.Wf (memFont S) → ∀ e ∈ b.runs.flatten, e.2 ∈ S
  | .sameFormattingContextBlock _ contents, h => contents.runs_mem h
  | .outOfFlowAbsolutelyPositioned _ _ contents, h => contents.runs_mem h
  | .outOfFlowFloat _ _ _, _ => by simp [BlockLevelBox.runs]
  | .independent _ _ contents, h => contents.runs_mem h
theorem blocksRuns_mem : ∀ bs : List BlockLevelBox, blocksWf (memFont S) bs → ∀ e ∈ (blocksRuns bs).flatten, e.2 ∈ S
  | [], _ => by simp [blocksRuns]
  | b :: bs, h => by
    intro e he
    rw [blocksRuns, List.flatten_append, List.mem_append] at he
    exact he.elim (b.runs_mem h.1 e) (blocksRuns_mem bs h.2 e)
theorem InlineLevelBox.runs_mem : ∀ b : InlineLevelBox, b.Wf (memFont S) → ∀ e ∈ b.runs.flatten, e.2 ∈ S
  | .inlineBox _ _ _ children, h => inlinesRuns_mem children h
  | .textRun style text, h => by
    intro e he
    simp only [InlineLevelBox.runs, List.flatten_cons, List.flatten_nil, List.append_nil, List.mem_map] at he
    obtain ⟨c, hc, rfl⟩ := he
    exact memFont_shapable.1 (h c hc)
  | .outOfFlowAbsolutelyPositioned _ _ contents, h => contents.runs_mem h.2
  | .outOfFlowFloat _ _ _, _ => by simp [InlineLevelBox.runs]
theorem inlinesRuns_mem : ∀ bs : List InlineLevelBox, inlinesWf (memFont S) bs → ∀ e ∈ (inlinesRuns bs).flatten, e.2 ∈ S
  | [], _ => by simp [inlinesRuns]
  | b :: bs, h => by
    intro e he
    rw [inlinesRuns, List.flatten_append, List.mem_append] at he
    exact he.elim (b.runs_mem h.1 e) (inlinesRuns_mem bs h.2 e)
end

end

theorem constructRoot_wf {Err : Type} {F : FontApi Rat Err} (hsp : Shapable F 32) {style : ComputedValues} {children : List StyledNode}
    {root : BlockFormattingContext} (hn : NodesWf F children) (h : constructRoot style children = some root) : root.contents.Wf F := by
  unfold constructRoot at h
  split at h
  · cases h
    trivial
  all_goals
    split at h
    · cases h
    · rename_i c f hc
      have hc := constructContainer_wf hsp hn hc
      split at h
      · cases h; exact ⟨hc, trivial⟩
      · split at h
        · cases h; exact ⟨hc, trivial⟩
        · cases h; exact ⟨hc, trivial⟩

/-! ### Documents -/

section
variable {R Err E σ : Type} (P : Painter R E) (engine : Engine σ) (font : FontApi Rat Err) (d : Document)

/-- As `C65_text_partial`, with what may be copied of the page, and where the characters come from. -/
theorem page_text {readReal : List Byte → Option R} (hd : RealText P.floats.dtoa readReal) (hl : FloatLaws P.floats)
    (hv : P.fontView.Valid) (hg : ∀ c g, font.glyphId c = .ok g → g < 65536) (F : Forest) (rootStyle : ComputedValues)
    (tree : List StyledNode) (hidden : List Nat) (h : Denotes engine d F rootStyle tree hidden)
    (hfloat : floatOf rootStyle = .none ∧ nodesAll (fun s _ => floatOf s = .none) tree)
    {fuel : Nat} {schedule : Oracle} {bytes : List Byte} (hb : toPdfBytes P engine font d fuel schedule = some bytes)
    (hs : bytes.length ≤ 2 ^ 32) :
    ∃ m file page painted text glyphs, (∀ fuel, m ≤ fuel → readDocument readReal fuel bytes = some file) ∧ file.pages = [page] ∧
      (∃ m, ∀ fuel, m ≤ fuel →
        paintContents readReal P.floats.zero P.floats.one (gsAlpha file.extGState) fuel page.contents = some painted) ∧
      (∀ t, Copied readReal bytes file.fonts painted t ↔ Decoded P.fontView.codePoints (glyphs.map Prod.snd) t) ∧ Shown font text glyphs ∧
      (∀ e ∈ text, e.2 ∈ 32 :: visibleTexts tree) ∧
      (inked (text.map Prod.snd)).Perm (inked (visibleTexts tree)) ∧
      (positionOf rootStyle ≠ .absolute ∧ nodesAll (fun s _ => positionOf s ≠ .absolute) tree →
        inked (text.map Prod.snd) = inked (visibleTexts tree)) := by
  unfold toPdfBytes at hb
  rcases hlay : layoutDocument engine font d fuel schedule ⟨600, 800⟩ with _ | fragments
  · simp [hlay] at hb
  simp only [hlay] at hb
  rcases hdoc : paintDocument P fragments with _ | doc
  · simp [hdoc] at hb
  simp only [hdoc, Option.some.injEq] at hb
  subst hb
  unfold layoutDocument at hlay
  rcases hc : constructDocument engine d fuel with _ | root
  · simp [hc] at hlay
  simp only [hc] at hlay
  obtain ⟨hm, runs, hshown, hperm, hord⟩ := layoutRoot_shown hlay
  obtain ⟨hroot, -⟩ := constructDocument_sound h hc
  have hkeep := C42_document_order engine d F rootStyle tree hidden h fuel root hc
  have hnofloat : root.contents.Only NoFloats := by
    refine constructRoot_only ⟨fun _ => by simp, fun hf => absurd hfloat.1 hf⟩ ?_ hroot
    exact nodesAll_mono (fun s _ hs => .inr ⟨fun _ => by simp, fun hf => absurd hs hf⟩) tree hfloat.2
  have hflat := BlockContainer.runs_flatten root.contents hnofloat
  have hmem : ∀ e ∈ root.contents.runs.flatten, e.2 ∈ 32 :: visibleTexts tree := by
    obtain ⟨author, r, h1, h2, h3, h4, h5⟩ := h.styled
    refine root.contents.runs_mem (constructRoot_wf (memFont_shapable.2 (by simp))
      ⟨h5.computed fun n p s hs => nodeStyle_computed hs, fun c hc => memFont_shapable.2 (by simp [hc])⟩ hroot)
  obtain ⟨placed, hp⟩ := Placed.exists fragments ⟨0, 0⟩
  obtain ⟨m, file, page, painted, h1, h2, -, h3, h4⟩ := C46_page P hd hl hv hp
    (fun e he style rect segment hs g hgm => by
      obtain ⟨c, hcg⟩ := made_glyphs hp hm e he style rect segment hs g hgm
      exact hg c g hcg) hdoc hs
  refine ⟨m, file, page, painted, runs.flatten, fragmentsGlyphs fragments, h1, h2, h3, fun t => ?_, hshown, fun e he => ?_, ?_, ?_⟩
  · rw [copied_iff P _ _ h4, shapesOf_ids _ hp]
  · exact hmem e (hperm.flatten.mem_iff.1 he)
  · have := ((hperm.flatten.map Prod.snd).filter fun ch => !isAsciiWhitespace ch)
    rw [hflat, hkeep] at this
    exact this
  · rintro ⟨ha, hn⟩
    have habs : root.contents.Only NoAbsolutes := by
      refine constructRoot_only ⟨fun h => absurd h ha, fun _ => by simp⟩ ?_ hroot
      exact nodesAll_mono (fun s _ hs => .inr ⟨fun h => absurd h hs, fun _ => by simp⟩) tree hn
    rw [hord habs, hflat]
    exact hkeep

end

/-- What is decoded of the glyphs of a text, when each character of it that is not white space has a glyph. -/
theorem Shown.decoded {ems : Int → Nat → Rat} {font : Font} {pairs : List (Nat × Nat)}
    (hp : ∀ c g, (c, g) ∈ pairs ↔ g ≠ 0 ∧ isChar c = true ∧ font.glyphId c = .ok g) {text glyphs : List (ComputedValues × Nat)}
    (h : Shown (fontApi ems font) text glyphs) (hchar : ∀ e ∈ text, isChar e.2 = true)
    (hglyph : ∀ e ∈ text, isAsciiWhitespace e.2 = false → HasGlyph font e.2) :
    ∃ t, Decoded pairs (glyphs.map Prod.snd) t ∧ inked t = inked (text.map Prod.snd) ∧ ∀ c ∈ t, c ∈ text.map Prod.snd := by
  induction h with
  | nil => exact ⟨[], .nil, rfl, by simp⟩
  | @char style c g text glyphs hg _ ih =>
    obtain ⟨t, h1, h2, h3⟩ := ih (fun e he => hchar e (by simp [he])) fun e he => hglyph e (by simp [he])
    have hg := failable_ok.1 hg
    by_cases h0 : g = 0
    · subst h0
      refine ⟨t, .unknown (fun c' hc' => ((hp _ _).1 hc').1 rfl) h1, ?_, fun c' hc' => by simp [h3 c' hc']⟩
      rw [h2, List.map_cons, inked, inked, List.filter_cons, if_neg]
      intro hw
      obtain ⟨g', h0', hg'⟩ := hglyph (style, c) (by simp) (by simpa using hw)
      rw [hg] at hg'
      cases hg'
      exact h0' rfl
    · refine ⟨c :: t, .char ((hp _ _).2 ⟨h0, hchar (style, c) (by simp), hg⟩) h1, ?_, ?_⟩
      · simp only [inked, List.map_cons, List.filter_cons] at h2 ⊢
        rw [h2]
      · intro c' hc'
        rcases List.mem_cons.1 hc' with rfl | hc'
        · simp
        · simp [h3 c' hc']
  | @space style text glyphs _ ih =>
    obtain ⟨t, h1, h2, h3⟩ := ih (fun e he => hchar e (by simp [he])) fun e he => hglyph e (by simp [he])
    refine ⟨t, h1, ?_, fun c' hc' => by simp [h3 c' hc']⟩
    rw [h2, List.map_cons, inked, inked, List.filter_cons, if_neg (by show ¬ (!isAsciiWhitespace 32) = true; decide)]

section
variable {R σ : Type} (P : Painter R (Option FontError)) (engine : Engine σ) (d : Document) (font : Font) (ems : Int → Nat → Rat)
  (units : Int → Nat → Int) (utf8 : NameText → List Byte)

/-- **C77**, **C65**: with a well-formed font, a PDF file is made of every document whose styles are supported. -/
theorem C77_returns_partial (hfont : WellFormed font) (hview : P.fontView = fontView units utf8 font) (F : Forest)
    (rootStyle : ComputedValues) (tree : List StyledNode) (hidden : List Nat) (h : Denotes engine d F rootStyle tree hidden)
    (hh : ∀ x ∈ hidden, HasNext d x) (hs : allSupported false tree) :
    ∃ N, ∀ fuel ≥ N, ∀ schedule : Oracle, ∃ bytes, toPdfBytes P engine (fontApi ems font) d fuel schedule = some bytes :=
  C65_returns_partial P engine (fontApi ems font) d (hfont.shapable ems 32) F rootStyle tree hidden h hh hs
    (fun c _ => hfont.shapable ems c) (hview ▸ (hfont.view units utf8).1)

/-- **C77**: whenever a PDF file is made of a document in which no element floats, with a well-formed font that has glyphs for the
characters displayed, then a text can be copied of its page which is, but for white space, the characters of the elements that are
displayed: in document order if no element is absolutely positioned. Any other text that a reader may copy instead differs only by
characters with the same glyph. -/
theorem C77_copy_partial (hfont : WellFormed font) (hname : 35 ∉ utf8 font.postscriptName) (hview : P.fontView = fontView units utf8 font)
    {readReal : List Byte → Option R} (hd : RealText P.floats.dtoa readReal) (hl : FloatLaws P.floats) (F : Forest)
    (rootStyle : ComputedValues) (tree : List StyledNode) (hidden : List Nat) (h : Denotes engine d F rootStyle tree hidden)
    (hfloat : floatOf rootStyle = .none ∧ nodesAll (fun s _ => floatOf s = .none) tree)
    (hchar : ∀ c ∈ visibleTexts tree, isChar c = true) (hglyph : ∀ c ∈ inked (visibleTexts tree), HasGlyph font c)
    {fuel : Nat} {schedule : Oracle} {bytes : List Byte}
    (hb : toPdfBytes P engine (fontApi ems font) d fuel schedule = some bytes) (hs : bytes.length ≤ 2 ^ 32) :
    ∃ m file page painted text, (∀ fuel, m ≤ fuel → readDocument readReal fuel bytes = some file) ∧ file.pages = [page] ∧
      (∃ m, ∀ fuel, m ≤ fuel →
        paintContents readReal P.floats.zero P.floats.one (gsAlpha file.extGState) fuel page.contents = some painted) ∧
      Copied readReal bytes file.fonts painted text ∧
      (inked text).Perm (inked (visibleTexts tree)) ∧
      (positionOf rootStyle ≠ .absolute ∧ nodesAll (fun s _ => positionOf s ≠ .absolute) tree → inked text = inked (visibleTexts tree)) ∧
      (∀ c ∈ text, c = 32 ∨ c ∈ visibleTexts tree) ∧
      ∀ other, Copied readReal bytes file.fonts painted other → List.Forall₂ (SameGlyph font) text other := by
  have hpairs := (hfont.view units utf8).2
  obtain ⟨m, file, page, painted, text, glyphs, h1, h2, h3, h4, h5, h6, h7, h8⟩ := page_text P engine (fontApi ems font) d hd hl
    (hview ▸ hfont.valid units utf8 hname) (fun c g hg => by
      obtain ⟨g', hlt, hg'⟩ := hfont.glyph c
      rw [failable_ok.1 hg] at hg'
      cases hg'
      exact hlt) F rootStyle tree hidden h hfloat hb hs
  rw [← hview] at hpairs
  obtain ⟨t, h9, h10, h11⟩ := h5.decoded hpairs
    (fun e he => by
      rcases List.mem_cons.1 (h6 e he) with h | h
      · rw [h]; decide
      · exact hchar _ h)
    (fun e he hw => hglyph _ (by
      have : e.2 ∈ inked (text.map Prod.snd) := List.mem_filter.2 ⟨List.mem_map.2 ⟨e, he, rfl⟩, by simp [hw]⟩
      exact h7.mem_iff.1 this))
  refine ⟨m, file, page, painted, t, h1, h2, h3, (h4 t).2 h9, h10 ▸ h7, fun ha => h10 ▸ h8 ha, fun c hc => ?_, fun other ho => ?_⟩
  · obtain ⟨e, he, rfl⟩ := List.mem_map.1 (h11 c hc)
    exact List.mem_cons.1 (h6 e he)
  · refine (h9.agree ((h4 other).1 ho)).imp ?_
    rintro c c' ⟨g, hc, hc'⟩
    obtain ⟨h0, h1, hc⟩ := (hpairs _ _).1 hc
    obtain ⟨-, h1', hc'⟩ := (hpairs _ _).1 hc'
    exact ⟨h1, h1', g, h0, hc, hc'⟩

/-- **C77**: if moreover no other character has the glyph of a character displayed or of the space, then there is only one text that a
reader may copy. -/
theorem C77_unique_partial (hfont : WellFormed font) (hname : 35 ∉ utf8 font.postscriptName) (hview : P.fontView = fontView units utf8 font)
    {readReal : List Byte → Option R} (hd : RealText P.floats.dtoa readReal) (hl : FloatLaws P.floats) (F : Forest)
    (rootStyle : ComputedValues) (tree : List StyledNode) (hidden : List Nat) (h : Denotes engine d F rootStyle tree hidden)
    (hfloat : floatOf rootStyle = .none ∧ nodesAll (fun s _ => floatOf s = .none) tree)
    (hchar : ∀ c ∈ visibleTexts tree, isChar c = true) (hglyph : ∀ c ∈ inked (visibleTexts tree), HasGlyph font c)
    (hunique : ∀ c c', c = 32 ∨ c ∈ visibleTexts tree → SameGlyph font c c' → c' = c)
    {fuel : Nat} {schedule : Oracle} {bytes : List Byte}
    (hb : toPdfBytes P engine (fontApi ems font) d fuel schedule = some bytes) (hs : bytes.length ≤ 2 ^ 32) :
    ∃ m file page painted text, (∀ fuel, m ≤ fuel → readDocument readReal fuel bytes = some file) ∧ file.pages = [page] ∧
      (∃ m, ∀ fuel, m ≤ fuel →
        paintContents readReal P.floats.zero P.floats.one (gsAlpha file.extGState) fuel page.contents = some painted) ∧
      (∀ other, Copied readReal bytes file.fonts painted other ↔ other = text) ∧
      (inked text).Perm (inked (visibleTexts tree)) ∧
      (positionOf rootStyle ≠ .absolute ∧ nodesAll (fun s _ => positionOf s ≠ .absolute) tree → inked text = inked (visibleTexts tree)) := by
  obtain ⟨m, file, page, painted, text, h1, h2, h3, h4, h5, h6, h7, h8⟩ := C77_copy_partial P engine d font ems units utf8 hfont hname hview
    hd hl F rootStyle tree hidden h hfloat hchar hglyph hb hs
  refine ⟨m, file, page, painted, text, h1, h2, h3, fun other => ⟨fun ho => ?_, fun ho => ho ▸ h4⟩, h5, h6⟩
  have := h8 other ho
  clear h4 h5 h6 h8 ho
  induction this with
  | nil => rfl
  | @cons c c' t t' hc _ ih =>
    rw [hunique c c' (h7 c (by simp)) hc, ih fun c hc => h7 c (by simp [hc])]

end

/-! ### Examples -/

/-- The sample font file with the format 4 map, in which `a`, `b` and `c` have the glyphs 2, 3 and 4. -/
def fileFont : Font := Verif.Font.sampleParsed Verif.Font.sample4 (.format4 (Verif.Font.table4 274 3))

theorem fileFont_wellFormed : WellFormed fileFont where
  size := by decide +kernel
  map := .inl ⟨274, Verif.Font.sampleSegs,
    ⟨_, rfl, Verif.Font.format4Parse_ok Verif.Font.sample4 (by decide +kernel) 274 Verif.Font.sampleSegs Verif.Font.sample4_at⟩,
    Verif.Font.sample4_at, Verif.Font.sample4_ok⟩
  metrics := by decide +kernel

/-- The name of a font as it is in the file. -/
def rawName : NameText → List Byte
  | .utf8Lossy bytes => bytes
  | .chars scalars => scalars.map fun c => Fin.ofNat 256 c

/-- Thousandths of an em. -/
def wholeUnits (a : Int) (u : Nat) : Int := a * 1000 / u

/-- `examplePainter` with the font from the file. -/
def copyPainter : Painter Int (Option FontError) := ⟨wholeFloats, Rat.floor, 0, fontView wholeUnits rawName fileFont, 7 / 10⟩

/-- The sample file is parsed as `fileFont`. -/
example : Font.parse Verif.Font.sample4 = .ok fileFont := Verif.Font.sample4_parse

theorem copyPainter_pdf : ∃ bytes, toPdfBytes copyPainter exampleEngine (fontApi (fun a u => a / u) fileFont) exampleDocument2 9 inOrder =
    some bytes ∧ bytes.length ≤ 2 ^ 32 := by
  have hp : parseStylesheets exampleEngine exampleDocument2 = some ⟨[]⟩ := exampleEngine_sheets rfl
  have h : ((toPdfBytes copyPainter exampleEngine (fontApi (fun a u => a / u) fileFont) exampleDocument2 9 inOrder).map
      fun bytes => decide (bytes.length ≤ 2 ^ 32)) = some true := by
    simp only [toPdfBytes, layoutDocument, constructDocument, hp]
    decide +kernel
  rcases hb : toPdfBytes copyPainter exampleEngine (fontApi (fun a u => a / u) fileFont) exampleDocument2 9 inOrder with _ | bytes
  · rw [hb] at h; cases h
  · rw [hb] at h
    exact ⟨bytes, rfl, of_decide_eq_true (Option.some.inj h)⟩

/-- The hypotheses of the theorems above are met by `exampleDocument2`, whose text is `ab`, with the font from the sample file. -/
example : WellFormed fileFont ∧ 35 ∉ rawName fileFont.postscriptName ∧ copyPainter.fontView = fontView wholeUnits rawName fileFont ∧
    RealText copyPainter.floats.dtoa readWhole ∧ FloatLaws copyPainter.floats ∧
    (∃ F rootStyle hidden, Denotes exampleEngine exampleDocument2 F rootStyle exampleTree2 hidden ∧ floatOf rootStyle = .none ∧
      positionOf rootStyle ≠ .absolute ∧ (∀ x ∈ hidden, HasNext exampleDocument2 x)) ∧
    allSupported false exampleTree2 ∧
    nodesAll (fun s _ => floatOf s = .none) exampleTree2 ∧ nodesAll (fun s _ => positionOf s ≠ .absolute) exampleTree2 ∧
    inked (visibleTexts exampleTree2) = codes "ab" ∧ (∀ c ∈ visibleTexts exampleTree2, isChar c = true) ∧
    (∀ c ∈ inked (visibleTexts exampleTree2), HasGlyph fileFont c) ∧
    (∀ c c', c = 32 ∨ c ∈ visibleTexts exampleTree2 → SameGlyph fileFont c c' → c' = c) := by
  refine ⟨fileFont_wellFormed, by decide +kernel, rfl, realText_whole, wholeFloats_laws,
    ⟨_, _, _, exampleDocument2_denotes, by decide +kernel, by decide +kernel, ?_⟩, ?_, ?_, ?_, by decide +kernel, by decide +kernel, ?_, ?_⟩
  · intro x hx
    cases List.mem_singleton.1 hx
    exact ⟨_, 4, rfl, rfl⟩
  · have hN : (constructDocument exampleEngine exampleDocument2 9).isSome = true := by
      have hp : parseStylesheets exampleEngine exampleDocument2 = some ⟨[]⟩ := exampleEngine_sheets rfl
      simp only [constructDocument, hp]
      decide +kernel
    obtain ⟨root, hr⟩ := Option.isSome_iff_exists.1 hN
    exact ((C64_returns_partial _ _ _ _ _ _ exampleDocument2_denotes).1 ⟨9, root, hr⟩).2
  · refine ⟨.inl (by decide +kernel), .inr ⟨by decide +kernel, .inr ⟨by decide +kernel, trivial, trivial⟩, trivial, trivial⟩, trivial⟩
  · refine ⟨.inl (by decide +kernel), .inr ⟨by decide +kernel, .inr ⟨by decide +kernel, trivial, trivial⟩, trivial, trivial⟩, trivial⟩
  · rw [show inked (visibleTexts exampleTree2) = [97, 98] by decide +kernel]
    intro c hc
    rcases List.mem_cons.1 hc with rfl | hc
    · exact ⟨2, by decide, by decide +kernel⟩
    · cases List.mem_singleton.1 hc
      exact ⟨3, by decide, by decide +kernel⟩
  · obtain ⟨l, hl, hm⟩ := fileFont_wellFormed.listed
    have : fileFont.eachCodePoint = .ok [(65, 5), (67, 9), (97, 2), (98, 3), (99, 4)] := by decide +kernel
    rw [this] at hl
    cases hl
    rintro c c' - ⟨h1, h2, g, h0, hc, hc'⟩
    have h3 := (hm c g).2 ⟨h0, h1, hc⟩
    have h4 := (hm c' g).2 ⟨h0, h2, hc'⟩
    simp only [List.mem_cons, Prod.mk.injEq, List.not_mem_nil, or_false] at h3 h4
    omega

/-- A font file in which `a` and `b` have the same glyph. -/
def sharedFile : List Byte := Verif.Font.sampleFile (Verif.Font.twoRecords 1 (
  Verif.Font.be16 4 ++ Verif.Font.be16 0 ++ Verif.Font.be16 0 ++ Verif.Font.be16 6 ++ Verif.Font.be16 0 ++ Verif.Font.be16 0 ++ Verif.Font.be16 0 ++
  Verif.Font.be16 97 ++ Verif.Font.be16 98 ++ Verif.Font.be16 65535 ++ Verif.Font.be16 0 ++
  Verif.Font.be16 97 ++ Verif.Font.be16 98 ++ Verif.Font.be16 65535 ++
  Verif.Font.be16 65444 ++ Verif.Font.be16 65443 ++ Verif.Font.be16 1 ++
  Verif.Font.be16 0 ++ Verif.Font.be16 0 ++ Verif.Font.be16 0))

/-- **C77** does not hold for fonts in which characters share a glyph: the ToUnicode map lists `a` and `b` for glyph 5, and `ab` is shown as
glyph 5 twice, so that a reader which makes the same of the same code never copies `ab`. (convert.rs 331-339 writes one entry for each
character; a font with separate codes for them, or `ActualText`, would be needed.) -/
theorem C77_shared_violated : ∃ shared, Font.parse sharedFile = .ok shared ∧
    (fontView wholeUnits rawName shared).codePoints = [(97, 5), (98, 5)] ∧
    (layoutDocument exampleEngine (fontApi (fun a u => a / u) shared) exampleDocument2 9 inOrder ⟨600, 800⟩).map
      (fun fs => (fragmentsGlyphs fs).map Prod.snd) = some [5, 5] ∧
    ∀ read : Nat → Nat, [5, 5].map read ≠ codes "ab" := by
  refine ⟨Verif.Font.sampleParsed sharedFile (.format4 (Verif.Font.table4 274 3)), by decide +kernel, by decide +kernel, ?_, ?_⟩
  · have hp : parseStylesheets exampleEngine exampleDocument2 = some ⟨[]⟩ := exampleEngine_sheets rfl
    simp only [layoutDocument, constructDocument, hp]
    decide +kernel
  · intro read h
    rw [show codes "ab" = [97, 98] by decide +kernel] at h
    simp only [List.map_cons, List.map_nil, List.cons.injEq, and_true] at h
    omega

end Verif.Layout
