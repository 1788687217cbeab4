/- C96: white space at the beginning of blocks and between blocks changes nothing. -/
import Verif.Layout.IndentSpec
import Verif.Layout.MarkTheorems
import Verif.Layout.WrapTheorems
namespace Verif.Layout
open Verif.Style Verif.Style.Spec Verif.Text Verif.Pdf Verif.Dom

theorem blank_white {t : List Nat} (h : BlankText t) : ∀ c ∈ t, isAsciiWhitespace c = true := by
  intro c hc
  have := h c hc
  simp only [spaceCharacters, List.mem_cons, List.not_mem_nil, or_false] at this
  rcases this with rfl | rfl | rfl | rfl | rfl <;> rfl

theorem leading_start {b : Builder} (ho : b.ongoing = []) (hs : b.stack = []) (t : List Nat) :
    b.handleLeadingWhitespace t = (false, t.dropWhile isAsciiWhitespace) := by
  cases t with
  | nil => rfl
  | cons c t =>
    simp only [Builder.handleLeadingWhitespace, Builder.current, ho, hs, spaceAfterAll]
    split
    · rfl
    · rename_i h
      rw [List.dropWhile_cons, if_neg h]

theorem dropWhile_blank {w : List Nat} (h : BlankText w) (t : List Nat) :
    (w ++ t).dropWhile isAsciiWhitespace = t.dropWhile isAsciiWhitespace := by
  have hw := blank_white h
  clear h
  induction w with
  | nil => rfl
  | cons c w ih =>
    rw [List.cons_append, List.dropWhile_cons, if_pos (hw c (by simp)), ih fun c hc => hw c (by simp [hc])]

/-- Nothing is made of the white space. -/
theorem Indented.traverse {lineStart : Bool} {nodes nodes' : List StyledNode} (h : Indented lineStart nodes nodes') :
    ∀ (cs ps : ComputedValues) (b : Builder), (lineStart = true → b.ongoing = [] ∧ b.stack = []) →
      traverseNodes cs ps nodes b = traverseNodes cs ps nodes' b := by
  induction h with
  | nil => intros; rfl
  | @blank t ns ns' ht _ ih =>
    intro cs ps b hb
    have h1 : traverseNode cs ps (.text t) b = some b := by
      simp only [traverseNode, Builder.handleText, leading_start (hb rfl).1 (hb rfl).2]
      have : t.dropWhile isAsciiWhitespace = [] := by simpa using dropWhile_blank ht []
      rw [this]
      rfl
    rw [traverseNodes, h1]
    exact ih cs ps b hb
  | @indent w t ns ns' hw _ ih =>
    intro cs ps b hb
    have h1 : traverseNode cs ps (.text (w ++ t)) b = traverseNode cs ps (.text t) b := by
      simp only [traverseNode, Builder.handleText, leading_start (hb rfl).1 (hb rfl).2, dropWhile_blank hw]
    rw [traverseNodes, traverseNodes, h1]
    split
    · rfl
    · exact ih cs ps _ (by simp)
  | @block lineStart s children children' ns ns' hs _ _ ih1 ih2 =>
    intro cs ps b hb
    have h0 := ih1 s s Builder.new fun _ => ⟨rfl, rfl⟩
    have h1 : traverseNode cs ps (.element s children) b = traverseNode cs ps (.element s children') b := by
      simp only [traverseNode, h0]
      obtain ⟨⟨ins, hd⟩, hp, hf⟩ := hs
      have hp' : (positionOf s).isAbsolutelyPositioned = false := by
        rcases hq : positionOf s with _ | _ | _ <;> first | rfl | exact absurd hq hp
      have hfl : (floatOf s).isFloating = false := by rw [hf]; rfl
      simp only [hd, hp', hfl]
    rw [traverseNodes, traverseNodes, h1]
    rcases h2 : traverseNode cs ps (.element s children') b with _ | b1
    · rfl
    · obtain ⟨b0, inner, contents, floats, x, f, -, e1, -, -, rfl, -⟩ := traverse_block hs h2
      obtain ⟨-, e2, e3, -⟩ := endOngoing_some e1
      exact ih2 cs ps _ fun _ => ⟨e3, e2⟩
  | @outOfFlow lineStart s children children' ns ns' hs _ _ ih1 ih2 =>
    intro cs ps b hb
    have h0 := ih1 s s Builder.new fun _ => ⟨rfl, rfl⟩
    obtain ⟨⟨ins, hd⟩, hp⟩ := hs
    have h1 : traverseNode cs ps (.element s children) b = traverseNode cs ps (.element s children') b := by
      by_cases hq : (positionOf s).isAbsolutelyPositioned = true
      · simp only [traverseNode, hd, hq, h0]
      · by_cases hf : (floatOf s).isFloating = true
        · simp only [traverseNode, hd, hq, hf, h0]
        · exfalso
          rcases hp with hp | hp
          · rw [hp] at hq
            exact hq rfl
          · rcases hz : floatOf s with _ | _ | _ <;> first | exact hp hz | exact hf (by rw [hz]; rfl)
    rw [traverseNodes, traverseNodes, h1]
    rcases h2 : traverseNode cs ps (.element s children') b with _ | b1
    · rfl
    · refine ih2 cs ps b1 fun hl => ?_
      obtain ⟨ho, hst⟩ := hb hl
      have hno : b.hasOngoing = false := by simp [Builder.hasOngoing, ho, hst]
      by_cases hq : (positionOf s).isAbsolutelyPositioned = true
      · simp only [traverseNode, hd, hq, if_true, hno, Bool.false_eq_true, if_false] at h2
        split at h2
        · cases h2
        · split at h2
          · cases h2
          · cases h2
            exact ⟨ho, hst⟩
      · by_cases hf : (floatOf s).isFloating = true
        · simp only [traverseNode, hd, hq, hf, if_true, Bool.false_eq_true, if_false] at h2
          split at h2
          · cases h2
          · split at h2
            · cases h2
            · rw [if_neg (by simp [Builder.hasOngoing, ho, hst])] at h2
              cases h2
              exact ⟨ho, hst⟩
        · exfalso
          rcases hp with hp | hp
          · rw [hp] at hq
            exact hq rfl
          · rcases hz : floatOf s with _ | _ | _ <;> first | exact hp hz | exact hf (by rw [hz]; rfl)
  | @hidden lineStart s children ns ns' hd _ ih =>
    intro cs ps b hb
    rw [traverseNodes, traverseNodes]
    simp only [traverseNode, hd]
    exact ih cs ps b hb
  | comment _ ih =>
    intro cs ps b hb
    rw [traverseNodes, traverseNodes]
    exact ih cs ps b hb
  | @inline lineStart s inside children children' ns ns' hd _ _ ih1 ih2 =>
    intro cs ps b hb
    have h1 : traverseNode cs ps (.element s children) b = traverseNode cs ps (.element s children') b := by
      cases inside with
      | flow => simp only [traverseNode, hd, ih1 cs s { b with stack := ⟨s, true, []⟩ :: b.stack } (by simp)]
      | flowRoot => simp only [traverseNode, hd]
    rw [traverseNodes, traverseNodes, h1]
    split
    · rfl
    · exact ih2 cs ps _ (by simp)
  | @contents lineStart s children children' ns ns' hd _ _ ih1 ih2 =>
    intro cs ps b hb
    have h1 : traverseNode cs ps (.element s children) b = traverseNode cs ps (.element s children') b := by
      simp only [traverseNode, hd, ih1 cs s b hb]
    rw [traverseNodes, traverseNodes, h1]
    split
    · rfl
    · exact ih2 cs ps _ (by simp)
  | same _ ih =>
    intro cs ps b hb
    rw [traverseNodes, traverseNodes]
    split
    · rfl
    · exact ih cs ps _ (by simp)

theorem Indented.root {s : ComputedValues} {nodes nodes' : List StyledNode} (h : Indented true nodes nodes') :
    constructRoot s nodes = constructRoot s nodes' := by
  simp only [constructRoot, constructContainer, h.traverse s s Builder.new fun _ => ⟨rfl, rfl⟩]

/-- **C96**: if two documents are the same but for white space at the beginning of blocks and between blocks (both are like `plain`, which
has the least of it), and a PDF file is made of one of them, the same file is made of the other one, byte by byte, whatever the schedule.
Each element of the other one that is not displayed has a next sibling (`C64_returns_partial`).
Missing: white space at the end of blocks and before a block that comes after text, of which it is not true (`C96_end_violated`). -/
theorem C96_indented_partial {σ σ' R Er Err : Type} (P : Painter R Er) (font : FontApi Rat Err) {E : Engine σ} {E' : Engine σ'} {d d' : Document}
    {F F' : Forest} {rootStyle : ComputedValues} {tree tree' plain : List StyledNode} {hidden hidden' : List Nat}
    (h : Denotes E d F rootStyle tree hidden) (h' : Denotes E' d' F' rootStyle tree' hidden')
    (hi : Indented true tree plain) (hi' : Indented true tree' plain) (hh : ∀ x ∈ hidden', HasNext d' x)
    {fuel : Nat} {schedule : Oracle} {bytes : List Byte} (hb : toPdfBytes P E font d fuel schedule = some bytes) :
    ∃ N, ∀ fuel' ≥ N, ∀ schedule', toPdfBytes P E' font d' fuel' schedule' = some bytes := by
  unfold toPdfBytes layoutDocument at hb
  rcases hc : constructDocument E d fuel with _ | root
  · simp [hc] at hb
  simp only [hc] at hb
  obtain ⟨h1, -⟩ := constructDocument_sound h hc
  obtain ⟨N, hN⟩ := constructDocument_complete h' hh
  rcases hl : layoutRoot font fuel schedule root ⟨600, 800⟩ with _ | fragments
  · simp [hl] at hb
  simp only [hl] at hb
  refine ⟨N + fuel, fun fuel' hf schedule' => ?_⟩
  obtain ⟨extra, rfl⟩ := Nat.exists_eq_add_of_le (show fuel ≤ fuel' by omega)
  unfold toPdfBytes layoutDocument
  rw [hN _ (by omega), hi'.root, ← hi.root, h1]
  simp only [C58_fuel root fuel extra schedule schedule' _ _ hl]
  exact hb

/-! ### Examples -/

/-- `exampleDocument2`, `<html><head></head><div><p>a</p>b</div></html>`, with line breaks and indentation. -/
def indentedDocument : Document :=
  { Document.new with nodes :=
    [ Node.new .document,
      ⟨none, none, none, some 2, some 2, .document⟩,
      exampleElement "html" (some 1) none none (some 3) (some 6),
      ⟨some 2, some 4, none, none, none, .text "\n"⟩,
      exampleElement "head" (some 2) (some 5) (some 3) none none,
      ⟨some 2, some 6, some 4, none, none, .text "\n"⟩,
      exampleElement "div" (some 2) none (some 5) (some 7) (some 10),
      ⟨some 6, some 8, none, none, none, .text "\n  "⟩,
      exampleElement "p" (some 6) (some 10) (some 7) (some 9) (some 9),
      ⟨some 8, none, none, none, none, .text "\n  a"⟩,
      ⟨some 6, none, some 8, none, none, .text "\n  b"⟩ ] }

/-- The contents of `indentedDocument`. -/
def indentedTree : List StyledNode :=
  let html := exampleRootStyle indentedDocument
  let div := documentStyle indentedDocument 6 (some html)
  [.text (codes "\n"), .element (documentStyle indentedDocument 4 (some html)) [], .text (codes "\n"),
    .element div [.text (codes "\n  "), .element (documentStyle indentedDocument 8 (some div)) [.text (codes "\n  a")], .text (codes "\n  b")]]

/-- The children of the nodes of `indentedDocument`. -/
def indentedChildren : List (List Nat) := [[], [2], [3, 4, 5, 6], [], [], [], [7, 8, 10], [], [9], [], []]

theorem indentedDocument_denotes : Denotes exampleEngine indentedDocument (forestOf indentedChildren) (exampleRootStyle exampleDocument2)
    indentedTree [4] := by
  have hcheck : treeCheck indentedDocument indentedChildren = true := by decide +kernel
  refine ⟨represents_of_check hcheck, acyclic_of_check hcheck, ⟨[]⟩, 2, exampleEngine_sheets rfl, by decide, rfl, by decide +kernel, ?_⟩
  exact .text (n := 3) rfl rfl (.none (n := 4) (hidden := []) rfl rfl rfl (by decide +kernel) (.text (n := 5) rfl rfl
    (.element (belowHidden := []) (hidden := []) (n := 6) rfl rfl rfl (by decide +kernel)
      (.text (n := 7) rfl rfl (.element (belowHidden := []) (hidden := []) (n := 8) rfl rfl rfl (by decide +kernel) (.text (n := 9) rfl rfl .nil)
        (.text (n := 10) rfl rfl .nil))) .nil)))

/-- The hypotheses of C96 are met by these documents, and files are made of both. -/
theorem indentedDocument_same : Denotes exampleEngine exampleDocument2 (forestOf exampleChildren2) (exampleRootStyle exampleDocument2) exampleTree2 [3] ∧
    Denotes exampleEngine indentedDocument (forestOf indentedChildren) (exampleRootStyle exampleDocument2) indentedTree [4] ∧
    Indented true indentedTree exampleTree2 ∧ Indented true exampleTree2 exampleTree2 ∧ (∀ x ∈ [4], HasNext indentedDocument x) ∧
    (∃ bytes, toPdfBytes examplePainter exampleEngine basicFont exampleDocument2 9 inOrder = some bytes) := by
  refine ⟨exampleDocument2_denotes, indentedDocument_denotes, ?_, .same (.same .nil), ?_, ?_⟩
  · have e3 : documentStyle indentedDocument 4 (some (exampleRootStyle indentedDocument)) =
        documentStyle exampleDocument2 3 (some (exampleRootStyle exampleDocument2)) := by
      refine sameStyle_of (fun p => ?_) (by decide +kernel)
      cases p <;> decide +kernel
    have e4 : documentStyle indentedDocument 6 (some (exampleRootStyle indentedDocument)) =
        documentStyle exampleDocument2 4 (some (exampleRootStyle exampleDocument2)) := by
      refine sameStyle_of (fun p => ?_) (by decide +kernel)
      cases p <;> decide +kernel
    have e5 : documentStyle indentedDocument 8 (some (documentStyle exampleDocument2 4 (some (exampleRootStyle exampleDocument2)))) =
        documentStyle exampleDocument2 5 (some (documentStyle exampleDocument2 4 (some (exampleRootStyle exampleDocument2)))) := by
      refine sameStyle_of (fun p => ?_) (by decide +kernel)
      cases p <;> decide +kernel
    simp only [indentedTree, exampleTree2, e3, e4, e5]
    have hb : BlockInFlow (documentStyle exampleDocument2 4 (some (exampleRootStyle exampleDocument2))) :=
      ⟨⟨.flow, by decide +kernel⟩, by decide +kernel, by decide +kernel⟩
    have hb' : BlockInFlow (documentStyle exampleDocument2 5 (some (documentStyle exampleDocument2 4 (some (exampleRootStyle exampleDocument2))))) :=
      ⟨⟨.flow, by decide +kernel⟩, by decide +kernel, by decide +kernel⟩
    have hw : BlankText (codes "\n") := show ∀ c ∈ codes "\n", c ∈ spaceCharacters by decide +kernel
    have hw2 : BlankText (codes "\n  ") := show ∀ c ∈ codes "\n  ", c ∈ spaceCharacters by decide +kernel
    exact .blank hw (.hidden (by decide +kernel) (.blank hw (.block hb (.blank hw2 (.block hb'
      (.indent (w := codes "\n  ") (t := codes "a") hw2 .nil) (.indent (w := codes "\n  ") (t := codes "b") hw2 .nil))) .nil)))
  · intro x hx
    cases List.mem_singleton.1 hx
    exact ⟨_, 5, rfl, rfl⟩
  · have h1 : parseStylesheets exampleEngine exampleDocument2 = some ⟨[]⟩ := exampleEngine_sheets rfl
    refine Option.isSome_iff_exists.1 ?_
    simp only [toPdfBytes, layoutDocument, constructDocument, h1]
    decide +kernel

/-- A `span` with a red background. -/
def redSpanStyle : ComputedValues := styleWith (.generatingBox .inline .flow) (·.set .backgroundColor (Color.rgba ⟨255, 0, 0, 255⟩))

/-- **C96** does not hold of white space at the end of a block: it is kept as a space, so that the background of `<span>a⏎</span>` is as
wide as two characters. Nor of white space before a block that comes after text: a glyph is painted for it. -/
theorem C96_end_violated :
    inkOfTree [.element blockStyle [.element redSpanStyle [.text (codes "a")]]] =
      some [.rect ⟨0, 0⟩ ⟨16, 96 / 5⟩ ⟨255, 0, 0, 255⟩, .glyphs [97] 16 ⟨0, 16⟩ ⟨0, 0, 0, 255⟩] ∧
    inkOfTree [.element blockStyle [.element redSpanStyle [.text (codes "a\n")]]] =
      some [.rect ⟨0, 0⟩ ⟨32, 96 / 5⟩ ⟨255, 0, 0, 255⟩, .glyphs [97, 32] 16 ⟨0, 16⟩ ⟨0, 0, 0, 255⟩] ∧
    inkOfTree [.text (codes "a"), .element blockStyle [.text (codes "b")]] =
      some [.glyphs [97] 16 ⟨0, 16⟩ ⟨0, 0, 0, 255⟩, .glyphs [98] 16 ⟨0, 176 / 5⟩ ⟨0, 0, 0, 255⟩] ∧
    inkOfTree [.text (codes "a\n"), .element blockStyle [.text (codes "b")]] =
      some [.glyphs [97, 32] 16 ⟨0, 16⟩ ⟨0, 0, 0, 255⟩, .glyphs [98] 16 ⟨0, 176 / 5⟩ ⟨0, 0, 0, 255⟩] := by
  exact ⟨by decide +kernel, by decide +kernel, by decide +kernel, by decide +kernel⟩

end Verif.Layout
