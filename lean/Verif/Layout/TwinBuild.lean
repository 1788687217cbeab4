/- The boxes of two documents that are the same up to some point. -/
import Verif.Layout.TwinBegin
import Verif.Layout.BeforeTheorems
import Verif.Layout.MarkLemmas
namespace Verif.Layout
open Verif.Style Verif.Style.Spec Verif.Text Verif.Pdf Verif.Dom

/-! ### The last word of a text -/

/-- What comes after the last of these characters. -/
def after (p : Nat → Bool) : List Nat → List Nat
  | [] => []
  | c :: t => if (c :: t).any p then after p t else c :: t

theorem after_none {p : Nat → Bool} : ∀ {t : List Nat}, t.any p = false → after p t = t
  | [], _ => rfl
  | c :: t, h => by rw [after, h]; simp

theorem after_cons {p : Nat → Bool} {c : Nat} {t : List Nat} (h : (c :: t).any p = true) : after p (c :: t) = after p t := by
  rw [after, if_pos h]

theorem after_append (p : Nat → Bool) (a b : List Nat) : after p (a ++ b) = if b.any p then after p b else after p a ++ b := by
  induction a with
  | nil =>
    simp only [List.nil_append, after]
    split
    · rfl
    · rename_i h
      exact after_none (by simpa using h)
  | cons c a ih =>
    by_cases hb : b.any p = true
    · rw [if_pos hb] at ih ⊢
      rw [List.cons_append, after_cons (by simp [hb]), ih]
    · rw [if_neg hb] at ih ⊢
      by_cases ha : (c :: a).any p = true
      · rw [List.cons_append, after_cons (by
          rw [← List.cons_append, List.any_append, ha]; rfl), ih, after_cons ha]
      · have ha : (c :: a).any p = false := by simpa using ha
        have hb : b.any p = false := by simpa using hb
        rw [after_none ha, after_none (by rw [List.any_append, ha, hb]; rfl)]

/-- The last word of a text; nothing if it ends with white space. -/
abbrev lastWord : List Nat → List Nat := after isAsciiWhitespace

/-- What comes after the last space. -/
abbrev tailOf : List Nat → List Nat := after (· == 32)

theorem lastWord_append_le (w t : List Nat) : (lastWord t).length ≤ (lastWord (w ++ t)).length := by
  rw [lastWord, after_append]
  split
  · exact Nat.le_refl _
  · rename_i h
    rw [after_none (by simpa using h)]
    simp

theorem beforeLastWord_append (t : List Nat) : beforeLastWord t ++ lastWord t = t := by
  induction t with
  | nil => rfl
  | cons c t ih =>
    rw [beforeLastWord, lastWord, after]
    split
    · rw [List.cons_append, ih]
    · rfl

theorem lastWord_ink (t : List Nat) : inked (lastWord t) = lastWord t := by
  induction t with
  | nil => rfl
  | cons c t ih =>
    rw [lastWord, after]
    split
    · exact ih
    · rename_i h
      rw [inked, List.filter_eq_self]
      intro x hx
      simp only [Bool.not_eq_true, List.any_eq_false] at h
      simpa using h x hx

theorem upToSpace_tailOf (t : List Nat) : upToSpace t ++ tailOf t = t := by
  induction t with
  | nil => rfl
  | cons c t ih =>
    by_cases h : 32 ∈ c :: t
    · rw [upToSpace, if_pos h, tailOf, after_cons (List.any_eq_true.2 ⟨32, h, rfl⟩), List.cons_append, ih]
    · rw [upToSpace_none h, tailOf, after_none (by
        rw [List.any_eq_false]
        intro x hx he
        exact h (by rw [← beq_iff_eq.1 he]; exact hx))]
      rfl

theorem squeeze_none {t : List Nat} (h : t.any isAsciiWhitespace = false) (p : Bool) : squeeze p t = t := by
  induction t generalizing p with
  | nil => rfl
  | cons c t ih =>
    simp only [List.any_cons, Bool.or_eq_false_iff] at h
    rw [squeeze, h.1, if_neg (by simp), ih h.2]

theorem squeeze_any (t : List Nat) : (squeeze false t).any (· == 32) = t.any isAsciiWhitespace := by
  induction t with
  | nil => rfl
  | cons c t ih =>
    by_cases hc : isAsciiWhitespace c = true
    · simp [squeeze, hc]
    · have hn : c ≠ 32 := by rintro rfl; exact hc rfl
      simp [squeeze, hc, hn, ih]

theorem squeeze_tailOf (p : Bool) (t : List Nat) : tailOf (squeeze p t) = lastWord t := by
  induction t generalizing p with
  | nil => rfl
  | cons c t ih =>
    by_cases hc : isAsciiWhitespace c = true
    · rw [lastWord, after_cons (by simp [hc])]
      cases p
      · rw [squeeze, if_pos hc, if_neg (by simp), tailOf, after_cons (by simp)]
        exact ih true
      · rw [squeeze, if_pos hc, if_pos rfl]
        exact ih true
    · have hn : c ≠ 32 := by rintro rfl; exact hc rfl
      rw [squeeze, if_neg hc]
      by_cases ht : t.any isAsciiWhitespace = true
      · rw [lastWord, after_cons (by simp [ht]), tailOf, after_cons (by rw [List.any_cons, squeeze_any, ht]; simp)]
        exact ih false
      · have ht : t.any isAsciiWhitespace = false := by simpa using ht
        rw [squeeze_none ht, lastWord, after_none (by simp [hc, ht]), tailOf, after_none (by
          rw [List.any_cons, ← squeeze_none ht false, squeeze_any, ht]; simpa using hn)]

/-! ### What can still change in inline boxes -/

mutual
/-- The text in it that stays where it is, whatever is added at the end. -/
def InlineLevelBox.safe : InlineLevelBox → List (ComputedValues × Nat)
  | .inlineBox _ _ _ children => safeAll children
  | .textRun style text => (upToSpace text).map fun c => (style, c)
  | .outOfFlowAbsolutelyPositioned s f c => (InlineLevelBox.outOfFlowAbsolutelyPositioned s f c).runs.flatten
  | .outOfFlowFloat s f c => (InlineLevelBox.outOfFlowFloat s f c).runs.flatten
/-- See `InlineLevelBox.safe`. -/
def safeAll : List InlineLevelBox → List (ComputedValues × Nat)
  | [] => []
  | [x] => x.safe
  | x :: y :: xs => x.runs.flatten ++ safeAll (y :: xs)
end

mutual
/-- The rest of the text in it. -/
def InlineLevelBox.tail : InlineLevelBox → List Nat
  | .inlineBox _ _ _ children => tailAll children
  | .textRun _ text => tailOf text
  | .outOfFlowAbsolutelyPositioned _ _ _ => []
  | .outOfFlowFloat _ _ _ => []
/-- See `InlineLevelBox.tail`. -/
def tailAll : List InlineLevelBox → List Nat
  | [] => []
  | [x] => x.tail
  | _ :: y :: xs => tailAll (y :: xs)
end

mutual
theorem InlineLevelBox.safe_tail : ∀ x : InlineLevelBox, x.safe.map Prod.snd ++ x.tail = x.runs.flatten.map Prod.snd
  | .inlineBox _ _ _ children => by
    rw [InlineLevelBox.safe, InlineLevelBox.tail, InlineLevelBox.runs]
    exact safeAll_tail children
  | .textRun style text => by
    simp [InlineLevelBox.safe, InlineLevelBox.tail, InlineLevelBox.runs, upToSpace_tailOf, Function.comp_def]
  | .outOfFlowAbsolutelyPositioned _ _ _ => by simp [InlineLevelBox.safe, InlineLevelBox.tail]
  | .outOfFlowFloat _ _ _ => by simp [InlineLevelBox.safe, InlineLevelBox.tail]
theorem safeAll_tail : ∀ xs : List InlineLevelBox, (safeAll xs).map Prod.snd ++ tailAll xs = (inlinesRuns xs).flatten.map Prod.snd
  | [] => rfl
  | [x] => by
    simp only [safeAll, tailAll, inlinesRuns, List.append_nil]
    exact InlineLevelBox.safe_tail x
  | x :: y :: xs => by
    rw [safeAll, tailAll, inlinesRuns, List.map_append, List.append_assoc, safeAll_tail (y :: xs), List.flatten_append, List.map_append]
end

theorem tailAll_last (xs : List InlineLevelBox) (x : InlineLevelBox) : tailAll (xs ++ [x]) = x.tail := by
  induction xs with
  | nil => rfl
  | cons y xs ih =>
    cases xs with
    | nil => rfl
    | cons z xs => exact ih

theorem getLast_tailOf (t : List Nat) (h : tailOf t ≠ []) : t.getLast? ≠ some 32 := by
  intro hl
  obtain ⟨a, rfl⟩ : ∃ a, t = a ++ [32] := by
    rw [List.getLast?_eq_some_iff] at hl
    exact hl
  rw [tailOf, after_append] at h
  simp [after] at h

mutual
theorem InlineLevelBox.tail_space : ∀ x : InlineLevelBox, x.tail ≠ [] → x.spaceAfter = some true
  | .inlineBox _ _ _ children, h => tailAll_space children h
  | .textRun _ text, h => by
    have := getLast_tailOf text h
    simpa [InlineLevelBox.spaceAfter] using this
  | .outOfFlowAbsolutelyPositioned _ _ _, h => absurd rfl h
  | .outOfFlowFloat _ _ _, h => absurd rfl h
theorem tailAll_space : ∀ xs : List InlineLevelBox, tailAll xs ≠ [] → spaceAfterAll xs = some true
  | [], h => absurd rfl h
  | [x], h => by
    simp only [spaceAfterAll]
    exact InlineLevelBox.tail_space x h
  | x :: y :: xs, h => by
    rw [spaceAfterAll, tailAll_space (y :: xs) h]
end

/-! ### Inline boxes to which something is added at the end -/

/-- Whether it is a box out of flow. -/
def InlineLevelBox.isOut : InlineLevelBox → Bool
  | .inlineBox _ _ _ _ | .textRun _ _ => false
  | .outOfFlowAbsolutelyPositioned _ _ _ | .outOfFlowFloat _ _ _ => true

/-- The second list is the first one with something added at the end, at any depth. -/
inductive Grown : List InlineLevelBox → List InlineLevelBox → Prop
  | nil {ys} : Grown [] ys
  | cons {x y xs ys} : Grown (y :: xs) ys → Grown (x :: y :: xs) (x :: ys)
  | text {s t u ys} : Grown [.textRun s t] (.textRun s (t ++ u) :: ys)
  | box {s f l l' cs cs' ys} : Grown cs cs' → Grown [.inlineBox s f l cs] (.inlineBox s f l' cs' :: ys)
  | out {x ys} : x.isOut = true → Grown [x] (x :: ys)

theorem Grown.of_nil {xs : List InlineLevelBox} (h : Grown xs []) : xs = [] := by
  cases h
  rfl

theorem Grown.trans {xs ys zs : List InlineLevelBox} (h : Grown xs ys) (h' : Grown ys zs) : Grown xs zs := by
  induction h generalizing zs with
  | nil => exact .nil
  | @cons x y xs ys h ih =>
    cases ys with
    | nil => cases h
    | cons y' ys =>
      cases h' with
      | cons h' => exact .cons (ih h')
  | @text s t u ys =>
    cases h' with
    | cons h' => exact .text
    | text => rw [List.append_assoc]; exact .text
    | out h' => exact .text
  | @box s f l l' cs cs' ys h ih =>
    cases h' with
    | cons h' => exact .box h
    | box h' => exact .box (ih h')
    | out h' => exact .box h
  | @out x ys hx =>
    cases h' with
    | cons h' => exact .out hx
    | text => cases hx
    | box h' => cases hx
    | out h' => exact .out hx

mutual
theorem Grown.one : ∀ (x : InlineLevelBox) (ys : List InlineLevelBox), Grown [x] (x :: ys)
  | .inlineBox s f l cs, ys => by
    have := Grown.more cs []
    rw [List.append_nil] at this
    exact .box this
  | .textRun s t, ys => by
    have : Grown [.textRun s t] (.textRun s (t ++ []) :: ys) := .text
    rwa [List.append_nil] at this
  | .outOfFlowAbsolutelyPositioned _ _ _, ys => .out rfl
  | .outOfFlowFloat _ _ _, ys => .out rfl
theorem Grown.more : ∀ (xs ys : List InlineLevelBox), Grown xs (xs ++ ys)
  | [], ys => .nil
  | [x], ys => Grown.one x ys
  | x :: y :: xs, ys => .cons (Grown.more (y :: xs) ys)
end

theorem Grown.refl (xs : List InlineLevelBox) : Grown xs xs := by
  have := Grown.more xs []
  rwa [List.append_nil] at this

theorem Grown.prefix (pre : List InlineLevelBox) {xs ys : List InlineLevelBox} (h : Grown xs ys) : Grown (pre ++ xs) (pre ++ ys) := by
  induction pre with
  | nil => exact h
  | cons x pre ih =>
    cases e : pre ++ xs with
    | nil =>
      rw [List.cons_append, e]
      exact .one _ _
    | cons y zs =>
      rw [List.cons_append, e]
      rw [e] at ih
      exact .cons ih

theorem Grown.appendText (ps : ComputedValues) (out : List Nat) (xs : List InlineLevelBox) : Grown xs (appendText ps out xs) := by
  rcases appendText_cases ps out xs with h | ⟨pre, s, t, h1, h2⟩
  · rw [h]
    exact .more _ _
  · rw [h2, h1]
    exact .prefix _ .text

theorem Grown.twin {xs ys zs : List InlineLevelBox} (h : Grown xs ys) (h' : Grown xs zs) : Twin ys zs (safeAll xs) := by
  induction h generalizing zs with
  | nil => exact .nil
  | cons h ih =>
    cases h' with
    | cons h' => exact .cons (ih h')
  | text =>
    cases h' with
    | text => exact .text
    | out h' => cases h'
  | box h ih =>
    cases h' with
    | box h' => exact .box (ih h')
    | out h' => cases h'
  | @out x ys hx =>
    have e : safeAll [x] = x.runs.flatten ++ [] := by
      cases x <;> first | (cases hx; done) | (rw [safeAll, InlineLevelBox.safe, List.append_nil])
    rw [e]
    cases h' with
    | text => cases hx
    | box h' => cases hx
    | out h' => exact .cons .nil

/-! ### What is pending -/

/-- `current_inline_level_boxes`. -/
def innermost (ongoing : List InlineLevelBox) : List OngoingInlineBox → List InlineLevelBox
  | [] => ongoing
  | o :: _ => o.children

theorem innermost_current (b : Builder) : innermost b.ongoing b.stack = b.current := by
  rw [Builder.current]
  cases b.stack <;> rfl

/-- All the inline boxes that are ongoing, as they are if they end now, and if there is this in the innermost of them. -/
def nest (ongoing : List InlineLevelBox) : List OngoingInlineBox → List InlineLevelBox → List InlineLevelBox
  | [], current => current
  | o :: rest, current => nest ongoing rest (innermost ongoing rest ++ [.inlineBox o.style o.firstFragment true current])

/-- All the inline boxes that are ongoing, as they are if they end now. -/
def Builder.pending (b : Builder) : List InlineLevelBox := nest b.ongoing b.stack b.current

theorem nest_head (ongoing : List InlineLevelBox) (s : ComputedValues) (f : Bool) (a b : List InlineLevelBox) (rest : List OngoingInlineBox)
    (cur : List InlineLevelBox) : nest ongoing (⟨s, f, a⟩ :: rest) cur = nest ongoing (⟨s, f, b⟩ :: rest) cur := rfl

theorem nest_grown (ongoing : List InlineLevelBox) (st : List OngoingInlineBox) {cur cur' : List InlineLevelBox} (h : Grown cur cur') :
    Grown (nest ongoing st cur) (nest ongoing st cur') := by
  induction st generalizing cur cur' with
  | nil => exact h
  | cons o rest ih => exact ih (.prefix _ (.box h))

theorem pending_setCurrent (b : Builder) (cur : List InlineLevelBox) : (b.setCurrent cur).pending = nest b.ongoing b.stack cur := by
  rw [Builder.pending, current_setCurrent]
  unfold Builder.setCurrent
  rcases h : b.stack with _ | ⟨o, rest⟩
  · rfl
  · exact nest_head _ _ _ _ _ _ _

theorem pending_close {b : Builder} {o : OngoingInlineBox} {rest : List OngoingInlineBox} (h : b.stack = o :: rest) :
    (({ b with stack := rest } : Builder).push (.inlineBox o.style o.firstFragment true o.children)).pending = b.pending := by
  have hc : b.current = o.children := by rw [Builder.current, h]
  rw [Builder.push, pending_setCurrent, Builder.pending, hc, h, nest, ← innermost_current]

theorem pending_open (b : Builder) (s : ComputedValues) :
    ({ b with stack := ⟨s, true, []⟩ :: b.stack } : Builder).pending = nest b.ongoing b.stack (b.current ++ [.inlineBox s true true []]) := by
  rw [← innermost_current b]
  rfl

theorem pending_stack {b : Builder} (h : b.stack = []) : b.pending = b.ongoing := by
  simp [Builder.pending, h, nest, Builder.current]

theorem nest_tail (ongoing : List InlineLevelBox) (st : List OngoingInlineBox) (cur : List InlineLevelBox) :
    tailAll (nest ongoing st cur) = tailAll cur := by
  induction st generalizing cur with
  | nil => rfl
  | cons o rest ih =>
    rw [nest, ih, tailAll_last]
    rfl

theorem nest_only {P : OutOfFlow → Prop} {ongoing : List InlineLevelBox} {st : List OngoingInlineBox} {cur : List InlineLevelBox}
    (h1 : inlinesOnly P ongoing) (h2 : ∀ o ∈ st, inlinesOnly P o.children) (h3 : inlinesOnly P cur) : inlinesOnly P (nest ongoing st cur) := by
  induction st generalizing cur with
  | nil => exact h3
  | cons o rest ih =>
    refine ih (fun o ho => h2 o (by simp [ho])) ((inlinesOnly_append _ _).2 ⟨?_, h3, trivial⟩)
    cases rest with
    | nil => exact h1
    | cons p rest => exact h2 p (by simp)

theorem BuilderOnly.pending {P : OutOfFlow → Prop} {b : Builder} (h : BuilderOnly P b) : inlinesOnly P b.pending :=
  nest_only h.inlines h.stack h.current

theorem nest_styled (ongoing : List InlineLevelBox) (o : OngoingInlineBox) (rest : List OngoingInlineBox) (cur : List InlineLevelBox) :
    inlinesStyledText (nest ongoing (o :: rest) cur) = inlinesStyledText ongoing ++ (stackStyled rest ++ inlinesStyledText cur) := by
  induction rest generalizing o cur with
  | nil =>
    simp only [nest, innermost, inlinesStyledText_append, stackStyled, List.nil_append, inlinesStyledText, InlineLevelBox.styledText, List.append_nil]
  | cons p rest ih =>
    rw [nest, ih]
    simp only [innermost, inlinesStyledText_append, stackStyled, inlinesStyledText, InlineLevelBox.styledText, List.append_nil, List.append_assoc]

theorem pending_styled (b : Builder) : b.styled = blocksStyledText b.blockLevelBoxes ++ inlinesStyledText b.pending := by
  rw [Builder.styled, Builder.pending]
  rcases h : b.stack with _ | ⟨o, rest⟩
  · simp [nest, Builder.current, h, stackStyled]
  · rw [nest_styled, Builder.current, h]
    rfl

/-! ### What comes later -/

/-- What is in the first builder comes first in the second one. -/
def Later (cs : ComputedValues) (b b1 : Builder) : Prop :=
  (b1.blockLevelBoxes = b.blockLevelBoxes ∧ Grown b.pending b1.pending) ∨
  (∃ ys more, b1.blockLevelBoxes = b.blockLevelBoxes ++ anonymousBlock cs ys :: more ∧ Grown b.pending ys) ∨
  (b.pending = [] ∧ ∃ more, b1.blockLevelBoxes = b.blockLevelBoxes ++ more)

theorem Later.blocks {cs : ComputedValues} {b b1 : Builder} (h : Later cs b b1) : ∃ more, b1.blockLevelBoxes = b.blockLevelBoxes ++ more := by
  rcases h with ⟨h, -⟩ | ⟨ys, more, h, -⟩ | ⟨-, more, h⟩
  · exact ⟨[], by rw [h, List.append_nil]⟩
  · exact ⟨_, h⟩
  · exact ⟨_, h⟩

theorem Later.refl (cs : ComputedValues) (b : Builder) : Later cs b b := .inl ⟨rfl, .refl _⟩

theorem Later.trans {cs : ComputedValues} {b b1 b2 : Builder} (h : Later cs b b1) (h' : Later cs b1 b2) : Later cs b b2 := by
  obtain ⟨more', hm⟩ := h'.blocks
  rcases h with ⟨h, g⟩ | ⟨ys, more, h, g⟩ | ⟨g, more, h⟩
  · rcases h' with ⟨h', g'⟩ | ⟨ys, more, h', g'⟩ | ⟨g', more, h'⟩
    · exact .inl ⟨h'.trans h, g.trans g'⟩
    · exact .inr (.inl ⟨ys, more, by rw [h', h], g.trans g'⟩)
    · rw [g'] at g
      exact .inr (.inr ⟨g.of_nil, more, by rw [h', h]⟩)
  · exact .inr (.inl ⟨ys, more ++ more', by rw [hm, h]; simp, g⟩)
  · exact .inr (.inr ⟨g, more ++ more', by rw [hm, h, List.append_assoc]⟩)

theorem Later.setCurrent (cs : ComputedValues) (b : Builder) {cur : List InlineLevelBox} (h : Grown b.current cur) : Later cs b (b.setCurrent cur) :=
  .inl ⟨setCurrent_blocks _ _, by rw [pending_setCurrent]; exact nest_grown _ _ h⟩

theorem Later.close (cs : ComputedValues) {b : Builder} {o : OngoingInlineBox} {rest : List OngoingInlineBox} (h : b.stack = o :: rest) :
    Later cs b (({ b with stack := rest } : Builder).push (.inlineBox o.style o.firstFragment true o.children)) :=
  .inl ⟨setCurrent_blocks _ _, by rw [pending_close h]; exact .refl _⟩

theorem Later.open (cs : ComputedValues) (b : Builder) (s : ComputedValues) : Later cs b { b with stack := ⟨s, true, []⟩ :: b.stack } :=
  .inl ⟨rfl, by rw [pending_open]; exact nest_grown _ _ (.more _ _)⟩

theorem Later.handleText (cs : ComputedValues) (b : Builder) (t : List Nat) (ps : ComputedValues) : Later cs b (b.handleText t ps) := by
  rw [handleText_eq]
  split
  · exact .refl _ _
  · exact .setCurrent _ _ (.appendText _ _ _)

theorem traverse_later : TraversalCases (fun cs _ _ b b' => Later cs b b') (fun cs _ _ b b' => Later cs b b') where
  ignored cs _ b := .refl cs b
  text cs ps t b := .handleText _ _ _ _
  none cs _ _ _ b _ := .refl cs b
  contents _ _ _ _ _ _ _ h := h
  inline cs ps s ch b b1 o rest _ h hs := ((Later.open cs b s).trans h).trans (.close cs hs)
  absoluteInline cs ps s ch b inner c f i h1 h2 h3 h4 h5 := .setCurrent _ _ (.more _ _)
  absoluteBlock cs ps s ch b inner c f i h1 h2 h3 h4 h5 := by
    obtain ⟨e1, e2⟩ := hasOngoing_false h5
    exact .inr (.inr ⟨by rw [pending_stack e2, e1], _, rfl⟩)
  floatInline cs ps s ch b inner c f i h1 h2 h2' h3 h4 h5 := Later.setCurrent cs { b with containsFloats := true } (.more _ _)
  floatBlock cs ps s ch b inner c f i h1 h2 h2' h3 h4 h5 := by
    obtain ⟨e1, e2⟩ := hasOngoing_false h5
    exact .inr (.inr ⟨by rw [pending_stack e2, e1], _, rfl⟩)
  block cs ps s ch b b1 inner c f i h1 h2 h2' h0 h3 h4 := by
    obtain ⟨e1, e2⟩ := splitInlines_eq h0
    obtain ⟨-, -, -, e3⟩ := endOngoing_some e2
    rw [Later, pending_stack e1]
    by_cases ho : b.ongoing = []
    · rw [if_pos ho, List.append_nil] at e3
      exact .inr (.inr ⟨ho, _, by simp only [e3]; rfl⟩)
    · rw [if_neg ho] at e3
      exact .inr (.inl ⟨b.ongoing, _, by simp only [e3, List.append_assoc, List.cons_append, List.nil_append, anonymousBlock]; rfl, .refl _⟩)
  nil cs _ b := .refl cs b
  cons _ _ _ _ _ _ _ h1 h2 := h1.trans h2

/-! ### How long the last word is -/

/-- What can still change is at most the last word. -/
def Short (b b1 : Builder) (w : List Nat) : Prop :=
  ∀ w0, (tailAll b.current).length ≤ (lastWord w0).length → (tailAll b1.current).length ≤ (lastWord (w0 ++ w)).length

theorem Short.empty {b b1 : Builder} (h : tailAll b1.current = []) (w : List Nat) : Short b b1 w := fun w0 _ => by simp [h]

theorem Short.trans {b b1 b2 : Builder} {w w' : List Nat} (h : Short b b1 w) (h' : Short b1 b2 w') : Short b b2 (w ++ w') := fun w0 h0 => by
  have := h' _ (h w0 h0)
  rwa [List.append_assoc] at this

theorem Short.handleText (b : Builder) (t : List Nat) (ps : ComputedValues) : Short b (b.handleText t ps) t := by
  intro w0 h0
  rw [handleText_eq]
  obtain ⟨q, hq, hp⟩ : ∃ q, b.added t = squeeze q t ∧ (q = true → tailAll b.current = []) := ⟨_, rfl, fun h => by
    by_contra hne
    rw [tailAll_space _ hne] at h
    simp at h⟩
  split
  · rename_i he
    rw [hq] at he
    cases q
    · cases t with
      | nil => simpa using h0
      | cons c t =>
        rw [squeeze] at he
        split at he <;> simp at he
    · simp [hp rfl]
  · rw [current_setCurrent, hq]
    rcases appendText_cases ps (squeeze q t) b.current with h | ⟨pre, s, t0, h1, h2⟩
    · rw [h, tailAll_last]
      show (tailOf _).length ≤ _
      rw [squeeze_tailOf]
      exact lastWord_append_le _ _
    · rw [h2, tailAll_last]
      rw [h1, tailAll_last] at h0 hp
      change (tailOf t0).length ≤ _ at h0
      change _ → tailOf t0 = [] at hp
      show (tailOf _).length ≤ _
      rw [tailOf, after_append]
      split
      · have := squeeze_tailOf q t
        rw [tailOf] at this
        rw [this]
        exact lastWord_append_le _ _
      · rename_i hno
        cases q
        · rw [squeeze_any] at hno
          have hno : t.any isAsciiWhitespace = false := by simpa using hno
          rw [squeeze_none hno, lastWord, after_append, if_neg (by simp [hno]), List.length_append, List.length_append]
          exact Nat.add_le_add_right h0 _
        · have e := hp rfl
          have hno := after_none (p := (· == 32)) (t := squeeze true t) (Bool.not_eq_true _ ▸ hno)
          have := squeeze_tailOf true t
          rw [tailOf, hno] at this
          rw [tailOf] at e
          rw [e, List.nil_append, this]
          exact lastWord_append_le _ _

theorem traverse_short : TraversalCases (fun _ _ n b b' => Short b b' n.visibleText) (fun _ _ ns b b' => Short b b' (visibleTexts ns)) where
  ignored _ _ b := fun w0 h => by simpa [StyledNode.visibleText] using h
  text _ ps t b := .handleText b t ps
  none _ _ s _ b hd := fun w0 h => by simpa [StyledNode.visibleText, hd] using h
  contents _ _ s _ _ _ hd h := by rw [StyledNode.visibleText, if_neg (by rw [hd]; simp)]; exact h
  inline cs ps s ch b b1 o rest hd h hs := by
    rw [StyledNode.visibleText, if_neg (by rw [hd]; simp)]
    intro w0 _
    have := h w0 (by simp [Builder.current, tailAll])
    rw [Builder.push, current_setCurrent, tailAll_last]
    rwa [Builder.current, hs] at this
  absoluteInline cs ps s ch b inner c f i h1 h2 h3 h4 h5 := .empty (by rw [Builder.push, current_setCurrent, tailAll_last]; rfl) _
  absoluteBlock cs ps s ch b inner c f i h1 h2 h3 h4 h5 := .empty (by
    obtain ⟨e1, e2⟩ := hasOngoing_false h5
    simp [Builder.current, e1, e2, tailAll]) _
  floatInline cs ps s ch b inner c f i h1 h2 h2' h3 h4 h5 := .empty (by rw [Builder.push, current_setCurrent, tailAll_last]; rfl) _
  floatBlock cs ps s ch b inner c f i h1 h2 h2' h3 h4 h5 := .empty (by
    obtain ⟨e1, e2⟩ := hasOngoing_false h5
    simp [Builder.current, e1, e2, tailAll]) _
  block cs ps s ch b b1 inner c f i h1 h2 h2' h0 h3 h4 := .empty (by
    obtain ⟨-, e1, e2, -⟩ := endOngoing_some (splitInlines_eq h0).2
    simp [Builder.current, e1, e2, tailAll]) _
  nil _ _ b := fun w0 h => by simpa [visibleTexts] using h
  cons _ _ _ _ _ _ _ h1 h2 := h1.trans h2

end Verif.Layout
