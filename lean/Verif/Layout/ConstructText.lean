/- What box construction does with text. -/
import Verif.Layout.ConstructLemmas
namespace Verif.Layout
open Verif.Style

/-! ### Squeezing -/

/-- Whether white space was seen last. -/
def afterSpace (a : Bool) (t : List Nat) : Bool :=
  match t.getLast? with
  | none => a
  | some c => isAsciiWhitespace c

theorem afterSpace_nil (a : Bool) : afterSpace a [] = a := rfl

theorem afterSpace_cons (a : Bool) (c : Nat) (t : List Nat) : afterSpace a (c :: t) = afterSpace (isAsciiWhitespace c) t := by
  cases t with
  | nil => simp [afterSpace]
  | cons d t => simp [afterSpace, List.getLast?_eq_some_getLast]

theorem afterSpace_append (a : Bool) (t u : List Nat) : afterSpace a (t ++ u) = afterSpace (afterSpace a t) u := by
  induction t generalizing a with
  | nil => rfl
  | cons c t ih => rw [List.cons_append, afterSpace_cons, afterSpace_cons, ih]

theorem squeeze_append (a : Bool) (t u : List Nat) : squeeze a (t ++ u) = squeeze a t ++ squeeze (afterSpace a t) u := by
  induction t generalizing a with
  | nil => rfl
  | cons c t ih =>
    rw [List.cons_append, afterSpace_cons]
    by_cases hc : isAsciiWhitespace c = true
    · cases a <;> simp [squeeze, hc, ih]
    · simp [squeeze, hc, ih]

theorem isAsciiWhitespace_space : isAsciiWhitespace 32 = true := by decide

theorem squeeze_squeeze (q p : Bool) (t : List Nat) (h : q = true → p = true) : squeeze q (squeeze p t) = squeeze p t := by
  induction t generalizing q p with
  | nil => rfl
  | cons c t ih =>
    by_cases hc : isAsciiWhitespace c = true
    · cases p
      · cases q
        · simp [squeeze, hc, isAsciiWhitespace_space, ih true true]
        · simp at h
      · simp only [squeeze, hc, if_true]
        exact ih q true (fun _ => rfl)
    · simp [squeeze, hc, ih false false]

theorem afterSpace_squeeze (a : Bool) (t : List Nat) : afterSpace a (squeeze a t) = afterSpace a t := by
  induction t generalizing a with
  | nil => rfl
  | cons c t ih =>
    by_cases hc : isAsciiWhitespace c = true
    · cases a <;> simp [squeeze, hc, afterSpace_cons, ih, isAsciiWhitespace_space]
    · simp only [Bool.not_eq_true] at hc
      simp [squeeze, hc, afterSpace_cons, ih]

theorem squeeze_only (p : Bool) (t : List Nat) : ∀ c ∈ squeeze p t, isAsciiWhitespace c → c = 32 := by
  induction t generalizing p with
  | nil => simp [squeeze]
  | cons c t ih =>
    intro d hd hw
    by_cases hc : isAsciiWhitespace c = true
    · cases p <;> simp only [squeeze, hc, if_true, Bool.false_eq_true, if_false, List.mem_cons] at hd
      · rcases hd with rfl | hd
        · rfl
        · exact ih _ d hd hw
      · exact ih _ d hd hw
    · rw [squeeze, if_neg hc, List.mem_cons] at hd
      rcases hd with rfl | hd
      · exact absurd hw hc
      · exact ih _ d hd hw

theorem squeeze_head (t : List Nat) : (squeeze true t).head? ≠ some 32 := by
  induction t with
  | nil => simp [squeeze]
  | cons c t ih =>
    by_cases hc : isAsciiWhitespace c = true
    · simpa [squeeze, hc] using ih
    · simp only [squeeze, hc]
      intro h
      simp at h
      subst h
      exact hc isAsciiWhitespace_space

theorem squeeze_single (p : Bool) (t : List Nat) : ¬ [32, 32] <:+: squeeze p t := by
  induction t generalizing p with
  | nil => simp [squeeze]
  | cons c t ih =>
    by_cases hc : isAsciiWhitespace c = true
    · cases p
      · simp only [squeeze, hc, if_true, Bool.false_eq_true, if_false]
        rw [List.infix_cons_iff]
        rintro (h | h)
        · rw [List.cons_prefix_cons] at h
          have := squeeze_head t
          obtain ⟨-, u, hu⟩ := h
          rw [← hu] at this
          simp at this
        · exact ih _ h
      · simpa [squeeze, hc] using ih true
    · simp only [squeeze, hc]
      rw [if_neg (by simp), List.infix_cons_iff]
      rintro (h | h)
      · rw [List.cons_prefix_cons] at h
        obtain ⟨h, -⟩ := h
        exact hc (h ▸ isAsciiWhitespace_space)
      · exact ih _ h

theorem Collapsed_of_squeeze {t : List Nat} (h : squeeze true t = t) : Collapsed t :=
  ⟨h ▸ squeeze_head t, h ▸ squeeze_single true t, h ▸ squeeze_only true t⟩

theorem squeeze_false_of_ink (p : Bool) (t : List Nat) (h : ∀ c ∈ t.head?, isAsciiWhitespace c = false) :
    squeeze p t = squeeze false t := by
  cases t with
  | nil => rfl
  | cons c t =>
    have : isAsciiWhitespace c = false := h c rfl
    simp [squeeze, this]

theorem squeeze_true_dropWhile (t : List Nat) : squeeze true t = squeeze false (t.dropWhile isAsciiWhitespace) := by
  induction t with
  | nil => rfl
  | cons c t ih =>
    by_cases hc : isAsciiWhitespace c = true
    · simp [squeeze, hc, ih]
    · simp [squeeze, hc]

theorem squeeze_ink (p : Bool) (t : List Nat) :
    (squeeze p t).filter (fun c => !isAsciiWhitespace c) = t.filter (fun c => !isAsciiWhitespace c) := by
  induction t generalizing p with
  | nil => rfl
  | cons c t ih =>
    by_cases hc : isAsciiWhitespace c = true
    · cases p <;> simp [squeeze, hc, ih, isAsciiWhitespace_space]
    · simp [squeeze, hc, ih]

theorem squeeze_words (p : Bool) (t : List Nat) :
    squeeze p t = (t.takeWhile fun c => !isAsciiWhitespace c) ++
      squeeze (p && (t.takeWhile fun c => !isAsciiWhitespace c).isEmpty) (t.dropWhile fun c => !isAsciiWhitespace c) := by
  induction t generalizing p with
  | nil => rfl
  | cons c t ih =>
    by_cases hc : isAsciiWhitespace c = true
    · simp [hc]
    · simp only [Bool.not_eq_true] at hc
      simp [squeeze, hc]
      rw [ih false]
      simp

theorem collapseLoop_eq (fuel : Nat) (t : List Nat) (h : t.length < fuel) : collapseLoop fuel t = squeeze false t := by
  induction fuel generalizing t with
  | zero => omega
  | succ fuel ih =>
    rw [squeeze_words]
    simp only [collapseLoop, Bool.false_and]
    split
    · rename_i h1
      simp [h1, squeeze]
    · rename_i h1
      rcases h2 : t.dropWhile (fun c => !isAsciiWhitespace c) with _ | ⟨c, rest⟩
      · exact absurd h2 h1
      · have hc : isAsciiWhitespace c = true := by
          have := List.head?_dropWhile_not (fun c => !isAsciiWhitespace c) t
          rw [h2] at this
          simpa using this
        have hlen : rest.length < t.length := by
          have := (List.dropWhile_sublist (l := t) fun c => !isAsciiWhitespace c).length_le
          rw [h2] at this
          simp at this
          omega
        have hlen' := (List.dropWhile_sublist (l := rest) isAsciiWhitespace).length_le
        simp only [squeeze, hc, if_true, Bool.false_eq_true, if_false, List.dropWhile_cons, squeeze_true_dropWhile]
        split
        · rename_i h3
          simp [h3, squeeze]
        · rename_i h3
          rw [ih _ (by omega)]

/-! ### Boxes -/

theorem flowTexts_append (bs cs : List InlineLevelBox) : flowTexts (bs ++ cs) = flowTexts bs ++ flowTexts cs := by
  induction bs with
  | nil => rfl
  | cons b bs ih => simp [flowTexts, ih]

theorem inlinesStyledText_append (bs cs : List InlineLevelBox) :
    inlinesStyledText (bs ++ cs) = inlinesStyledText bs ++ inlinesStyledText cs := by
  induction bs with
  | nil => rfl
  | cons b bs ih => simp [inlinesStyledText, ih]

theorem blocksStyledText_append (bs cs : List BlockLevelBox) :
    blocksStyledText (bs ++ cs) = blocksStyledText bs ++ blocksStyledText cs := by
  induction bs with
  | nil => rfl
  | cons b bs ih => simp [blocksStyledText, ih]

theorem inlinesAllContexts_append {P : List InlineLevelBox → Prop} (bs cs : List InlineLevelBox) :
    inlinesAllContexts P (bs ++ cs) ↔ inlinesAllContexts P bs ∧ inlinesAllContexts P cs := by
  induction bs with
  | nil => simp [inlinesAllContexts]
  | cons b bs ih => simp [inlinesAllContexts, ih, and_assoc]

theorem blocksAllContexts_append {P : List InlineLevelBox → Prop} (bs cs : List BlockLevelBox) :
    blocksAllContexts P (bs ++ cs) ↔ blocksAllContexts P bs ∧ blocksAllContexts P cs := by
  induction bs with
  | nil => simp [blocksAllContexts]
  | cons b bs ih => simp [blocksAllContexts, ih, and_assoc]

/-- `appendText` changes the last text run, or adds one. -/
theorem appendText_cases (ps : ComputedValues) (out : List Nat) (bs : List InlineLevelBox) :
    (appendText ps out bs = bs ++ [.textRun ps out]) ∨
    (∃ pre s t, bs = pre ++ [.textRun s t] ∧ appendText ps out bs = pre ++ [.textRun s (t ++ out)]) := by
  induction bs with
  | nil => exact .inl rfl
  | cons b bs ih =>
    cases bs with
    | nil =>
      cases b with
      | textRun s t => exact .inr ⟨[], s, t, rfl, rfl⟩
      | inlineBox => exact .inl rfl
      | outOfFlowAbsolutelyPositioned => exact .inl rfl
      | outOfFlowFloat => exact .inl rfl
    | cons c cs =>
      have hstep : appendText ps out (b :: c :: cs) = b :: appendText ps out (c :: cs) := by
        cases b <;> rfl
      rcases ih with h | ⟨pre, s, t, h, h'⟩
      · exact .inl (by rw [hstep, h]; rfl)
      · exact .inr ⟨b :: pre, s, t, by rw [h]; rfl, by rw [hstep, h']; rfl⟩

mutual
/-- No text run is empty. -/
def InlineLevelBox.Full : InlineLevelBox → Prop
  | .inlineBox _ _ _ children => allFull children
  | .textRun _ text => text ≠ []
  | .outOfFlowAbsolutelyPositioned _ _ _ => True
  | .outOfFlowFloat _ _ _ => True
/-- See `InlineLevelBox.Full`. -/
def allFull : List InlineLevelBox → Prop
  | [] => True
  | b :: bs => b.Full ∧ allFull bs
end

theorem allFull_append (bs cs : List InlineLevelBox) : allFull (bs ++ cs) ↔ allFull bs ∧ allFull cs := by
  induction bs with
  | nil => simp [allFull]
  | cons b bs ih => simp [allFull, ih, and_assoc]

mutual
theorem spaceAfter_eq : ∀ b : InlineLevelBox, b.Full → b.spaceAfter = b.flowText.getLast?.map (· != 32)
  | .inlineBox _ _ _ children, h => by
    simp only [InlineLevelBox.Full] at h
    simpa [InlineLevelBox.spaceAfter, InlineLevelBox.flowText] using spaceAfterAll_eq children h
  | .textRun _ text, h => by
    simp only [InlineLevelBox.Full] at h
    rw [InlineLevelBox.spaceAfter, InlineLevelBox.flowText, List.getLast?_eq_some_getLast h]
    simp
    rfl
  | .outOfFlowAbsolutelyPositioned _ _ _, _ => rfl
  | .outOfFlowFloat _ _ _, _ => rfl
theorem spaceAfterAll_eq : ∀ bs : List InlineLevelBox, allFull bs → spaceAfterAll bs = (flowTexts bs).getLast?.map (· != 32)
  | [], _ => rfl
  | b :: bs, h => by
    simp only [allFull] at h
    have h1 := spaceAfter_eq b h.1
    have h2 := spaceAfterAll_eq bs h.2
    simp only [spaceAfterAll, flowTexts, List.getLast?_append, h2, h1]
    cases (flowTexts bs).getLast? <;> simp
end

/-! ### What a text node adds -/

/-- The text that `handleText` adds. -/
def Builder.added (b : Builder) (t : List Nat) : List Nat := squeeze (spaceAfterAll b.current != some true) t

theorem handleText_eq (b : Builder) (t : List Nat) (ps : ComputedValues) :
    b.handleText t ps = if b.added t = [] then b else b.setCurrent (appendText ps (b.added t) b.current) := by
  cases t with
  | nil => simp [Builder.handleText, Builder.handleLeadingWhitespace, Builder.added, squeeze]
  | cons c t =>
    by_cases hc : isAsciiWhitespace c = true
    · simp only [Builder.handleText, Builder.handleLeadingWhitespace, hc, if_true, Builder.added]
      rw [collapseLoop_eq _ _ (by omega), ← squeeze_true_dropWhile]
      have hdrop : ((List.dropWhile isAsciiWhitespace (c :: t)).isEmpty = true) ↔ squeeze true (c :: t) = [] := by
        rw [squeeze_true_dropWhile]
        rcases h : List.dropWhile isAsciiWhitespace (c :: t) with _ | ⟨d, u⟩
        · simp [squeeze]
        · by_cases hd : isAsciiWhitespace d = true <;> simp [squeeze, hd]
      have hs : spaceAfterAll b.current = none ∨ spaceAfterAll b.current = some false ∨ spaceAfterAll b.current = some true := by
        rcases spaceAfterAll b.current with _ | _ | _ <;> simp
      have e1 : ((none : Option Bool) != some true) = true := rfl
      have e2 : (some false != some true) = true := rfl
      have e3 : (some true != some true) = false := rfl
      rcases hs with hs | hs | hs <;> simp only [hs, e1, e2, e3]
      · by_cases he : squeeze true (c :: t) = []
        · simp [he, hdrop.mpr he]
        · have : (List.dropWhile isAsciiWhitespace (c :: t)).isEmpty = false := by
            rw [← Bool.not_eq_true, hdrop]; exact he
          simp [he, this]
      · by_cases he : squeeze true (c :: t) = []
        · simp [he, hdrop.mpr he]
        · have : (List.dropWhile isAsciiWhitespace (c :: t)).isEmpty = false := by
            rw [← Bool.not_eq_true, hdrop]; exact he
          simp [he, this]
      · simp [squeeze, hc]
    · simp only [Builder.handleText, Builder.handleLeadingWhitespace, hc, Builder.added]
      rw [collapseLoop_eq _ _ (by simp), squeeze_false_of_ink _ _ (by simpa using hc)]
      simp [squeeze, hc]

end Verif.Layout
