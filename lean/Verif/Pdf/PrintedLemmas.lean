import Verif.Pdf.PrintedSpec
import Verif.Pdf.ReaderAgree
import Verif.Pdf.ObjectSpec
import Mathlib.Data.Countable.Defs
/- Files in which only some numbers are printed: lemmas for PrintedTheorems.lean. -/
namespace Verif.Pdf

section
variable {R : Type} {good : R → Prop} {dtoa : R → List Byte} {readReal : List Byte → Option R}

private theorem replicate_inj {A : Type} {m n : Nat} {x : A} (h : List.replicate m x = List.replicate n x) : m = n := by
  simpa using congrArg List.length h

/-- A way to print all numbers, and a reader for it, which are not different on good numbers and short texts. -/
theorem RealTextOn.total [Countable R] (h : RealTextOn good dtoa readReal) (N : Nat) :
    ∃ (dtoa' : R → List Byte) (readReal' : List Byte → Option R), RealText dtoa' readReal' ∧ (∀ r, good r → dtoa' r = dtoa r) ∧
      ∀ t, t.length ≤ N → readReal' t = readReal t := by
  classical
  obtain ⟨f, hf⟩ := exists_injective_nat R
  let text : R → List Byte := fun r => 95 :: List.replicate (N + f r) 95
  let dtoa' : R → List Byte := fun r => if good r then dtoa r else text r
  let read : List Byte → Option R := fun t => if e : ∃ r, t = text r then some e.choose else readReal t
  have text_inj : ∀ r s, text r = text s → r = s := by
    intro r s e
    have := replicate_inj (List.cons.inj e).2
    exact hf (by omega)
  have read_text : ∀ r, read (text r) = some r := by
    intro r
    have e : ∃ s, text r = text s := ⟨r, rfl⟩
    simp only [read, dif_pos e]
    exact congrArg some (text_inj _ _ e.choose_spec).symm
  have good_text : ∀ r, good r → ∀ s, dtoa r ≠ text s := by
    intro r hr s e
    have h1 := h.reads_back r hr
    rw [e] at h1
    have := h.start 95 (List.replicate (N + f s) 95) (by decide)
    rw [show text s = 95 :: List.replicate (N + f s) 95 from rfl, this] at h1
    cases h1
  have hd : ∀ r, (good r ∧ dtoa' r = dtoa r) ∨ (¬ good r ∧ dtoa' r = text r) := by
    intro r
    by_cases hr : good r
    · exact .inl ⟨hr, if_pos hr⟩
    · exact .inr ⟨hr, if_neg hr⟩
  refine ⟨dtoa', read, ⟨?_, ?_, ?_, ?_, ?_⟩, fun r hr => if_pos hr, ?_⟩
  · intro r
    rcases hd r with ⟨hr, e⟩ | ⟨hr, e⟩ <;> rw [e]
    · have : ¬ ∃ s, dtoa r = text s := fun ⟨s, e⟩ => good_text r hr s e
      simp only [read, dif_neg this]
      exact h.reads_back r hr
    · exact read_text r
  · intro r
    rcases hd r with ⟨hr, e⟩ | ⟨hr, e⟩ <;> rw [e]
    · exact h.regular r hr
    · intro b hb
      have : b = 95 := by
        rcases List.mem_cons.1 hb with rfl | hb
        · rfl
        · exact List.eq_of_mem_replicate hb
      subst this
      decide
  · intro r
    rcases hd r with ⟨hr, e⟩ | ⟨hr, e⟩ <;> rw [e]
    · exact h.not_int r hr
    · show readInt (95 :: List.replicate (N + f r) 95) = none
      unfold readInt
      rfl
  · intro r
    rcases hd r with ⟨hr, e⟩ | ⟨hr, e⟩ <;> rw [e]
    · exact h.not_empty r hr
    · exact List.cons_ne_nil _ _
  · intro b t hb
    have h1 : ¬ ∃ s, b :: t = text s := by
      rintro ⟨s, e⟩
      have : b = 95 := (List.cons.inj e).1
      subst this
      revert hb
      decide
    simp only [read, dif_neg h1]
    refine h.start b t ?_
    clear h1
    revert b
    decide +kernel
  · intro t ht
    have : ¬ ∃ s, t = text s := by
      rintro ⟨s, rfl⟩
      simp only [text, List.length_cons, List.length_replicate] at ht
      omega
    simp only [read, dif_neg this]

variable {dtoa' : R → List Byte} (hg : ∀ r, good r → dtoa' r = dtoa r)

mutual
/-- Only good numbers occur. -/
private def Object.Good (good : R → Prop) : Object R → Prop
  | .float r => good r
  | .alpha r => good r
  | .array l => l.Good good
  | .dict d => d.Good good
  | .owned p => p.Good good
  | _ => True
private def Items.Good (good : R → Prop) : Items R → Prop
  | .nil => True
  | .cons o l => o.Good good ∧ l.Good good
private def Pairs.Good (good : R → Prop) : Pairs R → Prop
  | .nil => True
  | .cons _ v l => v.Good good ∧ l.Good good
private def Dictionary.Good (good : R → Prop) : Dictionary R → Prop
  | .root p => p.Good good
  | .linked prev p => prev.Good good ∧ p.Good good
end

mutual
private theorem Object.write_good (hg : ∀ r, good r → dtoa' r = dtoa r) : ∀ o : Object R, o.Good good → o.write dtoa' = o.write dtoa
  | .usize _, _ => by simp only [Object.write]
  | .i32 _, _ => by simp only [Object.write]
  | .float r, h => by simp only [Object.write]; exact hg r h
  | .name _, _ => by simp only [Object.write]
  | .literal _, _ => by simp only [Object.write]
  | .hex _, _ => by simp only [Object.write]
  | .array .nil, _ => by simp only [Object.write]
  | .array (.cons o l), h => by
    simp only [Object.Good, Items.Good] at h
    simp only [Object.write, Object.write_good hg o h.1, Items.write_good hg l h.2]
  | .dict d, h => by
    simp only [Object.Good] at h
    simp only [Object.write, Dictionary.write_good hg d h]
  | .ref _, _ => by simp only [Object.write]
  | .alpha r, h => by
    simp only [Object.Good] at h
    simp only [Object.write, hg r h]
  | .owned p, h => by
    simp only [Object.Good] at h
    simp only [Object.write, Pairs.write_good hg p h]
private theorem Items.write_good (hg : ∀ r, good r → dtoa' r = dtoa r) : ∀ l : Items R, l.Good good → l.writeRest dtoa' = l.writeRest dtoa
  | .nil, _ => by simp only [Items.writeRest]
  | .cons o l, h => by
    simp only [Items.Good] at h
    simp only [Items.writeRest, Object.write_good hg o h.1, Items.write_good hg l h.2]
private theorem Pairs.write_good (hg : ∀ r, good r → dtoa' r = dtoa r) : ∀ l : Pairs R, l.Good good → l.write dtoa' = l.write dtoa
  | .nil, _ => by simp only [Pairs.write]
  | .cons k o l, h => by
    simp only [Pairs.Good] at h
    simp only [Pairs.write, Object.write_good hg o h.1, Pairs.write_good hg l h.2]
private theorem Dictionary.write_good (hg : ∀ r, good r → dtoa' r = dtoa r) : ∀ d : Dictionary R, d.Good good →
    d.writePairs dtoa' = d.writePairs dtoa
  | .root p, h => by
    simp only [Dictionary.Good] at h
    simp only [Dictionary.writePairs, Pairs.write_good hg p h]
  | .linked prev p, h => by
    simp only [Dictionary.Good] at h
    simp only [Dictionary.writePairs, Dictionary.write_good hg prev h.1, Pairs.write_good hg p h.2]
end

private theorem Items.good_ofList {l : List (Object R)} (h : ∀ o ∈ l, o.Good good) : (Items.ofList l).Good good := by
  induction l with
  | nil => simp only [Items.ofList, Items.Good]
  | cons o l ih =>
    simp only [Items.ofList, Items.Good]
    exact ⟨h o (by simp), ih fun o ho => h o (by simp [ho])⟩

private theorem Pairs.good_ofList {l : List (List Byte × Object R)} (h : ∀ e ∈ l, e.2.Good good) : (Pairs.ofList l).Good good := by
  induction l with
  | nil => simp only [Pairs.ofList, Pairs.Good]
  | cons o l ih =>
    simp only [Pairs.ofList, Pairs.Good]
    exact ⟨h o (by simp), ih fun o ho => h o (by simp [ho])⟩

private theorem Dictionary.write_good' {d : Dictionary R} (hg : ∀ r, good r → dtoa' r = dtoa r) (h : d.Good good) : d.write dtoa' = d.write dtoa := by
  simp only [Dictionary.write, Dictionary.write_good hg d h]

variable {F : Floats R}

private theorem opBytes_good {l : List (Object R)} {op : List Byte} (hg : ∀ r, good r → dtoa' r = F.dtoa r) (h : ∀ o ∈ l, o.Good good) :
    opBytes (F.printing dtoa') l op = opBytes F l op := by
  induction l with
  | nil => rfl
  | cons o l ih =>
    simp only [opBytes, ih fun o ho => h o (by simp [ho])]
    rw [show (F.printing dtoa').dtoa = dtoa' from rfl, Object.write_good hg o (h o (by simp))]

private theorem op_good {p : Page R} {l : List (Object R)} {op : List Byte} (hg : ∀ r, good r → dtoa' r = F.dtoa r) (h : ∀ o ∈ l, o.Good good) :
    p.op (F.printing dtoa') l op = p.op F l op := by
  simp only [Page.op, opBytes_good hg h]

/-- The objects that the document will write have only good numbers. -/
private structure Doc.Good (good : R → Prop) (d : Doc R) : Prop where
  pages : ∀ o ∈ d.pageIds, o.Good good
  fonts : ∀ e ∈ d.fontResources, e.2.Good good
  states : ∀ e ∈ d.extendedGraphicsStates, e.2.Good good

private theorem write_printing {d : Doc R} (hg : ∀ r, good r → dtoa' r = F.dtoa r) (h : d.Good good) : d.write (F.printing dtoa') = d.write F := by
  have h1 : d.basic.pageTree.write dtoa' = d.basic.pageTree.write F.dtoa := by
    refine Dictionary.write_good' hg ?_
    simp only [Doc.basic, Dictionary.Good, Pairs.ofList, Pairs.Good, Object.Good, true_and, and_true]
    exact ⟨Items.good_ofList h.pages, Pairs.good_ofList h.fonts, Pairs.good_ofList h.states⟩
  have h2 : d.basic.catalog.write dtoa' = d.basic.catalog.write F.dtoa := rfl
  have h3 : d.basic.info.write dtoa' = d.basic.info.write F.dtoa := rfl
  have h4 : ∀ n, (trailerDict n : Dictionary R).write dtoa' = (trailerDict n : Dictionary R).write F.dtoa := fun n => rfl
  show d.pdf.write dtoa' d.basic = d.pdf.write F.dtoa d.basic
  simp only [PdfFile.write, PdfFile.writeObjects, h1, h2, h3, h4]

private theorem widths_good {E : Type} {width : Nat → Except E Int} {i n : Nat} {ws : List (Object R)} (h : glyphWidths width i n = .ok ws) :
    ∀ o ∈ ws, o.Good good := by
  induction n generalizing i ws with
  | zero => cases h; simp
  | succ n ih =>
    unfold glyphWidths at h
    split at h
    · cases h
    · split at h
      · cases h
      · rename_i h1
        cases h
        intro o ho
        rcases List.mem_cons.1 ho with rfl | ho
        · simp only [Object.Good]
        · exact ih h1 o ho

private theorem addFont_printing {E : Type} (hg : ∀ r, good r → dtoa' r = F.dtoa r) (d : Doc R) (addr : Nat) (v : FontView E) :
    addFont (F.printing dtoa') d addr v = addFont F d addr v := by
  unfold addFont
  dsimp only
  split
  · rfl
  · have h1 : ∀ i, (fontDescriptor v i : Dictionary R).write dtoa' = (fontDescriptor v i : Dictionary R).write F.dtoa := fun i => rfl
    simp only [PdfFile.addStream, PdfFile.addDictionary]
    simp only [show (F.printing dtoa').dtoa = dtoa' from rfl, h1]
    have h2 : streamBytes dtoa' (.root (.ofList [(ascii "Length1", .usize v.bytes.length)]) : Dictionary R) v.bytes =
      streamBytes F.dtoa (.root (.ofList [(ascii "Length1", .usize v.bytes.length)]) : Dictionary R) v.bytes := rfl
    have h3 : streamBytes dtoa' (.root .nil : Dictionary R) (toUnicodeCMap v.codePoints) =
      streamBytes F.dtoa (.root .nil : Dictionary R) (toUnicodeCMap v.codePoints) := rfl
    rw [h2, h3]
    split
    · rfl
    · split
      · rfl
      · rename_i ws hw
        have h4 : ∀ i j, (fontDict v i j ws).write dtoa' = (fontDict v i j ws).write F.dtoa := by
          intro i j
          refine Dictionary.write_good' hg ?_
          simp only [fontDict, Dictionary.Good, Pairs.ofList, Pairs.Good, Items.ofList, Items.Good, Object.Good, true_and, and_true]
          exact Items.good_ofList (widths_good hw)
        rw [h4]

private theorem addFont_good {E : Type} {d : Doc R} (h : d.Good good) (addr : Nat) (v : FontView E) : (addFont F d addr v).1.Good good := by
  unfold addFont
  dsimp only
  split
  · exact h
  · split
    · exact ⟨h.pages, h.fonts, h.states⟩
    · split
      · exact ⟨h.pages, h.fonts, h.states⟩
      · refine ⟨h.pages, ?_, h.states⟩
        intro e he
        rcases List.mem_append.1 he with he | he
        · exact h.fonts e he
        · cases List.mem_singleton.1 he
          simp only [Object.Good]

private theorem runOp_printing {E : Type} {font : Nat → FontView E} (hg : ∀ r, good r → dtoa' r = F.dtoa r) {s : Doc R × Page R} (h : s.1.Good good)
    {op : PageOp R} (ho : ∀ r ∈ op.numbers F, good r) :
    runOp (F.printing dtoa') font s op = runOp F font s op ∧ (runOp F font s op).1.Good good := by
  obtain ⟨d, p⟩ := s
  cases op with
  | color r g b a =>
    simp only [PageOp.numbers, List.mem_cons, List.not_mem_nil, or_false, forall_eq_or_imp, forall_eq] at ho
    obtain ⟨hr, hgr, hb, ha⟩ := ho
    have hname : ∀ (p : Page R) (k : List Byte), p.op (F.printing dtoa') [.name k] (ascii "gs") = p.op F [.name k] (ascii "gs") := fun p k => rfl
    constructor
    · simp only [runOp, setColor]
      rw [show (F.printing dtoa').ne3 p.rgb (r, g, b) = F.ne3 p.rgb (r, g, b) from rfl]
      rw [op_good (good := good) hg (by
        intro o ho
        simp only [List.mem_cons, List.not_mem_nil, or_false] at ho
        rcases ho with rfl | rfl | rfl <;> simp only [Object.Good] <;> assumption)]
      generalize (if F.ne3 p.rgb (r, g, b) = true then _ else p) = q
      rfl
    · simp only [runOp, setColor]
      generalize (if F.ne3 p.rgb (r, g, b) = true then _ else p) = q
      unfold setAlpha
      dsimp only
      split
      · split
        · exact h
        · refine ⟨h.pages, h.fonts, ?_⟩
          intro e he
          rcases List.mem_append.1 he with he | he
          · exact h.states e he
          · cases List.mem_singleton.1 he
            simp only [Object.Good]
            exact ha
      · exact h
  | rect x y w hh =>
    simp only [PageOp.numbers, List.mem_cons, List.not_mem_nil, or_false, forall_eq_or_imp, forall_eq] at ho
    obtain ⟨h1, h2, h3, h4⟩ := ho
    refine ⟨?_, h⟩
    simp only [runOp, paintRectangle]
    rw [op_good (p := p) (l := [.float x, .float y, .float w, .float hh]) (good := good) hg (by
        intro o ho
        simp only [List.mem_cons, List.not_mem_nil, or_false] at ho
        rcases ho with rfl | rfl | rfl | rfl <;> simp only [Object.Good] <;> assumption)]
    rfl
  | text f glyphs size ox oy =>
    simp only [PageOp.numbers, List.mem_cons, List.not_mem_nil, or_false, forall_eq_or_imp, forall_eq] at ho
    obtain ⟨h1, h2, h3, h4⟩ := ho
    have hops : ∀ key, showTextOps (F.printing dtoa') p key glyphs size ox oy = showTextOps F p key glyphs size ox oy := by
      intro key
      simp only [showTextOps]
      rw [op_good (op := ascii "Tm") (good := good) hg (by
        intro o ho
        simp only [List.mem_cons, List.not_mem_nil, or_false] at ho
        rcases ho with rfl | rfl | rfl | rfl | rfl | rfl <;> simp only [Object.Good] <;> assumption)]
      rfl
    have hf := addFont_good (F := F) h f (font f)
    simp only [runOp, showText, addFont_printing hg]
    rcases he : addFont F d f (font f) with ⟨d', e | key⟩
    · rw [he] at hf
      exact ⟨rfl, hf⟩
    · rw [he] at hf
      simp only [hops]
      exact ⟨trivial, hf⟩

private theorem runOp_size {E : Type} (font : Nat → FontView E) (s : Doc R × Page R) (op : PageOp R) :
    (runOp F font s op).2.width = s.2.width ∧ (runOp F font s op).2.height = s.2.height := by
  obtain ⟨d, p⟩ := s
  cases op with
  | color r g b a =>
    simp only [runOp, setColor, setAlpha]
    split <;> split <;> first | exact ⟨rfl, rfl⟩ | (split <;> exact ⟨rfl, rfl⟩)
  | rect x y w h => exact ⟨rfl, rfl⟩
  | text f glyphs size ox oy =>
    simp only [runOp, showText]
    split <;> exact ⟨rfl, rfl⟩

private theorem runPage_printing {E : Type} {font : Nat → FontView E} {d : Doc R} {c : PageCalls R} (hg : ∀ r, good r → dtoa' r = F.dtoa r)
    (h : d.Good good) (hc : ∀ r ∈ c.numbers F, good r) :
    runPage (F.printing dtoa') font d c = runPage F font d c ∧ (runPage F font d c).Good good := by
  simp only [PageCalls.numbers, List.mem_append, List.mem_cons, List.not_mem_nil, or_false, List.mem_flatMap] at hc
  have key : ∀ (ops : List (PageOp R)) (s : Doc R × Page R), s.1.Good good → (∀ op ∈ ops, ∀ r ∈ op.numbers F, good r) →
      ops.foldl (runOp (F.printing dtoa') font) s = ops.foldl (runOp F font) s ∧ (ops.foldl (runOp F font) s).1.Good good := by
    intro ops
    induction ops with
    | nil => intro s hs _; exact ⟨rfl, hs⟩
    | cons op ops ih =>
      intro s hs ho
      obtain ⟨h1, h2⟩ := runOp_printing (font := font) hg hs (ho op (by simp))
      simp only [List.foldl_cons, h1]
      exact ih _ h2 fun op hop => ho op (by simp [hop])
  have hnew : Page.new (F.printing dtoa') c.width c.height = Page.new F c.width c.height := by
    refine op_good (good := good) hg ?_
    intro o ho
    simp only [List.mem_cons, List.not_mem_nil, or_false] at ho
    rcases ho with rfl | rfl | rfl | rfl | rfl | rfl <;> simp only [Object.Good] <;> apply hc <;> simp [Floats.printing]
  obtain ⟨k1, k2⟩ := key c.ops (d, Page.new F c.width c.height) h fun op hop r hr => hc r (.inr ⟨op, hop, hr⟩)
  simp only [runPage, hnew, k1]
  have size : ∀ (ops : List (PageOp R)) (s : Doc R × Page R),
      (ops.foldl (runOp F font) s).2.width = s.2.width ∧ (ops.foldl (runOp F font) s).2.height = s.2.height := by
    intro ops
    induction ops with
    | nil => intro s; exact ⟨rfl, rfl⟩
    | cons op ops ih =>
      intro s
      obtain ⟨h1, h2⟩ := runOp_size (F := F) font s op
      obtain ⟨h3, h4⟩ := ih (runOp F font s op)
      exact ⟨h3.trans h1, h4.trans h2⟩
  obtain ⟨w1, w2⟩ := size c.ops (d, Page.new F c.width c.height)
  generalize c.ops.foldl (runOp F font) (d, Page.new F c.width c.height) = s at *
  have w1 : s.2.width = c.width := w1
  have w2 : s.2.height = c.height := w2
  refine ⟨?_, ?_, k2.fonts, k2.states⟩
  · unfold dropPage
    simp only [PdfFile.addStream, PdfFile.addDictionary, w1, w2]
    rw [Dictionary.write_good' (good := good) (dtoa := F.dtoa) (dtoa' := (F.printing dtoa').dtoa) hg]
    · rfl
    · simp only [Dictionary.Good, Pairs.ofList, Pairs.Good, Items.ofList, Items.Good, Object.Good, true_and, and_true]
      refine ⟨hc _ ?_, hc _ ?_⟩ <;> simp [Floats.printing]
  · intro o ho
    rcases List.mem_append.1 ho with ho | ho
    · exact k2.pages o ho
    · cases List.mem_singleton.1 ho
      simp only [Object.Good]

/-- If all numbers of the calls on a document are good, only good numbers are printed in its file. -/
theorem onlyPrints_of_numbers {E : Type} {font : Nat → FontView E} {pages : List (PageCalls R)} (h : ∀ c ∈ pages, ∀ r ∈ c.numbers F, good r) :
    OnlyPrints good F.dtoa fun dtoa => (runDoc (F.printing dtoa) font pages).write (F.printing dtoa) := by
  intro dtoa' hg
  have key : ∀ (d : Doc R), d.Good good → (∀ c ∈ pages, ∀ r ∈ c.numbers F, good r) →
      pages.foldl (runPage (F.printing dtoa') font) d = pages.foldl (runPage F font) d ∧ (pages.foldl (runPage F font) d).Good good := by
    clear h
    induction pages with
    | nil => intro d hd _; exact ⟨rfl, hd⟩
    | cons c pages ih =>
      intro d hd hc
      obtain ⟨h1, h2⟩ := runPage_printing (font := font) hg hd (hc c (by simp))
      simp only [List.foldl_cons, h1]
      exact ih _ h2 fun c hc' => hc c (by simp [hc'])
  obtain ⟨h1, h2⟩ := key Doc.new ⟨by simp [Doc.new], by simp [Doc.new], by simp [Doc.new]⟩ h
  show (runDoc (F.printing dtoa') font pages).write (F.printing dtoa') = (runDoc F font pages).write F
  unfold runDoc
  rw [h1, write_printing hg h2]

end
end Verif.Pdf
