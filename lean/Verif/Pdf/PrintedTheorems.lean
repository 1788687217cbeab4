import Verif.Pdf.PrintedLemmas
import Verif.Pdf.DocTheorems
/-
C13 to C18 for files in which some numbers could not be read: nothing is assumed of how `dtoa` prints infinities, NaN, or numbers which it prints with an
exponent, if none of these is printed in the file (`OnlyPrints`; `C15_numbers` says which numbers are printed). `good` is any set of numbers.
-/
namespace Verif.Pdf

section
variable {R E : Type} [Countable R] {readReal : List Byte → Option R} {F : Floats R} {good : R → Prop}

omit [Countable R] in
/-- C15: only the numbers that the caller gave, the scaled sizes of pages and the scale itself, clamped opacities and negated font sizes are printed
in the file of a document. -/
theorem C15_numbers (font : Nat → FontView E) (pages : List (PageCalls R)) (h : ∀ c ∈ pages, ∀ r ∈ c.numbers F, good r) :
    OnlyPrints good F.dtoa fun dtoa => (runDoc (F.printing dtoa) font pages).write (F.printing dtoa) :=
  onlyPrints_of_numbers h

omit [Countable R] in
theorem FloatLaws.printing (h : FloatLaws F) (dtoa : R → List Byte) : FloatLaws (F.printing dtoa) := ⟨h.key_congr, h.key_lt⟩

omit [Countable R] in
theorem Matches.printing {dtoa : R → List Byte} {name : Nat → List Byte → Prop} {a : Painted R} {b : Expected R}
    (h : Matches (F.printing dtoa) name a b) : Matches F name a b := by
  have key : ∀ rgb alpha color, ColorOk (F.printing dtoa) rgb alpha color → ColorOk F rgb alpha color := by
    intro rgb alpha color h
    cases color <;> exact h
  cases a <;> cases b
  · exact ⟨h.1, h.2.1, key _ _ _ h.2.2⟩
  · exact h
  · exact h
  · exact ⟨h.1, h.2.1, h.2.2.1, h.2.2.2.1, h.2.2.2.2.1, key _ _ _ h.2.2.2.2.2⟩

theorem AllMatch.mono_mem {A B : Type} {r r' : A → B → Prop} : ∀ {l : List A} {l' : List B}, AllMatch r l l' →
    (∀ a ∈ l, ∀ b, r a b → r' a b) → AllMatch r' l l'
  | [], [], _, _ => trivial
  | _ :: _, _ :: _, h, hr => ⟨hr _ (by simp) _ h.1, AllMatch.mono_mem h.2 fun a ha => hr a (by simp [ha])⟩
  | [], _ :: _, h, _ => h.elim
  | _ :: _, [], h, _ => h.elim

/-- A reader of all numbers, which cannot be told from the given one. -/
theorem RealTextOn.replace (hd : RealTextOn good F.dtoa readReal) {font : Nat → FontView E} {pages : List (PageCalls R)}
    (hp : OnlyPrints good F.dtoa fun dtoa => (runDoc (F.printing dtoa) font pages).write (F.printing dtoa)) :
    ∃ (dtoa : R → List Byte) (read : List Byte → Option R), RealText (F.printing dtoa).dtoa read ∧
      (runDoc (F.printing dtoa) font pages).write (F.printing dtoa) = (runDoc F font pages).write F ∧
      ∀ t, t.length ≤ ((runDoc F font pages).write F).length → read t = readReal t := by
  obtain ⟨dtoa, read, h1, h2, h3⟩ := hd.total ((runDoc F font pages).write F).length
  exact ⟨dtoa, read, h1, hp dtoa h2, h3⟩

/-- C13: `C13_references`, if only good numbers are printed. -/
theorem C13_references_printed (hd : RealTextOn good F.dtoa readReal) (hl : FloatLaws F) (font : Nat → FontView E)
    (pages : List (PageCalls R)) (hv : Valid font pages)
    (hp : OnlyPrints good F.dtoa fun dtoa => (runDoc (F.printing dtoa) font pages).write (F.printing dtoa))
    (hs : ((runDoc F font pages).write F).length ≤ 2 ^ 32) :
    ∃ n, (∀ id, (objectAt ((runDoc F font pages).write F) id).isSome = true ↔ 1 ≤ id ∧ id ≤ n) ∧
      (∀ id, 1 ≤ id → id ≤ n → ∃ entries m, (∀ fuel, m ≤ fuel →
          getDict readReal fuel ((runDoc F font pages).write F) id = some entries ∨
          ∃ c, getStream readReal fuel ((runDoc F font pages).write F) id = some (entries, c)) ∧
        ∀ id' gen, (Val.dict entries).HasRef id' gen →
          gen = 0 ∧ (objectAt ((runDoc F font pages).write F) id').isSome = true) ∧
      ∃ m trailer rest, (∀ fuel, m ≤ fuel → readTrailer readReal fuel ((runDoc F font pages).write F) = some (trailer, rest)) ∧
        ∀ id' gen, trailer.HasRef id' gen → gen = 0 ∧ (objectAt ((runDoc F font pages).write F) id').isSome = true := by
  obtain ⟨dtoa, read, h1, h2, h3⟩ := hd.replace hp
  have := C13_references h1 (hl.printing dtoa) font pages hv (by rw [h2]; exact hs)
  rw [h2] at this
  simpa only [getDict_agree h3 (Nat.le_refl _), getStream_agree h3 (Nat.le_refl _), readTrailer_agree h3 (Nat.le_refl _)] using this

/-- C14: `C14_pages`, if only good numbers are printed. -/
theorem C14_pages_printed (hd : RealTextOn good F.dtoa readReal) (hl : FloatLaws F) (font : Nat → FontView E)
    (pages : List (PageCalls R)) (hv : Valid font pages)
    (hp : OnlyPrints good F.dtoa fun dtoa => (runDoc (F.printing dtoa) font pages).write (F.printing dtoa))
    (hs : ((runDoc F font pages).write F).length ≤ 2 ^ 32) :
    ∃ m doc, (∀ fuel, m ≤ fuel → readDocument readReal fuel ((runDoc F font pages).write F) = some doc) ∧
      doc.pages.map (·.mediaBox) = pages.map fun c =>
        [.int 0, .int 0, .real (F.mul c.width F.scaleX), .real (F.mul c.height F.scaleY)] := by
  obtain ⟨dtoa, read, h1, h2, h3⟩ := hd.replace hp
  obtain ⟨m, doc, h4, h5⟩ := C14_pages h1 (hl.printing dtoa) font pages hv (by rw [h2]; exact hs)
  rw [h2] at h4
  simp only [readDocument_agree h3 (Nat.le_refl _)] at h4
  exact ⟨m, doc, h4, h5⟩

/-- C15 and C18: `C15_C18_contents`, if only good numbers are printed. -/
theorem C15_C18_contents_printed (hd : RealTextOn good F.dtoa readReal) (hl : FloatLaws F) (font : Nat → FontView E)
    (pages : List (PageCalls R)) (hv : Valid font pages)
    (hp : OnlyPrints good F.dtoa fun dtoa => (runDoc (F.printing dtoa) font pages).write (F.printing dtoa))
    (hs : ((runDoc F font pages).write F).length ≤ 2 ^ 32) :
    ∃ m doc, (∀ fuel, m ≤ fuel → readDocument readReal fuel ((runDoc F font pages).write F) = some doc) ∧
      AllMatch (fun p c => ∃ painted, (∃ m, ∀ fuel, m ≤ fuel →
          paintContents readReal F.zero F.one (gsAlpha doc.extGState) fuel p.contents = some painted) ∧
        AllMatch (Matches F fun f name => ∃ id, dictGet doc.fonts name = some (.ref id 0) ∧
          IsFont readReal ((runDoc F font pages).write F) (font f) id) painted (expected font none c.ops)) doc.pages pages := by
  obtain ⟨dtoa, read, h1, h2, h3⟩ := hd.replace hp
  obtain ⟨m, doc, h4, h5⟩ := C15_C18_contents h1 (hl.printing dtoa) font pages hv (by rw [h2]; exact hs)
  rw [h2] at h4 h5
  simp only [readDocument_agree h3 (Nat.le_refl _)] at h4
  refine ⟨m, doc, h4, ?_⟩
  have hlen := readDocument_length (h4 m (Nat.le_refl _))
  refine AllMatch.mono_mem h5 ?_
  rintro p hpm c ⟨painted, ⟨k, h6⟩, h7⟩
  refine ⟨painted, ⟨k, fun fuel hf => ?_⟩, h7.mono fun a b hab => hab.printing.mono ?_⟩
  · rw [← h6 fuel hf]
    exact (paintContents_agree h3 _ _ _ _ (hlen p hpm)).symm
  · rintro f name ⟨id, e1, e2⟩
    exact ⟨id, e1, (IsFont_agree h3 (Nat.le_refl _) _ _).1 e2⟩

/-- C16: `C16_opacities`, if only good numbers are printed. -/
theorem C16_opacities_printed (hd : RealTextOn good F.dtoa readReal) (hl : FloatLaws F) (font : Nat → FontView E)
    (pages : List (PageCalls R)) (hv : Valid font pages)
    (hp : OnlyPrints good F.dtoa fun dtoa => (runDoc (F.printing dtoa) font pages).write (F.printing dtoa))
    (hs : ((runDoc F font pages).write F).length ≤ 2 ^ 32) :
    ∃ m doc, ∃ alphas : List R, (∀ fuel, m ≤ fuel → readDocument readReal fuel ((runDoc F font pages).write F) = some doc) ∧
      (doc.extGState.map (·.1)).Nodup ∧
      doc.extGState.map (·.2) = alphas.map (fun a => .dict [(ascii "CA", .real a), (ascii "ca", .real a)]) ∧
      (∀ a ∈ alphas, ∃ r, a = F.clampUnit r) ∧ (alphas.map F.key).Nodup ∧ alphas.length ≤ 65536 := by
  obtain ⟨dtoa, read, h1, h2, h3⟩ := hd.replace hp
  obtain ⟨m, doc, alphas, h4, h5⟩ := C16_opacities h1 (hl.printing dtoa) font pages hv (by rw [h2]; exact hs)
  rw [h2] at h4
  simp only [readDocument_agree h3 (Nat.le_refl _)] at h4
  exact ⟨m, doc, alphas, h4, h5⟩

/-- C17: `C17_fonts`, if only good numbers are printed. -/
theorem C17_fonts_printed (hd : RealTextOn good F.dtoa readReal) (hl : FloatLaws F) (font : Nat → FontView E)
    (pages : List (PageCalls R)) (hv : Valid font pages)
    (hp : OnlyPrints good F.dtoa fun dtoa => (runDoc (F.printing dtoa) font pages).write (F.printing dtoa))
    (hs : ((runDoc F font pages).write F).length ≤ 2 ^ 32) :
    ∃ m doc, (∀ fuel, m ≤ fuel → readDocument readReal fuel ((runDoc F font pages).write F) = some doc) ∧
      (doc.fonts.map (·.1)).Nodup ∧ (firstUses [] (pages.flatMap fun c => shownFonts font c.ops)).Nodup ∧
      AllMatch (fun e f => ∃ id, e.2 = .ref id 0 ∧ IsFont readReal ((runDoc F font pages).write F) (font f) id) doc.fonts
        (firstUses [] (pages.flatMap fun c => shownFonts font c.ops)) := by
  obtain ⟨dtoa, read, h1, h2, h3⟩ := hd.replace hp
  obtain ⟨m, doc, h4, h5, h6, h7⟩ := C17_fonts h1 (hl.printing dtoa) font pages hv (by rw [h2]; exact hs)
  rw [h2] at h4 h7
  simp only [readDocument_agree h3 (Nat.le_refl _)] at h4
  refine ⟨m, doc, h4, h5, h6, h7.mono ?_⟩
  rintro e f ⟨id, e1, e2⟩
  exact ⟨id, e1, (IsFont_agree h3 (Nat.le_refl _) _ _).1 e2⟩

end
end Verif.Pdf
