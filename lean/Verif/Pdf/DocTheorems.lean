import Verif.Pdf.DocLemmas
import Mathlib.Data.List.Perm.Subperm
/-
C13 to C18: documents. A document is produced by any history of calls of the public API (`runDoc`), written to a
file, and read back from the bytes of that file by the readers of Verif/Pdf/Reader.lean, FileSpec.lean and DocSpec.lean.
Files are assumed to be at most 4 GiB (see `C11_violated_large`).
-/
namespace Verif.Pdf

section
variable {R E : Type} {readReal : List Byte → Option R} {F : Floats R}

/-- Adds objects one after the other, with the identifiers handed out. -/
def addAll (f : PdfFile) : List (List Byte) → PdfFile × List Nat
  | [] => (f, [])
  | c :: cs =>
    let (f, id) := f.addIndirectObject c
    let (f, ids) := addAll f cs
    (f, id :: ids)

theorem addAll_spec (f : PdfFile) (cs : List (List Byte)) : (addAll f cs).1.objects = f.objects ++ cs ∧
    (addAll f cs).2 = List.range' f.nextId cs.length := by
  induction cs generalizing f with
  | nil => simp [addAll]
  | cons c cs ih =>
    simp only [addAll, ih, PdfFile.addIndirectObject, List.append_assoc, List.cons_append, List.nil_append, List.length_cons,
      List.range'_succ, and_self]

/-- C13: the identifiers handed out are distinct (and differ from 1, 2, 3, which are used for the fixed objects), and
each denotes in the file exactly the object it was handed out for. -/
theorem C13_identifiers (dtoa : R → List Byte) (cs : List (List Byte)) (basic : BasicObjects R)
    (hs : ((addAll .new cs).1.write dtoa basic).length ≤ 2 ^ 32) :
    (addAll .new cs).2.length = cs.length ∧ (addAll .new cs).2.Nodup ∧ (∀ id ∈ (addAll .new cs).2, 4 ≤ id) ∧
      ∀ (i id : Nat) (c : List Byte), (addAll .new cs).2[i]? = some id → cs[i]? = some c →
        ∃ rest, objectAt ((addAll .new cs).1.write dtoa basic) id = some (c ++ ascii "\nendobj\n" ++ rest) := by
  obtain ⟨h1, h2⟩ := addAll_spec PdfFile.new cs
  have h1 : (addAll .new cs).1.objects = cs := by rw [h1]; rfl
  have h4 : PdfFile.new.nextId = 4 := rfl
  rw [h2, h4]
  refine ⟨by simp, List.nodup_range', ?_, ?_⟩
  · intro id hid
    rw [List.mem_range'_1] at hid
    exact hid.1
  · intro i id c hi hc
    have hl : i < cs.length := (List.getElem?_eq_some_iff.1 hc).1
    rw [List.getElem?_range' hl] at hi
    simp only [Option.some.injEq] at hi
    obtain ⟨rest, hr⟩ := objectAt_write dtoa (addAll .new cs).1 basic hs (i + 3) c (by
      simp only [PdfFile.bodies, h1]
      simpa using hc)
    refine ⟨rest, ?_⟩
    rw [← hi, ← hr]
    congr 1
    omega

theorem basic_refs {font : Nat → FontView E} {d : Doc R} {bodies : List (Body R)} {alphas : List R}
    {fonts : List (Nat × Nat)} {pageIds : List Nat} {pages : List (PageCalls R)}
    (h : DocInv F font d bodies alphas fonts pageIds pages) : ∀ b ∈ d.allBodies bodies, b.Plain ∧ b.RefsBelow (4 + bodies.length) := by
  intro b hb
  simp only [Doc.allBodies, List.cons_append, List.nil_append, List.mem_cons] at hb
  have hfont : ∀ id gen, ¬ ((Val.dict (fontsOf fonts) : Val R).HasRef id gen ∧ ¬ (1 ≤ id ∧ id < 4 + bodies.length ∧ gen = 0)) := by
    rintro id gen ⟨hr, hn⟩
    apply hn
    cases hr with
    | dict hm hr =>
      obtain ⟨⟨k, f⟩, hk, he⟩ := List.mem_map.1 hm
      simp only [Prod.mk.injEq] at he
      obtain ⟨rfl, rfl⟩ := he
      rw [hasRef_ref] at hr
      obtain ⟨rfl, rfl⟩ := hr
      obtain ⟨i, hi, _⟩ := mem_names.1 hk
      obtain ⟨k', _, _, _, he, _, _, _, _, _, h5⟩ := h.embedded f (List.mem_of_getElem? hi)
      have := (List.getElem?_eq_some_iff.1 h5).1
      simp only at he ⊢
      omega
  have hext : ∀ id gen, ¬ (Val.dict (extOf alphas) : Val R).HasRef id gen := by
    intro id gen hr
    cases hr with
    | dict hm hr =>
      obtain ⟨⟨k, f⟩, hk, he⟩ := List.mem_map.1 hm
      simp only [Prod.mk.injEq] at he
      obtain ⟨rfl, rfl⟩ := he
      simp only [hasRef_dict_cons, hasRef_dict_nil, hasRef_real, or_false] at hr
  have hpages : ∀ id gen, (Val.array (pageIds.map fun id => .ref id 0) : Val R).HasRef id gen →
      1 ≤ id ∧ id < 4 + bodies.length ∧ gen = 0 := by
    intro id gen hr
    rw [hasRef_array] at hr
    obtain ⟨v, hv, hr⟩ := hr
    obtain ⟨pid, hp, rfl⟩ := List.mem_map.1 hv
    rw [hasRef_ref] at hr
    obtain ⟨rfl, rfl⟩ := hr
    have key : ∀ {l : List Nat} {l' : List (PageCalls R)}, AllMatch (PageDone F font bodies alphas fonts) l l' → ∀ p ∈ l,
        1 ≤ p ∧ p < 4 + bodies.length := by
      intro l
      induction l with
      | nil => intro l' _ p hp; cases hp
      | cons a l ih =>
        intro l' hm p hp
        cases l' with
        | nil => exact hm.elim
        | cons b l' =>
          rcases List.mem_cons.1 hp with rfl | hp
          · obtain ⟨k, _, _, rfl, hk, _⟩ := hm.1
            have := (List.getElem?_eq_some_iff.1 hk).1
            omega
          · exact ih hm.2 p hp
    have := key h.done pid hp
    exact ⟨this.1, this.2, rfl⟩
  rcases hb with rfl | rfl | rfl | hb
  · refine ⟨pageTree_plain h, ?_⟩
    intro id gen hr
    simp only [Body.entries] at hr
    rw [pageTree_values h] at hr
    simp only [treeDict, hasRef_dict_cons, hasRef_dict_nil, hasRef_name, hasRef_int, or_false, false_or, hext] at hr
    rcases hr with hr | hr
    · exact hpages id gen hr
    · exact Classical.byContradiction fun hn => hfont id gen ⟨hr, hn⟩
  · refine ⟨catalog_plain d, ?_⟩
    intro id gen hr
    simp only [Body.entries, Doc.basic, Dictionary.values, values_pairs, List.map_cons, List.map_nil, Object.value,
      hasRef_dict_cons, hasRef_dict_nil, hasRef_name, hasRef_ref, or_false, false_or, pageTreeId] at hr
    obtain ⟨rfl, rfl⟩ := hr
    exact ⟨by omega, by omega, rfl⟩
  · refine ⟨info_plain d, ?_⟩
    intro id gen hr
    simp only [Body.entries, Doc.basic, Dictionary.values, values_pairs, List.map_cons, List.map_nil, Object.value,
      hasRef_dict_cons, hasRef_dict_nil, hasRef_str, or_false] at hr
  · exact ⟨h.plain b hb, h.refs b hb⟩

/-- C13: every object of the file (their identifiers are 1 to `n`, and the table has no others) reads as a dictionary or
as a stream, and every reference in it is to an object which is in the file; so are the two references of the trailer. -/
theorem C13_references (hd : RealText F.dtoa readReal) (hl : FloatLaws F) (font : Nat → FontView E)
    (pages : List (PageCalls R)) (hv : Valid font pages) (hs : ((runDoc F font pages).write F).length ≤ 2 ^ 32) :
    ∃ n, (∀ id, (objectAt ((runDoc F font pages).write F) id).isSome = true ↔ 1 ≤ id ∧ id ≤ n) ∧
      (∀ id, 1 ≤ id → id ≤ n → ∃ entries m, (∀ fuel, m ≤ fuel →
          getDict readReal fuel ((runDoc F font pages).write F) id = some entries ∨
          ∃ c, getStream readReal fuel ((runDoc F font pages).write F) id = some (entries, c)) ∧
        ∀ id' gen, (Val.dict entries).HasRef id' gen →
          gen = 0 ∧ (objectAt ((runDoc F font pages).write F) id').isSome = true) ∧
      ∃ m trailer rest, (∀ fuel, m ≤ fuel → readTrailer readReal fuel ((runDoc F font pages).write F) = some (trailer, rest)) ∧
        ∀ id' gen, trailer.HasRef id' gen → gen = 0 ∧ (objectAt ((runDoc F font pages).write F) id').isSome = true := by
  obtain ⟨bodies, alphas, fonts, pageIds, h, _⟩ := DocInv.runDoc hl hv.fonts pages hv.ops
  generalize runDoc F font pages = d at *
  have hlen : (d.allBodies bodies).length = bodies.length + 3 := by
    simp only [Doc.allBodies, List.length_append, List.length_cons, List.length_nil]; omega
  have hin : ∀ id, 1 ≤ id → id ≤ bodies.length + 3 → (objectAt (d.write F) id).isSome = true := by
    intro id h1 h2
    obtain ⟨k, rfl⟩ : ∃ k, id = k + 1 := ⟨id - 1, by omega⟩
    obtain ⟨rest, hr⟩ := objectAt_body h.objects hs (k := k) (List.getElem?_eq_getElem (by omega))
    rw [hr]; rfl
  refine ⟨bodies.length + 3, ?_, ?_, ?_⟩
  · intro id
    constructor
    · intro ho
      have hx : readXref (d.write F) = some _ := readXref_write F.dtoa d.pdf d.basic
      unfold objectAt at ho
      rw [hx] at ho
      simp only [Option.bind_eq_bind, Option.bind_some] at ho
      cases id with
      | zero =>
        simp only [List.getElem?_cons_zero, Option.bind_some] at ho
        simp at ho
      | succ id =>
        simp only [List.getElem?_cons_succ, List.getElem?_map] at ho
        refine ⟨by omega, ?_⟩
        by_cases hlt : id < (offsetsOf fileHeader.length 1 (d.pdf.bodies F.dtoa d.basic)).length
        · rw [offsetsOf_length, Doc.bodies_eq h.objects, List.length_map, hlen] at hlt
          omega
        · rw [List.getElem?_eq_none (by omega)] at ho
          simp at ho
    · rintro ⟨h1, h2⟩; exact hin id h1 h2
  · intro id h1 h2
    obtain ⟨k, rfl⟩ : ∃ k, id = k + 1 := ⟨id - 1, by omega⟩
    have hb : (d.allBodies bodies)[k]? = some (d.allBodies bodies)[k] := List.getElem?_eq_getElem (by omega)
    obtain ⟨hp, hr⟩ := basic_refs h _ (List.mem_of_getElem? hb)
    have refs : ∀ id' gen, (Val.dict (d.allBodies bodies)[k].entries).HasRef id' gen →
        gen = 0 ∧ (objectAt (d.write F) id').isSome = true := by
      intro id' gen hr'
      obtain ⟨r1, r2, r3⟩ := hr id' gen hr'
      exact ⟨r3, hin id' r1 (by omega)⟩
    generalize (d.allBodies bodies)[k] = b at *
    cases b with
    | dict x =>
      obtain ⟨n, hn⟩ := getDict_body hd h.objects hs hb hp
      exact ⟨_, n, fun fuel hf => .inl (hn fuel hf), refs⟩
    | stream x c =>
      obtain ⟨n, hn⟩ := getStream_body hd h.objects hs hb hp
      exact ⟨_, n, fun fuel hf => .inr ⟨c, hn fuel hf⟩, refs⟩
  · obtain ⟨n, rest, hn⟩ := C11_trailer hd d.pdf d.basic
    refine ⟨n, _, rest, hn, ?_⟩
    intro id' gen hr
    simp only [hasRef_dict_cons, hasRef_dict_nil, hasRef_int, hasRef_ref, or_false, false_or] at hr
    rcases hr with ⟨rfl, rfl⟩ | ⟨rfl, rfl⟩
    · exact ⟨rfl, hin 2 (by omega) (by omega)⟩
    · exact ⟨rfl, hin 3 (by omega) (by omega)⟩

/-- C14: a reader of the file finds exactly the pages that were added, in order (`Count` is their number: `readDocument`
checks it), each with its media box. -/
theorem C14_pages (hd : RealText F.dtoa readReal) (hl : FloatLaws F) (font : Nat → FontView E)
    (pages : List (PageCalls R)) (hv : Valid font pages) (hs : ((runDoc F font pages).write F).length ≤ 2 ^ 32) :
    ∃ m doc, (∀ fuel, m ≤ fuel → readDocument readReal fuel ((runDoc F font pages).write F) = some doc) ∧
      doc.pages.map (·.mediaBox) = pages.map fun c =>
        [.int 0, .int 0, .real (F.mul c.width F.scaleX), .real (F.mul c.height F.scaleY)] := by
  obtain ⟨bodies, alphas, fonts, pageIds, h, _⟩ := DocInv.runDoc hl hv.fonts pages hv.ops
  obtain ⟨n, ps, h1, h2⟩ := readDocument_inv hd h hs
  refine ⟨n, _, h1, ?_⟩
  have key : ∀ {l : List (PageRead R)} {l' : List (PageCalls R)}, AllMatch (PageMatches F readReal font alphas fonts) l l' →
      l.map (·.mediaBox) = l'.map fun c => [.int 0, .int 0, .real (F.mul c.width F.scaleX), .real (F.mul c.height F.scaleY)] := by
    intro l
    induction l with
    | nil => intro l' hm; cases l' with | nil => rfl | cons _ _ => exact hm.elim
    | cons a l ih =>
      intro l' hm
      cases l' with
      | nil => exact hm.elim
      | cons b l' => simp only [List.map_cons, ih hm.2, hm.1.1]
  exact key h2

/-- C15 and C18 (and the part of C17 about names used by a page): executing the content stream of each page paints, in
order, exactly the rectangles and text runs which the caller asked for on that page, each in the colour and opacity
requested last (or opaque black). A text run is shown in a properly nested text object, in a font resource which is the
embedded font of the run, at the font size and position of the run, and its string decodes to the glyphs of the run. -/
theorem C15_C18_contents (hd : RealText F.dtoa readReal) (hl : FloatLaws F) (font : Nat → FontView E)
    (pages : List (PageCalls R)) (hv : Valid font pages) (hs : ((runDoc F font pages).write F).length ≤ 2 ^ 32) :
    ∃ m doc, (∀ fuel, m ≤ fuel → readDocument readReal fuel ((runDoc F font pages).write F) = some doc) ∧
      AllMatch (fun p c => ∃ painted, (∃ m, ∀ fuel, m ≤ fuel →
          paintContents readReal F.zero F.one (gsAlpha doc.extGState) fuel p.contents = some painted) ∧
        AllMatch (Matches F fun f name => ∃ id, dictGet doc.fonts name = some (.ref id 0) ∧
          IsFont readReal ((runDoc F font pages).write F) (font f) id) painted (expected font none c.ops)) doc.pages pages := by
  obtain ⟨bodies, alphas, fonts, pageIds, h, _⟩ := DocInv.runDoc hl hv.fonts pages hv.ops
  obtain ⟨n, ps, h1, h2⟩ := readDocument_inv hd h hs
  refine ⟨n, _, h1, h2.mono ?_⟩
  rintro p c ⟨_, painted, hp, hm⟩
  refine ⟨painted, hp, hm.mono fun a b hab => hab.mono ?_⟩
  rintro f name ⟨id, hn⟩
  refine ⟨id, dictGet_of_mem (fontsOf_nodup fonts) (List.mem_map.2 ⟨_, hn, rfl⟩), ?_⟩
  obtain ⟨i, hi, _⟩ := mem_names.1 hn
  exact readFont_embedded hd h.objects h.plain hs (hv.fonts f) (h.embedded _ (List.mem_of_getElem? hi))

/-- C16: the graphics state resources have distinct names; each sets both opacities to the same value, which is a
requested opacity clamped to 0..1; no two have the same 16-bit opacity, so that there are at most 65536 of them. (That the
name used by a page has the requested opacity is part of `C15_C18_contents`.) -/
theorem C16_opacities (hd : RealText F.dtoa readReal) (hl : FloatLaws F) (font : Nat → FontView E)
    (pages : List (PageCalls R)) (hv : Valid font pages) (hs : ((runDoc F font pages).write F).length ≤ 2 ^ 32) :
    ∃ m doc, ∃ alphas : List R, (∀ fuel, m ≤ fuel → readDocument readReal fuel ((runDoc F font pages).write F) = some doc) ∧
      (doc.extGState.map (·.1)).Nodup ∧
      doc.extGState.map (·.2) = alphas.map (fun a => .dict [(ascii "CA", .real a), (ascii "ca", .real a)]) ∧
      (∀ a ∈ alphas, ∃ r, a = F.clampUnit r) ∧ (alphas.map F.key).Nodup ∧ alphas.length ≤ 65536 := by
  obtain ⟨bodies, alphas, fonts, pageIds, h, _⟩ := DocInv.runDoc hl hv.fonts pages hv.ops
  obtain ⟨n, ps, h1, h2⟩ := readDocument_inv hd h hs
  refine ⟨n, _, alphas, h1, extOf_nodup alphas, ?_, h.clamped, h.alphaKeys, ?_⟩
  · simp only [extOf, List.map_map]
    exact names_map_snd (fun a => Val.dict [(ascii "CA", .real a), (ascii "ca", .real a)]) 97 0 alphas
  · have hsub : alphas.map F.key ⊆ List.range 65536 := by
      intro k hk
      obtain ⟨a, _, rfl⟩ := List.mem_map.1 hk
      exact List.mem_range.2 (hl.key_lt a)
    have := (h.alphaKeys.subperm hsub).length_le
    simpa using this

/-- C17: the font resources have distinct names and are, in order of first use, the fonts in which text was shown
successfully anywhere in the document, each once, each embedded completely. -/
theorem C17_fonts (hd : RealText F.dtoa readReal) (hl : FloatLaws F) (font : Nat → FontView E)
    (pages : List (PageCalls R)) (hv : Valid font pages) (hs : ((runDoc F font pages).write F).length ≤ 2 ^ 32) :
    ∃ m doc, (∀ fuel, m ≤ fuel → readDocument readReal fuel ((runDoc F font pages).write F) = some doc) ∧
      (doc.fonts.map (·.1)).Nodup ∧ (firstUses [] (pages.flatMap fun c => shownFonts font c.ops)).Nodup ∧
      AllMatch (fun e f => ∃ id, e.2 = .ref id 0 ∧ IsFont readReal ((runDoc F font pages).write F) (font f) id) doc.fonts
        (firstUses [] (pages.flatMap fun c => shownFonts font c.ops)) := by
  obtain ⟨bodies, alphas, fonts, pageIds, h, hf⟩ := DocInv.runDoc hl hv.fonts pages hv.ops
  obtain ⟨n, ps, h1, h2⟩ := readDocument_inv hd h hs
  refine ⟨n, _, h1, fontsOf_nodup fonts, hf ▸ h.fontAddrs, ?_⟩
  rw [← hf]
  have key : ∀ (l : List (Nat × Nat)) (k : Nat), (∀ f ∈ l, FontEmbedded bodies (font f.1) f.2) →
      AllMatch (fun e f => ∃ id, e.2 = .ref id 0 ∧ IsFont readReal ((runDoc F font pages).write F) (font f) id)
        ((names 102 k l).map fun e => (e.1, (.ref e.2.2 0 : Val R))) (l.map (·.1)) := by
    intro l
    induction l with
    | nil => intro k _; trivial
    | cons f l ih =>
      intro k hl
      exact ⟨⟨f.2, rfl, readFont_embedded hd h.objects h.plain hs (hv.fonts f.1) (hl f (by simp))⟩,
        ih (k + 1) fun f hf => hl f (by simp [hf])⟩
  exact key fonts 0 h.embedded

/-- C17: a call that fails because the font cannot be embedded leaves the page as it was and registers no font: neither
the resources nor the table of fonts change. -/
theorem C17_failure (d : Doc R) (p : Page R) (addr : Nat) (v : FontView E) (glyphs : List Nat) (fs ox oy : R) (e : E)
    (h : (showText F d p addr v glyphs fs ox oy).2.2 = .error e) :
    (showText F d p addr v glyphs fs ox oy).2.1 = p ∧
      (showText F d p addr v glyphs fs ox oy).1.fontResources = d.fontResources ∧
      (showText F d p addr v glyphs fs ox oy).1.fonts = d.fonts ∧
      (showText F d p addr v glyphs fs ox oy).1.pageIds = d.pageIds := by
  have key : ∀ e, (addFont F d addr v).2 = .error e → (addFont F d addr v).1.fontResources = d.fontResources ∧
      (addFont F d addr v).1.fonts = d.fonts ∧ (addFont F d addr v).1.pageIds = d.pageIds := by
    intro e
    unfold addFont
    dsimp only
    split
    · intro h; cases h
    · split
      · intro _; exact ⟨rfl, rfl, rfl⟩
      · split
        · intro _; exact ⟨rfl, rfl, rfl⟩
        · intro h; cases h
  unfold showText at h ⊢
  cases hr : addFont F d addr v with
  | mk d' r =>
    rw [hr] at h key
    cases r with
    | ok k => cases h
    | error e' => exact ⟨rfl, key e' rfl⟩

end

end Verif.Pdf
