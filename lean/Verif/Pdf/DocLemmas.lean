import Verif.Pdf.DocInv
/- Helper lemmas for C13 to C18: reading a written document. -/
namespace Verif.Pdf

section
variable {R E : Type} {readReal : List Byte → Option R} {F : Floats R}

/-- All objects of the file. -/
def Doc.allBodies (d : Doc R) (bodies : List (Body R)) : List (Body R) :=
  [.dict d.basic.pageTree, .dict d.basic.catalog, .dict d.basic.info] ++ bodies

theorem Doc.bodies_eq {d : Doc R} {bodies : List (Body R)} (h : d.pdf.objects = bodies.map (Body.bytes F)) :
    d.pdf.bodies F.dtoa d.basic = (d.allBodies bodies).map (Body.bytes F) := by
  simp only [PdfFile.bodies, Doc.allBodies, h, List.map_append, List.map_cons, List.map_nil, Body.bytes]

theorem objectAt_body {d : Doc R} {bodies : List (Body R)} (h : d.pdf.objects = bodies.map (Body.bytes F))
    (hs : (d.write F).length ≤ 2 ^ 32) {k : Nat} {b : Body R} (hb : (d.allBodies bodies)[k]? = some b) :
    ∃ rest, objectAt (d.write F) (k + 1) = some (b.bytes F ++ ascii "\nendobj\n" ++ rest) := by
  refine objectAt_write F.dtoa d.pdf d.basic hs k _ ?_
  rw [Doc.bodies_eq h, List.getElem?_map, hb]
  rfl

theorem endobj_follow (rest : List Byte) : MayFollow readReal (ascii "\nendobj\n" ++ rest) := by
  have e : ascii "\nendobj\n" ++ rest = 10 :: ([101, 110, 100, 111, 98, 106] ++ 10 :: rest) := rfl
  rw [e]
  refine mayFollow_white (by decide) (noRef_keyword (by simp) ?_ (head_cons (by decide)) (by decide) (by decide))
  simp only [List.mem_cons, List.not_mem_nil, or_false]
  rintro b (rfl | rfl | rfl | rfl | rfl | rfl) <;> decide

theorem getDict_body (hd : RealText F.dtoa readReal) {d : Doc R} {bodies : List (Body R)}
    (h : d.pdf.objects = bodies.map (Body.bytes F)) (hs : (d.write F).length ≤ 2 ^ 32) {k : Nat} {x : Dictionary R}
    (hb : (d.allBodies bodies)[k]? = some (.dict x)) (hp : x.Plain) :
    ∃ n, ∀ fuel, n ≤ fuel → getDict readReal fuel (d.write F) (k + 1) = some x.values := by
  obtain ⟨rest, hr⟩ := objectAt_body h hs hb
  obtain ⟨n, hn⟩ := C10_roundtrip_partial hd (Object.dict x) (ascii "\nendobj\n" ++ rest) hp (endobj_follow rest)
  refine ⟨n, fun fuel hf => ?_⟩
  have := hn fuel hf
  simp only [Object.write] at this
  unfold getDict
  rw [hr]
  simp only [Body.bytes, Dictionary.write]
  rw [List.append_assoc, this]
  simp [Object.value, stripPrefix_append]

theorem getStream_body (hd : RealText F.dtoa readReal) {d : Doc R} {bodies : List (Body R)}
    (h : d.pdf.objects = bodies.map (Body.bytes F)) (hs : (d.write F).length ≤ 2 ^ 32) {k : Nat} {x : Dictionary R}
    {c : List Byte} (hb : (d.allBodies bodies)[k]? = some (.stream x c)) (hp : (Body.stream x c).Plain) :
    ∃ n, ∀ fuel, n ≤ fuel → getStream readReal fuel (d.write F) (k + 1) =
      some (x.values ++ [(ascii "Length", .int c.length)], c) := by
  obtain ⟨rest, hr⟩ := objectAt_body h hs hb
  obtain ⟨n, hn⟩ := C12_stream hd x c (ascii "\nendobj\n" ++ rest) hp.1 hp.2
  refine ⟨n, fun fuel hf => ?_⟩
  have := hn fuel hf
  unfold getStream
  rw [hr]
  simp only [Body.bytes]
  rw [List.append_assoc, this]
  simp [stripPrefix_append]

theorem allBodies_get (d : Doc R) (bodies : List (Body R)) (k : Nat) : (d.allBodies bodies)[k + 3]? = bodies[k]? := by
  simp [Doc.allBodies]

/-! ### Fonts -/

theorem glyphWidths_ints {w : Nat → Except E Int} : ∀ (n i : Nat) (ws : List (Object R)), glyphWidths w i n = .ok ws →
    ∃ is, asInts (ws.map Object.value) = some is ∧ is.length = n ∧ ∀ j x, is[j]? = some x → w (i + j) = .ok x
  | 0, i, ws, h => by
    simp only [glyphWidths, Except.ok.injEq] at h
    subst h
    exact ⟨[], rfl, rfl, by simp⟩
  | n + 1, i, ws, h => by
    simp only [glyphWidths] at h
    cases hw : w i with
    | error e => rw [hw] at h; cases h
    | ok x =>
      rw [hw] at h
      simp only at h
      cases hg : glyphWidths (R := R) w (i + 1) n with
      | error e => rw [hg] at h; cases h
      | ok ws' =>
        rw [hg] at h
        simp only [Except.ok.injEq] at h
        subst h
        obtain ⟨is, h1, h2, h3⟩ := glyphWidths_ints n (i + 1) ws' hg
        refine ⟨x :: is, ?_, by simp [h2], ?_⟩
        · simp only [List.map_cons, asInts, h1, Object.value, asInt]
        · intro j y hj
          cases j with
          | zero => simp only [List.getElem?_cons_zero, Option.some.injEq] at hj; subst hj; exact hw
          | succ j => rw [show i + (j + 1) = i + 1 + j by omega]; exact h3 j y hj

theorem bindSome {A B : Type} {x : Option A} {f : A → Option B} {a : A} {b : B} (h : x = some a) (h' : f a = some b) :
    (x >>= f) = some b := by rw [h]; exact h'

theorem asRef_ref (id : Nat) : asRef (some (Val.ref id 0 : Val R)) = some id := rfl
theorem asDict_dict (d : List (List Byte × Val R)) : asDict (some (.dict d)) = some d := rfl

/-- The dictionary of the descendant font. -/
def descendant (v : FontView E) (b : Nat) (ws : List (Object R)) : List (List Byte × Val R) :=
  [(ascii "Type", .name (ascii "Font")),
    (ascii "Subtype", .name (ascii "CIDFontType2")),
    (ascii "BaseFont", .name v.postscriptName),
    (ascii "CIDSystemInfo", .dict [
      (ascii "Registry", .str (ascii "Adobe")),
      (ascii "Ordering", .str (ascii "Identity")),
      (ascii "Supplement", .int 0)]),
    (ascii "FontDescriptor", .ref b 0),
    (ascii "W", .array [.int 0, .array (Items.ofList ws).values])]

section
variable (v : FontView E) (a b : Nat) (ws : List (Object R))

theorem fontDict_type : asName (dictGet (fontDict v a b ws).values (ascii "Type")) = some (ascii "Font") := rfl
theorem fontDict_subtype : asName (dictGet (fontDict v a b ws).values (ascii "Subtype")) = some (ascii "Type0") := rfl
theorem fontDict_encoding : asName (dictGet (fontDict v a b ws).values (ascii "Encoding")) = some (ascii "Identity-H") := rfl
theorem fontDict_base : asName (dictGet (fontDict v a b ws).values (ascii "BaseFont")) = some v.postscriptName := rfl
theorem fontDict_toUnicode : asRef (dictGet (fontDict v a b ws).values (ascii "ToUnicode")) = some a := rfl
theorem fontDict_descendant : asArray (dictGet (fontDict v a b ws).values (ascii "DescendantFonts")) =
    some [.dict (descendant v b ws)] := rfl
theorem descendant_subtype : asName (dictGet (descendant v b ws) (ascii "Subtype")) = some (ascii "CIDFontType2") := rfl
theorem descendant_base : asName (dictGet (descendant v b ws) (ascii "BaseFont")) = some v.postscriptName := rfl
theorem descendant_w : asArray (dictGet (descendant v b ws) (ascii "W")) =
    some [.int 0, .array (ws.map Object.value)] := by rw [← values_items]; rfl
theorem descendant_descriptor : asRef (dictGet (descendant v b ws) (ascii "FontDescriptor")) = some b := rfl
theorem fontDescriptor_name : asName (dictGet (fontDescriptor v a : Dictionary R).values (ascii "FontName")) =
    some v.postscriptName := rfl
theorem fontDescriptor_file : asRef (dictGet (fontDescriptor v a : Dictionary R).values (ascii "FontFile2")) = some a := rfl
theorem fontFile_length : asInt (dictGet ((Dictionary.root (.ofList [(ascii "Length1", .usize v.bytes.length)]) : Dictionary R).values ++
    [(ascii "Length", .int v.bytes.length)]) (ascii "Length1")) = some (v.bytes.length : Int) := rfl
end

theorem readFont_of {file : List Byte} {fuel id a b t : Nat} {v : FontView E} {ws : List (Object R)} {is : List Int}
    {x : List (List Byte × Val R)}
    (h1 : getDict readReal fuel file id = some (fontDict v a b ws).values)
    (h2 : getStream readReal fuel file a = some (x, toUnicodeCMap v.codePoints))
    (h3 : readToUnicode fuel (toUnicodeCMap v.codePoints) = some v.codePoints)
    (h4 : asInts (ws.map Object.value) = some is)
    (h5 : getDict readReal fuel file b = some (fontDescriptor v t : Dictionary R).values)
    (h6 : getStream readReal fuel file t = some ((Dictionary.root (.ofList [(ascii "Length1", .usize v.bytes.length)]) : Dictionary R).values ++
      [(ascii "Length", .int v.bytes.length)], v.bytes)) :
    readFont readReal fuel file id = some ⟨v.postscriptName, v.bytes, is, v.codePoints⟩ := by
  refine bindSome h1 ?_
  refine bindSome (fontDict_type v a b ws) ?_
  refine bindSome (fontDict_subtype v a b ws) ?_
  refine bindSome (fontDict_encoding v a b ws) ?_
  refine bindSome (fontDict_base v a b ws) ?_
  refine bindSome (fontDict_toUnicode v a b ws) ?_
  refine bindSome h2 ?_
  refine bindSome h3 ?_
  refine bindSome (fontDict_descendant v a b ws) ?_
  refine bindSome (asDict_dict (descendant v b ws)) ?_
  refine bindSome (descendant_subtype v b ws) ?_
  refine bindSome (descendant_base v b ws) ?_
  refine bindSome (descendant_w v b ws) ?_
  refine bindSome h4 ?_
  refine bindSome (descendant_descriptor v b ws) ?_
  refine bindSome h5 ?_
  refine bindSome (fontDescriptor_name (R := R) v t) ?_
  refine bindSome (fontDescriptor_file (R := R) v t) ?_
  refine bindSome h6 ?_
  refine bindSome (fontFile_length (R := R) v) ?_
  exact if_pos ⟨rfl, rfl, rfl, rfl, rfl, rfl, rfl⟩

theorem readFont_embedded (hd : RealText F.dtoa readReal) {d : Doc R} {bodies : List (Body R)}
    (h : d.pdf.objects = bodies.map (Body.bytes F)) (hpl : ∀ b ∈ bodies, b.Plain) (hs : (d.write F).length ≤ 2 ^ 32)
    {v : FontView E} (hv : v.Valid) {id : Nat} (he : FontEmbedded bodies v id) : IsFont readReal (d.write F) v id := by
  obtain ⟨k, kt, ku, kd, rfl, h1, h2, h3, ws, h4, h5⟩ := he
  have p1 := hpl _ (List.mem_of_getElem? h1)
  have p2 := hpl _ (List.mem_of_getElem? h2)
  have p3 := hpl _ (List.mem_of_getElem? h3)
  have p5 := hpl _ (List.mem_of_getElem? h5)
  rw [← allBodies_get d] at h1 h2 h3 h5
  obtain ⟨n1, r1⟩ := getStream_body hd h hs h1 p1
  obtain ⟨n2, r2⟩ := getDict_body hd h hs h2 p2
  obtain ⟨n3, r3⟩ := getStream_body hd h hs h3 p3
  obtain ⟨n5, r5⟩ := getDict_body hd h hs h5 p5
  obtain ⟨n6, r6⟩ := C19_to_unicode v.codePoints (fun e he => hv.2 e he)
  obtain ⟨is, hi, hl, hw⟩ := glyphWidths_ints _ _ _ h4
  refine ⟨n1 + n2 + n3 + n5 + n6, is, ?_, hl, fun i w hiw => by simpa using hw i w hiw⟩
  intro fuel hf
  have r1 := r1 fuel (by omega)
  have r2 := r2 fuel (by omega)
  have r3 := r3 fuel (by omega)
  have r5 := r5 fuel (by omega)
  have r6 := r6 fuel (by omega)
  rw [show kt + 3 + 1 = 4 + kt by omega] at r1
  rw [show kd + 3 + 1 = 4 + kd by omega] at r2
  rw [show ku + 3 + 1 = 4 + ku by omega] at r3
  rw [show k + 3 + 1 = 4 + k by omega] at r5
  exact readFont_of r5 r3 r6 hi r2 r1

/-! ### Resources -/

theorem dictGet_of_mem {l : List (List Byte × Val R)} (hn : (l.map (·.1)).Nodup) {k : List Byte} {v : Val R}
    (h : (k, v) ∈ l) : dictGet l k = some v := by
  unfold dictGet
  induction l with
  | nil => cases h
  | cons e l ih =>
    simp only [List.map_cons, List.nodup_cons] at hn
    rw [List.find?_cons]
    rcases List.mem_cons.1 h with rfl | h
    · simp
    · have : e.1 ≠ k := by
        rintro rfl
        exact hn.1 (List.mem_map.2 ⟨_, h, rfl⟩)
      simp only [this, decide_false]
      exact ih hn.2 h

/-- The graphics state resources. -/
def extOf (alphas : List R) : List (List Byte × Val R) :=
  (names 97 0 alphas).map fun e => (e.1, .dict [(ascii "CA", .real e.2), (ascii "ca", .real e.2)])

/-- The font resources. -/
def fontsOf (fonts : List (Nat × Nat)) : List (List Byte × Val R) :=
  (names 102 0 fonts).map fun e => (e.1, .ref e.2.2 0)

theorem extOf_nodup (alphas : List R) : ((extOf alphas).map (·.1)).Nodup := by
  unfold extOf; rw [List.map_map]; exact names_nodup 97 0 alphas

theorem fontsOf_nodup (fonts : List (Nat × Nat)) : ((fontsOf fonts : List (List Byte × Val R)).map (·.1)).Nodup := by
  unfold fontsOf; rw [List.map_map]; exact names_nodup 102 0 fonts

theorem gsOk_ext (alphas : List R) : GsOk alphas (gsAlpha (extOf alphas)) := by
  intro k a h
  have hm : (k, Val.dict [(ascii "CA", .real a), (ascii "ca", .real a)]) ∈ extOf alphas := List.mem_map.2 ⟨_, h, rfl⟩
  unfold gsAlpha
  rw [dictGet_of_mem (extOf_nodup alphas) hm]
  rfl

/-! ### The whole document -/

/-- The page tree. -/
def treeDict (kids : List (Val R)) (fonts ext : List (List Byte × Val R)) : List (List Byte × Val R) :=
  [(ascii "Type", .name (ascii "Pages")), (ascii "Count", .int kids.length), (ascii "Kids", .array kids),
    (ascii "Resources", .dict [(ascii "Font", .dict fonts), (ascii "ExtGState", .dict ext)])]

theorem pageTree_values {font : Nat → FontView E} {d : Doc R} {bodies : List (Body R)} {alphas : List R}
    {fonts : List (Nat × Nat)} {pageIds : List Nat} {pages : List (PageCalls R)}
    (h : DocInv F font d bodies alphas fonts pageIds pages) :
    d.basic.pageTree.values = treeDict (pageIds.map fun id => .ref id 0) (fontsOf fonts) (extOf alphas) := by
  simp only [Doc.basic, Dictionary.values, values_pairs, values_items, List.map_cons, List.map_nil, Object.value,
    h.pageIds_eq, h.fontResources, h.ext, treeDict, fontsOf, extOf, List.map_map, List.length_map]
  rfl

theorem pageTree_plain {font : Nat → FontView E} {d : Doc R} {bodies : List (Body R)} {alphas : List R}
    {fonts : List (Nat × Nat)} {pageIds : List Nat} {pages : List (PageCalls R)}
    (h : DocInv F font d bodies alphas fonts pageIds pages) : d.basic.pageTree.Plain := by
  simp only [Doc.basic, Dictionary.Plain, plain_pairs, List.mem_cons, List.not_mem_nil, or_false, forall_eq_or_imp,
    forall_eq, Object.Plain, plain_items]
  and_intros
  all_goals first
    | exact trivial
    | decide +kernel
    | skip
  · rw [h.pageIds_eq]
    intro o ho
    obtain ⟨id, _, rfl⟩ := List.mem_map.1 ho
    trivial
  · rw [h.fontResources]
    intro e he
    obtain ⟨⟨k, x⟩, hk, rfl⟩ := List.mem_map.1 he
    obtain ⟨i, _, hi⟩ := mem_names.1 hk
    exact ⟨by rw [hi]; exact name_plain 102 (by decide) _, trivial⟩
  · rw [h.ext]
    intro e he
    obtain ⟨⟨k, x⟩, hk, rfl⟩ := List.mem_map.1 he
    obtain ⟨i, _, hi⟩ := mem_names.1 hk
    exact ⟨by rw [hi]; exact name_plain 97 (by decide) _, trivial⟩

theorem catalog_plain (d : Doc R) : d.basic.catalog.Plain := by
  simp only [Doc.basic, Dictionary.Plain, plain_pairs, List.mem_cons, List.not_mem_nil, or_false, forall_eq_or_imp,
    forall_eq, Object.Plain]
  and_intros <;> first | exact trivial | decide +kernel

theorem info_plain (d : Doc R) : d.basic.info.Plain := by
  simp only [Doc.basic, Dictionary.Plain, plain_pairs, List.mem_cons, List.not_mem_nil, or_false,
    forall_eq, Object.Plain]
  and_intros <;> first | exact trivial | decide +kernel

theorem readPage_of {file : List Byte} {fuel id cid : Nat} {w h : R} {x : List (List Byte × Val R)} {contents : List Byte}
    (h1 : getDict readReal fuel file id = some (pageDict F w h cid).values)
    (h2 : getStream readReal fuel file cid = some (x, contents)) :
    readPage readReal fuel file 1 (.ref id 0) =
      some ⟨[.int 0, .int 0, .real (F.mul w F.scaleX), .real (F.mul h F.scaleY)], contents⟩ := by
  have e1 : asName (dictGet (pageDict F w h cid).values (ascii "Type")) = some (ascii "Page") := rfl
  have e2 : asRef (dictGet (pageDict F w h cid).values (ascii "Parent")) = some 1 := rfl
  have e3 : asArray (dictGet (pageDict F w h cid).values (ascii "MediaBox")) =
    some [.int 0, .int 0, .real (F.mul w F.scaleX), .real (F.mul h F.scaleY)] := rfl
  have e4 : asRef (dictGet (pageDict F w h cid).values (ascii "Contents")) = some cid := rfl
  unfold readPage
  simp only [asRef_ref, h1, Option.bind_eq_bind, Option.bind_some, e1, e2, e3, e4, h2]
  rfl

theorem readDocument_of {file rest : List Byte} {fuel size : Nat} {kids : List (Val R)} {fonts ext : List (List Byte × Val R)}
    {pages : List (PageRead R)} {catalog : List (List Byte × Val R)}
    (h1 : readTrailer readReal fuel file = some (.dict [(ascii "Size", .int size), (ascii "Root", .ref 2 0),
      (ascii "Info", .ref 3 0)], rest))
    (h2 : getDict readReal fuel file 2 = some catalog)
    (hc1 : asName (dictGet catalog (ascii "Type")) = some (ascii "Catalog"))
    (hc2 : asRef (dictGet catalog (ascii "Pages")) = some 1)
    (h3 : getDict readReal fuel file 1 = some (treeDict kids fonts ext))
    (h4 : readPages readReal fuel file 1 kids = some pages) :
    readDocument readReal fuel file = some ⟨pages, fonts, ext⟩ := by
  have e1 : asRef (dictGet ([(ascii "Size", .int size), (ascii "Root", .ref 2 0), (ascii "Info", .ref 3 0)] :
    List (List Byte × Val R)) (ascii "Root")) = some 2 := rfl
  have t1 : asName (dictGet (treeDict kids fonts ext) (ascii "Type")) = some (ascii "Pages") := rfl
  have t2 : asInt (dictGet (treeDict kids fonts ext) (ascii "Count")) = some (kids.length : Int) := rfl
  have t3 : asArray (dictGet (treeDict kids fonts ext) (ascii "Kids")) = some kids := rfl
  have t4 : asDict (dictGet (treeDict kids fonts ext) (ascii "Resources")) =
    some [(ascii "Font", .dict fonts), (ascii "ExtGState", .dict ext)] := rfl
  have t5 : asDict (dictGet [(ascii "Font", Val.dict fonts), (ascii "ExtGState", .dict ext)] (ascii "Font")) = some fonts := rfl
  have t6 : asDict (dictGet [(ascii "Font", Val.dict fonts), (ascii "ExtGState", .dict ext)] (ascii "ExtGState")) = some ext := rfl
  unfold readDocument
  rw [h1]
  simp only [Option.bind_eq_bind, Option.bind_some, asDict_dict]
  rw [e1]
  simp only [Option.bind_some, h2, hc1, hc2, h3, t1, t2, t3, t4, t5, t6, h4, and_self, if_true]
  rfl

/-- A read page against the calls made for it. -/
def PageMatches (F : Floats R) (readReal : List Byte → Option R) (font : Nat → FontView E) (alphas : List R)
    (fonts : List (Nat × Nat)) (p : PageRead R) (c : PageCalls R) : Prop :=
  p.mediaBox = [.int 0, .int 0, .real (F.mul c.width F.scaleX), .real (F.mul c.height F.scaleY)] ∧
    ∃ painted, (∃ m, ∀ fuel, m ≤ fuel →
        paintContents readReal F.zero F.one (gsAlpha (extOf alphas)) fuel p.contents = some painted) ∧
      AllMatch (Matches F (FontNamed fonts)) painted (expected font none c.ops)

theorem readPages_done (hd : RealText F.dtoa readReal) {font : Nat → FontView E} {d : Doc R} {bodies : List (Body R)}
    {alphas : List R} {fonts : List (Nat × Nat)} (h : d.pdf.objects = bodies.map (Body.bytes F))
    (hpl : ∀ b ∈ bodies, b.Plain) (hs : (d.write F).length ≤ 2 ^ 32) :
    ∀ {pageIds : List Nat} {pages : List (PageCalls R)},
    AllMatch (PageDone F font bodies alphas fonts) pageIds pages →
    ∃ n ps, (∀ fuel, n ≤ fuel → readPages readReal fuel (d.write F) 1 (pageIds.map fun id => .ref id 0) = some ps) ∧
      AllMatch (PageMatches F readReal font alphas fonts) ps pages
  | [], [], _ => ⟨0, [], fun _ _ => rfl, trivial⟩
  | [], _ :: _, hm => hm.elim
  | _ :: _, [], hm => hm.elim
  | id :: ids, c :: cs, hm => by
    obtain ⟨n, ps, h1, h2⟩ := readPages_done hd h hpl hs hm.2
    obtain ⟨k, kc, contents, rfl, hk, hkc, rgb, ak, color, ops, s, painted, hdraw⟩ := hm.1
    have p1 := hpl _ (List.mem_of_getElem? hk)
    have p2 := hpl _ (List.mem_of_getElem? hkc)
    rw [← allBodies_get d] at hk hkc
    obtain ⟨n1, r1⟩ := getDict_body hd h hs hk p1
    obtain ⟨n2, r2⟩ := getStream_body hd h hs hkc p2
    refine ⟨n + n1 + n2, ⟨[.int 0, .int 0, .real (F.mul c.width F.scaleX), .real (F.mul c.height F.scaleY)], contents⟩ :: ps,
      ?_, ⟨rfl, painted, ?_, hdraw.all⟩, h2⟩
    · intro fuel hf
      have r1 := r1 fuel (by omega)
      have r2 := r2 fuel (by omega)
      rw [show k + 3 + 1 = 4 + k by omega] at r1
      rw [show kc + 3 + 1 = 4 + kc by omega] at r2
      simp only [List.map_cons, readPages, readPage_of r1 r2, h1 fuel (by omega)]
    · obtain ⟨m, hm⟩ := opsRead hd ops hdraw.plain
      refine ⟨m, fun fuel hf => ?_⟩
      unfold paintContents
      rw [hdraw.bytes, hm fuel hf]
      simp only [hdraw.exec _ (gsOk_ext alphas), Option.map_some]

/-- Reading the document back. -/
theorem readDocument_inv (hd : RealText F.dtoa readReal) {font : Nat → FontView E} {d : Doc R} {bodies : List (Body R)}
    {alphas : List R} {fonts : List (Nat × Nat)} {pageIds : List Nat} {pages : List (PageCalls R)}
    (h : DocInv F font d bodies alphas fonts pageIds pages) (hs : (d.write F).length ≤ 2 ^ 32) :
    ∃ n ps, (∀ fuel, n ≤ fuel → readDocument readReal fuel (d.write F) = some ⟨ps, fontsOf fonts, extOf alphas⟩) ∧
      AllMatch (PageMatches F readReal font alphas fonts) ps pages := by
  obtain ⟨n, ps, h1, h2⟩ := readPages_done hd h.objects h.plain hs h.done
  obtain ⟨n1, rest, r1⟩ := C11_trailer hd d.pdf d.basic
  obtain ⟨n2, r2⟩ := getDict_body hd h.objects hs (k := 0) rfl (pageTree_plain h)
  obtain ⟨n3, r3⟩ := getDict_body hd h.objects hs (k := 1) rfl (catalog_plain d)
  refine ⟨n + n1 + n2 + n3, ps, fun fuel hf => ?_, h2⟩
  have r2 := r2 fuel (by omega)
  rw [pageTree_values h] at r2
  exact readDocument_of (r1 fuel (by omega)) (r3 fuel (by omega)) rfl rfl r2 (h1 fuel (by omega))

end

end Verif.Pdf
