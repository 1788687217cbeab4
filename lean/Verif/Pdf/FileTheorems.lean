import Verif.Pdf.FileLemmas
/- C11 and C12: the file structure. -/
namespace Verif.Pdf

section
variable {R : Type} {readReal : List Byte → Option R} {dtoa : R → List Byte}

/-- C11 (partial: files of at most 4 GiB, see `C11_violated_large`). Reading a written file from its end, as PDF
readers do, finds a cross-reference table with one free entry and one entry per object, and following the entry of
object `k + 1` leads to the contents of that object, followed by `endobj`. -/
theorem C11_objects_found_partial (f : PdfFile) (basic : BasicObjects R) (h : (f.write dtoa basic).length ≤ 2 ^ 32)
    (k : Nat) (c : List Byte)
    (hc : ([basic.pageTree.write dtoa, basic.catalog.write dtoa, basic.info.write dtoa] ++ f.objects)[k]? = some c) :
    ∃ rest, objectAt (f.write dtoa basic) (k + 1) = some (c ++ ascii "\nendobj\n" ++ rest) :=
  objectAt_write dtoa f basic h k c hc

/-- C11: the table has entry 0 for the free object, and as many used entries as there are objects; nothing else is
found. -/
theorem C11_table (f : PdfFile) (basic : BasicObjects R) :
    ∃ es rest, readXref (f.write dtoa basic) = some (⟨0, 65535, false⟩ :: es, rest) ∧
      es.length = f.objects.length + 3 ∧ ∀ e ∈ es, e.inUse = true ∧ e.generation = 0 := by
  refine ⟨_, _, readXref_write dtoa f basic, ?_, ?_⟩
  · rw [List.length_map, offsetsOf_length]
    simp only [PdfFile.bodies, List.length_append, List.length_cons, List.length_nil]; omega
  · intro e he
    simp only [List.mem_map] at he
    obtain ⟨o, _, rfl⟩ := he
    exact ⟨rfl, rfl⟩

theorem trailer_plain (n : Nat) : (Object.dict (trailerDict n : Dictionary R)).Plain := by
  have k1 : ascii "Size" = [83, 105, 122, 101] := rfl
  have k2 : ascii "Root" = [82, 111, 111, 116] := rfl
  have k3 : ascii "Info" = [73, 110, 102, 111] := rfl
  simp only [trailerDict, Object.Plain, Dictionary.Plain, Pairs.Plain, k1, k2, k3]
  decide

theorem startxref_follow (rest : List Byte) : MayFollow readReal (ascii "\nstartxref\n" ++ rest) := by
  have e : ascii "\nstartxref\n" ++ rest = 10 :: ([115, 116, 97, 114, 116, 120, 114, 101, 102] ++ 10 :: rest) := rfl
  rw [e]
  refine mayFollow_white (by decide) (noRef_keyword (by simp) ?_ (head_cons (by decide)) (by decide) (by decide))
  simp only [List.mem_cons, List.not_mem_nil, or_false]
  rintro b (rfl | rfl | rfl | rfl | rfl | rfl | rfl | rfl | rfl) <;> decide

/-- C11: the trailer gives the number of entries of the table (objects and the free entry), and refers to the
catalog, object 2, and to the information dictionary, object 3. -/
theorem C11_trailer (hd : RealText dtoa readReal) (f : PdfFile) (basic : BasicObjects R) :
    ∃ n rest, ∀ fuel, n ≤ fuel → readTrailer readReal fuel (f.write dtoa basic) = some
      (.dict [(ascii "Size", .int (f.objects.length + 4 : Nat)), (ascii "Root", .ref 2 0), (ascii "Info", .ref 3 0)],
        rest) := by
  have hl : (f.bodies dtoa basic).length + 1 = f.objects.length + 4 := by
    simp only [PdfFile.bodies, List.length_append, List.length_cons, List.length_nil]; omega
  obtain ⟨n, h⟩ := C10_roundtrip_partial hd (Object.dict (trailerDict (f.objects.length + 4) : Dictionary R)) _
    (trailer_plain _) (startxref_follow (readReal := readReal) (decimal (fileHeader ++ indBytes 1 (f.bodies dtoa basic)).length ++
      ascii "\n%%EOF"))
  refine ⟨n, ascii "\nstartxref\n" ++ (decimal (fileHeader ++ indBytes 1 (f.bodies dtoa basic)).length ++
    ascii "\n%%EOF"), ?_⟩
  intro fuel hf
  unfold readTrailer
  rw [readXref_write, hl]
  exact h fuel hf

/-- C11 is violated for files over 4 GiB: whatever comes after an object of 4 GiB or more is not at the offset which
the table has for it, since offsets are truncated to 32 bits. -/
theorem C11_violated_large (f : PdfFile) (basic : BasicObjects R) (big c : List Byte) (hb : 2 ^ 32 ≤ big.length)
    (hf : f.objects = [big, c]) :
    ∃ es rest e pre post, readXref (f.write dtoa basic) = some (es, rest) ∧ es[5]? = some e ∧
      f.write dtoa basic = pre ++ (decimal 5 ++ ascii " 0 obj\n" ++ c ++ ascii "\nendobj\n") ++ post ∧
      pre.length ≠ e.offset := by
  have hc : (f.bodies dtoa basic)[4]? = some c := by rw [PdfFile.bodies, hf]; rfl
  have hbig : (f.bodies dtoa basic)[3]? = some big := by rw [PdfFile.bodies, hf]; rfl
  have e := f.write_eq dtoa basic
  have hlist : f.bodies dtoa basic = [basic.pageTree.write dtoa, basic.catalog.write dtoa, basic.info.write dtoa, big, c] := by
    rw [PdfFile.bodies, hf]; rfl
  have e5 : indBytes 1 (f.bodies dtoa basic) = indBytes 1 [basic.pageTree.write dtoa, basic.catalog.write dtoa,
      basic.info.write dtoa, big] ++ ind1 5 c := by
    rw [hlist]; simp only [indBytes, List.append_assoc, List.append_nil]
  have o5 : (offsetsOf fileHeader.length 1 (f.bodies dtoa basic))[4]? = some ((fileHeader.length + (indBytes 1
      [basic.pageTree.write dtoa, basic.catalog.write dtoa, basic.info.write dtoa, big]).length) % 2 ^ 32) := by
    rw [hlist]
    simp only [offsetsOf, indBytes, List.getElem?_cons_succ, List.getElem?_cons_zero, List.length_append,
      List.append_nil, Nat.add_assoc]
  obtain ⟨post, e⟩ : ∃ post, f.write dtoa basic = (fileHeader ++ indBytes 1 [basic.pageTree.write dtoa,
      basic.catalog.write dtoa, basic.info.write dtoa, big]) ++ ind1 5 c ++ post := by
    rw [e, e5]
    simp only [List.append_assoc]
    exact ⟨_, rfl⟩
  refine ⟨_, _, ⟨(fileHeader.length + (indBytes 1 [basic.pageTree.write dtoa, basic.catalog.write dtoa,
      basic.info.write dtoa, big]).length) % 2 ^ 32, 0, true⟩, fileHeader ++ indBytes 1 [basic.pageTree.write dtoa, basic.catalog.write dtoa,
      basic.info.write dtoa, big], post, readXref_write dtoa f basic, ?_, e, ?_⟩
  · simp only [List.getElem?_cons_succ, List.getElem?_map, o5, Option.map_some]
  · simp only
    have h1 := Nat.mod_lt (fileHeader.length + (indBytes 1
      [basic.pageTree.write dtoa, basic.catalog.write dtoa, basic.info.write dtoa, big]).length) (show 2 ^ 32 > 0 by decide)
    have h2 : big.length ≤ (indBytes 1
      [basic.pageTree.write dtoa, basic.catalog.write dtoa, basic.info.write dtoa, big]).length := by
      simp only [indBytes, ind1, List.length_append]; omega
    rw [List.length_append]
    omega

/-- Such a file exists. -/
theorem C11_violated_large_witness : ∃ (f : PdfFile) (big c : List Byte), 2 ^ 32 ≤ big.length ∧ f.objects = [big, c] :=
  ⟨⟨[List.replicate (2 ^ 32) 0, []], 6⟩, List.replicate (2 ^ 32) 0, [], by rw [List.length_replicate]; exact Nat.le_refl _, rfl⟩

theorem dictGet_append_last {l : List (List Byte × Val R)} {k : List Byte} {v : Val R} (h : ∀ e ∈ l, e.1 ≠ k) :
    dictGet (l ++ [(k, v)]) k = some v := by
  unfold dictGet
  rw [List.find?_append, List.find?_eq_none.2]
  · simp
  · intro e he; simp [h e he]

/-- C12: what is written for a stream reads back as a stream whose dictionary is the given one with the `Length`
entry added, and whose contents, delimited by that `Length`, are exactly the given bytes, whatever these are. The
contents are then followed by `endstream`. -/
theorem C12_stream (hd : RealText dtoa readReal) (d : Dictionary R) (contents rest : List Byte)
    (hp : d.Plain) (hk : ∀ e ∈ d.values, e.1 ≠ ascii "Length") :
    ∃ n, ∀ fuel, n ≤ fuel → readStream readReal fuel (streamBytes dtoa d contents ++ rest) = some
      (d.values ++ [(ascii "Length", .int contents.length)], contents, rest) := by
  have kl : (35 : Byte) ∉ ascii "Length" := by
    rw [show ascii "Length" = [76, 101, 110, 103, 116, 104] from rfl]; decide
  obtain ⟨n, h⟩ := C10_roundtrip_partial hd
    (Object.dict (.linked d (.cons (ascii "Length") (.usize contents.length) .nil)))
    (ascii "\nstream\n" ++ (contents ++ (ascii "\nendstream" ++ rest)))
    ⟨hp, kl, trivial, trivial⟩ (C10_contexts hd _).2.2.2.2
  refine ⟨n, ?_⟩
  intro fuel hf
  have h := h fuel hf
  have e : streamBytes dtoa d contents ++ rest =
      (Object.dict (.linked d (.cons (ascii "Length") (.usize contents.length) .nil))).write dtoa ++
      (ascii "\nstream\n" ++ (contents ++ (ascii "\nendstream" ++ rest))) := by
    simp only [streamBytes, Dictionary.write, Object.write, List.append_assoc]
  unfold readStream
  rw [e, h]
  simp only [Object.value, Dictionary.values, Pairs.values, dictGet_append_last hk, stripPrefix_append,
    Option.bind_eq_bind, Option.bind_some, Int.toNat_natCast, List.drop_left, List.take_left]
  rw [if_pos (by simp)]
  rfl

/-- A file with a stream object whose contents look like the end of a stream. -/
theorem C12_example : (Dictionary.root (.cons (ascii "Length1") (.usize 3) .nil) : Dictionary Int).Plain ∧
    (∀ e ∈ (Dictionary.root (.cons (ascii "Length1") (.usize 3) .nil) : Dictionary Int).values, e.1 ≠ ascii "Length") ∧
    readStream readWhole 10 (streamBytes dtoaWhole (.root .nil) (ascii "\nendstream\nendobj") ++ ascii "\nendobj\n") =
      some ([(ascii "Length", .int 17)], ascii "\nendstream\nendobj", ascii "\nendobj\n") := by
  have k1 : ascii "Length1" = [76, 101, 110, 103, 116, 104, 49] := rfl
  have k2 : ascii "Length" = [76, 101, 110, 103, 116, 104] := rfl
  refine ⟨?_, ?_, ?_⟩
  · simp only [Dictionary.Plain, Pairs.Plain, k1]; exact ⟨by decide, trivial, trivial⟩
  · intro e he
    simp only [Dictionary.values, Pairs.values, List.mem_singleton] at he
    subst he
    simp only [k1, k2]; decide
  · rfl

/-- The hypothesis of `C11_objects_found_partial` holds of a file with two objects. -/
def sampleFile : PdfFile := ((PdfFile.new.addStream dtoaWhole (.root .nil) (ascii "q Q")).1.addDictionary dtoaWhole
  (.root (.cons (ascii "Contents") (.ref 4) .nil))).1

def sampleBasic : BasicObjects Int := ⟨.root .nil, .root (.cons (ascii "Pages") (.ref 1) .nil), .root .nil⟩

theorem C11_example : (sampleFile.write dtoaWhole sampleBasic).length ≤ 2 ^ 32 ∧
    objectAt (sampleFile.write dtoaWhole sampleBasic) 5 = some (ascii "<< /Contents 4 0 R >>" ++ ascii "\nendobj\n" ++
      (sampleFile.write dtoaWhole sampleBasic).drop 180) := by
  decide +kernel

end

end Verif.Pdf
