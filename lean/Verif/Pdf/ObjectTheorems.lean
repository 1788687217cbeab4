import Verif.Pdf.ObjectRead
/- C10: PDF objects are written so that they read back. -/
namespace Verif.Pdf

section
variable {R : Type} {readReal : List Byte → Option R} {dtoa : R → List Byte}

/-- C10 (partial: names without `#`, literal strings without carriage return, see `C10_violated_name` and
`C10_violated_literal`). What is written for an object, in any context where an object may end, is read by a PDF
reader as exactly that object, nesting included, and the reader stops exactly at the end of it. -/
theorem C10_roundtrip_partial (hd : RealText dtoa readReal) (o : Object R) (rest : List Byte) (hp : o.Plain)
    (hf : MayFollow readReal rest) :
    ∃ n, ∀ fuel, n ≤ fuel → readObj readReal fuel (o.write dtoa ++ rest) = some (o.value, rest) :=
  o.reads hd hp hf

/-- C10: two objects with the same bytes are the same value. -/
theorem C10_injective_partial (hd : RealText dtoa readReal) (o o' : Object R) (hp : o.Plain) (hp' : o'.Plain)
    (h : o.write dtoa = o'.write dtoa) : o.value = o'.value := by
  have hf : MayFollow readReal [] := ⟨(by intro b hb; cases hb), noRef_nil.not_r, noRef_nil.not_ref⟩
  obtain ⟨n, h1⟩ := C10_roundtrip_partial hd o [] hp hf
  obtain ⟨n', h2⟩ := C10_roundtrip_partial hd o' [] hp' hf
  have h1 := h1 (max n n') (by omega)
  have h2 := h2 (max n n') (by omega)
  rw [h, h2] at h1
  simp only [Option.some.injEq, Prod.mk.injEq, and_true] at h1
  exact h1.symm

/-- C10: what the writer puts after an object is a place where an object may end: the end of an array or of a
dictionary, a space and another object, a line end and `endobj` or `stream`. -/
theorem C10_contexts (hd : RealText dtoa readReal) (rest : List Byte) :
    MayFollow readReal (93 :: rest) ∧ MayFollow readReal (ascii " >>" ++ rest) ∧
    (∀ o : Object R, MayFollow readReal rest → MayFollow readReal (32 :: o.write dtoa ++ rest)) ∧
    MayFollow readReal (ascii "\nendobj\n" ++ rest) ∧ MayFollow readReal (ascii "\nstream\n" ++ rest) := by
  have nl : ∀ l : List Byte, ∀ b, (10 :: l).head? = some b → isRegular b = false := by
    intro l b hb; simp only [List.head?_cons, Option.some.injEq] at hb; subst hb; decide
  refine ⟨mayFollow_delim (by decide), ?_, ?_, ?_, ?_⟩
  · exact mayFollow_white (by decide) (mayFollow_delim (by decide)).noRef
  · intro o h
    rw [List.cons_append]
    exact mayFollow_white (by decide) (o.starts hd h).toNoRef
  · have e : ascii "\nendobj\n" ++ rest = 10 :: ([101, 110, 100, 111, 98, 106] ++ 10 :: rest) := rfl
    rw [e]
    exact mayFollow_white (by decide) (noRef_keyword (by simp)
      (by simp only [List.mem_cons, List.not_mem_nil, or_false]; rintro b (rfl | rfl | rfl | rfl | rfl | rfl) <;> decide)
      (nl _) (by decide) (by decide))
  · have e : ascii "\nstream\n" ++ rest = 10 :: ([115, 116, 114, 101, 97, 109] ++ 10 :: rest) := rfl
    rw [e]
    exact mayFollow_white (by decide) (noRef_keyword (by simp)
      (by simp only [List.mem_cons, List.not_mem_nil, or_false]; rintro b (rfl | rfl | rfl | rfl | rfl | rfl) <;> decide)
      (nl _) (by decide) (by decide))

/-- C10: a name reads back as itself exactly if it does not contain `#`. -/
theorem C10_name_roundtrip_iff (readReal : List Byte → Option R) (dtoa : R → List Byte) (n rest : List Byte)
    (hf : MayFollow readReal rest) :
    (∃ fuel, readObj readReal fuel ((Object.name n).write dtoa ++ rest) = some (.name n, rest)) ↔ 35 ∉ n := by
  have e := nextToken_name (readReal := readReal) (n := n) hf.delimited
  constructor
  · rintro ⟨fuel, h⟩ hc
    cases fuel with
    | zero => cases h
    | succ f =>
      simp only [Object.write] at h
      rw [readObj, e] at h
      cases hx : decodeName (writeNameBytes n) with
      | none => rw [hx] at h; cases h
      | some m =>
        rw [hx] at h
        simp only [Option.map_some, Option.some.injEq, Prod.mk.injEq, Val.name.injEq, and_true] at h
        exact decodeName_write_ne hc (by rw [hx, h])
  · intro h
    refine ⟨1, ?_⟩
    simp only [Object.write]
    rw [readObj, e, decodeName_write h]
    rfl

end

/-! ### A concrete float type: integers written `n.0` -/

/-- Floats that are whole numbers, written as `dtoa` writes them. -/
def dtoaWhole (i : Int) : List Byte := decimalInt i ++ [46, 48]

/-- Reads `n.0`. -/
def readWhole (t : List Byte) : Option Int :=
  match t.reverse with
  | 48 :: 46 :: r => readInt r.reverse
  | _ => none

theorem digitsValue_nondigit {t : List Byte} {b : Byte} (hb : b ∈ t) (hn : ¬ (48 ≤ b.val ∧ b.val ≤ 57)) :
    ∀ acc, digitsValue acc t = none := by
  induction t with
  | nil => cases hb
  | cons a t ih =>
    intro acc
    rw [digitsValue]
    split
    · next ha =>
      rcases List.mem_cons.1 hb with rfl | hb
      · exact absurd ha hn
      · exact ih hb _
    · rfl

theorem readInt_dot {t : List Byte} (hb : 46 ∈ t) : readInt t = none := by
  have hd : ∀ (l : List Byte) (acc : Nat), 46 ∈ l → digitsValue acc l = none :=
    fun l acc h => digitsValue_nondigit h (by decide) acc
  unfold readInt
  split
  · rw [hd]; · rfl
    · rcases List.mem_cons.1 hb with h | h
      · exact absurd h (by decide)
      · exact h
  · rw [hd]; · rfl
    · rcases List.mem_cons.1 hb with h | h
      · exact absurd h (by decide)
      · exact h
  · rw [hd _ _ hb]; rfl
  · rfl

theorem readInt_letter {b : Byte} (h : (65 ≤ b.val ∧ b.val ≤ 90) ∨ (97 ≤ b.val ∧ b.val ≤ 122)) (t : List Byte) :
    readInt (b :: t) = none := by
  have hn : ¬ (48 ≤ b.val ∧ b.val ≤ 57) := by omega
  have h45 : b ≠ 45 := by rintro rfl; revert h; decide
  have h43 : b ≠ 43 := by rintro rfl; revert h; decide
  unfold readInt
  split
  · next e => injection e with e _; exact absurd e h45
  · next e => injection e with e _; exact absurd e h43
  · next e => injection e with e e'; subst e; subst e'; rw [digitsValue_nondigit (b := b) (by simp) hn]; rfl
  · rfl

theorem realText_whole : RealText dtoaWhole readWhole where
  reads_back r := by
    simp only [readWhole, dtoaWhole, List.reverse_append]
    show readInt (decimalInt r).reverse.reverse = _
    rw [List.reverse_reverse, readInt_decimalInt]
  regular r b hb := by
    simp only [dtoaWhole, List.mem_append, List.mem_cons, List.not_mem_nil, or_false] at hb
    rcases hb with hb | rfl | rfl
    · exact decimalInt_regular r b hb
    · decide
    · decide
  not_int r := readInt_dot (by simp [dtoaWhole])
  not_empty r := by simp [dtoaWhole]
  letter b t h := by
    unfold readWhole
    split
    · next r e =>
      have e := congrArg List.reverse e
      rw [List.reverse_reverse, List.reverse_cons, List.reverse_cons] at e
      cases hr : r.reverse with
      | nil =>
        rw [hr] at e; simp only [List.nil_append, List.cons_append, List.cons.injEq] at e
        rw [e.1] at h; exact absurd h (by decide)
      | cons a l =>
        rw [hr] at e; simp only [List.cons_append, List.cons.injEq] at e
        rw [← e.1]
        exact readInt_letter h l
    · rfl

/-- A nested object with every kind of value. -/
def sampleObject : Object Int :=
  .dict (.linked (.root (.cons (ascii "Type") (.name (ascii "A B(c)")) .nil))
    (.cons (ascii "Kids") (.array (.cons (.usize 3) (.cons (.ref 7) (.cons (.usize 0) (.cons (.i32 (-5)) (.cons
        (.float 2) (.cons (.literal (ascii "(\\)")) (.cons (.hex [0, 255]) .nil))))))))
      (.cons (ascii "G") (.owned (.cons (ascii "a0") (.alpha 1) .nil)) .nil)))

/-- The hypotheses of `C10_roundtrip_partial` hold of a nested object with every kind of value. -/
theorem C10_example : sampleObject.Plain ∧ MayFollow readWhole (ascii "\nendobj\n") := by
  refine ⟨?_, ?_⟩
  · have k1 : ascii "Type" = [84, 121, 112, 101] := rfl
    have k2 : ascii "A B(c)" = [65, 32, 66, 40, 99, 41] := rfl
    have k3 : ascii "Kids" = [75, 105, 100, 115] := rfl
    have k4 : ascii "(\\)" = [40, 92, 41] := rfl
    have k5 : ascii "G" = [71] := rfl
    have k6 : ascii "a0" = [97, 48] := rfl
    simp only [sampleObject, Object.Plain, Dictionary.Plain, Pairs.Plain, Items.Plain, k1, k2, k3, k4, k5, k6]
    decide
  · have := (C10_contexts realText_whole []).2.2.2.1
    rwa [List.append_nil] at this

/-- C10 is violated for names that contain `#`: the name `#41` is written as it is, and reads back as `A`. -/
theorem C10_violated_name : ∃ n : List Byte,
    readObj readWhole 1 ((Object.name n).write dtoaWhole) = some (.name [65], []) ∧ n = ascii "#41" :=
  ⟨ascii "#41", rfl, rfl⟩

/-- C10 is violated for literal strings that contain a carriage return: it reads back as a line feed. -/
theorem C10_violated_literal : readObj readWhole 1 ((Object.literal [97, 13, 98]).write dtoaWhole) =
    some (.str [97, 10, 98], []) := rfl

end Verif.Pdf
