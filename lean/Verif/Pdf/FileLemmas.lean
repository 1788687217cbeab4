import Verif.Pdf.File
import Verif.Pdf.FileSpec
import Verif.Pdf.ObjectTheorems
/- Helper lemmas for C11 and C12. -/
namespace Verif.Pdf

theorem stripPrefix_append (p bs : List Byte) : stripPrefix p (p ++ bs) = some bs := by
  induction p with
  | nil => cases bs <;> rfl
  | cons a p ih => simp only [List.cons_append, stripPrefix, if_true, ih]

theorem decimal_isDigit (n : Nat) : ∀ b ∈ decimal n, isDigit b = true := by
  intro b hb
  have := decimal_digits n b hb
  simp [isDigit, this]

theorem readNumber_decimal (n : Nat) {rest : List Byte} (hr : ∀ b, rest.head? = some b → isDigit b = false) :
    readNumber (decimal n ++ rest) = some (n, rest) := by
  obtain ⟨h1, h2⟩ := takeWhile_append_sep (decimal_isDigit n) hr
  unfold readNumber
  rw [h1, h2]
  split
  · next h => exact absurd h (decimal_ne_nil n)
  · rw [digitsValue_decimal]; rfl

theorem head_cons {p : Byte → Bool} {a : Byte} {l : List Byte} (h : p a = false) :
    ∀ b, (a :: l).head? = some b → p b = false := by
  intro b hb; simp only [List.head?_cons, Option.some.injEq] at hb; subst hb; exact h

theorem readStartXref_end (x : List Byte) (n : Nat) :
    readStartXref (x ++ ascii "\nstartxref\n" ++ decimal n ++ ascii "\n%%EOF") = some n := by
  have e : (x ++ ascii "\nstartxref\n" ++ decimal n ++ ascii "\n%%EOF").reverse =
      (ascii "\n%%EOF").reverse ++ ((decimal n).reverse ++ ((ascii "\nstartxref\n").reverse ++ x.reverse)) := by
    simp only [List.reverse_append, List.append_assoc]
  have hs : ∀ b, ((ascii "\nstartxref\n").reverse ++ x.reverse).head? = some b → isDigit b = false :=
    head_cons (a := 10) (by decide)
  obtain ⟨h1, h2⟩ := takeWhile_append_sep (t := (decimal n).reverse) (p := isDigit)
    (by intro b hb; exact decimal_isDigit n b (List.mem_reverse.1 hb)) hs
  have h3 := readNumber_decimal n (rest := []) (by intro b hb; cases hb)
  rw [List.append_nil] at h3
  unfold readStartXref
  rw [e, stripPrefix_append]
  simp only [Option.bind_eq_bind, Option.bind_some, h1, h2, List.reverse_reverse, stripPrefix_append, h3]
  rfl

/-! ### The cross-reference table -/

theorem zeroPadded_length (k v : Nat) : (zeroPadded k v).length = k := by
  induction k generalizing v with
  | zero => rfl
  | succ k ih => simp [zeroPadded, ih]

theorem digitsValue_zeroPadded (k v : Nat) : digitsValue 0 (zeroPadded k v) = some (v % 10 ^ k) := by
  induction k generalizing v with
  | zero => simp only [zeroPadded, digitsValue, Nat.pow_zero, Nat.mod_one]
  | succ k ih =>
    rw [zeroPadded, digitsValue_append, ih]
    simp only [Option.bind_some]
    rw [digitsValue_digit, Nat.pow_succ, Nat.mul_comm (10 ^ k) 10, Nat.mod_mul]
    congr 1
    omega

theorem readXrefEntry_used (o : Nat) (h : o < 10 ^ 10) :
    readXrefEntry (zeroPadded 10 o ++ ascii " 00000 n \n") = some ⟨o, 0, true⟩ := by
  have hl := zeroPadded_length 10 o
  have h10 : (zeroPadded 10 o ++ ascii " 00000 n \n").drop 10 = ascii " 00000 n \n" := List.drop_left' hl
  have ht : (zeroPadded 10 o ++ ascii " 00000 n \n").take 10 = zeroPadded 10 o := List.take_left' hl
  have hk : ∀ k, (zeroPadded 10 o ++ ascii " 00000 n \n").drop (10 + k) = (ascii " 00000 n \n").drop k := by
    intro k; rw [← List.drop_drop, h10]
  have e11 := hk 1
  have e16 := hk 6
  have e17 := hk 7
  have e18 := hk 8
  have hlen : (zeroPadded 10 o ++ ascii " 00000 n \n").length = 20 := by rw [List.length_append, hl]; rfl
  unfold readXrefEntry
  simp only [Nat.reduceAdd] at e11 e16 e17 e18
  rw [h10, ht, e11, e16, e17, e18, hlen, digitsValue_zeroPadded, Nat.mod_eq_of_lt h]
  rfl

theorem readXrefEntry_free : readXrefEntry (ascii "0000000000 65535 f \n") = some ⟨0, 65535, false⟩ := by decide

theorem readXrefEntries_used (offs : List Nat) (rest : List Byte) (h : ∀ o ∈ offs, o < 10 ^ 10) :
    readXrefEntries offs.length (xrefEntries offs ++ rest) = some (offs.map fun o => ⟨o, 0, true⟩, rest) := by
  induction offs with
  | nil => rfl
  | cons o os ih =>
    have ih := ih (fun o ho => h o (by simp [ho]))
    have hl : (zeroPadded 10 o ++ ascii " 00000 n \n").length = 20 := by
      rw [List.length_append, zeroPadded_length]; rfl
    have e : xrefEntries (o :: os) ++ rest = (zeroPadded 10 o ++ ascii " 00000 n \n") ++ (xrefEntries os ++ rest) := by
      simp only [xrefEntries, List.append_assoc]
    simp only [List.length_cons, readXrefEntries]
    rw [e, List.take_left' hl, List.drop_left' hl, readXrefEntry_used o (h o (by simp)), ih]
    rfl

/-! ### Objects -/

/-- The bytes of one indirect object. -/
def ind1 (id : Nat) (c : List Byte) : List Byte := decimal id ++ ascii " 0 obj\n" ++ c ++ ascii "\nendobj\n"

/-- The bytes of the indirect objects from number `id` on. -/
def indBytes : Nat → List (List Byte) → List Byte
  | _, [] => []
  | id, c :: cs => ind1 id c ++ indBytes (id + 1) cs

/-- Their offsets if the first is at `n`. -/
def offsetsOf : Nat → Nat → List (List Byte) → List Nat
  | _, _, [] => []
  | n, id, c :: cs => n % 2 ^ 32 :: offsetsOf (n + (ind1 id c).length) (id + 1) cs

theorem writeAllIndirect_eq (w : Counting) (id : Nat) (cs : List (List Byte)) : writeAllIndirect w id cs =
    (⟨w.out ++ indBytes id cs, w.count + (indBytes id cs).length⟩, offsetsOf w.count id cs) := by
  induction cs generalizing w id with
  | nil => simp only [writeAllIndirect, indBytes, offsetsOf, List.append_nil, List.length_nil, Nat.add_zero]
  | cons c cs ih =>
    simp only [writeAllIndirect, writeIndirect, ih, Counting.writeAll, indBytes, offsetsOf, ind1, List.append_assoc,
      List.length_append, Nat.add_assoc]

theorem indBytes_append (id : Nat) (a b : List (List Byte)) :
    indBytes id (a ++ b) = indBytes id a ++ indBytes (id + a.length) b := by
  induction a generalizing id with
  | nil => rfl
  | cons c a ih =>
    simp only [List.cons_append, indBytes, ih, List.append_assoc, List.length_cons]
    rw [show id + 1 + a.length = id + (a.length + 1) by omega]

theorem offsetsOf_append (n id : Nat) (a b : List (List Byte)) :
    offsetsOf n id (a ++ b) = offsetsOf n id a ++ offsetsOf (n + (indBytes id a).length) (id + a.length) b := by
  induction a generalizing n id with
  | nil => rfl
  | cons c a ih =>
    simp only [List.cons_append, indBytes, offsetsOf, ih, List.length_cons, List.length_append]
    rw [show id + 1 + a.length = id + (a.length + 1) by omega, Nat.add_assoc]

theorem offsetsOf_length (n id : Nat) (cs : List (List Byte)) : (offsetsOf n id cs).length = cs.length := by
  induction cs generalizing n id with
  | nil => rfl
  | cons c cs ih => simp only [offsetsOf, List.length_cons, ih]

theorem offsetsOf_lt (n id : Nat) (cs : List (List Byte)) : ∀ o ∈ offsetsOf n id cs, o < 10 ^ 10 := by
  induction cs generalizing n id with
  | nil => intro o ho; cases ho
  | cons c cs ih =>
    intro o ho
    simp only [offsetsOf, List.mem_cons] at ho
    rcases ho with rfl | ho
    · have := Nat.mod_lt n (show 2 ^ 32 > 0 by decide)
      exact Nat.lt_trans this (by decide)
    · exact ih _ _ o ho

theorem offsetsOf_get (n id : Nat) (cs : List (List Byte)) (k : Nat) (c : List Byte) (h : cs[k]? = some c) :
    ∃ pre post, indBytes id cs = pre ++ ind1 (id + k) c ++ post ∧
      (offsetsOf n id cs)[k]? = some ((n + pre.length) % 2 ^ 32) := by
  induction cs generalizing n id k with
  | nil => cases h
  | cons a cs ih =>
    cases k with
    | zero =>
      simp only [List.getElem?_cons_zero, Option.some.injEq] at h
      subst h
      exact ⟨[], indBytes (id + 1) cs, rfl, rfl⟩
    | succ k =>
      simp only [List.getElem?_cons_succ] at h
      obtain ⟨pre, post, h1, h2⟩ := ih (n + (ind1 id a).length) (id + 1) k h
      refine ⟨ind1 id a ++ pre, post, ?_, ?_⟩
      · simp only [indBytes, h1, List.append_assoc]
        rw [show id + 1 + k = id + (k + 1) by omega]
      · simp only [offsetsOf, List.getElem?_cons_succ, h2, List.length_append, Nat.add_assoc]

section
variable {R : Type} (dtoa : R → List Byte)

/-- The contents of all objects of a file, in the order of their numbers from 1. -/
def PdfFile.bodies (f : PdfFile) (basic : BasicObjects R) : List (List Byte) :=
  [basic.pageTree.write dtoa, basic.catalog.write dtoa, basic.info.write dtoa] ++ f.objects

theorem PdfFile.writeObjects_eq (f : PdfFile) (basic : BasicObjects R) : f.writeObjects dtoa basic =
    (⟨fileHeader ++ indBytes 1 (f.bodies dtoa basic), fileHeader.length + (indBytes 1 (f.bodies dtoa basic)).length⟩,
      offsetsOf fileHeader.length 1 (f.bodies dtoa basic)) := by
  unfold PdfFile.writeObjects PdfFile.bodies
  rw [indBytes_append, offsetsOf_append]
  simp only [writeAllIndirect_eq, Counting.writeAll, List.nil_append, Nat.zero_add, List.append_assoc,
    List.length_append, Nat.add_assoc]
  rfl

theorem PdfFile.write_eq (f : PdfFile) (basic : BasicObjects R) : f.write dtoa basic =
    (fileHeader ++ indBytes 1 (f.bodies dtoa basic)) ++ ascii "xref\n0 " ++ decimal ((f.bodies dtoa basic).length + 1) ++
      ascii "\n0000000000 65535 f \n" ++ xrefEntries (offsetsOf fileHeader.length 1 (f.bodies dtoa basic)) ++
      ascii "trailer\n" ++ (trailerDict ((f.bodies dtoa basic).length + 1) : Dictionary R).write dtoa ++
      ascii "\nstartxref\n" ++ decimal (fileHeader ++ indBytes 1 (f.bodies dtoa basic)).length ++ ascii "\n%%EOF" := by
  unfold PdfFile.write
  rw [f.writeObjects_eq]
  have : firstAvailableId - firstId + f.objects.length = (f.bodies dtoa basic).length := by
    simp only [firstAvailableId, firstId, PdfFile.bodies, List.length_append, List.length_cons, List.length_nil]
  simp only [this, List.length_append]

theorem readXref_write (f : PdfFile) (basic : BasicObjects R) : readXref (f.write dtoa basic) = some
    (⟨0, 65535, false⟩ :: (offsetsOf fileHeader.length 1 (f.bodies dtoa basic)).map fun o => ⟨o, 0, true⟩,
      (trailerDict ((f.bodies dtoa basic).length + 1) : Dictionary R).write dtoa ++ (ascii "\nstartxref\n" ++
        (decimal (fileHeader ++ indBytes 1 (f.bodies dtoa basic)).length ++ ascii "\n%%EOF"))) := by
  have e := f.write_eq dtoa basic
  have hs : readStartXref (f.write dtoa basic) = some (fileHeader ++ indBytes 1 (f.bodies dtoa basic)).length := by
    rw [e]; exact readStartXref_end _ _
  simp only [List.append_assoc] at e
  rw [← List.append_assoc fileHeader] at e
  unfold readXref
  rw [hs]
  simp only [Option.bind_eq_bind, Option.bind_some]
  rw [e, List.drop_left, stripPrefix_append]
  simp only [Option.bind_some]
  have e1 : ascii "\n0000000000 65535 f \n" = ascii "\n" ++ ascii "0000000000 65535 f \n" := rfl
  rw [readNumber_decimal _ (by rw [e1]; exact head_cons (by decide))]
  simp only [Option.bind_some]
  rw [e1, List.append_assoc, stripPrefix_append]
  simp only [Option.bind_some, readXrefEntries]
  have hl : (ascii "0000000000 65535 f \n").length = 20 := rfl
  rw [List.take_left' hl, List.drop_left' hl, readXrefEntry_free]
  have := readXrefEntries_used (offsetsOf fileHeader.length 1 (f.bodies dtoa basic)) (ascii "trailer\n" ++
    ((trailerDict ((f.bodies dtoa basic).length + 1) : Dictionary R).write dtoa ++ (ascii "\nstartxref\n" ++
        (decimal (fileHeader ++ indBytes 1 (f.bodies dtoa basic)).length ++ ascii "\n%%EOF")))) (offsetsOf_lt _ _ _)
  rw [offsetsOf_length] at this
  rw [this]
  simp only [Option.bind_eq_bind, Option.bind_some, Option.pure_def, stripPrefix_append]

theorem objectAt_write (f : PdfFile) (basic : BasicObjects R) (h : (f.write dtoa basic).length ≤ 2 ^ 32) (k : Nat)
    (c : List Byte) (hc : (f.bodies dtoa basic)[k]? = some c) :
    ∃ rest, objectAt (f.write dtoa basic) (k + 1) = some (c ++ ascii "\nendobj\n" ++ rest) := by
  obtain ⟨pre, post, h1, h2⟩ := offsetsOf_get fileHeader.length 1 _ k c hc
  have e := f.write_eq dtoa basic
  rw [h1] at e
  simp only [List.append_assoc] at e
  rw [← List.append_assoc fileHeader] at e
  have hlt : fileHeader.length + pre.length < 2 ^ 32 := by
    have := congrArg List.length e
    rw [List.length_append, List.length_append] at this
    have hp : 0 < (ind1 (1 + k) c).length := by
      have := List.length_pos_iff.2 (decimal_ne_nil (1 + k))
      simp only [ind1, List.length_append]; omega
    simp only [List.length_append] at this
    omega
  rw [Nat.mod_eq_of_lt hlt] at h2
  obtain ⟨tail, e⟩ : ∃ tail, f.write dtoa basic = fileHeader ++ pre ++ (ind1 (1 + k) c ++ tail) := ⟨_, e⟩
  refine ⟨tail, ?_⟩
  unfold objectAt
  rw [readXref_write]
  simp only [Option.bind_eq_bind, Option.bind_some, List.getElem?_cons_succ, List.getElem?_map, h2, Option.map_some,
    and_self, if_true]
  rw [e, show fileHeader.length + pre.length = (fileHeader ++ pre).length by rw [List.length_append], List.drop_left]
  simp only [ind1, List.append_assoc]
  rw [readNumber_decimal _ (rest := ascii " 0 obj\n" ++ (c ++ (ascii "\nendobj\n" ++ tail))) (head_cons (a := 32) (by decide))]
  simp only [Option.bind_some]
  rw [if_pos (by omega), stripPrefix_append]

end

end Verif.Pdf
