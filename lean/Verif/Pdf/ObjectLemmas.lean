import Verif.Pdf.ObjectSpec
/- Lemmas about reading back written tokens. -/
namespace Verif.Pdf

theorem takeWhile_append_sep {p : Byte → Bool} {t rest : List Byte} (ht : ∀ b ∈ t, p b = true)
    (hr : ∀ b, rest.head? = some b → p b = false) :
    (t ++ rest).takeWhile p = t ∧ (t ++ rest).dropWhile p = rest := by
  induction t with
  | nil =>
    cases rest with
    | nil => exact ⟨rfl, rfl⟩
    | cons b r => have := hr b rfl; simp [this]
  | cons a t ih =>
    have ha := ht a (by simp)
    obtain ⟨h1, h2⟩ := ih (fun b hb => ht b (by simp [hb]))
    simp [ha, h1, h2]

theorem isRegular_not_white {b : Byte} (h : isRegular b = true) : isWhite b = false := by
  simp [isRegular] at h; exact h.1

theorem isRegular_not_delim {b : Byte} (h : isRegular b = true) : isDelim b = false := by
  simp [isRegular] at h; exact h.2

theorem dropWhile_nonwhite {b : Byte} {r : List Byte} (h : isWhite b = false) :
    (b :: r).dropWhile isWhite = b :: r := by simp [h]

section
variable {R : Type} {readReal : List Byte → Option R}

theorem nextToken_space (bs : List Byte) : nextToken readReal (32 :: bs) = nextToken readReal bs := by
  unfold nextToken
  have : (32 :: bs : List Byte).dropWhile isWhite = bs.dropWhile isWhite := by
    rw [List.dropWhile_cons, if_pos (by decide)]
  rw [this]

/-- A token made of regular characters. -/
theorem nextToken_regular {t rest : List Byte} (hne : t ≠ []) (ht : ∀ b ∈ t, isRegular b = true)
    (hr : ∀ b, rest.head? = some b → isRegular b = false) :
    nextToken readReal (t ++ rest) = match readInt t with
      | some i => some (.int i, rest)
      | none => match readReal t with
        | some x => some (.real x, rest)
        | none => some (.keyword t, rest) := by
  cases t with
  | nil => exact absurd rfl hne
  | cons a t =>
    have ha := ht a (by simp)
    obtain ⟨h1, h2⟩ := takeWhile_append_sep ht hr
    have hd := isRegular_not_delim ha
    unfold nextToken
    rw [List.cons_append, dropWhile_nonwhite (isRegular_not_white ha)]
    rw [List.cons_append] at h1 h2
    split
    · next h => cases h
    · next h => cases h; exact absurd hd (by decide)
    · next h => cases h; exact absurd hd (by decide)
    · next h => injection h with h _; subst h; exact absurd hd (by decide)
    · next h => injection h with h _; subst h; exact absurd hd (by decide)
    · next h => injection h with h _; subst h; exact absurd hd (by decide)
    · next h => cases h; exact absurd hd (by decide)
    · next h => cases h; exact absurd hd (by decide)
    · next h =>
      injection h with h h'
      subst h; subst h'
      rw [h1, h2, hd]
      rfl

set_option maxRecDepth 10000 in
theorem digit_isRegular {b : Byte} (h : 48 ≤ b.val ∧ b.val ≤ 57) : isRegular b = true := by
  revert h; revert b; decide

theorem decimal_regular (n : Nat) : ∀ b ∈ decimal n, isRegular b = true :=
  fun b hb => digit_isRegular (decimal_digits n b hb)

theorem readInt_digits {t : List Byte} (hne : t ≠ []) (ht : ∀ b ∈ t, 48 ≤ b.val ∧ b.val ≤ 57) :
    readInt t = (digitsValue 0 t).map fun n : Nat => (n : Int) := by
  cases t with
  | nil => exact absurd rfl hne
  | cons a t =>
    have ha := ht a (by simp)
    have h45 : a ≠ 45 := by rintro rfl; revert ha; decide
    have h43 : a ≠ 43 := by rintro rfl; revert ha; decide
    unfold readInt
    split
    · next h => cases h; exact absurd rfl h45
    · next h => cases h; exact absurd rfl h43
    · next h => cases h; rfl
    · next h => cases h

theorem readInt_decimal (n : Nat) : readInt (decimal n) = some (n : Int) := by
  rw [readInt_digits (decimal_ne_nil n) (decimal_digits n), digitsValue_decimal]; rfl

theorem readInt_decimalInt (i : Int) : readInt (decimalInt i) = some i := by
  unfold decimalInt
  split
  · next h =>
    obtain ⟨a, t, e⟩ : ∃ a t, decimal i.natAbs = a :: t := by
      cases e : decimal i.natAbs with
      | nil => exact absurd e (decimal_ne_nil _)
      | cons a t => exact ⟨a, t, rfl⟩
    have := digitsValue_decimal i.natAbs
    rw [e] at this ⊢
    have hi : -((i.natAbs : Nat) : Int) = i := by omega
    rw [readInt, this, Option.map_some, hi]
  · rw [readInt_decimal]; congr 1; omega

theorem decimalInt_regular (i : Int) : ∀ b ∈ decimalInt i, isRegular b = true := by
  intro b hb
  unfold decimalInt at hb
  split at hb
  · simp only [List.mem_cons] at hb
    rcases hb with rfl | hb
    · decide
    · exact decimal_regular _ b hb
  · exact decimal_regular _ b hb

theorem decimalInt_ne_nil (i : Int) : decimalInt i ≠ [] := by
  unfold decimalInt; split
  · simp
  · exact decimal_ne_nil _

theorem nextToken_decimalInt (i : Int) {rest : List Byte} (hr : ∀ b, rest.head? = some b → isRegular b = false) :
    nextToken readReal (decimalInt i ++ rest) = some (.int i, rest) := by
  rw [nextToken_regular (decimalInt_ne_nil i) (decimalInt_regular i) hr, readInt_decimalInt]

theorem nextToken_decimal (n : Nat) {rest : List Byte} (hr : ∀ b, rest.head? = some b → isRegular b = false) :
    nextToken readReal (decimal n ++ rest) = some (.int n, rest) := by
  rw [nextToken_regular (decimal_ne_nil n) (decimal_regular n) hr, readInt_decimal]

theorem nextToken_real {dtoa : R → List Byte} (hd : RealText dtoa readReal) (r : R) {rest : List Byte}
    (hr : ∀ b, rest.head? = some b → isRegular b = false) :
    nextToken readReal (dtoa r ++ rest) = some (.real r, rest) := by
  rw [nextToken_regular (hd.not_empty r) (hd.regular r) hr, hd.not_int, hd.reads_back]

/-! ### Names -/

set_option maxRecDepth 10000 in
/-- The table of the code agrees with the character classes of the specification. -/
theorem kind_spec : ∀ b : Byte, (kind b = .whitespace ↔ isWhite b = true) ∧
    (kind b = .delimiter ↔ isDelim b = true) ∧ (kind b = .regular ↔ isRegular b = true) := by decide

theorem writeHex_reads : ∀ b : Byte, ∃ x y h l, writeHex b = [x, y] ∧ hexValue x = some h ∧ hexValue y = some l ∧
    Fin.ofNat 256 (h * 16 + l) = b ∧ isRegular x = true ∧ isRegular y = true ∧ x ≠ 62 ∧ y ≠ 62 ∧
    isWhite x = false ∧ isWhite y = false ∧ (x ≠ 35 ∧ y ≠ 35) := by
  intro b
  have key : ∀ n : Fin 16, ∃ h, hexValue (hexDigit n.val) = some h ∧ h = n.val ∧ isRegular (hexDigit n.val) = true ∧
      hexDigit n.val ≠ 62 ∧ isWhite (hexDigit n.val) = false ∧ hexDigit n.val ≠ 35 := by
    intro n
    have : ∀ n : Fin 16, hexValue (hexDigit n.val) = some n.val ∧ isRegular (hexDigit n.val) = true ∧
      hexDigit n.val ≠ 62 ∧ isWhite (hexDigit n.val) = false ∧ hexDigit n.val ≠ 35 := by decide
    obtain ⟨h1, h2, h3, h4, h5⟩ := this n
    exact ⟨_, h1, rfl, h2, h3, h4, h5⟩
  have hb := b.isLt
  obtain ⟨h, h1, h2, h3, h4, h5, h6⟩ := key ⟨b.val / 16, by omega⟩
  obtain ⟨l, l1, l2, l3, l4, l5, l6⟩ := key ⟨b.val % 16, by omega⟩
  refine ⟨_, _, h, l, rfl, h1, l1, ?_, h3, l3, h4, l4, h5, l5, h6, l6⟩
  apply Fin.ext
  simp only [Fin.ofNat, h2, l2]
  omega

theorem writeNameBytes_regular (n : List Byte) : ∀ b ∈ writeNameBytes n, isRegular b = true := by
  induction n with
  | nil => intro b hb; cases hb
  | cons a n ih =>
    intro b hb
    simp only [writeNameBytes, List.mem_append] at hb
    rcases hb with hb | hb
    · obtain ⟨x, y, h, l, e, _, _, _, hx, hy, _⟩ := writeHex_reads a
      cases hk : kind a with
      | regular =>
        rw [hk] at hb
        simp only [List.mem_singleton] at hb
        subst hb
        exact (kind_spec b).2.2.1 hk
      | whitespace =>
        rw [hk] at hb
        simp only [e, List.mem_cons, List.not_mem_nil, or_false] at hb
        rcases hb with rfl | rfl | rfl
        · decide
        · exact hx
        · exact hy
      | delimiter =>
        rw [hk] at hb
        simp only [e, List.mem_cons, List.not_mem_nil, or_false] at hb
        rcases hb with rfl | rfl | rfl
        · decide
        · exact hx
        · exact hy
    · exact ih b hb

theorem decodeName_cons_ne {b : Byte} (hb : b ≠ 35) (bs : List Byte) :
    decodeName (b :: bs) = (decodeName bs).map (b :: ·) := by
  rw [decodeName]
  · simp only [hb, if_false]
    cases decodeName bs <;> rfl
  · rintro x y bs' h; exact absurd h hb

theorem decodeName_escape (b : Byte) (bs : List Byte) :
    decodeName (35 :: writeHex b ++ bs) = (decodeName bs).map (b :: ·) := by
  obtain ⟨x, y, h, l, e, h1, h2, h3, _⟩ := writeHex_reads b
  rw [e]
  simp only [List.cons_append, List.nil_append, decodeName, h1, h2, Option.bind_eq_bind, Option.bind_some, h3]
  cases decodeName bs <;> rfl

theorem kind_hash : kind 35 = .regular := by decide

theorem decodeName_write {n : List Byte} (h : 35 ∉ n) : decodeName (writeNameBytes n) = some n := by
  induction n with
  | nil => rfl
  | cons b n ih =>
    have ih := ih (fun hc => h (by simp [hc]))
    have hb : b ≠ 35 := fun hc => h (by simp [hc])
    simp only [writeNameBytes]
    cases hk : kind b with
    | regular =>
      simp only [List.cons_append, List.nil_append]
      rw [decodeName_cons_ne hb, ih]; rfl
    | whitespace => simp only []; rw [decodeName_escape, ih]; rfl
    | delimiter => simp only []; rw [decodeName_escape, ih]; rfl

theorem decodeName_length : ∀ w m : List Byte, decodeName w = some m → m.length + 2 * w.count 35 = w.length := by
  intro w
  fun_induction decodeName w with
  | case1 => intro m h; cases h; rfl
  | case2 x y bs ih =>
    intro m h
    cases hx : hexValue x with
    | none => rw [hx] at h; cases h
    | some a => cases hy : hexValue y with
      | none => rw [hx, hy] at h; cases h
      | some b => cases hr : decodeName bs with
        | none => rw [hx, hy, hr] at h; cases h
        | some r =>
          rw [hx, hy, hr] at h
          simp only [Option.bind_eq_bind, Option.bind_some, pure, Option.some.injEq] at h
          subst h
          have := ih r hr
          have hx' : x ≠ 35 := by rintro rfl; rw [show hexValue 35 = none from by decide] at hx; cases hx
          have hy' : y ≠ 35 := by rintro rfl; rw [show hexValue 35 = none from by decide] at hy; cases hy
          simp only [List.length_cons, List.count_cons_self, List.count_cons_of_ne hx', List.count_cons_of_ne hy']
          omega
  | case3 bs => intro m h; cases h
  | case4 b bs h1 hb ih =>
    intro m h
    cases hr : decodeName bs with
    | none => rw [hr] at h; cases h
    | some r =>
      rw [hr] at h
      simp only [Option.bind_eq_bind, Option.bind_some, pure, Option.some.injEq] at h
      subst h
      have := ih r hr
      simp only [List.length_cons, List.count_cons_of_ne hb]
      omega

theorem writeNameBytes_length (n : List Byte) :
    (writeNameBytes n).length + 2 * n.count 35 = n.length + 2 * (writeNameBytes n).count 35 := by
  induction n with
  | nil => rfl
  | cons b n ih =>
    obtain ⟨x, y, h, l, e, _, _, _, _, _, _, _, _, _, hx, hy⟩ := writeHex_reads b
    have esc : b ≠ 35 → (35 :: writeHex b ++ writeNameBytes n).length + 2 * (b :: n).count 35 =
        (b :: n).length + 2 * (35 :: writeHex b ++ writeNameBytes n).count 35 := by
      intro hb
      rw [e]
      simp only [List.cons_append, List.nil_append, List.length_cons, List.count_cons_of_ne hb,
        List.count_cons_self, List.count_cons_of_ne hx, List.count_cons_of_ne hy]
      omega
    simp only [writeNameBytes]
    cases hk : kind b with
    | regular =>
      simp only [List.cons_append, List.nil_append, List.length_cons]
      by_cases hb : b = 35
      · subst hb; simp only [List.count_cons_self]; omega
      · simp only [List.count_cons_of_ne hb]; omega
    | whitespace => exact esc (by rintro rfl; rw [kind_hash] at hk; cases hk)
    | delimiter => exact esc (by rintro rfl; rw [kind_hash] at hk; cases hk)

/-- A name with a `#` never reads back as itself. -/
theorem decodeName_write_ne {n : List Byte} (h : 35 ∈ n) : decodeName (writeNameBytes n) ≠ some n := by
  intro hc
  have h1 := decodeName_length _ _ hc
  have h2 := writeNameBytes_length n
  have h3 := List.count_pos_iff.2 h
  omega

theorem nextToken_name {n rest : List Byte} (hr : ∀ b, rest.head? = some b → isRegular b = false) :
    nextToken readReal (writeName n ++ rest) = (decodeName (writeNameBytes n)).map fun m => (.name m, rest) := by
  obtain ⟨h1, h2⟩ := takeWhile_append_sep (writeNameBytes_regular n) hr
  unfold nextToken writeName
  rw [List.cons_append, dropWhile_nonwhite (by decide)]
  simp only [h1, h2]

/-! ### Strings -/

theorem readLiteral_write {s rest : List Byte} (h : 13 ∉ s) :
    readLiteral .plain 0 (writeLiteralBytes s ++ 41 :: rest) = some (s, rest) := by
  induction s with
  | nil => rfl
  | cons b s ih =>
    have ih := ih (fun hc => h (by simp [hc]))
    have hb : b ≠ 13 := fun hc => h (by simp [hc])
    simp only [writeLiteralBytes]
    by_cases hc : b = 92 ∨ b = 40 ∨ b = 41
    · rw [if_pos hc]
      have e : litStep .backslash 0 b = ([], .cont [b] .plain 0) := by
        rcases hc with rfl | rfl | rfl <;> rfl
      have e0 : litStep .plain 0 92 = ([], .cont [] .backslash 0) := rfl
      simp only [List.cons_append, List.nil_append, readLiteral, e0, e, ih, Option.map_some]
    · rw [if_neg hc]
      have e : litStep .plain 0 b = ([], .cont [b] .plain 0) := by
        simp only [litStep, litPlain]
        rw [if_neg (fun h => hc (.inl h)), if_neg hb, if_neg (fun h => hc (.inr (.inl h))),
          if_neg (fun h => hc (.inr (.inr h)))]
      simp only [List.cons_append, List.nil_append, readLiteral, e, ih, Option.map_some]

theorem readHex_write {s rest : List Byte} : readHex none (writeHexBytes s ++ 62 :: rest) = some (s, rest) := by
  induction s with
  | nil => rfl
  | cons b s ih =>
    obtain ⟨x, y, h, l, e, h1, h2, h3, _, _, hx, hy, hx', hy', _⟩ := writeHex_reads b
    simp only [writeHexBytes, e, List.cons_append, List.nil_append]
    rw [readHex, if_neg hx, if_neg (by simp [hx']), h1]
    simp only [Option.bind_eq_bind, Option.bind_some]
    rw [readHex, if_neg hy, if_neg (by simp [hy']), h2]
    simp only [Option.bind_eq_bind, Option.bind_some, ih, h3]
    rfl

theorem nextToken_literal {s rest : List Byte} (h : 13 ∉ s) :
    nextToken readReal (40 :: writeLiteralBytes s ++ [41] ++ rest) = some (.str s, rest) := by
  unfold nextToken
  have e : 40 :: writeLiteralBytes s ++ [41] ++ rest = 40 :: (writeLiteralBytes s ++ 41 :: rest) := by simp
  rw [e, dropWhile_nonwhite (by decide)]
  simp only [readLiteral_write h, Option.map_some]

theorem nextToken_hex {s rest : List Byte} :
    nextToken readReal (60 :: writeHexBytes s ++ [62] ++ rest) = some (.str s, rest) := by
  have e : 60 :: writeHexBytes s ++ [62] ++ rest = 60 :: (writeHexBytes s ++ 62 :: rest) := by simp
  unfold nextToken
  rw [e, dropWhile_nonwhite (by decide)]
  split
  · next h => cases h
  · next h => cases h
  · next h => cases h
  · next h =>
    injection h with _ h
    exfalso
    cases s with
    | nil => cases h
    | cons b s =>
      obtain ⟨x, y, _, _, e, _, _, _, hx, _⟩ := writeHex_reads b
      simp only [writeHexBytes, e, List.cons_append] at h
      injection h with h _
      rw [h] at hx; revert hx; decide
  · next h => injection h with _ h; rw [← h, readHex_write]; rfl
  · next h => cases h
  · next h => cases h
  · next h => cases h
  · next h1 h2 h3 h4 h5 h6 h7 h8 h =>
    injection h with h h'
    exact absurd h.symm h5

end
end Verif.Pdf
