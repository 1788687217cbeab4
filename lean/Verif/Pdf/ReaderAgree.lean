import Verif.Pdf.DocExpect
/- Two readers of real numbers that agree on short texts read the same from short files: lemmas for the theorems of PrintedTheorems.lean. -/
namespace Verif.Pdf

section
variable {R : Type} {f g : List Byte → Option R} {N : Nat}

theorem readHex_length (p : Option Nat) (bs : List Byte) (x : List Byte × List Byte) (h : readHex p bs = some x) : x.2.length ≤ bs.length := by
  induction bs generalizing p x with
  | nil => cases h
  | cons b bs ih =>
    unfold readHex at h
    split at h
    · cases p <;> cases h <;> simp
    · split at h
      · have := ih _ _ h
        simp only [List.length_cons]; omega
      · rcases hv : hexValue b with _ | v
        · simp [hv] at h
        simp only [hv, Option.bind_eq_bind, Option.bind_some] at h
        cases p with
        | none =>
          have := ih _ _ h
          simp only [List.length_cons]; omega
        | some q =>
          dsimp only at h
          rcases hr : readHex none bs with _ | ⟨s, r⟩
          · simp [hr] at h
          simp only [hr, Option.bind_some, Option.pure_def, Option.some.injEq] at h
          have := ih _ _ hr
          subst h
          simp only [List.length_cons] at this ⊢; omega

theorem readLiteral_length (st : LitState) (n : Nat) (bs : List Byte) (x : List Byte × List Byte) (h : readLiteral st n bs = some x) :
    x.2.length ≤ bs.length := by
  induction bs generalizing st n x with
  | nil => simp [readLiteral] at h
  | cons b bs ih =>
    unfold readLiteral at h
    split at h
    · cases h; simp
    · obtain ⟨y, hy, rfl⟩ := Option.map_eq_some_iff.1 h
      have := ih _ _ _ hy
      simp only [List.length_cons]; omega

theorem dropWhile_length {A : Type} (p : A → Bool) (l : List A) : (l.dropWhile p).length ≤ l.length :=
  (List.dropWhile_suffix p).length_le

theorem takeWhile_length {A : Type} (p : A → Bool) (l : List A) : (l.takeWhile p).length ≤ l.length :=
  (List.takeWhile_prefix p).length_le

theorem stripPrefix_length {p bs r : List Byte} (h : stripPrefix p bs = some r) : r.length ≤ bs.length := by
  induction p generalizing bs with
  | nil => cases h; exact Nat.le_refl _
  | cons a p ih =>
    cases bs with
    | nil => cases h
    | cons b bs =>
      simp only [stripPrefix] at h
      split at h
      · have := ih h
        simp only [List.length_cons]; omega
      · cases h

theorem nextToken_length {bs : List Byte} {t : Token R} {r : List Byte} (h : nextToken f bs = some (t, r)) : r.length ≤ bs.length := by
  have hd := dropWhile_length isWhite bs
  unfold nextToken at h
  split at h
  · cases h
  · rename_i r' e
    rw [e] at hd
    obtain ⟨y, hy, e⟩ := Option.map_eq_some_iff.1 h
    cases e
    have := dropWhile_length isRegular r'
    simp only [List.length_cons] at hd; omega
  · rename_i r' e
    rw [e] at hd
    obtain ⟨y, hy, e⟩ := Option.map_eq_some_iff.1 h
    cases e
    have := readLiteral_length _ _ _ _ hy
    simp only [List.length_cons] at hd; omega
  · rename_i r' e
    rw [e] at hd
    cases h
    simp only [List.length_cons] at hd; omega
  · rename_i r' _ e
    rw [e] at hd
    obtain ⟨y, hy, e⟩ := Option.map_eq_some_iff.1 h
    cases e
    have := readHex_length _ _ _ hy
    simp only [List.length_cons] at hd; omega
  · rename_i r' e
    rw [e] at hd
    cases h
    simp only [List.length_cons] at hd; omega
  · rename_i r' e
    rw [e] at hd
    cases h
    simp only [List.length_cons] at hd; omega
  · rename_i r' e
    rw [e] at hd
    cases h
    simp only [List.length_cons] at hd; omega
  · rename_i b r' _ _ _ _ _ _ _ e
    rw [e] at hd
    have := dropWhile_length isRegular (b :: r')
    split at h
    · cases h
    · dsimp only at h
      split at h
      · cases h; omega
      · split at h <;> (cases h; omega)

theorem nextToken_agree (h : ∀ t, t.length ≤ N → f t = g t) {bs : List Byte} (hb : bs.length ≤ N) : nextToken f bs = nextToken g bs := by
  have hd := dropWhile_length isWhite bs
  unfold nextToken
  split
  all_goals try rfl
  rename_i b r' _ _ _ _ _ _ _ e
  rw [e] at hd
  have := takeWhile_length isRegular (b :: r')
  dsimp only
  rw [h _ (by omega)]

theorem readAfterInt_length (n : Int) (r : List Byte) : (readAfterInt f n r).2.length ≤ r.length := by
  unfold readAfterInt
  split
  · rename_i h1
    split
    · rename_i h2
      have := nextToken_length h1
      have := nextToken_length h2
      dsimp only; omega
    · exact Nat.le_refl _
  · exact Nat.le_refl _

theorem readAfterInt_agree (h : ∀ t, t.length ≤ N → f t = g t) (n : Int) {r : List Byte} (hb : r.length ≤ N) :
    readAfterInt f n r = readAfterInt g n r := by
  unfold readAfterInt
  rw [nextToken_agree h hb]
  split
  · rename_i h1
    rw [nextToken_agree h (by have := nextToken_length h1; omega)]
  · rfl

theorem read_length (fuel : Nat) :
    (∀ bs v r, readObj f fuel bs = some (v, r) → r.length ≤ bs.length) ∧
    (∀ bs v r, readItems f fuel bs = some (v, r) → r.length ≤ bs.length) ∧
    (∀ bs v r, readPairs f fuel bs = some (v, r) → r.length ≤ bs.length) := by
  induction fuel with
  | zero => refine ⟨?_, ?_, ?_⟩ <;> intro bs v r h <;> simp [readObj, readItems, readPairs] at h
  | succ fuel ih =>
    obtain ⟨i1, i2, i3⟩ := ih
    refine ⟨?_, ?_, ?_⟩
    · intro bs v r h
      unfold readObj at h
      split at h
      · rename_i n r' h1
        have := nextToken_length h1
        have h2 := readAfterInt_length (f := f) n r'
        rw [Option.some.inj h] at h2
        dsimp only at h2; omega
      · rename_i h1
        cases h
        exact nextToken_length h1
      · rename_i h1
        cases h
        exact nextToken_length h1
      · rename_i h1
        cases h
        exact nextToken_length h1
      · rename_i r' h1
        obtain ⟨y, hy, e⟩ := Option.map_eq_some_iff.1 h
        cases e
        have := nextToken_length h1
        have := i2 _ _ _ hy
        omega
      · rename_i r' h1
        obtain ⟨y, hy, e⟩ := Option.map_eq_some_iff.1 h
        cases e
        have := nextToken_length h1
        have := i3 _ _ _ hy
        omega
      · cases h
    · intro bs v r h
      unfold readItems at h
      split at h
      · rename_i h1
        cases h
        exact nextToken_length h1
      · rcases h1 : readObj f fuel bs with _ | ⟨v1, r1⟩
        · simp [h1] at h
        rcases h2 : readItems f fuel r1 with _ | ⟨v2, r2⟩
        · simp [h1, h2] at h
        simp only [h1, h2, Option.bind_eq_bind, Option.bind_some, Option.pure_def, Option.some.injEq, Prod.mk.injEq] at h
        have := i1 _ _ _ h1
        have := i2 _ _ _ h2
        rw [← h.2]; omega
    · intro bs v r h
      unfold readPairs at h
      split at h
      · rename_i h1
        cases h
        exact nextToken_length h1
      · rename_i k r0 h0
        rcases h1 : readObj f fuel r0 with _ | ⟨v1, r1⟩
        · simp [h1] at h
        rcases h2 : readPairs f fuel r1 with _ | ⟨v2, r2⟩
        · simp [h1, h2] at h
        simp only [h1, h2, Option.bind_eq_bind, Option.bind_some, Option.pure_def, Option.some.injEq, Prod.mk.injEq] at h
        have := nextToken_length h0
        have := i1 _ _ _ h1
        have := i3 _ _ _ h2
        rw [← h.2]; omega
      · cases h

theorem read_agree (h : ∀ t, t.length ≤ N → f t = g t) (fuel : Nat) :
    (∀ bs : List Byte, bs.length ≤ N → readObj f fuel bs = readObj g fuel bs) ∧
    (∀ bs : List Byte, bs.length ≤ N → readItems f fuel bs = readItems g fuel bs) ∧
    (∀ bs : List Byte, bs.length ≤ N → readPairs f fuel bs = readPairs g fuel bs) := by
  induction fuel with
  | zero => refine ⟨?_, ?_, ?_⟩ <;> intro bs hb <;> simp [readObj, readItems, readPairs]
  | succ fuel ih =>
    obtain ⟨i1, i2, i3⟩ := ih
    refine ⟨?_, ?_, ?_⟩
    · intro bs hb
      unfold readObj
      rw [nextToken_agree h hb]
      split
      all_goals try rfl
      all_goals rename_i h1; have := nextToken_length h1
      · rw [readAfterInt_agree h _ (by omega)]
      · rw [i2 _ (by omega)]
      · rw [i3 _ (by omega)]
    · intro bs hb
      unfold readItems
      rw [nextToken_agree h hb, i1 _ hb]
      split
      · rfl
      · rcases h1 : readObj g fuel bs with _ | ⟨v1, r1⟩
        · rfl
        have := (read_length fuel).1 _ _ _ h1
        simp only [Option.bind_eq_bind, Option.bind_some]
        rw [i2 _ (by omega)]
    · intro bs hb
      unfold readPairs
      rw [nextToken_agree h hb]
      split
      · rfl
      · rename_i k r0 h0
        have := nextToken_length h0
        rw [i1 _ (by omega)]
        rcases h1 : readObj g fuel r0 with _ | ⟨v1, r1⟩
        · rfl
        have := (read_length fuel).1 _ _ _ h1
        simp only [Option.bind_eq_bind, Option.bind_some]
        rw [i3 _ (by omega)]
      · rfl

theorem readNumber_length {bs r : List Byte} {n : Nat} (h : readNumber bs = some (n, r)) : r.length ≤ bs.length := by
  unfold readNumber at h
  split at h
  · cases h
  · obtain ⟨y, hy, e⟩ := Option.map_eq_some_iff.1 h
    cases e
    exact dropWhile_length _ _

theorem readXrefEntries_length {n : Nat} {bs r : List Byte} {es : List XrefEntry} (h : readXrefEntries n bs = some (es, r)) :
    r.length ≤ bs.length := by
  induction n generalizing bs es with
  | zero => cases h; exact Nat.le_refl _
  | succ n ih =>
    simp only [readXrefEntries, Option.bind_eq_bind, Option.bind_eq_some_iff] at h
    obtain ⟨e, -, ⟨es', r'⟩, h1, h2⟩ := h
    cases h2
    have := ih h1
    simp only [List.length_drop] at this ⊢; omega

theorem readXref_length {file r : List Byte} {es : List XrefEntry} (h : readXref file = some (es, r)) : r.length ≤ file.length := by
  simp only [readXref, Option.bind_eq_bind, Option.bind_eq_some_iff] at h
  obtain ⟨start, -, r1, h1, ⟨n, r2⟩, h2, r3, h3, ⟨es', r4⟩, h4, r5, h5, h6⟩ := h
  cases h6
  have := stripPrefix_length h1
  have := readNumber_length h2
  have := stripPrefix_length h3
  have := readXrefEntries_length h4
  have := stripPrefix_length h5
  simp only [List.length_drop] at *; omega

theorem objectAt_length {file r : List Byte} {id : Nat} (h : objectAt file id = some r) : r.length ≤ file.length := by
  simp only [objectAt, Option.bind_eq_bind, Option.bind_eq_some_iff] at h
  obtain ⟨⟨es, r0⟩, -, e, -, h⟩ := h
  split at h
  · simp only [Option.bind_eq_some_iff] at h
    obtain ⟨⟨n, r1⟩, h1, h2⟩ := h
    have := readNumber_length h1
    split at h2
    · have := stripPrefix_length h2
      simp only [List.length_drop] at *; omega
    · cases h2
  · cases h

variable (h : ∀ t, t.length ≤ N → f t = g t) {file : List Byte} (hN : file.length ≤ N)
include h hN

theorem readTrailer_agree (fuel : Nat) : readTrailer f fuel file = readTrailer g fuel file := by
  unfold readTrailer
  rcases hx : readXref file with _ | ⟨es, r⟩
  · rfl
  simp only [Option.bind_eq_bind, Option.bind_some]
  exact (read_agree h fuel).1 _ (by have := readXref_length hx; omega)

theorem getDict_agree (fuel id : Nat) : getDict f fuel file id = getDict g fuel file id := by
  unfold getDict
  rcases hx : objectAt file id with _ | r
  · rfl
  dsimp only
  rw [(read_agree h fuel).1 _ (by have := objectAt_length hx; omega)]

theorem getStream_agree (fuel id : Nat) : getStream f fuel file id = getStream g fuel file id := by
  unfold getStream
  rcases hx : objectAt file id with _ | r
  · rfl
  dsimp only
  unfold readStream
  rw [(read_agree h fuel).1 _ (by have := objectAt_length hx; omega)]

theorem readPage_agree (fuel parent : Nat) (kid : Val R) : readPage f fuel file parent kid = readPage g fuel file parent kid := by
  simp only [readPage, getDict_agree h hN, getStream_agree h hN]

theorem readPages_agree (fuel parent : Nat) (kids : List (Val R)) : readPages f fuel file parent kids = readPages g fuel file parent kids := by
  induction kids with
  | nil => rfl
  | cons k ks ih => simp only [readPages, readPage_agree h hN, ih]

theorem readDocument_agree (fuel : Nat) : readDocument f fuel file = readDocument g fuel file := by
  simp only [readDocument, readTrailer_agree h hN, getDict_agree h hN, readPages_agree h hN]

theorem readFont_agree (fuel id : Nat) : readFont f fuel file id = readFont g fuel file id := by
  simp only [readFont, getDict_agree h hN, getStream_agree h hN]

theorem IsFont_agree {E : Type} (v : FontView E) (id : Nat) : IsFont f file v id ↔ IsFont g file v id := by
  simp only [IsFont, readFont_agree h hN]

omit hN in
theorem readOps_agree (fuel : Nat) (operands : List (Val R)) {bs : List Byte} (hb : bs.length ≤ N) :
    readOps f fuel operands bs = readOps g fuel operands bs := by
  induction fuel generalizing operands bs with
  | zero => rfl
  | succ fuel ih =>
    unfold readOps
    rw [nextToken_agree h hb, (read_agree h fuel).1 _ hb]
    split
    · rfl
    · split
      · rename_i h1
        rw [ih _ (by have := nextToken_length h1; omega)]
      · split
        · rename_i h1
          rw [ih _ (by have := (read_length fuel).1 _ _ _ h1; omega)]
        · rfl

omit hN in
theorem paintContents_agree (zero one : R) (gs : List Byte → Option R) (fuel : Nat) {bs : List Byte} (hb : bs.length ≤ N) :
    paintContents f zero one gs fuel bs = paintContents g zero one gs fuel bs := by
  unfold paintContents
  rw [readOps_agree h fuel [] hb]

omit h hN
theorem getStream_length {fuel id : Nat} {d : List (List Byte × Val R)} {c : List Byte} (hs : getStream f fuel file id = some (d, c)) :
    c.length ≤ file.length := by
  unfold getStream at hs
  rcases hx : objectAt file id with _ | r
  · simp [hx] at hs
  simp only [hx] at hs
  have h0 := objectAt_length hx
  split at hs
  · rename_i d' c' r' h1
    split at hs
    · cases hs
      unfold readStream at h1
      split at h1
      · rename_i r1 h2
        have := (read_length fuel).1 _ _ _ h2
        split at h1
        · simp only [Option.bind_eq_bind, Option.bind_eq_some_iff] at h1
          obtain ⟨r2, h3, h4⟩ := h1
          have := stripPrefix_length h3
          split at h4
          · simp only [Option.bind_eq_some_iff] at h4
            obtain ⟨r3, h5, h6⟩ := h4
            cases h6
            simp only [List.length_take]; omega
          · cases h4
        · cases h1
      · cases h1
    · cases hs
  · cases hs

theorem readPages_length {fuel parent : Nat} {kids : List (Val R)} {ps : List (PageRead R)} (hs : readPages f fuel file parent kids = some ps) :
    ∀ p ∈ ps, p.contents.length ≤ file.length := by
  induction kids generalizing ps with
  | nil => cases hs; simp
  | cons k ks ih =>
    unfold readPages at hs
    split at hs
    · rename_i p ps' h1 h2
      cases hs
      intro q hq
      rcases List.mem_cons.1 hq with rfl | hq
      · simp only [readPage, Option.bind_eq_bind, Option.bind_eq_some_iff] at h1
        obtain ⟨_, -, _, -, _, -, _, -, _, -, _, -, ⟨_, c⟩, h3, h4⟩ := h1
        split at h4
        · cases h4
          exact getStream_length h3
        · cases h4
      · exact ih h2 q hq
    · cases hs

theorem readDocument_length {fuel : Nat} {doc : DocRead R} (hs : readDocument f fuel file = some doc) :
    ∀ p ∈ doc.pages, p.contents.length ≤ file.length := by
  simp only [readDocument, Option.bind_eq_bind, Option.bind_eq_some_iff] at hs
  obtain ⟨_, -, _, -, _, -, _, -, _, -, _, -, _, -, _, -, _, -, _, -, _, -, _, -, _, -, ps, h1, h2⟩ := hs
  split at h2
  · cases h2
    exact readPages_length h1
  · cases h2

end
end Verif.Pdf
