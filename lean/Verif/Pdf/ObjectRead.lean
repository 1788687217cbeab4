import Verif.Pdf.ObjectLemmas
/- Helper lemmas for C10: a written object reads back. -/
namespace Verif.Pdf

section
variable {R : Type} {readReal : List Byte → Option R} {dtoa : R → List Byte}

/-- `rest` does not start like the end of a reference. -/
structure NoRef (readReal : List Byte → Option R) (rest : List Byte) : Prop where
  not_r : ∀ r, nextToken readReal rest ≠ some (.keyword [82], r)
  not_ref : ∀ g r2 r3, nextToken readReal rest = some (.int g, r2) → nextToken readReal r2 ≠ some (.keyword [82], r3)

theorem MayFollow.noRef {rest : List Byte} (h : MayFollow readReal rest) : NoRef readReal rest := ⟨h.not_r, h.not_ref⟩

theorem nextToken_white {b : Byte} (hb : isWhite b = true) (bs : List Byte) :
    nextToken readReal (b :: bs) = nextToken readReal bs := by
  unfold nextToken
  have : (b :: bs : List Byte).dropWhile isWhite = bs.dropWhile isWhite := by
    rw [List.dropWhile_cons, if_pos hb]
  rw [this]

theorem white_not_regular {b : Byte} (hb : isWhite b = true) : isRegular b = false := by simp [isRegular, hb]

theorem delim_not_regular {b : Byte} (hb : isDelim b = true) : isRegular b = false := by simp [isRegular, hb]

theorem mayFollow_white {b : Byte} {rest : List Byte} (hb : isWhite b = true) (h : NoRef readReal rest) :
    MayFollow readReal (b :: rest) := by
  refine ⟨?_, ?_, ?_⟩
  · intro c hc
    simp only [List.head?_cons, Option.some.injEq] at hc
    subst hc; exact white_not_regular hb
  · intro r; rw [nextToken_white hb]; exact h.not_r r
  · intro g r2 r3; rw [nextToken_white hb]; exact h.not_ref g r2 r3

set_option maxRecDepth 10000 in
theorem delim_not_white : ∀ b : Byte, isDelim b = true → isWhite b = false := by decide

/-- A token that starts with a delimiter is neither a number nor a keyword. -/
theorem nextToken_delim {b : Byte} {bs : List Byte} (hb : isDelim b = true) {t : Token R} {r : List Byte}
    (h : nextToken readReal (b :: bs) = some (t, r)) : (∀ i, t ≠ .int i) ∧ (∀ k, t ≠ .keyword k) := by
  unfold nextToken at h
  rw [dropWhile_nonwhite (delim_not_white b hb)] at h
  split at h
  · cases h
  · simp only [Option.map_eq_some_iff] at h
    obtain ⟨x, _, h⟩ := h; cases h; exact ⟨by simp, by simp⟩
  · simp only [Option.map_eq_some_iff] at h
    obtain ⟨x, _, h⟩ := h; cases h; exact ⟨by simp, by simp⟩
  · cases h; exact ⟨by simp, by simp⟩
  · simp only [Option.map_eq_some_iff] at h
    obtain ⟨x, _, h⟩ := h; cases h; exact ⟨by simp, by simp⟩
  · cases h; exact ⟨by simp, by simp⟩
  · cases h; exact ⟨by simp, by simp⟩
  · cases h; exact ⟨by simp, by simp⟩
  · next h' =>
    injection h' with h1 h2
    subst h1
    rw [if_pos hb] at h
    cases h

theorem mayFollow_delim {b : Byte} {rest : List Byte} (hb : isDelim b = true) : MayFollow readReal (b :: rest) := by
  refine ⟨?_, ?_, ?_⟩
  · intro c hc
    simp only [List.head?_cons, Option.some.injEq] at hc
    subst hc; exact delim_not_regular hb
  · intro r h; exact (nextToken_delim hb h).2 _ rfl
  · intro g r2 r3 h; exact absurd rfl ((nextToken_delim hb h).1 g)

/-- A keyword other than `R` cannot complete a reference. -/
theorem noRef_keyword {t rest : List Byte} (hne : t ≠ []) (ht : ∀ b ∈ t, isRegular b = true)
    (hr : ∀ b, rest.head? = some b → isRegular b = false) (hi : readInt t = none) (h : t ≠ [82]) :
    NoRef readReal (t ++ rest) := by
  have e := nextToken_regular (readReal := readReal) hne ht hr
  rw [hi] at e
  refine ⟨?_, ?_⟩
  · intro r hc
    rw [e] at hc
    cases hx : readReal t with
    | none => rw [hx] at hc; simp only [Option.some.injEq, Prod.mk.injEq, Token.keyword.injEq] at hc; exact h hc.1
    | some x => rw [hx] at hc; cases hc
  · intro g r2 r3 hc
    rw [e] at hc
    cases hx : readReal t with
    | none => rw [hx] at hc; cases hc
    | some x => rw [hx] at hc; cases hc

theorem noRef_nil : NoRef readReal [] := ⟨(by intro r h; cases h), (by intro g r2 r3 h; cases h)⟩

/-- How a written object may start. -/
structure Starts (readReal : List Byte → Option R) (bs : List Byte) : Prop extends NoRef readReal bs where
  not_close : ∀ r, nextToken readReal bs ≠ some (.arrayClose, r)
  not_keyword : ∀ k r, nextToken readReal bs ≠ some (.keyword k, r)

theorem nextToken_r (rest : List Byte) :
    nextToken readReal (32 :: 48 :: 32 :: 82 :: rest) = some (.int 0, 32 :: 82 :: rest) := by
  rw [nextToken_space]
  have := nextToken_decimal (readReal := readReal) 0 (rest := 32 :: 82 :: rest) (by
    intro b hb; simp only [List.head?_cons, Option.some.injEq] at hb; subst hb; decide)
  have e : decimal 0 = [48] := by rfl
  rw [e] at this
  exact this

theorem starts_delim {b : Byte} {bs : List Byte} (hb : isDelim b = true) (h93 : b ≠ 93) :
    Starts readReal (b :: bs) := by
  refine { (mayFollow_delim (readReal := readReal) (rest := bs) hb).noRef with
    not_close := ?_, not_keyword := fun k r h => (nextToken_delim hb h).2 k rfl }
  intro r h
  unfold nextToken at h
  rw [dropWhile_nonwhite (delim_not_white b hb)] at h
  split at h
  · cases h
  · simp only [Option.map_eq_some_iff] at h
    obtain ⟨x, _, h⟩ := h; cases h
  · simp only [Option.map_eq_some_iff] at h
    obtain ⟨x, _, h⟩ := h; cases h
  · cases h
  · simp only [Option.map_eq_some_iff] at h
    obtain ⟨x, _, h⟩ := h; cases h
  · cases h
  · cases h
  · next h' => injection h' with h1 h2; exact h93 h1
  · next h' =>
    injection h' with h1 h2
    subst h1
    rw [if_pos hb] at h
    cases h

theorem Object.starts (hd : RealText dtoa readReal) (o : Object R) {rest : List Byte} (h : MayFollow readReal rest) :
    Starts readReal (o.write dtoa ++ rest) := by
  cases o with
  | usize n =>
    have e := nextToken_decimal (readReal := readReal) n h.delimited
    simp only [Object.write]
    refine ⟨⟨?_, ?_⟩, ?_, ?_⟩ <;> rw [e]
    · intro r h'; cases h'
    · intro g r2 r3 h'; cases h'; exact h.not_r r3
    · intro r h'; cases h'
    · intro k r h'; cases h'
  | i32 n =>
    have e := nextToken_decimalInt (readReal := readReal) n h.delimited
    simp only [Object.write]
    refine ⟨⟨?_, ?_⟩, ?_, ?_⟩ <;> rw [e]
    · intro r h'; cases h'
    · intro g r2 r3 h'; cases h'; exact h.not_r r3
    · intro r h'; cases h'
    · intro k r h'; cases h'
  | float r =>
    have e := nextToken_real hd r h.delimited
    simp only [Object.write]
    refine ⟨⟨?_, ?_⟩, ?_, ?_⟩ <;> rw [e]
    · intro r h'; cases h'
    · intro g r2 r3 h'; cases h'
    · intro r h'; cases h'
    · intro k r h'; cases h'
  | ref id =>
    have e := nextToken_decimal (readReal := readReal) id (rest := [32, 48, 32, 82] ++ rest) (by
      intro b hb; simp only [List.cons_append, List.head?_cons, Option.some.injEq] at hb; subst hb; decide)
    simp only [Object.write, List.append_assoc]
    refine ⟨⟨?_, ?_⟩, ?_, ?_⟩ <;> rw [e]
    · intro r h'; cases h'
    · intro g r2 r3 h'
      cases h'
      simp only [List.cons_append, List.nil_append]
      rw [nextToken_r rest]
      intro h'; cases h'
    · intro r h'; cases h'
    · intro k r h'; cases h'
  | name b => simp only [Object.write, writeName, List.cons_append]; exact starts_delim (by decide) (by decide)
  | literal b => simp only [Object.write, List.cons_append]; exact starts_delim (by decide) (by decide)
  | hex b => simp only [Object.write, List.cons_append]; exact starts_delim (by decide) (by decide)
  | array l =>
    cases l <;> simp only [Object.write, List.cons_append] <;> exact starts_delim (by decide) (by decide)
  | dict d => simp only [Object.write, List.cons_append]; exact starts_delim (by decide) (by decide)
  | alpha r => simp only [Object.write, List.cons_append]; exact starts_delim (by decide) (by decide)
  | owned p => simp only [Object.write, List.cons_append]; exact starts_delim (by decide) (by decide)

theorem mayFollow_close (rest : List Byte) : MayFollow readReal (32 :: 62 :: 62 :: rest) :=
  mayFollow_white (by decide) (mayFollow_delim (by decide)).noRef

theorem Items.follow (hd : RealText dtoa readReal) : ∀ (l : Items R) (rest : List Byte),
    MayFollow readReal (l.writeRest dtoa ++ 93 :: rest)
  | .nil, rest => mayFollow_delim (by decide)
  | .cons o l, rest => by
    simp only [Items.writeRest, List.cons_append, List.append_assoc]
    exact mayFollow_white (by decide) (o.starts hd (l.follow hd rest)).toNoRef

theorem Pairs.follow : ∀ (p : Pairs R) {rest : List Byte}, MayFollow readReal rest →
    MayFollow readReal (p.write dtoa ++ rest)
  | .nil, rest, h => h
  | .cons k v l, rest, h => by
    simp only [Pairs.write, writeName, List.cons_append, List.append_assoc]
    exact mayFollow_white (by decide) (mayFollow_delim (by decide)).noRef

theorem readObj_space (fuel : Nat) (bs : List Byte) : readObj readReal fuel (32 :: bs) = readObj readReal fuel bs := by
  cases fuel with
  | zero => rfl
  | succ n => simp only [readObj, nextToken_space]

theorem readPairs_space (fuel : Nat) (bs : List Byte) :
    readPairs readReal fuel (32 :: bs) = readPairs readReal fuel bs := by
  cases fuel with
  | zero => rfl
  | succ n => simp only [readPairs, nextToken_space]

theorem readItems_space (fuel : Nat) (bs : List Byte) :
    readItems readReal fuel (32 :: bs) = readItems readReal fuel bs := by
  cases fuel with
  | zero => rfl
  | succ n => simp only [readItems, nextToken_space, readObj_space]

theorem readItems_cons {fuel : Nat} {bs r r' : List Byte} {v : Val R} {vs : List (Val R)}
    (h : ∀ r, nextToken readReal bs ≠ some (.arrayClose, r)) (h1 : readObj readReal fuel bs = some (v, r))
    (h2 : readItems readReal fuel r = some (vs, r')) : readItems readReal (fuel + 1) bs = some (v :: vs, r') := by
  rw [readItems]
  split
  · next hc => exact absurd hc (h _)
  · simp [h1, h2]

theorem readPairs_cons {fuel : Nat} {bs r r1 r' k : List Byte} {v : Val R} {vs : List (List Byte × Val R)}
    (h : nextToken readReal bs = some (.name k, r)) (h1 : readObj readReal fuel r = some (v, r1))
    (h2 : readPairs readReal fuel r1 = some (vs, r')) : readPairs readReal (fuel + 1) bs = some ((k, v) :: vs, r') := by
  rw [readPairs, h]
  simp [h1, h2]

theorem readPairs_close (fuel : Nat) (rest : List Byte) :
    readPairs readReal (fuel + 1) (32 :: 62 :: 62 :: rest) = some ([], rest) := by
  rw [readPairs, nextToken_space]; rfl

/-- After enough fuel, reading gives `v` and leaves `rest`. -/
def ObjReads (readReal : List Byte → Option R) (bs : List Byte) (v : Val R) (rest : List Byte) : Prop :=
  ∃ n, ∀ fuel, n ≤ fuel → readObj readReal fuel bs = some (v, rest)

def PairsRead (readReal : List Byte → Option R) (bs : List Byte) (v : List (List Byte × Val R)) (rest : List Byte) :
    Prop := ∃ n, ∀ fuel, n ≤ fuel → readPairs readReal fuel bs = some (v, rest)

def ItemsRead (readReal : List Byte → Option R) (bs : List Byte) (v : List (Val R)) (rest : List Byte) :
    Prop := ∃ n, ∀ fuel, n ≤ fuel → readItems readReal fuel bs = some (v, rest)

theorem PairsRead.cons {bs r r1 r' k : List Byte} {v : Val R} {vs : List (List Byte × Val R)}
    (h : nextToken readReal bs = some (.name k, r)) (h1 : ObjReads readReal r v r1)
    (h2 : PairsRead readReal r1 vs r') : PairsRead readReal bs ((k, v) :: vs) r' := by
  obtain ⟨n1, h1⟩ := h1
  obtain ⟨n2, h2⟩ := h2
  refine ⟨max n1 n2 + 1, ?_⟩
  intro fuel hf
  obtain ⟨f, rfl⟩ : ∃ f, fuel = f + 1 := ⟨fuel - 1, by omega⟩
  exact readPairs_cons h (h1 f (by omega)) (h2 f (by omega))

theorem ItemsRead.cons {bs r r' : List Byte} {v : Val R} {vs : List (Val R)}
    (h : ∀ r, nextToken readReal bs ≠ some (.arrayClose, r)) (h1 : ObjReads readReal bs v r)
    (h2 : ItemsRead readReal r vs r') : ItemsRead readReal bs (v :: vs) r' := by
  obtain ⟨n1, h1⟩ := h1
  obtain ⟨n2, h2⟩ := h2
  refine ⟨max n1 n2 + 1, ?_⟩
  intro fuel hf
  obtain ⟨f, rfl⟩ : ∃ f, fuel = f + 1 := ⟨fuel - 1, by omega⟩
  exact readItems_cons h (h1 f (by omega)) (h2 f (by omega))

theorem PairsRead.close (rest : List Byte) : PairsRead readReal (32 :: 62 :: 62 :: rest) [] rest := by
  refine ⟨1, ?_⟩
  intro fuel hf
  obtain ⟨f, rfl⟩ : ∃ f, fuel = f + 1 := ⟨fuel - 1, by omega⟩
  exact readPairs_close f rest

theorem ObjReads.space {bs rest : List Byte} {v : Val R} (h : ObjReads readReal bs v rest) :
    ObjReads readReal (32 :: bs) v rest := by
  obtain ⟨n, h⟩ := h
  exact ⟨n, fun fuel hf => by rw [readObj_space]; exact h fuel hf⟩

theorem nextToken_key {k rest : List Byte} (hk : 35 ∉ k) :
    nextToken readReal (32 :: (writeName k ++ 32 :: rest)) = some (.name k, 32 :: rest) := by
  rw [nextToken_space, nextToken_name, decodeName_write hk]
  · rfl
  · intro b hb; simp only [List.head?_cons, Option.some.injEq] at hb; subst hb; decide

theorem ObjReads.dict {bs rest : List Byte} {vs : List (List Byte × Val R)} (h : PairsRead readReal bs vs rest) :
    ObjReads readReal (60 :: 60 :: bs) (.dict vs) rest := by
  obtain ⟨n, h⟩ := h
  refine ⟨n + 1, ?_⟩
  intro fuel hf
  obtain ⟨f, rfl⟩ : ∃ f, fuel = f + 1 := ⟨fuel - 1, by omega⟩
  have e : nextToken readReal (60 :: 60 :: bs) = some (.dictOpen, bs) := rfl
  rw [readObj, e]
  simp only [h f (by omega), Option.map_some]

theorem ObjReads.array {bs rest : List Byte} {vs : List (Val R)} (h : ItemsRead readReal bs vs rest) :
    ObjReads readReal (91 :: bs) (.array vs) rest := by
  obtain ⟨n, h⟩ := h
  refine ⟨n + 1, ?_⟩
  intro fuel hf
  obtain ⟨f, rfl⟩ : ∃ f, fuel = f + 1 := ⟨fuel - 1, by omega⟩
  have e : nextToken readReal (91 :: bs) = some (.arrayOpen, bs) := rfl
  rw [readObj, e]
  simp only [h f (by omega), Option.map_some]

theorem ItemsRead.close (rest : List Byte) : ItemsRead readReal (93 :: rest) [] rest := by
  refine ⟨1, ?_⟩
  intro fuel hf
  obtain ⟨f, rfl⟩ : ∃ f, fuel = f + 1 := ⟨fuel - 1, by omega⟩
  have e : nextToken readReal (93 :: rest) = some (.arrayClose, rest) := rfl
  rw [readItems, e]

theorem ObjReads.atom {bs rest : List Byte} {t : Token R} {v : Val R}
    (h : nextToken readReal bs = some (t, rest))
    (hv : (∃ x, t = .real x ∧ v = .real x) ∨ (∃ x, t = .name x ∧ v = .name x) ∨ (∃ x, t = .str x ∧ v = .str x)) :
    ObjReads readReal bs v rest := by
  refine ⟨1, ?_⟩
  intro fuel hf
  obtain ⟨f, rfl⟩ : ∃ f, fuel = f + 1 := ⟨fuel - 1, by omega⟩
  rw [readObj, h]
  rcases hv with ⟨x, rfl, rfl⟩ | ⟨x, rfl, rfl⟩ | ⟨x, rfl, rfl⟩ <;> rfl

theorem readAfterInt_noRef {n : Int} {rest : List Byte} (h : NoRef readReal rest) :
    readAfterInt readReal n rest = (.int n, rest) := by
  unfold readAfterInt
  split
  · next g r2 e =>
    split
    · next r3 e' => exact absurd e' (h.not_ref _ _ _ e)
    · rfl
  · rfl

theorem ObjReads.int {bs rest : List Byte} {n : Int} (h : nextToken readReal bs = some (.int n, rest))
    (hr : NoRef readReal rest) : ObjReads readReal bs (.int n) rest := by
  refine ⟨1, ?_⟩
  intro fuel hf
  obtain ⟨f, rfl⟩ : ∃ f, fuel = f + 1 := ⟨fuel - 1, by omega⟩
  rw [readObj, h]
  simp only [readAfterInt_noRef hr]

theorem ObjReads.ref (hd : RealText dtoa readReal) {id : Nat} {rest : List Byte}
    (hr : ∀ b, rest.head? = some b → isRegular b = false) :
    ObjReads readReal (decimal id ++ [32, 48, 32, 82] ++ rest) (.ref id 0) rest := by
  refine ⟨1, ?_⟩
  intro fuel hf
  obtain ⟨f, rfl⟩ : ∃ f, fuel = f + 1 := ⟨fuel - 1, by omega⟩
  have e := nextToken_decimal (readReal := readReal) id (rest := [32, 48, 32, 82] ++ rest) (by
      intro b hb; simp only [List.cons_append, List.head?_cons, Option.some.injEq] at hb; subst hb; decide)
  have e2 : nextToken readReal (32 :: 82 :: rest) = some (.keyword [82], rest) := by
    rw [nextToken_space]
    have := nextToken_regular (readReal := readReal) (t := [82]) (by simp) (by intro b hb; rw [List.mem_singleton] at hb; subst hb; decide) hr
    have hi : readInt [82] = none := by decide
    rw [hi, hd.letter 82 [] (by decide)] at this
    exact this
  rw [List.append_assoc, readObj, e]
  simp only [readAfterInt, List.cons_append, List.nil_append]
  rw [nextToken_r rest]
  simp only [e2]
  rfl

theorem ascii_CA : ascii "CA" = [67, 65] := by rfl
theorem ascii_ca : ascii "ca" = [99, 97] := by rfl

theorem ObjReads.alpha (hd : RealText dtoa readReal) (r : R) (rest : List Byte) :
    ObjReads readReal ((Object.alpha r).write dtoa ++ rest) (Object.alpha r).value rest := by
  have hs : ∀ (l : List Byte), ∀ b, (32 :: l).head? = some b → isRegular b = false := by
    intro l b hb; simp only [List.head?_cons, Option.some.injEq] at hb; subst hb; decide
  have h2 : ∀ l : List Byte, ObjReads readReal (32 :: (dtoa r ++ 32 :: l)) (.real r) (32 :: l) :=
    fun l => .space (.atom (nextToken_real hd r (hs l)) (.inl ⟨r, rfl, rfl⟩))
  have h3 := PairsRead.cons (nextToken_key (k := [99, 97]) (by decide)) (h2 (62 :: 62 :: rest)) (.close rest)
  have h4 := PairsRead.cons (nextToken_key (k := [67, 65]) (by decide)) (h2 _) h3
  have h5 := ObjReads.dict h4
  simp only [Object.write, Object.value, ascii_CA, ascii_ca, List.cons_append, List.append_assoc, List.nil_append]
  exact h5

mutual
theorem Object.reads (hd : RealText dtoa readReal) : ∀ (o : Object R) {rest : List Byte},
    o.Plain → MayFollow readReal rest → ObjReads readReal (o.write dtoa ++ rest) o.value rest
  | .usize n, rest, _, h => .int (nextToken_decimal n h.delimited) h.noRef
  | .i32 i, rest, _, h => .int (nextToken_decimalInt i h.delimited) h.noRef
  | .float r, rest, _, h => .atom (nextToken_real hd r h.delimited) (.inl ⟨r, rfl, rfl⟩)
  | .name b, rest, hp, h => by
    have e := nextToken_name (readReal := readReal) (n := b) h.delimited
    rw [decodeName_write hp] at e
    exact .atom e (.inr (.inl ⟨b, rfl, rfl⟩))
  | .literal b, rest, hp, h => .atom (nextToken_literal hp) (.inr (.inr ⟨b, rfl, rfl⟩))
  | .hex b, rest, hp, h => .atom nextToken_hex (.inr (.inr ⟨b, rfl, rfl⟩))
  | .array .nil, rest, hp, h => .array (.close rest)
  | .array (.cons o l), rest, hp, h => by
    simp only [Object.write, List.cons_append, List.append_assoc, List.nil_append]
    simp only [Object.Plain, Items.Plain] at hp
    refine .array (vs := o.value :: l.values) (.cons ?_ (o.reads hd hp.1 (l.follow hd rest)) (l.reads hd hp.2))
    exact (o.starts hd (l.follow hd rest)).not_close
  | .dict d, rest, hp, h => by
    simp only [Object.write, List.cons_append, List.append_assoc, List.nil_append]
    have := d.reads hd (rest := 32 :: 62 :: 62 :: rest) (vs := []) (r := rest) hp (mayFollow_close rest) (.close rest)
    rw [List.append_nil] at this
    exact .dict this
  | .ref id, rest, _, h => .ref hd h.delimited
  | .alpha r, rest, _, h => ObjReads.alpha hd r rest
  | .owned p, rest, hp, h => by
    simp only [Object.write, List.cons_append, List.append_assoc, List.nil_append]
    have := p.reads hd (rest := 32 :: 62 :: 62 :: rest) (vs := []) (r := rest) hp (mayFollow_close rest) (.close rest)
    rw [List.append_nil] at this
    exact .dict this
theorem Items.reads (hd : RealText dtoa readReal) : ∀ (l : Items R) {rest : List Byte},
    l.Plain → ItemsRead readReal (l.writeRest dtoa ++ 93 :: rest) l.values rest
  | .nil, rest, _ => .close rest
  | .cons o l, rest, hp => by
    simp only [Items.writeRest, List.cons_append, List.append_assoc]
    refine .cons ?_ (.space (o.reads hd hp.1 (l.follow hd rest))) (l.reads hd hp.2)
    rw [nextToken_space]
    exact (o.starts hd (l.follow hd rest)).not_close
theorem Pairs.reads (hd : RealText dtoa readReal) : ∀ (p : Pairs R) {rest r : List Byte}
    {vs : List (List Byte × Val R)}, p.Plain → MayFollow readReal rest → PairsRead readReal rest vs r →
    PairsRead readReal (p.write dtoa ++ rest) (p.values ++ vs) r
  | .nil, rest, r, vs, _, _, h => h
  | .cons k v l, rest, r, vs, hp, hf, h => by
    simp only [Pairs.write, List.cons_append, List.append_assoc]
    exact .cons (nextToken_key hp.1) (.space (v.reads hd hp.2.1 (l.follow hf))) (l.reads hd hp.2.2 hf h)
theorem Dictionary.reads (hd : RealText dtoa readReal) : ∀ (d : Dictionary R) {rest r : List Byte}
    {vs : List (List Byte × Val R)}, d.Plain → MayFollow readReal rest → PairsRead readReal rest vs r →
    PairsRead readReal (d.writePairs dtoa ++ rest) (d.values ++ vs) r
  | .root p, rest, r, vs, hp, hf, h => p.reads hd hp hf h
  | .linked prev p, rest, r, vs, hp, hf, h => by
    simp only [Dictionary.writePairs, Dictionary.values, List.append_assoc]
    exact prev.reads hd hp.1 (p.follow hf) (p.reads hd hp.2 hf h)
end

end
end Verif.Pdf
