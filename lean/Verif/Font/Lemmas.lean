/- Helper lemmas about the font model. -/
import Verif.Font.Cmap
import Verif.Font.Spec
namespace Verif.Font

@[simp] theorem bind_ok {α β : Type} (a : α) (f : α → Res β) : (Res.ok a >>= f) = f a := rfl
@[simp] theorem bind_err {α β : Type} (e : FontError) (f : α → Res β) : (Res.err e >>= f) = .err e := rfl
@[simp] theorem bind_panic {α β : Type} (f : α → Res β) : (Res.panic >>= f) = .panic := rfl
@[simp] theorem bind_ub {α β : Type} (f : α → Res β) : (Res.ub >>= f) = .ub := rfl
@[simp] theorem pure_ok {α : Type} (a : α) : (pure a : Res α) = .ok a := rfl

theorem bindOk {α β : Type} {x : Res α} {a : α} {f : α → Res β} {r : Res β} (h : x = .ok a) (h' : f a = r) :
    (x >>= f) = r := by rw [h]; exact h'

theorem bind_eq_ok {α β : Type} {x : Res α} {f : α → Res β} {b : β} (h : (x >>= f) = .ok b) :
    ∃ a, x = .ok a ∧ f a = .ok b := by
  cases x with
  | ok a => exact ⟨a, rfl, h⟩
  | err e => cases h
  | panic => cases h
  | ub => cases h

/-! ### Reading -/

theorem bytesAt_iff (bytes : List Byte) (p : Nat) (s : List Byte) :
    BytesAt bytes p s ↔ p + s.length ≤ bytes.length ∧ (bytes.drop p).take s.length = s := by
  constructor
  · rintro ⟨pre, post, rfl, rfl⟩
    refine ⟨by simp, ?_⟩
    simp
  · rintro ⟨hl, ht⟩
    refine ⟨bytes.take p, bytes.drop (p + s.length), ?_, by simp; omega⟩
    have : bytes.drop p = s ++ bytes.drop (p + s.length) := by
      have h2 := List.take_append_drop s.length (bytes.drop p)
      rw [ht, List.drop_drop] at h2
      exact h2.symm
    rw [List.append_assoc, ← this, List.take_append_drop]

theorem bytesAt_unique {bytes : List Byte} {p : Nat} {s t : List Byte} (hs : BytesAt bytes p s)
    (ht : BytesAt bytes p t) (h : s.length = t.length) : s = t := by
  rw [bytesAt_iff] at hs ht
  rw [← hs.2, ← ht.2, h]

theorem byteArray_readFrom (n : Nat) (bytes : List Byte) (p : Nat) :
    readFrom (byteArray n) bytes p =
      if p + n ≤ bytes.length then .ok ((bytes.drop p).take n)
      else if p ≤ bytes.length then .err .offsetPlusLengthBeyondEof else .err .offsetBeyondEof := by
  unfold readFrom byteArray sliceFrom sliceTo derefArray
  by_cases h : p ≤ bytes.length
  · by_cases h' : p + n ≤ bytes.length
    · have : n ≤ (bytes.drop p).length := by simp; omega
      have h2 : n ≤ bytes.length - p := by omega
      simp [h, h', Res.ofOption, h2, List.take_take]
    · have h2 : ¬ n ≤ bytes.length - p := by omega
      simp [h, h', Res.ofOption, h2]
  · have h' : ¬ p + n ≤ bytes.length := by omega
    simp [h, h', Res.ofOption]

theorem readFrom_bind {α : Type} (n : Nat) (f : List Byte → α) (bytes : List Byte) (p : Nat) :
    readFrom (fun b => do let a ← byteArray n b; pure (f a)) bytes p =
      (do let a ← readFrom (byteArray n) bytes p; pure (f a)) := by
  unfold readFrom
  cases Res.ofOption FontError.offsetBeyondEof (sliceFrom bytes p) <;> rfl

theorem two_of_length {l : List Byte} (h : l.length = 2) : ∃ a b, l = [a, b] := by
  match l, h with
  | [a, b], _ => exact ⟨a, b, rfl⟩

theorem four_of_length {l : List Byte} (h : l.length = 4) : ∃ a b c d, l = [a, b, c, d] := by
  match l, h with
  | [a, b, c, d], _ => exact ⟨a, b, c, d, rfl⟩

theorem bytesAt_of_inside {bytes : List Byte} {p n : Nat} (h : p + n ≤ bytes.length) :
    ((bytes.drop p).take n).length = n ∧ BytesAt bytes p ((bytes.drop p).take n) := by
  have hl : ((bytes.drop p).take n).length = n := by simp; omega
  refine ⟨hl, ?_⟩
  rw [bytesAt_iff, hl]
  exact ⟨h, rfl⟩

theorem u16At_inside {bytes : List Byte} {p v : Nat} (h : U16At bytes p v) : p + 2 ≤ bytes.length := by
  obtain ⟨a, b, h, _⟩ := h
  exact ((bytesAt_iff _ _ _).1 h).1

theorem u32At_inside {bytes : List Byte} {p v : Nat} (h : U32At bytes p v) : p + 4 ≤ bytes.length := by
  obtain ⟨a, b, c, d, h, _⟩ := h
  exact ((bytesAt_iff _ _ _).1 h).1

theorem u16At_exists {bytes : List Byte} {p : Nat} (h : p + 2 ≤ bytes.length) :
    ∃ v, U16At bytes p v ∧ v < 65536 := by
  obtain ⟨hl, hb⟩ := bytesAt_of_inside (n := 2) h
  obtain ⟨a, b, hab⟩ := two_of_length hl
  rw [hab] at hb
  exact ⟨_, ⟨a, b, hb, rfl⟩, by have := a.isLt; have := b.isLt; omega⟩

theorem u32At_exists {bytes : List Byte} {p : Nat} (h : p + 4 ≤ bytes.length) :
    ∃ v, U32At bytes p v ∧ v < 4294967296 := by
  obtain ⟨hl, hb⟩ := bytesAt_of_inside (n := 4) h
  obtain ⟨a, b, c, d, hab⟩ := four_of_length hl
  rw [hab] at hb
  exact ⟨_, ⟨a, b, c, d, hb, rfl⟩, by
    have := a.isLt; have := b.isLt; have := c.isLt; have := d.isLt; omega⟩

theorem u16At_lt {bytes : List Byte} {p v : Nat} (h : U16At bytes p v) : v < 65536 := by
  obtain ⟨a, b, _, rfl⟩ := h
  have := a.isLt; have := b.isLt; omega

theorem u32At_lt {bytes : List Byte} {p v : Nat} (h : U32At bytes p v) : v < 4294967296 := by
  obtain ⟨a, b, c, d, _, rfl⟩ := h
  have := a.isLt; have := b.isLt; have := c.isLt; have := d.isLt; omega

theorem readU16_at {bytes : List Byte} {p v : Nat} (h : U16At bytes p v) : readU16 bytes p = .ok v := by
  have hi := u16At_inside h
  obtain ⟨a, b, hb, rfl⟩ := h
  have := ((bytesAt_iff _ _ _).1 hb).2
  unfold readU16
  rw [readFrom_bind, byteArray_readFrom, if_pos hi]
  have h2 : (bytes.drop p).take 2 = [a, b] := this
  rw [h2]
  simp [fromBe]

theorem readI16_at {bytes : List Byte} {p : Nat} {v : Int} (h : I16At bytes p v) : readI16 bytes p = .ok v := by
  obtain ⟨n, h, rfl⟩ := h
  have hi := u16At_inside h
  obtain ⟨a, b, hb, rfl⟩ := h
  have := ((bytesAt_iff _ _ _).1 hb).2
  unfold readI16
  rw [readFrom_bind 2 (fun a => if fromBe a < 32768 then (fromBe a : Int) else (fromBe a : Int) - 65536),
    byteArray_readFrom, if_pos hi]
  have h2 : (bytes.drop p).take 2 = [a, b] := this
  rw [h2]
  simp [fromBe]

theorem readU32_at {bytes : List Byte} {p v : Nat} (h : U32At bytes p v) : readU32 bytes p = .ok v := by
  have hi := u32At_inside h
  obtain ⟨a, b, c, d, hb, rfl⟩ := h
  have := ((bytesAt_iff _ _ _).1 hb).2
  unfold readU32
  rw [readFrom_bind, byteArray_readFrom, if_pos hi]
  have h2 : (bytes.drop p).take 4 = [a, b, c, d] := this
  rw [h2]
  simp [fromBe]

theorem readTag_at {bytes : List Byte} {p : Nat} {t : List Byte} (h : BytesAt bytes p t) (ht : t.length = 4) :
    readTag bytes p = .ok t := by
  unfold readTag
  rw [byteArray_readFrom]
  have := (bytesAt_iff _ _ _).1 h
  rw [ht] at this
  rw [if_pos this.1, this.2]

theorem readU16_eq (bytes : List Byte) (p : Nat) :
    (∃ v, U16At bytes p v ∧ readU16 bytes p = .ok v) ∨
    (¬ p + 2 ≤ bytes.length ∧ readU16 bytes p =
      .err (if p ≤ bytes.length then .offsetPlusLengthBeyondEof else .offsetBeyondEof)) := by
  by_cases h : p + 2 ≤ bytes.length
  · obtain ⟨v, hv, _⟩ := u16At_exists h
    exact Or.inl ⟨v, hv, readU16_at hv⟩
  · refine Or.inr ⟨h, ?_⟩
    unfold readU16
    rw [readFrom_bind, byteArray_readFrom, if_neg h]
    by_cases h' : p ≤ bytes.length
    · rw [if_pos h', if_pos h']; rfl
    · rw [if_neg h', if_neg h']; rfl

theorem readI16_eq (bytes : List Byte) (p : Nat) :
    (∃ v, I16At bytes p v ∧ readI16 bytes p = .ok v) ∨
    (¬ p + 2 ≤ bytes.length ∧ readI16 bytes p =
      .err (if p ≤ bytes.length then .offsetPlusLengthBeyondEof else .offsetBeyondEof)) := by
  by_cases h : p + 2 ≤ bytes.length
  · obtain ⟨v, hv, _⟩ := u16At_exists h
    exact Or.inl ⟨_, ⟨v, hv, rfl⟩, readI16_at ⟨v, hv, rfl⟩⟩
  · refine Or.inr ⟨h, ?_⟩
    unfold readI16
    rw [readFrom_bind 2 (fun a => if fromBe a < 32768 then (fromBe a : Int) else (fromBe a : Int) - 65536),
      byteArray_readFrom, if_neg h]
    by_cases h' : p ≤ bytes.length
    · rw [if_pos h', if_pos h']; rfl
    · rw [if_neg h', if_neg h']; rfl

theorem readU32_eq (bytes : List Byte) (p : Nat) :
    (∃ v, U32At bytes p v ∧ readU32 bytes p = .ok v) ∨
    (¬ p + 4 ≤ bytes.length ∧ readU32 bytes p =
      .err (if p ≤ bytes.length then .offsetPlusLengthBeyondEof else .offsetBeyondEof)) := by
  by_cases h : p + 4 ≤ bytes.length
  · obtain ⟨v, hv, _⟩ := u32At_exists h
    exact Or.inl ⟨v, hv, readU32_at hv⟩
  · refine Or.inr ⟨h, ?_⟩
    unfold readU32
    rw [readFrom_bind, byteArray_readFrom, if_neg h]
    by_cases h' : p ≤ bytes.length
    · rw [if_pos h', if_pos h']; rfl
    · rw [if_neg h', if_neg h']; rfl

theorem readTag_eq (bytes : List Byte) (p : Nat) :
    (∃ t, t.length = 4 ∧ BytesAt bytes p t ∧ readTag bytes p = .ok t) ∨
    (¬ p + 4 ≤ bytes.length ∧ readTag bytes p =
      .err (if p ≤ bytes.length then .offsetPlusLengthBeyondEof else .offsetBeyondEof)) := by
  by_cases h : p + 4 ≤ bytes.length
  · obtain ⟨hl, hb⟩ := bytesAt_of_inside (n := 4) h
    exact Or.inl ⟨_, hl, hb, readTag_at hb hl⟩
  · refine Or.inr ⟨h, ?_⟩
    unfold readTag
    rw [byteArray_readFrom, if_neg h]
    by_cases h' : p ≤ bytes.length
    · rw [if_pos h', if_pos h']
    · rw [if_neg h', if_neg h']

theorem readU16_ok {bytes : List Byte} {p v : Nat} (h : readU16 bytes p = .ok v) : U16At bytes p v := by
  rcases readU16_eq bytes p with ⟨w, hw, hr⟩ | ⟨_, hr⟩
  · rw [hr] at h; cases h; exact hw
  · rw [hr] at h; cases h

theorem readI16_ok {bytes : List Byte} {p : Nat} {v : Int} (h : readI16 bytes p = .ok v) : I16At bytes p v := by
  rcases readI16_eq bytes p with ⟨w, hw, hr⟩ | ⟨_, hr⟩
  · rw [hr] at h; cases h; exact hw
  · rw [hr] at h; cases h

theorem readU32_ok {bytes : List Byte} {p v : Nat} (h : readU32 bytes p = .ok v) : U32At bytes p v := by
  rcases readU32_eq bytes p with ⟨w, hw, hr⟩ | ⟨_, hr⟩
  · rw [hr] at h; cases h; exact hw
  · rw [hr] at h; cases h

theorem readTag_ok {bytes : List Byte} {p : Nat} {t : List Byte} (h : readTag bytes p = .ok t) :
    BytesAt bytes p t ∧ t.length = 4 := by
  rcases readTag_eq bytes p with ⟨w, hl, hw, hr⟩ | ⟨_, hr⟩
  · rw [hr] at h; cases h; exact ⟨hw, hl⟩
  · rw [hr] at h; cases h

theorem addU32_ok {a b : Nat} (h : a + b < 4294967296) : addU32 a b = .ok (a + b) := if_pos h
theorem addU32_inv {a b r : Nat} (h : addU32 a b = .ok r) : r = a + b ∧ a + b < 4294967296 := by
  unfold addU32 at h
  split at h
  · rename_i h'; cases h; exact ⟨rfl, h'⟩
  · cases h
theorem mulU32_ok {a b : Nat} (h : a * b < 4294967296) : mulU32 a b = .ok (a * b) := if_pos h
theorem subU32_ok {a b : Nat} (h : b ≤ a) : subU32 a b = .ok (a - b) := if_pos h

theorem offset_ok {size pos n : Nat} (h : pos + size * n < 4294967296) :
    offset size pos n = .ok (pos + size * n) := by
  unfold offset offsetBytes
  rw [mulU32_ok (by omega)]
  exact addU32_ok h

theorem offset_inv {size pos n r : Nat} (h : offset size pos n = .ok r) :
    r = pos + size * n ∧ pos + size * n < 4294967296 := by
  unfold offset at h
  obtain ⟨a, ha, h⟩ := bind_eq_ok h
  unfold mulU32 at ha
  split at ha
  · cases ha
    exact addU32_inv h
  · cases ha

theorem fieldU16_at {bytes : List Byte} {t o v : Nat} (h : U16At bytes (t + o) v)
    (hb : bytes.length < 4294967296) : fieldU16 bytes t o = .ok v := by
  have := u16At_inside h
  exact bindOk (addU32_ok (by omega)) (readU16_at h)

theorem fieldI16_at {bytes : List Byte} {t o : Nat} {v : Int} (h : I16At bytes (t + o) v)
    (hb : bytes.length < 4294967296) : fieldI16 bytes t o = .ok v := by
  obtain ⟨n, hn, hv⟩ := h
  have := u16At_inside hn
  exact bindOk (addU32_ok (by omega)) (readI16_at ⟨n, hn, hv⟩)

theorem fieldU32_at {bytes : List Byte} {t o v : Nat} (h : U32At bytes (t + o) v)
    (hb : bytes.length < 4294967296) : fieldU32 bytes t o = .ok v := by
  have := u32At_inside h
  exact bindOk (addU32_ok (by omega)) (readU32_at h)

theorem fieldTag_at {bytes : List Byte} {t o : Nat} {v : List Byte} (h : BytesAt bytes (t + o) v)
    (hv : v.length = 4) (hb : bytes.length < 4294967296) : fieldTag bytes t o = .ok v := by
  have := ((bytesAt_iff _ _ _).1 h).1
  exact bindOk (addU32_ok (by omega)) (readTag_at h hv)

theorem fieldU16_inv {bytes : List Byte} {t o v : Nat} (h : fieldU16 bytes t o = .ok v) :
    U16At bytes (t + o) v := by
  obtain ⟨p, hp, h⟩ := bind_eq_ok h
  obtain ⟨rfl, _⟩ := addU32_inv hp
  exact readU16_ok h

theorem fieldI16_inv {bytes : List Byte} {t o : Nat} {v : Int} (h : fieldI16 bytes t o = .ok v) :
    I16At bytes (t + o) v := by
  obtain ⟨p, hp, h⟩ := bind_eq_ok h
  obtain ⟨rfl, _⟩ := addU32_inv hp
  exact readI16_ok h

theorem fieldU32_inv {bytes : List Byte} {t o v : Nat} (h : fieldU32 bytes t o = .ok v) :
    U32At bytes (t + o) v := by
  obtain ⟨p, hp, h⟩ := bind_eq_ok h
  obtain ⟨rfl, _⟩ := addU32_inv hp
  exact readU32_ok h

theorem fieldTag_inv {bytes : List Byte} {t o : Nat} {v : List Byte} (h : fieldTag bytes t o = .ok v) :
    BytesAt bytes (t + o) v ∧ v.length = 4 := by
  obtain ⟨p, hp, h⟩ := bind_eq_ok h
  obtain ⟨rfl, _⟩ := addU32_inv hp
  exact readTag_ok h

/-! ### No undefined behaviour -/

/-- The call does not have undefined behaviour. -/
def Res.Safe {α : Type} (r : Res α) : Prop := r ≠ .ub

theorem Res.safe_ok {α : Type} (a : α) : (Res.ok a).Safe := by intro h; cases h
theorem Res.safe_err {α : Type} (e : FontError) : (Res.err e : Res α).Safe := by intro h; cases h
theorem Res.safe_panic {α : Type} : (Res.panic : Res α).Safe := by intro h; cases h
theorem Res.safe_bind {α β : Type} {x : Res α} {f : α → Res β} (hx : x.Safe) (hf : ∀ a, (f a).Safe) :
    (x >>= f).Safe := by
  cases x with
  | ok a => exact hf a
  | err e => exact Res.safe_err e
  | panic => exact Res.safe_panic
  | ub => exact absurd rfl hx

theorem safe_ite {α : Type} {c : Prop} [Decidable c] {x y : Res α} (hx : x.Safe) (hy : y.Safe) :
    (if c then x else y).Safe := by split <;> assumption

theorem safe_addU32 (a b : Nat) : (addU32 a b).Safe := safe_ite (Res.safe_ok _) Res.safe_panic
theorem safe_mulU32 (a b : Nat) : (mulU32 a b).Safe := safe_ite (Res.safe_ok _) Res.safe_panic
theorem safe_subU32 (a b : Nat) : (subU32 a b).Safe := safe_ite (Res.safe_ok _) Res.safe_panic
theorem safe_offset (s a b : Nat) : (offset s a b).Safe :=
  Res.safe_bind (safe_mulU32 _ _) fun _ => safe_addU32 _ _
theorem safe_offsetBytes (a b : Nat) : (offsetBytes a b).Safe := safe_addU32 _ _
theorem safe_followedBy (a b : Nat) : (followedBy a b).Safe := safe_addU32 _ _
theorem safe_getUnchecked (size : Nat) (s : Slice) (i : Nat) : (s.getUnchecked size i).Safe := safe_offset _ _ _
theorem safe_ofOption {α : Type} (e : FontError) (o : Option α) : (Res.ofOption e o).Safe := by
  cases o
  · exact Res.safe_err e
  · exact Res.safe_ok _

theorem safe_readU16 (bytes : List Byte) (p : Nat) : (readU16 bytes p).Safe := by
  rcases readU16_eq bytes p with ⟨_, _, h⟩ | ⟨_, h⟩ <;> rw [h]
  · exact Res.safe_ok _
  · exact Res.safe_err _
theorem safe_readI16 (bytes : List Byte) (p : Nat) : (readI16 bytes p).Safe := by
  rcases readI16_eq bytes p with ⟨_, _, h⟩ | ⟨_, h⟩ <;> rw [h]
  · exact Res.safe_ok _
  · exact Res.safe_err _
theorem safe_readU32 (bytes : List Byte) (p : Nat) : (readU32 bytes p).Safe := by
  rcases readU32_eq bytes p with ⟨_, _, h⟩ | ⟨_, h⟩ <;> rw [h]
  · exact Res.safe_ok _
  · exact Res.safe_err _
theorem safe_readTag (bytes : List Byte) (p : Nat) : (readTag bytes p).Safe := by
  rcases readTag_eq bytes p with ⟨_, _, _, h⟩ | ⟨_, h⟩ <;> rw [h]
  · exact Res.safe_ok _
  · exact Res.safe_err _
theorem safe_fieldU16 (bytes : List Byte) (t o : Nat) : (fieldU16 bytes t o).Safe :=
  Res.safe_bind (safe_addU32 _ _) fun _ => safe_readU16 _ _
theorem safe_fieldI16 (bytes : List Byte) (t o : Nat) : (fieldI16 bytes t o).Safe :=
  Res.safe_bind (safe_addU32 _ _) fun _ => safe_readI16 _ _
theorem safe_fieldU32 (bytes : List Byte) (t o : Nat) : (fieldU32 bytes t o).Safe :=
  Res.safe_bind (safe_addU32 _ _) fun _ => safe_readU32 _ _
theorem safe_fieldTag (bytes : List Byte) (t o : Nat) : (fieldTag bytes t o).Safe :=
  Res.safe_bind (safe_addU32 _ _) fun _ => safe_readTag _ _
theorem safe_readElement (bytes : List Byte) (t o : Nat) : (readElement bytes t o).Safe :=
  Res.safe_bind (safe_offset _ _ _) fun _ => safe_readU16 _ _
theorem safe_readBytes (bytes : List Byte) (s : Slice) : (s.readBytes bytes).Safe :=
  Res.safe_bind (safe_ofOption _ _) fun _ => safe_ofOption _ _

theorem safe_binarySearchLoop (f : Nat → Res Ordering) (hf : ∀ i, (f i).Safe) :
    ∀ fuel base size, (binarySearchLoop f fuel base size).Safe := by
  intro fuel
  induction fuel with
  | zero => intro _ _; exact Res.safe_panic
  | succ fuel ih =>
    intro base size
    unfold binarySearchLoop
    refine safe_ite ?_ (Res.safe_ok _)
    refine Res.safe_bind (safe_addU32 _ _) fun _ => ?_
    refine Res.safe_bind (hf _) fun _ => ?_
    refine Res.safe_bind (safe_subU32 _ _) fun _ => ih _ _

theorem safe_binarySearch (size : Nat) (f : Nat → Res Ordering) (hf : ∀ i, (f i).Safe) :
    (binarySearch size f).Safe := by
  unfold binarySearch
  refine safe_ite (Res.safe_ok _) ?_
  refine Res.safe_bind (safe_binarySearchLoop f hf _ _ _) fun _ => ?_
  exact Res.safe_bind (hf _) fun _ => safe_ite (Res.safe_ok _) (Res.safe_ok _)

theorem safe_findTable (bytes : List Byte) (d : Slice) (t : List Byte) : (findTable bytes d t).Safe := by
  unfold findTable
  refine Res.safe_bind ?_ fun _ => ?_
  · unfold Slice.binarySearchByKey
    refine Res.safe_bind (safe_binarySearch _ _ fun i => ?_) fun o => ?_
    · exact Res.safe_bind (safe_getUnchecked _ _ _) fun _ => Res.safe_bind (safe_fieldTag _ _ _) fun _ => Res.safe_ok _
    · cases o with
      | none => exact Res.safe_ok _
      | some i => exact Res.safe_bind (safe_getUnchecked _ _ _) fun _ => Res.safe_ok _
  · refine Res.safe_bind (safe_ofOption _ _) fun _ => ?_
    exact Res.safe_bind (safe_fieldU32 _ _ _) fun _ => safe_addU32 _ _

theorem safe_forLoop {β : Type} (next : SliceIter → Res (Option (Nat × SliceIter))) (body : Nat → Res (Option β))
    (hn : ∀ it, (next it).Safe) (hb : ∀ p, (body p).Safe) : ∀ fuel it, (forLoop next body fuel it).Safe := by
  intro fuel
  induction fuel with
  | zero => intro _; exact Res.safe_panic
  | succ fuel ih =>
    intro it
    unfold forLoop
    refine Res.safe_bind (hn it) fun o => ?_
    rcases o with _ | ⟨p, it⟩
    · exact Res.safe_ok _
    · refine Res.safe_bind (hb p) fun r => ?_
      cases r
      · exact ih it
      · exact Res.safe_ok _

theorem safe_next (size : Nat) (it : SliceIter) : (it.next size).Safe :=
  safe_ite (Res.safe_bind (safe_followedBy _ _) fun _ => Res.safe_ok _) (Res.safe_ok _)
theorem safe_nextBack (size : Nat) (it : SliceIter) : (it.nextBack size).Safe :=
  safe_ite (Res.safe_bind (safe_subU32 _ _) fun _ => Res.safe_ok _) (Res.safe_ok _)
theorem safe_intoIter (size : Nat) (s : Slice) : (s.intoIter size).Safe :=
  Res.safe_bind (safe_getUnchecked _ _ _) fun _ => Res.safe_ok _

theorem safe_format4Parse (bytes : List Byte) (h : Nat) : (Format4.parse bytes h).Safe := by
  unfold Format4.parse
  refine Res.safe_bind (safe_fieldU16 _ _ _) fun _ => ?_
  refine Res.safe_bind (safe_followedBy _ _) fun _ => ?_
  refine Res.safe_bind (safe_addU32 _ _) fun _ => ?_
  refine Res.safe_bind (safe_offset _ _ _) fun _ => ?_
  refine Res.safe_bind (safe_offset _ _ _) fun _ => ?_
  exact Res.safe_bind (safe_offset _ _ _) fun _ => Res.safe_ok _

theorem safe_format12Parse (bytes : List Byte) (h : Nat) : (Format12.parse bytes h).Safe := by
  unfold Format12.parse
  refine Res.safe_bind (safe_followedBy _ _) fun _ => ?_
  exact Res.safe_bind (safe_fieldU32 _ _ _) fun _ => Res.safe_ok _

theorem safe_cmapRecord (bytes : List Byte) (h r : Nat) : (Cmap.record bytes h r).Safe := by
  unfold Cmap.record
  refine Res.safe_bind (safe_fieldU32 _ _ _) fun _ => ?_
  refine Res.safe_bind (safe_offsetBytes _ _) fun _ => ?_
  refine Res.safe_bind (safe_readU16 _ _) fun _ => ?_
  refine Res.safe_bind (safe_fieldU16 _ _ _) fun _ => ?_
  refine Res.safe_bind (safe_fieldU16 _ _ _) fun _ => ?_
  refine safe_ite ?_ (safe_ite ?_ (Res.safe_ok _))
  · exact Res.safe_bind (safe_format4Parse _ _) fun _ => Res.safe_ok _
  · exact Res.safe_bind (safe_format12Parse _ _) fun _ => Res.safe_ok _

theorem safe_cmapParse (bytes : List Byte) (d : Slice) : (Cmap.parse bytes d).Safe := by
  unfold Cmap.parse
  refine Res.safe_bind (safe_findTable _ _ _) fun _ => ?_
  refine Res.safe_bind (safe_followedBy _ _) fun _ => ?_
  refine Res.safe_bind (safe_fieldU16 _ _ _) fun _ => ?_
  refine Res.safe_bind (safe_intoIter _ _) fun _ => ?_
  refine Res.safe_bind (safe_forLoop _ _ (safe_nextBack _) (safe_cmapRecord _ _) _ _) fun _ => ?_
  exact safe_ofOption _ _

theorem safe_nameBytes (bytes : List Byte) (s r : Nat) : (nameBytes bytes s r).Safe := by
  unfold nameBytes
  refine Res.safe_bind (safe_fieldU16 _ _ _) fun _ => ?_
  refine Res.safe_bind (safe_offsetBytes _ _) fun _ => ?_
  refine Res.safe_bind (safe_fieldU16 _ _ _) fun _ => ?_
  exact safe_readBytes _ _

theorem safe_nameRecord (bytes : List Byte) (s r : Nat) : (nameRecord bytes s r).Safe := by
  unfold nameRecord
  refine Res.safe_bind (safe_fieldU16 _ _ _) fun _ => ?_
  refine safe_ite (Res.safe_ok _) ?_
  refine Res.safe_bind (safe_fieldU16 _ _ _) fun _ => ?_
  refine Res.safe_bind (safe_fieldU16 _ _ _) fun _ => ?_
  refine safe_ite ?_ (safe_ite ?_ (Res.safe_ok _))
  · exact Res.safe_bind (safe_nameBytes _ _ _) fun _ => Res.safe_ok _
  · exact Res.safe_bind (safe_nameBytes _ _ _) fun _ => Res.safe_ok _

theorem safe_readPostscriptName (bytes : List Byte) (d : Slice) : (readPostscriptName bytes d).Safe := by
  unfold readPostscriptName
  refine Res.safe_bind (safe_findTable _ _ _) fun _ => ?_
  refine Res.safe_bind (safe_followedBy _ _) fun _ => ?_
  refine Res.safe_bind (safe_fieldU16 _ _ _) fun _ => ?_
  refine Res.safe_bind (safe_fieldU16 _ _ _) fun _ => ?_
  refine Res.safe_bind (safe_offsetBytes _ _) fun _ => ?_
  refine Res.safe_bind (safe_intoIter _ _) fun _ => ?_
  refine Res.safe_bind (safe_forLoop _ _ (safe_next _) (safe_nameRecord _ _) _ _) fun _ => ?_
  exact safe_ofOption _ _

theorem safe_rawGlyph (bytes : List Byte) (p d o s c : Nat) : (Format4.rawGlyph bytes p d o s c).Safe := by
  unfold Format4.rawGlyph
  refine safe_ite ?_ (Res.safe_ok _)
  refine Res.safe_bind (safe_subU32 _ _) fun _ => ?_
  refine Res.safe_bind (safe_offset _ _ _) fun _ => ?_
  refine Res.safe_bind (safe_offsetBytes _ _) fun _ => ?_
  exact Res.safe_bind (safe_readU16 _ _) fun _ => safe_ite (Res.safe_ok _) (Res.safe_ok _)

theorem safe_format4GlyphId (t : Format4) (bytes : List Byte) (i s c : Nat) : (t.glyphId bytes i s c).Safe := by
  unfold Format4.glyphId
  refine Res.safe_bind (safe_readElement _ _ _) fun _ => ?_
  refine Res.safe_bind (safe_offset _ _ _) fun _ => ?_
  refine Res.safe_bind (safe_readU16 _ _) fun _ => ?_
  exact Res.safe_bind (safe_rawGlyph _ _ _ _ _ _) fun _ => safe_ite (Res.safe_ok _) (Res.safe_ok _)

theorem safe_format4Get (t : Format4) (bytes : List Byte) (c : Nat) : (t.get bytes c).Safe := by
  unfold Format4.get
  refine safe_ite (Res.safe_ok _) ?_
  refine Res.safe_bind (safe_binarySearch _ _ fun i => ?_) fun o => ?_
  · refine Res.safe_bind (safe_readElement _ _ _) fun _ => ?_
    refine safe_ite (Res.safe_ok _) ?_
    exact Res.safe_bind (safe_readElement _ _ _) fun _ => safe_ite (Res.safe_ok _) (Res.safe_ok _)
  · cases o with
    | none => exact Res.safe_ok _
    | some i => exact Res.safe_bind (safe_readElement _ _ _) fun _ => safe_format4GlyphId _ _ _ _ _

theorem safe_segmentLoop (t : Format4) (bytes : List Byte) (i s e : Nat) :
    ∀ room c, (t.segmentLoop bytes i s e room c).Safe := by
  intro room
  induction room with
  | zero =>
    intro c
    unfold Format4.segmentLoop
    exact Res.safe_bind (safe_format4GlyphId _ _ _ _ _) fun _ => safe_ite (Res.safe_ok _) Res.safe_panic
  | succ room ih =>
    intro c
    unfold Format4.segmentLoop
    exact Res.safe_bind (safe_format4GlyphId _ _ _ _ _) fun _ => safe_ite (Res.safe_ok _)
      (Res.safe_bind (ih _) fun _ => Res.safe_ok _)

theorem safe_segments (t : Format4) (bytes : List Byte) : ∀ n i, (t.segments bytes n i).Safe := by
  intro n
  induction n with
  | zero => intro i; exact Res.safe_ok _
  | succ n ih =>
    intro i
    unfold Format4.segments
    refine Res.safe_bind (safe_readElement _ _ _) fun _ => ?_
    refine Res.safe_bind (safe_readElement _ _ _) fun _ => ?_
    refine Res.safe_bind (safe_segmentLoop _ _ _ _ _ _ _) fun _ => ?_
    exact Res.safe_bind (ih _) fun _ => Res.safe_ok _

theorem safe_format12Get (g : Slice) (bytes : List Byte) (c : Nat) : (Format12.get g bytes c).Safe := by
  unfold Format12.get
  refine Res.safe_bind (safe_binarySearch _ _ fun i => ?_) fun o => ?_
  · refine Res.safe_bind (safe_getUnchecked _ _ _) fun _ => ?_
    refine Res.safe_bind (safe_fieldU32 _ _ _) fun _ => ?_
    refine safe_ite (Res.safe_ok _) ?_
    exact Res.safe_bind (safe_fieldU32 _ _ _) fun _ => safe_ite (Res.safe_ok _) (Res.safe_ok _)
  · cases o with
    | none => exact Res.safe_ok _
    | some i =>
      refine Res.safe_bind (safe_getUnchecked _ _ _) fun _ => ?_
      refine Res.safe_bind (safe_fieldU32 _ _ _) fun _ => ?_
      refine Res.safe_bind (safe_fieldU32 _ _ _) fun _ => ?_
      refine Res.safe_bind (safe_subU32 _ _) fun _ => ?_
      exact Res.safe_bind (safe_addU32 _ _) fun _ => safe_ite (Res.safe_ok _) (Res.safe_ok _)

theorem safe_groupLoop (s e g : Nat) : ∀ room c, (Format12.groupLoop s e g room c).Safe := by
  intro room
  induction room with
  | zero =>
    intro c
    unfold Format12.groupLoop
    refine Res.safe_bind (safe_subU32 _ _) fun _ => ?_
    exact Res.safe_bind (safe_addU32 _ _) fun _ => safe_ite (Res.safe_ok _) Res.safe_panic
  | succ room ih =>
    intro c
    unfold Format12.groupLoop
    refine Res.safe_bind (safe_subU32 _ _) fun _ => ?_
    exact Res.safe_bind (safe_addU32 _ _) fun _ => safe_ite (Res.safe_ok _)
      (Res.safe_bind (ih _) fun _ => Res.safe_ok _)

theorem safe_groupsLoop (bytes : List Byte) : ∀ fuel it, (Format12.groupsLoop bytes fuel it).Safe := by
  intro fuel
  induction fuel with
  | zero => intro it; exact Res.safe_panic
  | succ fuel ih =>
    intro it
    unfold Format12.groupsLoop
    refine Res.safe_bind (safe_next _ _) fun o => ?_
    rcases o with _ | ⟨p, it⟩
    · exact Res.safe_ok _
    · refine Res.safe_bind (safe_fieldU32 _ _ _) fun _ => ?_
      refine Res.safe_bind (safe_fieldU32 _ _ _) fun _ => ?_
      refine Res.safe_bind (safe_fieldU32 _ _ _) fun _ => ?_
      refine Res.safe_bind (safe_groupLoop _ _ _ _ _) fun _ => ?_
      exact Res.safe_bind (ih _) fun _ => Res.safe_ok _

theorem safe_fontParse (bytes : List Byte) : (Font.parse bytes).Safe := by
  unfold Font.parse
  refine Res.safe_bind (safe_fieldU32 _ _ _) fun _ => ?_
  refine safe_ite (Res.safe_err _) ?_
  refine Res.safe_bind (safe_followedBy _ _) fun _ => ?_
  refine Res.safe_bind (safe_fieldU16 _ _ _) fun _ => ?_
  refine Res.safe_bind (safe_findTable _ _ _) fun _ => ?_
  refine Res.safe_bind (safe_findTable _ _ _) fun _ => ?_
  refine Res.safe_bind (safe_fieldU16 _ _ _) fun _ => ?_
  refine Res.safe_bind (safe_findTable _ _ _) fun _ => ?_
  refine Res.safe_bind (safe_readPostscriptName _ _) fun _ => ?_
  refine Res.safe_bind (safe_cmapParse _ _) fun _ => ?_
  refine Res.safe_bind (safe_findTable _ _ _) fun _ => ?_
  refine Res.safe_bind (safe_fieldU16 _ _ _) fun _ => ?_
  refine Res.safe_bind (safe_fieldU16 _ _ _) fun _ => ?_
  refine Res.safe_bind (safe_fieldI16 _ _ _) fun _ => ?_
  refine Res.safe_bind (safe_fieldI16 _ _ _) fun _ => ?_
  refine Res.safe_bind (safe_fieldI16 _ _ _) fun _ => ?_
  refine Res.safe_bind (safe_fieldI16 _ _ _) fun _ => ?_
  refine Res.safe_bind (safe_fieldI16 _ _ _) fun _ => ?_
  exact Res.safe_bind (safe_fieldI16 _ _ _) fun _ => Res.safe_ok _

theorem safe_eachCodePoint (font : Font) : font.eachCodePoint.Safe := by
  unfold Font.eachCodePoint Cmap.eachCodePoint
  refine Res.safe_bind ?_ fun _ => Res.safe_ok _
  unfold Cmap.calls
  cases font.cmap with
  | format4 t => exact safe_segments _ _ _ _
  | format12 g => exact Res.safe_bind (safe_intoIter _ _) fun _ => safe_groupsLoop _ _ _

theorem safe_fontGlyphId (font : Font) (ch : Nat) : (font.glyphId ch).Safe := by
  unfold Font.glyphId
  refine Res.safe_bind ?_ fun _ => Res.safe_ok _
  unfold Font.lookup
  cases font.cmap with
  | format4 t => exact safe_format4Get _ _ _
  | format12 g => exact safe_format12Get _ _ _

theorem safe_glyphWidth {R : Type} (ems : Int → Nat → R) (font : Font) (g : Nat) :
    (font.glyphWidth ems g).Safe := by
  unfold Font.glyphWidth
  refine Res.safe_bind (safe_ofOption _ _) fun _ => ?_
  refine Res.safe_bind (safe_getUnchecked _ _ _) fun _ => ?_
  exact Res.safe_bind (safe_fieldU16 _ _ _) fun _ => Res.safe_ok _

/-! ### Binary search -/

theorem binarySearchLoop_congr (f g : Nat → Res Ordering) (total : Nat) (h : ∀ i, i < total → f i = g i) :
    ∀ fuel base size, base + size ≤ total → binarySearchLoop f fuel base size = binarySearchLoop g fuel base size := by
  intro fuel
  induction fuel with
  | zero => intro _ _ _; rfl
  | succ fuel ih =>
    intro base size hb
    unfold binarySearchLoop
    by_cases hs : size > 1
    · rw [if_pos hs, if_pos hs]
      dsimp only
      by_cases hm : base + size / 2 < 4294967296
      · rw [addU32_ok hm, bind_ok, bind_ok, h _ (by omega)]
        cases g (base + size / 2) with
        | ok c =>
          rw [bind_ok, bind_ok, subU32_ok (by omega), bind_ok, bind_ok]
          apply ih
          split <;> omega
        | err e => rfl
        | panic => rfl
        | ub => rfl
      · have : addU32 base (size / 2) = .panic := if_neg hm
        rw [this]
        rfl
    · rw [if_neg hs, if_neg hs]

theorem binarySearchLoop_lt (f : Nat → Res Ordering) : ∀ fuel base size b, 0 < size →
    binarySearchLoop f fuel base size = .ok b → b < base + size := by
  intro fuel
  induction fuel with
  | zero => intro base size b _ h; cases h
  | succ fuel ih =>
    intro base size b hpos h
    unfold binarySearchLoop at h
    by_cases hs : size > 1
    · rw [if_pos hs] at h
      dsimp only at h
      obtain ⟨mid, hm, h⟩ := bind_eq_ok h
      obtain ⟨rfl, _⟩ := addU32_inv hm
      obtain ⟨c, hc, h⟩ := bind_eq_ok h
      rw [subU32_ok (by omega), bind_ok] at h
      have := ih _ _ _ (by omega) h
      split at this <;> omega
    · rw [if_neg hs] at h
      cases h
      omega

/-- The comparisons of sorted records with a key: first records below it, then equal ones, then above. -/
def Sorted3 (n : Nat) (c : Nat → Ordering) : Prop :=
  ∀ i j, i < j → j < n → (c i = .gt → c j = .gt) ∧ (c i = .eq → c j ≠ .lt)

theorem binarySearchLoop_ok (f : Nat → Res Ordering) (c : Nat → Ordering) (total : Nat)
    (ht : total ≤ 4294967296) (hf : ∀ i, i < total → f i = .ok (c i)) :
    ∀ fuel base size, size ≤ fuel → 0 < size → base + size ≤ total →
    ∃ b, binarySearchLoop f fuel base size = .ok b ∧ base ≤ b ∧ b < base + size ∧
      (b = base ∨ c b ≠ .gt) ∧ (b + 1 = base + size ∨ ∃ j, j ≤ b + 1 ∧ b < j ∧ j < base + size ∧ c j = .gt) := by
  intro fuel
  induction fuel with
  | zero => intro _ _ _ _; omega
  | succ fuel ih =>
    intro base size hfuel hpos hbs
    unfold binarySearchLoop
    by_cases hs : size > 1
    · rw [if_pos hs]
      dsimp only
      rw [addU32_ok (by omega), bind_ok, hf _ (by omega), bind_ok, subU32_ok (by omega), bind_ok]
      by_cases hg : c (base + size / 2) = .gt
      · rw [if_pos hg]
        obtain ⟨b, hb, h1, h2, h3, h4⟩ := ih base (size - size / 2) (by omega) (by omega) (by omega)
        refine ⟨b, hb, h1, by omega, h3, ?_⟩
        rcases h4 with h4 | ⟨j, hj⟩
        · -- b + 1 = base + (size - size/2)
          right
          by_cases he : base + size / 2 = b + 1
          · exact ⟨base + size / 2, by omega, by omega, by omega, hg⟩
          · -- size odd: size - size/2 = size/2 + 1, so b = base + size/2 whose comparison is gt
            have hb' : b = base + size / 2 := by omega
            rcases h3 with h3 | h3
            · omega
            · rw [hb'] at h3; exact absurd hg h3
        · exact Or.inr ⟨j, hj.1, hj.2.1, by omega, hj.2.2.2⟩
      · rw [if_neg hg]
        obtain ⟨b, hb, h1, h2, h3, h4⟩ := ih (base + size / 2) (size - size / 2) (by omega) (by omega) (by omega)
        refine ⟨b, hb, by omega, by omega, ?_, ?_⟩
        · rcases h3 with h3 | h3
          · rw [h3]; exact Or.inr hg
          · exact Or.inr h3
        · rcases h4 with h4 | ⟨j, hj⟩
          · left; omega
          · exact Or.inr ⟨j, hj.1, hj.2.1, by omega, hj.2.2.2⟩
    · rw [if_neg hs]
      exact ⟨base, rfl, by omega, by omega, Or.inl rfl, Or.inl (by omega)⟩

theorem binarySearch_ok (f : Nat → Res Ordering) (c : Nat → Ordering) (n : Nat) (hn : n < 4294967296)
    (hf : ∀ i, i < n → f i = .ok (c i)) :
    ∃ r, binarySearch n f = .ok r ∧ ∀ i, r = some i → i < n ∧ c i = .eq := by
  unfold binarySearch
  by_cases h0 : n = 0
  · rw [if_pos h0]
    exact ⟨none, rfl, by intro i h; cases h⟩
  · rw [if_neg h0]
    obtain ⟨b, hb, _, h2, _, _⟩ := binarySearchLoop_ok f c n (by omega) hf n 0 n (by omega) (by omega) (by omega)
    rw [hb, bind_ok, hf _ (by omega), bind_ok]
    by_cases he : c b = .eq
    · rw [if_pos he]
      exact ⟨some b, rfl, by intro i h; cases h; exact ⟨by omega, he⟩⟩
    · rw [if_neg he]
      exact ⟨none, rfl, by intro i h; cases h⟩

theorem binarySearch_complete (f : Nat → Res Ordering) (c : Nat → Ordering) (n : Nat) (hn : n < 4294967296)
    (hf : ∀ i, i < n → f i = .ok (c i)) (hs : Sorted3 n c) (i : Nat) (hi : i < n) (he : c i = .eq) :
    ∃ j, binarySearch n f = .ok (some j) ∧ j < n ∧ c j = .eq := by
  unfold binarySearch
  rw [if_neg (by omega)]
  obtain ⟨b, hb, _, h2, h3, h4⟩ := binarySearchLoop_ok f c n (by omega) hf n 0 n (by omega) (by omega) (by omega)
  rw [hb, bind_ok, hf _ (by omega), bind_ok]
  have hbi : ¬ b < i := by
    intro hlt
    rcases h4 with h4 | ⟨j, hj1, hj2, hj3, hj⟩
    · omega
    · have : j = b + 1 := by omega
      by_cases hji : j = i
      · rw [hji] at hj; rw [hj] at he; cases he
      · have := (hs j i (by omega) hi).1 hj
        rw [this] at he; cases he
  have hcb : c b = .eq := by
    by_cases hbi' : b = i
    · rw [hbi']; exact he
    · have hl := (hs i b (by omega) (by omega)).2 he
      rcases h3 with h3 | h3
      · omega
      · cases hc : c b with
        | lt => exact absurd hc hl
        | eq => rfl
        | gt => exact absurd hc h3
  rw [if_pos hcb]
  exact ⟨b, rfl, by omega, hcb⟩

theorem binarySearch_sound (f : Nat → Res Ordering) (n i : Nat) (h : binarySearch n f = .ok (some i)) :
    i < n ∧ f i = .ok .eq := by
  unfold binarySearch at h
  by_cases h0 : n = 0
  · rw [if_pos h0] at h; cases h
  · rw [if_neg h0] at h
    obtain ⟨b, hb, h⟩ := bind_eq_ok h
    obtain ⟨c, hc, h⟩ := bind_eq_ok h
    by_cases he : c = .eq
    · rw [if_pos he] at h
      cases h
      rw [he] at hc
      exact ⟨by have := binarySearchLoop_lt f n 0 n i (by omega) hb; omega, hc⟩
    · rw [if_neg he] at h; cases h

/-! ### Iteration -/

theorem next_ok (size : Nat) (it : SliceIter) (h : it.start ≠ it.stop) (hb : it.start + size < 4294967296) :
    it.next size = .ok (some (it.start, ⟨it.start + size, it.stop⟩)) := by
  unfold SliceIter.next followedBy offsetBytes
  rw [if_pos h]
  dsimp only
  rw [addU32_ok hb]
  rfl

theorem next_done (size : Nat) (it : SliceIter) (h : it.start = it.stop) : it.next size = .ok none := by
  unfold SliceIter.next
  rw [if_neg (by simp [h])]
  rfl

theorem nextBack_ok (size : Nat) (it : SliceIter) (h : it.start ≠ it.stop) (hb : size ≤ it.stop) :
    it.nextBack size = .ok (some (it.stop, ⟨it.start, it.stop - size⟩)) := by
  unfold SliceIter.nextBack
  rw [if_pos h]
  dsimp only
  rw [subU32_ok hb]
  rfl

theorem nextBack_done (size : Nat) (it : SliceIter) (h : it.start = it.stop) : it.nextBack size = .ok none := by
  unfold SliceIter.nextBack
  rw [if_neg (by simp [h])]
  rfl

theorem collect_next (size : Nat) (hs : 0 < size) : ∀ n start fuel, start + size * n < 4294967296 → n < fuel →
    collect (SliceIter.next size) fuel ⟨start, start + size * n⟩ =
      .ok ((List.range n).map fun i => start + size * i) := by
  intro n
  induction n with
  | zero =>
    intro start fuel hb hf
    obtain ⟨f, rfl⟩ : ∃ f, fuel = f + 1 := ⟨fuel - 1, by omega⟩
    unfold collect
    rw [next_done _ _ (by simp)]
    rfl
  | succ n ih =>
    intro start fuel hb hf
    obtain ⟨f, rfl⟩ : ∃ f, fuel = f + 1 := ⟨fuel - 1, by omega⟩
    have hm : size * (n + 1) = size + size * n := by rw [Nat.mul_succ, Nat.add_comm]
    have hpos : 0 ≤ size * n := Nat.zero_le _
    unfold collect
    rw [next_ok _ _ (by simp; omega) (by simp; omega)]
    dsimp only [bind_ok]
    have := ih (start + size) f (by omega) (by omega)
    rw [show start + size * (n + 1) = start + size + size * n by omega, this]
    simp only [bind_ok, pure_ok, List.range_succ_eq_map, List.map_cons, List.map_map]
    congr 1
    simp only [Nat.mul_zero, Nat.add_zero, List.cons.injEq, true_and]
    apply List.map_congr_left
    intro i _
    simp only [Function.comp, Nat.succ_eq_add_one]
    rw [Nat.mul_succ]; omega

theorem collect_nextBack (size : Nat) (hs : 0 < size) : ∀ n start fuel, n < fuel →
    collect (SliceIter.nextBack size) fuel ⟨start, start + size * n⟩ =
      .ok ((List.range n).reverse.map fun i => start + size * (i + 1)) := by
  intro n
  induction n with
  | zero =>
    intro start fuel hf
    obtain ⟨f, rfl⟩ : ∃ f, fuel = f + 1 := ⟨fuel - 1, by omega⟩
    unfold collect
    rw [nextBack_done _ _ (by simp)]
    rfl
  | succ n ih =>
    intro start fuel hf
    obtain ⟨f, rfl⟩ : ∃ f, fuel = f + 1 := ⟨fuel - 1, by omega⟩
    have hm : size * (n + 1) = size * n + size := Nat.mul_succ _ _
    unfold collect
    rw [nextBack_ok _ _ (by simp; omega) (by simp; omega)]
    dsimp only [bind_ok]
    rw [show start + size * (n + 1) - size = start + size * n by omega, ih start f (by omega)]
    simp only [bind_ok, pure_ok, List.range_succ, List.reverse_append, List.reverse_singleton,
      List.singleton_append, List.map_cons]

/-- A loop over a list of positions, leaving at the first `some`. -/
def firstSome {β : Type} (body : Nat → Res (Option β)) : List Nat → Res (Option β)
  | [] => .ok none
  | p :: ps => do
    match ← body p with
    | some b => pure (some b)
    | none => firstSome body ps

theorem forLoop_next {β : Type} (body : Nat → Res (Option β)) (size : Nat) (hs : 0 < size) :
    ∀ n start fuel, start + size * n < 4294967296 → n < fuel →
    forLoop (SliceIter.next size) body fuel ⟨start, start + size * n⟩ =
      firstSome body ((List.range n).map fun i => start + size * i) := by
  intro n
  induction n with
  | zero =>
    intro start fuel hb hf
    obtain ⟨f, rfl⟩ : ∃ f, fuel = f + 1 := ⟨fuel - 1, by omega⟩
    unfold forLoop
    rw [next_done _ _ (by simp)]
    rfl
  | succ n ih =>
    intro start fuel hb hf
    obtain ⟨f, rfl⟩ : ∃ f, fuel = f + 1 := ⟨fuel - 1, by omega⟩
    have hm : size * (n + 1) = size + size * n := by rw [Nat.mul_succ, Nat.add_comm]
    unfold forLoop
    rw [next_ok _ _ (by simp; omega) (by simp; omega)]
    dsimp only [bind_ok]
    have := ih (start + size) f (by omega) (by omega)
    rw [show start + size * (n + 1) = start + size + size * n by omega, this]
    have hl : ((List.range (n + 1)).map fun i => start + size * i) =
        start :: (List.range n).map fun i => start + size + size * i := by
      simp only [List.range_succ_eq_map, List.map_cons, List.map_map, Nat.mul_zero, Nat.add_zero,
        List.cons.injEq, true_and]
      apply List.map_congr_left
      intro i _
      simp only [Function.comp, Nat.succ_eq_add_one]
      rw [Nat.mul_succ]; omega
    rw [hl]
    rfl

theorem forLoop_nextBack {β : Type} (body : Nat → Res (Option β)) (size : Nat) (hs : 0 < size) :
    ∀ n start fuel, n < fuel →
    forLoop (SliceIter.nextBack size) body fuel ⟨start, start + size * n⟩ =
      firstSome body ((List.range n).reverse.map fun i => start + size * (i + 1)) := by
  intro n
  induction n with
  | zero =>
    intro start fuel hf
    obtain ⟨f, rfl⟩ : ∃ f, fuel = f + 1 := ⟨fuel - 1, by omega⟩
    unfold forLoop
    rw [nextBack_done _ _ (by simp)]
    rfl
  | succ n ih =>
    intro start fuel hf
    obtain ⟨f, rfl⟩ : ∃ f, fuel = f + 1 := ⟨fuel - 1, by omega⟩
    have hm : size * (n + 1) = size * n + size := Nat.mul_succ _ _
    unfold forLoop
    rw [nextBack_ok _ _ (by simp; omega) (by simp; omega)]
    dsimp only [bind_ok]
    rw [show start + size * (n + 1) - size = start + size * n by omega, ih start f (by omega)]
    simp only [List.range_succ, List.reverse_append, List.reverse_singleton, List.singleton_append, List.map_cons]
    rfl

end Verif.Font
