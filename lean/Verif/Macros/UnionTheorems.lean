/- C72: a method of a tagged union runs the arm of the variant of the value. -/
import Verif.Macros.Union
namespace Verif.Macros

/-- The specification, RFC 2195: an enum with `repr(int)` starts with its discriminant, which is the index of the variant, and has the fields of
the variant where a struct with repr(C) with the discriminant and these fields has them. -/
structure Stores (int : IntTy) (variants : List UnionVariant) (memory : List Nat) (index : Nat) (fields : List (List Nat)) : Prop where
  bytes : ∀ b ∈ memory, b < 256
  tag : int.size ≤ memory.length ∧ ofBytes (memory.take int.size) = index
  fields : ∃ v, variants[index]? = some v ∧ fields.length = v.fields.length ∧
    ∀ (i : Nat) (hi : i < v.fields.length) (hf : i < fields.length), ∃ offset,
      (reprC 0 (⟨int.size, int.size⟩ :: v.fields))[i + 1]? = some offset ∧
      slice memory offset v.fields[i].size = fields[i]

private theorem closuresTable_iff {α β : Type} (int : IntTy) (enum : String) :
    ∀ (variants : List UnionVariant) (arms : List (Arm α β)) (before table : List (List Nat → α → β)),
      closuresTable int enum variants arms before = some table ↔
        (∀ a ∈ arms, a.enum = enum) ∧ arms.map (fun a => (a.variant, a.bound)) = variants.map (fun v => (v.name, v.fields.length)) ∧
        table = before ++ (variants.zip arms).map fun p => closure int p.1.fields p.2.block
  | [], [], before, table => by simp [closuresTable, eq_comm]
  | [], a :: arms, before, table => by simp [closuresTable]
  | v :: variants, [], before, table => by simp [closuresTable]
  | v :: variants, a :: arms, before, table => by
    rw [closuresTable]
    split
    · rename_i h
      rw [closuresTable_iff int enum variants arms]
      simp only [List.mem_cons, forall_eq_or_imp, h.1, List.map_cons, h.2.1, h.2.2, List.cons.injEq, true_and, List.zip_cons_cons,
        List.append_assoc, List.cons_append, List.nil_append]
    · rename_i h
      simp only [reduceCtorEq, List.mem_cons, forall_eq_or_imp, List.map_cons, List.cons.injEq, Prod.mk.injEq, false_iff]
      rintro ⟨⟨h1, -⟩, ⟨⟨h2, h3⟩, -⟩, -⟩
      exact h ⟨h1.symm, h2.symm, h3.symm⟩

/-- **C72**: a method compiles if and only if its `match` has one arm for each variant, in their order, that binds all the fields. -/
theorem C72_compiles {α β : Type} (int : IntTy) (enum : String) (variants : List UnionVariant) (arms : List (Arm α β)) :
    (∃ method, callMethod int enum variants arms = some method) ↔
      (∀ a ∈ arms, a.enum = enum) ∧ arms.map (fun a => (a.variant, a.bound)) = variants.map (fun v => (v.name, v.fields.length)) := by
  unfold callMethod
  constructor
  · rintro ⟨m, hm⟩
    rw [Option.map_eq_some_iff] at hm
    obtain ⟨t, ht, -⟩ := hm
    obtain ⟨h1, h2, -⟩ := (closuresTable_iff ..).mp ht
    exact ⟨h1, h2⟩
  · rintro ⟨h1, h2⟩
    rw [(closuresTable_iff int enum variants arms [] _).mpr ⟨h1, h2, rfl⟩]
    exact ⟨_, rfl⟩

private theorem reprC_length : ∀ (ts : List Ty) (o : Nat), (reprC o ts).length = ts.length
  | [], _ => rfl
  | _ :: ts, o => by simp [reprC, reprC_length ts]

/-- **C72**: when a method compiles, a call for a value of the enum runs the block of the arm that names the variant of the value, with the
fields of the value and the arguments of the call, and returns what the block returns. The compiler accepts the enum only if the indices
of the variants fit in the integer type. -/
theorem C72_dispatch {α β : Type} (int : IntTy) (enum : String) (variants : List UnionVariant) (arms : List (Arm α β))
    (hfit : variants.length ≤ if int.signed then 2 ^ (8 * int.size - 1) else 2 ^ (8 * int.size))
    (method : List Nat → α → Option β) (hm : callMethod int enum variants arms = some method)
    (memory : List Nat) (index : Nat) (fields : List (List Nat)) (hs : Stores int variants memory index fields) (arg : α) :
    ∃ v a, variants[index]? = some v ∧ arms[index]? = some a ∧ a.variant = v.name ∧ method memory arg = some (a.block fields arg) := by
  unfold callMethod at hm
  rw [Option.map_eq_some_iff] at hm
  obtain ⟨table, ht, rfl⟩ := hm
  obtain ⟨-, hnames, rfl⟩ := (closuresTable_iff ..).mp ht
  obtain ⟨v, hv, hlen, hf⟩ := hs.fields
  obtain ⟨hlt, hv'⟩ := List.getElem?_eq_some_iff.mp hv
  have hal : arms.length = variants.length := by simpa using congrArg List.length hnames
  have ha : arms[index]? = some arms[index] := List.getElem?_eq_getElem (by omega)
  refine ⟨v, arms[index], hv, ha, ?_, ?_⟩
  · have := congrArg (fun l => l[index]?) hnames
    simp only [List.getElem?_map, ha, hv, Option.map_some, Option.some.injEq, Prod.mk.injEq] at this
    exact this.1
  · have htag : readTag int memory = index := by
      simp only [readTag, slice, List.drop_zero, hs.tag.2]
      split
      · rename_i h
        simp only [Bool.and_eq_true, decide_eq_true_eq] at h
        simp only [h.1, if_true] at hfit
        omega
      · rfl
    simp only [htag, List.nil_append, List.getElem?_map]
    have hz : (variants.zip arms)[index]? = some (v, arms[index]) := by
      rw [List.getElem?_zip_eq_some]
      exact ⟨hv, ha⟩
    rw [hz]
    simp only [Option.map_some, closure, Option.some.injEq]
    congr 1
    have hl : ((reprC 0 (⟨int.size, int.size⟩ :: v.fields)).drop 1).length = v.fields.length := by
      simp [reprC_length]
    apply List.ext_getElem
    · simp [reprC_length, hlen]
    · intro i h1 h2
      obtain ⟨o, ho, hsl⟩ := hf i (by omega) h2
      simp only [List.getElem_map, List.getElem_zip, List.getElem_drop]
      obtain ⟨ho1, ho2⟩ := List.getElem?_eq_some_iff.mp ho
      rw [← hsl]
      have : (reprC 0 (⟨int.size, int.size⟩ :: v.fields))[1 + i]'(by omega) = o := by
        rw [← ho2]; congr 1; omega
      rw [this]

/-! The enum of the test in the code, with a shorter type in place of `String`. -/

/-- `enum Foo { V1(u8, u32), V2(u16), V3 }` with `repr(u16)`. -/
def fooVariants : List UnionVariant := [⟨"V1", [⟨1, 1⟩, ⟨4, 4⟩]⟩, ⟨"V2", [⟨2, 2⟩]⟩, ⟨"V3", []⟩]

/-- A method that returns which arm was run, the fields and the argument. -/
def fooArms : List (Arm Nat (String × List Nat × Nat)) :=
  [⟨"Foo", "V1", 2, fun fs x => ("1", fs.map ofBytes, x)⟩, ⟨"Foo", "V2", 1, fun fs x => ("2", fs.map ofBytes, x)⟩,
    ⟨"Foo", "V3", 0, fun fs x => ("3", fs.map ofBytes, x)⟩]

/-- `V1(7, 258)` in memory: the tag 0, 7, a byte of padding, and 258. -/
def fooValue : List Nat := [0, 0, 7, 99, 2, 1, 0, 0]

theorem fooValue_stores : Stores ⟨2, false⟩ fooVariants fooValue 0 [[7], [2, 1, 0, 0]] where
  bytes := by decide
  tag := by decide
  fields := by
    refine ⟨_, rfl, rfl, ?_⟩
    intro i hi hf
    match i, hi with
    | 0, _ => exact ⟨2, by decide, rfl⟩
    | 1, _ => exact ⟨4, by decide, rfl⟩

example : (callMethod ⟨2, false⟩ "Foo" fooVariants fooArms).map (fun m => m fooValue 5) = some (some ("1", [7, 258], 5)) := by decide
example : (callMethod ⟨2, false⟩ "Foo" fooVariants fooArms.reverse).isNone = true := by decide

end Verif.Macros
