/- The reader of PDF files reads the same with more fuel. -/
import Verif.Pdf.DocSpec
namespace Verif.Pdf
variable {R : Type} (readReal : List Byte → Option R)

theorem read_succ (fuel : Nat) :
    (∀ bs x, readObj readReal fuel bs = some x → readObj readReal (fuel + 1) bs = some x) ∧
    (∀ bs x, readItems readReal fuel bs = some x → readItems readReal (fuel + 1) bs = some x) ∧
    (∀ bs x, readPairs readReal fuel bs = some x → readPairs readReal (fuel + 1) bs = some x) := by
  induction fuel with
  | zero =>
    refine ⟨?_, ?_, ?_⟩
    · intro bs x h; rw [readObj] at h; cases h
    · intro bs x h; rw [readItems] at h; cases h
    · intro bs x h; rw [readPairs] at h; cases h
  | succ fuel ih =>
    obtain ⟨i1, i2, i3⟩ := ih
    refine ⟨?_, ?_, ?_⟩
    · intro bs x h
      rw [readObj] at h ⊢
      split at h
      · exact h
      · exact h
      · exact h
      · exact h
      · obtain ⟨y, hy, e⟩ := Option.map_eq_some_iff.1 h
        rw [i2 _ _ hy]; exact congrArg some e
      · obtain ⟨y, hy, e⟩ := Option.map_eq_some_iff.1 h
        rw [i3 _ _ hy]; exact congrArg some e
      · cases h
    · intro bs x h
      rw [readItems] at h ⊢
      split at h
      · exact h
      · simp only [Option.bind_eq_bind, Option.bind_eq_some_iff] at h
        obtain ⟨y, hy, z, hz, e⟩ := h
        simp only [Option.bind_eq_bind]
        rw [i1 _ _ hy, Option.bind_some, i2 _ _ hz, Option.bind_some]
        exact e
    · intro bs x h
      rw [readPairs] at h ⊢
      split at h
      · exact h
      · simp only [Option.bind_eq_bind, Option.bind_eq_some_iff] at h
        obtain ⟨y, hy, z, hz, e⟩ := h
        simp only [Option.bind_eq_bind]
        rw [i1 _ _ hy, Option.bind_some, i3 _ _ hz, Option.bind_some]
        exact e
      · cases h

variable {readReal}

theorem fuel_mono {A : Type} {f : Nat → Option A} (h : ∀ n x, f n = some x → f (n + 1) = some x) {n m : Nat} (hn : n ≤ m) {x : A}
    (hx : f n = some x) : f m = some x := by
  induction hn with
  | refl => exact hx
  | step _ ih => exact h _ _ ih

theorem readObj_succ {fuel : Nat} {bs : List Byte} {x : Val R × List Byte} (h : readObj readReal fuel bs = some x) :
    readObj readReal (fuel + 1) bs = some x := (read_succ readReal fuel).1 _ _ h

theorem readOps_succ {fuel : Nat} {operands : List (Val R)} {bs : List Byte} {x : List (List (Val R) × List Byte)}
    (h : readOps readReal fuel operands bs = some x) : readOps readReal (fuel + 1) operands bs = some x := by
  induction fuel generalizing operands bs x with
  | zero => rw [readOps] at h; cases h
  | succ fuel ih =>
    rw [readOps] at h ⊢
    split at h
    · exact h
    · split at h
      · obtain ⟨y, hy, e⟩ := Option.map_eq_some_iff.1 h
        rw [ih hy]; exact congrArg some e
      · split at h
        · rename_i h1
          rw [readObj_succ h1]
          exact ih h
        · cases h

theorem getDict_succ {fuel id : Nat} {file : List Byte} {x : List (List Byte × Val R)} (h : getDict readReal fuel file id = some x) :
    getDict readReal (fuel + 1) file id = some x := by
  unfold getDict at h ⊢
  rcases hx : objectAt file id with _ | r
  · rw [hx] at h; cases h
  · rw [hx] at h
    dsimp only at h ⊢
    split at h
    · rename_i h1; rw [readObj_succ h1]; exact h
    · cases h

theorem readStream_succ {fuel : Nat} {bs : List Byte} {x : List (List Byte × Val R) × List Byte × List Byte}
    (h : readStream readReal fuel bs = some x) : readStream readReal (fuel + 1) bs = some x := by
  unfold readStream at h ⊢
  split at h
  · rename_i h1; rw [readObj_succ h1]; exact h
  · cases h

theorem getStream_succ {fuel id : Nat} {file : List Byte} {x : List (List Byte × Val R) × List Byte}
    (h : getStream readReal fuel file id = some x) : getStream readReal (fuel + 1) file id = some x := by
  unfold getStream at h ⊢
  rcases hx : objectAt file id with _ | r
  · rw [hx] at h; cases h
  · rw [hx] at h
    dsimp only at h ⊢
    split at h
    · rename_i h1; rw [readStream_succ h1]; exact h
    · cases h

theorem readPage_succ {fuel parent : Nat} {file : List Byte} {kid : Val R} {x : PageRead R} (h : readPage readReal fuel file parent kid = some x) :
    readPage readReal (fuel + 1) file parent kid = some x := by
  simp only [readPage, Option.bind_eq_bind, Option.bind_eq_some_iff] at h ⊢
  obtain ⟨a1, h1, a2, h2, a3, h3, a4, h4, a5, h5, a6, h6, a7, h7, h⟩ := h
  exact ⟨a1, h1, a2, getDict_succ h2, a3, h3, a4, h4, a5, h5, a6, h6, a7, getStream_succ h7, h⟩

theorem readPages_succ {fuel parent : Nat} {file : List Byte} {kids : List (Val R)} {x : List (PageRead R)}
    (h : readPages readReal fuel file parent kids = some x) : readPages readReal (fuel + 1) file parent kids = some x := by
  induction kids generalizing x with
  | nil => exact h
  | cons k ks ih =>
    rw [readPages] at h ⊢
    split at h
    · rename_i h1 h2
      rw [readPage_succ h1, ih h2]
      exact h
    · cases h

theorem readDocument_succ {fuel : Nat} {file : List Byte} {x : DocRead R} (h : readDocument readReal fuel file = some x) :
    readDocument readReal (fuel + 1) file = some x := by
  simp only [readDocument, readTrailer, Option.bind_eq_bind, Option.bind_eq_some_iff] at h ⊢
  obtain ⟨a1, ⟨a2, h2, h1⟩, a3, h3, a4, h4, a5, h5, a6, h6, a7, h7, a8, h8, a9, h9, b1, g1, b2, g2, b3, g3, b4, g4, b5, g5, b6, g6, h⟩ := h
  exact ⟨a1, ⟨a2, h2, readObj_succ h1⟩, a3, h3, a4, h4, a5, getDict_succ h5, a6, h6, a7, h7, a8, getDict_succ h8, a9, h9, b1, g1, b2, g2, b3, g3,
    b4, g4, b5, g5, b6, readPages_succ g6, h⟩

/-- What is read does not depend on the fuel. -/
theorem readDocument_fuel {n m : Nat} {file : List Byte} {x y : DocRead R} (h : readDocument readReal n file = some x)
    (h' : readDocument readReal m file = some y) : x = y := by
  have a := fuel_mono (f := fun k => readDocument readReal k file) (fun _ _ h => readDocument_succ h) (Nat.le_max_left n m) h
  have b := fuel_mono (f := fun k => readDocument readReal k file) (fun _ _ h => readDocument_succ h) (Nat.le_max_right n m) h'
  exact Option.some.inj (a.symm.trans b)

theorem readOps_fuel {n m : Nat} {operands : List (Val R)} {bs : List Byte} {x y : List (List (Val R) × List Byte)}
    (h : readOps readReal n operands bs = some x) (h' : readOps readReal m operands bs = some y) : x = y := by
  have a := fuel_mono (f := fun k => readOps readReal k operands bs) (fun _ _ h => readOps_succ h) (Nat.le_max_left n m) h
  have b := fuel_mono (f := fun k => readOps readReal k operands bs) (fun _ _ h => readOps_succ h) (Nat.le_max_right n m) h'
  exact Option.some.inj (a.symm.trans b)

end Verif.Pdf
