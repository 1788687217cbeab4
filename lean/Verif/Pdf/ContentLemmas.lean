import Verif.Pdf.DocExpect
import Verif.Pdf.ToUnicodeTheorems
/- Helper lemmas for C13 to C18: reading content streams. -/
namespace Verif.Pdf

section
variable {R : Type} {readReal : List Byte → Option R} {F : Floats R}

/-- An operator: a regular token that starts with a letter and is not `R`. -/
structure IsOperator (k : List Byte) : Prop where
  letter : ∃ b t, k = b :: t ∧ ((65 ≤ b.val ∧ b.val ≤ 90) ∨ (97 ≤ b.val ∧ b.val ≤ 122))
  regular : ∀ b ∈ k, isRegular b = true
  not_r : k ≠ [82]

theorem IsOperator.token (hd : RealText F.dtoa readReal) {k : List Byte} (hk : IsOperator k) {rest : List Byte}
    (hr : ∀ b, rest.head? = some b → isRegular b = false) : nextToken readReal (k ++ rest) = some (.keyword k, rest) := by
  obtain ⟨b, t, rfl, hb⟩ := hk.letter
  rw [nextToken_regular (by simp) hk.regular hr, readInt_letter hb, hd.letter b t hb]

theorem IsOperator.noRef (hd : RealText F.dtoa readReal) {k : List Byte} (hk : IsOperator k) {rest : List Byte}
    (hr : ∀ b, rest.head? = some b → isRegular b = false) : NoRef readReal (k ++ rest) := by
  have e := hk.token hd hr
  refine ⟨?_, ?_⟩
  · intro r h; rw [e] at h; simp only [Option.some.injEq, Prod.mk.injEq, Token.keyword.injEq] at h; exact hk.not_r h.1
  · intro g r2 r3 h; rw [e] at h; cases h

theorem nl_not_regular (l : List Byte) : ∀ b, (10 :: l).head? = some b → isRegular b = false :=
  head_cons (by decide)

theorem opBytes_follow (hd : RealText F.dtoa readReal) {k : List Byte} (hk : IsOperator k) (os : List (Object R))
    (rest : List Byte) : MayFollow readReal (32 :: (opBytes F os k ++ rest)) := by
  refine mayFollow_white (by decide) ?_
  induction os with
  | nil =>
    simp only [opBytes, List.append_assoc]
    exact hk.noRef hd (nl_not_regular _)
  | cons o os ih =>
    simp only [opBytes, List.append_assoc, List.cons_append]
    exact (o.starts hd (mayFollow_white (by decide) ih)).toNoRef

/-- With enough fuel, the operators in `bs` are `l`. -/
def OpsRead (readReal : List Byte → Option R) (acc : List (Val R)) (bs : List Byte)
    (l : List (List (Val R) × List Byte)) : Prop :=
  ∃ n, ∀ fuel, n ≤ fuel → readOps readReal fuel acc bs = some l

theorem dropWhile_of_token {bs r : List Byte} {t : Token R} (h : nextToken readReal bs = some (t, r)) :
    ∃ b l, bs.dropWhile isWhite = b :: l := by
  cases e : bs.dropWhile isWhite with
  | nil => unfold nextToken at h; rw [e] at h; cases h
  | cons b l => exact ⟨b, l, rfl⟩

theorem OpsRead.operator {acc : List (Val R)} {bs r k : List Byte} {l : List (List (Val R) × List Byte)}
    (h : nextToken readReal bs = some (.keyword k, r)) (h1 : OpsRead readReal [] r l) :
    OpsRead readReal acc bs ((acc, k) :: l) := by
  obtain ⟨n, h1⟩ := h1
  refine ⟨n + 1, ?_⟩
  intro fuel hf
  obtain ⟨f, rfl⟩ : ∃ f, fuel = f + 1 := ⟨fuel - 1, by omega⟩
  obtain ⟨b, t, e⟩ := dropWhile_of_token h
  rw [readOps, e]
  simp only [h, h1 f (by omega), Option.map_some]

theorem OpsRead.operand {acc : List (Val R)} {bs r : List Byte} {v : Val R} {l : List (List (Val R) × List Byte)}
    (hk : ∀ k r, nextToken readReal bs ≠ some (.keyword k, r)) (h : ObjReads readReal bs v r)
    (h1 : OpsRead readReal (acc ++ [v]) r l) : OpsRead readReal acc bs l := by
  obtain ⟨n, h1⟩ := h1
  obtain ⟨m, h⟩ := h
  refine ⟨max n m + 1, ?_⟩
  intro fuel hf
  obtain ⟨f, rfl⟩ : ∃ f, fuel = f + 1 := ⟨fuel - 1, by omega⟩
  have hv := h f (by omega)
  obtain ⟨b, t, e⟩ : ∃ b l, bs.dropWhile isWhite = b :: l := by
    cases f with
    | zero => cases hv
    | succ f =>
      rw [readObj] at hv
      cases hn : nextToken readReal bs with
      | none => rw [hn] at hv; cases hv
      | some x => exact dropWhile_of_token hn
  rw [readOps, e]
  cases hn : nextToken readReal bs with
  | none => simp only [hv]; exact h1 f (by omega)
  | some x =>
    obtain ⟨t', r'⟩ := x
    cases t' with
    | keyword k => exact absurd hn (hk k r')
    | _ => simp only [hv]; exact h1 f (by omega)

theorem OpsRead.white {acc : List (Val R)} {b : Byte} {bs : List Byte} {l : List (List (Val R) × List Byte)}
    (hb : isWhite b = true) (h : OpsRead readReal acc bs l) : OpsRead readReal acc (b :: bs) l := by
  obtain ⟨n, h⟩ := h
  refine ⟨n, ?_⟩
  intro fuel hf
  have h := h fuel hf
  cases fuel with
  | zero => cases h
  | succ f =>
    have e : (b :: bs : List Byte).dropWhile isWhite = bs.dropWhile isWhite := by
      rw [List.dropWhile_cons, if_pos hb]
    have eo : readObj readReal f (b :: bs) = readObj readReal f bs := by
      cases f with
      | zero => rfl
      | succ f => simp only [readObj, nextToken_white hb]
    rw [readOps] at h ⊢
    rw [e, nextToken_white hb, eo]
    exact h

theorem OpsRead.op (hd : RealText F.dtoa readReal) {k : List Byte} (hk : IsOperator k) {rest : List Byte}
    {l : List (List (Val R) × List Byte)} (h : OpsRead readReal [] rest l) (os : List (Object R)) :
    ∀ acc, (∀ o ∈ os, o.Plain) →
    OpsRead readReal acc (opBytes F os k ++ rest) ((acc ++ os.map Object.value, k) :: l) := by
  induction os with
  | nil =>
    intro acc _
    simp only [opBytes, List.append_assoc, List.map_nil, List.append_nil]
    exact .operator (hk.token hd (nl_not_regular _)) (.white (by decide) h)
  | cons o os ih =>
    intro acc hp
    simp only [opBytes, List.append_assoc, List.cons_append]
    have hf := opBytes_follow hd hk os rest
    refine .operand (o.starts hd hf).not_keyword (o.reads hd (hp o (by simp)) hf) (.white (by decide) ?_)
    have := ih (acc ++ [o.value]) (fun o ho => hp o (by simp [ho]))
    simpa using this

/-- Operations before they are written. -/
abbrev COps (R : Type) := List (List (Object R) × List Byte)

/-- Their bytes. -/
def opsBytes (F : Floats R) (ops : COps R) : List Byte := ops.flatMap fun o => opBytes F o.1 o.2

/-- Their values. -/
def opsValues (ops : COps R) : List (List (Val R) × List Byte) := ops.map fun o => (o.1.map Object.value, o.2)

/-- They can be read back. -/
def OpsPlain (ops : COps R) : Prop := ∀ o ∈ ops, (∀ x ∈ o.1, x.Plain) ∧ IsOperator o.2

theorem opsBytes_append (a b : COps R) : opsBytes F (a ++ b) = opsBytes F a ++ opsBytes F b := by
  simp [opsBytes]

theorem opsValues_append (a b : COps R) : opsValues (a ++ b) = opsValues a ++ opsValues b := by
  simp [opsValues]

theorem opsRead (hd : RealText F.dtoa readReal) (ops : COps R) (h : OpsPlain ops) :
    OpsRead readReal [] (opsBytes F ops) (opsValues ops) := by
  induction ops with
  | nil =>
    exact ⟨1, fun fuel hf => by
      obtain ⟨f, rfl⟩ : ∃ f, fuel = f + 1 := ⟨fuel - 1, by omega⟩
      rfl⟩
  | cons o ops ih =>
    have := OpsRead.op hd (h o (by simp)).2 (ih (fun o ho => h o (by simp [ho]))) o.1 [] (h o (by simp)).1
    simpa [opsBytes, opsValues] using this

theorem execOps_append (gs : List Byte → Option R) (a b : List (List (Val R) × List Byte)) (s : GState R) :
    execOps gs s (a ++ b) = match execOps gs s a with
      | none => none
      | some (s, ps) => match execOps gs s b with
        | none => none
        | some (s, qs) => some (s, ps ++ qs) := by
  induction a generalizing s with
  | nil =>
    simp only [List.nil_append, execOps]
    cases execOps gs s b with
    | none => rfl
    | some x => rfl
  | cons x a ih =>
    obtain ⟨os, op⟩ := x
    simp only [List.cons_append, execOps]
    cases execOp gs s os op with
    | none => rfl
    | some y =>
      obtain ⟨s', p⟩ := y
      simp only [ih]
      cases execOps gs s' a with
      | none => rfl
      | some z =>
        obtain ⟨s'', ps⟩ := z
        simp only
        cases execOps gs s'' b with
        | none => rfl
        | some w => simp

theorem isOperator_cm : IsOperator (ascii "cm") := ⟨⟨99, [109], rfl, by decide⟩, by decide +kernel, by decide +kernel⟩
theorem isOperator_rg : IsOperator (ascii "rg") := ⟨⟨114, [103], rfl, by decide⟩, by decide +kernel, by decide +kernel⟩
theorem isOperator_gs : IsOperator (ascii "gs") := ⟨⟨103, [115], rfl, by decide⟩, by decide +kernel, by decide +kernel⟩
theorem isOperator_re : IsOperator (ascii "re") := ⟨⟨114, [101], rfl, by decide⟩, by decide +kernel, by decide +kernel⟩
theorem isOperator_f : IsOperator (ascii "f") := ⟨⟨102, [], rfl, by decide⟩, by decide +kernel, by decide +kernel⟩
theorem isOperator_BT : IsOperator (ascii "BT") := ⟨⟨66, [84], rfl, by decide⟩, by decide +kernel, by decide +kernel⟩
theorem isOperator_ET : IsOperator (ascii "ET") := ⟨⟨69, [84], rfl, by decide⟩, by decide +kernel, by decide +kernel⟩
theorem isOperator_Tf : IsOperator (ascii "Tf") := ⟨⟨84, [102], rfl, by decide⟩, by decide +kernel, by decide +kernel⟩
theorem isOperator_Tm : IsOperator (ascii "Tm") := ⟨⟨84, [109], rfl, by decide⟩, by decide +kernel, by decide +kernel⟩
theorem isOperator_Tj : IsOperator (ascii "Tj") := ⟨⟨84, [106], rfl, by decide⟩, by decide +kernel, by decide +kernel⟩

/-! Names of resources. -/

theorem name_plain (c : Byte) (hc : c ≠ 35) (n : Nat) : (35 : Byte) ∉ c :: decimal n := by
  intro h
  rcases List.mem_cons.1 h with h | h
  · exact hc h.symm
  · have := decimal_digits n 35 h; exact absurd this (by decide)

theorem execOp_cm (gs : List Byte → Option R) (s : GState R) (l : List (Val R)) (h : l.length = 6) :
    execOp gs s l (ascii "cm") = some ({ s with cm := s.cm ++ [l] }, []) := by
  unfold execOp; rw [if_pos rfl, if_pos h]

theorem execOp_rg (gs : List Byte → Option R) (s : GState R) (r g b : R) :
    execOp gs s [.real r, .real g, .real b] (ascii "rg") = some ({ s with rgb := (r, g, b) }, []) := by
  unfold execOp; rw [if_neg (by decide +kernel), if_pos rfl]

theorem execOp_gs (gs : List Byte → Option R) (s : GState R) (n : List Byte) :
    execOp gs s [.name n] (ascii "gs") = (gs n).map fun a => ({ s with alpha := a }, []) := by
  unfold execOp; rw [if_neg (by decide +kernel), if_neg (by decide +kernel), if_pos rfl]

theorem execOp_re (gs : List Byte → Option R) (s : GState R) (x y w h : R) :
    execOp gs s [.real x, .real y, .real w, .real h] (ascii "re") =
      some ({ s with path := s.path ++ [(x, y, w, h)] }, []) := by
  unfold execOp
  rw [if_neg (by decide +kernel), if_neg (by decide +kernel), if_neg (by decide +kernel), if_pos rfl]

theorem execOp_f (gs : List Byte → Option R) (s : GState R) : execOp gs s [] (ascii "f") =
    some ({ s with path := [] }, [.fill s.cm s.path s.rgb s.alpha]) := by
  unfold execOp
  rw [if_neg (by decide +kernel), if_neg (by decide +kernel), if_neg (by decide +kernel), if_neg (by decide +kernel), if_pos rfl]

/-- The five operations of `showTextOps`. -/
theorem exec_text (gs : List Byte → Option R) (s : GState R) (ht : s.text = none) (n : List Byte) (size : Val R)
    (m : List (Val R)) (hm : m.length = 6) (t : List Byte) :
    execOps gs s [([], ascii "BT"), ([.name n, size], ascii "Tf"), (m, ascii "Tm"), ([.str t], ascii "Tj"),
      ([], ascii "ET")] = some ({ s with font := some (n, size) }, [.show s.cm n size m t s.rgb s.alpha]) := by
  have k1 : ascii "cm" = [99, 109] := rfl
  have k2 : ascii "rg" = [114, 103] := rfl
  have k3 : ascii "gs" = [103, 115] := rfl
  have k4 : ascii "re" = [114, 101] := rfl
  have k5 : ascii "f" = [102] := rfl
  have k6 : ascii "BT" = [66, 84] := rfl
  have k7 : ascii "ET" = [69, 84] := rfl
  have k8 : ascii "Tf" = [84, 102] := rfl
  have k9 : ascii "Tm" = [84, 109] := rfl
  have k10 : ascii "Tj" = [84, 106] := rfl
  have e1 : ∀ s : GState R, s.text = none → execOp gs s [] (ascii "BT") = some ({ s with text := some none }, []) := by
    intro s hs
    unfold execOp
    simp only [k1, k2, k3, k4, k5, k6, k7, k8, k9, k10]
    rw [if_neg (by decide), if_neg (by decide), if_neg (by decide), if_neg (by decide), if_neg (by decide), if_pos (by trivial), hs]
  have e2 : ∀ s : GState R, execOp gs s [.name n, size] (ascii "Tf") = some ({ s with font := some (n, size) }, []) := by
    intro s
    unfold execOp
    simp only [k1, k2, k3, k4, k5, k6, k7, k8, k9, k10]
    rw [if_neg (by decide), if_neg (by decide), if_neg (by decide), if_neg (by decide), if_neg (by decide),
      if_neg (by decide), if_neg (by decide), if_pos (by trivial)]
  have e3 : ∀ (s : GState R) x, s.text = some x → execOp gs s m (ascii "Tm") = some ({ s with text := some (some m) }, []) := by
    intro s x hs
    unfold execOp
    simp only [k1, k2, k3, k4, k5, k6, k7, k8, k9, k10]
    rw [if_neg (by decide), if_neg (by decide), if_neg (by decide), if_neg (by decide), if_neg (by decide),
      if_neg (by decide), if_neg (by decide), if_neg (by decide), if_pos (by trivial), hs]
    simp only
    rw [if_pos hm]
  have e4 : ∀ (s : GState R), s.text = some (some m) → s.font = some (n, size) →
      execOp gs s [.str t] (ascii "Tj") = some (s, [.show s.cm n size m t s.rgb s.alpha]) := by
    intro s hs hf
    unfold execOp
    simp only [k1, k2, k3, k4, k5, k6, k7, k8, k9, k10]
    rw [if_neg (by decide), if_neg (by decide), if_neg (by decide), if_neg (by decide), if_neg (by decide),
      if_neg (by decide), if_neg (by decide), if_neg (by decide), if_neg (by decide), if_pos (by trivial), hs, hf]
  have e5 : ∀ (s : GState R) x, s.text = some x → execOp gs s [] (ascii "ET") = some ({ s with text := none }, []) := by
    intro s x hs
    unfold execOp
    simp only [k1, k2, k3, k4, k5, k6, k7, k8, k9, k10]
    rw [if_neg (by decide), if_neg (by decide), if_neg (by decide), if_neg (by decide), if_neg (by decide),
      if_neg (by decide), if_pos (by trivial), hs]
  simp only [execOps]
  rw [e1 s ht]; simp only
  rw [e2]; simp only
  rw [e3 _ none rfl]; simp only
  rw [e4 _ rfl rfl]; simp only
  rw [e5 _ (some m) rfl]
  simp only [List.append_nil, List.nil_append, Option.some.injEq, Prod.mk.injEq, and_true]
  cases s
  simp only at ht
  subst ht
  rfl

end

end Verif.Pdf
