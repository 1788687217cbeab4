/- **C121**: with single precision numbers, justified lines of plain text end at the right margin, but for some roundings. -/
import Verif.Text.SingleTheorems
import Verif.Float.SingleBounds
import Mathlib.Algebra.BigOperators.Group.List.Basic
import Mathlib.Algebra.Order.BigOperators.Group.List
namespace Verif.Float.Single

theorem value_le_add {a b : Single} (ha : ge a zero = true) (hb : ge b zero = true) (hf : Finite (add a b)) :
    Finite a ∧ Finite b ∧ a.value ≤ (add a b).value ∧ b.value ≤ (add a b).value ∧ 0 ≤ a.value ∧ 0 ≤ b.value := by
  have la := Low.of_nonneg ha
  have lb := Low.of_nonneg hb
  have h1 := ge_iff.1 (add_ge la hb)
  have fa : Finite a := ⟨la.1, la.2, lt_of_le_of_lt h1.2.2 hf.2.2⟩
  have fb : Finite b := by
    rcases lb.cases with rfl | h
    · rw [add_infinity_right la] at hf
      exact absurd hf.2.2 (by simp [infinity, key])
    · exact h
  have a0 : 0 ≤ a.value := by
    have := value_le zero_finite.1 la.1 (ge_iff.1 ha).2.2
    rwa [zero_value] at this
  have b0 : 0 ≤ b.value := by
    have := value_le zero_finite.1 lb.1 (ge_iff.1 hb).2.2
    rwa [zero_value] at this
  refine ⟨fa, fb, value_le la.1 hf.1 h1.2.2, value_le lb.1 hf.1 ?_, a0, b0⟩
  obtain ⟨z, e⟩ := add_finite fa fb
  rw [e, key_round, ← nearestKey_value lb.1]
  exact nearestKey_mono (by linarith)

theorem zero_add' {a : Single} (h : Finite a) : Finite (add zero a) ∧ (add zero a).value = a.value := by
  obtain ⟨z, e⟩ := add_finite zero_finite h
  rw [zero_value, zero_add] at e
  have hk : (add zero a).key = a.key := by rw [e, key_round, nearestKey_value h.1]
  have hn : add zero a ≠ .nan := by rw [e]; exact round_ne_nan _ _
  exact ⟨⟨hn, by rw [hk]; exact h.2.1, by rw [hk]; exact h.2.2⟩,
    le_antisymm (value_le hn h.1 (by omega)) (value_le h.1 hn (by omega))⟩

/-- Sums of numbers that are not negative. -/
theorem foldl_bound {A : Single} (hA : Finite A) (hA1 : 1 / 2 ^ 100 ≤ A.value) (hA2 : A.value ≤ 2 ^ 101) (ws : List Single) :
    ∀ start : Single, ge start zero = true → (∀ w ∈ ws, ge w zero = true) → gt (ws.foldl add start) A = false →
      Finite (ws.foldl add start) ∧ (ws.foldl add start).value ≤ A.value ∧ Finite start ∧ 0 ≤ start.value ∧ start.value ≤ A.value ∧
      (∀ w ∈ ws, Finite w ∧ 0 ≤ w.value ∧ w.value ≤ A.value) ∧
      |(ws.foldl add start).value - (start.value + (ws.map value).sum)| ≤ ws.length * A.value / 2 ^ 23 := by
  induction ws with
  | nil =>
    intro start h0 _ hgt
    simp only [List.foldl_nil] at hgt ⊢
    have ln := Low.of_nonneg h0
    have hle : start.key ≤ A.key := by
      by_contra hc
      rw [gt_iff.2 ⟨ln.1, hA.1, not_le.1 hc⟩] at hgt
      cases hgt
    have hf : Finite start := ⟨ln.1, ln.2, lt_of_le_of_lt hle hA.2.2⟩
    have hs0 : 0 ≤ start.value := by
      have := value_le zero_finite.1 ln.1 (ge_iff.1 h0).2.2
      rwa [zero_value] at this
    have hsA := value_le ln.1 hA.1 hle
    exact ⟨hf, hsA, hf, hs0, hsA, by simp, by simp⟩
  | cons w ws ih =>
    intro start h0 hw hgt
    simp only [List.foldl_cons] at hgt ⊢
    have hw0 := hw w List.mem_cons_self
    have hadd : ge (add start w) zero = true := ge_trans (add_ge (.of_nonneg h0) hw0) h0
    obtain ⟨i1, i2, i3, i4, i5, i6, i7⟩ := ih (add start w) hadd (fun x hx => hw x (List.mem_cons_of_mem _ hx)) hgt
    obtain ⟨v1, v2, v3, v4, v5, v6⟩ := value_le_add h0 hw0 i3
    refine ⟨i1, i2, v1, v5, by linarith, ?_, ?_⟩
    · intro x hx
      rcases List.mem_cons.1 hx with rfl | hx
      · exact ⟨v2, v6, by linarith⟩
      · exact i6 x hx
    · obtain ⟨-, b⟩ := add_bound (B := 2 * A.value) v1 v2 (by rw [abs_of_nonneg (by linarith)]; linarith)
        (by linarith [show (1 : Rat) / 2 ^ 126 ≤ 1 / 2 ^ 100 by norm_num]) (by linarith [show (2 : Rat) * 2 ^ 101 ≤ 2 ^ 127 by norm_num])
      have b' := abs_le.1 b
      have i7' := abs_le.1 i7
      simp only [List.map_cons, List.sum_cons, List.length_cons]
      push_cast
      have e : ((ws.length : Rat) + 1) * A.value / 2 ^ 23 = ws.length * A.value / 2 ^ 23 + 2 * A.value / 2 ^ 24 := by ring
      rw [e]
      exact abs_le.2 ⟨by linarith [b'.1, i7'.1], by linarith [b'.2, i7'.2]⟩

end Verif.Float.Single

namespace Verif.Text.Machine
open Verif.Pdf Verif.Float

/-- Where the segments of a line start. -/
def placeOf (start gap : Single) (ws : List Single) : Nat → Single
  | 0 => start
  | i + 1 => Single.add (placeOf start gap ws i) (Single.add (ws.getD i .zero) gap)

/-- The exact sum of the first widths. -/
def widthsTo (ws : List Single) (i : Nat) : Rat := ((ws.take i).map Single.value).sum

theorem widthsTo_succ {ws : List Single} {i : Nat} (h : i < ws.length) : widthsTo ws (i + 1) = widthsTo ws i + (ws.getD i .zero).value := by
  unfold widthsTo
  rw [List.take_succ_eq_append_getElem h, List.map_append, List.sum_append]
  simp [List.getD_eq_getElem?_getD, List.getElem?_eq_getElem h]

theorem widthsTo_le {ws : List Single} (h0 : ∀ w ∈ ws, 0 ≤ w.value) (i : Nat) : 0 ≤ widthsTo ws i ∧ widthsTo ws i ≤ (ws.map Single.value).sum := by
  have pos : ∀ l : List Single, (∀ w ∈ l, 0 ≤ w.value) → 0 ≤ (l.map Single.value).sum := by
    intro l hl
    apply List.sum_nonneg
    intro x hx
    obtain ⟨w, hw, rfl⟩ := List.mem_map.1 hx
    exact hl w hw
  have h1 := pos (ws.take i) fun w hw => h0 w (List.mem_of_mem_take hw)
  have h2 := pos (ws.drop i) fun w hw => h0 w (List.mem_of_mem_drop hw)
  refine ⟨h1, ?_⟩
  have e : (ws.map Single.value).sum = ((ws.take i).map Single.value).sum + ((ws.drop i).map Single.value).sum := by
    rw [← List.sum_append, ← List.map_append, List.take_append_drop]
  unfold widthsTo
  linarith

/-- The places of segments, when together with the gaps they are at most `2 K` wide. -/
theorem place_bound {start gap : Single} {ws : List Single} {K : Rat} (hs : start.Finite) (hg : gap.Finite) (s0 : 0 ≤ start.value) (g0 : 0 ≤ gap.value)
    (hw : ∀ w ∈ ws, w.Finite ∧ 0 ≤ w.value) (hgap : ∀ w ∈ ws, w.value + gap.value ≤ 4 * K) (hK1 : 1 / 2 ^ 100 ≤ K) (hK2 : K ≤ 2 ^ 110) (hn : ws.length ≤ 2 ^ 17)
    (hall : start.value + (ws.map Single.value).sum + (ws.length - 1 : Nat) * gap.value ≤ 2 * K) (i : Nat) (hi : i < ws.length) :
    (placeOf start gap ws i).Finite ∧
    |(placeOf start gap ws i).value - (start.value + widthsTo ws i + i * gap.value)| ≤ i * (8 * K / 2 ^ 24) ∧
    ∀ j, i = j + 1 → |(placeOf start gap ws i).value - ((placeOf start gap ws j).value + (ws.getD j .zero).value + gap.value)| ≤ 8 * K / 2 ^ 24 := by
  have hK : (0 : Rat) < K := lt_of_lt_of_le (by positivity) hK1
  have hK1' : (1 : Rat) / 2 ^ 126 ≤ 4 * K := by linarith [show (1 : Rat) / 2 ^ 126 ≤ 1 / 2 ^ 100 by norm_num]
  have hK2' : 4 * K ≤ 2 ^ 127 := by linarith [show (4 : Rat) * 2 ^ 110 ≤ 2 ^ 127 by norm_num]
  induction i with
  | zero =>
    refine ⟨hs, ?_, by omega⟩
    simp [placeOf, widthsTo]
  | succ i ih =>
    obtain ⟨i1, i2, -⟩ := ih (by omega)
    have hil : i < ws.length := by omega
    have hmem : ws.getD i .zero ∈ ws := by
      rw [List.getD_eq_getElem?_getD, List.getElem?_eq_getElem hil]
      exact List.getElem_mem hil
    obtain ⟨f1, f2⟩ := hw _ hmem
    have f3 := hgap _ hmem
    obtain ⟨a1, a2⟩ := Single.add_bound (B := 4 * K) f1 hg (by rw [abs_of_nonneg (by linarith)]; exact f3) hK1' hK2'
    have hsucc := widthsTo_succ hil
    have hle := (widthsTo_le (fun w h => (hw w h).2) (i + 1)).2
    have hle0 := (widthsTo_le (fun w h => (hw w h).2) i).1
    have hgs : ((i : Rat) + 1) * gap.value ≤ (ws.length - 1 : Nat) * gap.value := by
      apply mul_le_mul_of_nonneg_right _ g0
      have : i + 1 ≤ ws.length - 1 := by omega
      exact_mod_cast this
    have hi0 : (0 : Rat) ≤ i := by positivity
    have hig : 0 ≤ (i : Rat) * gap.value := by positivity
    have hiK : (i : Rat) * (8 * K / 2 ^ 24) ≤ K := by
      have : (i : Rat) ≤ 2 ^ 17 := by exact_mod_cast (by omega : i ≤ 2 ^ 17)
      calc (i : Rat) * (8 * K / 2 ^ 24) ≤ 2 ^ 17 * (8 * K / 2 ^ 24) := mul_le_mul_of_nonneg_right this (by positivity)
        _ ≤ K := by linarith
    have a3 := abs_le.1 a2
    have i3 := abs_le.1 i2
    obtain ⟨b1, b2⟩ := Single.add_bound (B := 4 * K) i1 a1 (abs_le.2 ⟨by linarith [a3.1, i3.1], by linarith [a3.2, i3.2]⟩) hK1' hK2'
    have b3 := abs_le.1 b2
    have hstep : |(placeOf start gap ws (i + 1)).value - ((placeOf start gap ws i).value + (ws.getD i .zero).value + gap.value)| ≤ 8 * K / 2 ^ 24 := by
      simp only [placeOf]
      exact abs_le.2 ⟨by linarith [a3.1, b3.1], by linarith [a3.2, b3.2]⟩
    refine ⟨b1, ?_, ?_⟩
    · have s3 := abs_le.1 hstep
      push_cast
      rw [hsucc]
      exact abs_le.2 ⟨by linarith [s3.1, i3.1], by linarith [s3.2, i3.2]⟩
    · intro j hj
      obtain rfl : i = j := by omega
      exact hstep

theorem lineCalls_get (address : Nat) (style : Style Single) (baseline gap start : Single) (ws : List Single) (line : List (Piece Single)) :
    ∀ k, ws.drop k = line.map (fun p => segmentWidth single style p.1) →
      (lineCalls single address style baseline gap (placeOf start gap ws k) line).length = line.length ∧
      ∀ (i : Nat) (p : Piece Single), line[i]? = some p → (lineCalls single address style baseline gap (placeOf start gap ws k) line)[i]? =
        some (.text address p.1.glyphs style.fontSize (placeOf start gap ws (k + i)) baseline) := by
  induction line with
  | nil => intro k _; exact ⟨rfl, by simp⟩
  | cons q line ih =>
    intro k hk
    have hd : ws.drop (k + 1) = line.map (fun p => segmentWidth single style p.1) := by
      rw [← List.tail_drop, hk]; rfl
    have hget : ws.getD k .zero = segmentWidth single style q.1 := by
      have : (ws.drop k)[0]? = some (segmentWidth single style q.1) := by rw [hk]; rfl
      rw [List.getElem?_drop, Nat.add_zero] at this
      rw [List.getD_eq_getElem?_getD, this]; rfl
    obtain ⟨i1, i2⟩ := ih (k + 1) hd
    have e : placeOf start gap ws (k + 1) = single.add (placeOf start gap ws k) (single.add (segmentWidth single style q.1) gap) := by
      simp only [placeOf, hget]; rfl
    rw [e] at i1 i2
    refine ⟨by simp only [lineCalls, List.length_cons, i1], ?_⟩
    intro i p hp
    cases i with
    | zero =>
      simp only [List.getElem?_cons_zero, Option.some.injEq] at hp
      subst hp
      rfl
    | succ i =>
      simp only [List.getElem?_cons_succ, lineCalls] at hp ⊢
      rw [i2 i p hp, show k + 1 + i = k + (i + 1) by omega]

end Verif.Text.Machine
