/- C119: which numbers of a PDF file are numbers to its reader. -/
import Verif.Pdf.Dtoa
import Verif.Pdf.DocExample
import Verif.Pdf.ReaderFuel
namespace Verif.Pdf
open Verif.Float

theorem decimal_bounds (n : Nat) (hn : 0 < n) : 10 ^ ((decimal n).length - 1) ≤ n ∧ n < 10 ^ (decimal n).length := by
  induction n using Nat.strongRecOn with
  | ind n ih =>
    rw [decimal_eq]
    split
    · simp only [List.length_singleton, Nat.sub_self, Nat.pow_zero, Nat.pow_one]; omega
    · obtain ⟨h1, h2⟩ := ih (n / 10) (by omega) (by omega)
      have hl := List.length_pos_iff.2 (decimal_ne_nil (n / 10))
      rw [List.length_append, List.length_singleton, Nat.add_sub_cancel]
      obtain ⟨l, hl⟩ : ∃ l, (decimal (n / 10)).length = l + 1 := ⟨_, (Nat.succ_pred_eq_of_pos hl).symm⟩
      rw [hl] at h1 h2 ⊢
      simp only [Nat.add_sub_cancel] at h1
      rw [Nat.pow_succ 10 l]
      rw [Nat.pow_succ 10 (l + 1)]
      omega

theorem digitsValue_zeros (k acc : Nat) : digitsValue acc (List.replicate k 48) = some (acc * 10 ^ k) := by
  induction k generalizing acc with
  | zero => simp [digitsValue]
  | succ k ih =>
    rw [List.replicate_succ, digitsValue, if_pos (by decide), show ((48 : Byte).val - 48) = 0 by decide, Nat.add_zero, ih, Nat.pow_succ]
    congr 1
    ring

/-- Where the point is. -/
theorem point_bounds (n : Nat) (hn : 0 < n) (k : Int) :
    (10 : Rat) ^ (((decimal n).length : Int) + k - 1) ≤ n * 10 ^ k ∧ (n : Rat) * 10 ^ k < 10 ^ (((decimal n).length : Int) + k) := by
  obtain ⟨h1, h2⟩ := decimal_bounds n hn
  have hp : (0 : Rat) < 10 ^ k := by positivity
  have hl := List.length_pos_iff.2 (decimal_ne_nil n)
  constructor
  · rw [show ((decimal n).length : Int) + k - 1 = (((decimal n).length - 1 : Nat) : Int) + k by omega, zpow_add₀ (by norm_num), zpow_natCast]
    exact mul_le_mul_of_nonneg_right (by exact_mod_cast h1) hp.le
  · rw [zpow_add₀ (by norm_num), zpow_natCast]
    exact mul_lt_mul_of_pos_right (by exact_mod_cast h2) hp

/-- From a millionth to 10 to the power of 21 there is no exponent. -/
theorem prettify_plain (n : Nat) (hn : 0 < n) (k : Int) (h1 : 1 / 10 ^ 6 ≤ (n : Rat) * 10 ^ k) (h2 : (n : Rat) * 10 ^ k < 10 ^ 21) (neg : Bool) :
    readDecimal ((if neg then [45] else []) ++ prettify n k) = some (neg, (n : Rat) * 10 ^ k) := by
  obtain ⟨b1, b2⟩ := point_bounds n hn k
  have hd := decimal_isDigit n
  have hl := List.length_pos_iff.2 (decimal_ne_nil n)
  have p1 : -6 < ((decimal n).length : Int) + k := by
    have : (10 : Rat) ^ (-6 : Int) < 10 ^ (((decimal n).length : Int) + k) := lt_of_le_of_lt (by norm_num at h1 ⊢; exact h1) b2
    exact (zpow_lt_zpow_iff_right₀ (by norm_num)).1 this
  have p2 : ((decimal n).length : Int) + k ≤ 21 := by
    have : (10 : Rat) ^ (((decimal n).length : Int) + k - 1) < 10 ^ (21 : Int) := lt_of_le_of_lt b1 (by exact_mod_cast h2)
    have := (zpow_lt_zpow_iff_right₀ (a := (10 : Rat)) (by norm_num)).1 this
    omega
  unfold prettify
  simp only
  by_cases c1 : 0 ≤ k ∧ ((decimal n).length : Int) + k ≤ 21
  · rw [if_pos c1]
    have hv : digitsValue 0 ((decimal n ++ List.replicate k.toNat 48) ++ [48]) = some (n * 10 ^ k.toNat * 10) := by
      rw [digitsValue_append, digitsValue_append, digitsValue_decimal, Option.bind_some, digitsValue_zeros, Option.bind_some, digitsValue,
        if_pos (by decide), digitsValue]
      rfl
    have := readDecimal_digits (a := decimal n ++ List.replicate k.toNat 48) (r := [48]) (by
      intro b hb
      rcases List.mem_append.1 hb with hb | hb
      · exact hd b hb
      · rw [(List.mem_replicate.1 hb).2]; decide) (by simp [decimal_ne_nil]) hv neg
    rw [show (decimal n ++ List.replicate k.toNat 48 ++ [46, 48]) = (decimal n ++ List.replicate k.toNat 48) ++ 46 :: [48] from rfl, this]
    congr 2
    have hk : (10 : Rat) ^ k = 10 ^ k.toNat := by
      conv_lhs => rw [← Int.toNat_of_nonneg c1.1]
      rw [zpow_natCast]
    rw [hk]
    push_cast
    simp
  rw [if_neg c1]
  by_cases c2 : 0 < ((decimal n).length : Int) + k ∧ ((decimal n).length : Int) + k ≤ 21
  · rw [if_pos c2]
    obtain ⟨p, hp⟩ : ∃ p : Nat, ((decimal n).length : Int) + k = p := ⟨_, (Int.toNat_of_nonneg c2.1.le).symm⟩
    rw [hp, Int.toNat_natCast]
    have hv : digitsValue 0 ((decimal n).take p ++ (decimal n).drop p) = some n := by rw [List.take_append_drop, digitsValue_decimal]
    rw [readDecimal_digits (fun b hb => hd b (List.mem_of_mem_take hb)) (by
      intro e
      have := congrArg List.length e
      rw [List.length_take, List.length_nil] at this
      omega) hv neg]
    congr 2
    rw [List.length_drop]
    obtain ⟨q, hq⟩ : ∃ q : Nat, k = -q := ⟨(-k).toNat, by omega⟩
    rw [show (decimal n).length - p = q by omega, hq, zpow_neg, zpow_natCast]
    rfl
  rw [if_neg c2]
  by_cases c3 : -6 < ((decimal n).length : Int) + k ∧ ((decimal n).length : Int) + k ≤ 0
  · rw [if_pos c3]
    obtain ⟨q, hq⟩ : ∃ q : Nat, k = -q := ⟨(-k).toNat, by omega⟩
    obtain ⟨z, hz⟩ : ∃ z : Nat, (-(((decimal n).length : Int) + k)).toNat = z := ⟨_, rfl⟩
    rw [hz]
    have hv : digitsValue 0 ([48] ++ (List.replicate z 48 ++ decimal n)) = some n := by
      rw [digitsValue_append, show digitsValue 0 [48] = some 0 by decide, Option.bind_some, digitsValue_append, digitsValue_zeros, Option.bind_some, Nat.zero_mul, digitsValue_decimal]
    rw [readDecimal_digits (a := [48]) (fun b hb => by rw [List.mem_singleton.1 hb]; rfl) (List.cons_ne_nil _ _) hv neg]
    congr 2
    rw [List.length_append, List.length_replicate, show z + (decimal n).length = q by omega, hq, zpow_neg, zpow_natCast]
    rfl
  · omega

/-- Below and above, there is one, and the text is no number. -/
theorem prettify_exponent (n : Nat) (hn : 0 < n) (k : Int) (h : (n : Rat) * 10 ^ k < 1 / 10 ^ 6 ∨ 10 ^ 21 ≤ (n : Rat) * 10 ^ k) (sign : List Byte) :
    readDecimal (sign ++ prettify n k) = none := by
  obtain ⟨b1, b2⟩ := point_bounds n hn k
  have hp : ((decimal n).length : Int) + k ≤ -6 ∨ 21 < ((decimal n).length : Int) + k := by
    rcases h with h | h
    · left
      have : (10 : Rat) ^ (((decimal n).length : Int) + k - 1) < 10 ^ (-6 : Int) := lt_of_le_of_lt b1 (by norm_num at h ⊢; exact h)
      have := (zpow_lt_zpow_iff_right₀ (a := (10 : Rat)) (by norm_num)).1 this
      omega
    · right
      have : (10 : Rat) ^ (21 : Int) < 10 ^ (((decimal n).length : Int) + k) := lt_of_le_of_lt (by exact_mod_cast h) b2
      exact (zpow_lt_zpow_iff_right₀ (by norm_num)).1 this
  have hl := List.length_pos_iff.2 (decimal_ne_nil n)
  have he : (101 : Byte) ∈ prettify n k := by
    unfold prettify
    simp only
    rw [if_neg (by omega), if_neg (by omega), if_neg (by omega)]
    split <;> simp
  rcases hr : readDecimal (sign ++ prettify n k) with _ | x
  · rfl
  exact absurd ((readDecimal_chars hr).2 101 (List.mem_append_right _ he)) (by decide)

theorem nearestBits_zero_of {bits : Nat} (h : units bits = 0) : bits = 0 := by
  have : units bits = units 0 := by rw [h]; rfl
  exact units_strictMono.injective this

/-- The value is smaller if and only if the bits are. -/
theorem value_lt_iff {neg : Bool} {bits : Nat} {hb : bits ≤ infinityBits} {x : Rat} (hx : 0 < x) :
    ((Single.round x).value < |(Single.num neg bits hb).value| ↔ nearestBits (x * 2 ^ 149) < bits) ∧
    (|(Single.num neg bits hb).value| < (Single.round x).value ↔ bits < nearestBits (x * 2 ^ 149)) := by
  have e1 : (Single.round x).value = units (nearestBits (x * 2 ^ 149)) / 2 ^ 149 := by
    rw [Single.round, if_neg hx.ne', abs_of_pos hx]
    simp only [Single.signed, Single.value, decide_eq_true_eq]
    rw [if_neg (by linarith), one_mul]
  have e2 : |(Single.num neg bits hb).value| = units bits / 2 ^ 149 := by
    have : (0 : Rat) ≤ units bits / 2 ^ 149 := by positivity
    simp only [Single.value]
    cases neg
    · rw [if_neg (by simp), one_mul, abs_of_nonneg this]
    · rw [if_pos rfl, neg_one_mul, abs_neg, abs_of_nonneg this]
  have hp : (0 : Rat) < 2 ^ 149 := by positivity
  rw [e1, e2, div_lt_div_iff_of_pos_right hp, div_lt_div_iff_of_pos_right hp, Nat.cast_lt, Nat.cast_lt, units_strictMono.lt_iff_lt,
    units_strictMono.lt_iff_lt]
  exact ⟨Iff.rfl, Iff.rfl⟩

theorem signed_of_digits {neg : Bool} {bits : Nat} {hb : bits ≤ infinityBits} {q : Rat} (h : nearestBits (q * 2 ^ 149) = bits) :
    Single.signed neg q = .num neg bits hb := by
  subst h
  rfl

theorem dtoaText_zero (digits : Nat → Nat × Int) (neg : Bool) (hb : 0 ≤ infinityBits) :
    dtoaText digits (.num neg 0 hb) = (if neg then [45] else []) ++ ascii "0.0" := by
  rw [dtoaText]
  congr 1

theorem dtoaText_infinity (digits : Nat → Nat × Int) (neg : Bool) (hb : infinityBits ≤ infinityBits) :
    dtoaText digits (.num neg infinityBits hb) = (if neg then [45] else []) ++ ascii "inf" := by
  rw [dtoaText]
  congr 1

theorem dtoaText_digits (digits : Nat → Nat × Int) (neg : Bool) {bits : Nat} (hb : bits ≤ infinityBits) (h0 : bits ≠ 0) (hi : bits ≠ infinityBits) :
    dtoaText digits (.num neg bits hb) = (if neg then [45] else []) ++ prettify (digits bits).1 (digits bits).2 := by
  rw [dtoaText]
  congr 1
  rw [if_neg h0, if_neg hi]

/-- C119: a number between a millionth and 10 to the power of 21 is printed as a PDF number, and is read back, whatever digits are found. -/
theorem C119_plain {digits : Nat → Nat × Int} (hd : FindsDigits digits) (r : Single) (hr : Plain r) :
    readSingle (dtoaText digits r) = some r := by
  rcases r with _ | ⟨neg, bits, hb⟩
  · exact absurd rfl hr.1
  rw [readSingle]
  rcases hr.2 with h0 | ⟨h1, h2⟩
  · have : bits = 0 := by
      apply nearestBits_zero_of
      simp only [Single.value] at h0
      have h0 := (mul_eq_zero.1 h0).resolve_left (by cases neg <;> norm_num)
      have := (div_eq_zero_iff.1 h0).resolve_right (by positivity)
      exact_mod_cast this
    subst this
    rw [dtoaText_zero]
    cases neg
    · show _ = some (Single.num false 0 (Nat.zero_le _))
      decide +kernel
    · show _ = some (Single.num true 0 (Nat.zero_le _))
      decide +kernel
  · rw [(value_lt_iff (by norm_num)).1] at h1
    rw [(value_lt_iff (by norm_num)).2] at h2
    have hi : bits < infinityBits := lt_of_lt_of_le h2 (nearestBits_le _)
    obtain ⟨d1, d2⟩ := hd bits (by omega) hi
    rw [dtoaText_digits digits neg hb (by omega) (by omega), prettify_plain _ d1 _ ?_ ?_ neg, Option.map_some]
    · exact congrArg some (signed_of_digits d2)
    · by_contra hc
      have := nearestBits_mono (x := ((digits bits).1 : Rat) * 10 ^ (digits bits).2 * 2 ^ 149) (y := 1 / 10 ^ 6 * 2 ^ 149) (by positivity)
        (mul_le_mul_of_nonneg_right (le_of_lt (not_le.1 hc)) (by positivity))
      omega
    · by_contra hc
      have := nearestBits_mono (x := 10 ^ 21 * 2 ^ 149) (y := ((digits bits).1 : Rat) * 10 ^ (digits bits).2 * 2 ^ 149) (by positivity)
        (mul_le_mul_of_nonneg_right (not_lt.1 hc) (by positivity))
      omega

/-- C119: no other number is printed as a PDF number, whatever digits are found. -/
theorem C119_exponents {digits : Nat → Nat × Int} (hd : FindsDigits digits) (r : Single) (hr : NotPlain r) :
    readSingle (dtoaText digits r) = none := by
  rcases r with _ | ⟨neg, bits, hb⟩
  · show readSingle (ascii "NaN") = none
    decide +kernel
  rw [readSingle]
  by_cases hinf : bits = infinityBits
  · subst hinf
    rw [dtoaText_infinity]
    cases neg <;> decide +kernel
  rcases hr with hr | ⟨h0, h1⟩ | h1
  · cases hr
  · rw [(value_lt_iff (by norm_num)).2] at h1
    have hz : bits ≠ 0 := by
      rintro rfl
      simp [Single.value, units] at h0
    obtain ⟨d1, d2⟩ := hd bits (by omega) (by omega)
    rw [dtoaText_digits digits neg hb hz hinf, prettify_exponent _ d1 _ (.inl ?_), Option.map_none]
    by_contra hc
    have := nearestBits_mono (x := 1 / 10 ^ 6 * 2 ^ 149) (y := ((digits bits).1 : Rat) * 10 ^ (digits bits).2 * 2 ^ 149) (by positivity)
      (mul_le_mul_of_nonneg_right (not_lt.1 hc) (by positivity))
    omega
  · rw [(value_lt_iff (by norm_num)).1] at h1
    obtain ⟨d1, d2⟩ := hd bits (by omega) (by omega)
    rw [dtoaText_digits digits neg hb (by omega) hinf, prettify_exponent _ d1 _ (.inr ?_), Option.map_none]
    by_contra hc
    have := nearestBits_mono (x := ((digits bits).1 : Rat) * 10 ^ (digits bits).2 * 2 ^ 149) (y := 10 ^ 21 * 2 ^ 149) (by positivity)
      (mul_le_mul_of_nonneg_right (not_le.1 hc).le (by positivity))
    omega

/-- C119: a file (of at most 4 GB) all of whose numbers are zero or between a millionth and 10 to the power of 21, is read, and its pages show what
was painted, with the very same `f32`. -/
theorem C119_file_partial {E : Type} {digits : Nat → Nat × Int} (hd : FindsDigits digits) (font : Nat → FontView E) (pages : List (PageCalls Single))
    (hv : Valid font pages) (hp : ∀ c ∈ pages, ∀ r ∈ c.numbers (singleFloats (dtoaText digits)), Plain r)
    (hs : ((runDoc (singleFloats (dtoaText digits)) font pages).write (singleFloats (dtoaText digits))).length ≤ 2 ^ 32) :
    let F := singleFloats (dtoaText digits)
    ∃ m doc, (∀ fuel, m ≤ fuel → readDocument readSingle fuel ((runDoc F font pages).write F) = some doc) ∧
      AllMatch (fun p c => ∃ painted, (∃ m, ∀ fuel, m ≤ fuel →
          paintContents readSingle .zero .one (gsAlpha doc.extGState) fuel p.contents = some painted) ∧
        AllMatch (Matches F fun f name => ∃ id, dictGet doc.fonts name = some (.ref id 0) ∧ IsFont readSingle ((runDoc F font pages).write F) (font f) id)
          painted (expected font none c.ops)) doc.pages pages :=
  C15_C18_contents_printed (F := singleFloats (dtoaText digits)) (realTextOn_single (C119_plain hd)) (C116_floats _) font pages hv
    (C15_numbers font pages hp) hs

theorem shortestDigits_finds : FindsDigits shortestDigits := by
  intro bits h0 hi
  unfold shortestDigits
  simp only
  split
  · rename_i c hc
    have := List.find?_some hc
    simp only [Bool.and_eq_true, decide_eq_true_eq] at this
    exact this
  · refine ⟨?_, ?_⟩
    · have : units bits ≠ 0 := fun h => by have := nearestBits_zero_of h; omega
      positivity
    · have : ((units bits * 5 ^ 149 : Nat) : Rat) * 10 ^ (-149 : Int) * 2 ^ 149 = units bits := by
        rw [zpow_neg, Nat.cast_mul, Nat.cast_pow, show ((10 : Rat) ^ (149 : Int)) = 10 ^ 149 from rfl]
        have e : (10 : Rat) ^ 149 = 2 ^ 149 * 5 ^ 149 := by rw [← mul_pow]; norm_num
        rw [e]
        field_simp
        norm_num
      rw [this, nearestBits_units (by omega)]

/-- A page with a rectangle at a ten-millionth of a pixel, in pixels. -/
def tinyPages : List (PageCalls Single) := [⟨.round 600, .round 800, [.rect (.round (1 / 10 ^ 7)) .zero .one .one]⟩]

/-- The file of the page. -/
def tinyFile : List Byte := (runDoc (singleFloats (dtoaText shortestDigits)) sampleFont tinyPages).write (singleFloats (dtoaText shortestDigits))

theorem tiny_text : dtoaText shortestDigits (.round (1 / 10 ^ 7)) = ascii "1e-7" := by decide +kernel

theorem execOps_unknown {R : Type} {gs : List Byte → Option R} {ops : List (List (Val R) × List Byte)} (h : ascii "1e-7" ∈ ops.map (·.2)) (s : GState R) :
    execOps gs s ops = none := by
  have hop : ∀ (s : GState R) o, execOp gs s o (ascii "1e-7") = none := fun s o => by
    unfold execOp
    rw [if_neg (by decide), if_neg (by decide), if_neg (by decide), if_neg (by decide), if_neg (by decide), if_neg (by decide),
      if_neg (by decide), if_neg (by decide), if_neg (by decide), if_neg (by decide)]
  induction ops generalizing s with
  | nil => cases h
  | cons a ops ih =>
    obtain ⟨o, k⟩ := a
    rw [execOps.eq_def]
    dsimp only
    rcases List.mem_cons.1 h with e | h
    · dsimp only at e
      rw [← e, hop]
    · rcases execOp gs s o k with _ | ⟨s, p⟩
      · rfl
      · dsimp only
        rw [ih h]

/-- Nothing is painted of contents with an operator that PDF does not have. -/
theorem paintContents_unknown {R : Type} {readReal : List Byte → Option R} {contents : List Byte} {n : Nat} {ops : List (List (Val R) × List Byte)}
    (h : readOps readReal n [] contents = some ops) (hm : ascii "1e-7" ∈ ops.map (·.2)) (zero one : R) (gs : List Byte → Option R) (fuel : Nat) :
    paintContents readReal zero one gs fuel contents = none := by
  unfold paintContents
  rcases h4 : readOps readReal fuel [] contents with _ | ops'
  · rfl
  cases readOps_fuel h4 h
  dsimp only
  rw [execOps_unknown hm]
  rfl

/-- A file with one page, on which such an operator is. -/
theorem file_unknown {R : Type} {readReal : List Byte → Option R} {file : List Byte} {l : List (List Byte)}
    (h : ((readDocument readReal 100 file).map fun d => d.pages.map fun p => (readOps readReal 100 [] p.contents).map fun ops => ops.map (·.2)) =
      some [some l]) (hm : ascii "1e-7" ∈ l) :
    ∃ doc page, doc.pages = [page] ∧ (∀ fuel, 100 ≤ fuel → readDocument readReal fuel file = some doc) ∧
    ∀ zero one gs fuel, paintContents readReal zero one gs fuel page.contents = none := by
  rcases hd : readDocument readReal 100 file with _ | doc
  · rw [hd] at h; cases h
  rw [hd, Option.map_some] at h
  rcases hp : doc.pages with _ | ⟨page, _ | ⟨_, _⟩⟩
  · rw [hp] at h; simp at h
  · refine ⟨doc, page, hp, fun fuel hf => fuel_mono (f := fun k => readDocument readReal k file) (fun _ _ h => readDocument_succ h) hf hd,
      fun zero one gs fuel => ?_⟩
    rw [hp] at h
    simp only [List.map_cons, List.map_nil, Option.some.injEq, List.cons.injEq, and_true] at h
    obtain ⟨ops, h2, rfl⟩ := Option.map_eq_some_iff.1 h
    exact paintContents_unknown h2 hm zero one gs fuel
  · rw [hp] at h; simp at h

/-- C119 does not hold of all numbers: of a page with a rectangle at a ten-millionth of a pixel a file is made that is read, but nothing can be
painted of the page, because `1e-7` is not a number in PDF. -/
theorem C119_violated : ∃ doc page, doc.pages = [page] ∧ (∀ fuel, 100 ≤ fuel → readDocument readSingle fuel tinyFile = some doc) ∧
    ∀ zero one gs fuel, paintContents readSingle zero one gs fuel page.contents = none :=
  file_unknown (l := [ascii "cm", ascii "1e-7", ascii "re", ascii "f"]) (by decide +kernel) (by decide)

/-- A page with a rectangle at a third of a pixel. -/
def thirdPages : List (PageCalls Single) := [⟨.round 600, .round 800, [.rect (.round (1 / 3)) .zero .one .one]⟩]

/-- The hypotheses of `C119_file_partial` are met, with the fewest digits: of a page with a rectangle at a third of a pixel; and how some numbers
are printed. -/
theorem C119_example : FindsDigits shortestDigits ∧ Plain (.round (1 / 3)) ∧ Plain .zero ∧ NotPlain (.round (1 / 10 ^ 7)) ∧ NotPlain (.infinity true) ∧
    dtoaText shortestDigits (.round (-1 / 3)) = ascii "-0.33333334" ∧ dtoaText shortestDigits (.round 16777216) = ascii "16777216.0" ∧
    dtoaText shortestDigits (.round (2 / 10 ^ 5)) = ascii "0.00002" ∧ dtoaText shortestDigits (.round (3 * 10 ^ 30)) = ascii "3e30" ∧
    Valid sampleFont thirdPages ∧ (∀ c ∈ thirdPages, ∀ r ∈ c.numbers (singleFloats (dtoaText shortestDigits)), Plain r) ∧
    ((runDoc (singleFloats (dtoaText shortestDigits)) sampleFont thirdPages).write (singleFloats (dtoaText shortestDigits))).length ≤ 2 ^ 32 := by
  refine ⟨shortestDigits_finds, by unfold Plain; decide +kernel, by unfold Plain; decide +kernel, by unfold NotPlain; decide +kernel,
    by unfold NotPlain; decide +kernel, by decide +kernel, by decide +kernel, by decide +kernel, by decide +kernel, ⟨sample_valid.fonts, ?_⟩,
    by unfold Plain; decide +kernel, by decide +kernel⟩
  intro c hc op hop
  cases List.mem_singleton.1 hc
  cases List.mem_singleton.1 hop
  trivial

end Verif.Pdf
