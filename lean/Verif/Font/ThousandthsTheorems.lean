/- C117: the widths of glyphs in PDF files. -/
import Verif.Font.Thousandths
import Verif.Float.SingleError
import Verif.Layout.FontUse
import Verif.Font.Example
import Verif.Pdf.DocExpect
namespace Verif.Font
open Verif.Float

/-- What `toEms` and the product are, for lengths of fonts. -/
theorem thousandths_parts {w : Int} {u : Nat} (hw : w.natAbs < 2 ^ 24) (hu : 0 < u) (hu' : u < 2 ^ 24) :
    ∃ b h, toEms w u = .num (decide (w < 0)) b h ∧ b = nearestBits ((w.natAbs : Rat) / u * 2 ^ 149) := by
  obtain ⟨a, ha, e1, a1, a2⟩ := Single.ofInt_exact hw
  obtain ⟨c, hc, e2, c1, c2⟩ := Single.ofNat_exact hu'
  have c0 : c ≠ 0 := by
    rintro rfl
    have h0 : (units 0 : Rat) = 0 := by simp [units]
    rw [h0, zero_div] at c2
    have : u = 0 := by exact_mod_cast c2.symm
    omega
  refine ⟨nearestBits ((w.natAbs : Rat) / u * 2 ^ 149), nearestBits_le _, ?_, rfl⟩
  unfold toEms
  rw [e1, e2]
  simp only [Single.div, Nat.ne_of_lt a1, Nat.ne_of_lt c1, c0, if_false, a2, c2, Bool.bne_false]
  rfl

theorem thousandths_product {b : Nat} {h : b ≤ infinityBits} (n : Bool) (hb : b < infinityBits) :
    Single.mul (.num n b h) (.round 1000) = .num n (nearestBits ((units b : Rat) / 2 ^ 149 * 1000 * 2 ^ 149)) (nearestBits_le _) := by
  obtain ⟨t, ht, e, t1, t2⟩ := Single.thousand_exact
  rw [e]
  simp only [Single.mul, Nat.ne_of_lt hb, Nat.ne_of_lt t1, or_self, if_false, t2, Bool.bne_false]
  rfl

theorem truncated_sign {n : Bool} {b : Nat} {h : b ≤ infinityBits} (hb : units b / 2 ^ 149 < 2 ^ 31) (hf : b < infinityBits) :
    Single.truncated32 (.num n b h) = if n then -((units b / 2 ^ 149 : Nat) : Int) else ((units b / 2 ^ 149 : Nat) : Int) := by
  simp only [Single.truncated32, Nat.ne_of_lt hf, if_false]
  cases n <;> simp only [Bool.false_eq_true, if_false, if_true] <;> omega

/-- C117: if the number of units per em is a power of two, as it is recommended for TrueType fonts, a length of a font is written in a PDF
file in thousandths of an em, rounded towards zero. -/
theorem C117_power_partial (w : Int) (hw : w.natAbs ≤ 65535) (k : Nat) (hk : k < 16) : thousandths w (2 ^ k) = (1000 * w).tdiv (2 ^ k : Nat) := by
  have hu : 2 ^ k < 2 ^ 24 := Nat.pow_lt_pow_right (by decide) (by omega)
  obtain ⟨b, h, e1, e2⟩ := thousandths_parts (w := w) (u := 2 ^ k) (by omega) (by positivity) hu
  have hq : ((w.natAbs : Rat) / (2 ^ k : Nat)) * 2 ^ 149 = (w.natAbs * 2 ^ (149 - k) : Nat) := by
    have : (2 : Rat) ^ 149 = 2 ^ (149 - k) * 2 ^ k := by rw [← pow_add]; congr 1; omega
    push_cast
    rw [this]
    field_simp
  obtain ⟨s1, s2⟩ := nearestBits_scale (m := w.natAbs) (j := 149 - k) (by omega) (by omega)
  rw [hq] at e2
  rw [← e2] at s1 s2
  have hp : (units b : Rat) / 2 ^ 149 * 1000 * 2 ^ 149 = (w.natAbs * 125 * 2 ^ (149 - k + 3) : Nat) := by
    rw [s1]
    push_cast
    rw [pow_add]
    field_simp
    ring
  obtain ⟨t1, t2⟩ := nearestBits_scale (m := w.natAbs * 125) (j := 149 - k + 3) (by omega) (by omega)
  unfold thousandths
  rw [e1, thousandths_product _ s2]
  have hv : units (nearestBits ((units b : Rat) / 2 ^ 149 * 1000 * 2 ^ 149)) / 2 ^ 149 = 1000 * w.natAbs / 2 ^ k := by
    rw [hp, t1]
    have e : w.natAbs * 125 * 2 ^ (149 - k + 3) = 1000 * w.natAbs * 2 ^ (149 - k) := by rw [Nat.pow_add]; ring
    have e' : (2 : Nat) ^ 149 = 2 ^ k * 2 ^ (149 - k) := by rw [← Nat.pow_add]; congr 1; omega
    rw [e, e', Nat.mul_div_mul_right _ _ (by positivity)]
  rw [truncated_sign, hv]
  · rcases Int.lt_or_le w 0 with hn | hn
    · rw [decide_eq_true hn, if_pos rfl]
      have : 1000 * w = -((1000 * w.natAbs : Nat) : Int) := by omega
      rw [this, Int.neg_tdiv]
      rfl
    · rw [decide_eq_false (by omega), if_neg (by simp)]
      have : 1000 * w = ((1000 * w.natAbs : Nat) : Int) := by omega
      rw [this]
      rfl
  · rw [hv]
    exact lt_of_le_of_lt (Nat.div_le_self _ _) (by omega)
  · rw [hp]
    exact t2

theorem truncated_near {n : Bool} {b : Nat} {h : b ≤ infinityBits} (hb : units b / 2 ^ 149 < 2 ^ 31) (hf : b < infinityBits) :
    |(Single.truncated32 (.num n b h) : Rat) - (if n then -1 else 1) * (units b / 2 ^ 149)| < 1 := by
  rw [truncated_sign hb hf]
  have hp : (0 : Rat) < 2 ^ 149 := by positivity
  have h1 : ((units b / 2 ^ 149 : Nat) : Rat) ≤ units b / 2 ^ 149 := by
    rw [le_div_iff₀ hp]
    exact_mod_cast Nat.div_mul_le_self (units b) (2 ^ 149)
  have h2 : (units b : Rat) / 2 ^ 149 < ((units b / 2 ^ 149 : Nat) : Rat) + 1 := by
    rw [div_lt_iff₀ hp]
    have := Nat.lt_div_mul_add (a := units b) (b := 2 ^ 149) (by positivity)
    have h3 : units b < (units b / 2 ^ 149 + 1) * 2 ^ 149 := by rw [Nat.add_mul, Nat.one_mul]; exact this
    exact_mod_cast h3
  rw [abs_lt]
  cases n
  · simp only [Bool.false_eq_true, if_false, Int.cast_natCast, one_mul]
    constructor <;> linarith
  · simp only [if_true, Int.cast_neg, Int.cast_natCast, neg_mul, one_mul]
    constructor <;> linarith

/-- C117: with any number of units per em, a length is written with an error of less than one thousandth of an em and a quarter of a
millionth of the length. -/
theorem C117_close_partial (w : Int) (hw : w.natAbs ≤ 65535) (u : Nat) (hu : 0 < u) (hu' : u < 65536) :
    |(thousandths w u : Rat) - 1000 * w / u| < 1 + |1000 * (w : Rat) / u| / 2 ^ 22 := by
  obtain ⟨b, h, e1, e2⟩ := thousandths_parts (w := w) (u := u) (by omega) hu (by omega)
  have hup : (0 : Rat) < u := by exact_mod_cast hu
  have hu1 : (u : Rat) ≤ 65536 := by exact_mod_cast hu'.le
  have hu2 : (1 : Rat) ≤ u := by exact_mod_cast hu
  by_cases hw0 : w = 0
  · subst hw0
    have : thousandths 0 u = 0 := by
      have hb : b = 0 := by rw [e2]; simp [Single.nearestBits_zero]
      subst hb
      have i0 : 0 < infinityBits := by decide
      unfold thousandths
      rw [e1, thousandths_product _ i0]
      have z : nearestBits ((units 0 : Rat) / 2 ^ 149 * 1000 * 2 ^ 149) = 0 := by simp [units, Single.nearestBits_zero]
      rw [truncated_sign (by rw [z]; decide) (by rw [z]; exact i0), z]
      simp [units]
    rw [this]
    simp
  have hwp : (1 : Rat) ≤ w.natAbs := by exact_mod_cast (show 1 ≤ w.natAbs by omega)
  have hwm : (w.natAbs : Rat) ≤ 65535 := by exact_mod_cast hw
  have hsign : (w : Rat) = (if decide (w < 0) = true then -1 else 1) * (w.natAbs : Rat) := by
    by_cases hn : w < 0
    · rw [decide_eq_true hn, if_pos rfl]
      have : w = -(w.natAbs : Int) := by omega
      have := congrArg (Int.cast (R := Rat)) this
      simp only [Int.cast_neg, Int.cast_natCast] at this
      linarith
    · rw [decide_eq_false hn, if_neg (by simp)]
      have : w = (w.natAbs : Int) := by omega
      have := congrArg (Int.cast (R := Rat)) this
      simp only [Int.cast_neg, Int.cast_natCast] at this
      linarith
  generalize hsg : (if decide (w < 0) = true then (-1 : Rat) else 1) = sg at *
  have hsa : |sg| = 1 := by
    rw [← hsg]
    split <;> norm_num
  -- the quotient
  have hq0 : (1 : Rat) / 65536 ≤ (w.natAbs : Rat) / u := by
    rw [div_le_div_iff₀ (by norm_num) hup]
    nlinarith
  have hq1 : (w.natAbs : Rat) / u ≤ 65535 := by
    rw [div_le_iff₀ hup]
    nlinarith
  generalize hq : (w.natAbs : Rat) / u = q at *
  have hu3 : (2 : Rat) ^ 23 ≤ q * 2 ^ 149 := by
    have : (1 : Rat) / 65536 * 2 ^ 149 ≤ q * 2 ^ 149 := mul_le_mul_of_nonneg_right hq0 (by positivity)
    refine le_trans ?_ this
    norm_num
  have hbf : nearestBits (q * 2 ^ 149) < infinityBits := by
    have hm := nearestBits_mono (x := q * 2 ^ 149) (y := ((65535 * 2 ^ 149 : Nat) : Rat)) (le_trans (by norm_num) hu3)
      (by rw [Nat.cast_mul, Nat.cast_pow]; exact mul_le_mul_of_nonneg_right (by exact_mod_cast hq1) (by positivity))
    exact lt_of_le_of_lt hm (nearestBits_scale (by decide) (by decide)).2
  have herr := nearestBits_error hu3 hbf
  rw [← e2] at hbf herr
  have hb1 : |(units b : Rat) / 2 ^ 149 - q| ≤ q / 2 ^ 24 := by
    have : (units b : Rat) / 2 ^ 149 - q = ((units b : Rat) - q * 2 ^ 149) / 2 ^ 149 := by field_simp
    rw [this, abs_div, abs_of_pos (show (0 : Rat) < 2 ^ 149 by positivity), div_le_iff₀ (by positivity)]
    refine le_trans herr (le_of_eq ?_)
    ring
  generalize hr : (units b : Rat) / 2 ^ 149 = r at *
  rw [abs_le] at hb1
  -- the product
  have hr0 : (1 : Rat) / 131072 ≤ r := by linarith [hb1.1]
  have hr1 : r ≤ 65536 := by linarith [hb1.2]
  have hv3 : (2 : Rat) ^ 23 ≤ r * 1000 * 2 ^ 149 := by
    have : (1 : Rat) / 131072 * 1000 * 2 ^ 149 ≤ r * 1000 * 2 ^ 149 :=
      mul_le_mul_of_nonneg_right (mul_le_mul_of_nonneg_right hr0 (by norm_num)) (by positivity)
    refine le_trans ?_ this
    norm_num
  have hcm := nearestBits_mono (x := r * 1000 * 2 ^ 149) (y := ((65536 * 125 * 2 ^ 152 : Nat) : Rat)) (le_trans (by norm_num) hv3)
      (by
        have : r * 1000 * 2 ^ 149 ≤ 65536 * 1000 * 2 ^ 149 := mul_le_mul_of_nonneg_right (by linarith) (by positivity)
        refine le_trans this ?_
        norm_num)
  obtain ⟨k1, k2⟩ := nearestBits_scale (m := 65536 * 125) (j := 152) (by decide) (by decide)
  have hcf : nearestBits (r * 1000 * 2 ^ 149) < infinityBits := lt_of_le_of_lt hcm k2
  have hcerr := nearestBits_error hv3 hcf
  have hsmall : units (nearestBits (r * 1000 * 2 ^ 149)) / 2 ^ 149 < 2 ^ 31 := by
    have := units_strictMono.monotone hcm
    rw [k1] at this
    exact lt_of_le_of_lt (Nat.div_le_div_right this) (by decide +kernel)
  have hc1 : |(units (nearestBits (r * 1000 * 2 ^ 149)) : Rat) / 2 ^ 149 - r * 1000| ≤ r * 1000 / 2 ^ 24 := by
    have : (units (nearestBits (r * 1000 * 2 ^ 149)) : Rat) / 2 ^ 149 - r * 1000 =
        ((units (nearestBits (r * 1000 * 2 ^ 149)) : Rat) - r * 1000 * 2 ^ 149) / 2 ^ 149 := by field_simp
    rw [this, abs_div, abs_of_pos (show (0 : Rat) < 2 ^ 149 by positivity), div_le_iff₀ (by positivity)]
    refine le_trans hcerr (le_of_eq ?_)
    ring
  unfold thousandths
  rw [e1, thousandths_product _ hbf, hr]
  have ht := truncated_near (n := decide (w < 0)) (h := nearestBits_le _) hsmall hcf
  rw [hsg] at ht
  generalize (Single.truncated32 (.num (decide (w < 0)) (nearestBits (r * 1000 * 2 ^ 149)) (nearestBits_le _)) : Rat) = t at ht ⊢
  generalize (units (nearestBits (r * 1000 * 2 ^ 149)) : Rat) / 2 ^ 149 = c at hc1 ht
  have hx : 1000 * (w : Rat) / u = sg * (1000 * q) := by
    rw [hsign, ← hq]
    ring
  rw [hx, abs_mul, hsa, one_mul, abs_of_nonneg (show 0 ≤ 1000 * q by linarith)]
  rw [abs_le] at hc1
  have hd : |sg * c - sg * (1000 * q)| ≤ 1000 * q / 2 ^ 22 := by
    rw [← mul_sub, abs_mul, hsa, one_mul, abs_le]
    constructor <;> linarith [hc1.1, hc1.2, hb1.1, hb1.2]
  calc |t - sg * (1000 * q)| = |(t - sg * c) + (sg * c - sg * (1000 * q))| := by congr 1; ring
    _ ≤ |t - sg * c| + |sg * c - sg * (1000 * q)| := abs_add_le _ _
    _ < 1 + 1000 * q / 2 ^ 22 := by linarith

theorem truncated_mono {a b : Single} (h : Single.ge a b = true) : Single.truncated32 b ≤ Single.truncated32 a := by
  rw [Single.ge_iff] at h
  obtain ⟨ha, hb, hk⟩ := h
  rcases a with _ | ⟨n, a, la⟩
  · exact absurd rfl ha
  rcases b with _ | ⟨m, b, lb⟩
  · exact absurd rfl hb
  have mono : ∀ x y : Nat, x ≤ y → y ≤ infinityBits →
      (Min.min (if x = infinityBits then (2 ^ 31 : Int) else ((units x / 2 ^ 149 : Nat) : Int)) (2 ^ 31)) ≤
      Min.min (if y = infinityBits then (2 ^ 31 : Int) else ((units y / 2 ^ 149 : Nat) : Int)) (2 ^ 31) := by
    intro x y hxy hy
    have := Nat.div_le_div_right (c := 2 ^ 149) (units_strictMono.monotone hxy)
    split <;> split <;> omega
  have pos : ∀ x : Nat, 0 ≤ (if x = infinityBits then (2 ^ 31 : Int) else ((units x / 2 ^ 149 : Nat) : Int)) := by
    intro x
    split <;> omega
  have pa := pos a
  have pb := pos b
  cases n <;> cases m <;> simp only [Single.key, Single.truncated32, Bool.false_eq_true, if_false, if_true] at hk ⊢
  · have := mono b a (by omega) la
    omega
  · omega
  · have a0 : a = 0 := by omega
    have b0 : b = 0 := by omega
    subst a0
    subst b0
    decide
  · have := mono a b (by omega) lb
    omega

/-- C117: of two lengths of a font, the longer is not written as a smaller number, whatever the number of units per em. -/
theorem C117_monotone (w w' : Int) (hw : w.natAbs ≤ 65535) (hw' : w'.natAbs ≤ 65535) (u : Nat) (hu : 0 < u) (hu' : u < 65536)
    (h : w ≤ w') : thousandths w u ≤ thousandths w' u := by
  obtain ⟨up, uf⟩ := Single.ofNat_pos hu (by omega)
  have hge : Single.ge (Single.ofInt w') (Single.ofInt w) = true := by
    refine Single.ge_iff.2 ⟨Single.signed_ne_nan _ _, Single.signed_ne_nan _ _, ?_⟩
    have key : ∀ n : Int, (Single.ofInt n).key = Single.nearestKey n := by
      intro n
      rw [Single.ofInt, Single.key_signed _ _ (Nat.cast_nonneg _)]
      congr 1
      by_cases hn : n < 0
      · rw [decide_eq_true hn, if_pos rfl]
        have e : n = -(n.natAbs : Int) := by omega
        have := congrArg (Int.cast (R := Rat)) e
        simp only [Int.cast_neg, Int.cast_natCast] at this
        exact this.symm
      · rw [decide_eq_false hn, if_neg (by simp)]
        have e : n = (n.natAbs : Int) := by omega
        have := congrArg (Int.cast (R := Rat)) e
        simp only [Int.cast_natCast] at this
        exact this.symm
    rw [key, key]
    exact Single.nearestKey_mono (by exact_mod_cast h)
  have low : Single.Low (Single.ofInt w) := by
    obtain ⟨b, h, e, hb, _⟩ := Single.ofInt_exact (n := w) (by omega)
    rw [e]
    refine ⟨by simp, ?_⟩
    simp only [Single.key]
    split <;> omega
  have low' : Single.Low (toEms w u) := by
    obtain ⟨b, h, e1, e2⟩ := thousandths_parts (w := w) (u := u) (by omega) hu (by omega)
    have hup : (0 : Rat) < u := by exact_mod_cast hu
    have hu2 : (1 : Rat) ≤ u := by exact_mod_cast hu
    have hwm : (w.natAbs : Rat) ≤ 65535 := by exact_mod_cast hw
    have hq1 : (w.natAbs : Rat) / u ≤ ((65535 : Nat) : Rat) := by
      rw [div_le_iff₀ hup]
      push_cast
      nlinarith
    have hb : b < infinityBits := by
      rw [e2]
      have hm := nearestBits_mono (x := (w.natAbs : Rat) / u * 2 ^ 149) (y := ((65535 * 2 ^ 149 : Nat) : Rat)) (by positivity)
        (by rw [Nat.cast_mul, Nat.cast_pow]; exact mul_le_mul_of_nonneg_right hq1 (by positivity))
      exact lt_of_le_of_lt hm (nearestBits_scale (by decide) (by decide)).2
    rw [e1]
    refine ⟨by simp, ?_⟩
    simp only [Single.key]
    split <;> omega
  exact truncated_mono (Single.mul_mono low' (Single.div_mono low hge uf up) (s := .round 1000)
    ⟨by decide +kernel, by decide +kernel, by decide +kernel⟩ (by decide +kernel))

open Verif.Layout Verif.Pdf in
/-- C117: the widths in a PDF file, of a font that was parsed from a file and whose number of units per em is a power of two. The width of a
glyph with a record of its own is that of its record, and the width of every other glyph is that of the last record, in thousandths of an
em rounded down. -/
theorem C117_file_partial {R : Type} (readReal : List Byte → Option R) (file : List Byte) (utf8 : NameText → List Byte) (font : Font)
    (hlen : font.bytes.length < 4294967296) (k : Nat) (hk : k < 16) (hu : font.unitsPerEm = 2 ^ k)
    (hn : 0 < font.horizontalMetrics.count) (id : Nat)
    (h : IsFont readReal file (fontView thousandths utf8 font) id) :
    ∃ m read, (∀ fuel, m ≤ fuel → readFont readReal fuel file id = some read) ∧ read.widths.length = font.glyphCount ∧
      ∀ (i : Nat) (w : Int), read.widths[i]? = some w →
        ∀ advance, U16At font.bytes (font.horizontalMetrics.start + 4 * min i (font.horizontalMetrics.count - 1)) advance →
          w = (1000 * advance / font.unitsPerEm : Nat) := by
  obtain ⟨m, ws, h1, h2, h3⟩ := h
  refine ⟨m, _, h1, h2, ?_⟩
  intro i w hi advance ha
  have hw := h3 i w hi
  have hlt : advance < 65536 := u16At_lt ha
  have hg : font.glyphWidth thousandths i = .ok (thousandths advance font.unitsPerEm) := by
    by_cases hc : i < font.horizontalMetrics.count
    · rw [Nat.min_eq_left (by omega)] at ha
      exact C25_own_width _ font hlen i advance hc ha
    · rw [Nat.min_eq_right (by omega)] at ha
      exact C25_last_width _ font hlen i advance hn (by omega) ha
  simp only [fontView, hg, failable, Except.ok.injEq] at hw
  rw [← hw, hu, C117_power_partial _ (by omega) k hk, Int.tdiv_eq_ediv_of_nonneg (by omega)]
  push_cast
  rfl

/-- Sample file of which the first glyph is 251 thousandths of an em wide. -/
def sampleNarrow : List Byte := sample4.take 206 ++ be16 251 ++ sample4.drop 208

open Verif.Layout in
/-- C117 is violated: of a font file with 1000 units per em, a glyph that is 251 units wide is 250 wide in a PDF file. -/
theorem C117_violated (utf8 : NameText → List Byte) : ∃ font, Font.parse sampleNarrow = .ok font ∧ font.unitsPerEm = 1000 ∧
    font.glyphWidth (fun a u => (a, u)) 0 = .ok (251, 1000) ∧ (fontView thousandths utf8 font).glyphWidth 0 = .ok 250 := by
  refine ⟨sampleParsed sampleNarrow (.format4 (table4 274 3)), by decide +kernel, rfl, by decide +kernel, ?_⟩
  have : (sampleParsed sampleNarrow (.format4 (table4 274 3))).glyphWidth thousandths 0 = .ok 250 := by decide +kernel
  simp only [fontView, this, failable]

/-- C117: whatever the length and the number of units per em, also 0, the number that is written is one of the 32 bit integers. -/
theorem C117_range (w : Int) (u : Nat) : -(2 ^ 31) ≤ thousandths w u ∧ thousandths w u ≤ 2 ^ 31 - 1 := by
  unfold thousandths
  generalize Single.mul (toEms w u) (.round 1000) = s
  cases s with
  | nan => decide
  | num n b h =>
    simp only [Single.truncated32]
    have hm : (0 : Int) ≤ if b = infinityBits then 2 ^ 31 else ((units b / 2 ^ 149 : Nat) : Int) := by
      split
      · decide
      · exact Int.natCast_nonneg _
    generalize (if b = infinityBits then (2 : Int) ^ 31 else ((units b / 2 ^ 149 : Nat) : Int)) = m at hm ⊢
    cases n
    · simp only [Bool.false_eq_true, if_false]
      omega
    · simp only [if_true]
      omega

/-- Both ends of the range are reached. -/
theorem C117_example_range : thousandths 5 0 = 2 ^ 31 - 1 ∧ thousandths (-5) 0 = -(2 ^ 31) ∧ thousandths 0 0 = 0 := by decide +kernel

theorem C117_example : thousandths 1366 2048 = 666 ∧ ((1000 * 1366 : Int)).tdiv 2048 = 666 ∧ thousandths (-1366) 2048 = -666 ∧
    thousandths 253 1000 = 252 ∧ thousandths 254 1000 = 254 := by decide +kernel

end Verif.Font
