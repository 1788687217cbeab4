/- C49, C66 and C67: sizes and pixels of image surfaces, rendered pages, and pixels as text. -/
import Verif.Lester.Surface
namespace Verif.Lester

/-! ## C49 -/

private theorem i32ToUsize_iff (n : Int) (v : Nat) : i32ToUsize n = some v ↔ (v : Int) = n := by
  unfold i32ToUsize
  split
  · rw [Option.some.injEq]; omega
  · constructor
    · intro h; simp at h
    · omega

/-- **C49**: a size of type `usize` is converted to the `i32` that is the same number, or the conversion fails because there is none. -/
theorem C49_usize (n : Nat) :
    (∀ v, usizeToI32 n = some v ↔ v = n ∧ v ≤ 2147483647) ∧ (usizeToI32 n = none ↔ (n : Int) > 2147483647) := by
  unfold usizeToI32 i32Max
  constructor
  · intro v
    split
    · constructor
      · intro h; simp at h
      · omega
    · rw [Option.some.injEq]; omega
  · split <;> simp_all

/-- **C49**: an `i32` is converted to the `usize` that is the same number, or the conversion fails because it is negative. -/
theorem C49_i32 (n : Int) : (∀ v : Nat, i32ToUsize n = some v ↔ (v : Int) = n) ∧ (i32ToUsize n = none ↔ n < 0) := by
  refine ⟨i32ToUsize_iff n, ?_⟩
  unfold i32ToUsize
  split
  · constructor
    · intro h; simp at h
    · omega
  · simp_all

/-- **C49**: a length of type `u32` that cairo passes is converted to the `usize` that is the same number. -/
theorem C49_u32 (bits : Nat) (hb : bits = 32 ∨ bits = 64) (n : Nat) (hn : n < 2 ^ 32) : u32ToUsize bits n = some n := by
  unfold u32ToUsize asUsize
  rcases hb with rfl | rfl
  · rw [Nat.mod_eq_of_lt hn]
  · rw [Nat.mod_eq_of_lt (Nat.lt_of_lt_of_le hn (by decide))]

/-- **C49** for numbers of type `f64` that are not NaN: a whole number in the range of `i32` is converted to the same number, and a number
outside this range is not converted. -/
theorem C49_f64_partial (x : F64) (hx : x ≠ .nan) :
    (∀ n : Int, x = .fin n → -2147483648 ≤ n → n ≤ 2147483647 → f64ToI32 x = some n) ∧
    (∀ v, f64ToI32 x = some v → -2147483648 ≤ v ∧ v ≤ 2147483647 ∧ ∃ q : Rat, x = .fin q ∧ -2147483648 ≤ q ∧ q ≤ 2147483647 ∧
      ∀ n : Int, q = n → v = n) := by
  refine ⟨?_, ?_⟩
  · rintro n rfl h1 h2
    have hr : ¬((n : Rat) < (i32Min : Int) ∨ (n : Rat) > (i32Max : Int)) := by
      rw [Rat.intCast_lt_intCast, gt_iff_lt, Rat.intCast_lt_intCast]
      unfold i32Min i32Max
      omega
    simp only [f64ToI32, hr, if_false, truncate, Rat.floor_intCast, Rat.ceil_intCast, ite_self]
  · intro v h
    cases x with
    | nan => exact absurd rfl hx
    | inf b => simp [f64ToI32] at h
    | fin q =>
      simp only [f64ToI32] at h
      split at h
      · simp at h
      · rename_i hr
        rw [not_or, Rat.not_lt, gt_iff_lt, Rat.not_lt] at hr
        simp only [Option.some.injEq] at h
        have h1 : (i32Min : Int) ≤ v := by
          rw [← h, truncate]
          split
          · exact Rat.le_floor_iff.mpr hr.1
          · exact Rat.intCast_le_intCast.mp (Rat.le_trans hr.1 Rat.le_ceil)
        have h2 : v ≤ i32Max := by
          rw [← h, truncate]
          split
          · exact Rat.intCast_le_intCast.mp (Rat.le_trans (Rat.floor_le _) hr.2)
          · exact Rat.ceil_le_iff.mpr hr.2
        refine ⟨h1, h2, q, rfl, hr.1, hr.2, ?_⟩
        rintro n rfl
        rw [← h]
        simp [truncate, Rat.floor_intCast, Rat.ceil_intCast]

/-- **C49** is not so for NaN, which is converted to 0: rendering with NaN pixels per unit does not fail. -/
theorem C49_nan_violated : f64ToI32 .nan = some 0 := rfl

/-- **C49**: a new surface has exactly the size asked for if cairo makes surfaces of the size asked for, or the call fails. -/
theorem C49_new (create : Nat → Int → Int → Surface) (hc : ∀ f w h, (create f w h).width = w ∧ (create f w h).height = h)
    (format width height : Nat) :
    (∀ s, newSurface create format width height = .ok s → s.width = width ∧ s.height = height ∧ s.status = 0) ∧
    ((width : Int) > 2147483647 ∨ (height : Int) > 2147483647 → newSurface create format width height = .panicked) := by
  constructor
  · intro s h
    unfold newSurface at h
    split at h
    · rename_i w' h' hw hh
      rw [((C49_usize width).1 w')] at hw
      rw [((C49_usize height).1 h')] at hh
      simp only [newCInt] at h
      split at h
      · rename_i hst
        injection h with h
        subst h
        rw [(hc _ _ _).1, (hc _ _ _).2]
        exact ⟨hw.1, hh.1, hst⟩
      · simp at h
    · simp at h
  · rintro (h | h)
    · rw [newSurface, (C49_usize width).2.mpr h]
    · rw [newSurface, (C49_usize height).2.mpr h]
      cases usizeToI32 width <;> rfl

private theorem mulI32_some {checks : Bool} {a b v : Int} (h : mulI32 checks a b = some v)
    (hb : checks = true ∨ -2147483648 ≤ a * b ∧ a * b ≤ 2147483647) : v = a * b := by
  unfold mulI32 i32Min i32Max at h
  split at h
  · simpa using h.symm
  · rename_i hr
    rcases hb with hb | hb
    · simp [hb] at h
    · exact absurd hb hr

/-- **C49**: the pixels of a surface have its width and its height, and there are width times height of them; if the product is in the range of
`i32`, which it is for the surfaces of cairo, whose width and height are at most 32767, or if the program is built with overflow checks. -/
theorem C49_pixels_partial (checks : Bool) (s : Surface) (p : Pixels) (h : s.pixels checks = some p)
    (hb : checks = true ∨ s.width * s.height ≤ 2147483647) :
    (p.width : Int) = s.width ∧ (p.height : Int) = s.height ∧ p.length = p.width * p.height := by
  unfold Surface.pixels at h
  split at h
  · simp at h
  · split at h
    · simp at h
    · split at h
      · simp at h
      · split at h
        · simp at h
        · split at h
          · rename_i w h' n hw hh hn
            injection h with h
            subst h
            rw [i32ToUsize_iff] at hw hh
            rw [Option.bind_eq_some_iff] at hn
            obtain ⟨m, hm, hmn⟩ := hn
            rw [i32ToUsize_iff] at hmn
            have hpos : 0 ≤ s.width * s.height := Int.mul_nonneg (by omega) (by omega)
            have := mulI32_some hm (hb.imp id fun h => ⟨by omega, h⟩)
            refine ⟨hw, hh, ?_⟩
            apply Int.ofNat_inj.mp
            rw [Int.natCast_mul, hw, hh, hmn, this]
          · simp at h

/-- **C49**: the pixels of every surface of the two formats that is no larger than cairo makes them are accessible. -/
theorem C49_pixels_returns (checks : Bool) (s : Surface) (hf : s.format = 0 ∨ s.format = 1) (hw : 0 ≤ s.width) (hw' : s.width ≤ 32767)
    (hh : 0 ≤ s.height) (hh' : s.height ≤ 32767) (hs : s.stride = 4 * s.width) (hd : s.data % 4 = 0) : (s.pixels checks).isSome := by
  have hp : 0 ≤ s.width * s.height := Int.mul_nonneg hw hh
  have hp' : s.width * s.height ≤ 32767 * 32767 := Int.mul_le_mul hw' hh' hh (by omega)
  have h1 : mulI32 checks s.width 4 = some (s.width * 4) := by
    unfold mulI32 i32Min i32Max
    rw [if_pos (by omega)]
  have h2 : mulI32 checks s.width s.height = some (s.width * s.height) := by
    unfold mulI32 i32Min i32Max
    rw [if_pos (by omega)]
  have h3 : i32ToUsize s.width = some s.width.toNat := by rw [i32ToUsize_iff]; omega
  have h4 : i32ToUsize s.height = some s.height.toNat := by rw [i32ToUsize_iff]; omega
  have h5 : i32ToUsize (s.width * s.height) = some (s.width * s.height).toNat := by rw [i32ToUsize_iff]; omega
  have hf' : s.format = formatRgb24 ∨ s.format = formatArgb32 := hf.symm
  simp only [Surface.pixels, hf', not_true_eq_false, if_false, h1, show s.stride = s.width * 4 by omega, ne_eq, hd, h2, h3, h4,
    Option.bind_some, h5, Option.isSome_some]

/-- Without overflow checks, **C49** would not be so for surfaces larger than cairo makes them: the buffer is too short. -/
theorem C49_pixels_violated : (⟨0, 65536, 65537, 262144, 0, 0⟩ : Surface).pixels false = some ⟨65536, 65537, 65536⟩ := by decide +kernel

/-- The index of a pixel, as documented for `Argb32Pixels::buffer`. -/
def pixelIndex (width x y : Nat) : Nat := x + width * y

/-- **C49**: the pixels of an image are in its buffer, each at an index of its own, and there is nothing else in the buffer. -/
theorem C49_index (width height : Nat) :
    (∀ x y, x < width → y < height → pixelIndex width x y < width * height) ∧
    (∀ x y x' y', x < width → x' < width → pixelIndex width x y = pixelIndex width x' y' → x = x' ∧ y = y') ∧
    (∀ i, i < width * height → ∃ x y, x < width ∧ y < height ∧ pixelIndex width x y = i) := by
  refine ⟨fun x y hx hy => ?_, fun x y x' y' hx hx' h => ?_, fun i hi => ?_⟩
  · have : width * (y + 1) ≤ width * height := Nat.mul_le_mul_left _ hy
    rw [Nat.mul_add, Nat.mul_one] at this
    unfold pixelIndex
    omega
  · unfold pixelIndex at h
    have hm := congrArg (· % width) h
    have hd := congrArg (· / width) h
    have hw : 0 < width := by omega
    simp only [Nat.add_mul_mod_self_left, Nat.mod_eq_of_lt hx, Nat.mod_eq_of_lt hx'] at hm
    simp only [Nat.add_mul_div_left _ _ hw, Nat.div_eq_of_lt hx, Nat.div_eq_of_lt hx', Nat.zero_add] at hd
    exact ⟨hm, hd⟩
  · have hw : 0 < width := by
      rcases Nat.eq_zero_or_pos width with h | h
      · rw [h, Nat.zero_mul] at hi; omega
      · exact h
    refine ⟨i % width, i / width, Nat.mod_lt _ hw, ?_, Nat.mod_add_div _ _⟩
    exact Nat.div_lt_of_lt_mul hi

example : (⟨1, 3, 2, 12, 4096, 0⟩ : Surface).pixels false = some ⟨3, 2, 6⟩ := by decide +kernel

/-! ## C66 -/

/-- Exact arithmetic: the product of numbers is their product, and there are 96 px and 72 pt in an inch. -/
structure Exact (ar : F64Arith) : Prop where
  mul : ∀ a b : Rat, ar.mul (.fin a) (.fin b) = .fin (a * b)
  pxPerPt : ar.pxPerPt = .fin (96 / 72)

private theorem ceil_f64 {q : Rat} {v : Int} (h : f64ToI32 (F64.fin q).ceil = some v) : v = q.ceil := by
  simp only [F64.ceil, f64ToI32, truncate, Rat.floor_intCast, Rat.ceil_intCast, ite_self] at h
  split at h
  · simp at h
  · simpa using h.symm

private theorem newCInt_ok {create : Nat → Int → Int → Surface} {format : Nat} {w h : Int} {s : Surface}
    (hs : newCInt create format w h = .ok s) : create format w h = s := by
  simp only [newCInt] at hs
  split at hs
  · injection hs
  · simp at hs

/-- **C66**: when a page is rendered with so many pixels per CSS `px`, the image has just enough pixels for the page: scaled as cairo is told
to, the page fits, and with one pixel less in either direction it would not. The page is drawn once, after everything else, and
when the backdrop is white all of the image is painted white before, in a format without transparency. -/
theorem C66_render (ar : F64Arith) (har : Exact ar) (create : Nat → Int → Int → Surface)
    (hc : ∀ f w h, (create f w h).format = f ∧ (create f w h).width = w ∧ (create f w h).height = h) (after : Nat × Nat) (w h x y : Rat)
    (white forPrinting : Bool) (s : Surface) (steps : List RenderStep)
    (hr : renderWithOptions ar create after (.fin w, .fin h) ⟨.fin x, .fin y, white, forPrinting⟩ = .ok (s, steps)) :
    ∃ sx sy before, steps = before ++ [.scale (.fin sx) (.fin sy), .page forPrinting] ∧
      before = (if white then [.setSourceRgb 1 1 1, .paint] else []) ∧ s.format = (if white then formatRgb24 else formatArgb32) ∧
      sx = x * 96 / 72 ∧ sy = y * 96 / 72 ∧
      w * sx ≤ s.width ∧ (s.width : Rat) < w * sx + 1 ∧ h * sy ≤ s.height ∧ (s.height : Rat) < h * sy + 1 := by
  simp only [renderWithOptions, sizeInCssPx, har.pxPerPt, har.mul] at hr
  split at hr
  · rename_i pw ph hw hh
    have hw := ceil_f64 hw
    have hh := ceil_f64 hh
    split at hr
    · simp at hr
    · simp at hr
    · rename_i s' hs
      · have hs := newCInt_ok hs
        split at hr
        · simp at hr
        · split at hr
          · simp at hr
          · injection hr with hr
            injection hr with h1 h2
            have e1 : w * (96 / 72) * x = w * (x * 96 / 72) := by grind
            have e2 : h * (96 / 72) * y = h * (y * 96 / 72) := by grind
            rw [e1] at hw
            rw [e2] at hh
            have hs1 : s.width = (w * (x * 96 / 72)).ceil := by rw [← h1, ← hs, (hc _ _ _).2.1, hw]
            have hs2 : s.height = (h * (y * 96 / 72)).ceil := by rw [← h1, ← hs, (hc _ _ _).2.2, hh]
            refine ⟨x * 96 / 72, y * 96 / 72, _, ?_, rfl, ?_, rfl, rfl, ?_, ?_, ?_, ?_⟩
            · rw [← h2]
              rw [show x * (96 / 72) = x * 96 / 72 by grind, show y * (96 / 72) = y * 96 / 72 by grind]
            · rw [← h1, ← hs, (hc _ _ _).1]
            · rw [hs1]; exact Rat.le_ceil
            · rw [hs1]; exact Rat.ceil_lt
            · rw [hs2]; exact Rat.le_ceil
            · rw [hs2]; exact Rat.ceil_lt
  · simp at hr

/-- Arithmetic for the example. -/
def exampleArith : F64Arith where
  mul a b :=
    match a, b with
    | .fin a, .fin b => .fin (a * b)
    | _, _ => .nan
  pxPerPt := .fin (96 / 72)

example : Exact exampleArith := ⟨fun _ _ => rfl, rfl⟩

/-- An A4 page at 2 pixels per `px`. -/
example : (match renderWithOptions exampleArith (fun f w h => ⟨f, w, h, 4 * w, 0, 0⟩) (0, 0) (.fin 595, .fin 842) ⟨.fin 2, .fin 2, true, false⟩ with
    | .ok (s, steps) => some (s.width, s.height, steps)
    | _ => none) = some (1587, 2246, [.setSourceRgb 1 1 1, .paint, .scale (.fin (8 / 3)) (.fin (8 / 3)), .page false]) := by decide +kernel

/-- **C49**: whatever the rounding of products, the size of a rendered page is the product rounded up to a whole number, or rendering fails. -/
theorem C49_render (ar : F64Arith) (create : Nat → Int → Int → Surface) (hc : ∀ f w h, (create f w h).width = w ∧ (create f w h).height = h)
    (after : Nat × Nat) (size : F64 × F64) (o : RenderOptions) (w h : Rat) (hw : ar.mul (ar.mul size.1 ar.pxPerPt) o.dppxX = .fin w)
    (hh : ar.mul (ar.mul size.2 ar.pxPerPt) o.dppxY = .fin h) (s : Surface) (steps : List RenderStep)
    (hr : renderWithOptions ar create after size o = .ok (s, steps)) : s.width = w.ceil ∧ s.height = h.ceil := by
  simp only [renderWithOptions, sizeInCssPx, hw, hh] at hr
  split at hr
  · rename_i pw ph hw' hh'
    have hw' := ceil_f64 hw'
    have hh' := ceil_f64 hh'
    split at hr
    · simp at hr
    · simp at hr
    · rename_i s' hs
      · have hs := newCInt_ok hs
        split at hr
        · simp at hr
        · split at hr
          · simp at hr
          · injection hr with hr
            injection hr with h1 h2
            rw [← h1, ← hs, (hc _ _ _).1, (hc _ _ _).2]
            exact ⟨hw', hh'⟩
  · simp at hr

/-! ## C67 -/

private theorem hexDigit_inj {a b : Nat} (ha : a < 16) (hb : b < 16) (h : hexDigit a = hexDigit b) : a = b := by
  unfold hexDigit at h
  split at h <;> split at h <;> omega

private theorem hex8_inj {p q : Nat} (hp : p < 4294967296) (hq : q < 4294967296) (h : hex8 p = hex8 q) : p = q := by
  have hm : ∀ n : Nat, n % 16 < 16 := fun n => Nat.mod_lt _ (by decide)
  simp only [hex8, List.cons.injEq, and_true] at h
  obtain ⟨h1, h2, h3, h4, h5, h6, h7, h8⟩ := h
  have h1 := hexDigit_inj (hm _) (hm _) h1
  have h2 := hexDigit_inj (hm _) (hm _) h2
  have h3 := hexDigit_inj (hm _) (hm _) h3
  have h4 := hexDigit_inj (hm _) (hm _) h4
  have h5 := hexDigit_inj (hm _) (hm _) h5
  have h6 := hexDigit_inj (hm _) (hm _) h6
  have h7 := hexDigit_inj (hm _) (hm _) h7
  have h8 := hexDigit_inj (hm _) (hm _) h8
  omega

private theorem hex8_length (p : Nat) : (hex8 p).length = 8 := rfl

/-- The number that digits stand for. -/
def hexValue (text : List Nat) : Nat := text.foldl (fun n c => 16 * n + (if c < 58 then c - 48 else c - 55)) 0

/-- **C67**: the text that is printed for each pixel is its value in hexadecimal. -/
theorem C67_value (p : Nat) (hp : p < 2 ^ 32) : hexValue (pixelsToHex [p]) = p := by
  have hd : ∀ d, d < 16 → (if hexDigit d < 58 then hexDigit d - 48 else hexDigit d - 55) = d := by
    intro d hd
    unfold hexDigit
    split <;> split <;> omega
  have hm : ∀ n : Nat, n % 16 < 16 := fun n => Nat.mod_lt _ (by decide)
  simp only [pixelsToHex, hex8, hexValue, List.foldl_cons, List.foldl_nil]
  rw [hd _ (hm _), hd _ (hm _), hd _ (hm _), hd _ (hm _), hd _ (hm _), hd _ (hm _), hd _ (hm _), hd _ (hm _)]
  omega

/-- **C67**: when pixels that are not equal are reported, the texts for them are not equal. -/
theorem C67_distinct : ∀ (a b : List Nat), (∀ p ∈ a, p < 2 ^ 32) → (∀ p ∈ b, p < 2 ^ 32) → pixelsToHex a = pixelsToHex b → a = b
  | [], [], _, _, _ => rfl
  | [], [q], _, _, h => by simp [pixelsToHex, hex8] at h
  | [], q :: q' :: b, _, _, h => by simp [pixelsToHex, hex8] at h
  | [p], [], _, _, h => by simp [pixelsToHex, hex8] at h
  | p :: p' :: a, [], _, _, h => by simp [pixelsToHex, hex8] at h
  | [p], [q], ha, hb, h => by
    rw [hex8_inj (ha p (by simp)) (hb q (by simp)) h]
  | [p], q :: q' :: b, _, _, h => by
    have := congrArg List.length h
    simp [pixelsToHex, hex8_length] at this
  | p :: p' :: a, [q], _, _, h => by
    have := congrArg List.length h
    simp [pixelsToHex, hex8_length] at this
  | p :: p' :: a, q :: q' :: b, ha, hb, h => by
    simp only [pixelsToHex, List.append_assoc] at h
    obtain ⟨h1, h2⟩ := List.append_inj h (by rw [hex8_length, hex8_length])
    have h3 := C67_distinct (p' :: a) (q' :: b) (fun x hx => ha x (List.mem_cons_of_mem _ hx)) (fun x hx => hb x (List.mem_cons_of_mem _ hx))
      (List.append_cancel_left h2)
    rw [hex8_inj (ha p (by simp)) (hb q (by simp)) h1, h3]

example : pixelsToHex [0xFF00ABCD, 5] = "FF00ABCD, 00000005".toList.map Char.toNat := by decide +kernel

/-- Reads hexadecimal numbers that are separated by commas, where `n` stands for the digits of the first number already read. -/
def readNumbers (n : Nat) : List Nat → List Nat
  | [] => [n]
  | c :: rest =>
    if c = 44 then n :: readNumbers 0 rest
    else if c = 32 then readNumbers n rest
    else readNumbers (16 * n + (if c < 58 then c - 48 else c - 55)) rest

private theorem readNumbers_digit (n d : Nat) (hd : d < 16) (rest : List Nat) :
    readNumbers n (hexDigit d :: rest) = readNumbers (16 * n + d) rest := by
  have h1 : hexDigit d ≠ 44 := by unfold hexDigit; split <;> omega
  have h2 : hexDigit d ≠ 32 := by unfold hexDigit; split <;> omega
  have h3 : (if hexDigit d < 58 then hexDigit d - 48 else hexDigit d - 55) = d := by unfold hexDigit; split <;> split <;> omega
  rw [readNumbers, if_neg h1, if_neg h2, h3]

private theorem readNumbers_hex8 (p : Nat) (hp : p < 2 ^ 32) (rest : List Nat) : readNumbers 0 (hex8 p ++ rest) = readNumbers p rest := by
  have hm : ∀ n : Nat, n % 16 < 16 := fun n => Nat.mod_lt _ (by decide)
  simp only [hex8, List.cons_append, List.nil_append]
  simp only [readNumbers_digit _ _ (hm _)]
  congr 1
  omega

/-- **C67**: the text that is printed for a buffer has the values of its pixels, in order. -/
theorem C67_values : ∀ ps : List Nat, ps ≠ [] → (∀ p ∈ ps, p < 2 ^ 32) → readNumbers 0 (pixelsToHex ps) = ps
  | [], h, _ => absurd rfl h
  | [p], _, hp => by
    have h := readNumbers_hex8 p (hp p (by simp)) []
    rw [List.append_nil] at h
    rw [pixelsToHex, h, readNumbers]
  | p :: q :: rest, _, hp => by
    have ih := C67_values (q :: rest) (by simp) (fun r hr => hp r (List.mem_cons_of_mem _ hr))
    rw [pixelsToHex, List.append_assoc, readNumbers_hex8 p (hp p (by simp)), List.cons_append, List.cons_append, List.nil_append,
      readNumbers, if_pos rfl, readNumbers, if_neg (by decide), if_pos rfl, ih]
    simp

theorem C67_example_values : readNumbers 0 ("FF00ABCD, 00000005".toList.map Char.toNat) = [0xFF00ABCD, 5] := by decide +kernel

end Verif.Lester
