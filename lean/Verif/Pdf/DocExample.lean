import Verif.Pdf.DocTheorems
/- A document which meets the hypotheses of the theorems about documents. -/
namespace Verif.Pdf

/-- Integers in place of floats. -/
def wholeFloats : Floats Int where
  zero := 0
  one := 1
  scaleX := 3
  scaleY := -3
  mul := (· * ·)
  neg := (- ·)
  ne a b := a ≠ b
  clampUnit a := max 0 (min a 1)
  key a := if a ≤ 0 then 0 else 65535
  dtoa := dtoaWhole

theorem wholeFloats_laws : FloatLaws wholeFloats where
  key_congr a b h := by
    have : a = b := by simpa [wholeFloats] using h
    rw [this]
  key_lt a := by
    simp only [wholeFloats]
    split <;> omega

/-- Three fonts: one that can be embedded, one whose character map is invalid, one whose third glyph has no width. -/
def sampleFont (f : Nat) : FontView String where
  bytes := [0, 1, 0, 0]
  postscriptName := ascii "Sample Sans"
  minX := -100
  minY := -200
  maxX := 900
  maxY := 800
  ascender := 700
  descender := -200
  codePoints := [(65, 1), (0x1F600, 2)]
  codePointsError := if f = 1 then some "invalid" else none
  glyphCount := 3
  glyphWidth i := if f = 2 ∧ i = 2 then .error "beyond the end" else .ok (500 + i)

def samplePages : List (PageCalls Int) := [
  ⟨100, 200, [.rect 1 2 3 4, .color 1 0 0 7, .rect 5 6 7 8, .text 1 [1] 10 20 30, .text 0 [1, 2, 65535] 10 20 30]⟩,
  ⟨100, 300, [.color 0 0 1 0, .text 2 [1] 10 20 30, .text 0 [] 12 1 2, .color 0 0 1 1, .rect 5 6 7 8]⟩]

theorem sample_valid : Valid sampleFont samplePages where
  fonts f := by
    refine ⟨?_, ?_⟩
    · show (35 : Byte) ∉ ascii "Sample Sans"
      decide +kernel
    · intro e he
      simp only [sampleFont, List.mem_cons, List.not_mem_nil, or_false] at he
      rcases he with rfl | rfl
      · exact ⟨by omega, by omega⟩
      · exact ⟨by omega, by omega⟩
  ops c hc op ho := by
    simp only [samplePages, List.mem_cons, List.not_mem_nil, or_false] at hc
    rcases hc with rfl | rfl
    · simp only [List.mem_cons, List.not_mem_nil, or_false] at ho
      rcases ho with rfl | rfl | rfl | rfl | rfl <;> simp [PageOp.Valid]
    · simp only [List.mem_cons, List.not_mem_nil, or_false] at ho
      rcases ho with rfl | rfl | rfl | rfl | rfl <;> simp [PageOp.Valid]

/-- The hypotheses of C13 to C18 hold of a history with two pages, three fonts of which two fail, and changes of colour
and opacity. -/
theorem C13_to_C18_example : RealText wholeFloats.dtoa readWhole ∧ FloatLaws wholeFloats ∧ Valid sampleFont samplePages ∧
    ((runDoc wholeFloats sampleFont samplePages).write wholeFloats).length ≤ 2 ^ 32 ∧
    (sampleFont 0).Ok ∧ ¬ (sampleFont 1).Ok ∧ ¬ (sampleFont 2).Ok := by
  refine ⟨realText_whole, wholeFloats_laws, sample_valid, by decide +kernel, ?_, ?_, ?_⟩
  · refine ⟨rfl, fun i _ => ⟨500 + i, ?_⟩⟩
    simp [sampleFont]
  · intro h; cases h.1
  · intro h
    obtain ⟨w, hw⟩ := h.2 2 (by decide)
    cases hw

end Verif.Pdf
