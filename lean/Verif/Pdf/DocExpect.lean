import Verif.Pdf.Doc
import Verif.Pdf.DocSpec
/- Specification: what a caller of the API expects a reader of the document to see. -/
namespace Verif.Pdf

section
variable {R E : Type} (F : Floats R)

/-- A font that can be embedded: its code points and the widths of all its glyphs can be read. -/
def FontView.Ok (v : FontView E) : Prop :=
  v.codePointsError = none ∧ ∀ i, i < v.glyphCount → ∃ w, v.glyphWidth i = .ok w

/-- The colour requested last: red, green, blue, alpha; `none` if no colour was requested. -/
abbrev Requested (R : Type) := Option (R × R × R × R)

/-- Something the caller asked to be painted, with the colour requested at that time. -/
inductive Expected (R : Type) where
  | rect (x y w h : R) (color : Requested R)
  | text (font : Nat) (glyphs : List Nat) (fontSize ox oy : R) (color : Requested R)

open Classical in
/-- What a sequence of calls asks to be painted. Text in a font that cannot be embedded is not painted: the call
returns an error. -/
noncomputable def expected (font : Nat → FontView E) (color : Requested R) : List (PageOp R) → List (Expected R)
  | [] => []
  | .color r g b a :: ops => expected font (some (r, g, b, a)) ops
  | .rect x y w h :: ops => .rect x y w h color :: expected font color ops
  | .text f glyphs fontSize ox oy :: ops =>
    if (font f).Ok then .text f glyphs fontSize ox oy color :: expected font color ops else expected font color ops

/-- The painted colour is the requested one: the same, or equal as floats; the opacity is the requested one, clamped to
0..1, up to the resolution of 16 bits. Without request, opaque black. -/
def ColorOk (rgb : R × R × R) (alpha : R) : Requested R → Prop
  | none => rgb = (F.zero, F.zero, F.zero) ∧ alpha = F.one
  | some (r, g, b, a) =>
    (rgb = (r, g, b) ∨ (F.ne rgb.1 r = false ∧ F.ne rgb.2.1 g = false ∧ F.ne rgb.2.2 b = false)) ∧
      F.key alpha = F.key (F.clampUnit a)

/-- The matrix from CSS pixels (origin at the top left) to PDF units. -/
def pageMatrix : List (Val R) := [.real F.scaleX, .int 0, .int 0, .real F.scaleY, .int 0, .int 0]

/-- What a reader paints is what was expected. `fontName f n` says that the resource name `n` stands for font `f`. -/
def Matches (fontName : Nat → List Byte → Prop) : Painted R → Expected R → Prop
  | .fill cm path rgb alpha, .rect x y w h color =>
    cm = [pageMatrix F] ∧ path = [(x, y, w, h)] ∧ ColorOk F rgb alpha color
  | .show cm font size matrix s rgb alpha, .text f glyphs fontSize ox oy color =>
    cm = [pageMatrix F] ∧ fontName f font ∧ size = .int 1 ∧
      matrix = [.real fontSize, .int 0, .int 0, .real (F.neg fontSize), .real ox, .real oy] ∧
      decodeCodes s = some glyphs ∧ ColorOk F rgb alpha color
  | _, _ => False

/-- `l` and `l'` have the same length, and corresponding elements are related. -/
def AllMatch {A B : Type} (r : A → B → Prop) : List A → List B → Prop
  | [], [] => True
  | a :: as, b :: bs => r a b ∧ AllMatch r as bs
  | _, _ => False

/-- Assumed of floats: equal floats have equal 16-bit opacities, and these fit 16 bits. -/
structure FloatLaws : Prop where
  key_congr : ∀ a b, F.ne a b = false → F.key a = F.key b
  key_lt : ∀ a, F.key a < 65536

/-- Glyph identifiers are 16-bit (fonts/mod.rs `GlyphId(u16)`). -/
def PageOp.Valid : PageOp R → Prop
  | .text _ glyphs _ _ _ => ∀ g ∈ glyphs, g < 65536
  | _ => True

/-- What is assumed of the fonts of a document: no `#` in a PostScript name (see `C10_violated_name`), characters are
Unicode scalar values and glyph identifiers 16-bit. -/
def FontView.Valid (v : FontView E) : Prop :=
  35 ∉ v.postscriptName ∧ ∀ e ∈ v.codePoints, (e.1 < 0xD800 ∨ (0xE000 ≤ e.1 ∧ e.1 < 0x110000)) ∧ e.2 < 65536

/-- Each element once, in order of first occurrence. -/
def firstUses (acc : List Nat) : List Nat → List Nat
  | [] => acc
  | x :: l => firstUses (if x ∈ acc then acc else acc ++ [x]) l

open Classical in
/-- The fonts in which text was shown successfully by a sequence of calls. -/
noncomputable def shownFonts (font : Nat → FontView E) : List (PageOp R) → List Nat
  | [] => []
  | .text f _ _ _ _ :: ops => if (font f).Ok then f :: shownFonts font ops else shownFonts font ops
  | _ :: ops => shownFonts font ops

/-- A reference to object `id` occurs in a value. -/
inductive Val.HasRef (id gen : Nat) : Val R → Prop
  | here : HasRef id gen (.ref id gen)
  | array {l : List (Val R)} {v : Val R} : v ∈ l → HasRef id gen v → HasRef id gen (.array l)
  | dict {l : List (List Byte × Val R)} {k : List Byte} {v : Val R} : (k, v) ∈ l → HasRef id gen v →
      HasRef id gen (.dict l)

/-- Object `id` of the file is the font `v`, embedded: its PostScript name, all the bytes of its file, the widths of all
its glyphs and its map from glyphs to Unicode. -/
def IsFont (readReal : List Byte → Option R) (file : List Byte) (v : FontView E) (id : Nat) : Prop :=
  ∃ m ws, (∀ fuel, m ≤ fuel → readFont readReal fuel file id = some ⟨v.postscriptName, v.bytes, ws, v.codePoints⟩) ∧
    ws.length = v.glyphCount ∧ ∀ i w, ws[i]? = some w → v.glyphWidth i = .ok w

/-- A history of calls on a document, with fonts as assumed above. -/
structure Valid (font : Nat → FontView E) (pages : List (PageCalls R)) : Prop where
  fonts : ∀ f, (font f).Valid
  ops : ∀ c ∈ pages, ∀ op ∈ c.ops, op.Valid

end

end Verif.Pdf
