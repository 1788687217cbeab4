import Verif.Pdf.Doc
import Verif.Pdf.DocSpec
import Verif.Pdf.FileTheorems
/- Helper lemmas for C19: the tokens of a ToUnicode CMap. -/
namespace Verif.Pdf

def cmapToken (bs : List Byte) : Option (Token Empty × List Byte) := nextToken (R := Empty) (fun _ => none) bs

/-- With enough fuel, the tokens of `bs` are `l`. -/
def TokensRead (bs : List Byte) (l : List (Token Empty)) : Prop :=
  ∃ n, ∀ fuel, n ≤ fuel → cmapTokens fuel bs = some l

theorem TokensRead.cons {bs r : List Byte} {t : Token Empty} {l : List (Token Empty)}
    (h : cmapToken bs = some (t, r)) (h1 : TokensRead r l) : TokensRead bs (t :: l) := by
  obtain ⟨n, h1⟩ := h1
  refine ⟨n + 1, ?_⟩
  intro fuel hf
  obtain ⟨f, rfl⟩ : ∃ f, fuel = f + 1 := ⟨fuel - 1, by omega⟩
  rw [cmapTokens]
  unfold cmapToken at h
  split
  · next e =>
    unfold nextToken at h
    rw [e] at h; cases h
  · rw [h]; simp only [h1 f (by omega), Option.map_some]

theorem TokensRead.white {b : Byte} (hb : isWhite b = true) {bs : List Byte} {l : List (Token Empty)}
    (h : TokensRead bs l) : TokensRead (b :: bs) l := by
  obtain ⟨n, h⟩ := h
  refine ⟨n, ?_⟩
  intro fuel hf
  have h := h fuel hf
  cases fuel with
  | zero => cases h
  | succ f =>
    have : (b :: bs : List Byte).dropWhile isWhite = bs.dropWhile isWhite := by
      rw [List.dropWhile_cons, if_pos hb]
    rw [cmapTokens] at h ⊢
    rw [this, nextToken_white hb]
    exact h

theorem TokensRead.newline {bs : List Byte} {l : List (Token Empty)} (h : TokensRead bs l) :
    TokensRead (ascii "\n" ++ bs) l := h.white (b := 10) (by decide)

theorem TokensRead.nil : TokensRead [] [] := ⟨1, fun fuel hf => by
  obtain ⟨f, rfl⟩ : ∃ f, fuel = f + 1 := ⟨fuel - 1, by omega⟩
  rfl⟩

theorem header0 {rest : List Byte} {l : List (Token Empty)} (h : TokensRead rest l) :
    TokensRead (ascii "/CIDInit /ProcSet findresource begin\n" ++ rest) ((.name (ascii "CIDInit")) :: (.name (ascii "ProcSet")) :: (.keyword (ascii "findresource")) :: (.keyword (ascii "begin")) :: l) :=
  .cons (t := .name (ascii "CIDInit")) (r := ascii " /ProcSet findresource begin\n" ++ rest) rfl <|
  .cons (t := .name (ascii "ProcSet")) (r := ascii " findresource begin\n" ++ rest) rfl <|
  .cons (t := .keyword (ascii "findresource")) (r := ascii " begin\n" ++ rest) rfl <|
  .cons (t := .keyword (ascii "begin")) (r := ascii "\n" ++ rest) rfl <|
  .newline h

theorem header1 {rest : List Byte} {l : List (Token Empty)} (h : TokensRead rest l) :
    TokensRead (ascii "12 dict begin\n" ++ rest) ((.int 12) :: (.keyword (ascii "dict")) :: (.keyword (ascii "begin")) :: l) :=
  .cons (t := .int 12) (r := ascii " dict begin\n" ++ rest) rfl <|
  .cons (t := .keyword (ascii "dict")) (r := ascii " begin\n" ++ rest) rfl <|
  .cons (t := .keyword (ascii "begin")) (r := ascii "\n" ++ rest) rfl <|
  .newline h

theorem header2 {rest : List Byte} {l : List (Token Empty)} (h : TokensRead rest l) :
    TokensRead (ascii "begincmap\n" ++ rest) ((.keyword (ascii "begincmap")) :: l) :=
  .cons (t := .keyword (ascii "begincmap")) (r := ascii "\n" ++ rest) rfl <|
  .newline h

theorem header3 {rest : List Byte} {l : List (Token Empty)} (h : TokensRead rest l) :
    TokensRead (ascii "/CIDSystemInfo\n" ++ rest) ((.name (ascii "CIDSystemInfo")) :: l) :=
  .cons (t := .name (ascii "CIDSystemInfo")) (r := ascii "\n" ++ rest) rfl <|
  .newline h

theorem header4 {rest : List Byte} {l : List (Token Empty)} (h : TokensRead rest l) :
    TokensRead (ascii "<< /Registry (Adobe) /Ordering (UCS) /Supplement 0 >> def\n" ++ rest) (.dictOpen :: (.name (ascii "Registry")) :: (.str (ascii "Adobe")) :: (.name (ascii "Ordering")) :: (.str (ascii "UCS")) :: (.name (ascii "Supplement")) :: (.int 0) :: .dictClose :: (.keyword (ascii "def")) :: l) :=
  .cons (t := .dictOpen) (r := ascii " /Registry (Adobe) /Ordering (UCS) /Supplement 0 >> def\n" ++ rest) rfl <|
  .cons (t := .name (ascii "Registry")) (r := ascii " (Adobe) /Ordering (UCS) /Supplement 0 >> def\n" ++ rest) rfl <|
  .cons (t := .str (ascii "Adobe")) (r := ascii " /Ordering (UCS) /Supplement 0 >> def\n" ++ rest) rfl <|
  .cons (t := .name (ascii "Ordering")) (r := ascii " (UCS) /Supplement 0 >> def\n" ++ rest) rfl <|
  .cons (t := .str (ascii "UCS")) (r := ascii " /Supplement 0 >> def\n" ++ rest) rfl <|
  .cons (t := .name (ascii "Supplement")) (r := ascii " 0 >> def\n" ++ rest) rfl <|
  .cons (t := .int 0) (r := ascii " >> def\n" ++ rest) rfl <|
  .cons (t := .dictClose) (r := ascii " def\n" ++ rest) rfl <|
  .cons (t := .keyword (ascii "def")) (r := ascii "\n" ++ rest) rfl <|
  .newline h

theorem header5 {rest : List Byte} {l : List (Token Empty)} (h : TokensRead rest l) :
    TokensRead (ascii "/CMapName /Adobe-Identity-UCS def\n" ++ rest) ((.name (ascii "CMapName")) :: (.name (ascii "Adobe-Identity-UCS")) :: (.keyword (ascii "def")) :: l) :=
  .cons (t := .name (ascii "CMapName")) (r := ascii " /Adobe-Identity-UCS def\n" ++ rest) rfl <|
  .cons (t := .name (ascii "Adobe-Identity-UCS")) (r := ascii " def\n" ++ rest) rfl <|
  .cons (t := .keyword (ascii "def")) (r := ascii "\n" ++ rest) rfl <|
  .newline h

theorem header6 {rest : List Byte} {l : List (Token Empty)} (h : TokensRead rest l) :
    TokensRead (ascii "/CMapType 2 def\n" ++ rest) ((.name (ascii "CMapType")) :: (.int 2) :: (.keyword (ascii "def")) :: l) :=
  .cons (t := .name (ascii "CMapType")) (r := ascii " 2 def\n" ++ rest) rfl <|
  .cons (t := .int 2) (r := ascii " def\n" ++ rest) rfl <|
  .cons (t := .keyword (ascii "def")) (r := ascii "\n" ++ rest) rfl <|
  .newline h

theorem header7 {rest : List Byte} {l : List (Token Empty)} (h : TokensRead rest l) :
    TokensRead (ascii "1 begincodespacerange\n" ++ rest) ((.int 1) :: (.keyword (ascii "begincodespacerange")) :: l) :=
  .cons (t := .int 1) (r := ascii " begincodespacerange\n" ++ rest) rfl <|
  .cons (t := .keyword (ascii "begincodespacerange")) (r := ascii "\n" ++ rest) rfl <|
  .newline h

theorem header8 {rest : List Byte} {l : List (Token Empty)} (h : TokensRead rest l) :
    TokensRead (ascii "<0000> <ffff>\n" ++ rest) ((.str [0, 0]) :: (.str [255, 255]) :: l) :=
  .cons (t := .str [0, 0]) (r := ascii " <ffff>\n" ++ rest) rfl <|
  .cons (t := .str [255, 255]) (r := ascii "\n" ++ rest) rfl <|
  .newline h

theorem header9 {rest : List Byte} {l : List (Token Empty)} (h : TokensRead rest l) :
    TokensRead (ascii "endcodespacerange\n" ++ rest) ((.keyword (ascii "endcodespacerange")) :: l) :=
  .cons (t := .keyword (ascii "endcodespacerange")) (r := ascii "\n" ++ rest) rfl <|
  .newline h

theorem footer0 {rest : List Byte} {l : List (Token Empty)} (h : TokensRead rest l) :
    TokensRead (ascii "endcmap\n" ++ rest) ((.keyword (ascii "endcmap")) :: l) :=
  .cons (t := .keyword (ascii "endcmap")) (r := ascii "\n" ++ rest) rfl <|
  .newline h

theorem footer1 {rest : List Byte} {l : List (Token Empty)} (h : TokensRead rest l) :
    TokensRead (ascii "CMapName currentdict /CMap defineresource pop\n" ++ rest) ((.keyword (ascii "CMapName")) :: (.keyword (ascii "currentdict")) :: (.name (ascii "CMap")) :: (.keyword (ascii "defineresource")) :: (.keyword (ascii "pop")) :: l) :=
  .cons (t := .keyword (ascii "CMapName")) (r := ascii " currentdict /CMap defineresource pop\n" ++ rest) rfl <|
  .cons (t := .keyword (ascii "currentdict")) (r := ascii " /CMap defineresource pop\n" ++ rest) rfl <|
  .cons (t := .name (ascii "CMap")) (r := ascii " defineresource pop\n" ++ rest) rfl <|
  .cons (t := .keyword (ascii "defineresource")) (r := ascii " pop\n" ++ rest) rfl <|
  .cons (t := .keyword (ascii "pop")) (r := ascii "\n" ++ rest) rfl <|
  .newline h

theorem footer2 {rest : List Byte} {l : List (Token Empty)} (h : TokensRead rest l) :
    TokensRead (ascii "end\n" ++ rest) ((.keyword (ascii "end")) :: l) :=
  .cons (t := .keyword (ascii "end")) (r := ascii "\n" ++ rest) rfl <|
  .newline h

end Verif.Pdf
