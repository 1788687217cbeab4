/- Runs the model on the inputs of the tests in /repo/tests and compares what it gives with the files there, which the code gave. Started
by run.sh. Not part of the proofs: nothing here is used by a theorem. -/
import Verif.Layout.FontUse
import Verif.Layout.Paint
import Verif.Layout.FlowLemmas
import Verif.Style.UserAgent
import Verif.Style.Matching
import Verif.Text.Machine
open Verif.Pdf Verif.Font Verif.Layout

/-- An `f32` as an exact fraction. -/
def ratOf (x : Float32) : Rat :=
  let bits : Nat := x.toBits.toNat
  let e : Nat := bits / 2 ^ 23 % 256
  let m : Nat := bits % 2 ^ 23
  let v : Rat := if e = 0 then (m : Rat) / 2 ^ 149 else if 150 ≤ e then (((m + 2 ^ 23) * 2 ^ (e - 150) : Nat) : Rat) else ((m + 2 ^ 23 : Nat) : Rat) / 2 ^ (150 - e)
  if 2 ^ 31 ≤ bits then -v else v

/-- The shortest decimal that is read as this `f32` (Grisu, as the crate dtoa prints it, for numbers from 0.00001 to 10^21). -/
def dtoa32 (x : Float32) : String := Id.run do
  if x == 0 then return "0.0"
  let a := x.abs
  let v := ratOf a
  let lo := (ratOf (Float32.ofBits (a.toBits - 1)) + v) / 2
  let hi := (ratOf (Float32.ofBits (a.toBits + 1)) + v) / 2
  for k in [0:60] do
    let scale : Rat := (10 ^ k : Nat)
    let digits := (v * scale + 1 / 2).floor
    let c : Rat := digits / scale
    if lo ≤ c ∧ c ≤ hi then
      let whole := digits / (10 ^ k : Nat)
      let frac := toString (digits % (10 ^ k : Nat))
      let frac := if k = 0 then "0" else String.ofList (List.replicate (k - frac.length) '0') ++ frac
      return (if x < 0 then "-" else "") ++ toString whole ++ "." ++ frac
  return "?"

def toBytes (s : String) : List Verif.Pdf.Byte := s.toUTF8.toList.map fun b => Fin.ofNat 256 b.toNat

def floats : Floats Float32 where
  zero := 0
  one := 1
  scaleX := 0.75
  scaleY := -0.75
  mul := (· * ·)
  neg x := -x
  ne a b := a != b
  clampUnit a := if a < 0 then 0 else if 1 < a then 1 else a
  key a := (a * 65535).toUInt16.toNat
  dtoa x := toBytes (dtoa32 x)

/-- object.rs 100-109 on `f32`. -/
def units (n : Int) (upem : Nat) : Int := ((Float32.ofInt n / Float32.ofNat upem) * 1000).toInt32.toInt

def utf8 : NameText → List Verif.Pdf.Byte
  | .chars cs => toBytes (String.ofList (cs.map Char.ofNat))
  | .utf8Lossy b => b

def readBytes (path : String) : IO (List Verif.Pdf.Byte) := do
  let b ← IO.FS.readBinFile path
  return b.toList.map fun b => Fin.ofNat 256 b.toNat

def getFont (path : String) : IO Font := do
  match Font.parse (← readBytes path) with
  | .ok f => return f
  | .err _ => throw (IO.userError s!"{path}: not accepted")
  | .panic => throw (IO.userError s!"{path}: panic")
  | .ub => throw (IO.userError s!"{path}: undefined behaviour")

def glyphsOf (f : Font) (s : String) : IO (List Nat) := s.toList.mapM fun c =>
  match f.glyphId c.toNat with
  | .ok g => pure g
  | _ => throw (IO.userError "no glyph")

def compareFiles (name : String) (ours : List Verif.Pdf.Byte) (path : String) : IO Unit := do
  let theirs ← readBytes path
  let out := ByteArray.mk (ours.map fun b => UInt8.ofNat b.val).toArray
  IO.FS.writeBinFile s!"/tmp/victor-validation/{name}" out
  if ours = theirs then IO.println s!"{name}: all {ours.length} bytes are the same"
  else IO.println s!"{name}: DIFFERENT ({ours.length} and {theirs.length} bytes, the same up to {((ours.zip theirs).takeWhile fun p => p.1 = p.2).length})"

/-- The `f32` nearest to a fraction, by way of `f64`. -/
def f32Of (r : Rat) : Float32 := (Float.ofInt r.num / Float.ofInt r.den).toFloat32

/-! ### tests/pdf.rs: expected.pdf, and tests/alice.rs: alice.pdf -/

#eval show IO Unit from do
  let vera ← getFont "/repo/victor/fonts/vera/Vera.ttf"
  let ahem ← getFont "/repo/tests/fonts/ahem/ahem.ttf"
  let noto ← getFont "/repo/tests/fonts/noto/NotoSansLinearB-Regular.ttf"
  let view (i : Nat) := fontView units utf8 (if i = 0 then vera else if i = 1 then ahem else noto)
  let pages : List (PageCalls Float32) :=
    [⟨140, 50, [.text 0 (← glyphsOf vera "Têst→iimm") 15 10 20, .text 1 (← glyphsOf ahem "pÉX") 15 10 40,
      .text 2 (← glyphsOf noto "𐁉 𐁁𐀓𐀠𐀴𐀍") 15 65 40]⟩,
     ⟨4, 4, [.color 0 0 1 1, .rect 0 1 4 3, .color 1 0 0 0.5, .rect 0 0 1 2]⟩]
  compareFiles "expected.pdf" ((runDoc floats view pages).write floats) "/repo/tests/expected.pdf"

/-- `f32`. -/
def arith : Verif.Text.Machine.Arith Float32 where
  zero := 0
  one := 1
  two := 2
  mmPerIn := 25.4
  pxPerIn := 96
  ofNat := Float32.ofNat
  add := (· + ·)
  sub := (· - ·)
  mul := (· * ·)
  div := (· / ·)
  gt a b := a > b

#eval show IO Unit from do
  let vera ← getFont "/repo/victor/fonts/vera/Vera.ttf"
  let text := ((← IO.FS.readFile "/repo/tests/alice.txt").toList.map Char.toNat)
  let breaks := (← IO.FS.lines "/tmp/victor-validation/breaks.txt").toList.map fun l =>
    match l.splitOn " " with
    | [a, b] => (a.toNat!, b == "1")
    | _ => (0, false)
  let ems (n : Int) (upem : Nat) : Float32 := Float32.ofInt n / Float32.ofNat upem
  let api : Verif.Text.FontApi Float32 (Option FontError) :=
    { glyphId := fun ch => failable (vera.glyphId ch), glyphWidth := fun g => failable (vera.glyphWidth ems g), zero := 0, add := (· + ·) }
  let style : Verif.Text.Machine.Style Float32 := ⟨210, 297, 20, 16, 1.5, ems vera.ascender vera.unitsPerEm, true⟩
  match Verif.Text.Machine.layout arith floats 0 (fontView units utf8 vera) api style text breaks with
  | .error _ => throw (IO.userError "layout failed")
  | .ok doc => compareFiles "plain.pdf" (doc.write floats) "/repo/tests/alice.pdf"

/-! ### tests/reftests -/

open Verif.Dom (SinkOp ElementData)
open Verif.Style (Sel Simple Atom Token Item UaSelector)

/-- A document as html5ever builds it. -/
inductive Html where
  | element (name : String) (attrs : List (String × String)) (children : List Html)
  | text (s : String)
  | comment (s : String)

mutual
/-- The calls for a node below `parent`, with the next number of a node. -/
def Html.ops (parent next : Nat) : Html → List SinkOp × Nat
  | .element name attrs children =>
    let e : ElementData := ⟨⟨none, "http://www.w3.org/1999/xhtml", name⟩, attrs.map fun (n, v) => ⟨⟨none, "", n⟩, v⟩, false⟩
    let rest := Html.opsList next (next + 1) children
    (.createElement e :: .append parent (.node next) :: rest.1, rest.2)
  | .text s => ([.append parent (.text s)], next + 1)
  | .comment s => ([.createComment s, .append parent (.node next)], next + 1)
def Html.opsList (parent next : Nat) : List Html → List SinkOp × Nat
  | [] => ([], next)
  | h :: hs =>
    let a := h.ops parent next
    let b := Html.opsList parent a.2 hs
    (a.1 ++ b.1, b.2)
end

def tokenOf (s : String) : Token :=
  if s.endsWith "px" then .dimension (s.dropEnd 2).toInt! "px"
  else if s.endsWith "em" then .dimension (s.dropEnd 2).toInt! "em"
  else if s.isInt then .number s.toInt! else .ident s

/-- What cssparser finds in the few declarations of these documents. -/
def declarations (s : String) : List Item :=
  ((s.splitOn ";").map fun d => d.trimAscii.toString).filter (· ≠ "") |>.map fun d =>
    match d.splitOn ":" with
    | [name, value] => .declaration name.trimAscii.toString (((value.splitOn " ").filter (· ≠ "")).map tokenOf)
    | _ => .invalid

def compound (s : String) : List Simple :=
  match s.splitOn "." with
  | [t] => [.atom (.type t)]
  | t :: cs => .atom (.type t) :: cs.map fun c => .atom (.cls c)
  | [] => []

def selectorOf (s : String) : Sel :=
  match (s.splitOn " ").filter (· ≠ "") with
  | [] => .compound []
  | a :: l => l.foldl (fun s b => .join s .descendant (compound b)) (.compound (compound a))

def rulesOf (s : String) : List (Verif.Style.SourceRule (UaSelector ⊕ Sel)) :=
  let s := s.map fun c => if c = '\n' then ' ' else c
  (s.splitOn "}").filterMap fun r =>
    match r.splitOn "{" with
    | [sel, ds] => some (some ([.inr (selectorOf sel)], declarations ds))
    | _ => none

def colors : Verif.Style.Colors where
  keyword s := match s with
    | "green" => some (.rgba ⟨0, 128, 0, 255⟩)
    | "blue" => some (.rgba ⟨0, 0, 255, 255⟩)
    | "red" => some (.rgba ⟨255, 0, 0, 255⟩)
    | _ => none
  other _ := none

def engine : Engine (UaSelector ⊕ Sel) where
  colors := colors
  tokenize := declarations
  rulesOf := rulesOf
  specificity s := match s with | .inl u => u.specificity | .inr s => s.specificity
  isMatch s d n := match s with
    | .inl u => ((d.get n).bind Verif.Dom.Node.asElement).any u.matches
    | .inr s => (Verif.Style.matchesSelector d s n).getD false
  ua := match Verif.Style.addStylesheets colors ⟨[]⟩ [Verif.Style.userAgentSheet .inl] with
    | .ok set => set.finish fun s => match s with | .inl u => u.specificity | .inr s => s.specificity
    | _ => ⟨[]⟩

def ems (n : Int) (upem : Nat) : Rat := n / upem

def longhands : List Verif.Style.Longhand :=
  [.fontSize, .color, .position, .float, .display, .top, .left, .bottom, .right, .width, .height, .marginTop, .marginLeft, .marginBottom, .marginRight, .paddingTop, .paddingLeft, .paddingBottom, .paddingRight, .borderTopColor, .borderLeftColor, .borderBottomColor, .borderRightColor, .borderTopStyle, .borderLeftStyle, .borderBottomStyle, .borderRightStyle, .borderTopWidth, .borderLeftWidth, .borderBottomWidth, .borderRightWidth, .backgroundColor]

/-- The same values, computed once. -/
def memo (c : Verif.Style.ComputedValues) : Verif.Style.ComputedValues :=
  let table : List ((p : Verif.Style.Longhand) × p.kind.Value) := longhands.map fun p => ⟨p, c.values p⟩
  let find : List ((p : Verif.Style.Longhand) × p.kind.Value) → (q : Verif.Style.Longhand) → q.kind.Value := fun table q =>
    match table.find? (fun e => e.1 = q) with
    | some e => if h : e.1 = q then h ▸ e.2 else c.values q
    | none => c.values q
  ⟨find table, c.specifiedDisplay⟩

/-- `constructDocument`, with the values of each element computed once. -/
def construct (d : Verif.Dom.Document) : Option BlockFormattingContext := do
  let author ← parseStylesheets engine d
  let root ← d.rootElement d.nodes.length
  let style := memo (← nodeStyle engine author d root none)
  let node ← d.get root
  let children ← styledNodes (fun child parent => (nodeStyle engine author d child (some parent)).map memo) d 1000 style node.firstChild
  constructRoot style children

def render (vera : Font) (name : String) (doc : List Html) : IO Unit := do
  let ops := .appendDoctype "html" "" "" :: (Html.opsList 1 3 doc).1
  match Verif.Dom.Document.new.runOps ops with
  | none => throw (IO.userError s!"{name}: the calls panic")
  | some d =>
    let P : Painter Float32 (Option FontError) := ⟨floats, f32Of, 0, fontView units utf8 vera, ems vera.ascender vera.unitsPerEm⟩
    match (do pure ((← paintDocument P (← layoutRoot (fontApi ems vera) 1000 inOrder (← construct d) ⟨600, 800⟩)).write floats) : Option _) with
    | none => throw (IO.userError s!"{name}: no bytes")
    | some bytes =>
      IO.FS.writeBinFile s!"/tmp/victor-validation/{name}.pdf" (ByteArray.mk (bytes.map fun b => UInt8.ofNat b.val).toArray)
      IO.println s!"{name}: {bytes.length} bytes"

def el := Html.element
def html (attrs : List (String × String)) (head : List Html) (bodyAttrs : List (String × String)) (body : List Html) : List Html :=
  [.element "html" attrs [.element "head" [] head, .element "body" bodyAttrs body]]
def st (s : String) : List (String × String) := [("style", s)]
def link : Html := .element "link" [("rel", "match"), ("href", "x")] []

#eval show IO Unit from do
  let vera ← getFont "/repo/victor/fonts/vera/Vera.ttf"
  let go := render vera
  go "blocks" (html [] [link, .text "\n"] [] [
    el "div" (st "margin: 20px 30px; padding: 5px 20px 30px 40px; background-color: green")
      [.text "\n    ", el "p" [] [.text "\n    "], el "p" [] [.text "\n"]],
    .text "\n", el "style" [] [.text "\np { background-color: blue; width: 200px; height: 100px; margin: 10px 5px 5px }\n"], .text "\n"])
  go "text" (html [] [link, .text "\n"] [] [
    el "p" (st "background-color: green; font-size: 24px") [.comment "", .text "\"'+-.:=EFIL[]_il|¦¨¬¯±–—†‡…∏−", .comment "", ]])
  go "blank" (html [] [link] [] [])
  go "abspos" (html [] [link, .text "\n"] (st "margin:0px") [.text "\n",
    el "div" (st "background-color: green; width: 200px; height: 100px") [.text "\n    ",
      el "div" (st "background-color: blue; position: absolute; top: 20px; left: 70px; width: 50px; height: 30px") [], .text "\n"], .text "\n\n"])
  go "abspos-ref" (html [] [] (st "margin:0px") [.text "\n",
    el "div" (st "background-color: green; padding-left: 70px; padding-top: 20px; width: 130px; height: 80px") [.text "\n    ",
      el "div" (st "background-color: blue; width: 50px; height: 30px") [], .text "\n"], .text "\n\n"])
  go "005a" (html (st "position:absolute;width:100px;height:100px;background-color:blue") [link, .text "\n"] [] [])
  go "005-ref" (html [] [] (st "margin:0px") [.text "\n", el "div" (st "width:100px;height:100px;background-color:blue") [.text "\n"]])
  go "004a" (html (st "position:absolute;left:100px;top:100px;width:100px;height:100px;background-color:blue") [link, .text "\n"] [] [])
  go "004-ref" (html [] [] [] [el "div" (st "position:absolute;top:100px;background-color:blue;left:100px;width:100px;height:100px") [.text "\n"]])
  go "002" (html [] [link, .text "\n", el "style" [] [.text ("\ndiv.outer {\n  position: absolute;\n  height: 200px;\n  width: 200px;\n" ++
      "  background-color: green;\n}\n\ndiv.inner {\n  position: absolute;\n  width: 100px;\n  background-color: red;\n}\n\n" ++
      "div.inner div {\n  height: 100px;\n  width: 100px;\n  background-color: blue;\n}\n")], .text "\n"] [] [.text "\n",
    el "div" [("class", "outer")] [.text "\n  ", el "div" [("class", "inner")] [.text "\n    ", el "div" [] [], .text "\n  "], .text "\n"], .text "\n"])
  go "002-ref" (html [] [el "style" [] [.text ("\ndiv.outer {\n  height: 200px;\n  width: 200px;\n  background-color: green;\n}\n\n" ++
      "div.inner {\n  height: 100px;\n  width: 100px;\n  background-color: blue;\n}\n")], .text "\n"] [] [
    el "div" [("class", "outer")] [.text "\n  ", el "div" [("class", "inner")] [], .text "\n"], .text "\n"])
  go "alice" (html [] [link, .text "\n"] [] [
    el "p" (st "background: green; font-size: 55px") [.text "\n", el "q" (st "background: blue; padding: 0 1em") [.text "‘Curiouser and curiouser!’"],
      .text " cried Alice\n"]])
