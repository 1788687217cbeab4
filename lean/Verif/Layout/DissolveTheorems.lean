/- C104: elements with `display: contents` leave no trace. -/
import Verif.Layout.DissolveSpec
import Verif.Layout.RecolorTheorems
namespace Verif.Layout
open Verif.Style Verif.Style.Spec Verif.Text Verif.Pdf Verif.Dom

/-- A style with the same font size and colour, and all else initial. -/
def textLook (s : ComputedValues) : ComputedValues :=
  ⟨fun p => match p with
    | .fontSize => s.values .fontSize
    | .color => s.values .color
    | p => initialValues p, Display.initial⟩

theorem textLook_eq {s s' : ComputedValues} (h : look s = look s') : textLook s = textLook s' := by
  have h1 : s.values .fontSize = s'.values .fontSize := congrArg Prod.fst h
  have h2 : s.values .color = s'.values .color := congrArg Prod.snd h
  unfold textLook
  rw [h1, h2]

/-- Of the styles of text, layout uses only the font size. -/
def lookDye : Dye where
  box := id
  text := textLook
  move _ := Vec2.zero
  padding _ := rfl
  border _ := rfl
  margin _ := rfl
  position _ := rfl
  specified _ := rfl
  fontSize _ := rfl
  anonymous _ := rfl

theorem lookDye_total : lookDye.Total := fun _ => ⟨rfl, fun _ _ => rfl, rfl, rfl⟩

theorem Dissolved.alike {p : ComputedValues} {nodes nodes' : List StyledNode} (h : Dissolved p nodes nodes') :
    ∀ p', textLook p = textLook p' → AlikeBut lookDye p p' nodes nodes' := by
  induction h with
  | nil => exact fun _ _ => .nil
  | ignored _ ih => exact fun p' hp => .ignored (ih p' hp)
  | text _ ih => exact fun p' hp => .text (ih p' hp)
  | element _ _ ih1 ih2 => exact fun p' hp => .element rfl rfl rfl rfl rfl (ih1 _ rfl) (ih2 p' hp)
  | contents h1 h2 _ _ ih1 ih2 =>
    exact fun p' hp => .contents h1 (textLook_eq h2) (ih1 p' ((textLook_eq h2).trans hp)) (ih2 p' hp)

theorem shape_look (ascender : Rat) (f : Fragment) (origin : Vec2 Rat) : (dyeFragment lookDye f).shape ascender origin = f.shape ascender origin := by
  cases f with
  | box info children => simp only [dyeFragment, Fragment.shape, dyeInfo, lookDye, add_zero_vec, id]
  | anonymous => rfl
  | text => rfl

/-- The same file is made of what looks the same. -/
theorem bytes_of_shapes {σ σ' R Er Err : Type} {P : Painter R Er} {E : Engine σ} {E' : Engine σ'} {font : FontApi Rat Err} {d d' : Document}
    (h : ∀ {fuel fuel' : Nat} {schedule schedule' : Oracle} {fragments fragments' : List Fragment} {placed placed' : List (Fragment × Vec2 Rat)},
      layoutDocument E font d fuel schedule ⟨600, 800⟩ = some fragments →
      layoutDocument E' font d' fuel' schedule' ⟨600, 800⟩ = some fragments' → Placed ⟨0, 0⟩ fragments placed →
      Placed ⟨0, 0⟩ fragments' placed' → shapesOf P.ascender placed = shapesOf P.ascender placed')
    {fuel fuel' : Nat} {schedule schedule' : Oracle} {bytes bytes' : List Byte}
    (hb : toPdfBytes P E font d fuel schedule = some bytes) (hb' : toPdfBytes P E' font d' fuel' schedule' = some bytes') : bytes = bytes' := by
  unfold toPdfBytes at hb hb'
  rcases hlay : layoutDocument E font d fuel schedule ⟨600, 800⟩ with _ | fragments
  · simp [hlay] at hb
  rcases hlay' : layoutDocument E' font d' fuel' schedule' ⟨600, 800⟩ with _ | fragments'
  · simp [hlay'] at hb'
  simp only [hlay, hlay'] at hb hb'
  rcases hdoc : paintDocument P fragments with _ | doc
  · simp [hdoc] at hb
  rcases hdoc' : paintDocument P fragments' with _ | doc'
  · simp [hdoc'] at hb'
  simp only [hdoc, hdoc', Option.some.injEq] at hb hb'
  subst hb hb'
  obtain ⟨placed, hpl⟩ := Placed.exists fragments ⟨0, 0⟩
  obtain ⟨placed', hpl'⟩ := Placed.exists fragments' ⟨0, 0⟩
  rw [paintDocument_shapes P hpl hdoc, paintDocument_shapes P hpl' hdoc', h hlay hlay' hpl hpl']

section
variable {σ σ' Err : Type} (font : FontApi Rat Err) {E : Engine σ} {E' : Engine σ'} {d d' : Document} {F F' : Forest}

/-- **C104**: a document, and the same document in which elements with `display: contents`, which have the font size and the colour of what
they are in, are replaced by what is in them. The same is on both pages, at the same places, in the same order. -/
theorem C104_dissolved {rootStyle : ComputedValues} {tree tree' : List StyledNode} {hidden hidden' : List Nat}
    (h : Denotes E d F rootStyle tree hidden) (h' : Denotes E' d' F' rootStyle tree' hidden') (ht : Dissolved rootStyle tree tree')
    {fuel fuel' : Nat} {schedule schedule' : Oracle} {viewport : Vec2 Rat} {fragments fragments' : List Fragment}
    (hl : layoutDocument E font d fuel schedule viewport = some fragments)
    (hl' : layoutDocument E' font d' fuel' schedule' viewport = some fragments') {placed placed' : List (Fragment × Vec2 Rat)}
    (hp : Placed ⟨0, 0⟩ fragments placed) (hp' : Placed ⟨0, 0⟩ fragments' placed') (ascender : Rat) :
    shapesOf ascender placed = shapesOf ascender placed' := by
  unfold layoutDocument at hl hl'
  rcases hc : constructDocument E d fuel with _ | root
  · simp [hc] at hl
  rcases hc' : constructDocument E' d' fuel' with _ | root'
  · simp [hc'] at hl'
  simp only [hc, hc'] at hl hl'
  obtain ⟨h1, -⟩ := constructDocument_sound h hc
  obtain ⟨h1', -⟩ := constructDocument_sound h' hc'
  have a1 := C58_fuel root fuel fuel' schedule schedule _ _ hl
  have a2 := C58_fuel root' fuel' fuel schedule' schedule _ _ hl'
  rw [Nat.add_comm] at a2
  have e := alike_layout (D := lookDye) font rfl rfl rfl rfl rfl (ht.alike rootStyle rfl) h1 h1' (lookDye_total.container _) (lookDye_total.container _) (fuel + fuel') schedule viewport
  rw [a1, a2, Option.map_some, Option.map_some, Option.some.injEq] at e
  have k := hp.dyed (fun _ => rfl) hp' e
  unfold shapesOf
  clear hp hp' e a1 a2 hl hl'
  induction k with
  | nil => rfl
  | @cons x y _ _ hxy _ ih =>
    simp only [List.flatMap_cons, ih]
    rw [← shape_look, hxy.1, hxy.2, shape_look]

/-- **C104**: the same file is made of both. -/
theorem C104_bytes {R Er : Type} (P : Painter R Er) {rootStyle : ComputedValues} {tree tree' : List StyledNode} {hidden hidden' : List Nat}
    (h : Denotes E d F rootStyle tree hidden) (h' : Denotes E' d' F' rootStyle tree' hidden') (ht : Dissolved rootStyle tree tree')
    {fuel fuel' : Nat} {schedule schedule' : Oracle} {bytes bytes' : List Byte} (hb : toPdfBytes P E font d fuel schedule = some bytes)
    (hb' : toPdfBytes P E' font d' fuel' schedule' = some bytes') : bytes = bytes' :=
  bytes_of_shapes (fun hl hl' hp hp' => C104_dissolved font h h' ht hl hl' hp hp' P.ascender) hb hb'

/-- **C104**: layout returns for both of them or for none. -/
theorem C104_total {s : ComputedValues} {tree tree' : List StyledNode} (ht : Dissolved s tree tree') (fuel : Nat) (schedule : Oracle)
    (viewport : Vec2 Rat) :
    ((constructRoot s tree).bind fun root => layoutRoot font fuel schedule root viewport).isSome =
      ((constructRoot s tree').bind fun root => layoutRoot font fuel schedule root viewport).isSome := by
  have hn := ht.alike s rfl
  rcases map_cases (alike_constructRoot (D := lookDye) rfl rfl rfl rfl rfl hn) with ⟨e1, e2⟩ | ⟨r, r', e1, e2, -⟩
  · rw [e1, e2]
  · have e := alike_layout (D := lookDye) font rfl rfl rfl rfl rfl hn e1 e2 (lookDye_total.container _) (lookDye_total.container _) fuel schedule viewport
    rw [e1, e2, Option.bind_some, Option.bind_some]
    simpa using congrArg Option.isSome e

end

/-! ### Example -/

/-- `exampleEngine` with `div { display: contents }` and `head` not displayed. -/
def contentsEngine : Engine String :=
  { exampleEngine with
    ua := ⟨[("html", displayBlock (.generatingBox .block .flow)), ("div", displayBlock .contents),
            ("p", displayBlock (.generatingBox .block .flow)), ("head", displayBlock .none)]⟩ }

/-- `<html><head></head><p>a</p>b</html>`: `exampleDocument2` with what is in its `div` instead of it. -/
def dissolvedDocument : Document :=
  { Document.new with nodes :=
    [ Node.new .document,
      ⟨none, none, none, some 2, some 2, .document⟩,
      exampleElement "html" (some 1) none none (some 3) (some 6),
      exampleElement "head" (some 2) (some 4) none none none,
      exampleElement "p" (some 2) (some 6) (some 3) (some 5) (some 5),
      ⟨some 4, none, none, none, none, .text "a"⟩,
      ⟨some 2, none, some 4, none, none, .text "b"⟩ ] }

/-- The children of the nodes of `dissolvedDocument`. -/
def dissolvedChildren : List (List Nat) := [[], [2], [3, 4, 6], [], [5], [], []]

/-- The styles of the elements of `exampleDocument2`. -/
def inContentsStyle (n : Nat) (parent : Option ComputedValues) : ComputedValues :=
  (nodeStyle contentsEngine ⟨[]⟩ exampleDocument2 n parent).getD spanStyle

/-- The contents of `exampleDocument2` in these styles. -/
def contentsTree : List StyledNode :=
  let html := inContentsStyle 2 none
  let div := inContentsStyle 4 (some html)
  [.element (inContentsStyle 3 (some html)) [], .element div [.element (inContentsStyle 5 (some div)) [.text (codes "a")], .text (codes "b")]]

/-- The contents of `dissolvedDocument`. -/
def dissolvedTree : List StyledNode :=
  let html := inContentsStyle 2 none
  let div := inContentsStyle 4 (some html)
  [.element (inContentsStyle 3 (some html)) [], .element (inContentsStyle 5 (some div)) [.text (codes "a")], .text (codes "b")]

/-- The styles of the elements of `dissolvedDocument`. -/
def dissolvedStyle (n : Nat) (parent : Option ComputedValues) : ComputedValues :=
  (nodeStyle contentsEngine ⟨[]⟩ dissolvedDocument n parent).getD spanStyle

theorem dissolvedStyle_eq : dissolvedStyle 4 (some (inContentsStyle 2 none)) =
    inContentsStyle 5 (some (inContentsStyle 4 (some (inContentsStyle 2 none)))) := by
  refine sameStyle_of (fun p => ?_) (by decide +kernel)
  cases p <;> decide +kernel

/-- The hypotheses of C104 are met by these documents, and both are laid out. -/
theorem exampleDocument2_dissolved :
    Denotes contentsEngine exampleDocument2 (forestOf exampleChildren2) (inContentsStyle 2 none) contentsTree [3] ∧
    Denotes contentsEngine dissolvedDocument (forestOf dissolvedChildren) (inContentsStyle 2 none) dissolvedTree [3] ∧
    Dissolved (inContentsStyle 2 none) contentsTree dissolvedTree ∧
    ((layoutDocument contentsEngine exampleFont exampleDocument2 9 inOrder ⟨600, 800⟩).map (inkOf 1 ⟨0, 0⟩)) =
      some [.glyphs [97] 16 ⟨0, 16⟩ ⟨0, 0, 0, 255⟩, .glyphs [98] 16 ⟨0, 176 / 5⟩ ⟨0, 0, 0, 255⟩] ∧
    ((layoutDocument contentsEngine exampleFont dissolvedDocument 9 inOrder ⟨600, 800⟩).map (inkOf 1 ⟨0, 0⟩)) =
      some [.glyphs [97] 16 ⟨0, 16⟩ ⟨0, 0, 0, 255⟩, .glyphs [98] 16 ⟨0, 176 / 5⟩ ⟨0, 0, 0, 255⟩] := by
  have p1 : parseStylesheets contentsEngine exampleDocument2 = some ⟨[]⟩ := by
    simp [parseStylesheets, show exampleDocument2.styleElements = [] from rfl, Document.stylesheetTexts, addStylesheets, StyleSet.finish]
  have p2 : parseStylesheets contentsEngine dissolvedDocument = some ⟨[]⟩ := by
    simp [parseStylesheets, show dissolvedDocument.styleElements = [] from rfl, Document.stylesheetTexts, addStylesheets, StyleSet.finish]
  have d3 : displayOf (inContentsStyle 3 (some (inContentsStyle 2 none))) = .none := by decide +kernel
  refine ⟨?_, ?_, ?_, ?_, ?_⟩
  · refine ⟨represents_of_check exampleDocument2_check, acyclic_of_check exampleDocument2_check, ⟨[]⟩, 2, p1, by decide, rfl, by decide +kernel, ?_⟩
    exact .none (n := 3) (hidden := []) rfl rfl rfl d3
      (.element (belowHidden := []) (hidden := []) (n := 4) rfl rfl rfl (by decide +kernel)
        (.element (belowHidden := []) (n := 5) rfl rfl rfl (by decide +kernel) (.text (n := 6) rfl rfl .nil)
          (.text (n := 7) rfl rfl .nil)) .nil)
  · have hcheck : treeCheck dissolvedDocument dissolvedChildren = true := by decide +kernel
    have s2 : nodeStyle contentsEngine ⟨[]⟩ dissolvedDocument 2 none = some (inContentsStyle 2 none) := rfl
    have s3 : nodeStyle contentsEngine ⟨[]⟩ dissolvedDocument 3 (some (inContentsStyle 2 none)) =
      some (inContentsStyle 3 (some (inContentsStyle 2 none))) := rfl
    have s4 : nodeStyle contentsEngine ⟨[]⟩ dissolvedDocument 4 (some (inContentsStyle 2 none)) =
        some (inContentsStyle 5 (some (inContentsStyle 4 (some (inContentsStyle 2 none))))) := by
      have e : nodeStyle contentsEngine ⟨[]⟩ dissolvedDocument 4 (some (inContentsStyle 2 none)) =
        some (dissolvedStyle 4 (some (inContentsStyle 2 none))) := rfl
      rw [e, dissolvedStyle_eq]
    refine ⟨represents_of_check hcheck, acyclic_of_check hcheck, ⟨[]⟩, 2, p2, by decide, s2, by decide +kernel, ?_⟩
    exact .none (n := 3) (hidden := []) rfl rfl s3 d3
      (.element (belowHidden := []) (n := 4) rfl rfl s4 (by decide +kernel) (.text (n := 5) rfl rfl .nil)
        (.text (n := 6) rfl rfl .nil))
  · exact .element .nil (.contents (children' := [_, _]) (nodes' := []) (by decide +kernel) (by decide +kernel)
      (.element (.text .nil) (.text .nil)) .nil)
  · simp only [layoutDocument, constructDocument, p1]
    decide +kernel
  · simp only [layoutDocument, constructDocument, p2]
    decide +kernel

end Verif.Layout
