/- C97: layout has no unit of its own. -/
import Verif.Layout.ZoomLemmas
import Verif.Layout.WrapTheorems
namespace Verif.Layout
open Verif.Style Verif.Style.Spec Verif.Text Verif.Pdf Verif.Dom

/-! ### Boxes -/

def zoomOngoing (k : Rat) (o : OngoingInlineBox) : OngoingInlineBox := ⟨zoomStyle k o.style, o.firstFragment, zoomInlines k o.children⟩
def zoomBuilder (k : Rat) (b : Builder) : Builder :=
  ⟨zoomBoxes k b.blockLevelBoxes, zoomInlines k b.ongoing, b.stack.map (zoomOngoing k), b.containsFloats⟩

section
variable (k : Rat)

theorem zoom_anonymous (s : ComputedValues) :
    ComputedValues.anonymousInheritingFrom (some (zoomStyle k s)) = zoomStyle k (ComputedValues.anonymousInheritingFrom (some s)) := by
  have e : ∀ a b : ComputedValues, a.values = b.values → a.specifiedDisplay = b.specifiedDisplay → a = b := by
    rintro ⟨v, d⟩ ⟨w, e⟩ rfl rfl
    rfl
  have h0 : zoomLength k (.length 0) = .length 0 := by simp [zoomLength]
  have h1 : zoomLengthOrAuto k (.length 0) = .length 0 := by simp [zoomLengthOrAuto]
  refine e _ _ (funext fun p => ?_) rfl
  cases p <;> first | rfl | exact h0.symm | exact h1.symm

theorem zoomInlines_append (a b : List InlineLevelBox) : zoomInlines k (a ++ b) = zoomInlines k a ++ zoomInlines k b := by
  simp [zoomInlines_eq]
theorem zoomBoxes_append (a b : List BlockLevelBox) : zoomBoxes k (a ++ b) = zoomBoxes k a ++ zoomBoxes k b := by
  simp [zoomBoxes_eq]
theorem zoomInlines_isEmpty (a : List InlineLevelBox) : (zoomInlines k a).isEmpty = a.isEmpty := by simp [zoomInlines_eq]
theorem zoomBoxes_isEmpty (a : List BlockLevelBox) : (zoomBoxes k a).isEmpty = a.isEmpty := by simp [zoomBoxes_eq]

theorem zoom_current (b : Builder) : (zoomBuilder k b).current = zoomInlines k b.current := by
  obtain ⟨bs, o, stack, f⟩ := b
  cases stack <;> rfl

theorem zoom_setCurrent (b : Builder) (boxes : List InlineLevelBox) :
    (zoomBuilder k b).setCurrent (zoomInlines k boxes) = zoomBuilder k (b.setCurrent boxes) := by
  obtain ⟨bs, o, stack, f⟩ := b
  cases stack <;> rfl

theorem zoom_hasOngoing (b : Builder) : (zoomBuilder k b).hasOngoing = b.hasOngoing := by
  simp [Builder.hasOngoing, zoomBuilder, zoomInlines_isEmpty]

mutual
theorem zoom_spaceAfter : ∀ b : InlineLevelBox, (zoomInline k b).spaceAfter = b.spaceAfter
  | .inlineBox _ _ _ children => by
    rw [zoomInline, InlineLevelBox.spaceAfter, InlineLevelBox.spaceAfter, zoom_spaceAfterAll children]
  | .textRun _ _ => by rw [zoomInline, InlineLevelBox.spaceAfter, InlineLevelBox.spaceAfter]
  | .outOfFlowAbsolutelyPositioned _ _ _ => by rw [zoomInline, InlineLevelBox.spaceAfter, InlineLevelBox.spaceAfter]
  | .outOfFlowFloat _ _ _ => by rw [zoomInline, InlineLevelBox.spaceAfter, InlineLevelBox.spaceAfter]
theorem zoom_spaceAfterAll : ∀ bs : List InlineLevelBox, spaceAfterAll (zoomInlines k bs) = spaceAfterAll bs
  | [] => by rw [zoomInlines]
  | b :: bs => by rw [zoomInlines, spaceAfterAll, spaceAfterAll, zoom_spaceAfter b, zoom_spaceAfterAll bs]
end

theorem zoom_appendText (s : ComputedValues) (t : List Nat) (bs : List InlineLevelBox) :
    appendText (zoomStyle k s) t (zoomInlines k bs) = zoomInlines k (appendText s t bs) := by
  induction bs with
  | nil => simp only [zoomInlines, appendText, zoomInline]
  | cons b bs ih =>
    cases bs with
    | nil => cases b <;> simp only [zoomInlines, appendText, zoomInline]
    | cons b2 bs =>
      simp only [zoomInlines] at ih ⊢
      rw [show appendText (zoomStyle k s) t (zoomInline k b :: zoomInline k b2 :: zoomInlines k bs) =
        zoomInline k b :: appendText (zoomStyle k s) t (zoomInline k b2 :: zoomInlines k bs) from by cases b <;> rfl, ih,
        show appendText s t (b :: b2 :: bs) = b :: appendText s t (b2 :: bs) from by cases b <;> rfl, zoomInlines]

theorem zoom_handleText (b : Builder) (t : List Nat) (s : ComputedValues) :
    (zoomBuilder k b).handleText t (zoomStyle k s) = zoomBuilder k (b.handleText t s) := by
  have h : (zoomBuilder k b).handleLeadingWhitespace t = b.handleLeadingWhitespace t := by
    cases t <;> simp only [Builder.handleLeadingWhitespace, zoom_current, zoom_spaceAfterAll]
  simp only [Builder.handleText, h, zoom_current, zoom_appendText, zoom_setCurrent]
  split <;> rfl

theorem zoom_endOngoing (b : Builder) (s : ComputedValues) :
    (zoomBuilder k b).endOngoing (zoomStyle k s) = (b.endOngoing s).map (zoomBuilder k) := by
  obtain ⟨bs, o, stack, f⟩ := b
  cases stack with
  | cons => rfl
  | nil =>
    cases o with
    | nil => rfl
    | cons x o =>
      simp [Builder.endOngoing, zoomBuilder, zoom_anonymous, zoomInlines, zoomBoxes, zoomBoxes_append, zoomBox, zoomContainer]

theorem zoom_fragmentStack (inner : Option InlineLevelBox) (stack : List OngoingInlineBox) :
    fragmentStack (inner.map (zoomInline k)) (stack.map (zoomOngoing k)) = (fragmentStack inner stack).map (zoomInline k) := by
  induction stack generalizing inner with
  | nil => rfl
  | cons o stack ih =>
    simp only [List.map_cons, fragmentStack]
    rw [← ih]
    cases inner <;> simp [zoomOngoing, zoomInline, zoomInlines_append, zoomInlines]

theorem zoom_splitInlines (b : Builder) (s : ComputedValues) :
    (zoomBuilder k b).splitInlines (zoomStyle k s) = (b.splitInlines s).map (zoomBuilder k) := by
  simp only [Builder.splitInlines]
  rw [← zoom_endOngoing]
  have h := zoom_fragmentStack k none b.stack
  rw [Option.map_none] at h
  congr 1
  simp only [zoomBuilder, h, zoomInlines_append, List.map_map]
  congr 2
  cases fragmentStack none b.stack <;> simp [zoomInlines]

def zoomContents (k : Rat) (r : BlockContainer × Bool) : BlockContainer × Bool := (zoomContainer k r.1, r.2)

theorem zoom_finishBuilder (b : Builder) (s : ComputedValues) : (zoomBuilder k b).finish (zoomStyle k s) = (b.finish s).map (zoomContents k) := by
  simp only [Builder.finish, zoom_endOngoing]
  rw [show (zoomBuilder k b).ongoing = zoomInlines k b.ongoing from rfl, show (zoomBuilder k b).blockLevelBoxes = zoomBoxes k b.blockLevelBoxes from rfl,
    zoomInlines_isEmpty, zoomBoxes_isEmpty]
  split
  · simp [zoomContents, zoomContainer, zoomBuilder]
  · split
    · simp [zoomContents, zoomContainer, zoomBuilder]
    · rcases b.endOngoing s with _ | b1
      · rfl
      · simp [zoomContents, zoomContainer, zoomBuilder]

mutual
theorem zoom_traverse : ∀ (n : StyledNode) (cs ps : ComputedValues) (b : Builder),
    traverseNode (zoomStyle k cs) (zoomStyle k ps) (zoomNode k n) (zoomBuilder k b) = (traverseNode cs ps n b).map (zoomBuilder k)
  | .ignored, _, _, _ => by simp only [zoomNode, traverseNode, Option.map_some]
  | .text t, _, _, _ => by simp only [zoomNode, traverseNode, zoom_handleText, Option.map_some]
  | .element style children, cs, ps, b => by
    have hc := zoom_traverseAll children
    have hnew : Builder.new = zoomBuilder k Builder.new := by simp [zoomBuilder, Builder.new, zoomBoxes, zoomInlines]
    have hin := hc style style Builder.new
    rw [← hnew] at hin
    simp only [zoomNode, traverseNode, hin]
    rw [show displayOf (zoomStyle k style) = displayOf style from rfl, show positionOf (zoomStyle k style) = positionOf style from rfl,
      show floatOf (zoomStyle k style) = floatOf style from rfl]
    split
    · rfl
    · exact hc cs style b
    · have h1 := hc cs style { b with stack := ⟨style, true, []⟩ :: b.stack }
      rw [show zoomBuilder k { b with stack := ⟨style, true, []⟩ :: b.stack } =
        { zoomBuilder k b with stack := ⟨zoomStyle k style, true, []⟩ :: (zoomBuilder k b).stack } from by
          simp [zoomBuilder, zoomOngoing, zoomInlines]] at h1
      rw [h1]
      rcases traverseNodes cs style children { b with stack := ⟨style, true, []⟩ :: b.stack } with _ | ⟨bs, o, stack, f⟩
      · rfl
      · cases stack with
        | nil => rfl
        | cons x stack =>
          simp only [Option.map_some]
          have h2 := zoom_setCurrent k ⟨bs, o, stack, f⟩ ((⟨bs, o, stack, f⟩ : Builder).current ++ [.inlineBox x.style x.firstFragment true x.children])
          rw [← h2, zoomInlines_append, ← zoom_current]
          simp [zoomBuilder, zoomInlines, zoomInline, zoomOngoing]
    · rfl
    · have hf : ∀ inner : Option Builder, (match inner.map (zoomBuilder k) with
          | none => none
          | some inner => inner.finish (zoomStyle k style)) = (match inner with
          | none => none
          | some inner => inner.finish style).map (zoomContents k) := by
        intro inner
        rcases inner with _ | i
        · rfl
        · exact zoom_finishBuilder k i style
      split
      · rcases traverseNodes style style children Builder.new with _ | inner
        · rfl
        · simp only [Option.map_some, zoom_finishBuilder, zoom_hasOngoing]
          rcases inner.finish style with _ | ⟨contents, floats⟩
          · rfl
          · simp only [Option.map_some, zoomContents]
            split
            · simp only [Option.map_some, ← zoom_setCurrent, zoomInlines_append, zoom_current, zoomInlines, zoomInline]
            · simp [zoomBuilder, zoomBoxes_append, zoomBoxes, zoomBox]
      · split
        · rcases traverseNodes style style children Builder.new with _ | inner
          · rfl
          · simp only [Option.map_some, zoom_finishBuilder]
            rcases inner.finish style with _ | ⟨contents, floats⟩
            · rfl
            · simp only [Option.map_some, zoomContents]
              have h3 := zoom_hasOngoing k { b with containsFloats := true }
              rw [show zoomBuilder k { b with containsFloats := true } = { zoomBuilder k b with containsFloats := true } from rfl] at h3
              rw [h3]
              split
              · rw [Option.map_some, ← zoom_setCurrent, zoomInlines_append, ← zoom_current, zoomInlines, zoomInlines, zoomInline]
                rfl
              · simp [zoomBuilder, zoomBoxes_append, zoomBoxes, zoomBox]
        · rw [zoom_splitInlines]
          rcases b.splitInlines cs with _ | b1
          · rfl
          · simp only [Option.map_some]
            rcases traverseNodes style style children Builder.new with _ | inner
            · rfl
            · simp only [Option.map_some, zoom_finishBuilder]
              rcases inner.finish style with _ | ⟨contents, floats⟩
              · rfl
              · simp only [Option.map_some, zoomContents]
                split <;> simp [zoomBuilder, zoomBoxes_append, zoomBoxes, zoomBox]
theorem zoom_traverseAll : ∀ (ns : List StyledNode) (cs ps : ComputedValues) (b : Builder),
    traverseNodes (zoomStyle k cs) (zoomStyle k ps) (zoomNodes k ns) (zoomBuilder k b) = (traverseNodes cs ps ns b).map (zoomBuilder k)
  | [], _, _, _ => by simp only [zoomNodes, traverseNodes, Option.map_some]
  | n :: ns, cs, ps, b => by
    simp only [zoomNodes, traverseNodes, zoom_traverse n cs ps b]
    rcases traverseNode cs ps n b with _ | b1
    · rfl
    · exact zoom_traverseAll ns cs ps b1
end

theorem zoom_constructRoot (s : ComputedValues) (tree : List StyledNode) :
    constructRoot (zoomStyle k s) (zoomNodes k tree) = (constructRoot s tree).map (zoomContext k) := by
  have hc : constructContainer (zoomStyle k s) (zoomNodes k tree) = (constructContainer s tree).map (zoomContents k) := by
    have h := zoom_traverseAll k tree s s Builder.new
    rw [show zoomBuilder k Builder.new = Builder.new from by simp [zoomBuilder, Builder.new, zoomBoxes, zoomInlines]] at h
    simp only [constructContainer, h]
    rcases traverseNodes s s tree Builder.new with _ | b
    · rfl
    · exact zoom_finishBuilder k b s
  simp only [constructRoot, hc]
  rw [show displayOf (zoomStyle k s) = displayOf s from rfl, show positionOf (zoomStyle k s) = positionOf s from rfl,
    show floatOf (zoomStyle k s) = floatOf s from rfl]
  cases displayOf s
  all_goals
    first
    | simp [zoomContext, zoomContainer, zoomBoxes]; done
    | rcases constructContainer s tree with _ | ⟨contents, floats⟩
      · rfl
      · simp only [Option.map_some, zoomContents]
        split
        · simp [zoomContext, zoomContainer, zoomBoxes, zoomBox]
        · split <;> simp [zoomContext, zoomContainer, zoomBoxes, zoomBox]

end

/-! ### What is on the page -/

theorem Placed.zoom (k : Rat) {origin : Vec2 Rat} {fs : List Fragment} {placed : List (Fragment × Vec2 Rat)} (h : Placed origin fs placed) :
    Placed (zoomVec k origin) (fs.map (zoomFragment k)) (placed.map fun e => (zoomFragment k e.1, zoomVec k e.2)) := by
  induction h with
  | nil => exact .nil
  | @cons origin f fs below rest _ _ ih1 ih2 =>
    have e1 : (zoomFragment k f).children = f.children.map (zoomFragment k) := by
      cases f <;> simp [zoomFragment, Fragment.children, zoomFragments_eq]
    have e2 : (zoomFragment k f).offset = zoomVec k f.offset := by cases f <;> rfl
    rw [← zoomVec_add, ← e1, ← e2] at ih1
    rw [List.map_cons, List.map_append]
    exact .cons ih1 ih2

theorem zoom_shape (k ascender : Rat) (f : Fragment) (origin : Vec2 Rat) :
    (zoomFragment k f).shape ascender (zoomVec k origin) = (f.shape ascender origin).map (zoomShape k) := by
  cases f with
  | box info children =>
    simp only [zoomFragment, Fragment.shape]
    rw [show backgroundOf (zoomInfo k info).style = backgroundOf info.style from rfl]
    split
    · rfl
    · simp [zoomShape, zoomInfo, zoomRect, zoomVec, zoomSides, mul_add, mul_sub]
  | anonymous rect children mode => rfl
  | text style rect segment =>
    simp only [zoomFragment, Fragment.shape, List.map_cons, List.map_nil, zoomShape, zoomRect, zoomVec]
    rw [show fontSizeOf (zoomStyle k style) = k * fontSizeOf style from rfl]
    congr 2
    simp only [Vec2.mk.injEq, mul_add, true_and, add_right_inj]
    ring

/-- **C97**: if all lengths in the styles of a document are multiplied by a positive number, and the size of the page is too, then the page
is the same but for its size: all that was on it is there in the same order, with the same glyphs in the same lines, in the same colours, all of
its places and sizes being multiplied by that number. If layout does not return for one of them, it does not for the other one. -/
theorem C97_zoom {Err : Type} (font : FontApi Rat Err) {k : Rat} (hk : 0 < k) (s : ComputedValues) (tree : List StyledNode) (fuel : Nat)
    (schedule : Oracle) (viewport : Vec2 Rat) :
    (∀ root fragments placed ascender, constructRoot s tree = some root → layoutRoot font fuel schedule root viewport = some fragments →
      Placed ⟨0, 0⟩ fragments placed →
      ∃ root' fragments' placed', constructRoot (zoomStyle k s) (zoomNodes k tree) = some root' ∧
        layoutRoot font fuel schedule root' (zoomVec k viewport) = some fragments' ∧ Placed ⟨0, 0⟩ fragments' placed' ∧
        (placed'.flatMap fun e => e.1.shape ascender e.2) = (placed.flatMap fun e => e.1.shape ascender e.2).map (zoomShape k)) ∧
    (constructRoot s tree = none → constructRoot (zoomStyle k s) (zoomNodes k tree) = none) ∧
    (∀ root, constructRoot s tree = some root → layoutRoot font fuel schedule root viewport = none →
      ∃ root', constructRoot (zoomStyle k s) (zoomNodes k tree) = some root' ∧
        layoutRoot font fuel schedule root' (zoomVec k viewport) = none) := by
  have hc := zoom_constructRoot k s tree
  refine ⟨fun root fragments placed ascender h1 h2 h3 => ?_, fun h => by rw [hc, h]; rfl, fun root h1 h2 => ?_⟩
  · have hl := zoom_layoutRoot hk font fuel schedule root viewport
    rw [h2] at hl
    rw [h1] at hc
    refine ⟨_, _, placed.map fun e => (zoomFragment k e.1, zoomVec k e.2), hc, hl, ?_, ?_⟩
    · have := h3.zoom k
      rwa [show zoomVec k ⟨0, 0⟩ = ⟨0, 0⟩ from zoomVec_zero k] at this
    · simp only [List.flatMap_map, List.map_flatMap, zoom_shape]
  · have hl := zoom_layoutRoot hk font fuel schedule root viewport
    rw [h2] at hl
    rw [h1] at hc
    exact ⟨_, hc, hl⟩

/-- **C97** for documents: `Document::layout` on two documents that are the same but for the lengths in the styles of their elements. -/
theorem C97_document {σ σ' Err : Type} (font : FontApi Rat Err) {E : Engine σ} {E' : Engine σ'} {d d' : Document} {F F' : Forest} {k : Rat}
    (hk : 0 < k) {rootStyle : ComputedValues} {tree : List StyledNode} {hidden hidden' : List Nat}
    (h : Denotes E d F rootStyle tree hidden) (h' : Denotes E' d' F' (zoomStyle k rootStyle) (zoomNodes k tree) hidden')
    {fuel fuel' : Nat} {schedule schedule' : Oracle} {viewport : Vec2 Rat} {fragments fragments' : List Fragment}
    (hl : layoutDocument E font d fuel schedule viewport = some fragments)
    (hl' : layoutDocument E' font d' fuel' schedule' (zoomVec k viewport) = some fragments')
    {placed placed' : List (Fragment × Vec2 Rat)} (hp : Placed ⟨0, 0⟩ fragments placed) (hp' : Placed ⟨0, 0⟩ fragments' placed') (ascender : Rat) :
    (placed'.flatMap fun e => e.1.shape ascender e.2) = (placed.flatMap fun e => e.1.shape ascender e.2).map (zoomShape k) := by
  unfold layoutDocument at hl hl'
  rcases hc : constructDocument E d fuel with _ | root
  · simp [hc] at hl
  rcases hc' : constructDocument E' d' fuel' with _ | root'
  · simp [hc'] at hl'
  simp only [hc, hc'] at hl hl'
  obtain ⟨h1, -⟩ := constructDocument_sound h hc
  obtain ⟨h1', -⟩ := constructDocument_sound h' hc'
  obtain ⟨r2, fs2, pl2, e1, e2, e3, e4⟩ := (C97_zoom font hk rootStyle tree fuel schedule viewport).1 root fragments placed ascender h1 hl hp
  rw [h1'] at e1
  cases e1
  have a1 := C58_fuel root' fuel fuel' schedule schedule' _ _ e2
  have a2 := C58_fuel root' fuel' fuel schedule' schedule' _ _ hl'
  rw [Nat.add_comm, a2] at a1
  cases a1
  rw [← e4, e3.unique hp']

/-! ### Examples -/

/-- `exampleEngine` with `html { font-size: 10px } p { margin-left: 5px }`, in a unit of `k` pixels. -/
def sizedEngine (k : Rat) : Engine String :=
  { exampleEngine with
    ua := ⟨[("html", { declarations := [.value .display (.generatingBox .block .flow), .value .fontSize (.absolute (k * 10))],
                       important := [false, false], anyNormal := ⟨true, true⟩ }),
            ("div", displayBlock (.generatingBox .block .flow)),
            ("p", { declarations := [.value .display (.generatingBox .block .flow), .value .marginLeft (.length (.absolute (k * 5)))],
                    important := [false, false], anyNormal := ⟨false, true⟩ }),
            ("head", displayBlock .none)]⟩ }

/-- The styles of the elements. -/
def sizedStyle (k : Rat) (n : Nat) (parent : Option ComputedValues) : ComputedValues :=
  (nodeStyle (sizedEngine k) ⟨[]⟩ exampleDocument2 n parent).getD spanStyle

/-- The contents of `exampleDocument2` in these styles. -/
def sizedTree (k : Rat) : List StyledNode :=
  let html := sizedStyle k 2 none
  let div := sizedStyle k 4 (some html)
  [.element (sizedStyle k 3 (some html)) [], .element div [.element (sizedStyle k 5 (some div)) [.text (codes "a")], .text (codes "b")]]

theorem sizedDocument_denotes (k : Rat) (hk : k = 1 ∨ k = 2) :
    Denotes (sizedEngine k) exampleDocument2 (forestOf exampleChildren2) (sizedStyle k 2 none) (sizedTree k) [3] := by
  have hs : parseStylesheets (sizedEngine k) exampleDocument2 = some ⟨[]⟩ := by
    simp [parseStylesheets, show exampleDocument2.styleElements = [] from rfl, Document.stylesheetTexts, addStylesheets, StyleSet.finish]
  rcases hk with rfl | rfl
  all_goals
    refine ⟨represents_of_check exampleDocument2_check, acyclic_of_check exampleDocument2_check, ⟨[]⟩, 2, hs, by decide, rfl, by decide +kernel, ?_⟩
    exact .none (n := 3) (hidden := []) rfl rfl rfl (by decide +kernel)
      (.element (belowHidden := []) (hidden := []) (n := 4) rfl rfl rfl (by decide +kernel)
        (.element (belowHidden := []) (n := 5) rfl rfl rfl (by decide +kernel) (.text (n := 6) rfl rfl .nil)
          (.text (n := 7) rfl rfl .nil)) .nil)

/-- The hypotheses of C97 are met by `exampleDocument2` in styles with a unit of one and of two pixels, and on the page it is as large, and
twice as large. -/
theorem sizedDocument_zoom :
    Denotes (sizedEngine 1) exampleDocument2 (forestOf exampleChildren2) (sizedStyle 1 2 none) (sizedTree 1) [3] ∧
    Denotes (sizedEngine 2) exampleDocument2 (forestOf exampleChildren2) (zoomStyle 2 (sizedStyle 1 2 none)) (zoomNodes 2 (sizedTree 1)) [3] ∧
    ((layoutDocument (sizedEngine 1) exampleFont exampleDocument2 9 inOrder ⟨300, 400⟩).map (inkOf 1 ⟨0, 0⟩)) =
      some [.glyphs [97] 10 ⟨5, 10⟩ ⟨0, 0, 0, 255⟩, .glyphs [98] 10 ⟨0, 22⟩ ⟨0, 0, 0, 255⟩] ∧
    ((layoutDocument (sizedEngine 2) exampleFont exampleDocument2 9 inOrder ⟨600, 800⟩).map (inkOf 1 ⟨0, 0⟩)) =
      some [.glyphs [97] 20 ⟨10, 20⟩ ⟨0, 0, 0, 255⟩, .glyphs [98] 20 ⟨0, 44⟩ ⟨0, 0, 0, 255⟩] := by
  have hs : ∀ k, parseStylesheets (sizedEngine k) exampleDocument2 = some ⟨[]⟩ := by
    intro k
    simp [parseStylesheets, show exampleDocument2.styleElements = [] from rfl, Document.stylesheetTexts, addStylesheets, StyleSet.finish]
  refine ⟨sizedDocument_denotes 1 (.inl rfl), ?_, ?_, ?_⟩
  · have h := sizedDocument_denotes 2 (.inr rfl)
    have e1 : sizedStyle 2 2 none = zoomStyle 2 (sizedStyle 1 2 none) := by
      refine sameStyle_of (fun p => ?_) (by decide +kernel)
      cases p <;> decide +kernel
    have e2 : sizedStyle 2 3 (some (sizedStyle 2 2 none)) = zoomStyle 2 (sizedStyle 1 3 (some (sizedStyle 1 2 none))) := by
      refine sameStyle_of (fun p => ?_) (by decide +kernel)
      cases p <;> decide +kernel
    have e3 : sizedStyle 2 4 (some (sizedStyle 2 2 none)) = zoomStyle 2 (sizedStyle 1 4 (some (sizedStyle 1 2 none))) := by
      refine sameStyle_of (fun p => ?_) (by decide +kernel)
      cases p <;> decide +kernel
    have e4 : sizedStyle 2 5 (some (sizedStyle 2 4 (some (sizedStyle 2 2 none)))) =
        zoomStyle 2 (sizedStyle 1 5 (some (sizedStyle 1 4 (some (sizedStyle 1 2 none))))) := by
      refine sameStyle_of (fun p => ?_) (by decide +kernel)
      cases p <;> decide +kernel
    simp only [sizedTree, e4, e2] at h
    rw [e3, e1] at h
    simpa only [sizedTree, zoomNodes, zoomNode] using h
  · simp only [layoutDocument, constructDocument, hs]
    decide +kernel
  · simp only [layoutDocument, constructDocument, hs]
    decide +kernel

end Verif.Layout
