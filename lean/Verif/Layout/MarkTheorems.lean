/- C86: the pages of a document depend on its text, its elements and their styles only. -/
import Verif.Layout.MarkLemmas
import Verif.Layout.LookTheorems
namespace Verif.Layout
open Verif.Style Verif.Style.Spec Verif.Text Verif.Pdf Verif.Dom

section
variable {σ : Type} {E : Engine σ} {d : Document} {F : Forest} {ua author : List (σ × List (Declaration × Bool))}

/-- What CSS says is seen of the document is what is in the tree of styles. -/
theorem Marked.styled {set : StyleSet σ}
    (hu : ∀ n parent style style', nodeStyle E set d n (some parent) = some style → HasStyle E d ua author n (some parent) style' →
      style' = style) {parent : ComputedValues} {ns : List Nat} {marks : List Mark}
    (h : Marked E d F ua author parent ns marks) : ∀ {trees : List StyledNode} {hidden : List Nat},
    StyledTree d F (fun child parent => nodeStyle E set d child (some parent)) parent ns trees hidden → nodesMarks trees = marks := by
  induction h with
  | nil =>
    intro trees hidden t
    cases t
    rfl
  | ignored hn hd _ ih =>
    intro trees hidden t
    cases t with
    | ignored hn' hd' t => simpa [nodesMarks, StyledNode.marks] using ih t
    | text hn' hd' t => rw [hn] at hn'; cases hn'; simp [hd'] at hd
    | none hn' hd' _ _ t => rw [hn] at hn'; cases hn'; simp [hd'] at hd
    | element hn' hd' _ _ _ t => rw [hn] at hn'; cases hn'; simp [hd'] at hd
  | text hn hd _ ih =>
    intro trees hidden t
    cases t with
    | ignored hn' hd' t => rw [hn] at hn'; cases hn'; simp [hd] at hd'
    | text hn' hd' t =>
      rw [hn] at hn'; cases hn'
      rw [hd] at hd'; cases hd'
      simp [nodesMarks, StyledNode.marks, ih t]
    | none hn' hd' _ _ t => rw [hn] at hn'; cases hn'; simp [hd] at hd'
    | element hn' hd' _ _ _ t => rw [hn] at hn'; cases hn'; simp [hd] at hd'
  | none hs hd _ ih =>
    intro trees hidden t
    cases t with
    | ignored hn' hd' t => obtain ⟨e, he⟩ := hs.data hn'; simp [he] at hd'
    | text hn' hd' t => obtain ⟨e, he⟩ := hs.data hn'; simp [he] at hd'
    | none hn' hd' hs' h' t =>
      cases hu _ _ _ _ hs' hs
      simpa [nodesMarks, StyledNode.marks, hd] using ih t
    | element hn' hd' hs' h' _ t =>
      cases hu _ _ _ _ hs' hs
      exact absurd hd h'
  | element hs hd _ _ ih1 ih2 =>
    intro trees hidden t
    cases t with
    | ignored hn' hd' t => obtain ⟨e, he⟩ := hs.data hn'; simp [he] at hd'
    | text hn' hd' t => obtain ⟨e, he⟩ := hs.data hn'; simp [he] at hd'
    | none hn' hd' hs' h' t =>
      cases hu _ _ _ _ hs' hs
      exact absurd h' hd
    | element hn' hd' hs' h' t1 t2 =>
      cases hu _ _ _ _ hs' hs
      simp [nodesMarks, StyledNode.marks, hd, ih1 t1, ih2 t2]

/-- There are such marks, if styles can be found. -/
theorem StyledTree.marked {set : StyleSet σ}
    (hh : ∀ n parent style, nodeStyle E set d n (some parent) = some style → HasStyle E d ua author n (some parent) style)
    {parent : ComputedValues} {ns : List Nat} {trees : List StyledNode} {hidden : List Nat}
    (t : StyledTree d F (fun child parent => nodeStyle E set d child (some parent)) parent ns trees hidden) :
    Marked E d F ua author parent ns (nodesMarks trees) := by
  induction t with
  | nil => exact .nil
  | ignored hn hd _ ih => simpa [nodesMarks, StyledNode.marks] using Marked.ignored hn hd ih
  | text hn hd _ ih => simpa [nodesMarks, StyledNode.marks, Function.comp_def] using Marked.text hn hd ih
  | none hn hd hs hdis _ ih => simpa [nodesMarks, StyledNode.marks, hdis] using Marked.none (hh _ _ _ hs) hdis ih
  | element hn hd hs hdis _ _ ih1 ih2 =>
    simpa [nodesMarks, StyledNode.marks, hdis] using Marked.element (hh _ _ _ hs) hdis ih1 ih2

theorem DocumentMarked.denotes (hr : Represents d F) (ha : F.Acyclic) (hn : DocumentNodeIsRoot d)
    (hi : d.styleElements = d.idsWith NodeData.isStyle) {rootStyle : ComputedValues} {marks : List Mark}
    (h : DocumentMarked E d F ua author rootStyle marks) {fuel : Nat} {root : BlockFormattingContext}
    (hc : constructDocument E d fuel = some root) :
    ∃ tree hidden, Denotes E d F rootStyle tree hidden ∧ nodesMarks tree = marks := by
  obtain ⟨r, pre, post, e, h1, h2, h3, h4, h5, h6⟩ := h.root
  have hroot := (C09_root_element d F hr hn d.nodes.length (Nat.le_refl _) r).2 ⟨pre, post, e, h1, h2, h3⟩
  unfold constructDocument at hc
  rcases hset : parseStylesheets E d with _ | set
  · simp [hset] at hc
  simp only [hset, hroot] at hc
  rcases hs : nodeStyle E set d r none with _ | style
  · simp [hs] at hc
  simp only [hs] at hc
  cases (hasStyle_of hr hi h.rules hset hs).2 _ h4
  obtain ⟨node, hnode⟩ := nodeStyle_get hs
  simp only [if_neg h5, get_eq, hnode, (hr.ends r node hnode).1] at hc
  rcases h7 : styledNodes (fun child parent => nodeStyle E set d child (some parent)) d fuel rootStyle (F r).head? with _ | tree
  · simp [h7] at hc
  obtain ⟨hidden, t1, t2⟩ := styledNodes_sound hr fuel rootStyle r [] (F r) tree rfl h7
  exact ⟨tree, hidden, ⟨hr, ha, set, r, hset, hroot, hs, h5, t1⟩,
    h6.styled (fun n p s s' hs hs' => (hasStyle_of hr hi h.rules hset hs).2 _ hs') t1⟩

/-- **C86**: there are marks that a reader sees, if styles are found. -/
theorem C86_exists (hn : DocumentNodeIsRoot d) (hi : d.styleElements = d.idsWith NodeData.isStyle) (R : Rules E d F ua author)
    {rootStyle : ComputedValues} {tree : List StyledNode} {hidden : List Nat} (h : Denotes E d F rootStyle tree hidden) :
    DocumentMarked E d F ua author rootStyle (nodesMarks tree) := by
  obtain ⟨set, r, h1, h2, h3, h4, h5⟩ := h.styled
  obtain ⟨pre, post, e, h6, h7, h8⟩ := (C09_root_element d F h.represents hn d.nodes.length (Nat.le_refl _) r).1 h2
  exact ⟨R, r, pre, post, e, h6, h7, h8, (hasStyle_of h.represents hi R h1 h3).1, h4,
    h5.marked (fun n p s hs => (hasStyle_of h.represents hi R h1 hs).1)⟩

/-- **C86**: and only these. -/
theorem C86_unique (hr : Represents d F) (ha : F.Acyclic) (hn : DocumentNodeIsRoot d) (hi : d.styleElements = d.idsWith NodeData.isStyle)
    {s s' : ComputedValues} {marks marks' : List Mark} (h : DocumentMarked E d F ua author s marks)
    (h' : DocumentMarked E d F ua author s' marks') {fuel : Nat} {root : BlockFormattingContext}
    (hc : constructDocument E d fuel = some root) : s = s' ∧ marks = marks' := by
  obtain ⟨tree, hidden, h1, rfl⟩ := h.denotes hr ha hn hi hc
  obtain ⟨tree', hidden', h1', rfl⟩ := h'.denotes hr ha hn hi hc
  obtain ⟨set, r, e1, e2, e3, -, t⟩ := h1.styled
  obtain ⟨set', r', e1', e2', e3', -, t'⟩ := h1'.styled
  cases e1.symm.trans e1'
  cases e2.symm.trans e2'
  cases e3.symm.trans e3'
  exact ⟨rfl, by rw [(t.unique t').1]⟩

end

/-- **C86**, for documents of which files are made: if a reader sees the same of two documents, but for the amount of white space
between words, their files are the same, byte by byte. So nothing depends on comments and processing instructions, on how the text is
cut into nodes, on elements that are not displayed, on names and attributes of elements except through their styles, on rules that
change no style, or on how threads are scheduled.
Missing: that a file is made of both (`C86_undisplayed_violated`); documents whose style elements the parser does not register
(`C07_xml_violated`). -/
theorem C86_same_partial {σ σ' R Er Err : Type} (P : Painter R Er) (font : FontApi Rat Err) {E : Engine σ} {E' : Engine σ'} {d d' : Document} {F F' : Forest}
    (hr : Represents d F) (ha : F.Acyclic) (hn : DocumentNodeIsRoot d) (hi : d.styleElements = d.idsWith NodeData.isStyle)
    (hr' : Represents d' F') (ha' : F'.Acyclic) (hn' : DocumentNodeIsRoot d') (hi' : d'.styleElements = d'.idsWith NodeData.isStyle)
    {ua author : List (σ × List (Declaration × Bool))} {ua' author' : List (σ' × List (Declaration × Bool))} {rootStyle : ComputedValues}
    {marks marks' : List Mark} (h : DocumentMarked E d F ua author rootStyle marks)
    (h' : DocumentMarked E' d' F' ua' author' rootStyle marks') (hm : squeezeMarks marks = squeezeMarks marks')
    {fuel fuel' : Nat} {schedule schedule' : Oracle} {bytes bytes' : List Byte}
    (hb : toPdfBytes P E font d fuel schedule = some bytes) (hb' : toPdfBytes P E' font d' fuel' schedule' = some bytes') :
    bytes = bytes' := by
  unfold toPdfBytes layoutDocument at hb hb'
  rcases hc : constructDocument E d fuel with _ | root
  · simp [hc] at hb
  rcases hc' : constructDocument E' d' fuel' with _ | root'
  · simp [hc'] at hb'
  simp only [hc, hc'] at hb hb'
  obtain ⟨tree, hidden, hd, rfl⟩ := h.denotes hr ha hn hi hc
  obtain ⟨tree', hidden', hd', rfl⟩ := h'.denotes hr' ha' hn' hi' hc'
  obtain ⟨h1, -⟩ := constructDocument_sound hd hc
  obtain ⟨h1', -⟩ := constructDocument_sound hd' hc'
  rw [constructRoot_marks hm] at h1
  cases h1.symm.trans h1'
  rcases hl : layoutRoot font fuel schedule root ⟨600, 800⟩ with _ | fragments
  · simp [hl] at hb
  rcases hl' : layoutRoot font fuel' schedule' root ⟨600, 800⟩ with _ | fragments'
  · simp [hl'] at hb'
  have e1 := C58_fuel root fuel fuel' schedule inOrder _ _ hl
  have e2 := C58_fuel root fuel' fuel schedule' inOrder _ _ hl'
  rw [Nat.add_comm] at e2
  cases e1.symm.trans e2
  simp only [hl, hl'] at hb hb'
  exact Option.some.inj (hb.symm.trans hb')

/-- **C86**, which documents files are made of: if a file is made of one of two documents of which the same is seen, but for the amount
of white space, the same file is made of the other one, whatever the schedule, if each of its elements that are not displayed has a next
sibling. -/
theorem C86_made_partial {σ σ' R Er Err : Type} (P : Painter R Er) (font : FontApi Rat Err) {E : Engine σ} {E' : Engine σ'} {d d' : Document}
    {F F' : Forest} {rootStyle : ComputedValues} {tree tree' : List StyledNode} {hidden hidden' : List Nat}
    (h : Denotes E d F rootStyle tree hidden) (h' : Denotes E' d' F' rootStyle tree' hidden')
    (hm : squeezeMarks (nodesMarks tree) = squeezeMarks (nodesMarks tree')) (hh : ∀ x ∈ hidden', HasNext d' x)
    {fuel : Nat} {schedule : Oracle} {bytes : List Byte} (hb : toPdfBytes P E font d fuel schedule = some bytes) :
    ∃ N, ∀ fuel' ≥ N, ∀ schedule', toPdfBytes P E' font d' fuel' schedule' = some bytes := by
  unfold toPdfBytes layoutDocument at hb
  rcases hc : constructDocument E d fuel with _ | root
  · simp [hc] at hb
  simp only [hc] at hb
  obtain ⟨h1, -⟩ := constructDocument_sound h hc
  obtain ⟨N, hN⟩ := constructDocument_complete h' hh
  rcases hl : layoutRoot font fuel schedule root ⟨600, 800⟩ with _ | fragments
  · simp [hl] at hb
  simp only [hl] at hb
  refine ⟨N + fuel, fun fuel' hf schedule' => ?_⟩
  obtain ⟨extra, rfl⟩ := Nat.exists_eq_add_of_le (show fuel ≤ fuel' by omega)
  unfold toPdfBytes layoutDocument
  rw [hN _ (by omega), ← constructRoot_marks hm, h1]
  simp only [C58_fuel root fuel extra schedule schedule' _ _ hl]
  exact hb

/-! ### Examples -/

theorem lookEngine_sheets {d : Document} (h : d.styleElements = []) : parseStylesheets lookEngine d = some ⟨[]⟩ := by
  simp [parseStylesheets, h, Document.stylesheetTexts, addStylesheets, StyleSet.finish]

/-- The rules of a document without style elements. -/
theorem lookEngine_rules (d : Document) (F : Forest) (h : (d.idsWith fun x => x.isStyle && x.styleEnabled) = []) :
    ∃ ua, Rules lookEngine d F ua [] := by
  obtain ⟨ua, hua⟩ := C28_contents_exist twoColors [lookUserAgent].flatten
  refine ⟨ua, ⟨[lookUserAgent], lookUaSet, rfl, ?_, hua⟩, ?_⟩
  · have h : lookUaSet.rules.Pairwise fun a b => decide (lookSpecificity a.1 ≤ lookSpecificity b.1) = true := by decide +kernel
    exact congrArg StyleSet.mk (List.mergeSort_of_pairwise h).symm
  · rw [h]
    exact .nil

/-- `<html><p>a b</p></html>`: 1 is the document, 2 `html`, 3 `p`, 4 "a b". -/
def markDocument1 : Document :=
  { Document.new with nodes :=
    [ Node.new .document,
      ⟨none, none, none, some 2, some 2, .document⟩,
      exampleElement "html" (some 1) none none (some 3) (some 3),
      exampleElement "p" (some 2) none none (some 4) (some 4),
      ⟨some 3, none, none, none, none, .text "a b"⟩ ] }

/-- `<html><head></head><p>a`, two ends of lines, a comment, and ` b</p></html>`: 1 is the document, 2 `html`, 3 `head`, 4 `p`, 5 "a"
with the ends of lines, 6 the comment, 7 " b". -/
def markDocument2 : Document :=
  { Document.new with nodes :=
    [ Node.new .document,
      ⟨none, none, none, some 2, some 2, .document⟩,
      exampleElement "html" (some 1) none none (some 3) (some 4),
      exampleElement "head" (some 2) (some 4) none none none,
      exampleElement "p" (some 2) none (some 3) (some 5) (some 7),
      ⟨some 4, some 6, none, none, none, .text "a\n\n"⟩,
      ⟨some 4, some 7, some 5, none, none, .comment "x"⟩,
      ⟨some 4, none, some 6, none, none, .text " b"⟩ ] }

/-- `<html><p>a b</p><head></head></html>`: 1 is the document, 2 `html`, 3 `p`, 4 "a b", 5 `head`. -/
def markDocument3 : Document :=
  { Document.new with nodes :=
    [ Node.new .document,
      ⟨none, none, none, some 2, some 2, .document⟩,
      exampleElement "html" (some 1) none none (some 3) (some 5),
      exampleElement "p" (some 2) (some 5) none (some 4) (some 4),
      ⟨some 3, none, none, none, none, .text "a b"⟩,
      exampleElement "head" (some 2) none (some 3) none none ] }

/-- The children of the nodes of these documents. -/
def markChildren1 : List (List Nat) := [[], [2], [3], [4], []]
def markChildren2 : List (List Nat) := [[], [2], [3, 4], [], [5, 6, 7], [], [], []]
def markChildren3 : List (List Nat) := [[], [2], [3, 5], [4], [], []]

theorem mark1_check : treeCheck markDocument1 markChildren1 = true := by decide +kernel
theorem mark2_check : treeCheck markDocument2 markChildren2 = true := by decide +kernel
theorem mark3_check : treeCheck markDocument3 markChildren3 = true := by decide +kernel

/-- The styles of `html` and `p`. -/
def markStyle (d : Document) (n : Nat) (parent : Option ComputedValues) : ComputedValues := (nodeStyle lookEngine ⟨[]⟩ d n parent).getD spanStyle
def markRootStyle : ComputedValues := markStyle markDocument1 2 none
def markBlockStyle : ComputedValues := markStyle markDocument1 3 (some markRootStyle)
def markHeadStyle : ComputedValues := markStyle markDocument2 3 (some markRootStyle)

theorem mark1_denotes : Denotes lookEngine markDocument1 (forestOf markChildren1) markRootStyle
    [.element markBlockStyle [.text (codes "a b")]] [] := by
  refine ⟨represents_of_check mark1_check, acyclic_of_check mark1_check, ⟨[]⟩, 2, lookEngine_sheets rfl, by decide, rfl, by decide +kernel, ?_⟩
  exact .element (belowHidden := []) (hidden := []) (n := 3) rfl rfl rfl (by decide +kernel) (.text (n := 4) rfl rfl .nil) .nil

theorem mark2_denotes : Denotes lookEngine markDocument2 (forestOf markChildren2) markRootStyle
    [.element markHeadStyle [], .element markBlockStyle [.text (codes "a\n\n"), .ignored, .text (codes " b")]] [3] := by
  refine ⟨represents_of_check mark2_check, acyclic_of_check mark2_check, ⟨[]⟩, 2, lookEngine_sheets rfl, by decide, rfl, by decide +kernel, ?_⟩
  exact .none (n := 3) (hidden := []) rfl rfl rfl (by decide +kernel)
    (.element (belowHidden := []) (hidden := []) (n := 4) rfl rfl rfl (by decide +kernel)
      (.text (n := 5) rfl rfl (.ignored (n := 6) rfl (.inr (.inr (.inl ⟨_, rfl⟩))) (.text (n := 7) rfl rfl .nil))) .nil)

theorem mark3_denotes : Denotes lookEngine markDocument3 (forestOf markChildren3) markRootStyle
    [.element markBlockStyle [.text (codes "a b")], .element markHeadStyle []] [5] := by
  refine ⟨represents_of_check mark3_check, acyclic_of_check mark3_check, ⟨[]⟩, 2, lookEngine_sheets rfl, by decide, rfl, by decide +kernel, ?_⟩
  exact .element (belowHidden := []) (hidden := [5]) (n := 3) rfl rfl rfl (by decide +kernel) (.text (n := 4) rfl rfl .nil)
    (.none (n := 5) (hidden := []) rfl rfl rfl (by decide +kernel) .nil)

/-- What is seen of `markDocument1`. -/
def markMarks : List Mark := [.start markBlockStyle, .char 97, .char 32, .char 98, .stop]

/-- The hypotheses of C86 are met by `markDocument1` and `markDocument2`, in which there are a comment, more white space, and an element
that is not displayed. -/
theorem mark_marked : (∃ ua, DocumentMarked lookEngine markDocument1 (forestOf markChildren1) ua [] markRootStyle markMarks) ∧
    (∃ ua marks, DocumentMarked lookEngine markDocument2 (forestOf markChildren2) ua [] markRootStyle marks ∧
      marks.length = 7 ∧ squeezeMarks marks = squeezeMarks markMarks) ∧
    ∃ ua, DocumentMarked lookEngine markDocument3 (forestOf markChildren3) ua [] markRootStyle markMarks := by
  have hd : displayOf markBlockStyle ≠ .none := by decide +kernel
  have hh : displayOf markHeadStyle = .none := by decide +kernel
  refine ⟨?_, ?_, ?_⟩
  · obtain ⟨ua, R⟩ := lookEngine_rules markDocument1 (forestOf markChildren1) (by decide +kernel)
    have := C86_exists ⟨_, rfl, rfl, rfl⟩ (by decide +kernel) R mark1_denotes
    simp only [nodesMarks, StyledNode.marks, if_neg hd, if_pos hh] at this
    exact ⟨ua, this⟩
  · obtain ⟨ua, R⟩ := lookEngine_rules markDocument2 (forestOf markChildren2) (by decide +kernel)
    have := C86_exists ⟨_, rfl, rfl, rfl⟩ (by decide +kernel) R mark2_denotes
    simp only [nodesMarks, StyledNode.marks, if_neg hd, if_pos hh] at this
    exact ⟨ua, _, this, rfl, rfl⟩
  · obtain ⟨ua, R⟩ := lookEngine_rules markDocument3 (forestOf markChildren3) (by decide +kernel)
    have := C86_exists ⟨_, rfl, rfl, rfl⟩ (by decide +kernel) R mark3_denotes
    simp only [nodesMarks, StyledNode.marks, if_neg hd, if_pos hh] at this
    exact ⟨ua, this⟩

/-- Files are made of both. -/
example : (toPdfBytes examplePainter lookEngine basicFont markDocument1 9 inOrder).isSome = true ∧
    (toPdfBytes examplePainter lookEngine basicFont markDocument2 9 inOrder).isSome = true := by
  have h1 : parseStylesheets lookEngine markDocument1 = some ⟨[]⟩ := lookEngine_sheets rfl
  have h2 : parseStylesheets lookEngine markDocument2 = some ⟨[]⟩ := lookEngine_sheets rfl
  simp only [toPdfBytes, layoutDocument, constructDocument, h1, h2]
  decide +kernel

/-- And so are those of C86 about which files are made. -/
example : ∀ x ∈ [3], HasNext markDocument2 x := by
  intro x hx
  cases List.mem_singleton.1 hx
  exact ⟨_, 4, rfl, rfl⟩

/-- The full **C86** does not hold: the same is seen of `<html><p>a b</p></html>` and `<html><p>a b</p><head></head></html>`, but only of
the first one a file is made. -/
theorem C86_undisplayed_violated :
    (∃ ua, DocumentMarked lookEngine markDocument1 (forestOf markChildren1) ua [] markRootStyle markMarks) ∧
    (∃ ua, DocumentMarked lookEngine markDocument3 (forestOf markChildren3) ua [] markRootStyle markMarks) ∧
    (∃ bytes, toPdfBytes examplePainter lookEngine basicFont markDocument1 9 inOrder = some bytes) ∧
    ∀ fuel schedule, toPdfBytes examplePainter lookEngine basicFont markDocument3 fuel schedule = none := by
  refine ⟨mark_marked.1, mark_marked.2.2, ?_, ?_⟩
  · have h1 : parseStylesheets lookEngine markDocument1 = some ⟨[]⟩ := lookEngine_sheets rfl
    refine Option.isSome_iff_exists.1 ?_
    simp only [toPdfBytes, layoutDocument, constructDocument, h1]
    decide +kernel
  · intro fuel schedule
    rcases hc : constructDocument lookEngine markDocument3 fuel with _ | root
    · simp [toPdfBytes, layoutDocument, hc]
    · obtain ⟨node, s, h1, h2⟩ := ((C64_returns_partial _ _ _ _ _ _ mark3_denotes).1 ⟨fuel, root, hc⟩).1 5 (by simp)
      cases h1
      cases h2

end Verif.Layout
