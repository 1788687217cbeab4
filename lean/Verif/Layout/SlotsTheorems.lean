/- C73 and C74: the boxes that are stored in elements, for every schedule of the threads, and what happens when boxes cannot be made. -/
import Verif.Layout.SlotsDocument
import Verif.Layout.SlotsTree
namespace Verif.Layout
open Verif.Dom Verif.Style

/-- There is a run. -/
theorem Runs.exists : ∀ p : Program, ∃ l, Runs p l
  | .nil => ⟨_, .nil⟩
  | .event _ => ⟨_, .event⟩
  | .seq p q => by
    obtain ⟨l, h1⟩ := Runs.exists p
    obtain ⟨m, h2⟩ := Runs.exists q
    exact ⟨_, .seq h1 h2⟩
  | .par p q => by
    obtain ⟨l, h1⟩ := Runs.exists p
    obtain ⟨m, h2⟩ := Runs.exists q
    have hl : ∀ m : List Event, Shuffle [] m m := fun m => by
      induction m with
      | nil => exact .nil
      | cons _ _ ih => exact .right ih
    have hs : ∀ l m : List Event, Shuffle l m (l ++ m) := fun l m => by
      induction l with
      | nil => exact hl m
      | cons _ _ ih => exact .left ih
    exact ⟨_, .par h1 h2 (hs l m)⟩

/-- What is in the slot of an element with style `s` after boxes were made, if `before` was there before: nothing changes for an element
with `display: none`, one with `display: contents` is marked, and each other one has a box of its style. No slot stays borrowed. -/
def StoredFor (s : ComputedValues) (before after : SlotCell) : Prop :=
  match displayOf s with
  | .none => after = before
  | .contents => after = ⟨some .displayContents, false⟩
  | .generatingBox _ _ => ∃ box, after = ⟨some box, false⟩ ∧ box.style = some s

theorem cells_of_does {p : Program} {els : List (Nat × ComputedValues)} (hs : p.Separate) (hd : Does p.events els []) (heap : Heap)
    (hb : ∀ n, (heap n).borrowed = false) (hn : ∀ n s, (n, s) ∈ els → displayOf s = .none → (heap n).box = none) :
    ∃ heap' : Heap, (∀ l, Runs p l → runEvents l heap = some heap') ∧ (∀ l, Runs p l → runEvents l heap' = some heap') ∧
      (∀ n s, (n, s) ∈ els → StoredFor s (heap n) (heap' n)) ∧ (∀ n, (∀ s, (n, s) ∉ els) → heap' n = heap n) ∧
      ∀ n, runCell (on n p.events) (heap n) = some (heap' n) := by
  have key : ∀ n, ∃ c, runCell (on n p.events) (heap n) = some c ∧ runCell (on n p.events) c = some c ∧
      (∀ s, (n, s) ∈ els → StoredFor s (heap n) c) ∧ ((∀ s, (n, s) ∉ els) → c = heap n) := by
    intro n
    by_cases h : ∃ s, (n, s) ∈ els
    · obtain ⟨s, hmem⟩ := h
      have hc := hd.closes _ hmem
      have hbn := hb n
      rcases hh : heap n with ⟨box, borrowed⟩
      rw [hh] at hbn
      simp only at hbn
      subst hbn
      have any : ∀ c, runCell (on n p.events) ⟨box, false⟩ = some c → (∀ s', (n, s') ∈ els → StoredFor s' ⟨box, false⟩ c) := by
        intro c hrun s' hmem'
        have hc' := hd.closes _ hmem'
        unfold StoredFor
        unfold Complete at hc'
        rcases hdisp : displayOf s' with _ | _ | ⟨o, i⟩
        · have hbox := hn n s' hmem' hdisp
          rw [hh] at hbox
          simp only at hbox
          subst hbox
          simp only [hdisp] at hc'
          simp only [hc', runCell, SlotCell.step, Bool.false_or, Option.isSome_none, Bool.false_eq_true, if_false, Option.some.injEq] at hrun
          exact hrun.symm
        · simp only [hdisp] at hc'
          simp only [hc', runCell, SlotCell.step, Bool.false_eq_true, if_false, Option.some.injEq] at hrun
          exact hrun.symm
        · simp only [hdisp] at hc'
          obtain ⟨b, hc', hb'⟩ := hc'
          simp only [hc', runCell, SlotCell.step, Bool.false_eq_true, if_false, Option.some.injEq] at hrun
          exact ⟨b, hrun.symm, hb'⟩
      unfold Complete at hc
      rcases hdisp : displayOf s with _ | _ | ⟨o, i⟩
      · simp only [hdisp] at hc
        have hbox := hn n s hmem hdisp
        rw [hh] at hbox
        simp only at hbox
        subst hbox
        refine ⟨⟨none, false⟩, ?_, ?_, any _ ?_, fun hno => absurd hmem (hno s)⟩ <;> simp [hc, runCell, SlotCell.step]
      · simp only [hdisp] at hc
        refine ⟨⟨some .displayContents, false⟩, ?_, ?_, any _ ?_, fun hno => absurd hmem (hno s)⟩ <;> simp [hc, runCell, SlotCell.step]
      · simp only [hdisp] at hc
        obtain ⟨b, hc, _⟩ := hc
        refine ⟨⟨some b, false⟩, ?_, ?_, any _ ?_, fun hno => absurd hmem (hno s)⟩ <;> simp [hc, runCell, SlotCell.step]
    · have hr := hd.rest n (fun e he heq => h ⟨e.2, by rw [← heq]; exact he⟩) (by simp)
      refine ⟨heap n, by rw [hr]; rfl, by rw [hr]; rfl, fun s hs => absurd ⟨s, hs⟩ h, fun _ => rfl⟩
  choose heap' h1 h2 h3 h4 using key
  refine ⟨heap', fun l hl => ?_, fun l hl => ?_, fun n s => h3 n s, h4, h1⟩
  · exact runEvents_of_cells l heap heap' fun id => by rw [on_runs hl hs]; exact h1 id
  · exact runEvents_of_cells l heap' heap' fun id => by rw [on_runs hl hs]; exact h2 id

/-! ### The root -/

theorem constructRootSlots_ok {fuel : Nat} {style : ComputedValues} {children : List IdNode} (hd : depthAll children < fuel)
    (root : BlockFormattingContext) :
    (∃ p, constructRootSlots fuel style children = .ok (root, p)) ↔ constructRoot style (forgetAll children) = some root := by
  have h := constructSlots_agrees fuel children hd style
  unfold constructRootSlots constructRoot
  rcases hdisp : displayOf style with _ | _ | ⟨o, i⟩
  · simp
  all_goals
    simp only []
    rcases hc : constructContainer style (forgetAll children) with _ | ⟨c, f⟩
    · simp only [hc] at h
      simp [h, Outcome.andThen]
    · simp only [hc] at h
      obtain ⟨p, h⟩ := h
      simp only [h, Outcome.andThen]
      split
      · simp
      · split <;> simp

theorem constructRootSlots_abort {fuel : Nat} {style : ComputedValues} {children : List IdNode} (hd : depthAll children < fuel) :
    constructRoot style (forgetAll children) = none ↔ constructRootSlots fuel style children = .abort := by
  have h := constructSlots_agrees fuel children hd style
  unfold constructRootSlots constructRoot
  rcases hdisp : displayOf style with _ | _ | ⟨o, i⟩
  · simp
  all_goals
    simp only []
    rcases hc : constructContainer style (forgetAll children) with _ | ⟨c, f⟩
    · simp only [hc] at h
      simp [h, Outcome.andThen]
    · simp only [hc] at h
      obtain ⟨p, h⟩ := h
      simp only [h, Outcome.andThen]
      split
      · simp
      · split <;> simp

theorem constructRootSlots_does {fuel : Nat} {style : ComputedValues} {children : List IdNode} {root : BlockFormattingContext}
    {p : Program} (hne : displayOf style ≠ .none) (h : constructRootSlots fuel style children = .ok (root, p))
    (hd : Distinct (elementsOf children)) : p.Separate ∧ Does p.events (elementsOf children) [] := by
  have key : ∃ built, constructSlots fuel style children = .ok built ∧ built.program = p := by
    unfold constructRootSlots at h
    rcases hdisp : displayOf style with _ | _ | ⟨o, i⟩
    · exact absurd hdisp hne
    all_goals
      simp only [hdisp] at h
      obtain ⟨built, h1, h2⟩ := Outcome.andThen_ok h
      refine ⟨built, h1, ?_⟩
      split at h2
      · cases h2; rfl
      · split at h2 <;> (cases h2; rfl)
  obtain ⟨built, h1, rfl⟩ := key
  exact constructSlots_does fuel style children built h1 hd

variable {σ : Type}

/-! ### C73 -/

/-- **C73**, the boxes: finishing the boxes of block containers later, in parallel, makes the same boxes as making them one after
another in document order. -/
theorem C73_boxes (E : Engine σ) (d : Document) (fuel : Nat) (root : BlockFormattingContext) :
    (∃ program, constructDocumentSlots E d fuel = some (.ok (root, program))) ↔ constructDocument E d fuel = some root := by
  unfold constructDocumentSlots constructDocument
  rcases parseStylesheets E d with _ | author
  · simp
  simp only []
  rcases d.rootElement d.nodes.length with _ | r
  · simp
  simp only []
  rcases nodeStyle E author d r none with _ | style
  · simp
  simp only []
  by_cases hdisp : displayOf style = .none
  · simp [hdisp, constructRootSlots, constructRoot]
  · simp only [hdisp, if_false]
    rcases d.get r with _ | node
    · simp
    simp only [← idNodes_forget]
    rcases hn : idNodes (fun child parent => nodeStyle E author d child (some parent)) d fuel style node.firstChild with _ | children
    · simp
    · simp only [Option.map_some, Option.some.injEq]
      exact constructRootSlots_ok (idNodes_depth _ _ _ _ hn) root

theorem constructDocumentSlots_inv {E : Engine σ} {d : Document} {F : Forest} (h : Represents d F) (ha : F.Acyclic) {author : StyleSet σ}
    {r : Nat} {rootStyle : ComputedValues} (h1 : parseStylesheets E d = some author) (h2 : d.rootElement d.nodes.length = some r)
    (h3 : nodeStyle E author d r none = some rootStyle) (h4 : displayOf rootStyle ≠ .none) {fuel : Nat}
    {o : Outcome (BlockFormattingContext × Program)} (hc : constructDocumentSlots E d fuel = some o) :
    ∃ children, constructRootSlots fuel rootStyle children = o ∧ Distinct (elementsOf children) ∧ depthAll children < fuel ∧
      styledNodes (fun child parent => nodeStyle E author d child (some parent)) d fuel rootStyle (F r).head? = some (forgetAll children) ∧
      ∀ n s, (n, s) ∈ elementsOf children ↔
        Visited d F (fun child parent => nodeStyle E author d child (some parent)) rootStyle (F r) n s := by
  obtain ⟨node, hn⟩ := nodeStyle_get h3
  simp only [constructDocumentSlots, h1, h2, h3, if_neg h4, get_eq, hn, (h.ends r node hn).1] at hc
  rcases h6 : idNodes (fun child parent => nodeStyle E author d child (some parent)) d fuel rootStyle (F r).head? with _ | children
  · simp [h6] at hc
  · simp only [h6, Option.some.injEq] at hc
    exact ⟨children, hc, idNodes_distinct h ha h6, idNodes_depth _ _ _ _ h6, by rw [← idNodes_forget, h6]; rfl,
      (idNodes_elements h fuel rootStyle r [] (F r) children rfl h6).1⟩

/-- **C73**, what is stored: whatever the order in which the threads get to run, every borrow of the slot of an element succeeds, and at
the end the same boxes are in the same elements: each element that is displayed has a box of its style, or is marked if it has
`display: contents`; the others are as they were. Laying out again changes nothing. It holds for a document that was never laid out, and
whenever no element with `display: none` has a box and no slot is borrowed (removing boxes of earlier layouts is C43). -/
theorem C73_stored (E : Engine σ) (d : Document) (F : Forest) (h : Represents d F) (ha : F.Acyclic) (author : StyleSet σ) (r : Nat)
    (rootStyle : ComputedValues) (h1 : parseStylesheets E d = some author) (h2 : d.rootElement d.nodes.length = some r)
    (h3 : nodeStyle E author d r none = some rootStyle) (h4 : displayOf rootStyle ≠ .none)
    (fuel : Nat) (root : BlockFormattingContext) (program : Program)
    (hc : constructDocumentSlots E d fuel = some (.ok (root, program))) (before : Heap) (hb : ∀ n, (before n).borrowed = false)
    (hn : ∀ n s, Visited d F (fun child parent => nodeStyle E author d child (some parent)) rootStyle (F r) n s → displayOf s = .none →
      (before n).box = none) :
    ∃ after : Heap, (∃ events, Runs program events) ∧ (∀ events, Runs program events → runEvents events before = some after) ∧
      (∀ events, Runs program events → runEvents events after = some after) ∧
      (∀ n s, Visited d F (fun child parent => nodeStyle E author d child (some parent)) rootStyle (F r) n s →
        StoredFor s (before n) (after n)) ∧
      ∀ n, (∀ s, ¬ Visited d F (fun child parent => nodeStyle E author d child (some parent)) rootStyle (F r) n s) →
        after n = before n := by
  obtain ⟨children, hr, hdis, _, _, hv⟩ := constructDocumentSlots_inv h ha h1 h2 h3 h4 hc
  obtain ⟨hs, hd⟩ := constructRootSlots_does h4 hr hdis
  obtain ⟨after, a1, a2, a3, a4, _⟩ := cells_of_does hs hd before hb fun n s hm => hn n s ((hv n s).1 hm)
  exact ⟨after, Runs.exists program, a1, a2, fun n s hvis => a3 n s ((hv n s).2 hvis),
    fun n hno => a4 n fun s hm => hno s ((hv n s).1 hm)⟩

/-- The box of the element itself, if it has one. -/
def SlotCell.ownBox (c : SlotCell) : Option StoredBox :=
  match c.box with
  | some .displayContents => none
  | box => box

theorem storedBy_split : ∀ (l : List Event) (ids : List Nat), ids.Nodup → (∀ e ∈ l, e.id ∈ ids) →
    (storedBy l).Perm (ids.flatMap fun id => storedBy (on id l))
  | [], ids, _, _ => by
    have : (ids.flatMap fun id => storedBy (on id [])) = [] := by simp [on, storedBy]
    rw [this]
    exact List.Perm.refl _
  | e :: l, ids, hn, hm => by
    have ih := storedBy_split l ids hn fun x hx => hm x (by simp [hx])
    obtain ⟨a, b, rfl⟩ := List.append_of_mem (hm e (by simp))
    have hne : ∀ c ∈ a ++ b, (e.id == c) = false := by
      intro c hc
      simp only [beq_eq_false_iff_ne, ne_eq]
      rintro rfl
      rw [List.nodup_append] at hn
      rcases List.mem_append.1 hc with hc | hc
      · exact hn.2.2 _ hc _ (by simp) rfl
      · exact (List.nodup_cons.1 hn.2.1).1 hc
    have hsame : ∀ c ∈ a ++ b, storedBy (on c (e :: l)) = storedBy (on c l) := by
      intro c hc
      simp [on, List.filter_cons, hne c hc]
    have ha : (a.flatMap fun id => storedBy (on id (e :: l))) = a.flatMap fun id => storedBy (on id l) := by
      apply List.flatMap_congr
      exact fun c hc => hsame c (by simp [hc])
    have hb : (b.flatMap fun id => storedBy (on id (e :: l))) = b.flatMap fun id => storedBy (on id l) := by
      apply List.flatMap_congr
      exact fun c hc => hsame c (by simp [hc])
    have he : storedBy (on e.id (e :: l)) = storedBy [e] ++ storedBy (on e.id l) := by
      simp only [on, List.filter_cons, beq_self_eq_true, if_true]
      rw [← storedBy_append]
      rfl
    have hl : storedBy (e :: l) = storedBy [e] ++ storedBy l := by rw [← storedBy_append]; rfl
    rw [List.flatMap_append, List.flatMap_cons] at ih ⊢
    rw [ha, hb, he, hl]
    simp only [← Multiset.coe_eq_coe, ← Multiset.coe_add] at ih ⊢
    rw [ih]
    abel

theorem constructRootSlots_parts {fuel : Nat} {style : ComputedValues} {children : List IdNode} {root : BlockFormattingContext}
    {p : Program} (hne : displayOf style ≠ .none) (h : constructRootSlots fuel style children = .ok (root, p)) :
    ∃ rootBox anon, root.contents.parts.Perm (rootBox :: (storedBy p.events ++ anon)) ∧ rootBox.style = some style ∧
      ∀ a ∈ anon, Anonymous a := by
  unfold constructRootSlots at h
  rcases hdisp : displayOf style with _ | _ | ⟨o, i⟩
  · exact absurd hdisp hne
  all_goals
    simp only [hdisp] at h
    obtain ⟨built, h1, h2⟩ := Outcome.andThen_ok h
    obtain ⟨anon, g1, g2⟩ := constructSlots_tidy fuel style children built h1
    split at h2
    · cases h2
      exact ⟨.blockLevel (.outOfFlowAbsolutelyPositioned style built.floats built.contents), anon,
        by simpa [BlockContainer.parts, blocksParts, BlockLevelBox.parts] using g1, rfl, g2⟩
    · split at h2
      · cases h2
        exact ⟨.blockLevel (.outOfFlowFloat style built.floats built.contents), anon,
          by simpa [BlockContainer.parts, blocksParts, BlockLevelBox.parts] using g1, rfl, g2⟩
      · cases h2
        exact ⟨.blockLevel (.independent style built.floats built.contents), anon,
          by simpa [BlockContainer.parts, blocksParts, BlockLevelBox.parts] using g1, rfl, g2⟩

/-- **C73**, the tree: each box in the tree is the box of the root element, an anonymous block, or the box that is stored in one of the
elements, and the box that is stored in an element is in the tree, once. -/
theorem C73_tree (E : Engine σ) (d : Document) (F : Forest) (h : Represents d F) (ha : F.Acyclic) (author : StyleSet σ) (r : Nat)
    (rootStyle : ComputedValues) (h1 : parseStylesheets E d = some author) (h2 : d.rootElement d.nodes.length = some r)
    (h3 : nodeStyle E author d r none = some rootStyle) (h4 : displayOf rootStyle ≠ .none)
    (fuel : Nat) (root : BlockFormattingContext) (program : Program)
    (hc : constructDocumentSlots E d fuel = some (.ok (root, program))) (before after : Heap) (hb : ∀ n, (before n).borrowed = false)
    (hn : ∀ n s, Visited d F (fun child parent => nodeStyle E author d child (some parent)) rootStyle (F r) n s → displayOf s = .none →
      (before n).box = none) (events : List Event) (hr : Runs program events) (hrun : runEvents events before = some after) :
    ∃ (elements : List Nat) (rootBox : StoredBox) (anonymous : List StoredBox), elements.Nodup ∧
      (∀ n, n ∈ elements ↔ ∃ s, Visited d F (fun child parent => nodeStyle E author d child (some parent)) rootStyle (F r) n s) ∧
      root.contents.parts.Perm (rootBox :: (elements.filterMap (fun n => (after n).ownBox) ++ anonymous)) ∧
      rootBox.style = some rootStyle ∧ ∀ a ∈ anonymous, Anonymous a := by
  obtain ⟨children, hcr, hdis, _, _, hv⟩ := constructDocumentSlots_inv h ha h1 h2 h3 h4 hc
  obtain ⟨hs, hd⟩ := constructRootSlots_does h4 hcr hdis
  obtain ⟨after', a1, _, a3, _, a5⟩ := cells_of_does hs hd before hb fun n s hm => hn n s ((hv n s).1 hm)
  rw [a1 events hr] at hrun
  cases hrun
  obtain ⟨rootBox, anon, g1, g2, g3⟩ := constructRootSlots_parts h4 hcr
  refine ⟨(elementsOf children).map Prod.fst, rootBox, anon, hdis, fun n => ?_, ?_, g2, g3⟩
  · simp only [List.mem_map, Prod.exists, exists_and_right, exists_eq_right, hv]
  · refine g1.trans (List.Perm.cons _ (List.Perm.append_right _ ?_))
    have hids : ∀ e ∈ program.events, e.id ∈ (elementsOf children).map Prod.fst := by
      intro e he
      by_contra hno
      have := hd.rest e.id (fun x hx heq => hno (heq ▸ List.mem_map_of_mem hx)) (by simp)
      have hmem : e ∈ on e.id program.events := by simp [on, he]
      rw [this] at hmem
      cases hmem
    refine (storedBy_split program.events _ hdis hids).trans ?_
    rw [List.flatMap_map, List.filterMap_map, List.filterMap_eq_flatMap_toList]
    refine List.Perm.of_eq (List.flatMap_congr ?_)
    intro e he
    have hcell := hd.closes e he
    have hst := a3 e.1 e.2 he
    unfold Complete at hcell
    unfold StoredFor at hst
    simp only [Function.comp]
    rcases hdisp : displayOf e.2 with _ | _ | ⟨o, i⟩
    · simp only [hdisp] at hcell hst
      rw [hcell, hst]
      simp [storedBy, Event.stores, SlotCell.ownBox, hn e.1 e.2 ((hv _ _).1 he) hdisp]
    · simp only [hdisp] at hcell hst
      rw [hcell, hst]
      simp [storedBy, Event.stores, SlotCell.ownBox]
    · simp only [hdisp] at hcell hst
      obtain ⟨box, hcell, hstyle⟩ := hcell
      have hrun : runCell (on e.1 program.events) (before e.1) = some (after e.1) := a5 e.1
      rw [hcell] at hrun ⊢
      simp only [runCell, SlotCell.step, hb, Bool.false_eq_true, if_false, Option.some.injEq] at hrun
      rw [← hrun]
      have hne : ∀ x : StoredBox, x.style = some e.2 → SlotCell.ownBox ⟨some x, false⟩ = some x := by
        intro x hx
        cases x <;> first | rfl | (simp [StoredBox.style] at hx)
      rw [hne box hstyle]
      rfl

/-! ### C74 -/

/-- **C74** does not hold in general: whenever boxes cannot be made of the contents of an element (an inline block, or a block in an
inline element), the process is aborted; the caller never gets a panic that it could catch. -/
theorem C74_abort_violated (fuel : Nat) (style : ComputedValues) (children : List IdNode) (hd : depthAll children < fuel)
    (hs : displayOf style ≠ .none) :
    (constructRootSlots fuel style children = .abort ↔ ¬ allSupported false (forgetAll children)) ∧
      constructRootSlots fuel style children ≠ .panic := by
  have hsup : allSupported false (forgetAll children) ↔ constructRoot style (forgetAll children) ≠ none := by
    rw [← C42_supported_partial style, ← constructRoot_container hs, Option.ne_none_iff_exists']
  constructor
  · rw [← constructRootSlots_abort hd, hsup, not_not]
  · intro hp
    rcases hc : constructRoot style (forgetAll children) with _ | root
    · rw [(constructRootSlots_abort hd).1 hc] at hp
      cases hp
    · obtain ⟨p, h⟩ := (constructRootSlots_ok hd root).2 hc
      rw [h] at hp
      cases hp

/-- **C74** for documents: the contents that are supported are laid out without an abort. Missing: a panic that can be caught, for those
that are not. -/
theorem C74_supported_partial (E : Engine σ) (d : Document) (F : Forest) (rootStyle : ComputedValues) (tree : List StyledNode)
    (hidden : List Nat) (h : Denotes E d F rootStyle tree hidden) (fuel : Nat) (o : Outcome (BlockFormattingContext × Program))
    (hc : constructDocumentSlots E d fuel = some o) :
    (allSupported false tree → ∃ root program, o = .ok (root, program)) ∧ (¬ allSupported false tree → o = .abort) := by
  obtain ⟨author, r, h1, h2, h3, h4, h5⟩ := h.styled
  obtain ⟨children, hr, _, hdepth, hst, _⟩ := constructDocumentSlots_inv h.represents h.acyclic h1 h2 h3 h4 hc
  obtain ⟨hidden', t1, _⟩ := styledNodes_sound h.represents fuel rootStyle r [] (F r) _ rfl hst
  obtain ⟨rfl, rfl⟩ := h5.unique t1
  subst hr
  constructor
  · intro hs
    obtain ⟨c, f, hs⟩ := (C42_supported_partial rootStyle (forgetAll children)).2 hs
    obtain ⟨root, hs⟩ := (constructRoot_container h4).2 ⟨c, f, hs⟩
    obtain ⟨p, hp⟩ := (constructRootSlots_ok hdepth root).2 hs
    exact ⟨root, p, hp⟩
  · exact ((C74_abort_violated fuel rootStyle children hdepth h4).1.2)

/-! ### Examples -/

/-- The events and boxes of `exampleDocument2` (`<html><head></head><div><p>a</p>b</div></html>`). -/
theorem exampleSlots : ∃ root program, constructDocumentSlots exampleEngine exampleDocument2 9 = some (.ok (root, program)) := by
  have hp : parseStylesheets exampleEngine exampleDocument2 = some ⟨[]⟩ := exampleEngine_sheets rfl
  have : (constructDocument exampleEngine exampleDocument2 9).isSome = true := by
    simp only [constructDocument, hp]
    decide +kernel
  obtain ⟨root, hr⟩ := Option.isSome_iff_exists.mp this
  obtain ⟨program, h⟩ := (C73_boxes exampleEngine exampleDocument2 9 root).2 hr
  exact ⟨root, program, h⟩

/-- The hypotheses of `C73_stored` and `C74_supported_partial` are met by `exampleDocument2`, which was not laid out before: `div` (4) and
`p` (5) get boxes, and `head` (3) gets none. -/
example : ∃ root program after, constructDocumentSlots exampleEngine exampleDocument2 9 = some (.ok (root, program)) ∧
    (∀ events, Runs program events → runEvents events (fun _ => ⟨none, false⟩) = some after) ∧ (∃ events, Runs program events) ∧
    (∃ box, after 4 = ⟨some box, false⟩) ∧ (∃ box, after 5 = ⟨some box, false⟩) ∧ after 3 = ⟨none, false⟩ ∧
    allSupported false exampleTree2 := by
  obtain ⟨root, program, h⟩ := exampleSlots
  have D := exampleDocument2_denotes
  obtain ⟨after, a1, a2, _, a3, _⟩ := C73_stored exampleEngine exampleDocument2 (forestOf exampleChildren2) D.represents D.acyclic ⟨[]⟩ 2
    (exampleRootStyle exampleDocument2) (exampleEngine_sheets rfl) (by decide) rfl (by decide +kernel) 9 root program h
    (fun _ => ⟨none, false⟩) (fun _ => rfl) (fun _ _ _ _ => rfl)
  have v3 := a3 3 (documentStyle exampleDocument2 3 (some (exampleRootStyle exampleDocument2)))
    (.here (by decide) rfl rfl rfl)
  have v4 := a3 4 (documentStyle exampleDocument2 4 (some (exampleRootStyle exampleDocument2)))
    (.here (by decide) rfl rfl rfl)
  have v5 := a3 5 (documentStyle exampleDocument2 5 (some (documentStyle exampleDocument2 4 (some (exampleRootStyle exampleDocument2)))))
    (.inside (m := 4) (by decide) rfl rfl rfl (by decide +kernel) (.here (by decide) rfl rfl rfl))
  have e3 : displayOf (documentStyle exampleDocument2 3 (some (exampleRootStyle exampleDocument2))) = .none := by decide +kernel
  have e4 : displayOf (documentStyle exampleDocument2 4 (some (exampleRootStyle exampleDocument2))) = .generatingBox .block .flow := by
    decide +kernel
  have e5 : displayOf (documentStyle exampleDocument2 5 (some (documentStyle exampleDocument2 4
      (some (exampleRootStyle exampleDocument2))))) = .generatingBox .block .flow := by
    decide +kernel
  simp only [StoredFor, e3] at v3
  simp only [StoredFor, e4] at v4
  simp only [StoredFor, e5] at v5
  obtain ⟨b4, v4, _⟩ := v4
  obtain ⟨b5, v5, _⟩ := v5
  refine ⟨root, program, after, h, a2, a1, ⟨b4, v4⟩, ⟨b5, v5⟩, v3, ?_⟩
  have := (C64_returns_partial _ _ _ _ _ _ D).1 ⟨9, root, (C73_boxes exampleEngine exampleDocument2 9 root).1 ⟨program, h⟩⟩
  exact this.2

/-- The hypotheses of `C73_tree` are met by `exampleDocument2`; its tree has at least the box of `html` and that of `div`. -/
example : ∃ root program events after, constructDocumentSlots exampleEngine exampleDocument2 9 = some (.ok (root, program)) ∧
    Runs program events ∧ runEvents events (fun _ => ⟨none, false⟩) = some after ∧ ∃ box ∈ root.contents.parts, after 4 = ⟨some box, false⟩ := by
  obtain ⟨root, program, h⟩ := exampleSlots
  have D := exampleDocument2_denotes
  obtain ⟨after, ⟨events, a1⟩, a2, _, a3, _⟩ := C73_stored exampleEngine exampleDocument2 (forestOf exampleChildren2) D.represents D.acyclic
    ⟨[]⟩ 2 (exampleRootStyle exampleDocument2) (exampleEngine_sheets rfl) (by decide) rfl (by decide +kernel) 9 root program h
    (fun _ => ⟨none, false⟩) (fun _ => rfl) (fun _ _ _ _ => rfl)
  have hv : Visited exampleDocument2 (forestOf exampleChildren2) (fun child parent => nodeStyle exampleEngine ⟨[]⟩ exampleDocument2 child (some parent))
      (exampleRootStyle exampleDocument2) (forestOf exampleChildren2 2) 4
      (documentStyle exampleDocument2 4 (some (exampleRootStyle exampleDocument2))) := .here (by decide) rfl rfl rfl
  have v4 := a3 4 _ hv
  have e4 : displayOf (documentStyle exampleDocument2 4 (some (exampleRootStyle exampleDocument2))) = .generatingBox .block .flow := by
    decide +kernel
  simp only [StoredFor, e4] at v4
  obtain ⟨b4, v4, s4⟩ := v4
  obtain ⟨elements, rootBox, anon, _, t2, t3, _, _⟩ := C73_tree exampleEngine exampleDocument2 (forestOf exampleChildren2) D.represents
    D.acyclic ⟨[]⟩ 2 (exampleRootStyle exampleDocument2) (exampleEngine_sheets rfl) (by decide) rfl (by decide +kernel) 9 root program h
    (fun _ => ⟨none, false⟩) after (fun _ => rfl) (fun _ _ _ _ => rfl) events a1 (a2 events a1)
  refine ⟨root, program, events, after, h, a1, a2 events a1, b4, t3.mem_iff.2 ?_, v4⟩
  refine List.mem_cons_of_mem _ (List.mem_append_left _ (List.mem_filterMap.2 ⟨4, (t2 4).2 ⟨_, hv⟩, ?_⟩))
  rw [v4]
  cases b4 <;> first | rfl | (simp [StoredBox.style] at s4)

/-- **C74** does not hold: an inline block in a block aborts the process. It meets the hypotheses of `C74_abort_violated`. -/
theorem C74_violated : constructRootSlots 2 blockStyle [.element 3 inlineBlockStyle [.text (codes "a")]] = .abort := by
  rw [(C74_abort_violated 2 blockStyle _ (by decide) (by decide +kernel)).1, ← C42_supported_partial blockStyle]
  have : constructContainer blockStyle (forgetAll [.element 3 inlineBlockStyle [.text (codes "a")]]) = none := by
    simp only [forgetAll, IdNode.forget]
    rcases h : constructContainer blockStyle [.element inlineBlockStyle [.text (codes "a")]] with _ | x
    · rfl
    · have : (constructContainer blockStyle [.element inlineBlockStyle [.text (codes "a")]]).isSome = false := by decide +kernel
      rw [h] at this
      cases this
  simp [this]

end Verif.Layout
