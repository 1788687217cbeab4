/- Properties of what selectors see of a document: C35. -/
import Verif.Style.Selectors
import Verif.Dom.Theorems
namespace Verif.Style
open Verif.Dom

/-- The node is an element. -/
def Spec.IsElement (d : Document) (i : Nat) : Prop := ∃ n e, d.nodes[i]? = some n ∧ n.data = .element e

instance (d : Document) (i : Nat) : Decidable (Spec.IsElement d i) :=
  match h : d.nodes[i]? with
  | none => .isFalse (by rintro ⟨n, e, h', _⟩; rw [h] at h'; cases h')
  | some n =>
    match hn : n.data with
    | .element e => .isTrue ⟨n, e, h, hn⟩
    | .document | .doctype .. | .text _ | .comment _ | .pi .. => .isFalse (by
        rintro ⟨n', e, h', he⟩
        rw [h] at h'; cases h'
        rw [hn] at he; cases he)

theorem asElement_iff {d : Document} {i : Nat} {n : Node} (h : d.nodes[i]? = some n) :
    n.asElement.isSome = decide (Spec.IsElement d i) := by
  cases hd : n.data with
  | element e =>
    have : Spec.IsElement d i := ⟨n, e, h, hd⟩
    simp [Node.asElement, hd, this]
  | document | doctype _ _ _ | text _ | comment _ | pi _ _ =>
    have : ¬ Spec.IsElement d i := by
      rintro ⟨n', e, h', he⟩
      rw [h] at h'; cases h'
      rw [hd] at he; cases he
    simp [Node.asElement, hd, this]

theorem findElement_next {d : Document} {F : Forest} (h : Represents d F) {p : Nat} :
    ∀ (after before : List Nat), F p = before ++ after → ∀ fuel, after.length ≤ fuel →
      findElement d Node.nextSibling fuel after.head? = some (after.find? (fun i => decide (Spec.IsElement d i)))
  | [], _, _, fuel, _ => by cases fuel <;> rfl
  | c :: after, before, hF, 0, hfuel => by simp at hfuel
  | c :: after, before, hF, fuel + 1, hfuel => by
    obtain ⟨n, hn, hl⟩ := h.child p before c after hF
    have hn' : d.get c = some n := hn
    simp only [List.head?_cons, findElement, hn', asElement_iff hn, List.find?_cons, decide_eq_true_eq]
    split
    · rename_i hc; simp [hc]
    · rename_i hc
      rw [hl.next, findElement_next h (p := p) after (before ++ [c]) (by simp [hF]) fuel (by simpa using hfuel)]
      simp [hc]

theorem findElement_prev {d : Document} {F : Forest} (h : Represents d F) {p : Nat} :
    ∀ (before after : List Nat), F p = before.reverse ++ after → ∀ fuel, before.length ≤ fuel →
      findElement d Node.previousSibling fuel before.head? = some (before.find? (fun i => decide (Spec.IsElement d i)))
  | [], _, _, fuel, _ => by cases fuel <;> rfl
  | c :: before, after, hF, 0, hfuel => by simp at hfuel
  | c :: before, after, hF, fuel + 1, hfuel => by
    obtain ⟨n, hn, hl⟩ := h.child p before.reverse c after (by rw [hF]; simp)
    have hn' : d.get c = some n := hn
    simp only [List.head?_cons, findElement, hn', asElement_iff hn, List.find?_cons, decide_eq_true_eq]
    split
    · rename_i hc; simp [hc]
    · rename_i hc
      rw [hl.prev, List.getLast?_reverse, findElement_prev h (p := p) before (c :: after) (by simp [hF]) fuel (by simpa using hfuel)]
      simp [hc]

/-- **C35**: among the children of a node, the next (previous) sibling element is the nearest element after (before), whatever
lies between; and the parent element is the parent if that is an element. -/
theorem C35_navigation {d : Document} {F : Forest} (h : Represents d F) {p c : Nat} {before after : List Nat}
    (hF : F p = before ++ c :: after) (fuel : Nat) (hfuel : (F p).length ≤ fuel) :
    nextSiblingElement d fuel c = some (after.find? (fun i => decide (Spec.IsElement d i))) ∧
    prevSiblingElement d fuel c = some (before.reverse.find? (fun i => decide (Spec.IsElement d i))) ∧
    parentElement d c = some (if Spec.IsElement d p then some p else none) := by
  obtain ⟨n, hn, hl⟩ := h.child p before c after hF
  have hn' : d.get c = some n := hn
  have hlen : (F p).length = before.length + (after.length + 1) := by rw [hF]; simp
  refine ⟨?_, ?_, ?_⟩
  · simp only [nextSiblingElement, hn', hl.next]
    exact findElement_next h (p := p) after (before ++ [c]) (by simp [hF]) fuel (by omega)
  · simp only [prevSiblingElement, hn', hl.prev]
    have := findElement_prev h (p := p) before.reverse (c :: after) (by simp [hF]) fuel (by simp; omega)
    rwa [List.head?_reverse] at this
  · have hp : p < d.nodes.length := by
      by_contra hlt
      have := h.outside p (by omega)
      rw [this] at hF
      simp at hF
    have hp' : d.nodes[p]? = some d.nodes[p] := List.getElem?_eq_getElem hp
    have hp'' : d.get p = some d.nodes[p] := hp'
    simp only [parentElement, hn', hl.parent, hp'', asElement_iff hp', decide_eq_true_eq]
    split <;> rfl

/-- A node without a parent: no siblings, no parent element. -/
theorem C35_navigation_root {d : Document} {F : Forest} (h : Represents d F) {c : Nat} {n : Node} (hn : d.nodes[c]? = some n)
    (hc : ∀ p, c ∉ F p) (fuel : Nat) :
    nextSiblingElement d fuel c = some none ∧ prevSiblingElement d fuel c = some none ∧ parentElement d c = some none := by
  have hp : n.parent = none := by
    cases hp : n.parent with
    | none => rfl
    | some p => exact absurd (h.claimed c n p hn hp) (hc p)
  obtain ⟨h1, h2⟩ := h.orphan c n hn hp
  have hn' : d.get c = some n := hn
  refine ⟨?_, ?_, ?_⟩
  · simp only [nextSiblingElement, hn', h2]; cases fuel <;> rfl
  · simp only [prevSiblingElement, hn', h1]; cases fuel <;> rfl
  · simp only [parentElement, hn', hp]

/-- What `:empty` ignores: nodes that are neither elements nor text with characters. -/
def Spec.CountsAsEmpty (d : Document) (i : Nat) : Prop :=
  ∃ n, d.nodes[i]? = some n ∧ (∀ e, n.data ≠ .element e) ∧ ∀ t, n.data = .text t → t = ""

theorem emptyFrom_eq {d : Document} {F : Forest} (h : Represents d F) {p : Nat} :
    ∀ (after before : List Nat) (c : Nat), F p = before ++ c :: after → ∀ fuel, after.length < fuel →
      ∃ b, emptyFrom d fuel c = some b ∧ (b = true ↔ ∀ i ∈ c :: after, Spec.CountsAsEmpty d i) := by
  intro after
  induction after with
  | nil =>
    intro before c hF fuel hfuel
    obtain ⟨fuel, rfl⟩ : ∃ k, fuel = k + 1 := ⟨fuel - 1, by omega⟩
    obtain ⟨n, hn, hl⟩ := h.child p before c [] hF
    have hn' : d.get c = some n := hn
    have hnext := hl.next
    simp only [List.head?_nil] at hnext
    simp only [emptyFrom, hn', hnext, List.mem_singleton, forall_eq, Spec.CountsAsEmpty, hn, Option.some.injEq, exists_eq_left']
    cases hd : n.data with
    | text t => by_cases ht : t = "" <;> simp [Node.asElement, Node.asText, hd, ht]
    | _ => simp [Node.asElement, Node.asText, hd]
  | cons c' after ih =>
    intro before c hF fuel hfuel
    obtain ⟨fuel, rfl⟩ : ∃ k, fuel = k + 1 := ⟨fuel - 1, by omega⟩
    obtain ⟨n, hn, hl⟩ := h.child p before c (c' :: after) hF
    have hn' : d.get c = some n := hn
    have hnext := hl.next
    simp only [List.head?_cons] at hnext
    obtain ⟨b, hb, hb'⟩ := ih (before ++ [c]) c' (by simp [hF]) fuel (by simpa using hfuel)
    have hc : Spec.CountsAsEmpty d c ↔ (∀ e, n.data ≠ .element e) ∧ ∀ t, n.data = .text t → t = "" := by
      simp only [Spec.CountsAsEmpty, hn, Option.some.injEq, exists_eq_left']
    rw [List.forall_mem_cons, hc, ← hb']
    simp only [emptyFrom, hn', hnext, hb]
    cases hd : n.data with
    | text t => by_cases ht : t = "" <;> simp [Node.asElement, Node.asText, hd, ht]
    | _ => simp [Node.asElement, Node.asText, hd]

/-- **C35**: `:empty` holds precisely when no child is an element or a text with characters. -/
theorem C35_empty {d : Document} {F : Forest} (h : Represents d F) {p : Nat} (hp : p < d.nodes.length) (fuel : Nat)
    (hfuel : (F p).length ≤ fuel) :
    ∃ b, isEmptyElement d fuel p = some b ∧ (b = true ↔ ∀ c ∈ F p, Spec.CountsAsEmpty d c) := by
  have hp' : d.nodes[p]? = some d.nodes[p] := List.getElem?_eq_getElem hp
  have hp'' : d.get p = some d.nodes[p] := hp'
  have hfirst := (h.ends p _ hp').1
  cases hF : F p with
  | nil =>
    rw [hF] at hfirst
    refine ⟨true, ?_, by simp⟩
    simp only [isEmptyElement, hp'', hfirst]
    rfl
  | cons c after =>
    rw [hF] at hfirst hfuel
    obtain ⟨b, hb, hb'⟩ := emptyFrom_eq h (p := p) after [] c (by simp [hF]) fuel (by simp at hfuel; omega)
    refine ⟨b, ?_, hb'⟩
    simp only [isEmptyElement, hp'', hfirst]
    exact hb

/-- **C35**: `:root` holds precisely for nodes that are not children of an element. -/
theorem C35_root {d : Document} {F : Forest} (h : Represents d F) {c : Nat} (hc : c < d.nodes.length) :
    ∃ b, isRoot d c = some b ∧ (b = true ↔ ∀ p, c ∈ F p → ¬ Spec.IsElement d p) := by
  by_cases hex : ∃ p, c ∈ F p
  · obtain ⟨p, hp⟩ := hex
    obtain ⟨before, after, hF⟩ := List.append_of_mem hp
    have := (C35_navigation h hF _ (Nat.le_refl _)).2.2
    have uniq : ∀ q, c ∈ F q → q = p := fun q hq => h.mem_unique hq hp
    by_cases he : Spec.IsElement d p
    · refine ⟨false, by simp [isRoot, this, he], ?_⟩
      simp only [Bool.false_eq_true, false_iff, not_forall]
      exact ⟨p, hp, fun hn => hn he⟩
    · refine ⟨true, by simp [isRoot, this, he], ?_⟩
      simp only [true_iff]
      intro q hq
      rw [uniq q hq]; exact he
  · have hn : d.nodes[c]? = some d.nodes[c] := List.getElem?_eq_getElem hc
    have := (C35_navigation_root h hn (fun p hp => hex ⟨p, hp⟩) 0).2.2
    refine ⟨true, by simp [isRoot, this], ?_⟩
    simp only [true_iff]
    exact fun p hp => absurd ⟨p, hp⟩ hex

/-- ASCII white space, as HTML separates words. -/
def Spec.isSpace (c : Char) : Bool := c == ' ' || c == '\t' || c == '\n' || c == '\r' || c == '\x0c'

/-- `w` is one of the words of `s`. -/
def Spec.IsWord (w s : String) : Prop :=
  w ≠ "" ∧ (∀ c ∈ w.toList, Spec.isSpace c = false) ∧
    ∃ a b, s.toList = a ++ w.toList ++ b ∧ (∀ c, a.getLast? = some c → Spec.isSpace c = true) ∧
      ∀ c, b.head? = some c → Spec.isSpace c = true

/-- The value of the attribute of that name, in no name space. -/
def Spec.AttrIs (e : ElementData) (name value : String) : Prop :=
  ∃ before a after, e.attrs = before ++ a :: after ∧ a.name.ns = "" ∧ a.name.loc = name ∧ a.value = value ∧
    ∀ a' ∈ before, ¬ (a'.name.ns = "" ∧ a'.name.loc = name)

theorem getAttr_iff (e : ElementData) (name value : String) : e.getAttr name = some value ↔ Spec.AttrIs e name value := by
  unfold ElementData.getAttr Spec.AttrIs
  simp only [Option.map_eq_some_iff, List.find?_eq_some_iff_append]
  constructor
  · rintro ⟨a, ⟨ha, before, after, he, hb⟩, rfl⟩
    simp only [Bool.and_eq_true, beq_iff_eq] at ha
    exact ⟨before, a, after, he, ha.1, ha.2, rfl, fun a' h' => by have := hb a' h'; simp at this ⊢; grind⟩
  · rintro ⟨before, a, after, he, h1, h2, rfl, hb⟩
    refine ⟨a, ⟨by simp [h1, h2], before, after, he, fun a' h' => by have := hb a' h'; simp at this ⊢; grind⟩, rfl⟩

/-- **C35**, the part that holds: a class selector matches only elements with that word in their class attribute, and matches those
whose class attribute is one word. Missing: class attributes with several words, or white space around one. -/
theorem C35_class_partial {d : Document} {i : Nat} {n : Node} {e : ElementData} (hn : d.nodes[i]? = some n)
    (he : n.data = .element e) (cls : String) (hne : cls ≠ "") (hs : ∀ c ∈ cls.toList, Spec.isSpace c = false) :
    ∃ b, hasClass d i cls .caseSensitive = some b ∧
      (b = true → ∃ v, Spec.AttrIs e "class" v ∧ Spec.IsWord cls v) ∧
      ((∃ v, Spec.AttrIs e "class" v ∧ (∀ c ∈ v.toList, Spec.isSpace c = false) ∧ Spec.IsWord cls v) → b = true) := by
  have hn' : d.get i = some n := hn
  have hel : elementOf d i = some e := by simp [elementOf, hn', Node.asElement, he]
  simp only [hasClass, hel, Option.map_some, Option.some.injEq, exists_eq_left']
  refine ⟨?_, ?_⟩
  · intro hb
    cases ha : e.getAttr "class" with
    | none => simp [ha] at hb
    | some v =>
      simp only [ha, CaseSensitivity.eq, beq_iff_eq] at hb
      subst hb
      exact ⟨cls, (getAttr_iff ..).mp ha, hne, hs, [], [], by simp, by simp, by simp⟩
  · rintro ⟨v, ha, hv, _, _, a, b, hab, h1, h2⟩
    rw [(getAttr_iff ..).mpr ha]
    have ea : a = [] := by
      cases hl : a.getLast? with
      | none => exact List.getLast?_eq_none_iff.mp hl
      | some c =>
        have h3 := h1 c hl
        have : c ∈ v.toList := by rw [hab]; simp [List.mem_of_getLast? hl]
        rw [hv c this] at h3; cases h3
    have eb : b = [] := by
      cases b with
      | nil => rfl
      | cons c b =>
        have h3 := h2 c rfl
        have : c ∈ v.toList := by rw [hab]; simp
        rw [hv c this] at h3; cases h3
    subst ea eb
    have : v = cls := String.toList_inj.mp (by simpa using hab)
    simp [CaseSensitivity.eq, this]

/-- **C35**: an id selector matches precisely the elements whose `id` attribute is that name. -/
theorem C35_id {d : Document} {i : Nat} {n : Node} {e : ElementData} (hn : d.nodes[i]? = some n)
    (he : n.data = .element e) (id : String) :
    ∃ b, hasId d i id .caseSensitive = some b ∧ (b = true ↔ Spec.AttrIs e "id" id) := by
  have hn' : d.get i = some n := hn
  have hel : elementOf d i = some e := by simp [elementOf, hn', Node.asElement, he]
  simp only [hasId, hel, Option.map_some, Option.some.injEq, exists_eq_left']
  rw [← getAttr_iff]
  cases ha : e.getAttr "id" with
  | none => simp
  | some v =>
    simp only [CaseSensitivity.eq, beq_iff_eq, Option.some.injEq]
    exact eq_comm

/-- **C35**: an attribute selector matches when some attribute has the name, a name space allowed, and a value that passes. -/
theorem C35_attribute {d : Document} {i : Nat} {n : Node} {e : ElementData} (hn : d.nodes[i]? = some n)
    (he : n.data = .element e) (ns : Option String) (loc : String) (operation : String → Bool) :
    ∃ b, attrMatches d i ns loc operation = some b ∧
      (b = true ↔ ∃ a ∈ e.attrs, a.name.loc = loc ∧ (∀ x, ns = some x → a.name.ns = x) ∧ operation a.value = true) := by
  have hn' : d.get i = some n := hn
  have hel : elementOf d i = some e := by simp [elementOf, hn', Node.asElement, he]
  simp only [attrMatches, hel, Option.map_some, Option.some.injEq, exists_eq_left']
  cases ns with
  | none => simp
  | some x => simp [and_assoc]

/-- **C35**: `:link` matches `a`, `area` and `link` elements of HTML with an `href` attribute. -/
theorem C35_link {d : Document} {i : Nat} {n : Node} {e : ElementData} (hn : d.nodes[i]? = some n)
    (he : n.data = .element e) :
    ∃ b, isLink d i = some b ∧ (b = true ↔ e.name.ns = "http://www.w3.org/1999/xhtml" ∧
      (e.name.loc = "a" ∨ e.name.loc = "area" ∨ e.name.loc = "link") ∧ ∃ v, Spec.AttrIs e "href" v) := by
  have hn' : d.get i = some n := hn
  have hel : elementOf d i = some e := by simp [elementOf, hn', Node.asElement, he]
  simp only [isLink, hel, Option.map_some, Option.some.injEq, exists_eq_left']
  simp only [← getAttr_iff, ← Option.isSome_iff_exists, htmlNs]
  simp [and_assoc, or_assoc]

/-- The document `<p class="a b">` with a comment, an empty text, and an element in it. -/
def exampleDocument : Document where
  nodes := [
    Node.new .document,
    { Node.new .document with firstChild := some 2, lastChild := some 2 },
    { parent := some 1, nextSibling := none, previousSibling := none, firstChild := some 3, lastChild := some 5,
      data := .element ⟨⟨none, htmlNs, "p"⟩, [⟨⟨none, "", "class"⟩, "a b"⟩, ⟨⟨none, "", "id"⟩, "x"⟩], false⟩ },
    { parent := some 2, nextSibling := some 4, previousSibling := none, firstChild := none, lastChild := none,
      data := .element ⟨⟨none, htmlNs, "i"⟩, [], false⟩ },
    { parent := some 2, nextSibling := some 5, previousSibling := some 3, firstChild := none, lastChild := none, data := .text "" },
    { parent := some 2, nextSibling := none, previousSibling := some 4, firstChild := none, lastChild := none,
      data := .element ⟨⟨none, htmlNs, "a"⟩, [⟨⟨none, "", "href"⟩, ""⟩, ⟨⟨none, "", "class"⟩, "b"⟩], false⟩ }]
  styleElements := []

/-- **C35** fails: the class selector `.a` does not match an element with the classes `a` and `b`. -/
theorem C35_class_violated :
    ∃ n e, exampleDocument.nodes[2]? = some n ∧ n.data = .element e ∧ Spec.AttrIs e "class" "a b" ∧ Spec.IsWord "a" "a b" ∧
      hasClass exampleDocument 2 "a" .caseSensitive = some false := by
  refine ⟨_, _, rfl, rfl, ⟨[], _, _, rfl, rfl, rfl, rfl, by simp⟩, ⟨by decide, by decide, [], [' ', 'b'], by decide, by simp, ?_⟩,
    by decide⟩
  intro c hc
  simp only [List.head?_cons, Option.some.injEq] at hc
  subst hc
  decide

/-- Its forest. -/
def exampleForest : Forest
  | 1 => [2]
  | 2 => [3, 4, 5]
  | _ => []

theorem exampleDocument_represents : Represents exampleDocument exampleForest where
  ends := by
    intro p n h
    match p, h with
    | 0, h | 1, h | 2, h | 3, h | 4, h | 5, h => cases h; exact ⟨rfl, rfl⟩
    | _ + 6, h => simp [exampleDocument] at h
  child := by
    intro p before c after h
    match p, h with
    | 1, h =>
      match before, h with
      | [], h => cases h; exact ⟨_, rfl, rfl, rfl, rfl⟩
      | _ :: b, h => cases b <;> simp [exampleForest] at h
    | 2, h =>
      match before, h with
      | [], h => cases h; exact ⟨_, rfl, rfl, rfl, rfl⟩
      | [_], h => cases h; exact ⟨_, rfl, rfl, rfl, rfl⟩
      | [_, _], h => cases h; exact ⟨_, rfl, rfl, rfl, rfl⟩
      | _ :: _ :: _ :: b, h => cases b <;> simp [exampleForest] at h
    | 0, h => simp [exampleForest] at h
    | _ + 3, h => simp [exampleForest] at h
  claimed := by
    intro c n p h hp
    match c, h with
    | 0, h | 1, h => cases h; cases hp
    | 2, h => cases h; cases hp; decide
    | 3, h | 4, h | 5, h => cases h; cases hp; decide
    | _ + 6, h => simp [exampleDocument] at h
  orphan := by
    intro c n h hp
    match c, h with
    | 0, h | 1, h => cases h; exact ⟨rfl, rfl⟩
    | 2, h => cases h; cases hp
    | 3, h | 4, h | 5, h => cases h; cases hp
    | _ + 6, h => simp [exampleDocument] at h
  nodup := by
    intro p
    match p with
    | 1 => simp [exampleForest]
    | 2 => simp [exampleForest]
    | 0 => simp [exampleForest]
    | _ + 3 => simp [exampleForest]
  outside := by
    intro p hp
    match p, hp with
    | _ + 6, _ => rfl
    | 0, hp | 1, hp | 2, hp | 3, hp | 4, hp | 5, hp => simp [exampleDocument] at hp

/-- The sibling before `<a>` is `<i>`, over the text; the text is not an element. -/
example : prevSiblingElement exampleDocument 3 5 = some (some 3) ∧ nextSiblingElement exampleDocument 3 3 = some (some 5) ∧
    parentElement exampleDocument 5 = some (some 2) ∧ isRoot exampleDocument 2 = some true ∧ isRoot exampleDocument 5 = some false ∧
    isEmptyElement exampleDocument 3 2 = some false ∧ isEmptyElement exampleDocument 3 5 = some true ∧
    hasClass exampleDocument 5 "b" .caseSensitive = some true ∧ hasId exampleDocument 2 "x" .caseSensitive = some true ∧
    isLink exampleDocument 5 = some true := by decide

end Verif.Style
