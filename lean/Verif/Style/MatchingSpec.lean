/-
What CSS says selectors select (Selectors Level 3), for C110: in terms of the tree of nodes, not of the model's navigation.
-/
import Verif.Style.Matching
import Verif.Style.SelectorTheorems
namespace Verif.Style.Css
open Verif.Dom Verif.Style.Spec

/-- `p` is the parent of `c`, and an element. -/
def Parent (d : Document) (F : Forest) (p c : Nat) : Prop := c ∈ F p ∧ IsElement d p

/-- `m` is an ancestor of `c`. -/
inductive Above (d : Document) (F : Forest) : Nat → Nat → Prop
  | parent {p c : Nat} : Parent d F p c → Above d F p c
  | up {m p c : Nat} : Above d F m p → Parent d F p c → Above d F m c

/-- `m` and `c` have the same parent, and `m`, an element, comes before `c`. -/
def Before (d : Document) (F : Forest) (m c : Nat) : Prop :=
  ∃ p a b, F p = a ++ c :: b ∧ m ∈ a ∧ IsElement d m

/-- `m`, an element, comes before `c`, with no other element between. -/
def JustBefore (d : Document) (F : Forest) (m c : Nat) : Prop :=
  ∃ p a between b, F p = a ++ m :: (between ++ c :: b) ∧ IsElement d m ∧ ∀ x ∈ between, ¬ IsElement d x

/-- The element at a node. -/
def ElementIs (d : Document) (i : Nat) (e : ElementData) : Prop := ∃ n, d.nodes[i]? = some n ∧ n.data = .element e

/-- The two elements are of the same type. -/
def SameType (d : Document) (a b : Nat) : Prop :=
  ∃ ea eb, ElementIs d a ea ∧ ElementIs d b eb ∧ ea.name.loc = eb.name.loc ∧ ea.name.ns = eb.name.ns

/-- A name in a selector stands for the name of an element or attribute: in HTML documents, for HTML elements, names in selectors
are in ASCII lower case whatever is written. -/
def nameFor (html : Bool) (e : ElementData) (name : String) : String :=
  if html = true ∧ e.name.ns = "http://www.w3.org/1999/xhtml" then String.ofList (name.toList.map Char.toLower) else name

open Classical in
/-- The position of `c` among its siblings that are elements (of its type), from 1, from the start or from the end. An element
without siblings is the first. -/
def IndexIs (d : Document) (F : Forest) (c : Nat) (ofType fromEnd : Bool) (i : Nat) : Prop :=
  (∃ p a b, F p = a ++ c :: b ∧
    i = 1 + (if fromEnd then b else a).countP (fun m => decide (IsElement d m ∧ (ofType = true → SameType d c m)))) ∨
  ((∀ p, c ∉ F p) ∧ i = 1)

/-- What the simple selector says of the element `n`; `html` says whether the document is an HTML document. -/
def AtomHolds (d : Document) (F : Forest) (html : Bool) (n : Nat) : Atom → Prop
  | .universal => True
  | .type name => ∃ e, ElementIs d n e ∧ e.name.loc = nameFor html e name
  | .noNamespace => ∃ e, ElementIs d n e ∧ e.name.ns = ""
  | .id name => ∃ e, ElementIs d n e ∧ AttrIs e "id" name
  | .cls name => ∃ e v, ElementIs d n e ∧ AttrIs e "class" v ∧ IsWord name v
  | .attr ns name test => ∃ e, ElementIs d n e ∧
      ∃ a ∈ e.attrs, a.name.loc = nameFor html e name ∧ (∀ x, ns = some x → a.name.ns = x) ∧ test a.value = true
  | .root => ∀ p, ¬ Parent d F p n
  | .empty => ∀ c ∈ F n, CountsAsEmpty d c
  | .firstChild => ∀ m, ¬ Before d F m n
  | .lastChild => ∀ m, IsElement d m → ¬ Before d F n m
  | .onlyChild => (∀ m, ¬ Before d F m n) ∧ ∀ m, IsElement d m → ¬ Before d F n m
  | .nth ofType fromEnd a b => ∃ i, IndexIs d F n ofType fromEnd i ∧ ∃ k : Nat, a * k + b = i
  | .firstOfType => ∀ m, SameType d n m → ¬ Before d F m n
  | .lastOfType => ∀ m, SameType d n m → ¬ Before d F n m
  | .onlyOfType => ∀ m, SameType d n m → ¬ Before d F m n ∧ ¬ Before d F n m

/-- `:not(…)` is the opposite. -/
def SimpleHolds (d : Document) (F : Forest) (html : Bool) (n : Nat) : Simple → Prop
  | .atom a => AtomHolds d F html n a
  | .not l => ¬ ∀ a ∈ l, AtomHolds d F html n a

/-- **The definition of CSS**: the element `n` is selected when all simple selectors of the last compound hold of it, and some
element in the relation of the combinator to it is selected by what is before the combinator. -/
def Selects (d : Document) (F : Forest) (html : Bool) : Sel → Nat → Prop
  | .compound l, n => ∀ s ∈ l, SimpleHolds d F html n s
  | .join left .child l, n => (∀ s ∈ l, SimpleHolds d F html n s) ∧ ∃ m, Parent d F m n ∧ Selects d F html left m
  | .join left .descendant l, n => (∀ s ∈ l, SimpleHolds d F html n s) ∧ ∃ m, Above d F m n ∧ Selects d F html left m
  | .join left .nextSibling l, n => (∀ s ∈ l, SimpleHolds d F html n s) ∧ ∃ m, JustBefore d F m n ∧ Selects d F html left m
  | .join left .laterSibling l, n => (∀ s ∈ l, SimpleHolds d F html n s) ∧ ∃ m, Before d F m n ∧ Selects d F html left m

/-- Some atom of the selector is of this kind. -/
def Simple.Has (P : Atom → Prop) : Simple → Prop
  | .atom a => P a
  | .not l => ∃ a ∈ l, P a

/-- Some atom of the selector is of this kind. -/
def Has (P : Atom → Prop) : Sel → Prop
  | .compound l => ∃ s ∈ l, Simple.Has P s
  | .join left _ l => Has P left ∨ ∃ s ∈ l, Simple.Has P s

/-- The atom is a class selector. -/
def IsClass : Atom → Prop
  | .cls _ => True
  | _ => False

/-- The class attributes of the document are of one word each, without spaces. -/
def OneClassEach (d : Document) : Prop :=
  ∀ i e v, ElementIs d i e → AttrIs e "class" v → ∀ c ∈ v.toList, isSpace c = false

/-- The atom names something with capital letters. -/
def NamesCapitals : Atom → Prop
  | .type name => String.ofList (name.toList.map Char.toLower) ≠ name
  | .attr _ name _ => String.ofList (name.toList.map Char.toLower) ≠ name
  | _ => False

/-- `.` without a name, which is not CSS. -/
def NoName : Atom → Prop
  | .cls name => name = ""
  | _ => False

/-- The atoms of a selector, those in `:not(…)` too. -/
def Simple.atoms : Simple → List Atom
  | .atom a => [a]
  | .not l => l

/-- The atoms of a selector. -/
def atoms : Sel → List Atom
  | .compound l => l.flatMap Simple.atoms
  | .join left _ l => atoms left ++ l.flatMap Simple.atoms

/-- How many ids. -/
def ids (s : Sel) : Nat := (atoms s).countP fun | .id _ => true | _ => false

/-- How many types. -/
def types (s : Sel) : Nat := (atoms s).countP fun | .type _ => true | _ => false

/-- How many classes, attributes and pseudo-classes; the universal selector does not count. -/
def classes (s : Sel) : Nat := (atoms s).countP fun | .id _ | .type _ | .universal | .noNamespace => false | _ => true

/-- `s` is less specific than `t`: by the number of ids, then of classes and the like, then of types. -/
def LessSpecific (s t : Sel) : Prop :=
  ids s < ids t ∨ ids s = ids t ∧ (classes s < classes t ∨ classes s = classes t ∧ types s < types t)

end Verif.Style.Css
