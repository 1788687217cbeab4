/-
Model of `victor/src/style/selectors.rs` 13-25, `matches`, and of what it calls in the crate `selectors` 0.21: `matches_selector`
over the questions about elements which selectors.rs answers (Verif/Style/Selectors.lean). The source of that crate is not in /repo:
this file is an account of it, which belongs to the trusted base. Not modelled: name spaces with prefixes (`Parser` declares none,
selectors.rs 55-58, so such selectors are not accepted), pseudo-classes and pseudo-elements of the implementation (there are none,
selectors.rs 32-36), `:scope`, `:host` and `::slotted`, bounds of 32-bit integers, and the caches.
-/
import Verif.Style.Selectors
import Verif.Style.Values
namespace Verif.Style
open Verif.Dom

/-- The crate's `Component`s, other than combinators and negations. -/
inductive Atom where
  /-- `*` -/
  | universal
  /-- `name` -/
  | type (name : String)
  /-- `|` before a name: elements in no name space -/
  | noNamespace
  /-- `#id` -/
  | id (name : String)
  /-- `.class` -/
  | cls (name : String)
  /-- `[name]` and `[name op value]`, with `ns = some ""`; `[*|name …]`, with `ns = none` -/
  | attr (ns : Option String) (name : String) (test : String → Bool)
  /-- `:root` -/
  | root
  /-- `:empty` -/
  | empty
  /-- `:first-child` -/
  | firstChild
  /-- `:last-child` -/
  | lastChild
  /-- `:only-child` -/
  | onlyChild
  /-- `:nth-child(an+b)`, `:nth-last-child`, `:nth-of-type`, `:nth-last-of-type` -/
  | nth (ofType fromEnd : Bool) (a b : Int)
  /-- `:first-of-type` -/
  | firstOfType
  /-- `:last-of-type` -/
  | lastOfType
  /-- `:only-of-type` -/
  | onlyOfType

/-- A simple selector: an atom or `:not(…)` of atoms. -/
inductive Simple where
  | atom (a : Atom)
  | not (l : List Atom)

/-- The crate's `Combinator`. -/
inductive Combinator where
  /-- `>` -/
  | child
  /-- white space -/
  | descendant
  /-- `+` -/
  | nextSibling
  /-- `~` -/
  | laterSibling
deriving DecidableEq

/-- A complex selector. -/
inductive Sel where
  | compound (l : List Simple)
  | join (left : Sel) (c : Combinator) (l : List Simple)

/-- `select_name`: for HTML elements, the name in ASCII lower case, which the crate keeps beside the name as written. -/
def selectName (isHtml : Bool) (name : String) : String := if isHtml then asciiLower name else name

/-- `same_type`. -/
def sameType (d : Document) (a b : Nat) : Option Bool :=
  match localName d a, localName d b, namespaceOf d a, namespaceOf d b with
  | some la, some lb, some na, some nb => some (la == lb && na == nb)
  | _, _, _, _ => none

/-- The loop of `nth_child_index`. -/
def nthLoop (next : Nat → Option (Option Nat)) (counts : Nat → Option Bool) : (fuel : Nat) → (curr : Nat) → (index : Int) → Option Int
  | fuel, curr, index =>
    match next curr with
    | none => none
    | some none => some index
    | some (some e) =>
      match fuel with
      | 0 => none
      | fuel + 1 =>
        match counts e with
        | none => none
        | some b => nthLoop next counts fuel e (if b then index + 1 else index)

/-- The end of `matches_generic_nth_child`: is there a whole number `n ≥ 0` with `a * n + b = index`? -/
def nthTest (a b index : Int) : Bool :=
  let an := index - b
  if a = 0 then an == 0 else decide (0 ≤ an.tdiv a) && a * an.tdiv a == an

/-- `matches_generic_nth_child`. -/
def matchesNth (d : Document) (fuel node : Nat) (ofType fromEnd : Bool) (a b : Int) : Option Bool :=
  let next := if fromEnd then nextSiblingElement d fuel else prevSiblingElement d fuel
  let counts := fun e => if ofType then sameType d node e else some true
  (nthLoop next counts fuel node 1).map (nthTest a b)

/-- Both, without evaluating the second when the first is false. -/
def andThen (a : Option Bool) (b : Unit → Option Bool) : Option Bool :=
  match a with
  | none => none
  | some false => some false
  | some true => b ()

/-- `matches_simple_selector`, but for negations. Documents are not in quirks mode, so ids and classes are compared exactly
(selectors.rs 22). -/
def matchesAtom (d : Document) (fuel node : Nat) : Atom → Option Bool
  | .universal => some true
  | .type name =>
    match isHtmlElementInHtmlDocument d node, localName d node with
    | some html, some loc => some (loc == selectName html name)
    | _, _ => none
  | .noNamespace => (namespaceOf d node).map fun ns => ns == ""
  | .id name => hasId d node name .caseSensitive
  | .cls name => hasClass d node name .caseSensitive
  | .attr ns name test =>
    match isHtmlElementInHtmlDocument d node with
    | some html => attrMatches d node ns (selectName html name) test
    | none => none
  | .root => isRoot d node
  | .empty => isEmptyElement d fuel node
  | .firstChild => (prevSiblingElement d fuel node).map Option.isNone
  | .lastChild => (nextSiblingElement d fuel node).map Option.isNone
  | .onlyChild => andThen ((prevSiblingElement d fuel node).map Option.isNone)
      fun _ => (nextSiblingElement d fuel node).map Option.isNone
  | .nth ofType fromEnd a b => matchesNth d fuel node ofType fromEnd a b
  | .firstOfType => matchesNth d fuel node true false 0 1
  | .lastOfType => matchesNth d fuel node true true 0 1
  | .onlyOfType => andThen (matchesNth d fuel node true false 0 1) fun _ => matchesNth d fuel node true true 0 1

/-- `Iterator::all`. -/
def allOf {α : Type} (f : α → Option Bool) : List α → Option Bool
  | [] => some true
  | x :: xs => andThen (f x) fun _ => allOf f xs

/-- `matches_simple_selector`. -/
def matchesSimple (d : Document) (fuel node : Nat) : Simple → Option Bool
  | .atom a => matchesAtom d fuel node a
  | .not l => (allOf (matchesAtom d fuel node) l).map Bool.not

/-- `SelectorMatchingResult`. -/
inductive MatchResult where
  | matched
  | notMatchedRestartLaterSibling
  | notMatchedRestartDescendant
  | notMatchedGlobally
deriving DecidableEq

/-- `next_element_for_combinator`. -/
def nextFor (d : Document) (fuel : Nat) : Combinator → Nat → Option (Option Nat)
  | .child, node | .descendant, node => parentElement d node
  | .nextSibling, node | .laterSibling, node => prevSiblingElement d fuel node

/-- What is answered when no candidate is left. -/
def Combinator.notFound : Combinator → MatchResult
  | .nextSibling | .laterSibling => .notMatchedRestartDescendant
  | .child | .descendant => .notMatchedGlobally

/-- What is answered after trying one candidate; `none` is to try the next. -/
def Combinator.stop : MatchResult → Combinator → Option MatchResult
  | .matched, _ => some .matched
  | .notMatchedGlobally, _ => some .notMatchedGlobally
  | r, .nextSibling => some r
  | _, .child => some .notMatchedRestartDescendant
  | .notMatchedRestartDescendant, .laterSibling => some .notMatchedRestartDescendant
  | _, _ => none

/-- The loop over candidates in `matches_complex_selector_internal`. -/
def tryCandidates (d : Document) (fuel : Nat) (c : Combinator) (left : Nat → Option MatchResult) :
    (steps : Nat) → Option Nat → Option MatchResult
  | _, none => some c.notFound
  | 0, some _ => none
  | steps + 1, some e =>
    match left e with
    | none => none
    | some r =>
      match Combinator.stop r c with
      | some r => some r
      | none =>
        match nextFor d fuel c e with
        | none => none
        | some next => tryCandidates d fuel c left steps next

/-- `matches_complex_selector_internal`. -/
def matchesComplex (d : Document) (fuel : Nat) : Sel → Nat → Option MatchResult
  | .compound l, node =>
    match allOf (matchesSimple d fuel node) l with
    | none => none
    | some false => some .notMatchedRestartLaterSibling
    | some true => some .matched
  | .join left c l, node =>
    match allOf (matchesSimple d fuel node) l with
    | none => none
    | some false => some .notMatchedRestartLaterSibling
    | some true =>
      match nextFor d fuel c node with
      | none => none
      | some first => tryCandidates d fuel c (matchesComplex d fuel left) fuel first

/-- selectors.rs 13-25, `matches`. Loops over siblings and ancestors take at most as many steps as there are nodes. -/
def matchesSelector (d : Document) (s : Sel) (node : Nat) : Option Bool :=
  (matchesComplex d d.nodes.length s node).map fun r => r == .matched

/-- The counts of `simple_selector_specificity`: ids, classes and the like, elements. -/
def Atom.counts : Atom → Nat × Nat × Nat
  | .universal | .noNamespace => (0, 0, 0)
  | .type _ => (0, 0, 1)
  | .id _ => (1, 0, 0)
  | _ => (0, 1, 0)

/-- Componentwise sum. -/
def addCounts (a b : Nat × Nat × Nat) : Nat × Nat × Nat := (a.1 + b.1, a.2.1 + b.2.1, a.2.2 + b.2.2)

/-- The counts of atoms together. -/
def atomsCounts : List Atom → Nat × Nat × Nat
  | [] => (0, 0, 0)
  | a :: l => addCounts a.counts (atomsCounts l)

/-- The counts of a compound selector; what is in `:not(…)` counts, `:not` itself does not. -/
def simplesCounts : List Simple → Nat × Nat × Nat
  | [] => (0, 0, 0)
  | .atom a :: l => addCounts a.counts (simplesCounts l)
  | .not m :: l => addCounts (atomsCounts m) (simplesCounts l)

/-- `complex_selector_specificity`. -/
def Sel.counts : Sel → Nat × Nat × Nat
  | .compound l => simplesCounts l
  | .join left _ l => addCounts left.counts (simplesCounts l)

/-- `From<Specificity> for u32`: ten bits for each count. -/
def packCounts (c : Nat × Nat × Nat) : Nat := min c.1 1023 * 2 ^ 20 + min c.2.1 1023 * 2 ^ 10 + min c.2.2 1023

/-- `Selector::specificity`. -/
def Sel.specificity (s : Sel) : Nat := packCounts s.counts

end Verif.Style
