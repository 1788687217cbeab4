/- Model of `PagesIter` in lester/src/poppler.rs, and of the methods of `Range<i32>` in the standard library that it calls.

Simplification: `c_int` is `Int`; the range never leaves the interval between 0 and the number of pages, see `C47_range`. -/
namespace Verif.Lester

/-- A document as poppler.rs sees it: `poppler_document_get_n_pages`, and `poppler_document_get_page`, which is `none` for a null
pointer. -/
structure Poppler (Page : Type) where
  pageCount : Int
  page : Int → Option Page

/-- poppler.rs 84-87. -/
structure PagesIter where
  start : Int
  «end» : Int
deriving DecidableEq, Repr

variable {Page : Type}

/-- poppler.rs 53-59, `pages`. -/
def Poppler.pages (doc : Poppler Page) : PagesIter := ⟨0, doc.pageCount⟩

/-- `Range::next`. -/
def PagesIter.rangeNext (r : PagesIter) : Option Int × PagesIter :=
  if r.start < r.end then (some r.start, { r with start := r.start + 1 }) else (none, r)

/-- `Range::nth`. -/
def PagesIter.rangeNth (r : PagesIter) (n : Nat) : Option Int × PagesIter :=
  if r.start + n < r.end then (some (r.start + n), { r with start := r.start + n + 1 }) else (none, { r with start := r.end })

/-- `Range::next_back`. -/
def PagesIter.rangeNextBack (r : PagesIter) : Option Int × PagesIter :=
  if r.start < r.end then (some (r.end - 1), { r with «end» := r.end - 1 }) else (none, r)

/-- `Range::len`. -/
def PagesIter.rangeLen (r : PagesIter) : Nat := if r.start < r.end then (r.end - r.start).toNat else 0

/-- poppler.rs 61-68, `get_page`, on the result of a method of the range: `none` when the assertion fails. -/
def Poppler.mapPage (doc : Poppler Page) : Option Int × PagesIter → Option (Option Page × PagesIter)
  | (none, r) => some (none, r)
  | (some i, r) =>
    match doc.page i with
    | none => none
    | some p => some (some p, r)

/-- poppler.rs 92-94. -/
def PagesIter.next (doc : Poppler Page) (r : PagesIter) : Option (Option Page × PagesIter) := doc.mapPage r.rangeNext
/-- poppler.rs 96-98. -/
def PagesIter.nth (doc : Poppler Page) (r : PagesIter) (n : Nat) : Option (Option Page × PagesIter) := doc.mapPage (r.rangeNth n)
/-- poppler.rs 107-109. -/
def PagesIter.nextBack (doc : Poppler Page) (r : PagesIter) : Option (Option Page × PagesIter) := doc.mapPage r.rangeNextBack
/-- poppler.rs 100-103. -/
def PagesIter.sizeHint (r : PagesIter) : Nat × Option Nat := (r.rangeLen, some r.rangeLen)
/-- poppler.rs 112-114. -/
def PagesIter.len (r : PagesIter) : Nat := r.rangeLen

/-- A call on the iterator. -/
inductive PagesCall where
  | next | nextBack | nth (n : Nat) | len | sizeHint

/-- What a call returns. -/
inductive PagesAnswer (Page : Type) where
  | page (p : Option Page)
  | len (n : Nat)
  | hint (lower : Nat) (upper : Option Nat)

/-- One call. -/
def PagesIter.call (doc : Poppler Page) (r : PagesIter) : PagesCall → Option (PagesAnswer Page × PagesIter)
  | .next => (r.next doc).map fun a => (.page a.1, a.2)
  | .nextBack => (r.nextBack doc).map fun a => (.page a.1, a.2)
  | .nth n => (r.nth doc n).map fun a => (.page a.1, a.2)
  | .len => some (.len r.len, r)
  | .sizeHint => some (.hint r.sizeHint.1 r.sizeHint.2, r)

/-- Calls one after the other. -/
def PagesIter.calls (doc : Poppler Page) : PagesIter → List PagesCall → Option (List (PagesAnswer Page) × PagesIter)
  | r, [] => some ([], r)
  | r, c :: cs =>
    match r.call doc c with
    | none => none
    | some (a, r) =>
      match r.calls doc cs with
      | none => none
      | some (as, r) => some (a :: as, r)

end Verif.Lester
