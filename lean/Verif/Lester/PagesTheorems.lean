/- C47: the iterator of pages. -/
import Verif.Lester.Pages
namespace Verif.Lester
variable {Page : Type}

/-- The specification: a list of pages from which calls take away. -/
def takeFrom : List Page → PagesCall → PagesAnswer Page × List Page
  | pages, .next => (.page pages.head?, pages.tail)
  | pages, .nextBack => (.page pages.getLast?, pages.dropLast)
  | pages, .nth n => (.page (pages.drop n).head?, pages.drop (n + 1))
  | pages, .len => (.len pages.length, pages)
  | pages, .sizeHint => (.hint pages.length (some pages.length), pages)

/-- Calls one after the other. -/
def takeAll : List Page → List PagesCall → List (PagesAnswer Page) × List Page
  | pages, [] => ([], pages)
  | pages, c :: cs =>
    let a := takeFrom pages c
    let rest := takeAll a.2 cs
    (a.1 :: rest.1, rest.2)

/-- Poppler has the pages that it says it has. -/
def Poppler.Has (doc : Poppler Page) (pages : List Page) : Prop :=
  doc.pageCount = pages.length ∧ ∀ i : Nat, i < pages.length → doc.page i = pages[i]?

/-- The iterator stands for the pages from its start to its end. -/
private structure Stands (doc : Poppler Page) (r : PagesIter) (pages : List Page) : Prop where
  lower : 0 ≤ r.start
  upper : r.end ≤ doc.pageCount
  length : r.end = r.start + pages.length
  page : ∀ i : Nat, i < pages.length → doc.page (r.start + i) = pages[i]?

private theorem call_spec (doc : Poppler Page) (r : PagesIter) (pages : List Page) (h : Stands doc r pages) (c : PagesCall) :
    ∃ r', r.call doc c = some ((takeFrom pages c).1, r') ∧ Stands doc r' (takeFrom pages c).2 := by
  have hl := h.length
  have hlen : r.rangeLen = pages.length := by
    unfold PagesIter.rangeLen
    split <;> omega
  cases c with
  | next =>
    cases pages with
    | nil =>
      simp only [List.length_nil] at hl
      refine ⟨r, ?_, h⟩
      simp [PagesIter.call, PagesIter.next, PagesIter.rangeNext, show ¬ r.start < r.end by omega, Poppler.mapPage, takeFrom]
    | cons p pages =>
      simp only [List.length_cons] at hl
      have hp : doc.page r.start = some p := by simpa using h.page 0 (by simp)
      refine ⟨{ r with start := r.start + 1 }, ?_, ?_⟩
      · simp [PagesIter.call, PagesIter.next, PagesIter.rangeNext, show r.start < r.end by omega, Poppler.mapPage, takeFrom, hp]
      · refine ⟨by have := h.lower; simp only; omega, h.upper, by simp only [takeFrom, List.tail_cons]; omega, fun i hi => ?_⟩
        have := h.page (i + 1) (by simp only [takeFrom, List.tail_cons] at hi; simp; omega)
        simp only [takeFrom, List.tail_cons]
        rw [show r.start + 1 + (i : Int) = r.start + ((i + 1 : Nat) : Int) by omega, this]
        rfl
  | nextBack =>
    by_cases hn : pages = []
    · subst hn
      simp only [List.length_nil] at hl
      refine ⟨r, ?_, h⟩
      simp [PagesIter.call, PagesIter.nextBack, PagesIter.rangeNextBack, show ¬ r.start < r.end by omega, Poppler.mapPage, takeFrom]
    · have hpos : 0 < pages.length := List.length_pos_iff.mpr hn
      have hp : doc.page (r.end - 1) = pages.getLast? := by
        rw [List.getLast?_eq_getElem?, ← h.page (pages.length - 1) (by omega)]
        congr 1
        omega
      obtain ⟨p, hgl⟩ : ∃ p, pages.getLast? = some p := ⟨_, List.getLast?_eq_some_getLast hn⟩
      rw [hgl] at hp
      refine ⟨{ r with «end» := r.end - 1 }, ?_, ?_⟩
      · simp [PagesIter.call, PagesIter.nextBack, PagesIter.rangeNextBack, show r.start < r.end by omega, Poppler.mapPage, takeFrom, hp, hgl]
      · refine ⟨h.lower, by have := h.upper; simp only; omega, by simp only [takeFrom, List.length_dropLast]; omega, fun i hi => ?_⟩
        simp only [takeFrom, List.length_dropLast] at hi ⊢
        rw [h.page i (by omega), List.getElem?_dropLast]
        simp [show i < pages.length - 1 by omega]
  | nth n =>
    by_cases hn : n < pages.length
    · have hp : doc.page (r.start + n) = some pages[n] := by rw [h.page n hn, List.getElem?_eq_getElem hn]
      refine ⟨{ r with start := r.start + n + 1 }, ?_, ?_⟩
      · simp [PagesIter.call, PagesIter.nth, PagesIter.rangeNth, show r.start + n < r.end by omega, Poppler.mapPage, takeFrom, hp,
          List.getElem?_eq_getElem hn]
      · refine ⟨by have := h.lower; simp only; omega, h.upper, by simp only [takeFrom, List.length_drop]; omega, fun i hi => ?_⟩
        simp only [takeFrom, List.length_drop] at hi ⊢
        rw [List.getElem?_drop, ← h.page (n + 1 + i) (by omega)]
        congr 1
        omega
    · refine ⟨{ r with start := r.end }, ?_, ?_⟩
      · simp [PagesIter.call, PagesIter.nth, PagesIter.rangeNth, show ¬ r.start + n < r.end by omega, Poppler.mapPage, takeFrom,
          List.getElem?_eq_none (Nat.le_of_not_lt hn)]
      · refine ⟨by have := h.lower; simp only; omega, h.upper, by simp only [takeFrom, List.length_drop]; omega, fun i hi => ?_⟩
        simp only [takeFrom, List.length_drop] at hi
        omega
  | len => exact ⟨r, by simp [PagesIter.call, PagesIter.len, hlen, takeFrom], h⟩
  | sizeHint => exact ⟨r, by simp [PagesIter.call, PagesIter.sizeHint, hlen, takeFrom], h⟩

private theorem calls_spec (doc : Poppler Page) : ∀ (cs : List PagesCall) (r : PagesIter) (pages : List Page), Stands doc r pages →
    ∃ r', r.calls doc cs = some ((takeAll pages cs).1, r') ∧ Stands doc r' (takeAll pages cs).2 := by
  intro cs
  induction cs with
  | nil => exact fun r pages h => ⟨r, rfl, h⟩
  | cons c cs ih =>
    intro r pages h
    obtain ⟨r1, h1, h2⟩ := call_spec doc r pages h c
    obtain ⟨r2, h3, h4⟩ := ih r1 _ h2
    exact ⟨r2, by simp only [PagesIter.calls, h1, h3, takeAll], h4⟩

private theorem Poppler.Has.stands {doc : Poppler Page} {pages : List Page} (h : doc.Has pages) : Stands doc doc.pages pages :=
  ⟨by simp [Poppler.pages], by simp [Poppler.pages], by simp [Poppler.pages, h.1], fun i hi => by
    rw [← h.2 i hi]; simp [Poppler.pages]⟩

/-- **C47**: whatever calls are made on the iterator of the pages of a document, they return what the same calls on the list of its
pages return: the first page or the last page that is left, or the one after `n` others, or how many are left. -/
theorem C47_pages (doc : Poppler Page) (pages : List Page) (h : doc.Has pages) (cs : List PagesCall) :
    (doc.pages.calls doc cs).map Prod.fst = some (takeAll pages cs).1 := by
  obtain ⟨r, h1, -⟩ := calls_spec doc cs _ _ h.stands
  rw [h1]
  rfl

/-- The pages among answers, in order. -/
def pagesIn : List (PagesAnswer Page) → List Page
  | [] => []
  | .page (some p) :: as => p :: pagesIn as
  | _ :: as => pagesIn as

/-- The calls that take a page each from the front. -/
def drain (n : Nat) : List PagesCall := List.replicate n .next

private theorem takeAll_drain (pages : List Page) : pagesIn (takeAll pages (drain pages.length)).1 = pages := by
  induction pages with
  | nil => rfl
  | cons p pages ih =>
    show pagesIn (.page (some p) :: (takeAll pages (drain pages.length)).1) = _
    rw [pagesIn, ih]

/-- **C47**: taking pages until there are no more gives all of them in order. -/
theorem C47_drain (doc : Poppler Page) (pages : List Page) (h : doc.Has pages) :
    (doc.pages.calls doc (drain pages.length)).map (fun a => pagesIn a.1) = some pages := by
  obtain ⟨r, h1, -⟩ := calls_spec doc (drain pages.length) _ _ h.stands
  rw [h1]
  simp only [Option.map_some, takeAll_drain]

private theorem takeAll_perm (cs : List PagesCall) : ∀ pages : List Page, ∃ skipped,
    (pagesIn (takeAll pages cs).1 ++ (takeAll pages cs).2 ++ skipped).Perm pages ∧ ((∀ n, .nth n ∉ cs) → skipped = []) := by
  induction cs with
  | nil => exact fun pages => ⟨[], by simp [takeAll, pagesIn], fun _ => rfl⟩
  | cons c cs ih =>
    intro pages
    obtain ⟨skipped, h1, h2⟩ := ih (takeFrom pages c).2
    have hcons : ∀ {a : PagesAnswer Page}, (takeFrom pages c).1 = a →
        takeAll pages (c :: cs) = (a :: (takeAll (takeFrom pages c).2 cs).1, (takeAll (takeFrom pages c).2 cs).2) := by
      intro a ha
      simp only [takeAll, ha]
    cases c with
    | len => exact ⟨skipped, h1, fun h => h2 fun n hn => h n (List.mem_cons_of_mem _ hn)⟩
    | sizeHint => exact ⟨skipped, h1, fun h => h2 fun n hn => h n (List.mem_cons_of_mem _ hn)⟩
    | next =>
      refine ⟨skipped, ?_, fun h => h2 fun n hn => h n (List.mem_cons_of_mem _ hn)⟩
      cases pages with
      | nil => exact h1
      | cons p pages => exact h1.cons p
    | nextBack =>
      refine ⟨skipped, ?_, fun h => h2 fun n hn => h n (List.mem_cons_of_mem _ hn)⟩
      by_cases hn : pages = []
      · subst hn; exact h1
      · have hg := List.getLast?_eq_some_getLast hn
        rw [hcons (a := .page (some (pages.getLast hn))) (by simp only [takeFrom, hg])]
        have hp : (pages.getLast hn :: pages.dropLast).Perm pages := by
          have := List.perm_append_comm (l₁ := [pages.getLast hn]) (l₂ := pages.dropLast)
          rwa [List.dropLast_concat_getLast, List.singleton_append] at this
        exact (h1.cons _).trans hp
    | nth n =>
      by_cases hn : n < pages.length
      · refine ⟨skipped ++ pages.take n, ?_, fun h => absurd List.mem_cons_self (h n)⟩
        rw [hcons (a := .page (some pages[n])) (by simp [takeFrom, List.getElem?_eq_getElem hn])]
        have hp : (pages[n] :: (pages.drop (n + 1) ++ pages.take n)).Perm pages := by
          have := List.perm_append_comm (l₁ := pages.drop n) (l₂ := pages.take n)
          rwa [List.take_append_drop, List.drop_eq_getElem_cons hn, List.cons_append] at this
        refine List.Perm.trans ?_ hp
        simp only [pagesIn, List.cons_append]
        refine List.Perm.cons _ ?_
        rw [← List.append_assoc]
        exact h1.append_right _
      · refine ⟨skipped ++ pages, ?_, fun h => absurd List.mem_cons_self (h n)⟩
        rw [hcons (a := .page none) (by simp [takeFrom, List.getElem?_eq_none (Nat.le_of_not_lt hn)])]
        have he : (takeFrom pages (.nth n)).2 = [] := by simp only [takeFrom]; exact List.drop_eq_nil_of_le (by omega)
        rw [he] at h1 ⊢
        simp only [pagesIn]
        rw [← List.append_assoc]
        simpa using h1.append_right pages

/-- **C47**: whatever calls are made, each page comes out once at most; and together with those that are left they are all the pages,
unless some were skipped by `nth`. -/
theorem C47_once (doc : Poppler Page) (pages : List Page) (h : doc.Has pages) (cs : List PagesCall) :
    ∃ answers r left skipped, doc.pages.calls doc cs = some (answers, r) ∧ r.len = left.length ∧
      (pagesIn answers ++ left ++ skipped).Perm pages ∧ ((∀ n, .nth n ∉ cs) → skipped = []) := by
  obtain ⟨r, h1, h2⟩ := calls_spec doc cs _ _ h.stands
  obtain ⟨skipped, h3, h4⟩ := takeAll_perm cs pages
  refine ⟨_, r, _, skipped, h1, ?_, h3, h4⟩
  have := h2.length
  unfold PagesIter.len PagesIter.rangeLen
  split <;> omega

/-- **C47**: poppler is never asked for a page that does not exist, and the numbers stay between 0 and the number of pages, so that they fit
the `c_int` in which the code keeps them. -/
theorem C47_range (doc : Poppler Page) (pages : List Page) (h : doc.Has pages) (cs : List PagesCall) :
    ∃ answers r, doc.pages.calls doc cs = some (answers, r) ∧ 0 ≤ r.start ∧ r.start ≤ r.end ∧ r.end ≤ doc.pageCount := by
  obtain ⟨r, h1, h2⟩ := calls_spec doc cs _ _ h.stands
  have := h2.length
  exact ⟨_, r, h1, h2.lower, by omega, h2.upper⟩

/-- Five pages. -/
def examplePages : Poppler Nat := ⟨5, fun i => if 0 ≤ i ∧ i < 5 then some (i.toNat + 100) else none⟩

example : examplePages.Has [100, 101, 102, 103, 104] := by
  refine ⟨rfl, fun i hi => ?_⟩
  simp only [List.length_cons, List.length_nil] at hi
  rcases i with _ | _ | _ | _ | _ | i
  all_goals first | rfl | omega

example : (examplePages.pages.calls examplePages [.nextBack, .len, .next, .nth 1, .sizeHint, .next, .nextBack]).map (fun a => (pagesIn a.1, a.2)) =
    some ([104, 100, 102, 103], ⟨4, 4⟩) := by decide +kernel

end Verif.Lester
