/- Selectors select what CSS defines: C110. -/
import Verif.Style.MatchingLemmas
import Verif.Style.CascadeTheorems
import Verif.Dom.Check
namespace Verif.Style
open Verif.Dom Spec Css

variable {d : Document} {F : Forest} {html : Bool}

theorem elementIs_unique {n : Nat} {e e' : ElementData} (h : ElementIs d n e) (h' : ElementIs d n e') : e = e' := by
  obtain ⟨k, hk, he⟩ := h
  obtain ⟨k', hk', he'⟩ := h'
  rw [hk] at hk'; cases hk'
  rw [he] at he'; cases he'
  rfl

theorem elementOf_of {n : Nat} {e : ElementData} (h : ElementIs d n e) : elementOf d n = some e := by
  obtain ⟨k, hk, he⟩ := h
  have hk' : d.get n = some k := hk
  simp [elementOf, hk', Node.asElement, he]

theorem IsElement.is {n : Nat} (h : IsElement d n) : ∃ e, ElementIs d n e := by
  obtain ⟨k, e, hk, he⟩ := h
  exact ⟨e, k, hk, he⟩

theorem IsElement.lt {n : Nat} (h : IsElement d n) : n < d.nodes.length := by
  obtain ⟨k, e, hk, _⟩ := h
  exact (List.getElem?_eq_some_iff.mp hk).1

theorem nthTest_iff (a b : Int) (i : Int) : nthTest a b i = true ↔ ∃ k : Nat, a * k + b = i := by
  unfold nthTest
  by_cases ha : a = 0
  · subst ha
    simp only [if_true, beq_iff_eq, Int.zero_mul, exists_const]
    omega
  · simp only [if_neg ha, Bool.and_eq_true, decide_eq_true_eq, beq_iff_eq]
    constructor
    · rintro ⟨h0, h1⟩
      refine ⟨((i - b).tdiv a).toNat, ?_⟩
      rw [Int.toNat_of_nonneg h0, h1]
      omega
    · rintro ⟨k, hk⟩
      have e : i - b = a * k := by omega
      rw [e, Int.mul_tdiv_cancel_left _ ha]
      exact ⟨by omega, rfl⟩

theorem sameType_eq {a b : Nat} (ha : IsElement d a) (hb : IsElement d b) :
    ∃ r, sameType d a b = some r ∧ (r = true ↔ SameType d a b) := by
  obtain ⟨ea, hea⟩ := IsElement.is ha
  obtain ⟨eb, heb⟩ := IsElement.is hb
  refine ⟨ea.name.loc == eb.name.loc && ea.name.ns == eb.name.ns, ?_, ?_⟩
  · simp [sameType, localName, namespaceOf, elementOf_of hea, elementOf_of heb]
  · simp only [Bool.and_eq_true, beq_iff_eq]
    constructor
    · rintro ⟨h1, h2⟩; exact ⟨ea, eb, hea, heb, h1, h2⟩
    · rintro ⟨ea', eb', h1, h2, h3, h4⟩
      cases elementIs_unique h1 hea
      cases elementIs_unique h2 heb
      exact ⟨h3, h4⟩

open Classical in
theorem matchesNth_eq (h : Represents d F) {n : Nat} (hn : IsElement d n) (ofType fromEnd : Bool) (a b : Int) :
    ∃ i, IndexIs d F n ofType fromEnd i ∧ matchesNth d d.nodes.length n ofType fromEnd a b = some (nthTest a b i) := by
  have hcounts : ∀ e, IsElement d e → (if ofType then sameType d n e else some true) =
      some (decide (ofType = true → SameType d n e)) := by
    intro e he
    obtain ⟨r, h1, h2⟩ := sameType_eq hn he
    cases ofType with
    | false => simp
    | true =>
      simp only [if_true, h1, forall_const, Option.some.injEq]
      cases r <;> simp_all
  by_cases hex : ∃ p, n ∈ F p
  · obtain ⟨p, hp⟩ := hex
    obtain ⟨x, y, hF⟩ := List.append_of_mem hp
    refine ⟨_, .inl ⟨p, x, y, hF, rfl⟩, ?_⟩
    have hlen := h.length_le p
    rw [hF] at hlen
    simp only [List.length_append, List.length_cons] at hlen
    cases fromEnd with
    | true =>
      obtain ⟨o, h1, h2⟩ := chain_next h hF (fuel := d.nodes.length) (h.length_le p)
      have h3 := List.length_filter_le (fun i => decide (IsElement d i)) y
      have e := nthLoop_eq h2 (counts := fun e => if ofType then sameType d n e else some true)
        (cb := fun e => decide (ofType = true → SameType d n e)) h1
        (fun e he => hcounts e (by simpa using (List.mem_filter.mp he).2)) d.nodes.length (by omega) 1
      simp only [matchesNth, if_true]
      rw [e, List.countP_filter]
      simp only [Option.map_some, Nat.cast_add, Nat.cast_one]
      simp only [Bool.decide_and, Bool.and_comm]
    | false =>
      obtain ⟨o, h1, h2⟩ := chain_prev h hF (fuel := d.nodes.length) (h.length_le p)
      have h3 := List.length_filter_le (fun i => decide (IsElement d i)) x.reverse
      rw [List.length_reverse] at h3
      have e := nthLoop_eq h2 (counts := fun e => if ofType then sameType d n e else some true)
        (cb := fun e => decide (ofType = true → SameType d n e)) h1
        (fun e he => hcounts e (by simpa using (List.mem_filter.mp he).2)) d.nodes.length (by omega) 1
      simp only [matchesNth, if_false, Bool.false_eq_true]
      rw [e, List.countP_filter, List.countP_reverse]
      simp only [Option.map_some, Nat.cast_add, Nat.cast_one]
      simp only [Bool.decide_and, Bool.and_comm]
  · have hroot := C35_navigation_root h (List.getElem?_eq_getElem (IsElement.lt hn)) (fun p hp => hex ⟨p, hp⟩) d.nodes.length
    refine ⟨1, .inr ⟨fun p hp => hex ⟨p, hp⟩, rfl⟩, ?_⟩
    have : (if fromEnd then nextSiblingElement d d.nodes.length else prevSiblingElement d d.nodes.length) n = some none := by
      cases fromEnd
      · exact hroot.2.1
      · exact hroot.1
    simp only [matchesNth]
    have e := nthLoop_eq (Chain.nil (next := if fromEnd then nextSiblingElement d d.nodes.length else prevSiblingElement d d.nodes.length))
      (counts := fun e => if ofType then sameType d n e else some true) (cb := fun _ => true) this (by simp) d.nodes.length (by simp) 1
    rw [e]
    simp

theorem index_unique (h : Represents d F) {c : Nat} {t e : Bool} {i j : Nat} (hi : IndexIs d F c t e i) (hj : IndexIs d F c t e j) :
    i = j := by
  rcases hi with ⟨p, a, b, hF, rfl⟩ | ⟨hi, rfl⟩ <;> rcases hj with ⟨q, a', b', hF', rfl⟩ | ⟨hj, rfl⟩
  · obtain ⟨rfl, rfl, rfl⟩ := h.split_unique hF hF'; rfl
  · exact absurd (show c ∈ F p by simp [hF]) (hj p)
  · exact absurd (show c ∈ F q by simp [hF']) (hi q)
  · rfl

theorem matchesNth_iff (h : Represents d F) {n : Nat} (hn : IsElement d n) (ofType fromEnd : Bool) (a b : Int) :
    ∃ r, matchesNth d d.nodes.length n ofType fromEnd a b = some r ∧
      (r = true ↔ ∃ i, IndexIs d F n ofType fromEnd i ∧ ∃ k : Nat, a * k + b = i) := by
  obtain ⟨i, hi, e⟩ := matchesNth_eq h hn ofType fromEnd a b
  refine ⟨_, e, ?_⟩
  rw [nthTest_iff]
  constructor
  · exact fun hk => ⟨i, hi, hk⟩
  · rintro ⟨j, hj, hk⟩
    rwa [index_unique h hi hj]

theorem firstOfType_iff (h : Represents d F) {n : Nat} (hn : IsElement d n) :
    (∃ i, IndexIs d F n true false i ∧ ∃ k : Nat, (0 : Int) * k + 1 = i) ↔ ∀ m, SameType d n m → ¬ Before d F m n := by
  constructor
  · rintro ⟨i, hi, k, hk⟩ m hm ⟨p, a, b, hF, hma, he⟩
    have h1 : i = 1 := by omega
    subst h1
    rcases hi with ⟨q, a', b', hF', e⟩ | ⟨hi, _⟩
    · obtain ⟨rfl, rfl, rfl⟩ := h.split_unique hF hF'
      have : List.countP (fun m => @decide _ (Classical.propDecidable (IsElement d m ∧ (true = true → SameType d n m)))) a = 0 := by
        simpa using e
      rw [List.countP_eq_zero] at this
      exact this m hma (by simpa using ⟨he, hm⟩)
    · exact hi p (by simp [hF])
  · intro hm
    by_cases hex : ∃ p, n ∈ F p
    · obtain ⟨p, hp⟩ := hex
      obtain ⟨a, b, hF⟩ := List.append_of_mem hp
      refine ⟨1, .inl ⟨p, a, b, hF, ?_⟩, 0, by simp⟩
      simp only [Bool.false_eq_true, if_false]
      rw [List.countP_eq_zero.mpr]
      intro m hma hd
      simp only [forall_const, decide_eq_true_eq] at hd
      exact hm m hd.2 ⟨p, a, b, hF, hma, hd.1⟩
    · exact ⟨1, .inr ⟨fun p hp => hex ⟨p, hp⟩, rfl⟩, 0, by simp⟩

theorem before_after {n m p : Nat} {a b : List Nat} (h : Represents d F) (hn : IsElement d n) (hF : F p = a ++ n :: b) :
    Before d F n m ↔ m ∈ b := by
  constructor
  · rintro ⟨q, x, y, hF', hx, _⟩
    obtain ⟨s, t, rfl⟩ := List.append_of_mem hx
    have hF2 : F q = s ++ n :: (t ++ m :: y) := by rw [hF']; simp
    obtain ⟨rfl, rfl, rfl⟩ := h.split_unique hF hF2
    simp
  · intro hm
    obtain ⟨s, t, rfl⟩ := List.append_of_mem hm
    exact ⟨p, a ++ n :: s, t, by rw [hF]; simp, by simp, hn⟩

theorem SameType.right {a b : Nat} (h : SameType d a b) : IsElement d b := by
  obtain ⟨_, e, _, ⟨k, hk, he⟩, _⟩ := h
  exact ⟨k, e, hk, he⟩

theorem lastOfType_iff (h : Represents d F) {n : Nat} (hn : IsElement d n) :
    (∃ i, IndexIs d F n true true i ∧ ∃ k : Nat, (0 : Int) * k + 1 = i) ↔ ∀ m, SameType d n m → ¬ Before d F n m := by
  constructor
  · rintro ⟨i, hi, k, hk⟩ m hm hb
    have h1 : i = 1 := by omega
    subst h1
    rcases hi with ⟨q, a', b', hF', e⟩ | ⟨hi, _⟩
    · have hmb := (before_after h hn hF').mp hb
      have : List.countP (fun m => @decide _ (Classical.propDecidable (IsElement d m ∧ (true = true → SameType d n m)))) b' = 0 := by
        simpa using e
      rw [List.countP_eq_zero] at this
      exact this m hmb (by simpa using ⟨SameType.right hm, hm⟩)
    · obtain ⟨p, h1, _⟩ := hb.mem
      exact hi p h1
  · intro hm
    by_cases hex : ∃ p, n ∈ F p
    · obtain ⟨p, hp⟩ := hex
      obtain ⟨a, b, hF⟩ := List.append_of_mem hp
      refine ⟨1, .inl ⟨p, a, b, hF, ?_⟩, 0, by simp⟩
      simp only [if_true]
      rw [List.countP_eq_zero.mpr]
      intro m hmb hd
      simp only [forall_const, decide_eq_true_eq] at hd
      exact hm m hd.2 ((before_after h hn hF).mpr hmb)
    · exact ⟨1, .inr ⟨fun p hp => hex ⟨p, hp⟩, rfl⟩, 0, by simp⟩

theorem firstChild_eq (h : Represents d F) {n : Nat} (hn : IsElement d n) :
    ∃ r, (prevSiblingElement d d.nodes.length n).map Option.isNone = some r ∧ (r = true ↔ ∀ m, ¬ Before d F m n) := by
  obtain ⟨o, l, h1, h2, h3, _⟩ := chain_before h n (IsElement.lt hn)
  refine ⟨_, by rw [h1]; rfl, ?_⟩
  cases h2 with
  | nil => simpa using h3
  | cons _ _ =>
    simp only [Option.isNone_some, Bool.false_eq_true, false_iff, not_forall, not_not]
    exact ⟨_, (h3 _).mp (List.mem_cons_self ..)⟩

theorem lastChild_eq (h : Represents d F) {n : Nat} (hn : IsElement d n) :
    ∃ r, (nextSiblingElement d d.nodes.length n).map Option.isNone = some r ∧
      (r = true ↔ ∀ m, IsElement d m → ¬ Before d F n m) := by
  by_cases hex : ∃ p, n ∈ F p
  · obtain ⟨p, hp⟩ := hex
    obtain ⟨a, b, hF⟩ := List.append_of_mem hp
    refine ⟨_, by rw [(C35_navigation h hF d.nodes.length (h.length_le p)).1]; rfl, ?_⟩
    simp only [before_after h hn hF, Option.isNone_iff_eq_none, List.find?_eq_none, decide_eq_true_eq]
    exact ⟨fun h1 m he hm => h1 m hm he, fun h1 m hm he => h1 m he hm⟩
  · refine ⟨true, ?_, ?_⟩
    · rw [(C35_navigation_root h (List.getElem?_eq_getElem (IsElement.lt hn)) (fun p hp => hex ⟨p, hp⟩) d.nodes.length).1]; rfl
    · simp only [true_iff]
      intro m _ hb
      obtain ⟨p, h1, _⟩ := hb.mem
      exact hex ⟨p, h1⟩

theorem andThen_eq {a : Option Bool} {b : Unit → Option Bool} {P Q : Prop} (ha : ∃ r, a = some r ∧ (r = true ↔ P))
    (hb : ∃ r, b () = some r ∧ (r = true ↔ Q)) : ∃ r, andThen a b = some r ∧ (r = true ↔ P ∧ Q) := by
  obtain ⟨r, rfl, hr⟩ := ha
  obtain ⟨s, hs, hs'⟩ := hb
  cases r with
  | false => exact ⟨false, rfl, by simp_all⟩
  | true => exact ⟨s, hs, by simp_all⟩

theorem allOf_eq {α : Type} {f : α → Option Bool} {P : α → Prop} : ∀ {l : List α}, (∀ x ∈ l, ∃ r, f x = some r ∧ (r = true ↔ P x)) →
    ∃ r, allOf f l = some r ∧ (r = true ↔ ∀ x ∈ l, P x)
  | [], _ => ⟨true, rfl, by simp⟩
  | x :: l, h => by
    obtain ⟨r, h1, h2⟩ := andThen_eq (b := fun _ => allOf f l) (h x (by simp)) (allOf_eq fun y hy => h y (by simp [hy]))
    exact ⟨r, h1, by rw [h2]; simp⟩

/-- What is asked of an atom. -/
def AtomFits (d : Document) (html : Bool) (a : Atom) : Prop :=
  (IsClass a → OneClassEach d) ∧ ¬ NoName a ∧ (html = true ∨ ¬ NamesCapitals a)

theorem selectName_eq {e : ElementData} {name : String} (hc : html = true ∨ ¬ String.ofList (name.toList.map Char.toLower) ≠ name) :
    selectName (e.name.ns == htmlNs) name = nameFor html e name := by
  unfold selectName nameFor asciiLower
  have hh : (e.name.ns == htmlNs) = true ↔ e.name.ns = "http://www.w3.org/1999/xhtml" := by simp [htmlNs]
  by_cases h1 : e.name.ns = "http://www.w3.org/1999/xhtml"
  · rw [if_pos (hh.mpr h1)]
    rcases hc with hc | hc
    · rw [if_pos ⟨hc, h1⟩]
    · rw [not_not.mp hc]; simp
  · rw [if_neg (fun h => h1 (hh.mp h)), if_neg (fun h => h1 h.2)]

theorem matchesAtom_eq (h : Represents d F) {n : Nat} (hn : IsElement d n) (a : Atom) (hfit : AtomFits d html a) :
    ∃ r, matchesAtom d d.nodes.length n a = some r ∧ (r = true ↔ AtomHolds d F html n a) := by
  obtain ⟨e, he⟩ := IsElement.is hn
  have hel := elementOf_of he
  have only : ∀ (P : ElementData → Prop), (∃ e', ElementIs d n e' ∧ P e') ↔ P e :=
    fun P => ⟨fun ⟨e', h1, h2⟩ => elementIs_unique h1 he ▸ h2, fun hp => ⟨e, he, hp⟩⟩
  have he0 := he
  obtain ⟨k, hk, hke⟩ := he0
  cases a with
  | universal => exact ⟨true, rfl, by simp [AtomHolds]⟩
  | type name =>
    refine ⟨e.name.loc == selectName (e.name.ns == htmlNs) name, by simp [matchesAtom, isHtmlElementInHtmlDocument, localName, hel], ?_⟩
    rw [beq_iff_eq, selectName_eq hfit.2.2]
    exact (only fun e => e.name.loc = nameFor html e name).symm
  | noNamespace =>
    refine ⟨e.name.ns == "", by simp [matchesAtom, namespaceOf, hel], ?_⟩
    rw [beq_iff_eq]
    exact (only fun e => e.name.ns = "").symm
  | id name =>
    obtain ⟨b, h1, h2⟩ := C35_id hk hke name
    exact ⟨b, h1, h2.trans (only fun e => AttrIs e "id" name).symm⟩
  | cls name =>
    have hone := hfit.1 trivial
    have hname : name ≠ "" := hfit.2.1
    simp only [matchesAtom, hasClass, hel, Option.map_some, Option.some.injEq, exists_eq_left']
    constructor
    · intro hb
      cases ha : e.getAttr "class" with
      | none => simp [ha] at hb
      | some v =>
        simp only [ha, CaseSensitivity.eq, beq_iff_eq] at hb
        subst hb
        have hav := (getAttr_iff ..).mp ha
        exact ⟨e, name, he, hav, hname, hone n e name he hav, [], [], by simp, by simp, by simp⟩
    · rintro ⟨e', v, h1, hav, hw⟩
      cases elementIs_unique h1 he
      obtain ⟨b, hb, _, hb2⟩ := C35_class_partial hk hke name hname hw.2.1
      have := hb2 ⟨v, hav, hone n e v he hav, hw⟩
      subst this
      simpa [hasClass, hel] using hb
  | attr ns name test =>
    obtain ⟨b, h1, h2⟩ := C35_attribute hk hke ns (selectName (e.name.ns == htmlNs) name) test
    refine ⟨b, by simp [matchesAtom, isHtmlElementInHtmlDocument, hel, h1], ?_⟩
    rw [h2, selectName_eq hfit.2.2]
    exact (only fun e => ∃ a ∈ e.attrs, a.name.loc = nameFor html e name ∧ (∀ x, ns = some x → a.name.ns = x) ∧
      test a.value = true).symm
  | root =>
    obtain ⟨b, h1, h2⟩ := C35_root h (IsElement.lt hn)
    refine ⟨b, h1, h2.trans ?_⟩
    exact ⟨fun h3 p hp => h3 p hp.1 hp.2, fun h3 p hp he => h3 p ⟨hp, he⟩⟩
  | empty => exact C35_empty h (IsElement.lt hn) _ (h.length_le n)
  | firstChild => exact firstChild_eq h hn
  | lastChild => exact lastChild_eq h hn
  | onlyChild =>
    exact andThen_eq (b := fun _ => (nextSiblingElement d d.nodes.length n).map Option.isNone) (firstChild_eq h hn) (lastChild_eq h hn)
  | nth t f a b => exact matchesNth_iff h hn t f a b
  | firstOfType =>
    obtain ⟨r, h1, h2⟩ := matchesNth_iff h hn true false 0 1
    exact ⟨r, h1, h2.trans (firstOfType_iff h hn)⟩
  | lastOfType =>
    obtain ⟨r, h1, h2⟩ := matchesNth_iff h hn true true 0 1
    exact ⟨r, h1, h2.trans (lastOfType_iff h hn)⟩
  | onlyOfType =>
    obtain ⟨r, h1, h2⟩ := matchesNth_iff h hn true false 0 1
    obtain ⟨s, h3, h4⟩ := matchesNth_iff h hn true true 0 1
    obtain ⟨t, h5, h6⟩ := andThen_eq (b := fun _ => matchesNth d d.nodes.length n true true 0 1)
      ⟨r, h1, h2.trans (firstOfType_iff h hn)⟩ ⟨s, h3, h4.trans (lastOfType_iff h hn)⟩
    exact ⟨t, h5, h6.trans ⟨fun h7 m hm => ⟨h7.1 m hm, h7.2 m hm⟩, fun h7 => ⟨fun m hm => (h7 m hm).1, fun m hm => (h7 m hm).2⟩⟩⟩

theorem matchesSimple_eq (h : Represents d F) {n : Nat} (hn : IsElement d n) (s : Simple)
    (hfit : ∀ a, Simple.Has (· = a) s → AtomFits d html a) :
    ∃ r, matchesSimple d d.nodes.length n s = some r ∧ (r = true ↔ SimpleHolds d F html n s) := by
  cases s with
  | atom a => exact matchesAtom_eq h hn a (hfit a rfl)
  | not l =>
    obtain ⟨r, h1, h2⟩ := allOf_eq (f := matchesAtom d d.nodes.length n) (P := AtomHolds d F html n) (l := l)
      fun x hx => matchesAtom_eq h hn x (hfit x ⟨x, hx, rfl⟩)
    refine ⟨!r, by simp [matchesSimple, h1], ?_⟩
    simp only [SimpleHolds, ← h2]
    cases r <;> simp

/-- What an answer about an element says of it and of others. -/
def Means (d : Document) (F : Forest) (html : Bool) (s : Sel) (n : Nat) : MatchResult → Prop
  | .matched => Selects d F html s n
  | .notMatchedRestartLaterSibling => ¬ Selects d F html s n
  | .notMatchedRestartDescendant => ¬ Selects d F html s n ∧ ∀ m, Before d F m n → ¬ Selects d F html s m
  | .notMatchedGlobally => ∀ m, Reach d F n m → ¬ Selects d F html s m

theorem Means.not {s : Sel} {n : Nat} {r : MatchResult} (h : Means d F html s n r) (hr : r ≠ .matched) : ¬ Selects d F html s n := by
  cases r with
  | matched => exact absurd rfl hr
  | notMatchedRestartLaterSibling => exact h
  | notMatchedRestartDescendant => exact h.1
  | notMatchedGlobally => exact h n .here

theorem Chain.unique {next : Nat → Option (Option Nat)} {o : Option Nat} {l : List Nat} (h : Chain next o l) :
    ∀ {l' : List Nat}, Chain next o l' → l = l' := by
  induction h with
  | nil => intro l' h'; cases h'; rfl
  | cons hn _ ih =>
    intro l' h'
    cases h' with
    | cons hn' h' =>
      rw [hn] at hn'; cases hn'
      rw [ih h']

theorem chain_up_pairwise (h : Represents d F) (ha : F.Acyclic) {o : Option Nat} {l : List Nat} (hc : Chain (parentElement d) o l) :
    (∀ e ∈ l, e < d.nodes.length) → l.Pairwise fun e m => Above d F m e := by
  induction hc with
  | nil => intro _; exact .nil
  | cons hn hc ih =>
    intro hlt
    refine .cons ?_ (ih fun e he => hlt e (by simp [he]))
    obtain ⟨o', l', h1, h2, h3, _⟩ := chain_up h ha _ (hlt _ (List.mem_cons_self ..))
    rw [hn] at h1; cases h1
    cases hc.unique h2
    exact fun m hm => (h3 m).mp hm

theorem chain_before_pairwise (h : Represents d F) {o : Option Nat} {l : List Nat}
    (hc : Chain (prevSiblingElement d d.nodes.length) o l) :
    (∀ e ∈ l, e < d.nodes.length) → l.Pairwise fun e m => Before d F m e := by
  induction hc with
  | nil => intro _; exact .nil
  | cons hn hc ih =>
    intro hlt
    refine .cons ?_ (ih fun e he => hlt e (by simp [he]))
    obtain ⟨o', l', h1, h2, h3, _⟩ := chain_before h _ (hlt _ (List.mem_cons_self ..))
    rw [hn] at h1; cases h1
    cases hc.unique h2
    exact fun m hm => (h3 m).mp hm

theorem try_descendant {left : Sel} {f : Nat → Option MatchResult} : ∀ {l : List Nat}, l.Pairwise (fun e m => Above d F m e) →
    (∀ e ∈ l, ∃ r, f e = some r ∧ Means d F html left e r) →
    (tryList .descendant f l = some .matched ∧ ∃ e ∈ l, Selects d F html left e) ∨
    (tryList .descendant f l = some .notMatchedGlobally ∧ ∀ e ∈ l, ¬ Selects d F html left e)
  | [], _, _ => .inr ⟨rfl, by simp⟩
  | e :: l, hp, hf => by
    rw [List.pairwise_cons] at hp
    obtain ⟨r, h1, h2⟩ := hf e (by simp)
    have ih := try_descendant hp.2 (fun e he => hf e (by simp [he]))
    cases r with
    | matched => exact .inl ⟨by simp [tryList, h1, Combinator.stop], e, by simp, h2⟩
    | notMatchedGlobally =>
      refine .inr ⟨by simp [tryList, h1, Combinator.stop], fun m hm => ?_⟩
      rcases List.mem_cons.mp hm with rfl | hm
      · exact h2 _ .here
      · exact h2 _ (Reach.of_above (hp.1 m hm))
    | notMatchedRestartLaterSibling | notMatchedRestartDescendant =>
      have hno := h2.not (by simp)
      have e1 : tryList .descendant f (e :: l) = tryList .descendant f l := by simp [tryList, h1, Combinator.stop]
      rw [e1]
      rcases ih with ⟨h3, m, hm, hs⟩ | ⟨h3, hs⟩
      · exact .inl ⟨h3, m, by simp [hm], hs⟩
      · refine .inr ⟨h3, fun m hm => ?_⟩
        rcases List.mem_cons.mp hm with rfl | hm
        · exact hno
        · exact hs m hm

theorem try_later {left : Sel} {f : Nat → Option MatchResult} : ∀ {l : List Nat}, l.Pairwise (fun e m => Before d F m e) →
    (∀ e ∈ l, ∃ r, f e = some r ∧ Means d F html left e r) →
    (tryList .laterSibling f l = some .matched ∧ ∃ e ∈ l, Selects d F html left e) ∨
    (tryList .laterSibling f l = some .notMatchedRestartDescendant ∧ ∀ e ∈ l, ¬ Selects d F html left e) ∨
    (tryList .laterSibling f l = some .notMatchedGlobally ∧ (∀ e ∈ l, ¬ Selects d F html left e) ∧
      ∃ e ∈ l, ∀ m, Reach d F e m → ¬ Selects d F html left m)
  | [], _, _ => .inr (.inl ⟨rfl, by simp⟩)
  | e :: l, hp, hf => by
    rw [List.pairwise_cons] at hp
    obtain ⟨r, h1, h2⟩ := hf e (by simp)
    have ih := try_later hp.2 (fun e he => hf e (by simp [he]))
    cases r with
    | matched => exact .inl ⟨by simp [tryList, h1, Combinator.stop], e, by simp, h2⟩
    | notMatchedGlobally =>
      refine .inr (.inr ⟨by simp [tryList, h1, Combinator.stop], fun m hm => ?_, e, by simp, h2⟩)
      rcases List.mem_cons.mp hm with rfl | hm
      · exact h2 _ .here
      · exact h2 _ (Reach.here.before (hp.1 m hm))
    | notMatchedRestartDescendant =>
      refine .inr (.inl ⟨by simp [tryList, h1, Combinator.stop], fun m hm => ?_⟩)
      rcases List.mem_cons.mp hm with rfl | hm
      · exact h2.1
      · exact h2.2 _ (hp.1 m hm)
    | notMatchedRestartLaterSibling =>
      have hno := h2.not (by simp)
      have e1 : tryList .laterSibling f (e :: l) = tryList .laterSibling f l := by simp [tryList, h1, Combinator.stop]
      rw [e1]
      have all : (∀ e ∈ l, ¬ Selects d F html left e) → ∀ m ∈ e :: l, ¬ Selects d F html left m := fun hs m hm => by
        rcases List.mem_cons.mp hm with rfl | hm
        · exact hno
        · exact hs m hm
      rcases ih with ⟨h3, m, hm, hs⟩ | ⟨h3, hs⟩ | ⟨h3, hs, m, hm, hr⟩
      · exact .inl ⟨h3, m, by simp [hm], hs⟩
      · exact .inr (.inl ⟨h3, all hs⟩)
      · exact .inr (.inr ⟨h3, all hs, m, by simp [hm], hr⟩)

/-- If nothing that a walk from a sibling before `n` comes to is selected by `left`, nor any sibling before `n`, then no element
which a walk from `n` comes to has a sibling before it that is. -/
theorem siblings_globally (h : Represents d F) {left : Sel} {n q m k : Nat} (hq : Before d F q n)
    (hb : ∀ m, Before d F m n → ¬ Selects d F html left m) (hr : ∀ m, Reach d F q m → ¬ Selects d F html left m)
    (hm : Reach d F n m) (hk : Before d F k m) : ¬ Selects d F html left k := by
  rcases hm.cases h with rfl | hm | ⟨a, haa, hm⟩
  · exact hb k hk
  · exact hb k (hk.trans h hm)
  · have haq : Above d F a q := (hq.above h).mpr haa
    rcases hm with rfl | hm
    · exact hr k ((Reach.of_above haq).before hk)
    · exact hr k ((Reach.of_above haq).before (hk.trans h hm))

theorem length_le_of_nodup {l : List Nat} {N : Nat} (hn : l.Nodup) (hlt : ∀ m ∈ l, m < N) : l.length ≤ N := by
  have := List.Subperm.length_le (hn.subperm (l₂ := List.range N) fun m hm => List.mem_range.mpr (hlt m hm))
  simpa using this

theorem matchesComplex_means (h : Represents d F) (ha : F.Acyclic) :
    ∀ (s : Sel), (∀ a, Has (· = a) s → AtomFits d html a) → ∀ n, IsElement d n →
      ∃ r, matchesComplex d d.nodes.length s n = some r ∧ Means d F html s n r
  | .compound l, hfit, n, hn => by
    obtain ⟨r, h1, h2⟩ := allOf_eq (f := matchesSimple d d.nodes.length n) (P := SimpleHolds d F html n) (l := l)
      fun x hx => matchesSimple_eq h hn x fun a hxa => hfit a ⟨x, hx, hxa⟩
    cases r with
    | true => exact ⟨.matched, by simp [matchesComplex, h1], h2.mp rfl⟩
    | false =>
      refine ⟨.notMatchedRestartLaterSibling, by simp [matchesComplex, h1], fun hs => ?_⟩
      exact absurd (h2.mpr hs) (by simp)
  | .join left c l, hfit, n, hn => by
    obtain ⟨r, h1, h2⟩ := allOf_eq (f := matchesSimple d d.nodes.length n) (P := SimpleHolds d F html n) (l := l)
      fun x hx => matchesSimple_eq h hn x fun a hxa => hfit a (.inr ⟨x, hx, hxa⟩)
    cases r with
    | false =>
      refine ⟨.notMatchedRestartLaterSibling, by simp [matchesComplex, h1], fun hs => ?_⟩
      have : ∀ x ∈ l, SimpleHolds d F html n x := by cases c <;> exact hs.1
      exact absurd (h2.mpr this) (by simp)
    | true =>
      have hl : ∀ x ∈ l, SimpleHolds d F html n x := h2.mp rfl
      have ih := matchesComplex_means h ha left (fun a hxa => hfit a (.inl hxa))
      obtain ⟨o, up, hu1, hu2, hu3, hu4, hu5⟩ := chain_up h ha n (IsElement.lt hn)
      obtain ⟨o', bf, hb1, hb2, hb3, hb4, hb5⟩ := chain_before h n (IsElement.lt hn)
      have upEl : ∀ e ∈ up, IsElement d e := fun e he => by
        have := (hu3 e).mp he
        clear * - this
        induction this with
        | parent hp => exact hp.2
        | up _ _ ih => exact ih
      have bfEl : ∀ e ∈ bf, IsElement d e := fun e he => by
        obtain ⟨_, _, _, _, _, h3⟩ := (hb3 e).mp he
        exact h3
      have upLen : up.length ≤ d.nodes.length := length_le_of_nodup hu4 fun m hm => IsElement.lt (upEl m hm)
      have upP := chain_up_pairwise h ha hu2 fun e he => IsElement.lt (upEl e he)
      have bfP := chain_before_pairwise h hb2 fun e he => IsElement.lt (bfEl e he)
      have upM : ∀ e ∈ up, ∃ r, matchesComplex d d.nodes.length left e = some r ∧ Means d F html left e r :=
        fun e he => ih e (upEl e he)
      have bfM : ∀ e ∈ bf, ∃ r, matchesComplex d d.nodes.length left e = some r ∧ Means d F html left e r :=
        fun e he => ih e (bfEl e he)
      cases c with
      | child =>
        have e0 : matchesComplex d d.nodes.length (.join left .child l) n =
            tryList .child (matchesComplex d d.nodes.length left) up := by
          simp only [matchesComplex, h1, nextFor, hu1]
          exact tryCandidates_eq (c := .child) hu2 _ upLen
        rw [e0]
        cases hu2 with
        | nil =>
          refine ⟨.notMatchedGlobally, rfl, fun m hm hs => ?_⟩
          obtain ⟨_, k, hk, _⟩ := hs
          have := (hu3 k).mpr (hm.above h (.parent hk))
          cases this
        | @cons p _ l' hn' hc' =>
          have hpar : Parent d F p n := (hu5 p).mp rfl
          obtain ⟨r, h3, h4⟩ := upM p (by simp)
          have low : r ≠ .matched → ∀ m, Parent d F p m → ¬ Selects d F html (.join left .child l) m := by
            rintro hr m hm ⟨_, k, hk, hs⟩
            rw [Css.Parent.unique h hk hm] at hs
            exact h4.not hr hs
          cases r with
          | matched => exact ⟨.matched, by simp [tryList, h3, Combinator.stop], hl, p, hpar, h4⟩
          | notMatchedGlobally =>
            refine ⟨.notMatchedGlobally, by simp [tryList, h3, Combinator.stop], ?_⟩
            rintro m hm ⟨_, k, hk, hs⟩
            obtain ⟨q, hq, hkq⟩ := (hm.above h (.parent hk)).cases
            cases Css.Parent.unique h hq hpar
            rcases hkq with rfl | hkq
            · exact h4 _ .here hs
            · exact h4 _ (Reach.of_above hkq) hs
          | notMatchedRestartLaterSibling | notMatchedRestartDescendant =>
            exact ⟨.notMatchedRestartDescendant, by simp [tryList, h3, Combinator.stop], low (by simp) n hpar,
              fun m hm => low (by simp) m ((hm.parent h).mpr hpar)⟩
      | descendant =>
        have e0 : matchesComplex d d.nodes.length (.join left .descendant l) n =
            tryList .descendant (matchesComplex d d.nodes.length left) up := by
          simp only [matchesComplex, h1, nextFor, hu1]
          exact tryCandidates_eq (c := .descendant) hu2 _ upLen
        rw [e0]
        rcases try_descendant upP upM with ⟨h3, e, he, hs⟩ | ⟨h3, hs⟩
        · exact ⟨_, h3, hl, e, (hu3 e).mp he, hs⟩
        · refine ⟨_, h3, ?_⟩
          rintro m hm ⟨_, k, hk, hks⟩
          exact hs k ((hu3 k).mpr (hm.above h hk)) hks
      | nextSibling =>
        have e0 : matchesComplex d d.nodes.length (.join left .nextSibling l) n =
            tryList .nextSibling (matchesComplex d d.nodes.length left) bf := by
          simp only [matchesComplex, h1, nextFor, hb1]
          exact tryCandidates_eq (c := .nextSibling) hb2 _ hb4
        rw [e0]
        cases hb2 with
        | nil =>
          refine ⟨.notMatchedRestartDescendant, rfl, ?_, ?_⟩
          · rintro ⟨_, k, hk, _⟩
            have := (hb3 k).mpr hk.before
            cases this
          · intro m hm
            have := (hb3 m).mpr hm
            cases this
        | @cons q _ l' hn' hc' =>
          have hq : JustBefore d F q n := (hb5 q).mp rfl
          obtain ⟨r, h3, h4⟩ := bfM q (by simp)
          refine ⟨r, by cases r <;> simp [tryList, h3, Combinator.stop], ?_⟩
          have one : ∀ k, JustBefore d F k n → k = q := fun k hk => by
            have := (hb5 k).mpr hk
            simpa using this.symm
          have self : r ≠ .matched → ¬ Selects d F html (.join left .nextSibling l) n := by
            rintro hr ⟨_, k, hk, hs⟩
            rw [one k hk] at hs
            exact h4.not hr hs
          cases r with
          | matched => exact ⟨hl, q, hq, h4⟩
          | notMatchedRestartLaterSibling => exact self (by simp)
          | notMatchedRestartDescendant =>
            refine ⟨self (by simp), ?_⟩
            rintro m hm ⟨_, k, hk, hs⟩
            rcases hq.cases h (hk.before.trans h hm) with rfl | hkq
            · exact h4.1 hs
            · exact h4.2 k hkq hs
          | notMatchedGlobally =>
            rintro m hm ⟨_, k, hk, hs⟩
            refine siblings_globally h hq.before (fun x hx => ?_) h4 hm hk.before hs
            rcases hq.cases h hx with rfl | hx
            · exact h4 _ .here
            · exact h4 _ (Reach.here.before hx)
      | laterSibling =>
        have e0 : matchesComplex d d.nodes.length (.join left .laterSibling l) n =
            tryList .laterSibling (matchesComplex d d.nodes.length left) bf := by
          simp only [matchesComplex, h1, nextFor, hb1]
          exact tryCandidates_eq (c := .laterSibling) hb2 _ hb4
        rw [e0]
        rcases try_later bfP bfM with ⟨h3, e, he, hs⟩ | ⟨h3, hs⟩ | ⟨h3, hs, q, hq, hr⟩
        · exact ⟨_, h3, hl, e, (hb3 e).mp he, hs⟩
        · refine ⟨_, h3, ?_, ?_⟩
          · rintro ⟨_, k, hk, hks⟩
            exact hs k ((hb3 k).mpr hk) hks
          · rintro m hm ⟨_, k, hk, hks⟩
            exact hs k ((hb3 k).mpr (hk.trans h hm)) hks
        · refine ⟨_, h3, ?_⟩
          rintro m hm ⟨_, k, hk, hks⟩
          exact siblings_globally h ((hb3 q).mp hq) (fun x hx => hs x ((hb3 x).mpr hx)) hr hm hk hks

theorem Has.of {P : Atom → Prop} {a : Atom} (hP : P a) : ∀ {s : Sel}, Has (· = a) s → Has P s
  | .compound l, ⟨x, hx, hxa⟩ => ⟨x, hx, by
      cases x with
      | atom b => cases hxa; exact hP
      | not m => obtain ⟨b, hb, rfl⟩ := hxa; exact ⟨_, hb, hP⟩⟩
  | .join left c l, .inl hl => .inl (Has.of hP hl)
  | .join left c l, .inr ⟨x, hx, hxa⟩ => .inr ⟨x, hx, by
      cases x with
      | atom b => cases hxa; exact hP
      | not m => obtain ⟨b, hb, rfl⟩ := hxa; exact ⟨_, hb, hP⟩⟩

/-- **C110**, the part that holds: for every tree and every selector, matching comes to an end without a panic, and an element is
matched if and only if CSS says that the selector selects it: through any sequence of the four combinators, `:not`, and the
structural pseudo-classes. Missing: class selectors where a class attribute has several words (`C110_class_violated`), and names
with capital letters in documents that are not HTML (`C110_xml_violated`). -/
theorem C110_selects_partial (h : Represents d F) (ha : F.Acyclic) (s : Sel) (hname : ¬ Has NoName s)
    (hclass : Has IsClass s → OneClassEach d) (hcap : html = true ∨ ¬ Has NamesCapitals s) (n : Nat) (hn : IsElement d n) :
    ∃ r, matchesSelector d s n = some r ∧ (r = true ↔ Selects d F html s n) := by
  obtain ⟨r, h1, h2⟩ := matchesComplex_means (html := html) h ha s (fun a haa =>
    ⟨fun hc => hclass (Has.of hc haa), fun hc => hname (Has.of hc haa), hcap.imp id fun hc hcc => hc (Has.of hcc haa)⟩) n hn
  refine ⟨r == .matched, by simp [matchesSelector, h1], ?_⟩
  rw [beq_iff_eq]
  constructor
  · rintro rfl; exact h2
  · intro hs
    by_contra hr
    exact h2.not hr hs

theorem applies_congr {σ : Type} {specificity : σ → Nat} {f g : σ → Bool} {ua author : List (σ × List (Declaration × Bool))}
    {attr : List (Declaration × Bool)} (hf : ∀ r, r ∈ ua ∨ r ∈ author → f r.1 = g r.1) (c : Candidate) :
    Applies specificity f ua author attr c ↔ Applies specificity g ua author attr c := by
  unfold Applies
  split
  · rfl
  · constructor <;> rintro ⟨s, contents, h1, h2, h3⟩ <;> refine ⟨s, contents, h1, ?_, h3⟩
    · rw [← hf (s, contents), h2]
      cases hc : c.origin <;> rw [hc] at h1
      · exact .inl (List.mem_of_getElem? h1)
      · exact .inr (List.mem_of_getElem? h1)
    · rw [hf (s, contents), h2]
      cases hc : c.origin <;> rw [hc] at h1
      · exact .inl (List.mem_of_getElem? h1)
      · exact .inr (List.mem_of_getElem? h1)

theorem winner_congr {σ : Type} {specificity : σ → Nat} {f g : σ → Bool} {ua author : List (σ × List (Declaration × Bool))}
    {attr : List (Declaration × Bool)} (hf : ∀ r, r ∈ ua ∨ r ∈ author → f r.1 = g r.1) (c : Candidate) :
    Winner specificity f ua author attr c ↔ Winner specificity g ua author attr c := by
  unfold Winner
  simp only [applies_congr hf]

/-- **C110** for styles, with the same restrictions: the value of each property of an element comes from the winning declaration among
those of the rules whose selectors select it according to CSS, and of its `style` attribute. -/
theorem C110_style_partial {colors : Colors} {tokenize : String → List Item}
    {uaSheets authorSheets : List (List (SourceRule Sel))} {uaSet authorSet : StyleSet Sel}
    {parent : Option ComputedValues} {style : ComputedValues} {ua author : List (Sel × List (Declaration × Bool))}
    {attr : List (Declaration × Bool)}
    (h : Represents d F) (ha : F.Acyclic) {n : Nat} {element : ElementData} (hn : ElementIs d n element)
    (hua : addStylesheets colors ⟨[]⟩ uaSheets = .ok uaSet) (hauthor : addStylesheets colors ⟨[]⟩ authorSheets = .ok authorSet)
    (hstyle : styleForElement colors tokenize (uaSet.finish Sel.specificity) (authorSet.finish Sel.specificity)
      (fun s => matchesSelector d s n == some true) element parent = .ok style)
    (Hua : Appearances colors uaSheets.flatten ua) (Hauthor : Appearances colors authorSheets.flatten author)
    (Hattr : AttrContents colors tokenize element attr)
    (hok : ∀ r, r ∈ ua ∨ r ∈ author → ¬ Has NoName r.1 ∧ (Has IsClass r.1 → OneClassEach d) ∧ (html = true ∨ ¬ Has NamesCapitals r.1))
    {selected : Sel → Bool} (hsel : ∀ s, selected s = true ↔ Selects d F html s n) :
    ∃ v, FixedUp v style ∧
      (∀ c, Winner Sel.specificity selected ua author attr c →
        v c.declaration.longhand = valueOf v.fontSize (parentValues parent) c.declaration) ∧
      ∀ p, (∃ c, Winner Sel.specificity selected ua author attr c ∧ c.declaration.longhand = p) ∨
        (∀ c, Applies Sel.specificity selected ua author attr c → c.declaration.longhand ≠ p) ∧
          v p = unset (parentValues parent) p := by
  have hel : IsElement d n := by
    obtain ⟨k, hk, he⟩ := hn
    exact ⟨k, element, hk, he⟩
  have agree : ∀ r, r ∈ ua ∨ r ∈ author → (fun s => matchesSelector d s n == some true) r.1 = selected r.1 := by
    intro r hr
    obtain ⟨h1, h2, h3⟩ := hok r hr
    obtain ⟨b, hb, hb'⟩ := C110_selects_partial h ha r.1 h1 h2 h3 n hel
    simp only [hb]
    rw [Bool.eq_iff_iff, hsel, ← hb']
    simp
  have := C28_winner hua hauthor hstyle Hua Hauthor Hattr
  have e1 := fun c => winner_congr (specificity := Sel.specificity) (attr := attr)
    (f := fun s => matchesSelector d s n == some true) (g := selected) (ua := ua) (author := author) agree c
  have e2 := fun c => applies_congr (specificity := Sel.specificity) (attr := attr)
    (f := fun s => matchesSelector d s n == some true) (g := selected) (ua := ua) (author := author) agree c
  simpa only [e1, e2] using this

theorem atomsCounts_eq : ∀ l : List Atom, atomsCounts l =
    (l.countP (fun | .id _ => true | _ => false), l.countP (fun | .id _ | .type _ | .universal | .noNamespace => false | _ => true),
      l.countP (fun | .type _ => true | _ => false))
  | [] => rfl
  | a :: l => by
    rw [atomsCounts, atomsCounts_eq l]
    simp only [List.countP_cons, addCounts]
    cases a <;> simp [Atom.counts, Nat.add_comm]

theorem simplesCounts_eq : ∀ l : List Simple, simplesCounts l = atomsCounts (l.flatMap Css.Simple.atoms)
  | [] => rfl
  | .atom a :: l => by
    simp only [simplesCounts, List.flatMap_cons, Css.Simple.atoms, List.cons_append, List.nil_append, atomsCounts, simplesCounts_eq l]
  | .not m :: l => by
    simp only [simplesCounts, List.flatMap_cons, Css.Simple.atoms, simplesCounts_eq l, atomsCounts_eq, List.countP_append, addCounts]

theorem counts_eq : ∀ s : Sel, s.counts = (ids s, classes s, types s)
  | .compound l => by
    simp only [Sel.counts, simplesCounts_eq, atomsCounts_eq, ids, classes, types, Css.atoms]
    rfl
  | .join left c l => by
    simp only [Sel.counts, counts_eq left, simplesCounts_eq, atomsCounts_eq, ids, classes, types, Css.atoms, List.countP_append,
      addCounts]
    rfl

/-- **C110**: specificity orders selectors as CSS does, as long as no kind of simple selector occurs more than 1023 times in one. -/
theorem C110_specificity_partial (s t : Sel) (hs : ids s ≤ 1023 ∧ classes s ≤ 1023 ∧ types s ≤ 1023)
    (ht : ids t ≤ 1023 ∧ classes t ≤ 1023 ∧ types t ≤ 1023) : s.specificity < t.specificity ↔ LessSpecific s t := by
  simp only [Sel.specificity, packCounts, counts_eq, LessSpecific]
  omega

/-- What the order is for all selectors: each count is taken to be 1023 if it is more. -/
theorem specificity_capped (s t : Sel) : s.specificity < t.specificity ↔
    min (ids s) 1023 < min (ids t) 1023 ∨ min (ids s) 1023 = min (ids t) 1023 ∧
      (min (classes s) 1023 < min (classes t) 1023 ∨ min (classes s) 1023 = min (classes t) 1023 ∧
        min (types s) 1023 < min (types t) 1023) := by
  simp only [Sel.specificity, packCounts, counts_eq]
  omega

/-- **C110** does not hold of selectors with more: `:root` written once more is more specific, but to the code it
is not if it was written 1023 times already. -/
theorem C110_specificity_violated (n : Nat) (hn : 1023 ≤ n) :
    LessSpecific (.compound (List.replicate n (.atom .root))) (.compound (List.replicate (n + 1) (.atom .root))) ∧
    (Sel.compound (List.replicate n (.atom .root))).specificity = (Sel.compound (List.replicate (n + 1) (.atom .root))).specificity := by
  have h : ∀ k, classes (.compound (List.replicate k (.atom .root))) = k := by
    intro k
    induction k with
    | zero => rfl
    | succ k ih =>
      simp only [classes, Css.atoms, List.replicate_succ, List.flatMap_cons, Css.Simple.atoms, List.countP_append] at ih ⊢
      rw [ih]; simp; omega
  have hi : ∀ k, ids (.compound (List.replicate k (.atom .root))) = 0 := by
    intro k
    induction k with
    | zero => rfl
    | succ k ih =>
      simp only [ids, Css.atoms, List.replicate_succ, List.flatMap_cons, Css.Simple.atoms, List.countP_append] at ih ⊢
      rw [ih]; simp
  have ht : ∀ k, types (.compound (List.replicate k (.atom .root))) = 0 := by
    intro k
    induction k with
    | zero => rfl
    | succ k ih =>
      simp only [types, Css.atoms, List.replicate_succ, List.flatMap_cons, Css.Simple.atoms, List.countP_append] at ih ⊢
      rw [ih]; simp
  constructor
  · exact .inr ⟨by rw [hi, hi], .inl (by rw [h, h]; omega)⟩
  · simp only [Sel.specificity, packCounts, counts_eq, h, hi, ht]; omega

/-- `<ul class="a b"><li id="x"/> , <li class="b"/><LI/></ul>` in `<html>`; `LI` is how XML may have it. -/
def listDocument : Document where
  nodes := [
    Node.new .document,
    { Node.new .document with firstChild := some 2, lastChild := some 2 },
    { parent := some 1, nextSibling := none, previousSibling := none, firstChild := some 3, lastChild := some 3,
      data := .element ⟨⟨none, htmlNs, "html"⟩, [], false⟩ },
    { parent := some 2, nextSibling := none, previousSibling := none, firstChild := some 4, lastChild := some 7,
      data := .element ⟨⟨none, htmlNs, "ul"⟩, [⟨⟨none, "", "class"⟩, "a b"⟩], false⟩ },
    { parent := some 3, nextSibling := some 5, previousSibling := none, firstChild := none, lastChild := none,
      data := .element ⟨⟨none, htmlNs, "li"⟩, [⟨⟨none, "", "id"⟩, "x"⟩], false⟩ },
    { parent := some 3, nextSibling := some 6, previousSibling := some 4, firstChild := none, lastChild := none, data := .text "," },
    { parent := some 3, nextSibling := some 7, previousSibling := some 5, firstChild := none, lastChild := none,
      data := .element ⟨⟨none, htmlNs, "li"⟩, [⟨⟨none, "", "class"⟩, "b"⟩], false⟩ },
    { parent := some 3, nextSibling := none, previousSibling := some 6, firstChild := none, lastChild := none,
      data := .element ⟨⟨none, htmlNs, "LI"⟩, [], false⟩ }]
  styleElements := []

/-- Its children, by node. -/
def listChildren : List (List Nat) := [[], [2], [3], [4, 5, 6, 7], [], [], [], []]

theorem listDocument_check : treeCheck listDocument listChildren = true := by decide +kernel

/-- `ul > li` -/
def childSel : Sel := .join (.compound [.atom (.type "ul")]) .child [.atom (.type "li")]

/-- `html #x + li:not(:first-child)` -/
def nextSel : Sel :=
  .join (.join (.compound [.atom (.type "HTML")]) .descendant [.atom (.id "x")]) .nextSibling [.atom (.type "li"), .not [.firstChild]]

/-- `li:nth-child(2n) ~ *` -/
def laterSel : Sel := .join (.compound [.atom (.type "li"), .atom (.nth false false 2 0)]) .laterSibling [.atom .universal]

/-- The theorem applies to these, and they select what one expects: the second `li` is selected through `#x` over the text. -/
theorem selects_example :
    Selects listDocument (forestOf listChildren) true childSel 4 ∧
    Selects listDocument (forestOf listChildren) true nextSel 6 ∧
    ¬ Selects listDocument (forestOf listChildren) true nextSel 4 ∧
    Selects listDocument (forestOf listChildren) true laterSel 7 ∧
    ¬ Selects listDocument (forestOf listChildren) true laterSel 6 := by
  have key : ∀ (s : Sel) (n : Nat) (b : Bool), ¬ Has NoName s → ¬ Has IsClass s → IsElement listDocument n →
      matchesSelector listDocument s n = some b → (b = true ↔ Selects listDocument (forestOf listChildren) true s n) := by
    intro s n b h1 h2 h3 h4
    obtain ⟨r, hr, hr'⟩ := C110_selects_partial (html := true) (represents_of_check listDocument_check)
      (acyclic_of_check listDocument_check) s h1 (fun h => absurd h h2) (.inl rfl) n h3
    rw [h4] at hr; cases hr
    exact hr'
  have c1 : ¬ Has NoName childSel ∧ ¬ Has IsClass childSel := by
    simp [Has, childSel, Css.Simple.Has, NoName, IsClass]
  have c2 : ¬ Has NoName nextSel ∧ ¬ Has IsClass nextSel := by
    simp [Has, nextSel, Css.Simple.Has, NoName, IsClass]
  have c3 : ¬ Has NoName laterSel ∧ ¬ Has IsClass laterSel := by
    simp [Has, laterSel, Css.Simple.Has, NoName, IsClass]
  refine ⟨?_, ?_, ?_, ?_, ?_⟩
  · exact (key childSel 4 true c1.1 c1.2 (by decide +kernel) (by decide +kernel)).mp rfl
  · exact (key nextSel 6 true c2.1 c2.2 (by decide +kernel) (by decide +kernel)).mp rfl
  · intro hs
    have := (key nextSel 4 false c2.1 c2.2 (by decide +kernel) (by decide +kernel)).mpr hs
    cases this
  · exact (key laterSel 7 true c3.1 c3.2 (by decide +kernel) (by decide +kernel)).mp rfl
  · intro hs
    have := (key laterSel 6 false c3.1 c3.2 (by decide +kernel) (by decide +kernel)).mpr hs
    cases this

/-- **C110** fails: `.b > li` does not match the child of an element with the classes `a` and `b`. -/
theorem C110_class_violated :
    Selects listDocument (forestOf listChildren) true (.join (.compound [.atom (.cls "b")]) .child [.atom (.type "li")]) 4 ∧
    matchesSelector listDocument (.join (.compound [.atom (.cls "b")]) .child [.atom (.type "li")]) 4 = some false := by
  refine ⟨⟨?_, 3, ⟨by decide +kernel, by decide +kernel⟩, ?_⟩, by decide +kernel⟩
  · intro s hs
    simp only [List.mem_singleton] at hs
    subst hs
    exact ⟨_, ⟨_, rfl, rfl⟩, by decide +kernel⟩
  · intro s hs
    simp only [List.mem_singleton] at hs
    subst hs
    refine ⟨_, "a b", ⟨_, rfl, rfl⟩, ⟨[], _, _, rfl, rfl, rfl, rfl, by simp⟩, by decide, by decide, ['a', ' '], [], by decide, ?_, by simp⟩
    intro c hc
    simp only [List.getLast?_cons_cons, List.getLast?_singleton, Option.some.injEq] at hc
    subst hc
    decide

/-- **C110** fails: in a document that is not HTML, the selector `LI` does not match the element `LI`, in the name space of HTML, and
matches `li`, which it should not. -/
theorem C110_xml_violated :
    Selects listDocument (forestOf listChildren) false (.compound [.atom (.type "LI")]) 7 ∧
    matchesSelector listDocument (.compound [.atom (.type "LI")]) 7 = some false ∧
    ¬ Selects listDocument (forestOf listChildren) false (.compound [.atom (.type "LI")]) 4 ∧
    matchesSelector listDocument (.compound [.atom (.type "LI")]) 4 = some true := by
  refine ⟨?_, by decide +kernel, ?_, by decide +kernel⟩
  · intro s hs
    simp only [List.mem_singleton] at hs
    subst hs
    exact ⟨_, ⟨_, rfl, rfl⟩, by decide +kernel⟩
  · intro hs
    obtain ⟨e, ⟨k, hk, he⟩, hl⟩ := hs _ (List.mem_singleton_self _)
    cases hk
    cases he
    exact absurd hl (by decide +kernel)

end Verif.Style
