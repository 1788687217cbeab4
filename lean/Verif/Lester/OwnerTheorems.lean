/- C91: objects of C libraries are used while they are alive, and released exactly once. -/
import Verif.Lester.Owner
import Mathlib.Tactic.ByContra
import Mathlib.Data.List.Perm.Basic
namespace Verif.Lester

/-- The references in the list are those that are alive, and all was well so far. -/
private structure Owns (log : List Event) (live : List Ref) : Prop where
  well : UsedWell log
  nodup : live.Nodup
  mem : ∀ r, r ∈ live ↔ Given log r ∧ timesTaken log r = 0
  once : ∀ r, timesTaken log r ≤ 1
  given : ∀ r, timesTaken log r ≠ 0 → Given log r

private theorem Owns.perm {log : List Event} {a b : List Ref} (h : Owns log a) (hp : a.Perm b) : Owns log b :=
  ⟨h.well, hp.nodup_iff.1 h.nodup, fun r => by rw [← hp.mem_iff]; exact h.mem r, h.once, h.given⟩

private theorem usedWell_snoc {log : List Event} {e : Event} (h : UsedWell log) (he : ∀ r ∈ e.needs, Given log r ∧ timesTaken log r = 0) :
    UsedWell (log ++ [e]) := by
  intro before x after hx r hr
  rcases List.eq_nil_or_concat after with rfl | ⟨after', y, rfl⟩
  · obtain ⟨h1, h2⟩ := List.append_inj' hx rfl
    subst h1
    simp only [List.cons.injEq, and_true] at h2
    subst h2
    exact he r hr
  · rw [List.concat_eq_append, ← List.cons_append, ← List.append_assoc] at hx
    obtain ⟨h1, -⟩ := List.append_inj' hx rfl
    exact h before x after' h1 r hr

private theorem timesTaken_snoc (log : List Event) (e : Event) (r : Ref) :
    timesTaken (log ++ [e]) r = timesTaken log r + if e.takes = some r then 1 else 0 := by
  unfold timesTaken
  rw [List.filterMap_append, List.count_append]
  congr 1
  rcases h : e.takes with _ | x
  · simp [h]
  · by_cases hx : x = r <;> simp [h, hx]

private theorem given_snoc (log : List Event) (e : Event) (r : Ref) :
    Given (log ++ [e]) r ↔ Given log r ∨ (r.2 = log.length ∧ e.gives = some r.1) := by
  unfold Given
  rcases Nat.lt_trichotomy r.2 log.length with h | h | h
  · rw [List.getElem?_append_left h]
    simp [Nat.ne_of_lt h]
  · rw [h]
    simp
  · have h1 : log[r.2]? = none := List.getElem?_eq_none (by omega)
    have h2 : (log ++ [e])[r.2]? = none := List.getElem?_eq_none (by simp; omega)
    rw [h1, h2]
    simp [Nat.ne_of_gt h]

private theorem given_lt {log : List Event} {r : Ref} (h : Given log r) : r.2 < log.length := by
  obtain ⟨e, he, -⟩ := h
  exact (List.getElem?_eq_some_iff.1 he).1

/-- A call on references that are alive, which takes none back. -/
private theorem Owns.call {log : List Event} {live : List Ref} (h : Owns log live) {e : Event} (hn : ∀ r ∈ e.needs, r ∈ live)
    (ht : e.takes = none) : Owns (log ++ [e]) (live ++ (e.gives.map fun k => (k, log.length)).toList) := by
  have htaken : ∀ r, timesTaken (log ++ [e]) r = timesTaken log r := fun r => by rw [timesTaken_snoc, ht]; simp
  have hlen : ∀ r, timesTaken log r ≠ 0 → r.2 < log.length := fun r hr => given_lt (h.given r hr)
  have hlive : ∀ r ∈ live, r.2 < log.length := fun r hr => given_lt ((h.mem r).1 hr).1
  refine ⟨usedWell_snoc h.well fun r hr => (h.mem r).1 (hn r hr), ?_, fun r => ?_, fun r => by rw [htaken]; exact h.once r,
    fun r hr => ?_⟩
  · rw [List.nodup_append]
    refine ⟨h.nodup, by cases e.gives <;> simp, ?_⟩
    intro a ha b hb heq
    subst heq
    rcases hg : e.gives with _ | k
    · simp [hg] at hb
    · simp [hg] at hb
      have := hlive a ha
      rw [hb] at this
      exact Nat.lt_irrefl _ this
  · rw [List.mem_append, h.mem r, given_snoc, htaken]
    constructor
    · rintro (⟨h1, h2⟩ | h1)
      · exact ⟨.inl h1, h2⟩
      · rcases hg : e.gives with _ | k
        · simp [hg] at h1
        · simp [hg] at h1
          subst h1
          refine ⟨.inr ⟨rfl, rfl⟩, ?_⟩
          by_contra hne
          exact Nat.lt_irrefl _ (hlen _ hne)
    · rintro ⟨h1 | ⟨h1, h2⟩, h3⟩
      · exact .inl ⟨h1, h3⟩
      · right
        rw [h2, ← h1]
        simp
  · rw [htaken] at hr
    exact (given_snoc _ _ _).2 (.inl (h.given r hr))

/-- A call that takes a reference back. -/
private theorem Owns.take {log : List Event} {live : List Ref} {r : Ref} (h : Owns log (r :: live)) {e : Event} (hn : e.needs = [r])
    (ht : e.takes = some r) (hg : e.gives = none) : Owns (log ++ [e]) live := by
  have hr := (h.mem r).1 List.mem_cons_self
  have hgiven : ∀ x, Given (log ++ [e]) x ↔ Given log x := fun x => by rw [given_snoc, hg]; simp
  refine ⟨usedWell_snoc h.well fun x hx => ?_, (List.nodup_cons.1 h.nodup).2, fun x => ?_, fun x => ?_, fun x hx => ?_⟩
  · rw [hn, List.mem_singleton] at hx
    exact hx ▸ hr
  · rw [hgiven, timesTaken_snoc, ht]
    by_cases hx : r = x
    · subst hx
      simp [(List.nodup_cons.1 h.nodup).1]
    · have := h.mem x
      rw [List.mem_cons] at this
      simp only [Option.some.injEq, hx, if_false, Nat.add_zero]
      rw [← this]
      exact ⟨.inr, fun k => k.resolve_left fun k => hx k.symm⟩
  · rw [timesTaken_snoc, ht]
    by_cases hx : r = x
    · subst hx
      simp [hr.2]
    · simpa [hx] using h.once x
  · rw [hgiven]
    rw [timesTaken_snoc, ht] at hx
    by_cases hx' : r = x
    · exact hx' ▸ hr.1
    · exact h.given x (by simpa [hx'] using hx)

/-- The code starts with some references and leaves others, depending on how it ends; those of its caller stay alive. -/
private def Keeps {α : Type} (m : Code α) (mine : List Ref) (post : Outcome α → List Ref) : Prop :=
  ∀ log frame, Owns log (mine ++ frame) → Owns (m log).2 (post (m log).1 ++ frame)

section
variable {A : Nat → Answer} {α β : Type}

private theorem Keeps.bind {m : Code α} {f : α → Code β} {mine : List Ref} {mid : Outcome α → List Ref} {post : Outcome β → List Ref}
    (hm : Keeps m mine mid) (hf : ∀ a, Keeps (f a) (mid (.ok a)) post) (he : ∀ e, mid (.err e) = post (.err e))
    (hp : mid .panic = post .panic) : Keeps (m.bind f) mine post := by
  intro log frame h
  have h1 := hm log frame h
  unfold Code.bind
  rcases hml : m log with ⟨a | e | _, log'⟩
  · rw [hml] at h1
    exact hf a log' frame h1
  · rw [hml] at h1
    simpa only [he] using h1
  · rw [hml] at h1
    simpa only [hp] using h1

private theorem Keeps.pure {a : α} {mine : List Ref} {post : Outcome α → List Ref} (h : post (.ok a) = mine) : Keeps (Code.pure a) mine post :=
  fun _ _ hl => by simpa only [Code.pure, h] using hl
private theorem Keeps.fail {e : LesterError} {mine : List Ref} {post : Outcome α → List Ref} (h : post (.err e) = mine) :
    Keeps (Code.fail e) mine post :=
  fun _ _ hl => by simpa only [Code.fail, h] using hl
private theorem Keeps.panic {mine : List Ref} {post : Outcome α → List Ref} (h : post .panic = mine) : Keeps Code.panic mine post :=
  fun _ _ hl => by simpa only [Code.panic, h] using hl

/-- A call that only looks at references. -/
private theorem keeps_use {c : Ffi} {mine : List Ref} (hn : ∀ a, ∀ r ∈ (Event.mk c a).needs, r ∈ mine)
    (ht : ∀ a, (Event.mk c a).takes = none) (hg : ∀ a, (Event.mk c a).gives = none) : Keeps (ffi A c) mine fun _ => mine := by
  intro log frame h
  have := h.call (e := ⟨c, A log.length⟩) (fun r hr => List.mem_append_left _ (hn _ r hr)) (ht _)
  rw [hg] at this
  simpa [ffi] using this

/-- A call that may give a reference. -/
private theorem keeps_give {c : Ffi} {mine : List Ref} (hn : ∀ a, ∀ r ∈ (Event.mk c a).needs, r ∈ mine)
    (ht : ∀ a, (Event.mk c a).takes = none) :
    Keeps (ffi A c) mine fun
      | .ok (a, p) => ((Event.mk c a).gives.map fun k => (k, p)).toList ++ mine
      | _ => mine := by
  intro log frame h
  have := h.call (e := ⟨c, A log.length⟩) (fun r hr => List.mem_append_left _ (hn _ r hr)) (ht _)
  refine this.perm ?_
  simp only [ffi]
  rw [List.append_assoc, List.append_assoc]
  rw [← List.append_assoc]
  exact List.perm_append_comm

private theorem keeps_take {c : Ffi} {r : Ref} {mine : List Ref} (hn : ∀ a, (Event.mk c a).needs = [r])
    (ht : ∀ a, (Event.mk c a).takes = some r) (hg : ∀ a, (Event.mk c a).gives = none) : Keeps (ffi' A c) (r :: mine) fun _ => mine :=
  fun _ _ h => h.take (hn _) (ht _) (hg _)

private theorem keeps_use' {c : Ffi} {mine : List Ref} (hn : ∀ a, ∀ r ∈ (Event.mk c a).needs, r ∈ mine)
    (ht : ∀ a, (Event.mk c a).takes = none) (hg : ∀ a, (Event.mk c a).gives = none) : Keeps (ffi' A c) mine fun _ => mine :=
  (keeps_use hn ht hg).bind (fun _ => Keeps.pure rfl) (fun _ => rfl) rfl

private theorem Keeps.orDrop {m : Code α} {d : Code Unit} {r : Ref} {mine : List Ref} {post : Outcome α → List Ref} (hd : ∀ mine, Keeps d (r :: mine) fun _ => mine)
    (hm : Keeps m (r :: mine) fun | .ok a => post (.ok a) | .err e => r :: post (.err e) | .panic => r :: post .panic) :
    Keeps (Code.orDrop d m) (r :: mine) post := by
  intro log frame h
  have h1 := hm log frame h
  unfold Code.orDrop
  rcases hml : m log with ⟨a | e | _, log'⟩
  · rw [hml] at h1
    exact h1
  · rw [hml] at h1
    exact hd _ log' frame h1
  · rw [hml] at h1
    exact hd _ log' frame h1

private theorem Keeps.thenDrop {m : Code α} {d : Code Unit} {r : Ref} {mine : List Ref} {post : Outcome α → List Ref} (hd : ∀ mine, Keeps d (r :: mine) fun _ => mine)
    (hm : Keeps m mine fun o => r :: post o) : Keeps (Code.thenDrop d m) mine post := by
  intro log frame h
  have h1 := hm log frame h
  exact hd _ _ frame h1

/-- What stays alive when no reference is returned, except for an error of glib. -/
private def none' (mine : List Ref) : Outcome α → List Ref
  | .err (.glib e) => mine ++ [(.error, e)]
  | _ => mine

/-- What stays alive when a reference of this kind is returned. -/
private def got (kind : Kind) (mine : List Ref) : Outcome Nat → List Ref
  | .ok p => (kind, p) :: mine
  | .err (.glib e) => mine ++ [(.error, e)]
  | _ => mine

/-- What stays alive when there may be a reference. -/
private def gotOption (kind : Kind) (mine : List Ref) : Outcome (Option Nat) → List Ref
  | .ok (some p) => (kind, p) :: mine
  | .err (.glib e) => mine ++ [(.error, e)]
  | _ => mine

/-- A call that only looks at references, and then more code. -/
private theorem Keeps.use {c : Ffi} {f : Answer × Nat → Code β} {mine : List Ref} {post : Outcome β → List Ref}
    (hn : ∀ a, ∀ r ∈ (Event.mk c a).needs, r ∈ mine) (ht : ∀ a, (Event.mk c a).takes = none) (hg : ∀ a, (Event.mk c a).gives = none)
    (hf : ∀ a, Keeps (f a) mine post) : Keeps ((ffi A c).bind f) mine post := by
  intro log frame h
  have := keeps_use (A := A) hn ht hg log frame h
  exact hf _ _ frame this

/-- A call that may give a reference, and then more code. -/
private theorem Keeps.give {c : Ffi} {f : Answer × Nat → Code β} {mine : List Ref} {post : Outcome β → List Ref}
    (hn : ∀ a, ∀ r ∈ (Event.mk c a).needs, r ∈ mine) (ht : ∀ a, (Event.mk c a).takes = none)
    (hf : ∀ a, Keeps (f a) (((Event.mk c a.1).gives.map fun k => (k, a.2)).toList ++ mine) post) : Keeps ((ffi A c).bind f) mine post := by
  intro log frame h
  have := keeps_give (A := A) hn ht log frame h
  exact hf (A log.length, log.length) _ frame this

private theorem Keeps.use' {c : Ffi} {f : Unit → Code β} {mine : List Ref} {post : Outcome β → List Ref}
    (hn : ∀ a, ∀ r ∈ (Event.mk c a).needs, r ∈ mine) (ht : ∀ a, (Event.mk c a).takes = none) (hg : ∀ a, (Event.mk c a).gives = none)
    (hf : Keeps (f ()) mine post) : Keeps ((ffi' A c).bind f) mine post := by
  intro log frame h
  have := keeps_use' (A := A) hn ht hg log frame h
  exact hf _ frame this

private theorem keeps_dropRef (r : Ref) (mine : List Ref) : Keeps (dropRef A r) (r :: mine) fun _ => mine := by
  obtain ⟨k, p⟩ := r
  cases k <;> exact keeps_take (fun _ => rfl) (fun _ => rfl) (fun _ => rfl)

private theorem keeps_check (n : Nat) (mine : List Ref) : Keeps (cairoCheck n) mine (none' mine) := by
  unfold cairoCheck
  split
  · exact .pure rfl
  · exact .fail rfl

private theorem keeps_surfaceCheck {s : Nat} {mine : List Ref} (h : (.surface, s) ∈ mine) : Keeps (surfaceCheck A s) mine (none' mine) :=
  .use (by simp [Event.needs, h]) (fun _ => rfl) (fun _ => rfl) fun _ => keeps_check _ _
private theorem keeps_contextCheck {c : Nat} {mine : List Ref} (h : (.context, c) ∈ mine) : Keeps (contextCheck A c) mine (none' mine) :=
  .use (by simp [Event.needs, h]) (fun _ => rfl) (fun _ => rfl) fun _ => keeps_check _ _

private theorem keeps_newCInt (format : Nat) (w h : Int) (mine : List Ref) : Keeps (ownedNewCInt A format w h) mine (got .surface mine) := by
  refine .give (by simp [Event.needs]) (fun _ => rfl) fun a => ?_
  refine Keeps.orDrop (r := (.surface, a.2)) (fun mine => keeps_dropRef (.surface, a.2) mine) ?_
  exact (keeps_surfaceCheck List.mem_cons_self).bind (fun _ => .pure rfl) (fun e => by cases e <;> rfl) rfl

private theorem keeps_new (format w h : Nat) (mine : List Ref) : Keeps (ownedNew A format w h) mine (got .surface mine) := by
  unfold ownedNew
  split
  · exact keeps_newCInt _ _ _ _
  · exact .panic rfl

private theorem keeps_context {s : Nat} {mine : List Ref} (h : (.surface, s) ∈ mine) : Keeps (ownedContext A s) mine (got .context mine) := by
  refine .give (by simp [Event.needs, h]) (fun _ => rfl) fun a => ?_
  refine Keeps.orDrop (r := (.context, a.2)) (fun mine => keeps_dropRef (.context, a.2) mine) ?_
  exact (keeps_contextCheck List.mem_cons_self).bind (fun _ => .pure rfl) (fun e => by cases e <;> rfl) rfl

private theorem keeps_stream (stream : StreamEnd) (mine : List Ref) : Keeps (streamCheck stream) mine (none' mine) := by
  cases stream
  · exact .panic rfl
  · exact .fail rfl
  · exact .pure rfl

private theorem keeps_readPng (stream : StreamEnd) (mine : List Ref) : Keeps (ownedReadFromPng A stream) mine (got .surface mine) := by
  refine .give (by simp [Event.needs]) (fun _ => rfl) fun a => ?_
  refine Keeps.orDrop (r := (.surface, a.2)) (fun mine => keeps_dropRef (.surface, a.2) mine) ?_
  refine (keeps_stream stream _).bind (fun _ => ?_) (fun e => by cases e <;> rfl) rfl
  exact (keeps_surfaceCheck List.mem_cons_self).bind (fun _ => .pure rfl) (fun e => by cases e <;> rfl) rfl

private theorem keeps_writePng {s : Nat} (stream : StreamEnd) {mine : List Ref} (h : (.surface, s) ∈ mine) :
    Keeps (ownedWriteToPng A s stream) mine (none' mine) := by
  refine .use (by simp [Event.needs, h]) (fun _ => rfl) (fun _ => rfl) fun a => ?_
  exact (keeps_stream stream _).bind (fun _ => keeps_check _ _) (fun e => by cases e <;> rfl) rfl

private theorem keeps_pixels (checks : Bool) {s : Nat} {mine : List Ref} (h : (.surface, s) ∈ mine) :
    Keeps (ownedPixels A checks s) mine (none' mine) := by
  unfold ownedPixels
  refine .use (by simp [Event.needs, h]) (fun _ => rfl) (fun _ => rfl) fun _ => ?_
  refine .use (by simp [Event.needs, h]) (fun _ => rfl) (fun _ => rfl) fun _ => ?_
  refine .use (by simp [Event.needs, h]) (fun _ => rfl) (fun _ => rfl) fun _ => ?_
  refine .use (by simp [Event.needs, h]) (fun _ => rfl) (fun _ => rfl) fun _ => ?_
  refine .use (by simp [Event.needs, h]) (fun _ => rfl) (fun _ => rfl) fun _ => ?_
  refine .use (by simp [Event.needs, h]) (fun _ => rfl) (fun _ => rfl) fun _ => ?_
  split
  · exact .pure rfl
  · exact .panic rfl

/-- The program continues with what a function left alive, in any order. -/
private theorem Keeps.perm {m : Code α} {mine : List Ref} {post post' : Outcome α → List Ref} (h : Keeps m mine post)
    (hp : ∀ o, (post o).Perm (post' o)) : Keeps m mine post' :=
  fun log frame hl => (h log frame hl).perm ((hp _).append_right frame)

private theorem keeps_fromBytes (length : Nat) (mine : List Ref) : Keeps (ownedFromBytes A length) mine (got .document mine) := by
  unfold ownedFromBytes
  split
  · exact .panic rfl
  · refine .give (by simp [Event.needs]) (fun _ => rfl) fun a => ?_
    obtain ⟨⟨null, status, number, width, height⟩, p⟩ := a
    cases null
    · exact .pure rfl
    · refine Keeps.perm (post := fun | .ok p => (.document, p) :: mine | .err (.glib e) => (.error, e) :: mine | _ => mine) (.fail rfl) ?_
      intro o
      rcases o with _ | (_ | _ | _) | _
      · exact .refl _
      · exact .refl _
      · exact .refl _
      · exact List.perm_append_comm (l₁ := [_])
      · exact .refl _

private theorem keeps_pages {d : Nat} {mine : List Ref} (h : (.document, d) ∈ mine) : Keeps (ownedPages A d) mine (none' mine) :=
  .use (by simp [Event.needs, h]) (fun _ => rfl) (fun _ => rfl) fun _ => .pure rfl

private theorem keeps_getPage {d : Nat} (index : Int) {mine : List Ref} (h : (.document, d) ∈ mine) :
    Keeps (ownedGetPage A d index) mine (got .page mine) := by
  refine .give (by simp [Event.needs, h]) (fun _ => rfl) fun a => ?_
  obtain ⟨⟨null, status, number, width, height⟩, p⟩ := a
  cases null
  · exact .pure rfl
  · exact .panic rfl

private theorem keeps_producer {d : Nat} {mine : List Ref} (h : (.document, d) ∈ mine) :
    Keeps (ownedProducer A d) mine (gotOption .string mine) := by
  refine .give (by simp [Event.needs, h]) (fun _ => rfl) fun a => ?_
  obtain ⟨⟨null, status, number, width, height⟩, p⟩ := a
  cases null
  · exact .pure rfl
  · exact .pure rfl

private theorem keeps_size {p : Nat} {mine : List Ref} (h : (.page, p) ∈ mine) : Keeps (ownedSize A p) mine (none' mine) :=
  .use (by simp [Event.needs, h]) (fun _ => rfl) (fun _ => rfl) fun _ => .pure rfl

private theorem keeps_text {p : Nat} {mine : List Ref} (h : (.page, p) ∈ mine) : Keeps (ownedText A p) mine (got .string mine) := by
  refine .give (by simp [Event.needs, h]) (fun _ => rfl) fun a => ?_
  obtain ⟨⟨null, status, number, width, height⟩, p⟩ := a
  cases null
  · exact .pure rfl
  · exact .panic rfl

private theorem keeps_render (ar : F64Arith) {p : Nat} (o : RenderOptions) {mine : List Ref} (h : (.page, p) ∈ mine) :
    Keeps (ownedRender A ar p o) mine (got .surface mine) := by
  unfold ownedRender
  refine (keeps_size h).bind (fun size => ?_) (fun e => by cases e <;> rfl) rfl
  show Keeps _ mine _
  simp only
  split
  · refine (keeps_newCInt _ _ _ _).bind (fun s => ?_) (fun e => by cases e <;> rfl) rfl
    refine Keeps.orDrop (r := (.surface, s)) (fun mine => keeps_dropRef (.surface, s) mine) ?_
    refine (keeps_context List.mem_cons_self).bind (fun c => ?_) (fun e => by cases e <;> rfl) rfl
    refine Keeps.thenDrop (r := (.context, c)) (fun mine => keeps_dropRef (.context, c) mine) ?_
    have hp : (Kind.page, p) ∈ (Kind.context, c) :: (Kind.surface, s) :: mine := by simp [h]
    have hc : (Kind.context, c) ∈ (Kind.context, c) :: (Kind.surface, s) :: mine := by simp
    refine Keeps.bind (mid := none' ((.context, c) :: (.surface, s) :: mine)) ?_ (fun _ => ?_) (fun e => by cases e <;> rfl) rfl
    · split
      · exact .use' (by simp [Event.needs, got]) (fun _ => rfl) (fun _ => rfl) (.use (by simp [Event.needs, got]) (fun _ => rfl) (fun _ => rfl) fun _ => .pure rfl)
      · exact .pure rfl
    refine .use' (by simp [Event.needs, none']) (fun _ => rfl) (fun _ => rfl) ?_
    refine Keeps.bind (mid := none' ((.context, c) :: (.surface, s) :: mine)) ?_ (fun _ => ?_) (fun e => by cases e <;> rfl) rfl
    · split
      · exact .use (by simp [Event.needs, none', h]) (fun _ => rfl) (fun _ => rfl) fun _ => .pure rfl
      · exact .use (by simp [Event.needs, none', h]) (fun _ => rfl) (fun _ => rfl) fun _ => .pure rfl
    exact (keeps_contextCheck hc).bind (fun _ => .pure rfl) (fun e => by cases e <;> rfl) rfl
  · exact .panic rfl

private theorem keeps_toStr {s : Nat} {mine : List Ref} (h : (.string, s) ∈ mine) : Keeps (ownedToStr A s) mine (none' mine) :=
  .use (by simp [Event.needs, h]) (fun _ => rfl) (fun _ => rfl) fun _ => .pure rfl
private theorem keeps_description {e : Nat} {mine : List Ref} (h : (.error, e) ∈ mine) : Keeps (ownedDescription A e) mine (none' mine) :=
  .use (by simp [Event.needs, h]) (fun _ => rfl) (fun _ => rfl) fun _ => .pure rfl

end

private theorem Owns.get {st : Program} {kind : Kind} {m : Code Nat} (h : Owns st.log st.values) (hm : Keeps m st.values (got kind st.values)) :
    Owns (st.get kind m).log (st.get kind m).values := by
  have := hm st.log [] (by simpa using h)
  unfold Program.get
  rcases hml : m st.log with ⟨p | (_ | _ | e) | _, log⟩ <;> rw [hml] at this <;> simp only [got, List.append_nil] at this
  · exact this.perm (List.perm_append_comm (l₁ := [_]))
  all_goals exact this

private theorem Owns.getOption {st : Program} {kind : Kind} {m : Code (Option Nat)} (h : Owns st.log st.values)
    (hm : Keeps m st.values (gotOption kind st.values)) : Owns (st.getOption kind m).log (st.getOption kind m).values := by
  have := hm st.log [] (by simpa using h)
  unfold Program.getOption
  rcases hml : m st.log with ⟨(_ | p) | (_ | _ | e) | _, log⟩ <;> rw [hml] at this <;> simp only [gotOption, List.append_nil] at this
  · exact this
  · exact this.perm (List.perm_append_comm (l₁ := [_]))
  all_goals exact this

private theorem Owns.look {α : Type} {st : Program} {m : Code α} (h : Owns st.log st.values) (hm : Keeps m st.values (none' st.values)) :
    Owns (st.look m).log (st.look m).values := by
  have := hm st.log [] (by simpa using h)
  unfold Program.look
  rcases hml : m st.log with ⟨p | (_ | _ | e) | _, log⟩ <;> rw [hml] at this <;> simp only [none', List.append_nil] at this <;> exact this

variable (A : Nat → Answer) (ar : F64Arith)

private theorem Owns.step {st : Program} (h : Owns st.log st.values) (op : Op) : Owns (st.step A ar op).log (st.step A ar op).values := by
  have hmem : ∀ {i : Nat} {r : Ref}, st.values[i]? = some r → r ∈ st.values := fun h => List.mem_of_getElem? h
  cases op with
  | new format w x => exact h.get (keeps_new _ _ _ _)
  | readPng stream => exact h.get (keeps_readPng _ _)
  | writePng i stream => simp only [Program.step]; split <;> first | exact h | exact h.look (keeps_writePng _ (hmem ‹_›))
  | pixels i checks => simp only [Program.step]; split <;> first | exact h | exact h.look (keeps_pixels _ (hmem ‹_›))
  | fromBytes n => exact h.get (keeps_fromBytes _ _)
  | pages i => simp only [Program.step]; split <;> first | exact h | exact h.look (keeps_pages (hmem ‹_›))
  | getPage i index => simp only [Program.step]; split <;> first | exact h | exact h.get (keeps_getPage _ (hmem ‹_›))
  | producer i => simp only [Program.step]; split <;> first | exact h | exact h.getOption (keeps_producer (hmem ‹_›))
  | size i => simp only [Program.step]; split <;> first | exact h | exact h.look (keeps_size (hmem ‹_›))
  | render i o => simp only [Program.step]; split <;> first | exact h | exact h.get (keeps_render _ _ (hmem ‹_›))
  | text i => simp only [Program.step]; split <;> first | exact h | exact h.get (keeps_text (hmem ‹_›))
  | toStr i => simp only [Program.step]; split <;> first | exact h | exact h.look (keeps_toStr (hmem ‹_›))
  | description i => simp only [Program.step]; split <;> first | exact h | exact h.look (keeps_description (hmem ‹_›))
  | drop i =>
    simp only [Program.step]
    split
    · rename_i r hr
      have hlt := (List.getElem?_eq_some_iff.1 hr).1
      have hrr := (List.getElem?_eq_some_iff.1 hr).2
      have hp : st.values.Perm (r :: st.values.eraseIdx i) := by
        rw [← hrr]
        exact (List.getElem_cons_eraseIdx_perm hlt).symm
      have := keeps_dropRef (A := A) r (st.values.eraseIdx i) st.log [] (by simpa using h.perm hp)
      simpa using this
    · exact h

private theorem owns_start : Owns [] [] := by
  refine ⟨?_, List.nodup_nil, fun r => ?_, fun r => by simp [timesTaken], fun r hr => absurd rfl hr⟩
  · intro before e after h
    simp at h
  · simp [Given]

private theorem owns_run (ops : List Op) : ∀ st : Program, Owns st.log st.values →
    Owns (ops.foldl (Program.step A ar) st).log (ops.foldl (Program.step A ar) st).values := by
  induction ops with
  | nil => exact fun _ h => h
  | cons op ops ih => exact fun st h => ih _ (h.step A ar op)

private theorem owns_dropAll : ∀ (values : List Ref) (log : List Event), Owns log values →
    Owns (values.foldl (fun log r => (dropRef A r log).2) log) []
  | [], _, h => h
  | r :: values, log, h => owns_dropAll values _ (by simpa using keeps_dropRef (A := A) r values log [] (by simpa using h))

/-- **C91**, use: whatever a program does with lester, and however cairo, poppler and streams answer, C functions are only called with objects that
are alive: given by a C function before, as an object of that kind, and not released since. -/
theorem C91_alive (ops : List Op) : UsedWell (Program.run A ar ops).log ∧ UsedWell (Program.dropAll A (Program.run A ar ops)) :=
  ⟨(owns_run A ar ops ⟨[], []⟩ owns_start).well, (owns_dropAll A _ _ (owns_run A ar ops ⟨[], []⟩ owns_start)).well⟩

/-- **C91**, release: when the values of a program are gone, each object that a C function gave to lester, also in functions that failed or panicked,
was released exactly once. Before that, the objects that were not released are those of the values of the program, each of one. -/
theorem C91_released (ops : List Op) :
    (∀ r, Given (Program.dropAll A (Program.run A ar ops)) r → timesTaken (Program.dropAll A (Program.run A ar ops)) r = 1) ∧
    (Program.run A ar ops).values.Nodup ∧
    ∀ r, r ∈ (Program.run A ar ops).values ↔ Given (Program.run A ar ops).log r ∧ timesTaken (Program.run A ar ops).log r = 0 := by
  have h := owns_run A ar ops ⟨[], []⟩ owns_start
  have hd := owns_dropAll A _ _ h
  refine ⟨fun r hr => ?_, h.nodup, h.mem⟩
  have h1 := hd.once r
  have h2 := (hd.mem r).2.mt (by simp)
  have h3 : ¬timesTaken (Program.dropAll A (Program.run A ar ops)) r = 0 := fun h0 => h2 ⟨hr, h0⟩
  have h4 : timesTaken (Program.dropAll A (Program.run A ar ops)) r ≤ 1 := h1
  omega

/-- The answers of an example: the call number 13 fails. -/
def ownerAnswers (n : Nat) : Answer := ⟨false, if n = 13 then 1 else 0, 1, .fin 72, .fin 72⟩

/-- Exact arithmetic. -/
def ownerArith : F64Arith := ⟨fun | .fin a, .fin b => .fin (a * b) | _, _ => .nan, .fin (96 / 72)⟩

/-- A program that opens a document, takes its first page, drops the document, and renders the page: the status of the context after rendering is
an error. The page, the surface and the context are released. -/
theorem C91_example :
    (Program.run ownerAnswers ownerArith
      [.fromBytes 100, .pages 0, .getPage 0 0, .drop 0, .render 0 ⟨.fin 1, .fin 1, true, false⟩]).values = [(.page, 2)] ∧
    ((Program.dropAll ownerAnswers (Program.run ownerAnswers ownerArith
      [.fromBytes 100, .pages 0, .getPage 0 0, .drop 0, .render 0 ⟨.fin 1, .fin 1, true, false⟩])).filterMap Event.takes) =
      [(.document, 0), (.context, 7), (.surface, 5), (.page, 2)] := by
  constructor <;> decide +kernel

end Verif.Lester
