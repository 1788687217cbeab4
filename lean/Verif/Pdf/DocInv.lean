import Verif.Pdf.ContentLemmas
import Verif.Pdf.FileTheorems
/- Helper lemmas for C13 to C18: what holds of a document after every history of calls. -/
namespace Verif.Pdf

section
variable {R E : Type} {readReal : List Byte → Option R} {F : Floats R}

/-! ### Lists -/

theorem AllMatch.append {A B : Type} {r : A → B → Prop} : ∀ {l1 : List A} {l1' : List B} {l2 : List A} {l2' : List B},
    AllMatch r l1 l1' → AllMatch r l2 l2' → AllMatch r (l1 ++ l2) (l1' ++ l2')
  | [], [], _, _, _, h2 => h2
  | _ :: _, _ :: _, _, _, h1, h2 => ⟨h1.1, h1.2.append h2⟩
  | [], _ :: _, _, _, h1, _ => h1.elim
  | _ :: _, [], _, _, h1, _ => h1.elim

theorem AllMatch.mono {A B : Type} {r r' : A → B → Prop} (h : ∀ a b, r a b → r' a b) : ∀ {l : List A} {l' : List B},
    AllMatch r l l' → AllMatch r' l l'
  | [], [], _ => trivial
  | _ :: _, _ :: _, h1 => ⟨h _ _ h1.1, h1.2.mono h⟩
  | [], _ :: _, h1 => h1.elim
  | _ :: _, [], h1 => h1.elim

/-- Elements named `c` and their position. -/
def names {A : Type} (c : Byte) : Nat → List A → List (List Byte × A)
  | _, [] => []
  | n, a :: l => (c :: decimal n, a) :: names c (n + 1) l

theorem names_append {A : Type} (c : Byte) (n : Nat) (l l' : List A) :
    names c n (l ++ l') = names c n l ++ names c (n + l.length) l' := by
  induction l generalizing n with
  | nil => rfl
  | cons a l ih =>
    simp only [List.cons_append, names, ih, List.length_cons]
    rw [show n + 1 + l.length = n + (l.length + 1) by omega]

theorem names_length {A : Type} (c : Byte) (n : Nat) (l : List A) : (names c n l).length = l.length := by
  induction l generalizing n with
  | nil => rfl
  | cons a l ih => simp only [names, List.length_cons, ih]

theorem mem_names {A : Type} {c : Byte} {n : Nat} {l : List A} {k : List Byte} {a : A} :
    (k, a) ∈ names c n l ↔ ∃ i, l[i]? = some a ∧ k = c :: decimal (n + i) := by
  induction l generalizing n with
  | nil => simp [names]
  | cons b l ih =>
    simp only [names, List.mem_cons, Prod.mk.injEq, ih]
    constructor
    · rintro (⟨rfl, rfl⟩ | ⟨i, h1, h2⟩)
      · exact ⟨0, rfl, rfl⟩
      · exact ⟨i + 1, h1, by rw [h2, show n + (i + 1) = n + 1 + i by omega]⟩
    · rintro ⟨i, h1, h2⟩
      cases i with
      | zero => simp only [List.getElem?_cons_zero, Option.some.injEq] at h1; exact .inl ⟨h2, h1.symm⟩
      | succ i => exact .inr ⟨i, h1, by rw [h2, show n + (i + 1) = n + 1 + i by omega]⟩

theorem name_inj {c : Byte} {n m : Nat} (h : c :: decimal n = c :: decimal m) : n = m := by
  simp only [List.cons.injEq, true_and] at h
  have := congrArg (digitsValue 0) h
  rw [digitsValue_decimal, digitsValue_decimal] at this
  exact Option.some.inj this

theorem names_nodup {A : Type} (c : Byte) (n : Nat) (l : List A) : ((names c n l).map (·.1)).Nodup := by
  induction l generalizing n with
  | nil => exact List.nodup_nil
  | cons a l ih =>
    simp only [names, List.map_cons, List.nodup_cons]
    refine ⟨?_, ih _⟩
    simp only [List.mem_map, Prod.exists, exists_and_right, exists_eq_right]
    rintro ⟨b, hb⟩
    obtain ⟨i, _, h2⟩ := mem_names.1 hb
    have := name_inj h2
    omega

theorem names_map_snd {A B : Type} (f : A → B) (c : Byte) (n : Nat) (l : List A) :
    (names c n l).map (fun e => f e.2) = l.map f := by
  induction l generalizing n with
  | nil => rfl
  | cons a l ih => simp only [names, List.map_cons, ih]

theorem assocGet_none {l : List (Nat × List Byte)} {k : Nat} (h : assocGet l k = none) : k ∉ l.map (·.1) := by
  induction l with
  | nil => simp
  | cons e l ih =>
    simp only [assocGet] at h
    split at h
    · cases h
    · next hk =>
      simp only [List.map_cons, List.mem_cons, not_or]
      exact ⟨fun h => hk h.symm, ih h⟩

theorem assocGet_mem {l : List (Nat × List Byte)} {k : Nat} {n : List Byte} (h : assocGet l k = some n) : (k, n) ∈ l := by
  induction l with
  | nil => cases h
  | cons e l ih =>
    simp only [assocGet] at h
    split at h
    · next hk => cases h; subst hk; exact List.mem_cons_self
    · exact List.mem_cons_of_mem _ (ih h)

/-! ### Bodies -/

/-- The contents of an indirect object, before they are written. -/
inductive Body (R : Type) where
  | dict (d : Dictionary R)
  | stream (d : Dictionary R) (contents : List Byte)

def Body.bytes (F : Floats R) : Body R → List Byte
  | .dict d => d.write F.dtoa
  | .stream d c => streamBytes F.dtoa d c

def Body.Plain : Body R → Prop
  | .dict d => d.Plain
  | .stream d _ => d.Plain ∧ ∀ e ∈ d.values, e.1 ≠ ascii "Length"

/-- The entries of the dictionary a reader finds. -/
def Body.entries : Body R → List (List Byte × Val R)
  | .dict d => d.values
  | .stream d c => d.values ++ [(ascii "Length", .int c.length)]

/-- All references are to objects with numbers below `n`. -/
def Body.RefsBelow (n : Nat) (b : Body R) : Prop := ∀ id gen, (Val.dict b.entries).HasRef id gen → 1 ≤ id ∧ id < n ∧ gen = 0

theorem Body.RefsBelow.mono {n m : Nat} {b : Body R} (h : b.RefsBelow n) (hn : n ≤ m) : b.RefsBelow m := by
  intro id gen hr
  obtain ⟨h1, h2, h3⟩ := h id gen hr
  exact ⟨h1, by omega, h3⟩

theorem hasRef_dict_nil (id gen : Nat) : ¬ (Val.dict [] : Val R).HasRef id gen := by
  intro h; cases h with | dict h _ => cases h

theorem hasRef_dict_cons (id gen : Nat) (k : List Byte) (v : Val R) (l : List (List Byte × Val R)) :
    (Val.dict ((k, v) :: l)).HasRef id gen ↔ v.HasRef id gen ∨ (Val.dict l).HasRef id gen := by
  constructor
  · intro h
    cases h with
    | dict h h' =>
      rcases List.mem_cons.1 h with h | h
      · cases h; exact .inl h'
      · exact .inr (.dict h h')
  · rintro (h | h)
    · exact .dict List.mem_cons_self h
    · cases h with
      | dict h h' => exact .dict (List.mem_cons_of_mem _ h) h'

theorem hasRef_array_nil (id gen : Nat) : ¬ (Val.array [] : Val R).HasRef id gen := by
  intro h; cases h with | array h _ => cases h

theorem hasRef_array_cons (id gen : Nat) (v : Val R) (l : List (Val R)) :
    (Val.array (v :: l)).HasRef id gen ↔ v.HasRef id gen ∨ (Val.array l).HasRef id gen := by
  constructor
  · intro h
    cases h with
    | array h h' =>
      rcases List.mem_cons.1 h with h | h
      · cases h; exact .inl h'
      · exact .inr (.array h h')
  · rintro (h | h)
    · exact .array List.mem_cons_self h
    · cases h with
      | array h h' => exact .array (List.mem_cons_of_mem _ h) h'

theorem hasRef_ref (id gen a b : Nat) : (Val.ref a b : Val R).HasRef id gen ↔ a = id ∧ b = gen := by
  constructor
  · intro h; cases h; exact ⟨rfl, rfl⟩
  · rintro ⟨rfl, rfl⟩; exact .here

theorem hasRef_int (id gen : Nat) (i : Int) : ¬ (Val.int i : Val R).HasRef id gen := by intro h; cases h
theorem hasRef_real (id gen : Nat) (i : R) : ¬ (Val.real i : Val R).HasRef id gen := by intro h; cases h
theorem hasRef_name (id gen : Nat) (i : List Byte) : ¬ (Val.name i : Val R).HasRef id gen := by intro h; cases h
theorem hasRef_str (id gen : Nat) (i : List Byte) : ¬ (Val.str i : Val R).HasRef id gen := by intro h; cases h

theorem values_items (l : List (Object R)) : (Items.ofList l).values = l.map Object.value := by
  induction l with
  | nil => rfl
  | cons o l ih => simp only [Items.ofList, Items.values, ih, List.map_cons]

theorem values_pairs (l : List (List Byte × Object R)) : (Pairs.ofList l).values = l.map fun e => (e.1, e.2.value) := by
  induction l with
  | nil => rfl
  | cons o l ih => obtain ⟨k, v⟩ := o; simp only [Pairs.ofList, Pairs.values, ih, List.map_cons]

theorem plain_items {l : List (Object R)} : (Items.ofList l).Plain ↔ ∀ o ∈ l, o.Plain := by
  induction l with
  | nil => simp [Items.ofList, Items.Plain]
  | cons o l ih => simp [Items.ofList, Items.Plain, ih]

theorem plain_pairs {l : List (List Byte × Object R)} : (Pairs.ofList l).Plain ↔ ∀ e ∈ l, 35 ∉ e.1 ∧ e.2.Plain := by
  induction l with
  | nil => simp [Pairs.ofList, Pairs.Plain]
  | cons o l ih => obtain ⟨k, v⟩ := o; simp [Pairs.ofList, Pairs.Plain, ih, and_assoc]

/-! ### The invariant -/

/-- The resource name `n` stands for font `f`: it is the name of a font table entry for it. -/
def FontNamed (fonts : List (Nat × Nat)) (f : Nat) (n : List Byte) : Prop :=
  ∃ id, (n, (f, id)) ∈ names 102 0 fonts

/-- The graphics state resources are as in the table of opacities. -/
def GsOk (alphas : List R) (gs : List Byte → Option R) : Prop := ∀ k a, (k, a) ∈ names 97 0 alphas → gs k = some a

/-- The dictionary of a page. -/
def pageDict (F : Floats R) (width height : R) (contentId : Nat) : Dictionary R := .root (.ofList [
    (ascii "Type", .name (ascii "Page")),
    (ascii "Parent", .ref pageTreeId),
    (ascii "Contents", .ref contentId),
    (ascii "MediaBox", .array (.ofList [.i32 0, .i32 0, .float (F.mul width F.scaleX),
      .float (F.mul height F.scaleY)]))])

/-- The font is embedded as object `4 + k`. -/
def FontEmbedded (bodies : List (Body R)) (v : FontView E) (id : Nat) : Prop :=
  ∃ k kt ku kd, id = 4 + k ∧
    bodies[kt]? = some (.stream (.root (.ofList [(ascii "Length1", .usize v.bytes.length)])) v.bytes) ∧
    bodies[kd]? = some (.dict (fontDescriptor v (4 + kt))) ∧
    bodies[ku]? = some (.stream (.root .nil) (toUnicodeCMap v.codePoints)) ∧
    ∃ widths, glyphWidths v.glyphWidth 0 v.glyphCount = .ok widths ∧
      bodies[k]? = some (.dict (fontDict v (4 + ku) (4 + kd) widths))

/-- What a content stream draws. -/
structure Draws (F : Floats R) (alphas : List R) (fonts : List (Nat × Nat)) (operations : List Byte) (rgb : R × R × R)
    (alphaKey : Nat) (color : Requested R) (ev : List (Expected R)) (ops : COps R) (s : GState R)
    (painted : List (Painted R)) : Prop where
  bytes : operations = opsBytes F ops
  plain : OpsPlain ops
  exec : ∀ gs, GsOk alphas gs → execOps gs (.initial F.zero F.one) (opsValues ops) = some (s, painted)
  cm : s.cm = [pageMatrix F]
  rgb_eq : s.rgb = rgb
  key_eq : F.key s.alpha = alphaKey
  path : s.path = []
  text : s.text = none
  color_ok : ColorOk F s.rgb s.alpha color
  all : AllMatch (Matches F (FontNamed fonts)) painted ev

theorem FontNamed.mono {fonts : List (Nat × Nat)} {f : Nat} {n : List Byte} (h : FontNamed fonts f n) (l : List (Nat × Nat)) :
    FontNamed (fonts ++ l) f n := by
  obtain ⟨id, h⟩ := h
  exact ⟨id, by rw [names_append]; exact List.mem_append_left _ h⟩

theorem GsOk.left {alphas l : List R} {gs : List Byte → Option R} (h : GsOk (alphas ++ l) gs) : GsOk alphas gs := by
  intro k a hk
  exact h k a (by rw [names_append]; exact List.mem_append_left _ hk)

theorem Matches.mono {p q : Nat → List Byte → Prop} (h : ∀ f n, p f n → q f n) : ∀ {a : Painted R} {b : Expected R},
    Matches F p a b → Matches F q a b
  | .fill .., .rect .., hm => hm
  | .show .., .text .., hm => ⟨hm.1, h _ _ hm.2.1, hm.2.2⟩
  | .fill .., .text .., hm => hm.elim
  | .show .., .rect .., hm => hm.elim

theorem Draws.mono {alphas : List R} {fonts : List (Nat × Nat)} {operations : List Byte} {rgb : R × R × R}
    {k : Nat} {color : Requested R} {ev : List (Expected R)} {ops : COps R} {s : GState R} {painted : List (Painted R)}
    (h : Draws F alphas fonts operations rgb k color ev ops s painted) (l : List R) (l' : List (Nat × Nat)) :
    Draws F (alphas ++ l) (fonts ++ l') operations rgb k color ev ops s painted :=
  { h with
    exec := fun gs hg => h.exec gs hg.left
    all := h.all.mono fun _ _ hm => hm.mono fun _ _ hn => hn.mono l' }

/-- One more operation that paints nothing, or something that matches. -/
theorem Draws.step {alphas : List R} {fonts : List (Nat × Nat)} {operations : List Byte} {rgb rgb' : R × R × R}
    {k k' : Nat} {color color' : Requested R} {ev ev' : List (Expected R)} {ops : COps R} {s : GState R}
    {painted : List (Painted R)} (h : Draws F alphas fonts operations rgb k color ev ops s painted)
    (ops' : COps R) (s' : GState R) (painted' : List (Painted R)) (hp : OpsPlain ops')
    (he : ∀ gs, GsOk alphas gs → execOps gs s (opsValues ops') = some (s', painted'))
    (hcm : s'.cm = s.cm) (hrgb : s'.rgb = rgb') (hk : F.key s'.alpha = k') (hpath : s'.path = []) (ht : s'.text = none)
    (hc : ColorOk F s'.rgb s'.alpha color') (ha : AllMatch (Matches F (FontNamed fonts)) painted' ev') :
    Draws F alphas fonts (operations ++ opsBytes F ops') rgb' k' color' (ev ++ ev') (ops ++ ops') s' (painted ++ painted') where
  bytes := by rw [opsBytes_append, h.bytes]
  plain := by
    intro o ho
    rcases List.mem_append.1 ho with ho | ho
    · exact h.plain o ho
    · exact hp o ho
  exec := by
    intro gs hg
    rw [opsValues_append, execOps_append, h.exec gs hg]
    simp only [he gs hg]
  cm := hcm.trans h.cm
  rgb_eq := hrgb
  key_eq := hk
  path := hpath
  text := ht
  color_ok := hc
  all := h.all.append ha

/-- A finished page: object `id` is its dictionary, whose contents draw what was expected. -/
def PageDone (F : Floats R) (font : Nat → FontView E) (bodies : List (Body R)) (alphas : List R) (fonts : List (Nat × Nat))
    (id : Nat) (c : PageCalls R) : Prop :=
  ∃ k kc contents, id = 4 + k ∧ bodies[k]? = some (.dict (pageDict F c.width c.height (4 + kc))) ∧
    bodies[kc]? = some (.stream (.root .nil) contents) ∧
    ∃ rgb ak color ops s painted, Draws F alphas fonts contents rgb ak color (expected font none c.ops) ops s painted

/-- What holds of a document. -/
structure DocInv (F : Floats R) (font : Nat → FontView E) (d : Doc R) (bodies : List (Body R)) (alphas : List R)
    (fonts : List (Nat × Nat)) (pageIds : List Nat) (pages : List (PageCalls R)) : Prop where
  objects : d.pdf.objects = bodies.map (Body.bytes F)
  nextId : d.pdf.nextId = 4 + bodies.length
  plain : ∀ b ∈ bodies, b.Plain
  refs : ∀ b ∈ bodies, b.RefsBelow (4 + bodies.length)
  alphaStates : d.alphaStates = (names 97 0 alphas).map fun e => (F.key e.2, e.1)
  ext : d.extendedGraphicsStates = (names 97 0 alphas).map fun e => (e.1, .alpha e.2)
  alphaKeys : (alphas.map F.key).Nodup
  clamped : ∀ a ∈ alphas, ∃ r, a = F.clampUnit r
  fonts_eq : d.fonts = (names 102 0 fonts).map fun e => (e.2.1, e.1)
  fontResources : d.fontResources = (names 102 0 fonts).map fun e => (e.1, .ref e.2.2)
  fontAddrs : (fonts.map (·.1)).Nodup
  embedded : ∀ f ∈ fonts, FontEmbedded bodies (font f.1) f.2
  fontsOk : ∀ f ∈ fonts, (font f.1).Ok
  pageIds_eq : d.pageIds = pageIds.map .ref
  done : AllMatch (PageDone F font bodies alphas fonts) pageIds pages

theorem getElem?_append_of {A : Type} {l : List A} {k : Nat} {a : A} (h : l[k]? = some a) (l' : List A) :
    (l ++ l')[k]? = some a := by
  have : k < l.length := by
    have := List.getElem?_eq_some_iff.1 h
    exact this.1
  rw [List.getElem?_append_left this, h]

theorem FontEmbedded.mono {bodies : List (Body R)} {v : FontView E} {id : Nat} (h : FontEmbedded bodies v id) (l : List (Body R)) :
    FontEmbedded (bodies ++ l) v id := by
  obtain ⟨k, kt, ku, kd, h0, h1, h2, h3, w, h4, h5⟩ := h
  exact ⟨k, kt, ku, kd, h0, getElem?_append_of h1 l, getElem?_append_of h2 l, getElem?_append_of h3 l, w, h4,
    getElem?_append_of h5 l⟩

theorem PageDone.mono {font : Nat → FontView E} {bodies : List (Body R)} {alphas : List R} {fonts : List (Nat × Nat)}
    {id : Nat} {c : PageCalls R} (h : PageDone F font bodies alphas fonts id c) (l : List (Body R)) (la : List R)
    (lf : List (Nat × Nat)) : PageDone F font (bodies ++ l) (alphas ++ la) (fonts ++ lf) id c := by
  obtain ⟨k, kc, contents, h0, h1, h2, rgb, ak, color, ops, s, painted, h3⟩ := h
  exact ⟨k, kc, contents, h0, getElem?_append_of h1 l, getElem?_append_of h2 l, rgb, ak, color, ops, s, painted, h3.mono la lf⟩

/-- Adding an object. -/
theorem DocInv.addBody {font : Nat → FontView E} {d : Doc R} {bodies : List (Body R)} {alphas : List R}
    {fonts : List (Nat × Nat)} {pageIds : List Nat} {pages : List (PageCalls R)}
    (h : DocInv F font d bodies alphas fonts pageIds pages) (b : Body R) (hp : b.Plain)
    (hr : b.RefsBelow (4 + bodies.length)) :
    DocInv F font { d with pdf := (d.pdf.addIndirectObject (b.bytes F)).1 } (bodies ++ [b]) alphas fonts pageIds pages :=
  { h with
    objects := by simp only [PdfFile.addIndirectObject, h.objects, List.map_append, List.map_cons, List.map_nil]
    nextId := by simp only [PdfFile.addIndirectObject, h.nextId, List.length_append, List.length_cons, List.length_nil]; omega
    plain := by
      intro x hx
      rcases List.mem_append.1 hx with hx | hx
      · exact h.plain x hx
      · cases List.mem_singleton.1 hx; exact hp
    refs := by
      intro x hx
      have : 4 + bodies.length ≤ 4 + (bodies ++ [b]).length := by simp
      rcases List.mem_append.1 hx with hx | hx
      · exact (h.refs x hx).mono this
      · cases List.mem_singleton.1 hx; exact hr.mono this
    embedded := fun f hf => (h.embedded f hf).mono [b]
    done := h.done.mono fun _ _ hd => by simpa using hd.mono [b] [] [] }

theorem DocInv.new (font : Nat → FontView E) : DocInv F font Doc.new [] [] [] [] [] where
  objects := rfl
  nextId := rfl
  plain := by simp
  refs := by simp
  alphaStates := rfl
  ext := rfl
  alphaKeys := by simp
  clamped := by simp
  fonts_eq := rfl
  fontResources := rfl
  fontAddrs := by simp
  embedded := by simp
  fontsOk := by simp
  pageIds_eq := rfl
  done := trivial

/-! ### Drawing operations -/

/-- The state of a page matches what was drawn. -/
def PageInv (F : Floats R) (alphas : List R) (fonts : List (Nat × Nat)) (p : Page R) (color : Requested R)
    (ev : List (Expected R)) : Prop :=
  ∃ ops s painted, Draws F alphas fonts p.operations p.rgb (F.key p.alpha) color ev ops s painted

theorem PageInv.mono {alphas : List R} {fonts : List (Nat × Nat)} {p : Page R} {color : Requested R} {ev : List (Expected R)}
    (h : PageInv F alphas fonts p color ev) (la : List R) (lf : List (Nat × Nat)) :
    PageInv F (alphas ++ la) (fonts ++ lf) p color ev := by
  obtain ⟨ops, s, painted, h⟩ := h
  exact ⟨ops, s, painted, h.mono la lf⟩

theorem opsBytes_one (os : List (Object R)) (k : List Byte) : opsBytes F [(os, k)] = opBytes F os k := by simp [opsBytes]

theorem execOps_one {gs : List Byte → Option R} {s s' : GState R} {os : List (Val R)} {k : List Byte} {ps : List (Painted R)}
    (h : execOp gs s os k = some (s', ps)) : execOps gs s [(os, k)] = some (s', ps) := by
  simp [execOps, h]

theorem opsPlain_one {os : List (Object R)} {k : List Byte} (ho : ∀ o ∈ os, o.Plain) (hk : IsOperator k) :
    OpsPlain [(os, k)] := by
  intro o h
  cases List.mem_singleton.1 h
  exact ⟨ho, hk⟩

theorem PageInv.new (width height : R) : PageInv F [] [] (Page.new F width height) none [] := by
  refine ⟨[([.float F.scaleX, .i32 0, .i32 0, .float F.scaleY, .i32 0, .i32 0], ascii "cm")],
    { GState.initial F.zero F.one with cm := [pageMatrix F] }, [], ?_⟩
  refine ⟨?_, ?_, ?_, rfl, rfl, rfl, rfl, rfl, ⟨rfl, rfl⟩, trivial⟩
  · rw [opsBytes_one]; rfl
  · refine opsPlain_one ?_ isOperator_cm
    simp [Object.Plain]
  · intro gs _
    exact execOps_one (execOp_cm gs _ _ rfl)

theorem PageInv.rect {alphas : List R} {fonts : List (Nat × Nat)} {p : Page R} {color : Requested R} {ev : List (Expected R)}
    (h : PageInv F alphas fonts p color ev) (x y w ht : R) :
    PageInv F alphas fonts (paintRectangle F p x y w ht) color (ev ++ [.rect x y w ht color]) := by
  obtain ⟨ops, s, painted, h⟩ := h
  have h1 := h.step (color' := color) (rgb' := p.rgb) (k' := F.key p.alpha) (ev' := [.rect x y w ht color])
    [([.float x, .float y, .float w, .float ht], ascii "re"), ([], ascii "f")] s
    [.fill s.cm [(x, y, w, ht)] s.rgb s.alpha] ?_ ?_ rfl h.rgb_eq h.key_eq h.path h.text h.color_ok
    ⟨⟨h.cm, rfl, h.color_ok⟩, trivial⟩
  · have e : (paintRectangle F p x y w ht).operations = p.operations ++
          opsBytes F [([.float x, .float y, .float w, .float ht], ascii "re"), ([], ascii "f")] := by
      simp [paintRectangle, Page.op, opsBytes]
    unfold PageInv
    rw [e]
    exact ⟨_, _, _, h1⟩
  · intro o ho
    simp only [List.mem_cons, List.not_mem_nil, or_false] at ho
    rcases ho with rfl | rfl
    · exact ⟨by simp [Object.Plain], isOperator_re⟩
    · exact ⟨by simp, isOperator_f⟩
  · intro gs _
    simp only [opsValues, List.map_cons, List.map_nil, Object.value, execOps]
    rw [execOp_re]
    simp only
    rw [execOp_f]
    obtain ⟨cm, rgb, al, path, font, text⟩ := s
    have hp := h.path
    simp only at hp
    subst hp
    rfl

theorem PageInv.text {alphas : List R} {fonts : List (Nat × Nat)} {p : Page R} {color : Requested R} {ev : List (Expected R)}
    (h : PageInv F alphas fonts p color ev) (f : Nat) (key : List Byte) (glyphs : List Nat) (fs ox oy : R)
    (hn : FontNamed fonts f key) (hk : 35 ∉ key) (hg : ∀ g ∈ glyphs, g < 65536) :
    PageInv F alphas fonts (showTextOps F p key glyphs fs ox oy) color (ev ++ [.text f glyphs fs ox oy color]) := by
  obtain ⟨ops, s, painted, h⟩ := h
  have h1 := h.step (color' := color) (rgb' := p.rgb) (k' := F.key p.alpha) (ev' := [.text f glyphs fs ox oy color])
    [([], ascii "BT"), ([.name key, .i32 1], ascii "Tf"),
      ([.float fs, .i32 0, .i32 0, .float (F.neg fs), .float ox, .float oy], ascii "Tm"),
      ([.hex (glyphCodes glyphs)], ascii "Tj"), ([], ascii "ET")]
    { s with font := some (key, .int 1) }
    [.show s.cm key (.int 1) [.real fs, .int 0, .int 0, .real (F.neg fs), .real ox, .real oy] (glyphCodes glyphs) s.rgb s.alpha]
    ?_ ?_ rfl h.rgb_eq h.key_eq h.path h.text h.color_ok
    ⟨⟨h.cm, hn, rfl, rfl, C18_glyph_codes glyphs hg, h.color_ok⟩, trivial⟩
  · have e : (showTextOps F p key glyphs fs ox oy).operations = p.operations ++
          opsBytes F [([], ascii "BT"), ([.name key, .i32 1], ascii "Tf"),
            ([.float fs, .i32 0, .i32 0, .float (F.neg fs), .float ox, .float oy], ascii "Tm"),
            ([.hex (glyphCodes glyphs)], ascii "Tj"), ([], ascii "ET")] := by
      simp [showTextOps, Page.op, opsBytes]
    unfold PageInv
    rw [e]
    exact ⟨_, _, _, h1⟩
  · intro o ho
    simp only [List.mem_cons, List.not_mem_nil, or_false] at ho
    rcases ho with rfl | rfl | rfl | rfl | rfl
    · exact ⟨by simp, isOperator_BT⟩
    · exact ⟨by simpa [Object.Plain] using hk, isOperator_Tf⟩
    · exact ⟨by simp [Object.Plain], isOperator_Tm⟩
    · exact ⟨by simp [Object.Plain], isOperator_Tj⟩
    · exact ⟨by simp, isOperator_ET⟩
  · intro gs _
    exact exec_text gs s h.text key (.int 1) [.real fs, .int 0, .int 0, .real (F.neg fs), .real ox, .real oy] rfl
      (glyphCodes glyphs)

/-! ### Colours -/

/-- The `rg` operation of `set_color`, if any. -/
theorem rgb_step (p : Page R) (s : GState R) (hs : s.rgb = p.rgb) (r g b : R) : ∃ (p1 : Page R) (ops : COps R) (s1 : GState R),
    (if F.ne3 p.rgb (r, g, b) then { p with rgb := (r, g, b) }.op F [.float r, .float g, .float b] (ascii "rg") else p) = p1 ∧
    p1.operations = p.operations ++ opsBytes F ops ∧ OpsPlain ops ∧
    (∀ gs, execOps gs s (opsValues ops) = some (s1, [])) ∧ s1.rgb = p1.rgb ∧ s1 = { s with rgb := s1.rgb } ∧
    p1.alpha = p.alpha ∧
    (s1.rgb = (r, g, b) ∨ (F.ne s1.rgb.1 r = false ∧ F.ne s1.rgb.2.1 g = false ∧ F.ne s1.rgb.2.2 b = false)) := by
  cases hne : F.ne3 p.rgb (r, g, b) with
  | false =>
    refine ⟨p, [], s, by simp, by simp [opsBytes], by simp [OpsPlain], fun _ => rfl, hs, rfl, rfl, .inr ?_⟩
    simp only [Floats.ne3, Bool.or_eq_false_iff] at hne
    rw [hs]
    exact ⟨hne.1.1, hne.1.2, hne.2⟩
  | true =>
    refine ⟨{ p with rgb := (r, g, b) }.op F [.float r, .float g, .float b] (ascii "rg"),
      [([.float r, .float g, .float b], ascii "rg")], { s with rgb := (r, g, b) }, by rw [if_pos rfl], ?_, ?_, ?_, rfl, rfl,
      rfl, .inl rfl⟩
    · rw [opsBytes_one]; rfl
    · exact opsPlain_one (by simp [Object.Plain]) isOperator_rg
    · intro gs; exact execOps_one (execOp_rg gs s r g b)

theorem DocInv.setColor {font : Nat → FontView E} {d : Doc R} {bodies : List (Body R)} {alphas : List R}
    {fonts : List (Nat × Nat)} {pageIds : List Nat} {pages : List (PageCalls R)} {p : Page R} {color : Requested R}
    {ev : List (Expected R)} (hl : FloatLaws F)
    (h : DocInv F font d bodies alphas fonts pageIds pages) (hp : PageInv F alphas fonts p color ev) (r g b a : R) :
    ∃ la, DocInv F font (setColor F d p r g b a).1 bodies (alphas ++ la) fonts pageIds pages ∧
      PageInv F (alphas ++ la) fonts (setColor F d p r g b a).2 (some (r, g, b, a)) ev := by
  obtain ⟨ops, s, painted, hp⟩ := hp
  obtain ⟨p1, ops1, s1, e1, e2, pl, ex, er, es, ea, hc⟩ := rgb_step p s hp.rgb_eq r g b
  have hd1 : s1.alpha = s.alpha := by rw [es]
  have hcm : s1.cm = s.cm := by rw [es]
  have hpath : s1.path = [] := by rw [es]; exact hp.path
  have htext : s1.text = none := by rw [es]; exact hp.text
  have eset : Verif.Pdf.setColor F d p r g b a = setAlpha F d p1 a := congrArg (setAlpha F d · a) e1
  rw [eset]
  unfold setAlpha
  dsimp only
  cases hne : F.ne (F.clampUnit a) p1.alpha with
  | false =>
    rw [if_neg (by simp)]
    have hk : F.key s1.alpha = F.key (F.clampUnit a) := by
      rw [hd1, hp.key_eq, ← ea]; exact (hl.key_congr _ _ hne).symm
    refine ⟨[], by simpa using h, ?_⟩
    rw [List.append_nil]
    have h1 := hp.step (rgb' := p1.rgb) (k' := F.key p1.alpha) (color' := some (r, g, b, a)) (ev' := []) ops1 s1 [] pl
      (fun gs _ => ex gs) hcm er (by rw [ea, hd1, hp.key_eq]) hpath htext ⟨hc, hk⟩ trivial
    unfold PageInv
    rw [e2]
    rw [List.append_nil] at h1
    exact ⟨_, _, _, h1⟩
  | true =>
    rw [if_pos rfl]
    -- the state after `gs`
    have key : ∀ (alphas' : List R) (k : List Byte) (a' : R), (k, a') ∈ names 97 0 alphas' →
        F.key a' = F.key (F.clampUnit a) → (∃ l, alphas' = alphas ++ l) →
        PageInv F alphas' fonts ({ p1 with alpha := F.clampUnit a }.op F [.name k] (ascii "gs")) (some (r, g, b, a)) ev := by
      rintro alphas' k a' hm hk ⟨l, rfl⟩
      obtain ⟨i, _, hi⟩ := mem_names.1 hm
      have h0 := hp.mono l []
      rw [List.append_nil] at h0
      have h1 := h0.step (rgb' := p1.rgb) (k' := F.key (F.clampUnit a)) (color' := some (r, g, b, a)) (ev' := [])
        (ops1 ++ [([.name k], ascii "gs")]) { s1 with alpha := a' } [] ?_ ?_ hcm er hk hpath htext ⟨hc, hk⟩ trivial
      · unfold PageInv
        simp only [Page.op]
        rw [e2, List.append_assoc, ← opsBytes_one, ← opsBytes_append]
        rw [List.append_nil] at h1
        exact ⟨_, _, _, h1⟩
      · intro o ho
        rcases List.mem_append.1 ho with ho | ho
        · exact pl o ho
        · refine opsPlain_one ?_ isOperator_gs o ho
          intro x hx
          cases List.mem_singleton.1 hx
          rw [hi]
          exact name_plain 97 (by decide) _
      · intro gs hg
        rw [opsValues_append, execOps_append, ex gs]
        have : execOps gs s1 (opsValues [([.name k], ascii "gs")]) = some ({ s1 with alpha := a' }, []) := by
          refine execOps_one ?_
          rw [List.map_cons, List.map_nil]
          exact (execOp_gs gs s1 k).trans (by rw [hg k a' hm]; rfl)
        simp only [this, List.nil_append]
    cases hg : assocGet d.alphaStates (F.key (F.clampUnit a)) with
    | some k =>
      have hm := assocGet_mem hg
      rw [h.alphaStates, List.mem_map] at hm
      obtain ⟨⟨k', a'⟩, hm, he⟩ := hm
      simp only [Prod.mk.injEq] at he
      obtain ⟨he1, rfl⟩ := he
      refine ⟨[], by simpa using h, ?_⟩
      rw [List.append_nil]
      exact key alphas k' a' hm he1 ⟨[], by simp⟩
    | none =>
      have hlen : d.alphaStates.length = alphas.length := by rw [h.alphaStates, List.length_map, names_length]
      have hnew : names 97 0 (alphas ++ [F.clampUnit a]) = names 97 0 alphas ++ [(97 :: decimal alphas.length, F.clampUnit a)] := by
        rw [names_append, Nat.zero_add]; rfl
      have hna := assocGet_none hg
      rw [h.alphaStates, List.map_map] at hna
      have hfst : ((fun x : Nat × List Byte => x.1) ∘ fun e : List Byte × R => (F.key e.2, e.1)) = fun e => F.key e.2 := rfl
      have hkeys : (names 97 0 alphas).map (fun e => F.key e.2) = alphas.map F.key := by
        exact names_map_snd F.key 97 0 alphas
      rw [hfst, hkeys] at hna
      refine ⟨[F.clampUnit a], { h with alphaStates := ?_, ext := ?_, alphaKeys := ?_, clamped := ?_, done := ?_ }, ?_⟩
      · rw [hnew, List.map_append, ← h.alphaStates, hlen]; rfl
      · rw [hnew, List.map_append, ← h.ext, hlen]; rfl
      · rw [List.map_append, List.nodup_append]
        refine ⟨h.alphaKeys, by simp, ?_⟩
        intro x hx y hy
        simp only [List.map_cons, List.map_nil, List.mem_singleton] at hy
        subst hy
        rintro rfl
        exact hna hx
      · intro x hx
        rcases List.mem_append.1 hx with hx | hx
        · exact h.clamped x hx
        · cases List.mem_singleton.1 hx; exact ⟨a, rfl⟩
      · exact h.done.mono fun _ _ hd => by simpa using hd.mono [] [F.clampUnit a] []
      · refine key _ _ (F.clampUnit a) ?_ rfl ⟨_, rfl⟩
        rw [hnew, hlen]
        simp [ascii]

/-! ### Fonts -/

theorem glyphWidths_ok {w : Nat → Except E Int} : ∀ (n i : Nat),
    (∃ ws : List (Object R), glyphWidths w i n = .ok ws) ↔ ∀ j, i ≤ j → j < i + n → ∃ x, w j = .ok x
  | 0, i => by
    simp only [glyphWidths]
    constructor
    · intro _ j h1 h2; omega
    · intro _; exact ⟨_, rfl⟩
  | n + 1, i => by
    have ih := glyphWidths_ok (w := w) n (i + 1)
    simp only [glyphWidths]
    cases hw : w i with
    | error e =>
      simp only [reduceCtorEq, exists_false, false_iff]
      intro h
      obtain ⟨x, hx⟩ := h i (by omega) (by omega)
      rw [hw] at hx; cases hx
    | ok x =>
      simp only
      constructor
      · intro h j h1 h2
        by_cases hj : j = i
        · subst hj; exact ⟨x, hw⟩
        · refine ih.1 ?_ j (by omega) (by omega)
          cases hg : glyphWidths (R := R) w (i + 1) n with
          | error e => rw [hg] at h; obtain ⟨_, h⟩ := h; cases h
          | ok ws => exact ⟨ws, rfl⟩
      · intro h
        obtain ⟨ws, hws⟩ := ih.2 (fun j h1 h2 => h j (by omega) (by omega))
        rw [hws]
        exact ⟨_, rfl⟩

theorem FontView.ok_iff (v : FontView E) : v.Ok ↔ v.codePointsError = none ∧
    ∃ ws : List (Object R), glyphWidths v.glyphWidth 0 v.glyphCount = .ok ws := by
  unfold FontView.Ok
  rw [glyphWidths_ok]
  simp

theorem glyphWidths_plain {w : Nat → Except E Int} : ∀ (n i : Nat) (ws : List (Object R)), glyphWidths w i n = .ok ws →
    ∀ o ∈ ws, o.Plain ∧ ∀ id gen, ¬ o.value.HasRef id gen
  | 0, i, ws, h => by
    simp only [glyphWidths, Except.ok.injEq] at h
    subst h; simp
  | n + 1, i, ws, h => by
    simp only [glyphWidths] at h
    cases hw : w i with
    | error e => rw [hw] at h; cases h
    | ok x =>
      rw [hw] at h
      simp only at h
      cases hg : glyphWidths (R := R) w (i + 1) n with
      | error e => rw [hg] at h; cases h
      | ok ws' =>
        rw [hg] at h
        simp only [Except.ok.injEq] at h
        subst h
        intro o ho
        rcases List.mem_cons.1 ho with rfl | ho
        · exact ⟨trivial, fun id gen => hasRef_int id gen x⟩
        · exact glyphWidths_plain n (i + 1) ws' hg o ho

theorem hasRef_array (id gen : Nat) (l : List (Val R)) : (Val.array l).HasRef id gen ↔ ∃ v ∈ l, v.HasRef id gen := by
  constructor
  · intro h; cases h with | array h h' => exact ⟨_, h, h'⟩
  · rintro ⟨v, h, h'⟩; exact .array h h'

theorem fontDescriptor_plain {v : FontView E} (h : v.Valid) (id : Nat) : (fontDescriptor v id : Dictionary R).Plain := by
  simp only [fontDescriptor, Dictionary.Plain, plain_pairs, List.mem_cons, List.not_mem_nil, or_false, forall_eq_or_imp,
    forall_eq, Object.Plain, plain_items]
  and_intros <;> first | exact trivial | exact h.1 | decide +kernel

theorem fontDict_plain {v : FontView E} (h : v.Valid) (a b : Nat) {ws : List (Object R)} (hw : ∀ o ∈ ws, o.Plain) :
    (fontDict v a b ws : Dictionary R).Plain := by
  simp only [fontDict, Dictionary.Plain, plain_pairs, List.mem_cons, List.not_mem_nil, or_false, forall_eq_or_imp,
    forall_eq, Object.Plain, plain_items]
  and_intros <;> first | exact trivial | exact h.1 | exact hw | decide +kernel

theorem fontDescriptor_refs (v : FontView E) {id n : Nat} (h1 : 1 ≤ id) (h2 : id < n) :
    (Body.dict (fontDescriptor v id : Dictionary R)).RefsBelow n := by
  intro i gen h
  simp only [Body.entries, fontDescriptor, Dictionary.values, values_pairs, values_items, List.map_cons, List.map_nil,
    Object.value, hasRef_dict_cons, hasRef_dict_nil, hasRef_array_cons, hasRef_array_nil, hasRef_int, hasRef_name,
    hasRef_ref, false_or, or_false] at h
  obtain ⟨rfl, rfl⟩ := h
  exact ⟨h1, h2, rfl⟩

theorem fontDict_refs (v : FontView E) {a b n : Nat} (h1 : 1 ≤ a) (h2 : a < n) (h3 : 1 ≤ b) (h4 : b < n)
    {ws : List (Object R)} (hw : ∀ o ∈ ws, ∀ id gen, ¬ o.value.HasRef id gen) :
    (Body.dict (fontDict v a b ws : Dictionary R)).RefsBelow n := by
  intro i gen h
  have hws : ¬ (Val.array (ws.map Object.value)).HasRef i gen := by
    rw [hasRef_array]
    rintro ⟨x, hx, hr⟩
    obtain ⟨o, ho, rfl⟩ := List.mem_map.1 hx
    exact hw o ho i gen hr
  simp only [Body.entries, fontDict, Dictionary.values, values_pairs, values_items, List.map_cons, List.map_nil,
    Object.value, hasRef_dict_cons, hasRef_dict_nil, hasRef_array_cons, hasRef_array_nil, hasRef_int, hasRef_name,
    hasRef_str, hasRef_ref, false_or, or_false, hws] at h
  rcases h with ⟨rfl, rfl⟩ | ⟨rfl, rfl⟩
  · exact ⟨h1, h2, rfl⟩
  · exact ⟨h3, h4, rfl⟩

theorem fontFile_plain (v : FontView E) : (Body.stream (.root (.ofList [(ascii "Length1", .usize v.bytes.length)])) v.bytes : Body R).Plain := by
  refine ⟨?_, ?_⟩
  · simp only [Dictionary.Plain, plain_pairs, List.mem_singleton, forall_eq]
    exact ⟨by decide +kernel, trivial⟩
  · simp only [Dictionary.values, values_pairs, List.map_cons, List.map_nil, List.mem_singleton, forall_eq]
    decide +kernel

theorem fontFile_refs (v : FontView E) (n : Nat) :
    (Body.stream (.root (.ofList [(ascii "Length1", .usize v.bytes.length)])) v.bytes : Body R).RefsBelow n := by
  intro i gen h
  simp only [Body.entries, Dictionary.values, values_pairs, List.map_cons, List.map_nil, Object.value, List.cons_append,
    List.nil_append, hasRef_dict_cons, hasRef_dict_nil, hasRef_int, or_false] at h

theorem emptyStream_plain (c : List Byte) : (Body.stream (.root .nil) c : Body R).Plain :=
  ⟨trivial, by simp [Dictionary.values, Pairs.values]⟩

theorem emptyStream_refs (c : List Byte) (n : Nat) : (Body.stream (.root .nil) c : Body R).RefsBelow n := by
  intro i gen h
  simp only [Body.entries, Dictionary.values, Pairs.values, List.nil_append, hasRef_dict_cons, hasRef_dict_nil, hasRef_int,
    or_false] at h

/-- `add_font` keeps the invariant; it succeeds exactly if the font can be embedded, and then its name stands for the
font, which is embedded only if it was not in the table. -/
theorem DocInv.addFont {font : Nat → FontView E} {d : Doc R} {bodies : List (Body R)} {alphas : List R}
    {fonts : List (Nat × Nat)} {pageIds : List Nat} {pages : List (PageCalls R)}
    (h : DocInv F font d bodies alphas fonts pageIds pages) (f : Nat) (hv : (font f).Valid) :
    ∃ lb lf, DocInv F font (addFont F d f (font f)).1 (bodies ++ lb) alphas (fonts ++ lf) pageIds pages ∧
      (((font f).Ok ∧ (fonts ++ lf).map (·.1) = firstUses (fonts.map (·.1)) [f] ∧
          ∃ key, (addFont F d f (font f)).2 = .ok key ∧ FontNamed (fonts ++ lf) f key ∧ 35 ∉ key) ∨
        (¬ (font f).Ok ∧ lf = [] ∧ ∃ e, (addFont F d f (font f)).2 = .error e)) := by
  have hlen : d.fonts.length = fonts.length := by rw [h.fonts_eq, List.length_map, names_length]
  unfold Verif.Pdf.addFont
  dsimp only
  cases hg : assocGet d.fonts f with
  | some key =>
    have hm := assocGet_mem hg
    rw [h.fonts_eq, List.mem_map] at hm
    obtain ⟨⟨k, f', id⟩, hm, he⟩ := hm
    simp only [Prod.mk.injEq] at he
    obtain ⟨rfl, rfl⟩ := he
    obtain ⟨i, hi, hk⟩ := mem_names.1 hm
    have hmem : (f', id) ∈ fonts := List.mem_of_getElem? hi
    refine ⟨[], [], by simpa using h, .inl ⟨h.fontsOk _ hmem, ?_, k, rfl, ?_, ?_⟩⟩
    · rw [List.append_nil]
      simp only [firstUses]
      rw [if_pos (List.mem_map.2 ⟨_, hmem, rfl⟩)]
    · rw [List.append_nil]; exact ⟨id, hm⟩
    · rw [hk]; exact name_plain 102 (by decide) _
  | none =>
    have hna := assocGet_none hg
    rw [h.fonts_eq, List.map_map] at hna
    have hkeys : (names 102 0 fonts).map ((fun x : Nat × List Byte => x.1) ∘ fun e : List Byte × (Nat × Nat) => (e.2.1, e.1)) =
        fonts.map (·.1) := names_map_snd (fun x : Nat × Nat => x.1) 102 0 fonts
    rw [hkeys] at hna
    -- the font program and the descriptor
    have h1 := h.addBody _ (fontFile_plain (font f)) (fontFile_refs (font f) _)
    have h2 := h1.addBody (.dict (fontDescriptor (font f) (4 + bodies.length))) (fontDescriptor_plain hv (4 + bodies.length)) (fontDescriptor_refs (font f) (by omega)
      (show 4 + bodies.length < 4 + (bodies ++ [_]).length by simp))
    have hn := h.nextId
    cases hc : (font f).codePointsError with
    | some e =>
      refine ⟨[.stream (.root (.ofList [(ascii "Length1", .usize (font f).bytes.length)])) (font f).bytes,
        .dict (fontDescriptor (font f) (4 + bodies.length))], [], ?_, .inr ⟨?_, rfl, e, rfl⟩⟩
      rotate_left
      · intro hok; rw [hok.1] at hc; cases hc
      · rw [List.append_assoc] at h2
        simp only [PdfFile.addStream, PdfFile.addDictionary]
        rw [List.append_nil]
        simp only [PdfFile.addIndirectObject, hn] at h2 ⊢
        exact h2
    | none =>
      have h3 := h2.addBody _ (emptyStream_plain (toUnicodeCMap (font f).codePoints)) (emptyStream_refs _ _)
      cases hw : glyphWidths (R := R) (font f).glyphWidth 0 (font f).glyphCount with
      | error e =>
        refine ⟨[.stream (.root (.ofList [(ascii "Length1", .usize (font f).bytes.length)])) (font f).bytes,
          .dict (fontDescriptor (font f) (4 + bodies.length)),
          .stream (.root .nil) (toUnicodeCMap (font f).codePoints)], [], ?_, .inr ⟨?_, rfl, e, rfl⟩⟩
        rotate_left
        · intro hok
          obtain ⟨_, ws, hok⟩ := (FontView.ok_iff (R := R) _).1 hok
          rw [hok] at hw; cases hw
        · rw [List.append_assoc, List.append_assoc] at h3
          simp only [PdfFile.addStream, PdfFile.addDictionary]
          rw [List.append_nil]
          simp only [PdfFile.addIndirectObject, hn] at h3 ⊢
          exact h3
      | ok ws =>
        have hws := glyphWidths_plain _ _ _ hw
        have h4 := h3.addBody (.dict (fontDict (font f) (4 + (bodies.length + 2)) (4 + (bodies.length + 1)) ws))
          (fontDict_plain hv (4 + (bodies.length + 2)) (4 + (bodies.length + 1)) (fun o ho => (hws o ho).1))
          (fontDict_refs (font f) (by omega)
            (by simp only [List.length_append, List.length_cons, List.length_nil]; omega) (by omega)
            (by simp only [List.length_append, List.length_cons, List.length_nil]; omega) (fun o ho => (hws o ho).2))
        simp only [List.append_assoc, List.cons_append, List.nil_append] at h4
        simp only [PdfFile.addIndirectObject, hn] at h4
        have hnew : names 102 0 (fonts ++ [(f, 4 + (bodies.length + 3))]) =
            names 102 0 fonts ++ [(102 :: decimal fonts.length, (f, 4 + (bodies.length + 3)))] := by
          rw [names_append, Nat.zero_add]; rfl
        have hok : (font f).Ok := (FontView.ok_iff (R := R) _).2 ⟨hc, ws, hw⟩
        refine ⟨[.stream (.root (.ofList [(ascii "Length1", .usize (font f).bytes.length)])) (font f).bytes,
          .dict (fontDescriptor (font f) (4 + bodies.length)),
          .stream (.root .nil) (toUnicodeCMap (font f).codePoints),
          .dict (fontDict (font f) (4 + (bodies.length + 2)) (4 + (bodies.length + 1)) ws)],
          [(f, 4 + (bodies.length + 3))], ?_, .inl ⟨hok, ?_, ascii "f" ++ decimal d.fonts.length, rfl, ?_, ?_⟩⟩
        rotate_left
        · rw [List.map_append]
          simp only [firstUses]
          rw [if_neg hna]
          rfl
        · refine ⟨4 + (bodies.length + 3), ?_⟩
          rw [hnew, hlen]
          exact List.mem_append_right _ List.mem_cons_self
        · exact name_plain 102 (by decide) _
        · simp only [PdfFile.addStream, PdfFile.addDictionary, PdfFile.addIndirectObject, hn]
          refine { h4 with fonts_eq := ?_, fontResources := ?_, fontAddrs := ?_, embedded := ?_, fontsOk := ?_, done := ?_ }
          · rw [hnew, List.map_append, ← h.fonts_eq, hlen]; rfl
          · rw [hnew, List.map_append, ← h.fontResources, hlen]; rfl
          · rw [List.map_append, List.nodup_append]
            refine ⟨h.fontAddrs, by simp, ?_⟩
            intro x hx y hy
            simp only [List.map_cons, List.map_nil, List.mem_singleton] at hy
            subst hy
            rintro rfl
            exact hna hx
          · intro x hx
            rcases List.mem_append.1 hx with hx | hx
            · exact h4.embedded x hx
            · cases List.mem_singleton.1 hx
              refine ⟨bodies.length + 3, bodies.length, bodies.length + 2, bodies.length + 1, rfl, ?_, ?_, ?_, ws, hw, ?_⟩
              · rw [List.getElem?_append_right (by omega), Nat.sub_self]; rfl
              · rw [List.getElem?_append_right (by omega), Nat.add_sub_cancel_left]; rfl
              · rw [List.getElem?_append_right (by omega), Nat.add_sub_cancel_left]; rfl
              · rw [List.getElem?_append_right (by omega), Nat.add_sub_cancel_left]; rfl
          · intro x hx
            rcases List.mem_append.1 hx with hx | hx
            · exact h.fontsOk x hx
            · cases List.mem_singleton.1 hx; exact hok
          · exact h4.done.mono fun _ _ hd => by simpa using hd.mono [] [] [(f, 4 + (bodies.length + 3))]

/-! ### Histories -/

theorem firstUses_append (acc a b : List Nat) : firstUses acc (a ++ b) = firstUses (firstUses acc a) b := by
  induction a generalizing acc with
  | nil => rfl
  | cons x a ih => simp only [List.cons_append, firstUses, ih]

theorem DocInv.runOp {font : Nat → FontView E} {d : Doc R} {bodies : List (Body R)} {alphas : List R}
    {fonts : List (Nat × Nat)} {pageIds : List Nat} {pages : List (PageCalls R)} {p : Page R} {color : Requested R}
    {ev : List (Expected R)} (hl : FloatLaws F) (hv : ∀ f, (font f).Valid)
    (h : DocInv F font d bodies alphas fonts pageIds pages) (hp : PageInv F alphas fonts p color ev) (op : PageOp R)
    (ho : op.Valid) :
    ∃ lb la lf color' ev', DocInv F font (Verif.Pdf.runOp F font (d, p) op).1 (bodies ++ lb) (alphas ++ la) (fonts ++ lf) pageIds pages ∧
      PageInv F (alphas ++ la) (fonts ++ lf) (Verif.Pdf.runOp F font (d, p) op).2 color' (ev ++ ev') ∧
      (fonts ++ lf).map (·.1) = firstUses (fonts.map (·.1)) (shownFonts font [op]) ∧
      ∀ ops, expected font color (op :: ops) = ev' ++ expected font color' ops := by
  cases op with
  | color r g b a =>
    obtain ⟨la, h1, h2⟩ := h.setColor hl hp r g b a
    exact ⟨[], la, [], some (r, g, b, a), [], by simpa [Verif.Pdf.runOp] using h1, by simpa [Verif.Pdf.runOp] using h2, by simp [shownFonts, firstUses],
      fun ops => rfl⟩
  | rect x y w ht =>
    exact ⟨[], [], [], color, [.rect x y w ht color], by simpa [Verif.Pdf.runOp] using h,
      by simpa [Verif.Pdf.runOp] using hp.rect x y w ht,
      by simp [shownFonts, firstUses], fun ops => rfl⟩
  | text f glyphs fs ox oy =>
    obtain ⟨lb, lf, h1, h2⟩ := h.addFont f (hv f)
    simp only [Verif.Pdf.runOp, showText]
    rcases h2 with ⟨hok, hf, key, hk, hn, h35⟩ | ⟨hok, rfl, e, he⟩
    · refine ⟨lb, [], lf, color, [.text f glyphs fs ox oy color], ?_, ?_, ?_, ?_⟩
      · cases hr : Verif.Pdf.addFont F d f (font f) with
        | mk d' r =>
          rw [hr] at h1 hk
          simp only at hk
          subst hk
          simpa using h1
      · cases hr : Verif.Pdf.addFont F d f (font f) with
        | mk d' r =>
          rw [hr] at hk
          simp only at hk
          subst hk
          exact (hp.mono [] lf).text f key glyphs fs ox oy hn h35 ho
      · rw [hf]; simp only [shownFonts]; rw [if_pos hok]
      · intro ops; simp only [expected]; rw [if_pos hok]; rfl
    · refine ⟨lb, [], [], color, [], ?_, ?_, ?_, ?_⟩
      · cases hr : Verif.Pdf.addFont F d f (font f) with
        | mk d' r =>
          rw [hr] at h1 he
          simp only at he
          subst he
          simpa using h1
      · cases hr : Verif.Pdf.addFont F d f (font f) with
        | mk d' r =>
          rw [hr] at he
          simp only at he
          subst he
          simpa using hp
      · simp only [shownFonts, List.append_nil]; rw [if_neg hok]; rfl
      · intro ops; simp only [expected]; rw [if_neg hok]; rfl

theorem shownFonts_cons (font : Nat → FontView E) (op : PageOp R) (ops : List (PageOp R)) :
    shownFonts font (op :: ops) = shownFonts font [op] ++ shownFonts font ops := by
  cases op with
  | text f g a b c => simp only [shownFonts]; split <;> rfl
  | _ => rfl

theorem DocInv.runOps {font : Nat → FontView E} (hl : FloatLaws F) (hv : ∀ f, (font f).Valid) {pageIds : List Nat}
    {pages : List (PageCalls R)} (ops : List (PageOp R)) : ∀ {d : Doc R} {bodies : List (Body R)} {alphas : List R}
    {fonts : List (Nat × Nat)} {p : Page R} {color : Requested R} {ev : List (Expected R)},
    DocInv F font d bodies alphas fonts pageIds pages → PageInv F alphas fonts p color ev → (∀ op ∈ ops, op.Valid) →
    ∃ lb la lf color', DocInv F font (ops.foldl (Verif.Pdf.runOp F font) (d, p)).1 (bodies ++ lb) (alphas ++ la) (fonts ++ lf) pageIds pages ∧
      PageInv F (alphas ++ la) (fonts ++ lf) (ops.foldl (Verif.Pdf.runOp F font) (d, p)).2 color' (ev ++ expected font color ops) ∧
      (fonts ++ lf).map (·.1) = firstUses (fonts.map (·.1)) (shownFonts font ops) := by
  induction ops with
  | nil =>
    intro d bodies alphas fonts p color ev h hp _
    exact ⟨[], [], [], color, by simpa using h, by simpa [expected] using hp, by simp [shownFonts, firstUses]⟩
  | cons op ops ih =>
    intro d bodies alphas fonts p color ev h hp ho
    obtain ⟨lb, la, lf, c, e, h1, h2, h3, h4⟩ := h.runOp hl hv hp op (ho op (by simp))
    obtain ⟨lb', la', lf', c', g1, g2, g3⟩ := ih h1 h2 (fun op hop => ho op (by simp [hop]))
    refine ⟨lb ++ lb', la ++ la', lf ++ lf', c', ?_, ?_, ?_⟩
    · simpa only [List.append_assoc, List.foldl_cons] using g1
    · rw [h4]; simpa only [List.append_assoc, List.foldl_cons] using g2
    · rw [← List.append_assoc, g3, h3, shownFonts_cons font op ops, firstUses_append]

theorem pageDict_plain (w h : R) (id : Nat) : (pageDict F w h id).Plain := by
  simp only [pageDict, Dictionary.Plain, plain_pairs, List.mem_cons, List.not_mem_nil, or_false, forall_eq_or_imp,
    forall_eq, Object.Plain, plain_items]
  and_intros <;> first | exact trivial | decide +kernel

theorem pageDict_refs (w h : R) {id n : Nat} (h1 : 1 ≤ id) (h2 : id < n) : (Body.dict (pageDict F w h id)).RefsBelow n := by
  intro i gen hr
  simp only [Body.entries, pageDict, Dictionary.values, values_pairs, values_items, List.map_cons, List.map_nil,
    Object.value, hasRef_dict_cons, hasRef_dict_nil, hasRef_array_cons, hasRef_array_nil, hasRef_int, hasRef_name,
    hasRef_real, hasRef_ref, false_or, or_false, pageTreeId] at hr
  rcases hr with ⟨rfl, rfl⟩ | ⟨rfl, rfl⟩
  · exact ⟨by omega, by omega, rfl⟩
  · exact ⟨h1, h2, rfl⟩

theorem runOp_size (font : Nat → FontView E) (d : Doc R) (p : Page R) (op : PageOp R) :
    (runOp F font (d, p) op).2.width = p.width ∧ (runOp F font (d, p) op).2.height = p.height := by
  cases op with
  | color r g b a =>
    simp only [Verif.Pdf.runOp, Verif.Pdf.setColor]
    have e : ∀ p : Page R, (setAlpha F d p a).2.width = p.width ∧ (setAlpha F d p a).2.height = p.height := by
      intro p
      unfold setAlpha
      dsimp only
      split
      · split <;> exact ⟨rfl, rfl⟩
      · exact ⟨rfl, rfl⟩
    have e := e (if F.ne3 p.rgb (r, g, b) then { p with rgb := (r, g, b) }.op F [.float r, .float g, .float b] (ascii "rg") else p)
    rw [e.1, e.2]
    split <;> exact ⟨rfl, rfl⟩
  | rect x y w h => exact ⟨rfl, rfl⟩
  | text f g a b c =>
    simp only [Verif.Pdf.runOp, showText]
    cases hr : Verif.Pdf.addFont F d f (font f) with
    | mk d' r => cases r <;> exact ⟨rfl, rfl⟩

theorem runOps_size (font : Nat → FontView E) (ops : List (PageOp R)) (s : Doc R × Page R) :
    (ops.foldl (Verif.Pdf.runOp F font) s).2.width = s.2.width ∧ (ops.foldl (Verif.Pdf.runOp F font) s).2.height = s.2.height := by
  induction ops generalizing s with
  | nil => exact ⟨rfl, rfl⟩
  | cons op ops ih =>
    have h1 := ih (runOp F font s op)
    have h2 := runOp_size (F := F) font s.1 s.2 op
    exact ⟨h1.1.trans h2.1, h1.2.trans h2.2⟩

theorem DocInv.runPage {font : Nat → FontView E} {d : Doc R} {bodies : List (Body R)} {alphas : List R}
    {fonts : List (Nat × Nat)} {pageIds : List Nat} {pages : List (PageCalls R)} (hl : FloatLaws F) (hv : ∀ f, (font f).Valid)
    (h : DocInv F font d bodies alphas fonts pageIds pages) (c : PageCalls R) (ho : ∀ op ∈ c.ops, op.Valid) :
    ∃ lb la lf id, DocInv F font (runPage F font d c) (bodies ++ lb) (alphas ++ la) (fonts ++ lf) (pageIds ++ [id]) (pages ++ [c]) ∧
      (fonts ++ lf).map (·.1) = firstUses (fonts.map (·.1)) (shownFonts font c.ops) := by
  have hp : PageInv F alphas fonts (Page.new F c.width c.height) none [] := by
    simpa using (PageInv.new (F := F) c.width c.height).mono alphas fonts
  obtain ⟨lb, la, lf, c', h1, h2, h3⟩ := h.runOps hl hv c.ops hp ho
  have hs := runOps_size (F := F) font c.ops (d, Page.new F c.width c.height)
  simp only [Verif.Pdf.runPage, dropPage]
  cases hr : c.ops.foldl (Verif.Pdf.runOp F font) (d, Page.new F c.width c.height) with
  | mk d' p' =>
    rw [hr] at h1 h2 hs
    simp only at h1 h2 hs ⊢
    have hn := h1.nextId
    have g1 := h1.addBody _ (emptyStream_plain p'.operations) (emptyStream_refs _ _)
    have g2 := g1.addBody (.dict (pageDict F p'.width p'.height (4 + (bodies ++ lb).length))) (pageDict_plain _ _ _)
      (pageDict_refs _ _ (by omega) (by simp only [List.length_append, List.length_cons, List.length_nil]; omega))
    simp only [List.append_assoc, List.cons_append, List.nil_append] at g2
    simp only [PdfFile.addIndirectObject, hn] at g2
    refine ⟨lb ++ [.stream (.root .nil) p'.operations, .dict (pageDict F p'.width p'.height (4 + (bodies ++ lb).length))], la, lf,
      4 + ((bodies ++ lb).length + 1), ?_, h3⟩
    · simp only [PdfFile.addStream, PdfFile.addDictionary, PdfFile.addIndirectObject, hn]
      refine { g2 with pageIds_eq := ?_, done := ?_ }
      · rw [List.map_append, ← h1.pageIds_eq]; rfl
      · refine g2.done.append ⟨?_, trivial⟩
        obtain ⟨ops, s, painted, hd⟩ := h2
        refine ⟨(bodies ++ lb).length + 1, (bodies ++ lb).length, p'.operations, rfl, ?_, ?_, p'.rgb, F.key p'.alpha, c', ops, s,
          painted, ?_⟩
        · have e1 : c.width = p'.width := hs.1.symm
          have e2 : c.height = p'.height := hs.2.symm
          rw [e1, e2, ← List.append_assoc, List.getElem?_append_right (by omega), Nat.add_sub_cancel_left]; rfl
        · rw [← List.append_assoc, List.getElem?_append_right (by omega), Nat.sub_self]; rfl
        · simpa using hd

theorem DocInv.runDoc {font : Nat → FontView E} (hl : FloatLaws F) (hv : ∀ f, (font f).Valid) (pages : List (PageCalls R))
    (ho : ∀ c ∈ pages, ∀ op ∈ c.ops, op.Valid) : ∃ bodies alphas fonts pageIds,
    DocInv F font (runDoc F font pages) bodies alphas fonts pageIds pages ∧
      fonts.map (·.1) = firstUses [] (pages.flatMap fun c => shownFonts font c.ops) := by
  have key : ∀ (ps : List (PageCalls R)) (d : Doc R) (bodies : List (Body R)) (alphas : List R) (fonts : List (Nat × Nat))
      (pageIds : List Nat) (pre : List (PageCalls R)), DocInv F font d bodies alphas fonts pageIds pre →
      (∀ c ∈ ps, ∀ op ∈ c.ops, op.Valid) →
      fonts.map (·.1) = firstUses [] (pre.flatMap fun c => shownFonts font c.ops) →
      ∃ bodies alphas fonts pageIds, DocInv F font (ps.foldl (Verif.Pdf.runPage F font) d) bodies alphas fonts pageIds (pre ++ ps) ∧
        fonts.map (·.1) = firstUses [] ((pre ++ ps).flatMap fun c => shownFonts font c.ops) := by
    intro ps
    induction ps with
    | nil =>
      intro d bodies alphas fonts pageIds pre h _ hf
      exact ⟨bodies, alphas, fonts, pageIds, by simpa using h, by simpa using hf⟩
    | cons c ps ih =>
      intro d bodies alphas fonts pageIds pre h ho hf
      obtain ⟨lb, la, lf, id, h1, h2⟩ := h.runPage hl hv c (ho c (by simp))
      have := ih _ _ _ _ _ _ h1 (fun c hc => ho c (by simp [hc])) (by
        rw [h2, hf, List.flatMap_append, firstUses_append]; simp)
      simpa using this
  have := key pages Doc.new [] [] [] [] [] (DocInv.new font) ho rfl
  unfold Verif.Pdf.runDoc
  simpa using this

end

end Verif.Pdf
