/- Lemmas about declaration blocks. -/
import Verif.Style.ParseLemmas
namespace Verif.Style
open Spec

theorem cssWide_eq (ts : List Token) (k : CssWideKeyword) (rest : List Token) :
    CssWideKeyword.parse ts = some (k, rest) ↔ ∃ s, ts = .ident s :: rest ∧ IsCssWide s k := by
  match ts with
  | [] => simp [CssWideKeyword.parse, parseKeyword, expectIdent]
  | .ident s :: rest' =>
    simp only [CssWideKeyword.parse, parseKeyword, expectIdent, List.lookup, List.cons.injEq, Token.ident.injEq, IsCssWide]
    by_cases h1 : s = "inherit"
    · subst h1; simp; grind
    · by_cases h2 : s = "initial"
      · subst h2; simp; grind
      · by_cases h3 : s = "unset"
        · subst h3; simp; grind
        · simp [h1, h2, h3]; grind
  | .dimension _ _ :: _ | .number _ :: _ | .percentage _ :: _ | .delim _ :: _ | .other _ :: _ =>
    simp [CssWideKeyword.parse, parseKeyword, expectIdent]

theorem cssWide_cons (t : Token) (ts ts' : List Token) :
    CssWideKeyword.parse (t :: ts) = none ↔ CssWideKeyword.parse (t :: ts') = none := by
  obtain ⟨f, _, h⟩ := atomic_keyword [("inherit", CssWideKeyword.inherit), ("initial", .initial), ("unset", .unset)]
  rw [show CssWideKeyword.parse = atomic f from h]
  simp [atomic]

/-- The phases a list of properties has. -/
def phasesOf (ls : List Longhand) : PerPhase := ⟨ls.any Longhand.isEarly, ls.any (!·.isEarly)⟩

theorem local_parseDeclared {data : PropertyData} (h : Local data.parse) : Local (parseDeclared data) := by
  intro ts r rest hr
  unfold parseDeclared at hr
  cases hc : CssWideKeyword.parse ts with
  | some p =>
    obtain ⟨k, rest1⟩ := p
    obtain ⟨used, h1, h2, h3, h4, h5, h6⟩ := (atomic_keyword [("inherit", CssWideKeyword.inherit), ("initial", .initial),
      ("unset", .unset)]).local ts k rest1 hc
    change CssWideKeyword.parse used = _ at h4
    change ∀ c rest', CssWideKeyword.parse (used ++ Token.delim c :: rest') = _ at h5
    change ∀ rest', CssWideKeyword.parse (used ++ rest') ≠ _ at h6
    rw [hc] at hr
    simp only [Option.some.injEq, Prod.mk.injEq] at hr
    obtain ⟨rfl, rfl⟩ := hr
    refine ⟨used, h1, h2, h3, by simp [parseDeclared, h4], fun c r => by simp [parseDeclared, h5], fun r => ?_⟩
    unfold parseDeclared
    cases hq : CssWideKeyword.parse (used ++ r) with
    | none => exact absurd hq (h6 r)
    | some q => simp
  | none =>
    rw [hc] at hr
    obtain ⟨used, h1, h2, h3, h4, h5, h6⟩ := h ts r rest hr
    have hnone : ∀ l, CssWideKeyword.parse (used ++ l) = none := by
      intro l
      match used, h3 with
      | t :: used, _ =>
        rw [h1] at hc
        exact (cssWide_cons t _ _).mp hc
    have hnil := hnone []
    rw [List.append_nil] at hnil
    exact ⟨used, h1, h2, h3, by simp [parseDeclared, hnil, h4], fun c r => by simp [parseDeclared, hnone, h5],
      fun r => by simp [parseDeclared, hnone, h6]⟩

theorem faithful_parseDeclared {data : PropertyData} (h : Faithful data) (ts : List Token) (ds : List Declaration) (ph : PerPhase)
    (rest : List Token) (hp : parseDeclared data ts = some ((ds, ph), rest)) :
    ph = phasesOf (ds.map Declaration.longhand) ∧ ds ≠ [] := by
  unfold parseDeclared at hp
  split at hp
  · simp only [Option.some.injEq, Prod.mk.injEq] at hp
    obtain ⟨⟨rfl, rfl⟩, _⟩ := hp
    refine ⟨?_, by simpa using h.1⟩
    have : List.map Declaration.longhand (List.map (fun p => Declaration.cssWide p ‹CssWideKeyword›) data.longhands)
        = data.longhands := by
      rw [List.map_map]; exact List.map_id' _
    rw [this]; rfl
  · obtain ⟨h1, h2⟩ := h.2 _ _ _ _ hp
    refine ⟨by rw [h1, h2]; rfl, ?_⟩
    rintro rfl
    exact h.1 h1.symm

theorem setsTo_iff {colors : Colors} {name : String} {data : PropertyData} (hd : propertyDataByName colors name = some data)
    (value : List Token) (ds : List Declaration) :
    SetsTo colors name value ds ↔ ∃ ph, parseDeclared data value = some ((ds, ph), []) := by
  constructor
  · rintro (⟨data', s, k, h1, h2, h3⟩ | ⟨data', ds, ph, h1, h2, h3⟩)
    · rw [hd] at h1; cases h1
      have := (cssWide_eq value k []).mpr ⟨s, h2, h3⟩
      exact ⟨_, by simp [parseDeclared, this]; rfl⟩
    · rw [hd] at h1; cases h1
      refine ⟨ph, ?_⟩
      unfold parseDeclared
      cases hc : CssWideKeyword.parse value with
      | none => exact h3
      | some p =>
        obtain ⟨k, rest⟩ := p
        obtain ⟨s, hs, hk⟩ := (cssWide_eq value k rest).mp hc
        exact absurd hk (h2 s k (by rw [hs]; rfl))
  · rintro ⟨ph, h⟩
    unfold parseDeclared at h
    split at h
    · rename_i k rest hc
      simp only [Option.some.injEq, Prod.mk.injEq] at h
      obtain ⟨⟨rfl, _⟩, rfl⟩ := h
      obtain ⟨s, hs, hk⟩ := (cssWide_eq value k []).mp hc
      exact .cssWide data s k hd hs hk
    · rename_i hc
      refine .value data ds ph hd ?_ h
      intro s k hs hk
      obtain ⟨rest, hr⟩ : ∃ rest, value = .ident s :: rest := by
        cases value with
        | nil => cases hs
        | cons t rest => simp only [List.head?_cons, Option.some.injEq] at hs; exact ⟨rest, by rw [hs]⟩
      rw [(cssWide_eq value k rest).mpr ⟨s, hr, hk⟩] at hc
      cases hc

theorem tryImportant_nil {rest : List Token} {b : Bool} (h : tryImportant rest = (b, [])) :
    b = false ∧ rest = [] ∨ b = true ∧ ∃ s, asciiLower s = "important" ∧ rest = [.delim '!', .ident s] := by
  unfold tryImportant at h
  split at h
  · rename_i rest' hp
    simp only [Prod.mk.injEq] at h
    obtain ⟨rfl, rfl⟩ := h
    refine .inr ⟨rfl, ?_⟩
    unfold parseImportant at hp
    split at hp
    · split at hp
      · cases hp; exact ⟨_, ‹_›, rfl⟩
      · cases hp
    · cases hp
  · simp only [Prod.mk.injEq] at h
    exact .inl ⟨h.1.symm, h.2⟩

theorem tryImportant_important {s : String} (h : asciiLower s = "important") :
    tryImportant [.delim '!', .ident s] = (true, []) := by
  simp [tryImportant, parseImportant, h]

theorem declares_iff (colors : Colors) (name : String) (tokens : List Token) (ds : List Declaration) (imp : Bool) :
    Declares colors name tokens ds imp ↔ ∃ data ph rest, propertyDataByName colors name = some data ∧
      parseDeclared data tokens = some ((ds, ph), rest) ∧ tryImportant rest = (imp, []) := by
  constructor
  · rintro (⟨_, _, h⟩ | ⟨value, s, _, hs, h⟩)
    · obtain ⟨data, hd⟩ : ∃ data, propertyDataByName colors name = some data := by
        cases h with
        | cssWide data _ _ hd => exact ⟨data, hd⟩
        | value data _ _ hd => exact ⟨data, hd⟩
      obtain ⟨ph, hp⟩ := (setsTo_iff hd _ _).mp h
      exact ⟨data, ph, [], hd, hp, rfl⟩
    · obtain ⟨data, hd⟩ : ∃ data, propertyDataByName colors name = some data := by
        cases h with
        | cssWide data _ _ hd => exact ⟨data, hd⟩
        | value data _ _ hd => exact ⟨data, hd⟩
      obtain ⟨ph, hp⟩ := (setsTo_iff hd _ _).mp h
      obtain ⟨used, e1, _, _, _, e5, _⟩ := local_parseDeclared (good_data colors name data hd).1 _ _ _ hp
      rw [List.append_nil] at e1
      subst e1
      exact ⟨data, ph, _, hd, e5 '!' [.ident s], tryImportant_important hs⟩
  · rintro ⟨data, ph, rest, hd, hp, ht⟩
    obtain ⟨used, e1, _, _, e4, _, _⟩ := local_parseDeclared (good_data colors name data hd).1 _ _ _ hp
    have hs := (setsTo_iff hd used ds).mpr ⟨ph, e4⟩
    rcases tryImportant_nil ht with ⟨rfl, rfl⟩ | ⟨rfl, s, hs', rfl⟩
    · rw [e1, List.append_nil]; exact .normal _ _ hs
    · rw [e1]; exact .important _ s _ hs' hs

theorem declares_unique {colors : Colors} {name : String} {tokens : List Token} {ds ds' : List Declaration} {imp imp' : Bool}
    (h : Declares colors name tokens ds imp) (h' : Declares colors name tokens ds' imp') : ds = ds' ∧ imp = imp' := by
  obtain ⟨data, ph, rest, h1, h2, h3⟩ := (declares_iff ..).mp h
  obtain ⟨data', ph', rest', h1', h2', h3'⟩ := (declares_iff ..).mp h'
  rw [h1] at h1'; cases h1'
  rw [h2] at h2'; cases h2'
  rw [h3] at h3'; cases h3'
  exact ⟨rfl, rfl⟩

/-- The item is not valid, but a part of it is, followed by something else. -/
def Trailing (colors : Colors) : Item → Prop
  | .declaration name tokens => ¬ Valid colors (.declaration name tokens) ∧ ∃ k, Valid colors (.declaration name (tokens.take k))
  | .invalid => False

theorem parseItem_valid {colors : Colors} {name : String} {tokens : List Token} {ds : List Declaration} {imp : Bool}
    (h : Declares colors name tokens ds imp) (block : DeclarationBlock) :
    block.parseItem colors (.declaration name tokens) = .ok (block.push ds (phasesOf (ds.map Declaration.longhand)) imp) := by
  obtain ⟨data, ph, rest, h1, h2, h3⟩ := (declares_iff ..).mp h
  obtain ⟨rfl, hne⟩ := faithful_parseDeclared (good_data colors name data h1).2 _ _ _ _ h2
  unfold DeclarationBlock.parseItem DeclarationBlock.parseValue
  simp only [h1, h2, h3]
  rw [if_pos (List.length_pos_iff.mpr hne)]
  simp

theorem parseItem_invalid {colors : Colors} {item : Item} (h : ¬ Valid colors item) (block : DeclarationBlock) :
    block.parseItem colors item = .ok block ∧ ¬ Trailing colors item ∨
    block.parseItem colors item = .panic ∧ Trailing colors item := by
  match item with
  | .invalid => exact .inl ⟨rfl, fun h => h⟩
  | .declaration name tokens =>
    unfold DeclarationBlock.parseItem DeclarationBlock.parseValue
    cases hd : propertyDataByName colors name with
    | none =>
      simp only [hd]
      refine .inl ⟨trivial, ?_⟩
      rintro ⟨_, k, ds, imp, hk⟩
      obtain ⟨_, _, _, h1, _⟩ := (declares_iff ..).mp hk
      rw [hd] at h1; cases h1
    | some data =>
      have hlocal := local_parseDeclared (good_data colors name data hd).1
      simp only [hd]
      cases hp : parseDeclared data tokens with
      | none =>
        simp only
        refine .inl ⟨trivial, ?_⟩
        rintro ⟨_, k, ds, imp, hk⟩
        obtain ⟨data', ph, rest, h1, h2, _⟩ := (declares_iff ..).mp hk
        rw [hd] at h1; cases h1
        obtain ⟨used, e1, _, _, _, _, e6⟩ := hlocal _ _ _ h2
        refine e6 (rest ++ tokens.drop k) ?_
        rw [← List.append_assoc, ← e1, List.take_append_drop]
        exact hp
      | some p =>
        obtain ⟨⟨ds, ph⟩, rest⟩ := p
        obtain ⟨rfl, hne⟩ := faithful_parseDeclared (good_data colors name data hd).2 _ _ _ _ hp
        simp only [if_pos (List.length_pos_iff.mpr hne)]
        have hrest : (tryImportant rest).2 ≠ [] := by
          intro hr
          exact h ⟨ds, (tryImportant rest).1, (declares_iff ..).mpr ⟨data, _, rest, hd, hp, by rw [← hr]⟩⟩
        rw [if_neg hrest, if_neg]
        · refine .inr ⟨rfl, h, ?_⟩
          obtain ⟨used, e1, _, _, e4, _, _⟩ := hlocal _ _ _ hp
          refine ⟨used.length, ds, false, (declares_iff ..).mpr ⟨data, phasesOf (ds.map Declaration.longhand), [], hd, ?_, rfl⟩⟩
          rw [e1, List.take_left]; exact e4
        · have := List.length_pos_iff.mpr hne
          simp only [DeclarationBlock.push, List.length_append]
          omega

/-- The declarations of a block with their importance. -/
def DeclarationBlock.entries (block : DeclarationBlock) : List (Declaration × Bool) := block.declarations.zip block.important

/-- Whether a declaration with an importance is of a phase. -/
def inPhase (phase : Phase) (important : Bool) (e : Declaration × Bool) : Bool :=
  e.2 == important && (match phase with | .early => e.1.longhand.isEarly | .late => !e.1.longhand.isEarly)

/-- The invariant of a block: the flags say which kinds of declaration are there. -/
structure DeclarationBlock.Good (block : DeclarationBlock) : Prop where
  length : block.declarations.length = block.important.length
  normal : ∀ phase, phase.select block.anyNormal = block.entries.any (inPhase phase false)
  important : ∀ phase, phase.select block.anyImportant = block.entries.any (inPhase phase true)

theorem good_empty : ({} : DeclarationBlock).Good :=
  ⟨rfl, by intro p; cases p <;> rfl, by intro p; cases p <;> rfl⟩

theorem zip_replicate {α : Type} (ds : List α) (b : Bool) : ds.zip (List.replicate ds.length b) = ds.map (·, b) := by
  induction ds with
  | nil => rfl
  | cons d ds ih => simp [List.replicate_succ, ih]

theorem entries_push {block : DeclarationBlock} (h : block.Good) (ds : List Declaration) (ph : PerPhase) (imp : Bool) :
    (block.push ds ph imp).entries = block.entries ++ ds.map (·, imp) := by
  unfold DeclarationBlock.entries DeclarationBlock.push
  rw [List.zip_append h.length, zip_replicate]

theorem select_or (phase : Phase) (a b : PerPhase) : phase.select (a.or b) = (phase.select a || phase.select b) := by
  cases phase <;> rfl

theorem any_map_inPhase (phase : Phase) (b imp : Bool) (ds : List Declaration) :
    (ds.map (·, imp)).any (inPhase phase b) = (imp == b && phase.select (phasesOf (ds.map Declaration.longhand))) := by
  rw [List.any_map]
  cases phase <;> cases b <;> cases imp <;>
    simp [inPhase, Phase.select, phasesOf, Function.comp_def, List.any_map]

theorem good_push {block : DeclarationBlock} (h : block.Good) (ds : List Declaration) (imp : Bool) :
    (block.push ds (phasesOf (ds.map Declaration.longhand)) imp).Good := by
  refine ⟨?_, ?_, ?_⟩
  · simp [DeclarationBlock.push, h.length]
  · intro phase
    rw [entries_push h, List.any_append, any_map_inPhase, ← h.normal phase]
    cases imp <;> simp [DeclarationBlock.push, select_or]
  · intro phase
    rw [entries_push h, List.any_append, any_map_inPhase, ← h.important phase]
    cases imp <;> simp [DeclarationBlock.push, select_or]

theorem parseItems_spec (colors : Colors) : ∀ (items : List Item) (block : DeclarationBlock), block.Good →
    (∃ block' contents, block.parseItems colors items = .ok block' ∧ block'.Good ∧ Contents colors items contents ∧
      block'.entries = block.entries ++ contents ∧ ∀ item ∈ items, ¬ Trailing colors item) ∨
    block.parseItems colors items = .panic ∧ ∃ item ∈ items, Trailing colors item
  | [], block, h => .inl ⟨block, [], rfl, h, .nil, by simp, by simp⟩
  | item :: items, block, h => by
    by_cases hv : Valid colors item
    · match item, hv with
      | .declaration name tokens, hv =>
        obtain ⟨ds, imp, hd⟩ := hv
        unfold DeclarationBlock.parseItems
        rw [parseItem_valid hd]
        dsimp only
        rcases parseItems_spec colors items _ (good_push h ds imp) with ⟨block', contents, h1, h2, h3, h4, h5⟩ | ⟨h1, item, h2, h3⟩
        · refine .inl ⟨block', _, h1, h2, .valid name tokens ds imp items contents hd h3, ?_, ?_⟩
          · rw [h4, entries_push h, List.append_assoc]
          · intro item hi
            rcases List.mem_cons.mp hi with rfl | hi
            · exact fun ht => ht.1 ⟨ds, imp, hd⟩
            · exact h5 item hi
        · exact .inr ⟨h1, item, List.mem_cons_of_mem _ h2, h3⟩
    · unfold DeclarationBlock.parseItems
      rcases parseItem_invalid hv block with ⟨hb, hn⟩ | ⟨hb, ht⟩
      · rw [hb]
        dsimp only
        rcases parseItems_spec colors items block h with ⟨block', contents, h1, h2, h3, h4, h5⟩ | ⟨h1, item', h2, h3⟩
        · refine .inl ⟨block', _, h1, h2, .ignored item items contents hv h3, h4, ?_⟩
          intro item' hi
          rcases List.mem_cons.mp hi with rfl | hi
          · exact hn
          · exact h5 item' hi
        · exact .inr ⟨h1, item', List.mem_cons_of_mem _ h2, h3⟩
      · rw [hb]
        exact .inr ⟨rfl, item, List.mem_cons_self .., ht⟩

theorem contents_unique {colors : Colors} {items : List Item} {c : List (Declaration × Bool)} (h : Contents colors items c) :
    ∀ {c'}, Contents colors items c' → c = c' := by
  induction h with
  | nil => intro c' h'; cases h'; rfl
  | valid name tokens ds imp items rest hd _ ih =>
    intro c' h'
    cases h' with
    | valid _ _ ds' imp' _ rest' hd' hr =>
      obtain ⟨rfl, rfl⟩ := declares_unique hd hd'
      rw [ih hr]
    | ignored _ _ _ hn _ => exact absurd ⟨ds, imp, hd⟩ hn
  | ignored item items rest hn _ ih =>
    intro c' h'
    cases h' with
    | valid _ _ ds' imp' _ rest' hd' hr => exact absurd ⟨ds', imp', hd'⟩ hn
    | ignored _ _ _ _ hr => exact ih hr

theorem parse_spec {colors : Colors} {items : List Item} {block : DeclarationBlock}
    (h : DeclarationBlock.parse colors items = .ok block) : block.Good ∧ Contents colors items block.entries := by
  rcases parseItems_spec colors items {} good_empty with ⟨block', contents, h1, h2, h3, h4, _⟩ | ⟨h1, _⟩
  · rw [DeclarationBlock.parse, h1] at h
    cases h
    have : block.entries = contents := by rw [h4]; rfl
    exact ⟨h2, this ▸ h3⟩
  · rw [DeclarationBlock.parse, h1] at h
    cases h

/-- A declaration of the other phase changes nothing. -/
theorem cascade_other (phase : Phase) (inherited computed : Values) (d : Declaration)
    (h : (match phase with | .early => d.longhand.isEarly | .late => !d.longhand.isEarly) = false) :
    phase.cascade inherited computed d = computed := by
  cases phase with
  | early =>
    cases d with
    | value p v =>
      simp only [Declaration.longhand] at h
      cases p <;> first | rfl | (exact absurd h (by decide))
    | cssWide p k =>
      simp only [Declaration.longhand] at h
      simp [Phase.cascade, Declaration.ifEarlyCascadeInto, h]
  | late =>
    simp only [Bool.not_eq_false'] at h
    cases d with
    | value p v => simp only [Declaration.longhand] at h; simp [Phase.cascade, Declaration.ifLateCascadeInto, h]
    | cssWide p k => simp only [Declaration.longhand] at h; simp [Phase.cascade, Declaration.ifLateCascadeInto, h]

/-- The declarations of an importance, in order. -/
def ofImportance (important : Bool) (entries : List (Declaration × Bool)) : List Declaration :=
  (entries.filter (fun e => e.2 == important)).map Prod.fst

theorem foldl_entries (phase : Phase) (inherited : Values) (important : Bool) : ∀ (entries : List (Declaration × Bool)) (computed : Values),
    entries.foldl (fun computed (d : Declaration × Bool) =>
      if d.2 = important then phase.cascade inherited computed d.1 else computed) computed =
    (ofImportance important entries).foldl (phase.cascade inherited) computed
  | [], _ => rfl
  | (d, b) :: entries, computed => by
    rw [List.foldl_cons]
    by_cases hb : b = important
    · subst hb
      rw [foldl_entries phase inherited b entries]
      simp [ofImportance]
    · rw [foldl_entries phase inherited important entries]
      have : (b == important) = false := by simpa using hb
      simp [ofImportance, hb]

theorem foldl_none (phase : Phase) (inherited : Values) (important : Bool) : ∀ (entries : List (Declaration × Bool)) (computed : Values),
    entries.any (inPhase phase important) = false →
    (ofImportance important entries).foldl (phase.cascade inherited) computed = computed
  | [], _, _ => rfl
  | (d, b) :: entries, computed, h => by
    rw [List.any_cons, Bool.or_eq_false_iff] at h
    by_cases hb : b = important
    · subst hb
      have h1 := h.1
      simp only [inPhase, beq_self_eq_true, Bool.true_and] at h1
      simp only [ofImportance, List.filter_cons, beq_self_eq_true, if_true, List.map_cons, List.foldl_cons]
      rw [cascade_other phase inherited computed d h1]
      exact foldl_none phase inherited b entries computed h.2
    · have : (b == important) = false := by simpa using hb
      simp only [ofImportance, List.filter_cons, this]
      exact foldl_none phase inherited important entries computed h.2

theorem cascade_good {block : DeclarationBlock} (h : block.Good) (phase : Phase) (inherited computed : Values) :
    block.cascadeNormal phase inherited computed = (ofImportance false block.entries).foldl (phase.cascade inherited) computed ∧
    block.cascadeImportant phase inherited computed = (ofImportance true block.entries).foldl (phase.cascade inherited) computed := by
  constructor
  · unfold DeclarationBlock.cascadeNormal DeclarationBlock.cascade
    split
    · exact foldl_entries phase inherited false _ computed
    · rename_i hs
      rw [foldl_none]
      rw [← h.normal phase]
      simpa using hs
  · unfold DeclarationBlock.cascadeImportant DeclarationBlock.cascade
    split
    · exact foldl_entries phase inherited true _ computed
    · rename_i hs
      rw [foldl_none]
      rw [← h.important phase]
      simpa using hs

end Verif.Style
