/- Lemmas about the cascade. -/
import Verif.Style.BlockLemmas
namespace Verif.Style
open Spec

theorem set_self (v : Values) (p : Longhand) (x : p.kind.Value) : v.set p x p = x := by simp [Values.set]

theorem set_ne (v : Values) {p q : Longhand} (x : p.kind.Value) (h : p ≠ q) : v.set p x q = v q := by simp [Values.set, h]

theorem initialValues_eq : initialValues = Spec.initial := by
  funext p; cases p <;> rfl

theorem isInherited_iff (p : Longhand) : p.isInherited = true ↔ Inherited p := by
  cases p <;> simp [Longhand.isInherited, Inherited]

theorem isEarly_iff (p : Longhand) : p.isEarly = true ↔ p = .fontSize := by simp [Longhand.isEarly]

theorem compute_eq (fs : Rat) (l : SpecifiedLength) : l.compute fs = px fs l := by
  cases l with
  | absolute x => rfl
  | em x => exact mul_comm _ _

theorem computed_late (computed inherited : Values) (p : Longhand) (hp : p ≠ .fontSize) (v : p.kind.Specified) :
    fromSpecified computed inherited p.kind v = Spec.computed computed.fontSize inherited p v := by
  cases p
  case fontSize => exact absurd rfl hp
  case color => cases (v : Color) <;> rfl
  case position | float | display => rfl
  case top | left | bottom | right | width | height | marginTop | marginLeft | marginBottom | marginRight =>
    cases (v : SpecifiedLengthOrPercentageOrAuto) with
    | length l => exact congrArg LengthOrPercentageOrAuto.length (compute_eq _ l)
    | percentage x => rfl
    | auto => rfl
  case paddingTop | paddingLeft | paddingBottom | paddingRight =>
    cases (v : SpecifiedLengthOrPercentage) with
    | length l => exact congrArg LengthOrPercentage.length (compute_eq _ l)
    | percentage x => rfl
  case borderTopWidth | borderLeftWidth | borderBottomWidth | borderRightWidth =>
    cases (v : SpecifiedLengthOrPercentage) with
    | length l => exact congrArg LengthOrPercentage.length (compute_eq _ l)
    | percentage x => rfl
  all_goals rfl

theorem cssWide_value (p : Longhand) (k : CssWideKeyword) (computed inherited : Values) :
    cascadeCssWide p k computed inherited = computed.set p (valueOf computed.fontSize inherited (.cssWide p k)) := by
  unfold cascadeCssWide
  cases k
  · rfl
  · simp only [initialValues_eq]; rfl
  · simp only [initialValues_eq, valueOf, unset]
    congr 1
    by_cases h : Inherited p
    · simp [h, (isInherited_iff p).mpr h]
    · have : p.isInherited = false := by simpa using mt (isInherited_iff p).mp h
      simp [h, this]

theorem early_cascade (inherited computed : Values) (d : Declaration) (h : d.longhand = .fontSize) (fs : Rat) :
    Phase.early.cascade inherited computed d = computed.set d.longhand (valueOf fs inherited d) := by
  cases d with
  | value p v =>
    change p = _ at h
    subst h
    change computed.set .fontSize (fontSizeFromSpecified inherited v) = computed.set .fontSize _
    congr 1
    cases (v : SpecifiedLength) with
    | absolute x => rfl
    | em x => exact mul_comm (inherited.fontSize) x
  | cssWide p k =>
    change p = _ at h
    subst h
    have : Phase.early.cascade inherited computed (Declaration.cssWide Longhand.fontSize k) =
      cascadeCssWide .fontSize k computed inherited := rfl
    rw [this, cssWide_value]
    cases k <;> rfl

theorem late_cascade (inherited computed : Values) (d : Declaration) (h : d.longhand ≠ .fontSize) :
    Phase.late.cascade inherited computed d = computed.set d.longhand (valueOf computed.fontSize inherited d) := by
  have he : d.longhand.isEarly = false := by simpa using mt (isEarly_iff _).mp h
  cases d with
  | value p v =>
    simp only [Declaration.longhand] at he h
    simp only [Phase.cascade, Declaration.ifLateCascadeInto, he, Declaration.longhand, valueOf]
    rw [computed_late computed inherited p h v]
    rfl
  | cssWide p k =>
    simp only [Declaration.longhand] at he h
    simp only [Phase.cascade, Declaration.ifLateCascadeInto, he, Declaration.longhand]
    exact cssWide_value p k computed inherited

/-- The last of a list of declarations that is for a property. -/
def IsLast (ds : List Declaration) (d : Declaration) : Prop :=
  ∃ before after, ds = before ++ d :: after ∧ ∀ d' ∈ after, d'.longhand ≠ d.longhand

theorem isLast_or (ds : List Declaration) (p : Longhand) :
    (∃ d, IsLast ds d ∧ d.longhand = p) ∨ ∀ d ∈ ds, d.longhand ≠ p := by
  induction ds with
  | nil => exact .inr (by simp)
  | cons d ds ih =>
    rcases ih with ⟨d', ⟨b, a, rfl, ha⟩, h⟩ | h
    · exact .inl ⟨d', ⟨d :: b, a, rfl, ha⟩, h⟩
    · by_cases hd : d.longhand = p
      · exact .inl ⟨d, ⟨[], ds, rfl, by rw [hd]; exact h⟩, hd⟩
      · exact .inr (by intro d' hd'; rcases List.mem_cons.mp hd' with rfl | h'; exact hd; exact h d' h')

/-- A pass of one phase does not change a property it has no declaration for, or that is of the other phase. -/
theorem foldl_unchanged (phase : Phase) (inherited : Values) (p : Longhand) : ∀ (ds : List Declaration) (computed : Values),
    (∀ d ∈ ds, d.longhand ≠ p ∨ (match phase with | .early => d.longhand.isEarly | .late => !d.longhand.isEarly) = false) →
    ds.foldl (phase.cascade inherited) computed p = computed p
  | [], _, _ => rfl
  | d :: ds, computed, h => by
    rw [List.foldl_cons, foldl_unchanged phase inherited p ds _ (fun d' hd' => h d' (List.mem_cons_of_mem _ hd'))]
    cases hp : (match phase with | .early => d.longhand.isEarly | .late => !d.longhand.isEarly) with
    | false => rw [cascade_other phase inherited computed d hp]
    | true =>
      have hne : d.longhand ≠ p := by
        rcases h d (List.mem_cons_self ..) with h | h
        · exact h
        · rw [hp] at h; cases h
      cases phase with
      | early =>
        rw [early_cascade inherited computed d ((isEarly_iff _).mp hp) 0, set_ne _ _ hne]
      | late =>
        rw [late_cascade inherited computed d, set_ne _ _ hne]
        intro he
        rw [(isEarly_iff _).mpr he] at hp
        cases hp

theorem late_fontSize (inherited : Values) (ds : List Declaration) (computed : Values) :
    ds.foldl (Phase.late.cascade inherited) computed .fontSize = computed .fontSize := by
  apply foldl_unchanged
  intro d _
  by_cases h : d.longhand = .fontSize
  · right; simp [(isEarly_iff _).mpr h]
  · exact .inl h

/-- Both passes over the same declarations: the last declaration of each property decides. -/
theorem two_phases (inherited start : Values) (ds : List Declaration) :
    (∀ d, IsLast ds d → ds.foldl (Phase.late.cascade inherited) (ds.foldl (Phase.early.cascade inherited) start) d.longhand =
      valueOf (ds.foldl (Phase.late.cascade inherited) (ds.foldl (Phase.early.cascade inherited) start)).fontSize inherited d) ∧
    ∀ p, (∀ d ∈ ds, d.longhand ≠ p) →
      ds.foldl (Phase.late.cascade inherited) (ds.foldl (Phase.early.cascade inherited) start) p = start p := by
  constructor
  · intro d hd
    have hfs : (ds.foldl (Phase.late.cascade inherited) (ds.foldl (Phase.early.cascade inherited) start)).fontSize =
        (ds.foldl (Phase.early.cascade inherited) start).fontSize := late_fontSize _ _ _
    obtain ⟨before, after, rfl, hafter⟩ := hd
    by_cases h : d.longhand = .fontSize
    · have h1 : ∀ fs, (before ++ d :: after).foldl (Phase.early.cascade inherited) start d.longhand = valueOf fs inherited d := by
        intro fs
        rw [List.foldl_append, List.foldl_cons, foldl_unchanged .early inherited _ after _ (fun d' hd' => .inl (hafter d' hd')),
          early_cascade inherited _ d h fs, set_self]
      rw [← h1]
      apply foldl_unchanged
      intro d' _
      by_cases h' : d'.longhand = d.longhand
      · right; simp [(isEarly_iff _).mpr (h'.trans h)]
      · exact .inl h'
    · rw [hfs]
      generalize hv : (before ++ d :: after).foldl (Phase.early.cascade inherited) start = v
      rw [List.foldl_append, List.foldl_cons, foldl_unchanged .late inherited _ after _ (fun d' hd' => .inl (hafter d' hd')),
        late_cascade inherited _ d h, set_self]
      have : (before.foldl (Phase.late.cascade inherited) v).fontSize = v.fontSize := late_fontSize inherited before v
      rw [this]
  · intro p hp
    rw [foldl_unchanged .late inherited p ds _ (fun d hd => .inl (hp d hd)),
      foldl_unchanged .early inherited p ds _ (fun d hd => .inl (hp d hd))]

/-- The declarations that apply, in the order in which they are applied. -/
def MatchingDeclarations.sequence (m : MatchingDeclarations) : List Declaration :=
  m.ua.flatMap (fun b => ofImportance false b.entries) ++ m.author.flatMap (fun b => ofImportance false b.entries) ++
    m.author.flatMap (fun b => ofImportance true b.entries) ++ m.ua.flatMap (fun b => ofImportance true b.entries)

theorem foldl_blocks (phase : Phase) (inherited : Values) (important : Bool) : ∀ (bs : List DeclarationBlock) (computed : Values),
    (∀ b ∈ bs, b.Good) →
    bs.foldl (fun c b => if important then b.cascadeImportant phase inherited c else b.cascadeNormal phase inherited c) computed =
    (bs.flatMap (fun b => ofImportance important b.entries)).foldl (phase.cascade inherited) computed
  | [], _, _ => rfl
  | b :: bs, computed, h => by
    rw [List.foldl_cons, List.flatMap_cons, List.foldl_append, foldl_blocks phase inherited important bs _
      (fun b' hb' => h b' (List.mem_cons_of_mem _ hb'))]
    obtain ⟨h1, h2⟩ := cascade_good (h b (List.mem_cons_self ..)) phase inherited computed
    cases important
    · simp only [Bool.false_eq_true, if_false]; rw [h1]
    · simp only [if_true]; rw [h2]

theorem cascade_sequence (m : MatchingDeclarations) (hua : ∀ b ∈ m.ua, b.Good) (ha : ∀ b ∈ m.author, b.Good) (phase : Phase)
    (inherited computed : Values) :
    m.cascade phase inherited computed = m.sequence.foldl (phase.cascade inherited) computed := by
  unfold MatchingDeclarations.cascade MatchingDeclarations.sequence
  rw [List.foldl_append, List.foldl_append, List.foldl_append, ← foldl_blocks phase inherited true _ _ hua,
    ← foldl_blocks phase inherited true _ _ ha, ← foldl_blocks phase inherited false _ _ ha,
    ← foldl_blocks phase inherited false _ _ hua]
  simp

theorem mergeSort_zipIdx_fst {α : Type} (l : List α) (le : α → α → Bool) :
    (l.zipIdx.mergeSort (List.zipIdxLE le)).map Prod.fst = l.mergeSort le := List.mergeSort_zipIdx

/-- The candidates of one importance in a list of rules, in the order in which they are applied. -/
def candidatesOf {σ : Type} (specificity : σ → Nat) (isMatch : σ → Bool) (origin : Origin) (important : Bool)
    (rules : List (σ × List (Declaration × Bool))) : List Candidate :=
  ((rules.zipIdx.mergeSort (List.zipIdxLE (fun a b => decide (specificity a.1 ≤ specificity b.1)))).filter
    (fun r => isMatch r.1.1)).flatMap fun r =>
      ((r.1.2.zipIdx.filter (fun e => e.1.2 == important)).map fun e =>
        { origin := origin, important := e.1.2, inline := false, specificity := specificity r.1.1, order := r.2, position := e.2,
          declaration := e.1.1 })

/-- The candidates of one importance in the attribute. -/
def candidatesOfAttr (important : Bool) (attr : List (Declaration × Bool)) : List Candidate :=
  (attr.zipIdx.filter (fun e => e.1.2 == important)).map fun e =>
    { origin := .author, important := e.1.2, inline := true, specificity := 0, order := 0, position := e.2,
      declaration := e.1.1 }

theorem zipIdx_filter_fst {α : Type} (l : List α) (f : α → Bool) (k : Nat) :
    ((l.zipIdx k).filter (fun e => f e.1)).map Prod.fst = l.filter f := by
  induction l generalizing k with
  | nil => rfl
  | cons a l ih =>
    rw [List.zipIdx_cons, List.filter_cons, List.filter_cons]
    cases f a <;> simp [ih]

theorem attr_declarations (important : Bool) (attr : List (Declaration × Bool)) :
    (candidatesOfAttr important attr).map Candidate.declaration = ofImportance important attr := by
  unfold candidatesOfAttr ofImportance
  rw [List.map_map, ← zipIdx_filter_fst attr (fun e => e.2 == important) 0, List.map_map]
  rfl

theorem candidates_declarations {σ : Type} (specificity : σ → Nat) (isMatch : σ → Bool) (origin : Origin) (important : Bool)
    (rules : List (σ × List (Declaration × Bool))) :
    (candidatesOf specificity isMatch origin important rules).map Candidate.declaration =
      ((rules.mergeSort (fun a b => decide (specificity a.1 ≤ specificity b.1))).filter (fun r => isMatch r.1)).flatMap
        (fun r => ofImportance important r.2) := by
  rw [← mergeSort_zipIdx_fst]
  unfold candidatesOf
  rw [List.map_flatMap, List.filter_map, List.flatMap_map]
  congr 1
  funext r
  unfold ofImportance
  rw [List.map_map, ← zipIdx_filter_fst r.1.2 (fun e => e.2 == important) 0, List.map_map]
  rfl

theorem pairwise_zipIdx {α : Type} (l : List α) (k : Nat) : (l.zipIdx k).Pairwise (fun a b => a.2 < b.2) := by
  induction l generalizing k with
  | nil => exact .nil
  | cons a l ih =>
    rw [List.zipIdx_cons]
    refine .cons ?_ (ih _)
    intro e he
    have := List.le_snd_of_mem_zipIdx he
    exact this

theorem pairwise_attr (important : Bool) (attr : List (Declaration × Bool)) :
    (candidatesOfAttr important attr).Pairwise (fun a b => Beats b a) := by
  unfold candidatesOfAttr
  rw [List.pairwise_map]
  refine List.Pairwise.imp_of_mem ?_ ((pairwise_zipIdx attr 0).filter _)
  intro a b ha hb h
  have ha := (List.mem_filter.mp ha).2
  have hb := (List.mem_filter.mp hb).2
  simp only [beq_iff_eq] at ha hb
  exact .inr ⟨by simp [Candidate.level, ha, hb], .inr ⟨rfl, .inr ⟨rfl, .inr ⟨rfl, h⟩⟩⟩⟩

theorem pairwise_rules {σ : Type} (specificity : σ → Nat) (rules : List (σ × List (Declaration × Bool))) :
    (rules.zipIdx.mergeSort (List.zipIdxLE (fun a b => decide (specificity a.1 ≤ specificity b.1)))).Pairwise
      (fun a b => specificity a.1.1 < specificity b.1.1 ∨ specificity a.1.1 = specificity b.1.1 ∧ a.2 < b.2) := by
  have h1 := List.pairwise_mergeSort (le := List.zipIdxLE (fun a b : σ × List (Declaration × Bool) => decide (specificity a.1 ≤ specificity b.1)))
    (by
      intro a b c
      simp only [List.zipIdxLE, decide_eq_true_eq]
      grind)
    (by
      intro a b
      simp only [List.zipIdxLE, decide_eq_true_eq]
      grind) rules.zipIdx
  have h2 : (rules.zipIdx.mergeSort (List.zipIdxLE (fun a b => decide (specificity a.1 ≤ specificity b.1)))).Pairwise
      (fun a b => a.2 ≠ b.2) := by
    refine (List.mergeSort_perm _ _).symm.pairwise ?_ ?_
    · exact (pairwise_zipIdx rules 0).imp (fun h => Nat.ne_of_lt h)
    · exact fun h => Ne.symm h
  refine List.Pairwise.imp ?_ (h1.and h2)
  rintro a b ⟨h, hne⟩
  simp only [List.zipIdxLE, decide_eq_true_eq] at h
  split at h
  · split at h
    · simp only [decide_eq_true_eq] at h; right; omega
    · left; omega
  · cases h

theorem pairwise_candidates {σ : Type} (specificity : σ → Nat) (isMatch : σ → Bool) (origin : Origin) (important : Bool)
    (rules : List (σ × List (Declaration × Bool))) :
    (candidatesOf specificity isMatch origin important rules).Pairwise (fun a b => Beats b a) := by
  unfold candidatesOf
  rw [List.pairwise_flatMap]
  constructor
  · intro r _
    rw [List.pairwise_map]
    refine List.Pairwise.imp_of_mem ?_ ((pairwise_zipIdx r.1.2 0).filter _)
    intro a b ha hb h
    have ha := (List.mem_filter.mp ha).2
    have hb := (List.mem_filter.mp hb).2
    simp only [beq_iff_eq] at ha hb
    exact .inr ⟨by simp [Candidate.level, ha, hb], .inr ⟨rfl, .inr ⟨rfl, .inr ⟨rfl, h⟩⟩⟩⟩
  · refine List.Pairwise.imp ?_ ((pairwise_rules specificity rules).filter _)
    intro r s h x hx y hy
    obtain ⟨a, ha, rfl⟩ := List.mem_map.mp hx
    obtain ⟨b, hb, rfl⟩ := List.mem_map.mp hy
    have ha := (List.mem_filter.mp ha).2
    have hb := (List.mem_filter.mp hb).2
    simp only [beq_iff_eq] at ha hb
    refine .inr ⟨by simp [Candidate.level, ha, hb], .inr ⟨rfl, ?_⟩⟩
    rcases h with h | ⟨h, h'⟩
    · exact .inl h
    · exact .inr ⟨h, .inl h'⟩

theorem mem_candidates {σ : Type} (specificity : σ → Nat) (isMatch : σ → Bool) (origin : Origin) (important : Bool)
    (rules : List (σ × List (Declaration × Bool))) (c : Candidate) :
    c ∈ candidatesOf specificity isMatch origin important rules ↔ c.inline = false ∧ c.origin = origin ∧ c.important = important ∧
      ∃ s contents, rules[c.order]? = some (s, contents) ∧ isMatch s = true ∧ c.specificity = specificity s ∧
        contents[c.position]? = some (c.declaration, c.important) := by
  unfold candidatesOf
  simp only [List.mem_flatMap, List.mem_filter, List.mem_mergeSort, List.mem_map, beq_iff_eq]
  constructor
  · rintro ⟨⟨⟨s, contents⟩, i⟩, ⟨hr, hm⟩, ⟨⟨d, imp⟩, j⟩, ⟨he, hi⟩, rfl⟩
    exact ⟨rfl, rfl, hi, s, contents, List.mem_zipIdx_iff_getElem?.mp hr, hm, rfl, List.mem_zipIdx_iff_getElem?.mp he⟩
  · rintro ⟨h1, h2, h3, s, contents, hr, hm, hs, he⟩
    refine ⟨((s, contents), c.order), ⟨List.mem_zipIdx_iff_getElem?.mpr hr, hm⟩, ((c.declaration, c.important), c.position),
      ⟨List.mem_zipIdx_iff_getElem?.mpr he, h3⟩, ?_⟩
    cases c
    simp only at h1 h2 hs
    simp [h1, h2, hs]

theorem mem_attr (important : Bool) (attr : List (Declaration × Bool)) (c : Candidate) :
    c ∈ candidatesOfAttr important attr ↔ c.inline = true ∧ c.origin = .author ∧ c.important = important ∧ c.specificity = 0 ∧
      c.order = 0 ∧ attr[c.position]? = some (c.declaration, c.important) := by
  unfold candidatesOfAttr
  simp only [List.mem_filter, List.mem_map, beq_iff_eq]
  constructor
  · rintro ⟨⟨⟨d, imp⟩, j⟩, ⟨he, hi⟩, rfl⟩
    exact ⟨rfl, rfl, hi, rfl, rfl, List.mem_zipIdx_iff_getElem?.mp he⟩
  · rintro ⟨h1, h2, h3, h4, h5, he⟩
    refine ⟨((c.declaration, c.important), c.position), ⟨List.mem_zipIdx_iff_getElem?.mpr he, h3⟩, ?_⟩
    cases c
    simp only at h1 h2 h4 h5
    simp [h1, h2, h4, h5]

/-- All candidates, in the order in which they are applied. -/
def allCandidates {σ : Type} (specificity : σ → Nat) (isMatch : σ → Bool) (ua author : List (σ × List (Declaration × Bool)))
    (attr : List (Declaration × Bool)) : List Candidate :=
  candidatesOf specificity isMatch .userAgent false ua ++
    (candidatesOf specificity isMatch .author false author ++ candidatesOfAttr false attr) ++
    (candidatesOf specificity isMatch .author true author ++ candidatesOfAttr true attr) ++
    candidatesOf specificity isMatch .userAgent true ua

theorem mem_allCandidates {σ : Type} (specificity : σ → Nat) (isMatch : σ → Bool) (ua author : List (σ × List (Declaration × Bool)))
    (attr : List (Declaration × Bool)) (c : Candidate) :
    c ∈ allCandidates specificity isMatch ua author attr ↔ Applies specificity isMatch ua author attr c := by
  unfold allCandidates Applies
  simp only [List.mem_append, mem_candidates, mem_attr]
  rcases c with ⟨origin, important, inline, sp, o, pos, d⟩
  cases inline <;> cases origin <;> cases important <;> simp

theorem pairwise_allCandidates {σ : Type} (specificity : σ → Nat) (isMatch : σ → Bool) (ua author : List (σ × List (Declaration × Bool)))
    (attr : List (Declaration × Bool)) :
    (allCandidates specificity isMatch ua author attr).Pairwise (fun a b => Beats b a) := by
  have author (important : Bool) : (candidatesOf specificity isMatch .author important author ++
      candidatesOfAttr important attr).Pairwise (fun a b => Beats b a) := by
    refine List.pairwise_append.mpr ⟨pairwise_candidates .., pairwise_attr .., ?_⟩
    intro a ha b hb
    obtain ⟨a1, a2, a3, _⟩ := (mem_candidates ..).mp ha
    obtain ⟨b1, b2, b3, _⟩ := (mem_attr ..).mp hb
    exact .inr ⟨by simp [Candidate.level, a2, a3, b2, b3], .inl ⟨a1, b1⟩⟩
  unfold allCandidates
  refine List.pairwise_append.mpr ⟨List.pairwise_append.mpr ⟨List.pairwise_append.mpr
    ⟨pairwise_candidates .., author false, ?_⟩, author true, ?_⟩, pairwise_candidates .., ?_⟩
  · intro a ha b hb
    simp only [List.mem_append, mem_candidates, mem_attr] at ha hb
    obtain ⟨_, a2, a3, _⟩ := ha
    rcases hb with ⟨_, b2, b3, _⟩ | ⟨_, b2, b3, _⟩ <;>
      exact .inl (by simp [Candidate.level, a2, a3, b2, b3])
  · intro a ha b hb
    simp only [List.mem_append, mem_candidates, mem_attr] at ha hb
    rcases ha with ⟨_, a2, a3, _⟩ | ⟨_, a2, a3, _⟩ | ⟨_, a2, a3, _⟩ <;> rcases hb with ⟨_, b2, b3, _⟩ | ⟨_, b2, b3, _⟩ <;>
      exact .inl (by simp [Candidate.level, a2, a3, b2, b3])
  · intro a ha b hb
    simp only [List.mem_append, mem_candidates, mem_attr] at ha hb
    obtain ⟨_, b2, b3, _⟩ := hb
    rcases ha with (⟨_, a2, a3, _⟩ | ⟨_, a2, a3, _⟩ | ⟨_, a2, a3, _⟩) | ⟨_, a2, a3, _⟩ | ⟨_, a2, a3, _⟩ <;>
      exact .inl (by simp [Candidate.level, a2, a3, b2, b3])

/-- The rules of a style set hold the contents of their sources. -/
def RulesMatch {σ : Type} (set : List (σ × DeclarationBlock)) (rules : List (σ × List (Declaration × Bool))) : Prop :=
  set.map (fun r => (r.1, r.2.entries)) = rules ∧ ∀ r ∈ set, r.2.Good

theorem addStylesheet_spec {σ : Type} {colors : Colors} : ∀ {sheet : List (SourceRule σ)} {set set' : StyleSet σ}
    {rules rest : List (σ × List (Declaration × Bool))}, addStylesheet colors set sheet = .ok set' → RulesMatch set.rules rules →
    Appearances colors sheet rest → RulesMatch set'.rules (rules ++ rest)
  | [], set, set', rules, rest, h, hm, ha => by
    cases h; cases ha; simpa using hm
  | none :: sheet, set, set', rules, rest, h, hm, ha => by
    cases ha with
    | invalid _ _ ha => exact addStylesheet_spec (sheet := sheet) h hm ha
  | some (selectors, items) :: sheet, set, set', rules, rest, h, hm, ha => by
    cases ha with
    | rule _ _ _ contents rest' hc ha =>
      unfold addStylesheet at h
      cases hb : DeclarationBlock.parse colors items with
      | err => rw [hb] at h; cases h
      | panic => rw [hb] at h; cases h
      | ok block =>
        rw [hb] at h
        dsimp only at h
        obtain ⟨hg, hc'⟩ := parse_spec hb
        have he := contents_unique hc hc'
        rw [← List.append_assoc]
        refine addStylesheet_spec (sheet := sheet) h ⟨?_, ?_⟩ ha
        · rw [List.map_append, hm.1, List.map_map, he]; rfl
        · intro r hr
          rcases List.mem_append.mp hr with hr | hr
          · exact hm.2 r hr
          · obtain ⟨s, _, rfl⟩ := List.mem_map.mp hr
            exact hg

theorem appearances_append {σ : Type} {colors : Colors} : ∀ {a b : List (SourceRule σ)} {rules : List (σ × List (Declaration × Bool))},
    Appearances colors (a ++ b) rules → ∃ ra rb, rules = ra ++ rb ∧ Appearances colors a ra ∧ Appearances colors b rb
  | [], b, rules, h => ⟨[], rules, rfl, .nil, h⟩
  | x :: a, b, rules, h => by
    rw [List.cons_append] at h
    cases h with
    | invalid _ _ h =>
      obtain ⟨ra, rb, h1, h2, h3⟩ := appearances_append h
      exact ⟨ra, rb, h1, .invalid _ _ h2, h3⟩
    | rule selectors items _ contents rest hc h =>
      obtain ⟨ra, rb, rfl, h2, h3⟩ := appearances_append h
      exact ⟨_, rb, (List.append_assoc _ _ _).symm, .rule _ _ _ _ _ hc h2, h3⟩

theorem addStylesheets_spec {σ : Type} {colors : Colors} : ∀ {sheets : List (List (SourceRule σ))} {set set' : StyleSet σ}
    {rules rest : List (σ × List (Declaration × Bool))}, addStylesheets colors set sheets = .ok set' → RulesMatch set.rules rules →
    Appearances colors sheets.flatten rest → RulesMatch set'.rules (rules ++ rest)
  | [], set, set', rules, rest, h, hm, ha => by
    cases h; cases ha; simpa using hm
  | sheet :: sheets, set, set', rules, rest, h, hm, ha => by
    rw [List.flatten_cons] at ha
    obtain ⟨ra, rb, rfl, h1, h2⟩ := appearances_append ha
    unfold addStylesheets at h
    cases hs : addStylesheet colors set sheet with
    | err => rw [hs] at h; cases h
    | panic => rw [hs] at h; cases h
    | ok set1 =>
      rw [hs] at h
      rw [← List.append_assoc]
      exact addStylesheets_spec (sheets := sheets) h (addStylesheet_spec hs hm h1) h2

theorem finish_matching {σ : Type} {set : StyleSet σ} {rules : List (σ × List (Declaration × Bool))} (h : RulesMatch set.rules rules)
    (specificity : σ → Nat) (isMatch : σ → Bool) (important : Bool) :
    ((set.finish specificity).pushMatching isMatch []).flatMap (fun b => ofImportance important b.entries) =
      ((rules.mergeSort (fun a b => decide (specificity a.1 ≤ specificity b.1))).filter (fun r => isMatch r.1)).flatMap
        (fun r => ofImportance important r.2) := by
  unfold StyleSet.finish StyleSet.pushMatching
  rw [← h.1, ← List.map_mergeSort (r := fun a b : σ × DeclarationBlock => decide (specificity a.1 ≤ specificity b.1)) (by intros; rfl),
    List.filter_map, List.nil_append, List.flatMap_map, List.flatMap_map]
  rfl

theorem finish_good {σ : Type} {set : StyleSet σ} {rules : List (σ × List (Declaration × Bool))} (h : RulesMatch set.rules rules)
    (specificity : σ → Nat) (isMatch : σ → Bool) : ∀ b ∈ (set.finish specificity).pushMatching isMatch [], b.Good := by
  intro b hb
  unfold StyleSet.finish StyleSet.pushMatching at hb
  simp only [List.nil_append, List.mem_map, List.mem_filter, List.mem_mergeSort] at hb
  obtain ⟨r, ⟨hr, _⟩, rfl⟩ := hb
  exact h.2 r hr

theorem styleAttrBlock_spec {colors : Colors} {tokenize : String → List Item} {element : Verif.Dom.ElementData}
    {blocks : List DeclarationBlock} {attr : List (Declaration × Bool)} (h : styleAttrBlock colors tokenize element = .ok blocks)
    (ha : AttrContents colors tokenize element attr) :
    (∀ b ∈ blocks, b.Good) ∧ ∀ important, blocks.flatMap (fun b => ofImportance important b.entries) = ofImportance important attr := by
  unfold styleAttrBlock at h
  unfold AttrContents at ha
  by_cases hns : element.name.ns ∈ styleAttrNamespaces
  · have hns' : element.name.ns = "http://www.w3.org/1999/xhtml" ∨ element.name.ns = "http://www.w3.org/2000/svg" ∨
      element.name.ns = "http://www.w3.org/1998/Math/MathML" := by
      simpa [styleAttrNamespaces, Verif.Dom.htmlNs] using hns
    rw [if_pos hns] at h
    rw [if_pos hns'] at ha
    cases hs : element.getAttr "style" with
    | none =>
      rw [hs] at h ha
      cases h
      simp only at ha
      subst ha
      exact ⟨by simp, fun _ => rfl⟩
    | some text =>
      rw [hs] at h ha
      simp only at h ha
      cases hb : DeclarationBlock.parse colors (tokenize text) with
      | err => rw [hb] at h; cases h
      | panic => rw [hb] at h; cases h
      | ok block =>
        rw [hb] at h
        cases h
        obtain ⟨hg, hc⟩ := parse_spec hb
        rw [contents_unique ha hc]
        exact ⟨by simpa using hg, fun _ => by simp⟩
  · have hns' : ¬ (element.name.ns = "http://www.w3.org/1999/xhtml" ∨ element.name.ns = "http://www.w3.org/2000/svg" ∨
      element.name.ns = "http://www.w3.org/1998/Math/MathML") := by
      simpa [styleAttrNamespaces, Verif.Dom.htmlNs] using hns
    rw [if_neg hns] at h
    rw [if_neg hns'] at ha
    cases h
    subst ha
    exact ⟨by simp, fun _ => rfl⟩

end Verif.Style
