import Verif.Dom.Lemmas2
/- Helper lemmas: every sink call on a consistent document. -/
namespace Verif.Dom

/-- The document node, in terms of the forest. -/
def DocRoot (d : Document) (F : Forest) : Prop :=
  (d.nodes[documentNodeId]?).map (·.data) = some .document ∧ ∀ p, documentNodeId ∉ F p

theorem docRoot_iff {d : Document} {F : Forest} (h : Represents d F) :
    DocumentNodeIsRoot d ↔ DocRoot d F := by
  constructor
  · rintro ⟨n, hn, hd, hp⟩
    refine ⟨by simp [hn, hd], fun p hc => ?_⟩
    obtain ⟨m, h1, h2⟩ := h.mem_parent hc
    rw [hn] at h1; cases h1; rw [hp] at h2; cases h2
  · rintro ⟨hd, hc⟩
    obtain ⟨n, hn, hd⟩ := Option.map_eq_some_iff.1 hd
    exact ⟨n, hn, hd, h.parent_none hn hc⟩

theorem DocRoot.append {d d' : Document} {F : Forest} (h : DocRoot d F) {p n : Nat}
    (hn : n ≠ documentNodeId) (hd : ∀ j : Nat, (d'.nodes[j]?).map (·.data) = (d.nodes[j]?).map (·.data)) :
    DocRoot d' (F.append p n) := by
  refine ⟨by rw [hd]; exact h.1, fun q hc => ?_⟩
  rcases Forest.mem_append hc with hc | ⟨_, hc⟩
  · exact h.2 q hc
  · exact hn hc.symm

theorem DocRoot.insertBefore {d d' : Document} {F : Forest} (h : DocRoot d F) {s n : Nat}
    (hn : n ≠ documentNodeId) (hd : ∀ j : Nat, (d'.nodes[j]?).map (·.data) = (d.nodes[j]?).map (·.data)) :
    DocRoot d' (F.insertBefore s n) := by
  refine ⟨by rw [hd]; exact h.1, fun q hc => ?_⟩
  rcases Forest.mem_insertBeforeList hc with hc | ⟨hc, _⟩
  · exact h.2 q (Forest.mem_detach.1 hc).1
  · exact hn hc.symm

theorem DocRoot.lt {d : Document} {F : Forest} (h : DocRoot d F) : documentNodeId < d.nodes.length := by
  obtain ⟨n, hn, _⟩ := Option.map_eq_some_iff.1 h.1
  exact (List.getElem?_eq_some_iff.1 hn).1

/-- The state invariant of the sink. -/
structure Good (d : Document) (F : Forest) : Prop where
  rep : Represents d F
  acyclic : F.Acyclic
  root : DocRoot d F

/-- The document with one more, unlinked node. -/
def Document.pushed (d : Document) (data : NodeData) : Document := (d.newNode data).1

theorem Document.newNode_eq (d : Document) (data : NodeData) :
    d.newNode data = (d.pushed data, d.nodes.length) := rfl

theorem Good.pushed {d : Document} {F : Forest} (h : Good d F) (data : NodeData) :
    Good (d.pushed data) F where
  rep := h.rep.push data d.styleElements
  acyclic := h.acyclic
  root := by
    refine ⟨?_, h.root.2⟩
    have := h.root.lt
    simp only [Document.pushed, Document.newNode, Document.pushNode]
    rw [List.getElem?_append_left this]; exact h.root.1

theorem Good.fresh {d : Document} {F : Forest} (h : Good d F) (q : Nat) : d.nodes.length ∉ F q := by
  intro hc; exact absurd (h.rep.mem_lt hc) (by omega)

theorem Good.fresh_not_ancestor {d : Document} {F : Forest} (h : Good d F) (q : Nat) :
    ¬ F.Ancestor d.nodes.length q := by
  have key : ∀ a b, F.Ancestor a b → a < d.nodes.length := by
    intro a b hab
    induction hab with
    | parent hc => exact h.rep.parent_lt hc
    | step _ _ ih => exact ih
  intro hc; exact absurd (key _ _ hc) (by omega)

theorem Good.append {d : Document} {F : Forest} (h : Good d F) {n p : Nat} (hm : MayMoveUnder d F n p) :
    ∃ d', d.append p n = some d' ∧ d'.nodes.length = d.nodes.length ∧ d'.styleElements = d.styleElements ∧
      (∀ j : Nat, (d'.nodes[j]?).map (·.data) = (d.nodes[j]?).map (·.data)) ∧ Good d' (F.append p n) := by
  obtain ⟨d', h1, h2, h3, h4, h5⟩ := h.rep.append hm.child_exists hm.parent_exists hm.not_self
  exact ⟨d', h1, h2, h3, h4, h5, Represents.append_acyclic h.acyclic hm.not_self hm.not_ancestor,
    h.root.append hm.not_document h4⟩

theorem Good.insertBefore {d : Document} {F : Forest} (h : Good d F) {n p s : Nat} (hs : s ∈ F p) (hns : n ≠ s)
    (hm : MayMoveUnder d F n p) :
    ∃ d', d.insertBefore s n = some d' ∧ d'.nodes.length = d.nodes.length ∧
      d'.styleElements = d.styleElements ∧
      (∀ j : Nat, (d'.nodes[j]?).map (·.data) = (d.nodes[j]?).map (·.data)) ∧ Good d' (F.insertBefore s n) := by
  obtain ⟨d', h1, h2, h3, h4, h5⟩ := h.rep.insertBefore hm.child_exists hs hns
  exact ⟨d', h1, h2, h3, h4, h5, h.rep.insertBefore_acyclic h.acyclic hs hm.not_self hm.not_ancestor,
    h.root.insertBefore hm.not_document h4⟩

theorem Good.detach {d : Document} {F : Forest} (h : Good d F) {n : Nat} (hn : n < d.nodes.length) :
    ∃ d', d.detach n = some d' ∧ d'.nodes.length = d.nodes.length ∧ d'.styleElements = d.styleElements ∧
      (∀ j : Nat, (d'.nodes[j]?).map (·.data) = (d.nodes[j]?).map (·.data)) ∧ Good d' (F.detach n) := by
  obtain ⟨d', h1, h2, h3, h4, h5, _⟩ := h.rep.detach hn
  refine ⟨d', h1, h2, h3, h4, h5, Represents.detach_acyclic h.acyclic, by rw [h4]; exact h.root.1, ?_⟩
  exact fun q hc => h.root.2 q (Forest.mem_detach.1 hc).1

theorem Forest.detach_fresh {d : Document} {F : Forest} (h : Good d F) : F.detach d.nodes.length = F := by
  funext q
  apply List.filter_eq_self.2
  intro c hc
  have : c < d.nodes.length := h.rep.mem_lt hc
  simp; omega

/-- The data of node `i` replaced by `x`; the links stay. -/
def Document.setData (d : Document) (i : Nat) (x : NodeData) : Document :=
  { d with nodes := d.nodes.modify i fun n => { n with data := x } }

theorem Represents.setData {d : Document} {F : Forest} (h : Represents d F) (i : Nat) (x : NodeData) :
    Represents (d.setData i x) F := by
  refine h.congr_links (by simp [Document.setData]) ?_
  intro j x' hx'
  simp only [Document.setData, List.getElem?_modify] at hx'
  obtain ⟨y, hy, rfl⟩ := Option.map_eq_some_iff.1 (by simpa using hx')
  refine ⟨y, hy, ?_⟩
  split <;> simp

theorem Good.setData {d : Document} {F : Forest} (h : Good d F) {i : Nat} (x : NodeData)
    (hi : i ≠ documentNodeId) : Good (d.setData i x) F where
  rep := h.rep.setData i x
  acyclic := h.acyclic
  root := by
    refine ⟨?_, h.root.2⟩
    simp only [Document.setData]
    rw [getElem?_modify_ne hi]; exact h.root.1

theorem Document.data_setData (d : Document) (i j : Nat) (x : NodeData) (hi : i < d.nodes.length) :
    ((d.setData i x).nodes[j]?).map (·.data) = if j = i then some x else (d.nodes[j]?).map (·.data) := by
  simp only [Document.setData]
  by_cases h : i = j
  · subst h
    rw [getElem?_modify_same, List.getElem?_eq_getElem hi]; simp
  · rw [getElem?_modify_ne h]; simp [Ne.symm h]

/-- What `pushText` does. -/
theorem Document.pushText_eq {d : Document} {id : Nat} {n : Node} (hn : d.nodes[id]? = some n) (s : String) :
    d.pushText id s = some (match n.data with
      | .text old => some (d.setData id (.text (old ++ s)))
      | _ => none) := by
  have hi := (List.getElem?_eq_some_iff.1 hn).1
  simp only [Document.pushText, Document.get, hn, Option.bind_eq_bind, Option.bind_some]
  cases hd : n.data with
  | text old => simp only; rw [Document.modify_eq hi]; rfl
  | _ => rfl

/-- The text node that a text insertion after `prev` extends, if there is one. -/
def Document.textAt (d : Document) (prev : Option Nat) : Option (Nat × String) :=
  match prev with
  | none => none
  | some i => match (d.nodes[i]?).map Node.data with
    | some (.text t) => some (i, t)
    | _ => none

theorem Document.appendCommon_text {d : Document} {prev : Option Nat} (s : String)
    (f : Document → Nat → Option Document) (hp : ∀ i, prev = some i → i < d.nodes.length) :
    d.appendCommon (.text s) prev f = match d.textAt prev with
      | some (i, t) => some (d.setData i (.text (t ++ s)))
      | none => f (d.pushed (.text s)) d.nodes.length := by
  cases prev with
  | none => rfl
  | some i =>
    obtain ⟨n, hn⟩ : ∃ n, d.nodes[i]? = some n := ⟨_, List.getElem?_eq_getElem (hp i rfl)⟩
    simp only [appendCommon, pushText_eq hn, textAt, hn, Option.map_some, Option.bind_eq_bind, Option.bind_some]
    cases hd : n.data <;> rfl

theorem Good.mayMoveFresh {d : Document} {F : Forest} (h : Good d F) (data : NodeData) {p : Nat}
    (hp : p < d.nodes.length) : MayMoveUnder (d.pushed data) F d.nodes.length p where
  child_exists := by simp [Document.pushed, Document.newNode, Document.pushNode]
  parent_exists := by simp [Document.pushed, Document.newNode, Document.pushNode]; omega
  not_document := by have := h.root.lt; omega
  not_self := by omega
  not_ancestor := h.fresh_not_ancestor p

theorem Document.data_pushed (d : Document) (data : NodeData) (j : Nat) :
    ((d.pushed data).nodes[j]?).map (·.data) =
      if j = d.nodes.length then some data else (d.nodes[j]?).map (·.data) := by
  simp only [Document.pushed, Document.newNode, Document.pushNode]
  rw [List.getElem?_append]
  split
  · next h => have : j ≠ d.nodes.length := by omega
              simp [this]
  · next h =>
    by_cases hj : j = d.nodes.length
    · subst hj; simp [Node.new]
    · simp only [hj, if_false]
      rw [List.getElem?_eq_none (by simp; omega), List.getElem?_eq_none (by omega)]

/-- Text appended to `p`: the last child is extended if it is text, else one text node is added. -/
theorem Good.sinkAppend_text {d : Document} {F : Forest} (h : Good d F) {p : Nat} (hp : p < d.nodes.length)
    (s : String) :
    (∃ i t, (F p).getLast? = some i ∧ (d.nodes[i]?).map (·.data) = some (.text t) ∧
      d.sinkAppend p (.text s) = some (d.setData i (.text (t ++ s))) ∧ Good (d.setData i (.text (t ++ s))) F) ∨
    ((∀ i, (F p).getLast? = some i → ∀ t, (d.nodes[i]?).map (·.data) ≠ some (.text t)) ∧
      ∃ d', d.sinkAppend p (.text s) = some d' ∧ d'.nodes.length = d.nodes.length + 1 ∧
        d'.styleElements = d.styleElements ∧
        (∀ j : Nat, (d'.nodes[j]?).map (·.data) =
          if j = d.nodes.length then some (.text s) else (d.nodes[j]?).map (·.data)) ∧
        Good d' (F.append p d.nodes.length)) := by
  obtain ⟨n, hn⟩ : ∃ n, d.nodes[p]? = some n := ⟨_, List.getElem?_eq_getElem hp⟩
  have hl := (h.rep.ends p n hn).2
  have hlt : ∀ i, (F p).getLast? = some i → i < d.nodes.length :=
    fun i hi => h.rep.mem_lt (List.mem_of_getLast? hi)
  have e : d.sinkAppend p (.text s) = match d.textAt (F p).getLast? with
      | some (i, t) => some (d.setData i (.text (t ++ s)))
      | none => (d.pushed (.text s)).append p d.nodes.length := by
    rw [← Document.appendCommon_text s (fun d n => d.append p n) hlt, ← hl]
    simp only [Document.sinkAppend, Document.get, hn, Option.bind_eq_bind, Option.bind_some]
  cases ht : d.textAt (F p).getLast? with
  | some it =>
    obtain ⟨i, t⟩ := it
    left
    unfold Document.textAt at ht
    split at ht
    · cases ht
    · next i' hi' =>
      split at ht
      · next t' ht' =>
        cases ht
        refine ⟨i, t, hi', ht', by rw [e, hi']; simp [Document.textAt, ht'], h.setData _ ?_⟩
        rintro rfl
        exact h.root.2 p (List.mem_of_getLast? hi')
      · cases ht
  | none =>
    right
    constructor
    · intro i hi t hc
      simp [Document.textAt, hi, hc] at ht
    · obtain ⟨d', h1, h2, h3, h4, h5⟩ := (h.pushed (.text s)).append (h.mayMoveFresh (.text s) hp)
      refine ⟨d', by rw [e, ht]; exact h1, ?_, h3, ?_, h5⟩
      · rw [h2]; simp [Document.pushed, Document.newNode, Document.pushNode]
      · intro j; rw [h4, Document.data_pushed]

/-- The node just before `s`. -/
theorem Represents.prev_of_split {d : Document} {F : Forest} (h : Represents d F) {p s : Nat} {l1 l2 : List Nat}
    (e : F p = l1 ++ s :: l2) : ∃ n, d.nodes[s]? = some n ∧ n.previousSibling = l1.getLast? := by
  obtain ⟨n, h1, h2⟩ := h.child p l1 s l2 e
  exact ⟨n, h1, h2.prev⟩

/-- Text inserted before `s`: the node before `s` is extended if it is text, else one text node is added. -/
theorem Good.sinkBefore_text {d : Document} {F : Forest} (h : Good d F) {p x : Nat} {l1 l2 : List Nat}
    (hs : F p = l1 ++ x :: l2) (s : String) :
    (∃ i t, l1.getLast? = some i ∧ (d.nodes[i]?).map (·.data) = some (.text t) ∧
      d.sinkAppendBeforeSibling x (.text s) = some (d.setData i (.text (t ++ s))) ∧
      Good (d.setData i (.text (t ++ s))) F) ∨
    ((∀ i, l1.getLast? = some i → ∀ t, (d.nodes[i]?).map (·.data) ≠ some (.text t)) ∧
      ∃ d', d.sinkAppendBeforeSibling x (.text s) = some d' ∧ d'.nodes.length = d.nodes.length + 1 ∧
        d'.styleElements = d.styleElements ∧
        (∀ j : Nat, (d'.nodes[j]?).map (·.data) =
          if j = d.nodes.length then some (.text s) else (d.nodes[j]?).map (·.data)) ∧
        Good d' (F.insertBefore x d.nodes.length)) := by
  obtain ⟨n, hn, hl⟩ := h.rep.prev_of_split hs
  have hxp : x ∈ F p := by simp [hs]
  have hlt : ∀ i, l1.getLast? = some i → i < d.nodes.length :=
    fun i hi => h.rep.mem_lt (p := p) (by rw [hs]; simp [List.mem_of_getLast? hi])
  have e : d.sinkAppendBeforeSibling x (.text s) = match d.textAt l1.getLast? with
      | some (i, t) => some (d.setData i (.text (t ++ s)))
      | none => (d.pushed (.text s)).insertBefore x d.nodes.length := by
    rw [← Document.appendCommon_text s (fun d n => d.insertBefore x n) hlt, ← hl]
    simp only [Document.sinkAppendBeforeSibling, Document.get, hn, Option.bind_eq_bind, Option.bind_some]
  cases ht : d.textAt l1.getLast? with
  | some it =>
    obtain ⟨i, t⟩ := it
    left
    unfold Document.textAt at ht
    split at ht
    · cases ht
    · next i' hi' =>
      split at ht
      · next t' ht' =>
        cases ht
        refine ⟨i, t, hi', ht', by rw [e, hi']; simp [Document.textAt, ht'], h.setData _ ?_⟩
        rintro rfl
        exact h.root.2 p (by rw [hs]; simp [List.mem_of_getLast? hi'])
      · cases ht
  | none =>
    right
    constructor
    · intro i hi t hc
      simp [Document.textAt, hi, hc] at ht
    · have hxl := h.rep.mem_lt hxp
      obtain ⟨d', h1, h2, h3, h4, h5⟩ := (h.pushed (.text s)).insertBefore hxp (by omega)
        (h.mayMoveFresh (.text s) (h.rep.parent_lt hxp))
      refine ⟨d', by rw [e, ht]; exact h1, ?_, h3, ?_, h5⟩
      · rw [h2]; simp [Document.pushed, Document.newNode, Document.pushNode]
      · intro j; rw [h4, Document.data_pushed]

theorem Good.sinkAppend {d : Document} {F : Forest} (h : Good d F) {p : Nat} {c : NodeOrText}
    (hl : MayAppend d F p c) : ∃ d' F', d.sinkAppend p c = some d' ∧ Good d' F' := by
  cases c with
  | node n =>
    obtain ⟨d', h1, _, _, _, h5⟩ := h.append hl
    exact ⟨d', _, h1, h5⟩
  | text s =>
    rcases h.sinkAppend_text hl s with ⟨i, t, _, _, h1, h2⟩ | ⟨_, d', h1, _, _, _, h2⟩
    · exact ⟨_, _, h1, h2⟩
    · exact ⟨_, _, h1, h2⟩

theorem Good.sinkBefore {d : Document} {F : Forest} (h : Good d F) {s : Nat} {c : NodeOrText}
    (hl : MayInsertBefore d F s c) : ∃ d' F', d.sinkAppendBeforeSibling s c = some d' ∧ Good d' F' := by
  cases c with
  | node n =>
    obtain ⟨hns, p, hs, hm⟩ := hl
    obtain ⟨d', h1, _, _, _, h5⟩ := h.insertBefore hs hns hm
    exact ⟨d', _, h1, h5⟩
  | text t =>
    obtain ⟨p, hs⟩ := hl
    obtain ⟨l1, l2, e⟩ := List.append_of_mem hs
    rcases h.sinkBefore_text e t with ⟨i, t, _, _, h1, h2⟩ | ⟨_, d', h1, _, _, _, h2⟩
    · exact ⟨_, _, h1, h2⟩
    · exact ⟨_, _, h1, h2⟩

theorem Good.hasParent_iff {d : Document} {F : Forest} (h : Good d F) {e : Nat} {n : Node}
    (hn : d.nodes[e]? = some n) : n.parent.isSome ↔ ∃ q, e ∈ F q := by
  constructor
  · intro hp
    obtain ⟨q, hq⟩ := Option.isSome_iff_exists.1 hp
    exact ⟨q, h.rep.claimed e n q hn hq⟩
  · rintro ⟨q, hq⟩
    obtain ⟨m, h1, h2⟩ := h.rep.mem_parent hq
    rw [hn] at h1; cases h1; simp [h2]

/-- What `reparent_children` really does: it moves the first child, if any, and stops. -/
theorem Good.reparentChildren {d : Document} {F : Forest} (h : Good d F) {n p : Nat} {fuel : Nat}
    (hn : n < d.nodes.length) (hf : 1 ≤ fuel) :
    (F n = [] → d.reparentChildren fuel n p = some d) ∧
    (∀ c l, F n = c :: l → MayMoveUnder d F c p →
      d.reparentChildren fuel n p = d.append p c ∧
        ∃ d', d.append p c = some d' ∧ Good d' (F.append p c)) := by
  obtain ⟨x, hx⟩ : ∃ x, d.nodes[n]? = some x := ⟨_, List.getElem?_eq_getElem hn⟩
  have hfc := (h.rep.ends n x hx).1
  obtain ⟨fuel, rfl⟩ : ∃ k, fuel = k + 1 := ⟨fuel - 1, by omega⟩
  constructor
  · intro e
    rw [e] at hfc
    simp only [Document.reparentChildren, Document.get, hx, Option.bind_eq_bind, Option.bind_some, hfc,
      List.head?_nil, Document.reparentLoop]
  · intro c l e hm
    rw [e] at hfc
    obtain ⟨d', h1, h2, h3, h4, h5⟩ := h.append hm
    refine ⟨?_, d', h1, h5⟩
    obtain ⟨y, hy, hly⟩ := h.rep.child n [] c l (by simp [e])
    have hcp : F.append p c p = F.detach c p ++ [c] := by simp [Forest.append]
    obtain ⟨z, hz, hlz⟩ := h5.rep.child p _ c [] hcp
    simp only [Document.reparentChildren, Document.get, hx, Option.bind_eq_bind, Option.bind_some, hfc,
      List.head?_cons, Document.reparentLoop, hy, hly.parent, if_true, h1, hz]
    have : z.nextSibling = none := hlz.next
    rw [this]
    cases fuel <;> rfl

theorem Good.applyOp {d : Document} {F : Forest} (h : Good d F) {op : SinkOp} (hl : LegalOp d F op) :
    ∃ d' F', d.applyOp op = some d' ∧ Good d' F' := by
  cases op with
  | createElement e =>
    refine ⟨_, F, rfl, ?_⟩
    unfold Document.createElement
    rw [Document.newNode_eq]
    dsimp only
    have hg := h.pushed (.element e)
    split
    · exact ⟨⟨hg.rep.ends, hg.rep.child, hg.rep.claimed, hg.rep.orphan, hg.rep.nodup, hg.rep.outside⟩,
        hg.acyclic, hg.root⟩
    · exact hg
  | createComment s => exact ⟨_, F, rfl, h.pushed _⟩
  | createPi t s => exact ⟨_, F, rfl, h.pushed _⟩
  | append p c => exact h.sinkAppend hl
  | appendBeforeSibling s c => exact h.sinkBefore hl
  | appendBasedOnParentNode e p c =>
    obtain ⟨he, h1, h2⟩ := hl
    obtain ⟨n, hn⟩ : ∃ n, d.nodes[e]? = some n := ⟨_, List.getElem?_eq_getElem he⟩
    simp only [Document.applyOp, Document.sinkAppendBasedOnParentNode, Document.get, hn, Option.bind_eq_bind,
      Option.bind_some]
    by_cases hp : n.parent.isSome
    · simp only [hp, if_true]
      exact h.sinkBefore (h1 ((h.hasParent_iff hn).1 hp))
    · simp only [hp, Bool.false_eq_true, if_false]
      exact h.sinkAppend (h2 (fun hq => hp ((h.hasParent_iff hn).2 hq)))
  | appendDoctype a b c =>
    obtain ⟨d', h1, _, _, _, h5⟩ := (h.pushed (.doctype a b c)).append (h.mayMoveFresh (.doctype a b c) h.root.lt)
    exact ⟨d', _, h1, h5⟩
  | addAttrsIfMissing t as =>
    obtain ⟨n, e, hn, he⟩ := hl
    have ht := (List.getElem?_eq_some_iff.1 hn).1
    refine ⟨d.setData t (.element { e with attrs := Document.mergeAttrs e.attrs as }), F, ?_, h.setData _ ?_⟩
    · simp only [Document.applyOp, Document.addAttrsIfMissing, Document.get, hn, Option.bind_eq_bind,
        Option.bind_some, he]
      rw [Document.modify_eq ht]; rfl
    · rintro rfl
      have := h.root.1
      rw [hn] at this
      simp [he] at this
  | removeFromParent t =>
    obtain ⟨d', h1, _, _, _, h5⟩ := h.detach hl
    exact ⟨d', _, h1, h5⟩
  | reparentChildren n p =>
    obtain ⟨hn, hc⟩ := hl
    obtain ⟨g1, g2⟩ := h.reparentChildren (p := p) (fuel := d.nodes.length + 1) hn (by omega)
    cases e : F n with
    | nil => exact ⟨d, F, g1 e, h⟩
    | cons c l =>
      obtain ⟨g3, d', g4, g5⟩ := g2 c l e (hc c (by simp [e]))
      exact ⟨d', _, by simp only [Document.applyOp]; rw [g3, g4], g5⟩

theorem Good.new : Good Document.new (fun _ => []) where
  rep := by
    have e : Document.new.nodes = [Node.new .document, Node.new .document] := rfl
    have key : ∀ (c : Nat) (n : Node), Document.new.nodes[c]? = some n → n = Node.new .document := by
      intro c n hn
      rw [e] at hn
      rcases c with _ | _ | c <;> simp at hn <;> exact hn.symm
    refine ⟨?_, ?_, ?_, ?_, ?_, ?_⟩
    · intro p n hn; rw [key p n hn]; exact ⟨rfl, rfl⟩
    · intro p a c b h; simp at h
    · intro c n p hn hp; rw [key c n hn] at hp; cases hp
    · intro c n hn _; rw [key c n hn]; exact ⟨rfl, rfl⟩
    · intro p; exact List.nodup_nil
    · intro p _; rfl
  acyclic := by
    intro n hn
    cases hn with
    | parent hc => cases hc
    | step _ hc => cases hc
  root := ⟨rfl, fun _ hc => by cases hc⟩

theorem Good.runOps : ∀ (ops : List SinkOp) (d : Document) (F : Forest), Good d F → LegalHistory d ops →
    ∃ d' F', d.runOps ops = some d' ∧ Good d' F' := by
  intro ops
  induction ops with
  | nil => intro d F h _; exact ⟨d, F, rfl, h⟩
  | cons op ops ih =>
    intro d F h hl
    obtain ⟨h1, h2⟩ := hl
    obtain ⟨d', F', e, hg⟩ := h.applyOp (h1 F h.rep)
    obtain ⟨d'', F'', e', hg'⟩ := ih d' F' hg (h2 d' e)
    exact ⟨d'', F'', by simp [Document.runOps, e, e'], hg'⟩

theorem Good.append' {d d' : Document} {F : Forest} (h : Good d F) {n p : Nat} (hm : MayMoveUnder d F n p)
    (e : d.append p n = some d') : Good d' (F.append p n) := by
  obtain ⟨d'', h1, _, _, _, h5⟩ := h.append hm
  rw [e] at h1; cases h1; exact h5

theorem LegalHistory.cons' {d d' : Document} {F : Forest} {op : SinkOp} {ops : List SinkOp} (h : Good d F)
    (hl : LegalOp d F op) (e : d.applyOp op = some d') (hr : LegalHistory d' ops) :
    LegalHistory d (op :: ops) := by
  refine ⟨fun G hG => ?_, fun d'' h'' => ?_⟩
  · rw [hG.unique h.rep]; exact hl
  · rw [e] at h''; cases h''; exact hr

theorem Forest.not_ancestor_of_leaf {F : Forest} {a b : Nat} (h : F a = []) : ¬ F.Ancestor a b := by
  intro hab
  induction hab with
  | parent hc => rw [h] at hc; cases hc
  | step _ _ ih => exact ih

end Verif.Dom
