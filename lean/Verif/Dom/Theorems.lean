import Verif.Dom.Traversal
/-
Property theorems about the DOM and the HTML tree sink (C01-C05, C07-C09).
-/
namespace Verif.Dom

theorem good_of {d : Document} {F : Forest} (h : Represents d F) (ha : F.Acyclic) (hr : DocumentNodeIsRoot d) :
    Good d F := ⟨h, ha, (docRoot_iff h).1 hr⟩

/-! ### C01 -/

/-- C01: after any legal history of tree-sink calls no panic has happened, all links describe one ordered,
acyclic forest, and the document node is still a root. -/
theorem C01_history_wellformed (ops : List SinkOp) (h : LegalHistory Document.new ops) :
    ∃ d, Document.new.runOps ops = some d ∧ d.WellFormed ∧ DocumentNodeIsRoot d := by
  obtain ⟨d, F, h1, h2⟩ := Good.runOps ops _ _ Good.new h
  exact ⟨d, h1, ⟨F, h2.rep, h2.acyclic⟩, (docRoot_iff h2.rep).2 h2.root⟩

/-- C01, per step: the same from any consistent document, not just the initial one. -/
theorem C01_step_wellformed (d : Document) (F : Forest) (hF : Represents d F) (ha : F.Acyclic)
    (hr : DocumentNodeIsRoot d) (op : SinkOp) (hl : LegalOp d F op) :
    ∃ d', d.applyOp op = some d' ∧ d'.WellFormed ∧ DocumentNodeIsRoot d' := by
  obtain ⟨d', F', h1, h2⟩ := (good_of hF ha hr).applyOp hl
  exact ⟨d', h1, ⟨F', h2.rep, h2.acyclic⟩, (docRoot_iff h2.rep).2 h2.root⟩

/-- C01: the forest is determined by the links, so "the" tree of a document is well defined. -/
theorem C01_forest_unique (d : Document) (F G : Forest) (hF : Represents d F) (hG : Represents d G) : F = G :=
  hF.unique hG

/-- C01: in a consistent document each node has at most one parent and links agree pairwise. -/
theorem C01_links_agree (d : Document) (F : Forest) (hF : Represents d F) :
    (∀ (a b : Nat) (x : Node), d.nodes[a]? = some x → x.nextSibling = some b →
      ∃ y, d.nodes[b]? = some y ∧ y.previousSibling = some a ∧ y.parent = x.parent) ∧
    (∀ (p c : Nat) (x : Node), d.nodes[p]? = some x → x.firstChild = some c →
      ∃ y, d.nodes[c]? = some y ∧ y.parent = some p ∧ y.previousSibling = none) ∧
    (∀ (p c : Nat) (x : Node), d.nodes[p]? = some x → x.lastChild = some c →
      ∃ y, d.nodes[c]? = some y ∧ y.parent = some p ∧ y.nextSibling = none) := by
  refine ⟨?_, ?_, ?_⟩
  · intro a b x hx hb
    cases hp : x.parent with
    | none => rw [(hF.orphan a x hx hp).2] at hb; cases hb
    | some p =>
      obtain ⟨l1, l2, e⟩ := List.append_of_mem (hF.claimed a x p hx hp)
      obtain ⟨x', hx', hl⟩ := hF.child p l1 a l2 e
      rw [hx] at hx'; cases hx'
      rw [hl.next] at hb
      cases l2 with
      | nil => cases hb
      | cons c l2 =>
        simp only [List.head?_cons, Option.some.injEq] at hb
        subst hb
        obtain ⟨y, hy, hly⟩ := hF.child p (l1 ++ [a]) c l2 (by simp [e])
        exact ⟨y, hy, by rw [hly.prev]; simp, hly.parent⟩
  · intro p c x hx hc
    rw [(hF.ends p x hx).1] at hc
    cases e : F p with
    | nil => simp [e] at hc
    | cons c' l =>
      rw [e] at hc
      simp only [List.head?_cons, Option.some.injEq] at hc
      subst hc
      obtain ⟨y, hy, hl⟩ := hF.child p [] c' l (by simp [e])
      exact ⟨y, hy, hl.parent, hl.prev⟩
  · intro p c x hx hc
    rw [(hF.ends p x hx).2] at hc
    rcases List.eq_nil_or_concat (F p) with e | ⟨l, c', e⟩
    · simp [e] at hc
    · rw [List.concat_eq_append] at e
      rw [e] at hc
      simp only [List.getLast?_append, List.getLast?_singleton, Option.some_or, Option.some.injEq] at hc
      subst hc
      obtain ⟨y, hy, hl⟩ := hF.child p l c' [] (by simp [e])
      exact ⟨y, hy, hl.parent, hl.next⟩

/-- A small history: `<html>` with a comment and text, then the comment moved after the text. -/
def exampleOps : List SinkOp :=
  [ .createElement ⟨⟨none, htmlNs, "html"⟩, [], false⟩,     -- node 2
    .append 1 (.node 2),
    .createComment "c",                                     -- node 3
    .append 2 (.node 3),
    .append 2 (.text "x"),                                  -- node 4
    .append 2 (.node 3) ]                                   -- moves node 3

example : ∃ d, Document.new.runOps exampleOps = some d ∧ d.childrenOf 9 1 = some [2] ∧
    d.childrenOf 9 2 = some [4, 3] := ⟨_, rfl, by decide, by decide⟩

/-! ### C02 -/

/-- C02, append: the child sequences the code enumerates afterwards are the old ones with `n` removed
everywhere and put last under `p`; node data and the number of nodes are unchanged. -/
theorem C02_append (d : Document) (F : Forest) (hF : Represents d F) (n p : Nat)
    (hn : n < d.nodes.length) (hp : p < d.nodes.length) (hnp : n ≠ p) :
    ∃ d', d.append p n = some d' ∧
      (∀ q, q < d.nodes.length → d.childrenOf d.nodes.length q = some (F q) ∧
        d'.childrenOf d.nodes.length q =
          some (if q = p then (F q).filter (· ≠ n) ++ [n] else (F q).filter (· ≠ n))) ∧
      (∀ j : Nat, (d'.nodes[j]?).map Node.data = (d.nodes[j]?).map Node.data) ∧
      Represents d' (F.append p n) := by
  obtain ⟨d', h1, h2, h3, h4, h5⟩ := hF.append hn hp hnp
  refine ⟨d', h1, fun q hq => ⟨hF.childrenOf_eq hq (hF.length_le q), ?_⟩, h4, h5⟩
  have := h5.childrenOf_eq (p := q) (fuel := d.nodes.length) (by omega) (by rw [← h2]; exact h5.length_le q)
  rw [this]
  rfl

/-- C02, insert before: `n` comes immediately before `s`, everything else keeps its order. -/
theorem C02_insertBefore (d : Document) (F : Forest) (hF : Represents d F) (n p s : Nat) (before after : List Nat)
    (hn : n < d.nodes.length) (hs : F p = before ++ s :: after) (hns : n ≠ s) :
    ∃ d', d.insertBefore s n = some d' ∧
      d'.childrenOf d.nodes.length p =
        some (before.filter (· ≠ n) ++ n :: s :: after.filter (· ≠ n)) ∧
      (∀ q, q < d.nodes.length → q ≠ p →
        d'.childrenOf d.nodes.length q = some ((F q).filter (· ≠ n))) ∧
      (∀ j : Nat, (d'.nodes[j]?).map Node.data = (d.nodes[j]?).map Node.data) ∧
      Represents d' (F.insertBefore s n) := by
  have hsp : s ∈ F p := by simp [hs]
  obtain ⟨d', h1, h2, h3, h4, h5⟩ := hF.insertBefore hn hsp hns
  have hch : ∀ q, q < d.nodes.length → d'.childrenOf d.nodes.length q = some (F.insertBefore s n q) :=
    fun q hq => h5.childrenOf_eq (by omega) (by rw [← h2]; exact h5.length_le q)
  refine ⟨d', h1, ?_, ?_, h4, h5⟩
  · rw [hch p (hF.parent_lt hsp)]
    unfold Forest.insertBefore Forest.detach
    rw [hs, List.filter_append, List.filter_cons]
    have nd := hF.nodup p
    rw [hs, List.nodup_append] at nd
    simp only [ne_eq, Ne.symm hns, not_false_eq_true, decide_true, if_true]
    rw [Forest.insertBeforeList_split]
    intro hc
    exact nd.2.2 s (List.mem_filter.1 hc).1 s (by simp) rfl
  · intro q hq hqp
    rw [hch q hq]
    unfold Forest.insertBefore
    rw [Forest.insertBeforeList_not_mem]
    · rfl
    · intro hc
      exact hqp (hF.mem_unique (Forest.mem_detach.1 hc).1 hsp)

/-- C02, detach: `n` is removed from its sequence, all others are unchanged. -/
theorem C02_detach (d : Document) (F : Forest) (hF : Represents d F) (n : Nat) (hn : n < d.nodes.length) :
    ∃ d', d.detach n = some d' ∧
      (∀ q, q < d.nodes.length → d'.childrenOf d.nodes.length q = some ((F q).filter (· ≠ n))) ∧
      (∀ j : Nat, (d'.nodes[j]?).map Node.data = (d.nodes[j]?).map Node.data) ∧
      Represents d' (F.detach n) := by
  obtain ⟨d', h1, h2, h3, h4, h5, _⟩ := hF.detach hn
  exact ⟨d', h1, fun q hq => h5.childrenOf_eq (by omega) (by rw [← h2]; exact h5.length_le q), h4, h5⟩

/-- The hypotheses of C01 and C02 are met: the example history is legal, ends in a consistent document, and
there node 3 may be moved before node 4 under node 2. -/
theorem example_history : LegalHistory Document.new exampleOps ∧
    ∃ d F, Document.new.runOps exampleOps = some d ∧ Good d F ∧ d.nodes.length = 5 ∧ F 2 = [4, 3] ∧ F 1 = [2] ∧
      F 3 = [] ∧ F 4 = [] := by
  obtain ⟨d1, e1⟩ : ∃ d, Document.new.applyOp exampleOps[0] = some d := ⟨_, rfl⟩
  have g1 : Good d1 (fun _ => []) := by
    have := Good.new.pushed (.element ⟨⟨none, htmlNs, "html"⟩, [], false⟩)
    cases e1; exact this
  have l1 : d1.nodes.length = 3 := by cases e1; rfl
  obtain ⟨d2, e2⟩ : ∃ d, d1.applyOp exampleOps[1] = some d := by cases e1; exact ⟨_, rfl⟩
  have m1 : MayMoveUnder d1 (fun _ => []) 2 1 :=
    ⟨by omega, by omega, by decide, by decide, Forest.not_ancestor_of_leaf rfl⟩
  have g2 := g1.append' m1 e2
  have l2 : d2.nodes.length = 3 := by cases e1; cases e2; rfl
  obtain ⟨d3, e3⟩ : ∃ d, d2.applyOp exampleOps[2] = some d := ⟨_, rfl⟩
  have g3 : Good d3 (Forest.append (fun _ => []) 1 2) := by
    have := g2.pushed (.comment "c")
    cases e3; exact this
  have l3 : d3.nodes.length = 4 := by cases e1; cases e2; cases e3; rfl
  obtain ⟨d4, e4⟩ : ∃ d, d3.applyOp exampleOps[3] = some d := by cases e1; cases e2; cases e3; exact ⟨_, rfl⟩
  have m3 : MayMoveUnder d3 (Forest.append (fun _ => []) 1 2) 3 2 :=
    ⟨by omega, by omega, by decide, by decide, Forest.not_ancestor_of_leaf (by decide)⟩
  have g4 := g3.append' m3 e4
  have l4 : d4.nodes.length = 4 := by cases e1; cases e2; cases e3; cases e4; rfl
  have t4 : ∀ i, ((Forest.append (fun _ => []) 1 2).append 2 3 2).getLast? = some i →
      ∀ t, (d4.nodes[i]?).map Node.data ≠ some (.text t) := by
    intro i hi t
    have : i = 3 := by
      have hd : ((Forest.append (fun _ => []) 1 2).append 2 3 2).getLast? = some 3 := by decide
      rw [hd] at hi; exact (Option.some.inj hi).symm
    subst this
    cases e1; cases e2; cases e3; cases e4
    exact fun h => by cases h
  obtain ⟨d5, e5, l5, g5⟩ : ∃ d5, d4.applyOp exampleOps[4] = some d5 ∧ d5.nodes.length = 5 ∧
      Good d5 (((Forest.append (fun _ => []) 1 2).append 2 3).append 2 4) := by
    rcases g4.sinkAppend_text (p := 2) (by omega) "x" with ⟨i, t, hi, ht, _⟩ | ⟨_, d', h1, h2, _, _, h5⟩
    · exact absurd ht (t4 i hi t)
    · rw [l4] at h5 h2
      exact ⟨d', h1, h2, h5⟩
  have m5 : MayMoveUnder d5 (((Forest.append (fun _ => []) 1 2).append 2 3).append 2 4) 3 2 :=
    ⟨by omega, by omega, by decide, by decide, Forest.not_ancestor_of_leaf (by decide)⟩
  obtain ⟨d6, e6, l6, _, _, g6⟩ := g5.append m5
  have e6' : d5.applyOp exampleOps[5] = some d6 := e6
  constructor
  · refine LegalHistory.cons' Good.new trivial e1 ?_
    refine LegalHistory.cons' g1 m1 e2 ?_
    refine LegalHistory.cons' g2 trivial e3 ?_
    refine LegalHistory.cons' g3 m3 e4 ?_
    refine LegalHistory.cons' g4 (by show 2 < _; omega) e5 ?_
    exact LegalHistory.cons' g5 m5 e6' trivial
  · refine ⟨d6, _, ?_, g6, by omega, by decide, by decide, by decide, by decide⟩
    have r : ∀ (d d' : Document) (op : SinkOp) (ops : List SinkOp), d.applyOp op = some d' →
        d.runOps (op :: ops) = d'.runOps ops := by
      intro d d' op ops h; simp [Document.runOps, h]
    exact (r _ _ _ _ e1).trans <| (r _ _ _ _ e2).trans <| (r _ _ _ _ e3).trans <| (r _ _ _ _ e4).trans <|
      (r _ _ _ _ e5).trans <| (r _ _ _ _ e6').trans rfl

end Verif.Dom
