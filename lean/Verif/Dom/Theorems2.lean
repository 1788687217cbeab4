import Verif.Dom.Theorems
/- Property theorems about the DOM and the HTML tree sink, continued (C03-C05, C07-C09). -/
namespace Verif.Dom

/-! ### C03 -/

/-- C03: iterating over the document ends and yields the document order of the tree under the document node:
each attached node exactly once. -/
theorem C03_document_order (d : Document) (F : Forest) (hF : Represents d F) (ha : F.Acyclic)
    (hr : DocumentNodeIsRoot d) :
    ∃ out, PreOrder F [documentNodeId] out ∧ out.Nodup ∧
      (∀ n, n ∈ out ↔ n = documentNodeId ∨ F.Ancestor documentNodeId n) ∧
      ∃ N, ∀ fuel, N ≤ fuel → d.allNodes fuel = some out := by
  obtain ⟨out, h1, h2⟩ := allNodes_preorder (good_of hF ha hr)
  refine ⟨out, h1, h1.nodup hF ha ⟨by simp, ?_⟩, fun n => ?_, h2⟩
  · intro a ha' b hb hab
    simp only [List.mem_singleton] at ha' hb
    subst ha'; subst hb
    exact ha _ hab
  · rw [h1.mem]; simp

/-- C03: `html_link_elements` lists the `(rel, href)` pairs of the link elements in document order. -/
theorem C03_link_elements (d : Document) (F : Forest) (hF : Represents d F) (ha : F.Acyclic)
    (hr : DocumentNodeIsRoot d) :
    ∃ out, PreOrder F [documentNodeId] out ∧
      ∃ N, ∀ fuel, N ≤ fuel → d.htmlLinkElements fuel = some ((d.dataOf out).filterMap NodeData.linkOf) := by
  obtain ⟨out, h1, hnd, h3, N, h4⟩ := C03_document_order d F hF ha hr
  refine ⟨out, h1, N, fun fuel hf => ?_⟩
  have hlt : ∀ n ∈ out, n < d.nodes.length := by
    intro n hn
    rcases (h3 n).1 hn with rfl | hn
    · exact (good_of hF ha hr).root.lt
    · exact hn.lt_right hF
  simp only [Document.htmlLinkElements, h4 fuel hf, Option.bind_eq_bind, Option.bind_some]
  clear h1 h3 h4 hnd
  have key : ∃ ns : List Node, out.mapM d.get = some ns ∧ d.dataOf out = ns.map Node.data := by
    induction out with
    | nil => exact ⟨[], rfl, rfl⟩
    | cons a l ih =>
      obtain ⟨ns, g1, g2⟩ := ih (fun n hn => hlt n (by simp [hn]))
      have hal := hlt a (by simp)
      refine ⟨d.nodes[a] :: ns, ?_, ?_⟩
      · rw [List.mapM_cons, g1]
        simp [Document.get, List.getElem?_eq_getElem hal]
      · simp only [Document.dataOf, List.filterMap_cons, List.getElem?_eq_getElem hal, Option.map_some,
          List.map_cons] at g2 ⊢
        rw [← g2]
  obtain ⟨ns, g1, g2⟩ := key
  rw [g1, g2, List.filterMap_map]
  simp only [Option.bind_some, pure]
  congr 1
  apply List.filterMap_congr
  intro n _
  simp only [Node.asElement, Function.comp]
  cases n.data <;> rfl

/-- Non-vacuity of C03: a document with a link inside html, and a detached one. -/
example : ∃ d, Document.new.runOps
    [ .createElement ⟨⟨none, htmlNs, "html"⟩, [], false⟩, .append 1 (.node 2),
      .createElement ⟨⟨none, htmlNs, "link"⟩,
        [⟨⟨none, "", "rel"⟩, "r"⟩, ⟨⟨none, "", "href"⟩, "h"⟩], false⟩, .append 2 (.node 3),
      .createElement ⟨⟨none, htmlNs, "link"⟩,
        [⟨⟨none, "", "rel"⟩, "r"⟩, ⟨⟨none, "", "href"⟩, "h"⟩], false⟩ ] = some d ∧
    d.allNodes 9 = some [1, 2, 3] ∧ d.htmlLinkElements 9 = some [("r", "h")] :=
  ⟨_, rfl, by decide, by decide⟩

/-! ### C04 -/

theorem textContent_append (a b : List NodeData) : textContent (a ++ b) = textContent a ++ textContent b := by
  induction a with
  | nil => simp [textContent]
  | cons x a ih => cases x <;> simp [textContent, ih, String.append_assoc]

theorem textContent_appendText (l : List NodeData) (s : String) :
    textContent (appendText l s) = textContent l ++ s := by
  unfold appendText
  split
  · next t h =>
    obtain ⟨l', rfl⟩ : ∃ l', l = l' ++ [.text t] := by
      rcases List.eq_nil_or_concat l with rfl | ⟨l', b, rfl⟩
      · cases h
      · rw [List.concat_eq_append] at h ⊢; simp at h; exact ⟨l', by rw [h]⟩
    simp [textContent_append, textContent, String.append_assoc]
  · simp [textContent_append, textContent]

theorem NoAdjacentText.appendText {l : List NodeData} (h : NoAdjacentText l) (s : String) :
    NoAdjacentText (appendText l s) := by
  intro a b u v e
  rcases List.eq_nil_or_concat l with rfl | ⟨l', x, rfl⟩
  · simp only [Verif.Dom.appendText, List.getLast?_nil, List.nil_append] at e
    have := congrArg List.length e
    simp at this
    omega
  · rw [List.concat_eq_append] at h e
    rcases List.eq_nil_or_concat b with rfl | ⟨b', y, rfl⟩
    · cases x with
      | text t =>
        simp only [Verif.Dom.appendText, List.getLast?_append, List.getLast?_singleton, Option.some_or,
          List.dropLast_concat, List.append_nil] at e
        have e' : l' = a ++ [.text u] := by
          have : (a ++ [NodeData.text u, NodeData.text v]) = (a ++ [.text u]) ++ [.text v] := by simp
          rw [this] at e
          exact (List.append_inj' e rfl).1
        exact h a [] u t (by rw [e']; simp)
      | _ =>
        simp only [Verif.Dom.appendText, List.getLast?_append, List.getLast?_singleton, Option.some_or,
          List.append_nil] at e
        have : (a ++ [NodeData.text u, NodeData.text v]) = (a ++ [.text u]) ++ [.text v] := by simp
        rw [this] at e
        have e1 := (List.append_inj' e rfl).1
        have e2 := (List.append_inj' e1 rfl).2
        simp at e2
    · rw [List.concat_eq_append] at e
      cases x with
      | text t =>
        simp only [Verif.Dom.appendText, List.getLast?_append, List.getLast?_singleton, Option.some_or,
          List.dropLast_concat] at e
        rw [← List.append_assoc] at e
        have e1 := (List.append_inj' e rfl).1
        exact h a (b' ++ [.text t]) u v (by rw [e1]; simp)
      | _ =>
        simp only [Verif.Dom.appendText, List.getLast?_append, List.getLast?_singleton, Option.some_or] at e
        rw [← List.append_assoc] at e
        have e1 := (List.append_inj' e rfl).1
        exact h a b' u v e1

theorem dataOf_append (d : Document) (a b : List Nat) : d.dataOf (a ++ b) = d.dataOf a ++ d.dataOf b := by
  simp [Document.dataOf, List.filterMap_append]

theorem dataOf_congr {d d' : Document} {l : List Nat}
    (h : ∀ j ∈ l, (d'.nodes[j]?).map Node.data = (d.nodes[j]?).map Node.data) : d'.dataOf l = d.dataOf l :=
  List.filterMap_congr h

theorem dataOf_getLast? {d : Document} {l : List Nat} (hl : ∀ i ∈ l, i < d.nodes.length) :
    (d.dataOf l).getLast? = l.getLast?.bind fun i => (d.nodes[i]?).map Node.data := by
  rcases List.eq_nil_or_concat l with rfl | ⟨l', i, rfl⟩
  · rfl
  · rw [List.concat_eq_append] at hl ⊢
    have hi := hl i (by simp)
    rw [dataOf_append]
    simp [Document.dataOf, List.getElem?_eq_getElem hi]

/-- Extending the last text node of `l1` in place. -/
theorem dataOf_setData_last {d : Document} {l1 : List Nat} {i : Nat} {t s : String} (hn : l1.Nodup)
    (hl : l1.getLast? = some i) (hi : i < d.nodes.length)
    (ht : (d.nodes[i]?).map Node.data = some (.text t)) :
    (d.setData i (.text (t ++ s))).dataOf l1 = appendText (d.dataOf l1) s := by
  obtain ⟨l', rfl⟩ : ∃ l', l1 = l' ++ [i] := by
    rcases List.eq_nil_or_concat l1 with rfl | ⟨l', b, rfl⟩
    · cases hl
    · rw [List.concat_eq_append] at hl ⊢; simp at hl; exact ⟨l', by rw [hl]⟩
  have hni : i ∉ l' := by
    intro hc; rw [List.nodup_append] at hn; exact hn.2.2 i hc i (by simp) rfl
  rw [dataOf_append, dataOf_append, dataOf_congr (d := d) (l := l')]
  · have h1 : d.dataOf [i] = [.text t] := by simp [Document.dataOf, ht]
    have h2 : (d.setData i (.text (t ++ s))).dataOf [i] = [.text (t ++ s)] := by
      simp [Document.dataOf, Document.data_setData d i i _ hi]
    rw [h1, h2]
    simp [appendText]
  · intro j hj
    rw [Document.data_setData d i j _ hi]
    have : j ≠ i := by rintro rfl; exact hni hj
    simp [this]

/-- C04: text inserted at the end of `p` extends a final text child or adds one text child; every other child
sequence and all other data are unchanged, the text content grows by exactly `s`, and no adjacent text nodes
appear. -/
theorem C04_append_text (d : Document) (F : Forest) (hF : Represents d F) (ha : F.Acyclic)
    (hr : DocumentNodeIsRoot d) (p : Nat) (hp : p < d.nodes.length) (s : String) :
    ∃ d' F', d.sinkAppend p (.text s) = some d' ∧ Represents d' F' ∧
      d'.dataOf (F' p) = appendText (d.dataOf (F p)) s ∧
      textContent (d'.dataOf (F' p)) = textContent (d.dataOf (F p)) ++ s ∧
      (NoAdjacentText (d.dataOf (F p)) → NoAdjacentText (d'.dataOf (F' p))) ∧
      ∀ q, q ≠ p → F' q = F q ∧ d'.dataOf (F' q) = d.dataOf (F q) := by
  have hg := good_of hF ha hr
  have main : ∃ d' F', d.sinkAppend p (.text s) = some d' ∧ Represents d' F' ∧
      d'.dataOf (F' p) = appendText (d.dataOf (F p)) s ∧
      ∀ q, q ≠ p → F' q = F q ∧ d'.dataOf (F' q) = d.dataOf (F q) := by
    rcases hg.sinkAppend_text hp s with ⟨i, t, h1, h2, h3, h4⟩ | ⟨h1, d', h2, h3, h4, h5, h6⟩
    · have hil := hF.mem_lt (List.mem_of_getLast? h1)
      refine ⟨_, F, h3, h4.rep, dataOf_setData_last (hF.nodup p) h1 hil h2, fun q hq => ⟨rfl, ?_⟩⟩
      apply dataOf_congr
      intro j hj
      rw [Document.data_setData d i j _ hil]
      have : j ≠ i := by rintro rfl; exact hq (hF.mem_unique hj (List.mem_of_getLast? h1))
      simp [this]
    · have hold : ∀ l : List Nat, (∀ j ∈ l, j < d.nodes.length) → d'.dataOf l = d.dataOf l := by
        intro l hl
        apply dataOf_congr
        intro j hj
        rw [h5 j]
        have := hl j hj
        have : j ≠ d.nodes.length := by omega
        simp [this]
      refine ⟨d', _, h2, h6.rep, ?_, fun q hq => ?_⟩
      · simp only [Forest.append, if_true]
        rw [Forest.detach_fresh hg, dataOf_append, hold _ (fun j hj => hF.mem_lt hj)]
        have : d'.dataOf [d.nodes.length] = [.text s] := by simp [Document.dataOf, h5]
        rw [this]
        unfold appendText
        rw [dataOf_getLast? (fun j hj => hF.mem_lt hj)]
        cases hl : (F p).getLast? with
        | none => rfl
        | some i =>
          have := h1 i hl
          simp only [Option.bind_some]
      · simp only [Forest.append, hq, if_false, Forest.detach_fresh hg, true_and]
        exact hold _ (fun j hj => hF.mem_lt hj)
  obtain ⟨d', F', h1, h2, h3, h4⟩ := main
  refine ⟨d', F', h1, h2, h3, ?_, ?_, h4⟩
  · rw [h3, textContent_appendText]
  · rw [h3]; exact fun h => h.appendText s

/-- C04: text inserted before `x` extends the text node just before `x` or adds one text node there. -/
theorem C04_insert_text_before (d : Document) (F : Forest) (hF : Represents d F) (ha : F.Acyclic)
    (hr : DocumentNodeIsRoot d) (p x : Nat) (before after : List Nat) (hx : F p = before ++ x :: after)
    (s : String) :
    ∃ d' F', d.sinkAppendBeforeSibling x (.text s) = some d' ∧ Represents d' F' ∧
      d'.dataOf (F' p) = appendText (d.dataOf before) s ++ d.dataOf (x :: after) ∧
      textContent (d'.dataOf (F' p)) =
        textContent (d.dataOf before) ++ s ++ textContent (d.dataOf (x :: after)) ∧
      ∀ q, q ≠ p → F' q = F q ∧ d'.dataOf (F' q) = d.dataOf (F q) := by
  have hg := good_of hF ha hr
  have nd := hF.nodup p
  rw [hx] at nd
  have hmem : ∀ j ∈ before ++ x :: after, j < d.nodes.length := by
    intro j hj; rw [← hx] at hj; exact hF.mem_lt hj
  have main : ∃ d' F', d.sinkAppendBeforeSibling x (.text s) = some d' ∧ Represents d' F' ∧
      d'.dataOf (F' p) = appendText (d.dataOf before) s ++ d.dataOf (x :: after) ∧
      ∀ q, q ≠ p → F' q = F q ∧ d'.dataOf (F' q) = d.dataOf (F q) := by
    rcases hg.sinkBefore_text hx s with ⟨i, t, h1, h2, h3, h4⟩ | ⟨h1, d', h2, h3, h4, h5, h6⟩
    · have hib := List.mem_of_getLast? h1
      have hil := hmem i (by simp [hib])
      refine ⟨_, F, h3, h4.rep, ?_, fun q hq => ⟨rfl, ?_⟩⟩
      · rw [hx, dataOf_append, dataOf_setData_last (List.nodup_append.1 nd).1 h1 hil h2]
        congr 1
        apply dataOf_congr
        intro j hj
        rw [Document.data_setData d i j _ hil]
        have : j ≠ i := by
          rintro rfl
          rw [List.nodup_append] at nd
          exact nd.2.2 j hib j hj rfl
        simp [this]
      · apply dataOf_congr
        intro j hj
        rw [Document.data_setData d i j _ hil]
        have : j ≠ i := by
          rintro rfl
          exact hq (hF.mem_unique hj (q := p) (by rw [hx]; simp [hib]))
        simp [this]
    · have hold : ∀ l : List Nat, (∀ j ∈ l, j < d.nodes.length) → d'.dataOf l = d.dataOf l := by
        intro l hl
        apply dataOf_congr
        intro j hj
        rw [h5 j]
        have := hl j hj
        have : j ≠ d.nodes.length := by omega
        simp [this]
      refine ⟨d', _, h2, h6.rep, ?_, fun q hq => ?_⟩
      · simp only [Forest.insertBefore]
        rw [Forest.detach_fresh hg, hx, Forest.insertBeforeList_split, dataOf_append,
          hold _ (fun j hj => hmem j (by simp [hj]))]
        · have e1 : d'.dataOf (d.nodes.length :: x :: after) = .text s :: d'.dataOf (x :: after) := by
            simp only [Document.dataOf, List.filterMap_cons]
            rw [h5]; simp
          rw [e1, hold _ (fun j hj => hmem j (by simp only [List.mem_append]; exact .inr hj))]
          unfold appendText
          rw [dataOf_getLast? (fun j hj => hmem j (by simp [hj]))]
          cases hl : before.getLast? with
          | none => simp
          | some i =>
            have := h1 i hl
            simp only [Option.bind_some]
            cases hd : (d.nodes[i]?).map Node.data with
            | none => simp
            | some y => cases y <;> first | exact absurd hd (this _) | simp
        · intro hc
          rw [List.nodup_append] at nd
          exact nd.2.2 x hc x (by simp) rfl
      · simp only [Forest.insertBefore, Forest.detach_fresh hg]
        rw [Forest.insertBeforeList_not_mem]
        · exact ⟨rfl, hold _ (fun j hj => hF.mem_lt hj)⟩
        · intro hc
          exact hq (hF.mem_unique hc (q := p) (by simp [hx]))
  obtain ⟨d', F', h1, h2, h3, h4⟩ := main
  refine ⟨d', F', h1, h2, h3, ?_, h4⟩
  rw [h3, textContent_append, textContent_appendText]

/-- The hypotheses of C04 hold after the example history of C01 (node 2 has children text "x", comment). -/
example : ∃ d F, Represents d F ∧ F.Acyclic ∧ DocumentNodeIsRoot d ∧ 2 < d.nodes.length ∧ F 2 = [4] ++ 3 :: [] := by
  obtain ⟨_, d, F, _, hg, hlen, h2, _⟩ := example_history
  exact ⟨d, F, hg.rep, hg.acyclic, (docRoot_iff hg.rep).2 hg.root, by omega, h2⟩

/-! ### C05 -/

/-- C05 is violated: whenever the node has two or more children, the second one stays behind. -/
theorem C05_reparent_violated (d : Document) (F : Forest) (hF : Represents d F) (ha : F.Acyclic)
    (hr : DocumentNodeIsRoot d) (n p c1 c2 : Nat) (l : List Nat) (hn : n < d.nodes.length) (hnp : n ≠ p)
    (hc : F n = c1 :: c2 :: l) (hm : ∀ c ∈ F n, MayMoveUnder d F c p) (fuel : Nat) (hf : 1 ≤ fuel) :
    ∃ d' F', d.reparentChildren fuel n p = some d' ∧ Represents d' F' ∧ F' n = c2 :: l ∧
      ¬ Represents d' (F.reparent n p) := by
  obtain ⟨g3, d', g4, g5⟩ := ((good_of hF ha hr).reparentChildren (p := p) hn hf).2 c1 (c2 :: l) hc
    (hm c1 (by simp [hc]))
  have e : F.append p c1 n = c2 :: l := by
    have nd := hF.nodup n
    rw [hc] at nd
    simp only [Forest.append, hnp, if_false, Forest.detach, hc, List.filter_cons]
    simp only [ne_eq, not_true_eq_false, decide_false, Bool.false_eq_true, if_false]
    have h1 : ∀ x ∈ c2 :: l, x ≠ c1 := by
      rintro x hx rfl
      exact (List.nodup_cons.1 nd).1 hx
    have : (c2 :: l).filter (fun x => decide (x ≠ c1)) = c2 :: l :=
      List.filter_eq_self.2 (fun x hx => decide_eq_true (h1 x hx))
    rw [List.filter_cons] at this
    exact this
  refine ⟨d', _, by rw [g3, g4], g5.rep, e, fun hc' => ?_⟩
  have := congrFun (g5.rep.unique hc') n
  rw [e] at this
  simp [Forest.reparent] at this

/-- C05, a reachable document on which the previous theorem applies: node 2 (html) has the children 4 and 3,
and node 5 is a fresh element. -/
theorem C05_reparent_violated_witness :
    ∃ d F, Represents d F ∧ F.Acyclic ∧ DocumentNodeIsRoot d ∧ 2 < d.nodes.length ∧ F 2 = [4, 3] ∧
      (∀ c ∈ F 2, MayMoveUnder d F c 5) ∧
      ∃ d', d.reparentChildren 9 2 5 = some d' ∧ d'.childrenOf 9 2 = some [3] ∧ d'.childrenOf 9 5 = some [4] := by
  obtain ⟨_, d, F, hrun, hg, hlen, h2, h1, h3, h4⟩ := example_history
  have hg' := hg.pushed (.comment "")
  have hl' : (d.pushed (.comment "")).nodes.length = 6 := by
    simp [Document.pushed, Document.newNode, Document.pushNode, hlen]
  refine ⟨_, F, hg'.rep, hg'.acyclic, (docRoot_iff hg'.rep).2 hg'.root, by omega, h2, ?_, ?_⟩
  · intro c hc
    rw [h2] at hc
    simp only [List.mem_cons, List.not_mem_nil, or_false] at hc
    rcases hc with rfl | rfl
    · exact ⟨by omega, by omega, by decide, by decide, Forest.not_ancestor_of_leaf h4⟩
    · exact ⟨by omega, by omega, by decide, by decide, Forest.not_ancestor_of_leaf h3⟩
  · have : d = (Document.new.runOps exampleOps).getD Document.new := by rw [hrun]; rfl
    rw [this]
    exact ⟨_, rfl, by decide, by decide⟩

/-- C05, the part that holds: with at most one child, reparenting does what it should.
Missing: nodes with two or more children (see `C05_reparent_violated`). -/
theorem C05_reparent_partial (d : Document) (F : Forest) (hF : Represents d F) (ha : F.Acyclic)
    (hr : DocumentNodeIsRoot d) (n p : Nat) (hn : n < d.nodes.length) (hnp : n ≠ p)
    (hc : (F n).length ≤ 1) (hm : ∀ c ∈ F n, MayMoveUnder d F c p) (fuel : Nat) (hf : 1 ≤ fuel) :
    ∃ d', d.reparentChildren fuel n p = some d' ∧ Represents d' (F.reparent n p) := by
  obtain ⟨g1, g2⟩ := (good_of hF ha hr).reparentChildren (p := p) hn hf
  cases e : F n with
  | nil =>
    refine ⟨d, g1 e, ?_⟩
    have : F.reparent n p = F := by
      funext q
      simp only [Forest.reparent, e, List.append_nil]
      split
      · next h => rw [h, e]
      · split
        · next h => rw [h]
        · rfl
    rw [this]; exact hF
  | cons c l =>
    rw [e] at hc
    have hl : l = [] := by simpa using hc
    subst hl
    obtain ⟨g3, d', g4, g5⟩ := g2 c [] e (hm c (by simp [e]))
    refine ⟨d', by rw [g3, g4], ?_⟩
    have : F.reparent n p = F.append p c := by
      have hcn : ∀ q, q ≠ n → F.detach c q = F q := by
        intro q hq
        apply List.filter_eq_self.2
        intro x hx
        simp only [ne_eq, decide_not, Bool.not_eq_eq_eq_not, Bool.not_true, decide_eq_false_iff_not]
        rintro rfl
        exact hq (hF.mem_unique hx (by simp [e]))
      funext q
      simp only [Forest.reparent, Forest.append]
      by_cases hqn : q = n
      · subst hqn
        simp [hnp, Forest.detach, e]
      · by_cases hqp : q = p
        · subst hqp
          simp [hqn, hcn, e]
        · simp [hqn, hqp, hcn]
    rw [this]; exact g5.rep

/-! ### C08 -/

/-- C08: existing attributes keep their place and value; exactly the attributes with new names are added, in
order; lookups that succeeded before give the same value. -/
theorem C08_merge (old new : List Attribute) :
    (∃ added, Document.mergeAttrs old new = old ++ added ∧ List.Sublist added new ∧
      ∀ a, a ∈ added ↔ a ∈ new ∧ ∀ b ∈ old, b.name ≠ a.name) ∧
    ∀ (e : ElementData) (n v : String), e.attrs = old → e.getAttr n = some v →
      ElementData.getAttr { e with attrs := Document.mergeAttrs old new } n = some v := by
  constructor
  · refine ⟨_, rfl, List.filter_sublist, fun a => ?_⟩
    simp [List.mem_filter]
  · rintro e n v rfl h
    simp only [ElementData.getAttr, Option.map_eq_some_iff] at h ⊢
    obtain ⟨a, h1, h2⟩ := h
    refine ⟨a, ?_, h2⟩
    simp only [Document.mergeAttrs, List.find?_append, h1, Option.some_or]

/-- C08 at the document level: the call changes the attributes of the target only. -/
theorem C08_add_attrs (d : Document) (t : Nat) (n : Node) (e : ElementData) (attrs : List Attribute)
    (hn : d.nodes[t]? = some n) (he : n.data = .element e) :
    ∃ d', d.addAttrsIfMissing t attrs = some d' ∧ d'.styleElements = d.styleElements ∧
      ∀ j : Nat, d'.nodes[j]? = if j = t then
        some { n with data := .element { e with attrs := Document.mergeAttrs e.attrs attrs } } else d.nodes[j]? := by
  have ht := (List.getElem?_eq_some_iff.1 hn).1
  refine ⟨d.setData t (.element { e with attrs := Document.mergeAttrs e.attrs attrs }), ?_, rfl, fun j => ?_⟩
  · simp only [Document.addAttrsIfMissing, Document.get, hn, Option.bind_eq_bind, Option.bind_some, he]
    rw [Document.modify_eq ht]; rfl
  · simp only [Document.setData]
    by_cases hj : t = j
    · subst hj; rw [getElem?_modify_same, hn]; simp
    · rw [getElem?_modify_ne hj]; simp [Ne.symm hj]

example : Document.mergeAttrs [⟨⟨none, "", "a"⟩, "1"⟩] [⟨⟨none, "", "a"⟩, "2"⟩, ⟨⟨none, "", "b"⟩, "3"⟩] =
    [⟨⟨none, "", "a"⟩, "1"⟩, ⟨⟨none, "", "b"⟩, "3"⟩] := by decide

/-! ### C09 -/

theorem rootLoop_some (d : Document) (r : Nat) : ∀ l : List Nat, (∀ c ∈ l, c < d.nodes.length) →
    (d.rootLoop l (some r) = some (some r) ↔ ∀ x ∈ d.dataOf l, x.isMisc = true) ∧
    (∀ q, d.rootLoop l (some r) = some q → q = some r) := by
  intro l
  induction l with
  | nil => intro _; exact ⟨by simp [Document.rootLoop, Document.dataOf], by simp [Document.rootLoop]⟩
  | cons c l ih =>
    intro hl
    obtain ⟨ih1, ih2⟩ := ih (fun c hc => hl c (by simp [hc]))
    have hc := hl c (by simp)
    have hget : d.get c = some d.nodes[c] := by simp [Document.get, List.getElem?_eq_getElem hc]
    have hdata : d.dataOf (c :: l) = d.nodes[c].data :: d.dataOf l := by
      simp [Document.dataOf, List.getElem?_eq_getElem hc]
    simp only [Document.rootLoop, hget, Option.bind_eq_bind, Option.bind_some, hdata]
    cases hd : d.nodes[c].data <;> simp [NodeData.isMisc] <;>
      first
      | exact ⟨ih1, ih2⟩

theorem rootLoop_none (d : Document) (r : Nat) : ∀ l : List Nat, (∀ c ∈ l, c < d.nodes.length) →
    (d.rootLoop l none = some (some r) ↔
      ∃ pre post e, l = pre ++ r :: post ∧ (d.nodes[r]?).map Node.data = some (.element e) ∧
        ∀ x ∈ d.dataOf (pre ++ post), x.isMisc = true) := by
  intro l
  induction l with
  | nil => intro _; simp [Document.rootLoop]
  | cons c l ih =>
    intro hl
    have ih := ih (fun c hc => hl c (by simp [hc]))
    have hc := hl c (by simp)
    have hget : d.get c = some d.nodes[c] := by simp [Document.get, List.getElem?_eq_getElem hc]
    have hcd : (d.nodes[c]?).map Node.data = some d.nodes[c].data := by simp [List.getElem?_eq_getElem hc]
    have hdata : ∀ l, d.dataOf (c :: l) = d.nodes[c].data :: d.dataOf l := by
      intro l; simp [Document.dataOf, List.getElem?_eq_getElem hc]
    obtain ⟨hs1, hs2⟩ := rootLoop_some d c l (fun c hc => hl c (by simp [hc]))
    simp only [Document.rootLoop, hget, Option.bind_eq_bind, Option.bind_some]
    have misc : d.nodes[c].data.isMisc = true → ((∃ pre post e, l = pre ++ r :: post ∧
          (d.nodes[r]?).map Node.data = some (.element e) ∧ ∀ x ∈ d.dataOf (pre ++ post), x.isMisc = true) ↔
        ∃ pre post e, c :: l = pre ++ r :: post ∧
          (d.nodes[r]?).map Node.data = some (.element e) ∧ ∀ x ∈ d.dataOf (pre ++ post), x.isMisc = true) := by
      intro hm
      constructor
      · rintro ⟨pre, post, e, h1, h2, h3⟩
        refine ⟨c :: pre, post, e, by simp [h1], h2, ?_⟩
        rw [List.cons_append, hdata]
        intro x hx
        rcases List.mem_cons.1 hx with rfl | hx
        · exact hm
        · exact h3 x hx
      · rintro ⟨pre, post, e, h1, h2, h3⟩
        cases pre with
        | nil =>
          simp only [List.nil_append, List.cons.injEq] at h1
          obtain ⟨rfl, rfl⟩ := h1
          rw [hcd] at h2
          simp only [Option.some.injEq] at h2
          rw [h2] at hm; cases hm
        | cons a pre =>
          simp only [List.cons_append, List.cons.injEq] at h1
          obtain ⟨rfl, rfl⟩ := h1
          refine ⟨pre, post, e, rfl, h2, fun x hx => h3 x ?_⟩
          rw [List.cons_append, hdata]; simp [hx]
    have bad : d.nodes[c].data.isMisc = false → (∀ e, d.nodes[c].data ≠ .element e) →
        ¬ ∃ pre post e, c :: l = pre ++ r :: post ∧
          (d.nodes[r]?).map Node.data = some (.element e) ∧ ∀ x ∈ d.dataOf (pre ++ post), x.isMisc = true := by
      rintro hm he ⟨pre, post, e, h1, h2, h3⟩
      cases pre with
      | nil =>
        simp only [List.nil_append, List.cons.injEq] at h1
        obtain ⟨rfl, rfl⟩ := h1
        rw [hcd] at h2
        exact he e (Option.some.inj h2)
      | cons a pre =>
        simp only [List.cons_append, List.cons.injEq] at h1
        obtain ⟨rfl, rfl⟩ := h1
        have := h3 d.nodes[c].data (by rw [List.cons_append, hdata]; simp)
        rw [hm] at this; cases this
    cases hd : d.nodes[c].data with
    | element e =>
      simp only [Option.isSome_none, Bool.false_eq_true, if_false]
      constructor
      · intro h
        have := hs2 _ h
        simp only [Option.some.injEq] at this
        subst this
        exact ⟨[], l, e, rfl, by rw [hcd, hd], by simpa using hs1.1 h⟩
      · rintro ⟨pre, post, e', h1, h2, h3⟩
        cases pre with
        | nil =>
          simp only [List.nil_append, List.cons.injEq] at h1
          obtain ⟨rfl, rfl⟩ := h1
          exact hs1.2 (by simpa using h3)
        | cons a pre =>
          simp only [List.cons_append, List.cons.injEq] at h1
          obtain ⟨rfl, rfl⟩ := h1
          have := h3 d.nodes[c].data (by rw [List.cons_append, hdata]; simp)
          rw [hd] at this; cases this
    | document =>
      simp only [reduceCtorEq, false_iff]
      exact bad (by rw [hd]; rfl) (by rw [hd]; simp)
    | text t =>
      simp only [reduceCtorEq, false_iff]
      exact bad (by rw [hd]; rfl) (by rw [hd]; simp)
    | doctype a b e => exact ih.trans (misc (by rw [hd]; rfl))
    | comment a => exact ih.trans (misc (by rw [hd]; rfl))
    | pi a b => exact ih.trans (misc (by rw [hd]; rfl))

/-- C09: the root element lookup returns `r` exactly when `r` is an element child of the document node and
all its siblings are doctypes, comments or processing instructions; in every other case it panics. -/
theorem C09_root_element (d : Document) (F : Forest) (hF : Represents d F) (hr : DocumentNodeIsRoot d)
    (fuel : Nat) (hf : d.nodes.length ≤ fuel) (r : Nat) :
    d.rootElement fuel = some r ↔
      ∃ pre post e, F documentNodeId = pre ++ r :: post ∧ (d.nodes[r]?).map Node.data = some (.element e) ∧
        ∀ x ∈ d.dataOf (pre ++ post), x.isMisc = true := by
  obtain ⟨n, hn, hd, hp⟩ := hr
  obtain ⟨h1, h2⟩ := hF.orphan _ n hn hp
  have hfc := (hF.ends _ n hn).1
  simp only [Document.rootElement, Document.get, hn, Option.bind_eq_bind, Option.bind_some, hd, hp, h1, h2,
    ne_eq, not_true_eq_false, Option.isSome_none, Bool.false_eq_true, or_self, if_false]
  have hlen := hF.length_le documentNodeId
  cases e : F documentNodeId with
  | nil => rw [hfc, e]; simp
  | cons c l =>
    have hs := hF.siblings_eq documentNodeId (F documentNodeId) [] (by simp) fuel (by omega)
    rw [e] at hs hfc
    simp only [List.head?_cons] at hs hfc
    rw [hfc]
    simp only [Option.bind_some]
    rw [hs]
    simp only [Option.bind_some]
    have := rootLoop_none d r (c :: l) (fun x hx => hF.mem_lt (by rw [e]; exact hx))
    rw [← this]
    cases hroot : d.rootLoop (c :: l) none with
    | none => simp
    | some x => simp

/-- Non-vacuity: in the example document the root element is node 2. -/
example : ∃ d, Document.new.runOps exampleOps = some d ∧ d.rootElement 9 = some 2 := ⟨_, rfl, by decide⟩

end Verif.Dom
