import Verif.Dom.Theorems2
/- The style sheets a parsed document contributes (C07). -/
namespace Verif.Dom

/-- The registered style elements are the HTML style elements in creation order. -/
def StyleInv (d : Document) : Prop := d.styleElements = d.idsWith NodeData.isStyle

/-- If the computation returns, it returns a document satisfying the invariant. -/
def Ensures (x : Option Document) : Prop := ∀ d, x = some d → StyleInv d

theorem Ensures.bind {x : Option Document} {f : Document → Option Document} (hx : Ensures x)
    (hf : ∀ d, StyleInv d → Ensures (f d)) : Ensures (x >>= f) := by
  intro d' h
  cases e : x with
  | none => rw [e] at h; cases h
  | some d => rw [e] at h; exact hf d (hx d e) d' h

theorem Ensures.get {α : Type} {x : Option α} {f : α → Option Document} (hf : ∀ n, x = some n → Ensures (f n)) :
    Ensures (x >>= f) := by
  intro d' h
  cases e : x with
  | none => rw [e] at h; cases h
  | some n => rw [e] at h; exact hf n e d' h

theorem Ensures.some {d : Document} (h : StyleInv d) : Ensures (some d) := by
  intro d' h'; cases h'; exact h

theorem Ensures.none : Ensures none := by intro d h; cases h

theorem StyleInv.congr {d d' : Document} (h : StyleInv d) (h1 : d'.styleElements = d.styleElements)
    (h2 : d'.nodes.length = d.nodes.length)
    (h3 : ∀ i : Nat, ((d'.nodes[i]?).map Node.data).any NodeData.isStyle =
      ((d.nodes[i]?).map Node.data).any NodeData.isStyle) : StyleInv d' := by
  unfold StyleInv Document.idsWith at *
  rw [h1, h, h2]
  apply List.filter_congr
  intro i _
  rw [h3]

theorem StyleInv.modify {d : Document} (h : StyleInv d) (i : Nat) (f : Node → Node)
    (hf : ∀ x, d.nodes[i]? = Option.some x → (f x).data.isStyle = x.data.isStyle) : Ensures (d.modify i f) := by
  intro d' h'
  unfold Document.modify at h'
  split at h'
  · cases h'
    refine h.congr rfl (by simp) fun j => ?_
    by_cases hj : i = j
    · subst hj
      rw [getElem?_modify_same]
      cases e : d.nodes[i]? with
      | none => rfl
      | some x => simp [hf x e]
    · rw [getElem?_modify_ne hj]
  · cases h'

theorem StyleInv.push {d : Document} (h : StyleInv d) (data : NodeData) :
    (data.isStyle = false → StyleInv (d.newNode data).1) ∧
    (data.isStyle = true →
      StyleInv { (d.newNode data).1 with styleElements := d.styleElements ++ [d.nodes.length] }) := by
  have key : ∀ s : List Nat, Document.idsWith { nodes := d.nodes ++ [Node.new data], styleElements := s } NodeData.isStyle =
      d.idsWith NodeData.isStyle ++ if data.isStyle then [d.nodes.length] else [] := by
    intro s
    unfold Document.idsWith
    simp only [List.length_append, List.length_cons, List.length_nil, List.range_succ, List.filter_append]
    congr 1
    · apply List.filter_congr
      intro i hi
      rw [List.mem_range] at hi
      rw [List.getElem?_append_left (by simpa using hi)]
    · simp only [List.filter_cons, List.filter_nil, List.getElem?_append_right (Nat.le_refl _), Nat.sub_self,
        List.getElem?_cons_zero, Option.map_some, Option.any_some, Node.new]
  constructor
  · intro hs
    unfold StyleInv
    simp only [Document.newNode, Document.pushNode]
    rw [key, hs]
    simp only [Bool.false_eq_true, if_false, List.append_nil]
    exact h
  · intro hs
    unfold StyleInv
    simp only [Document.newNode, Document.pushNode]
    rw [key, hs, h]
    rfl

/-- Walks through a chain of link updates. -/
macro "ens" : tactic => `(tactic| repeat' (first
  | exact Ensures.none
  | (refine Ensures.some ?_; assumption)
  | (refine StyleInv.modify ?_ _ _ (fun _ _ => rfl); assumption)
  | (refine Ensures.bind (StyleInv.modify ?_ _ _ (fun _ _ => rfl)) (fun _ _ => ?_); assumption)
  | (refine Ensures.bind (Ensures.some ?_) (fun _ _ => ?_); assumption)
  | (refine Ensures.bind Ensures.none (fun _ _ => ?_))
  | (refine Ensures.get (fun _ _ => ?_))
  | split))

theorem StyleInv.detach {d : Document} (h : StyleInv d) (n : Nat) : Ensures (d.detach n) := by
  unfold Document.detach
  refine Ensures.get fun x _ => Ensures.bind (h.modify _ _ fun _ _ => rfl) fun d1 h1 => ?_
  dsimp only
  ens

theorem StyleInv.append {d : Document} (h : StyleInv d) (p n : Nat) : Ensures (d.append p n) := by
  unfold Document.append
  refine Ensures.bind (h.detach n) fun d1 h1 => Ensures.bind (h1.modify _ _ fun _ _ => rfl) fun d2 h2 => ?_
  refine Ensures.get fun x _ => Ensures.bind (h2.modify _ _ fun _ _ => rfl) fun d3 h3 => ?_
  dsimp only
  ens

theorem StyleInv.insertBefore {d : Document} (h : StyleInv d) (s n : Nat) : Ensures (d.insertBefore s n) := by
  unfold Document.insertBefore
  refine Ensures.bind (h.detach n) fun d1 h1 => Ensures.get fun x _ => ?_
  refine Ensures.bind (h1.modify _ _ fun _ _ => rfl) fun d2 h2 => ?_
  refine Ensures.bind (h2.modify _ _ fun _ _ => rfl) fun d3 h3 => Ensures.get fun x _ => ?_
  refine Ensures.bind (h3.modify _ _ fun _ _ => rfl) fun d4 h4 => ?_
  dsimp only
  ens

theorem StyleInv.appendCommon {d : Document} (h : StyleInv d) (c : NodeOrText) (prev : Option Nat)
    (app : Document → Nat → Option Document) (ha : ∀ d n, StyleInv d → Ensures (app d n)) :
    Ensures (d.appendCommon c prev app) := by
  unfold Document.appendCommon
  cases c with
  | node n => exact ha d n h
  | text s =>
    have fin : ∀ merged : Option Document, (∀ d1, merged = some d1 → StyleInv d1) →
        Ensures (match merged with
          | some d => return d
          | none => app (d.newNode (.text s)).1 (d.newNode (.text s)).2) := by
      intro merged hm
      cases merged with
      | some d1 => exact Ensures.some (hm d1 rfl)
      | none => exact ha _ _ ((h.push _).1 rfl)
    cases prev with
    | none => exact fin none (fun _ hc => by cases hc)
    | some id =>
      refine Ensures.get fun merged hm => fin merged ?_
      rintro d1 rfl
      unfold Document.pushText at hm
      cases hn : d.get id with
      | none => rw [hn] at hm; cases hm
      | some n =>
        rw [hn] at hm
        simp only [Option.bind_eq_bind, Option.bind_some] at hm
        cases hd : n.data with
        | text old =>
          rw [hd] at hm
          simp only at hm
          cases hmod : d.modify id (fun x => { x with data := .text (old ++ s) }) with
          | none => rw [hmod] at hm; cases hm
          | some d2 =>
            rw [hmod] at hm
            simp only [Option.bind_some, pure, Option.some.injEq] at hm
            subst hm
            refine h.modify id _ (fun x hx => ?_) d2 hmod
            simp only [Document.get] at hn
            rw [hn] at hx; cases hx
            rw [hd]; rfl
        | _ => rw [hd] at hm; simp [pure] at hm

theorem StyleInv.applyOp {d : Document} (h : StyleInv d) (op : SinkOp) : Ensures (d.applyOp op) := by
  have hap : ∀ p c, Ensures (d.sinkAppend p c) := by
    intro p c
    unfold Document.sinkAppend
    cases c with
    | node n => exact h.appendCommon _ _ _ fun d n hd => hd.append _ _
    | text s => exact Ensures.get fun x _ => h.appendCommon _ _ _ fun d n hd => hd.append _ _
  have hib : ∀ p c, Ensures (d.sinkAppendBeforeSibling p c) := by
    intro p c
    unfold Document.sinkAppendBeforeSibling
    cases c with
    | node n => exact h.appendCommon _ _ _ fun d n hd => hd.insertBefore _ _
    | text s => exact Ensures.get fun x _ => h.appendCommon _ _ _ fun d n hd => hd.insertBefore _ _
  cases op with
  | createElement e =>
    apply Ensures.some
    unfold Document.createElement
    by_cases hs : e.name.ns = htmlNs ∧ e.name.loc = "style"
    · have : NodeData.isStyle (.element e) = true := by simp [NodeData.isStyle, hs]
      simpa [hs, Document.newNode, Document.pushNode] using (h.push _).2 this
    · have : NodeData.isStyle (.element e) = false := by
        simp only [NodeData.isStyle, Bool.and_eq_false_iff, beq_eq_false_iff_ne]
        by_cases h1 : e.name.ns = htmlNs
        · exact .inr fun h2 => hs ⟨h1, h2⟩
        · exact .inl h1
      simpa [hs, Document.newNode, Document.pushNode] using (h.push _).1 this
  | createComment s => exact Ensures.some ((h.push _).1 rfl)
  | createPi t s => exact Ensures.some ((h.push _).1 rfl)
  | append p c => exact hap p c
  | appendBeforeSibling s c => exact hib s c
  | appendBasedOnParentNode e p c =>
    refine Ensures.get fun x _ => ?_
    split
    · exact hib _ _
    · exact hap _ _
  | appendDoctype a b c => exact ((h.push (.doctype a b c)).1 rfl).append _ _
  | addAttrsIfMissing t as =>
    refine Ensures.get fun x hx => ?_
    split
    · next e he =>
      refine h.modify _ _ fun y hy => ?_
      simp only [Document.get] at hx
      rw [hx] at hy; cases hy
      rw [he]; rfl
    · exact Ensures.none
  | removeFromParent t => exact h.detach t
  | reparentChildren n p =>
    refine Ensures.get fun x _ => ?_
    have : ∀ (fuel : Nat) (d : Document) (c : Option Nat), StyleInv d → Ensures (d.reparentLoop n p fuel c) := by
      intro fuel
      induction fuel with
      | zero => intro d c hd; cases c with
        | none => exact Ensures.some hd
        | some c => exact Ensures.none
      | succ fuel ih => intro d c hd; cases c with
        | none => exact Ensures.some hd
        | some c =>
          refine Ensures.get fun x _ => ?_
          split
          · exact Ensures.bind (hd.append _ _) fun d1 h1 => Ensures.get fun x _ => ih _ _ h1
          · exact Ensures.none
    exact this _ _ _ h

theorem StyleInv.runOps : ∀ (ops : List SinkOp) (d : Document), StyleInv d → Ensures (d.runOps ops) := by
  intro ops
  induction ops with
  | nil => intro d h; exact Ensures.some h
  | cons op ops ih => intro d h; exact Ensures.bind (h.applyOp op) fun d1 h1 => ih d1 h1

theorem mapM_get {d : Document} : ∀ {l : List Nat}, (∀ n ∈ l, n < d.nodes.length) →
    ∃ ns : List Node, l.mapM d.get = some ns ∧ d.dataOf l = ns.map Node.data := by
  intro l
  induction l with
  | nil => intro _; exact ⟨[], rfl, rfl⟩
  | cons a l ih =>
    intro hlt
    obtain ⟨ns, g1, g2⟩ := ih (fun n hn => hlt n (by simp [hn]))
    have hal := hlt a (by simp)
    refine ⟨d.nodes[a] :: ns, ?_, ?_⟩
    · rw [List.mapM_cons, g1]
      simp [Document.get, List.getElem?_eq_getElem hal]
    · simp only [Document.dataOf, List.filterMap_cons, List.getElem?_eq_getElem hal, Option.map_some,
        List.map_cons] at g2 ⊢
      rw [← g2]

theorem foldl_append_string (l : List String) : ∀ s : String,
    l.foldl (fun r s => r ++ s) s = s ++ l.foldl (fun r s => r ++ s) "" := by
  induction l with
  | nil => intro s; simp
  | cons a l ih =>
    intro s
    simp only [List.foldl_cons]
    rw [ih (s ++ a), ih ("" ++ a), String.append_assoc]
    simp

theorem join_text (ns : List Node) : String.join (ns.filterMap Node.asText) = textContent (ns.map Node.data) := by
  induction ns with
  | nil => rfl
  | cons n ns ih =>
    simp only [List.filterMap_cons, List.map_cons]
    cases hd : n.data with
    | text t =>
      simp only [Node.asText, hd, textContent]
      rw [← ih]
      simp only [String.join, List.foldl_cons]
      rw [foldl_append_string]; simp
    | _ => simpa [Node.asText, hd, textContent] using ih

theorem Represents.childTextContent {d : Document} {F : Forest} (h : Represents d F) {i fuel : Nat}
    (hi : i < d.nodes.length) (hf : d.nodes.length ≤ fuel) :
    d.childTextContent fuel i = some (textContent (d.dataOf (F i))) := by
  obtain ⟨ns, h1, h2⟩ := mapM_get (d := d) (l := F i) (fun n hn => h.mem_lt hn)
  simp only [Document.childTextContent, h.childrenOf_eq hi (Nat.le_trans (h.length_le i) hf),
    Option.bind_eq_bind, Option.bind_some, h1, pure]
  rw [join_text, h2]

theorem stylesheetTexts_eq {d : Document} {F : Forest} (h : Represents d F) {fuel : Nat}
    (hf : d.nodes.length ≤ fuel) : ∀ l : List Nat,
    (∀ i ∈ l, ((d.nodes[i]?).map Node.data).any NodeData.isStyle = true) →
    d.stylesheetTexts fuel l = some ((l.filter fun i => ((d.nodes[i]?).map Node.data).any NodeData.styleEnabled).map
      fun i => textContent (d.dataOf (F i))) := by
  intro l
  induction l with
  | nil => intro _; rfl
  | cons a l ih =>
    intro hl
    have ih := ih (fun i hi => hl i (by simp [hi]))
    have ha := hl a (by simp)
    cases hn : d.nodes[a]? with
    | none => rw [hn] at ha; cases ha
    | some n =>
      have hal := (List.getElem?_eq_some_iff.1 hn).1
      rw [hn] at ha
      simp only [Option.map_some, Option.any_some] at ha
      cases hd : n.data with
      | element e =>
        have hlow : "text/css".toList.map Char.toLower = "text/css".toList := by decide
        simp only [Document.stylesheetTexts, Document.get, hn, Node.asElement, hd, Option.bind_eq_bind,
          Option.bind_some, List.filter_cons, Option.map_some, Option.any_some, NodeData.styleEnabled,
          h.childTextContent hal hf, ih, pure]
        cases ht : e.getAttr "type" with
        | none => simp
        | some t =>
          simp only [Document.eqIgnoreAsciiCase, hlow]
          by_cases hb : (t.toList.map Char.toLower == "text/css".toList) = true
          · rw [if_pos hb, if_neg (by rw [hb]; exact Bool.false_ne_true)]; rfl
          · rw [if_neg hb, if_pos (by rw [Bool.not_eq_true] at hb; rw [hb]; rfl)]
      | _ => rw [hd] at ha; cases ha

/-- C07: after any legal sequence of sink calls, the style sheet texts handed to the style system are the text
contents of the HTML style elements that are enabled, in creation order. -/
theorem C07_style_elements (ops : List SinkOp) (hops : LegalHistory Document.new ops) :
    ∃ d F, Document.new.runOps ops = some d ∧ Represents d F ∧
      ∀ fuel, d.nodes.length ≤ fuel →
        d.stylesheetTexts fuel d.styleElements =
          some ((d.idsWith fun x => x.isStyle && x.styleEnabled).map fun i => textContent (d.dataOf (F i))) := by
  obtain ⟨d, F, h1, h2⟩ := Good.runOps ops _ _ Good.new hops
  have hinv : StyleInv d := StyleInv.runOps ops _ (by unfold StyleInv; decide) d h1
  refine ⟨d, F, h1, h2.rep, fun fuel hf => ?_⟩
  rw [stylesheetTexts_eq h2.rep hf]
  · rw [hinv]
    simp only [Document.idsWith, List.filter_filter]
    congr 2
    apply List.filter_congr
    intro i _
    cases (d.nodes[i]?).map Node.data with
    | none => rfl
    | some x => simp [Bool.and_comm]
  · intro i hi
    rw [hinv] at hi
    exact (List.mem_filter.1 hi).2

/-- Non-vacuity: a history creating a style element with text, one that is disabled, and a paragraph. -/
example : (Document.new.runOps
    [ .createElement ⟨⟨none, htmlNs, "style"⟩, [], false⟩,
      .append 1 (.node 2), .append 2 (.text "a"), .append 2 (.text "b"),
      .createElement ⟨⟨none, htmlNs, "style"⟩, [⟨⟨none, "", "type"⟩, "x"⟩], false⟩,
      .createElement ⟨⟨none, htmlNs, "style"⟩, [⟨⟨none, "", "type"⟩, "TEXT/css"⟩], false⟩ ]).map
      (fun d => (d.styleElements, d.stylesheetTexts 9 d.styleElements)) =
    some ([2, 4, 5], some ["ab", ""]) := by decide

end Verif.Dom
