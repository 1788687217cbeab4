/- C43: elements that generate no box lose the boxes stored below them. -/
import Verif.Layout.DocumentSpec
import Verif.Layout.Unset
import Verif.Dom.Check
import Verif.Dom.Traversal
namespace Verif.Layout
open Verif.Dom

/-! ### Specification -/

/-- Layout data of `base` and of what is below it, as box construction leaves it: only elements have data, and below an element without
a box there is none. -/
structure Consistent (d : Document) (F : Forest) (base : Nat) (data : AllLayoutData) : Prop where
  elements : ∀ id node, id = base ∨ F.Ancestor base id → d.nodes[id]? = some node → (∀ e, node.data ≠ .element e) →
    data id = ⟨false, false⟩
  below : ∀ id, id = base ∨ F.Ancestor base id → (data id).selfBox = false → ∀ x, F.Ancestor id x → data x = ⟨false, false⟩

open Classical in
/-- The data without that of `base` and the nodes below it. -/
noncomputable def cleared (F : Forest) (base : Nat) (data : AllLayoutData) : AllLayoutData :=
  fun x => if x = base ∨ F.Ancestor base x then ⟨false, false⟩ else data x

/-- The call returns, with this layout data. -/
def Returns (d : Document) (base : Nat) (data result : AllLayoutData) : Prop :=
  ∃ fuel, unsetBoxesInSubtree d fuel base data = .done result

/-! ### Steps -/

variable {d : Document} {F : Forest} {base : Nat}

/-- The loop, from this node on, returns. -/
def Ret (d : Document) (base id : Nat) (data res : AllLayoutData) : Prop := ∃ fuel, unsetLoop d base fuel id data = .done res

theorem get_eq (d : Document) (id : Nat) : d.get id = d.nodes[id]? := rfl

theorem ret_descend {id : Nat} {node : Node} {data data' res : AllLayoutData} {child : Nat} (hn : d.nodes[id]? = some node)
    (hv : visit node id data = (data', some child)) : Ret d base id data res ↔ Ret d base child data' res := by
  constructor
  · rintro ⟨fuel, h⟩
    cases fuel with
    | zero => simp [unsetLoop] at h
    | succ fuel =>
      rw [unsetLoop, get_eq, hn] at h
      simp only [hv] at h
      exact ⟨fuel, h⟩
  · rintro ⟨fuel, h⟩
    refine ⟨fuel + 1, ?_⟩
    rw [unsetLoop, get_eq, hn]
    simp only [hv]
    exact h

theorem ret_of_sibling {id : Nat} {node : Node} {data data' res : AllLayoutData} {current sibling : Nat} (hn : d.nodes[id]? = some node)
    (hv : visit node id data = (data', none)) (hs : ∀ fuel, siblingLoop d node (fuel + 2) id = .done (current, sibling)) :
    Ret d base id data res ↔ (current = base ∧ res = data') ∨ (current ≠ base ∧ Ret d base sibling data' res) := by
  constructor
  · rintro ⟨fuel, h⟩
    cases fuel with
    | zero => simp [unsetLoop] at h
    | succ fuel =>
      rw [unsetLoop, get_eq, hn] at h
      simp only [hv, hs] at h
      split at h
      · rename_i hc
        injection h with h
        exact .inl ⟨hc, h.symm⟩
      · rename_i hc
        exact .inr ⟨hc, fuel, h⟩
  · rintro (⟨hc, rfl⟩ | ⟨hc, fuel, h⟩)
    · refine ⟨1, ?_⟩
      rw [unsetLoop, get_eq, hn]
      simp only [hv, hs, hc, if_true]
    · refine ⟨fuel + 1, ?_⟩
      rw [unsetLoop, get_eq, hn]
      simp only [hv, hs, hc, if_false]
      exact h

theorem not_ret_of_sibling {id : Nat} {node : Node} {data data' res : AllLayoutData} (hn : d.nodes[id]? = some node)
    (hv : visit node id data = (data', none)) (hs : ∀ fuel r, siblingLoop d node fuel id ≠ .done r) : ¬ Ret d base id data res := by
  rintro ⟨fuel, h⟩
  cases fuel with
  | zero => simp [unsetLoop] at h
  | succ fuel =>
    rw [unsetLoop, get_eq, hn] at h
    simp only [hv] at h
    rcases h1 : siblingLoop d node (fuel + 2) id with r | _ | _
    · exact hs _ _ h1
    · simp [h1] at h
    · simp [h1] at h

theorem siblingLoop_stuck {node p : Node} {parent : Nat} (hp : node.parent = some parent) (hd : d.nodes[parent]? = some p)
    (hs : p.nextSibling = none) : ∀ fuel r, siblingLoop d node fuel parent ≠ .done r := by
  intro fuel
  induction fuel with
  | zero => intro r h; simp [siblingLoop] at h
  | succ fuel ih =>
    intro r h
    rw [siblingLoop, get_eq, hd] at h
    simp only [hs, hp] at h
    exact ih r h

/-- A node that is not descended into, and has a next sibling. -/
theorem ret_next {id : Nat} {node : Node} {data data' res : AllLayoutData} {sibling : Nat} (hn : d.nodes[id]? = some node)
    (hv : visit node id data = (data', none)) (hs : node.nextSibling = some sibling) :
    Ret d base id data res ↔ (id = base ∧ res = data') ∨ (id ≠ base ∧ Ret d base sibling data' res) :=
  ret_of_sibling hn hv fun fuel => by
    rw [siblingLoop, get_eq, hn]
    simp only [hs]

/-- A node that is not descended into, and is the last child. -/
theorem ret_last {id : Nat} {node p : Node} {data data' res : AllLayoutData} {parent : Nat} (hn : d.nodes[id]? = some node)
    (hv : visit node id data = (data', none)) (hs : node.nextSibling = none) (hp : node.parent = some parent)
    (hd : d.nodes[parent]? = some p) :
    Ret d base id data res ↔ ∃ sibling, p.nextSibling = some sibling ∧
      ((parent = base ∧ res = data') ∨ (parent ≠ base ∧ Ret d base sibling data' res)) := by
  rcases h1 : p.nextSibling with _ | sibling
  · simp only [reduceCtorEq, false_and, exists_false, iff_false]
    refine not_ret_of_sibling hn hv fun fuel r h => ?_
    cases fuel with
    | zero => simp [siblingLoop] at h
    | succ fuel =>
      rw [siblingLoop, get_eq, hn] at h
      simp only [hs, hp] at h
      exact siblingLoop_stuck hp hd h1 fuel r h
  · rw [ret_of_sibling (current := parent) (sibling := sibling) hn hv fun fuel => by
      rw [siblingLoop, get_eq, hn]
      simp only [hs, hp]
      rw [siblingLoop, get_eq, hd]
      simp only [h1]]
    simp

/-! ### The traversal of the children of a node -/

open Classical in
/-- The data without that of the listed nodes. -/
noncomputable def clearAll (out : List Nat) (data : AllLayoutData) : AllLayoutData :=
  fun x => if x ∈ out then ⟨false, false⟩ else data x

/-- Every node of the list that the loop descends into has a next sibling. -/
def AllNext (d : Document) (F : Forest) (data : AllLayoutData) (out : List Nat) : Prop :=
  ∀ x ∈ out, (data x).selfBox = true → F x ≠ [] → HasNext d x

/-- `visit` in terms of the tree. -/
theorem visit_eq (h : Represents d F) {data : AllLayoutData} {id : Nat} {node : Node} (hn : d.nodes[id]? = some node)
    (he : (∀ e, node.data ≠ .element e) → data id = ⟨false, false⟩) :
    visit node id data = (clearAll [id] data, if (data id).selfBox = true then (F id).head? else none) := by
  have hset : ∀ v : LayoutData, v = ⟨false, false⟩ → data.set id v = clearAll [id] data := by
    intro v hv
    subst hv
    funext x
    simp [AllLayoutData.set, clearAll]
  unfold visit
  split
  · rw [hset _ rfl, (h.ends id node hn).1]
  · rename_i hne
    have := he fun e he => hne e he
    rw [this]
    refine Prod.ext ?_ (by simp)
    funext x
    simp only [clearAll, List.mem_singleton]
    split
    · rename_i hx
      rw [hx, this]
    · rfl

theorem clearAll_append (a b : List Nat) (data : AllLayoutData) : clearAll b (clearAll a data) = clearAll (a ++ b) data := by
  funext x
  simp only [clearAll, List.mem_append]
  by_cases h1 : x ∈ a <;> by_cases h2 : x ∈ b <;> simp [h1, h2]

theorem clearAll_not_mem {out : List Nat} {data : AllLayoutData} {x : Nat} (h : x ∉ out) : clearAll out data x = data x := by
  simp [clearAll, h]

/-- Below a node without a box nothing is left to do. -/
theorem clearAll_below {n : Nat} {below : List Nat} {data : AllLayoutData} (h : ∀ x ∈ below, data x = ⟨false, false⟩) :
    clearAll (n :: below) data = clearAll [n] data := by
  funext x
  simp only [clearAll, List.mem_cons, List.not_mem_nil, or_false]
  by_cases h1 : x = n
  · simp [h1]
  · by_cases h2 : x ∈ below
    · simp [h1, h2, h x h2]
    · simp [h1, h2]

/-- What the hypotheses on the data are used for, on the nodes still to be visited. -/
structure ConsistentOn (d : Document) (F : Forest) (data : AllLayoutData) (out : List Nat) : Prop where
  elements : ∀ id ∈ out, ∀ node, d.nodes[id]? = some node → (∀ e, node.data ≠ .element e) → data id = ⟨false, false⟩
  below : ∀ id ∈ out, (data id).selfBox = false → ∀ x, F.Ancestor id x → data x = ⟨false, false⟩

theorem ret_children (h : Represents d F) (ha : F.Acyclic) {ns out : List Nat} (hp : PreOrder F ns out) :
    ∀ (p : Nat) (pn : Node) (before : List Nat) (data res : AllLayoutData) (c : Nat), d.nodes[p]? = some pn → F p = before ++ ns →
      ns.head? = some c → (base ∉ out) → Indep F ns → ConsistentOn d F data out →
      (Ret d base c data res ↔ AllNext d F data out ∧ ∃ sibling, pn.nextSibling = some sibling ∧
        ((p = base ∧ res = clearAll out data) ∨ (p ≠ base ∧ Ret d base sibling (clearAll out data) res))) := by
  induction hp with
  | nil => intro p pn before data res c _ _ hc; simp at hc
  | @cons n ns below rest h1 h2 ih1 ih2 =>
    intro p pn before data res c hpn hF hc hbase hind hcons
    simp only [List.head?_cons, Option.some.injEq] at hc
    subst hc
    obtain ⟨node, hn, hl⟩ := h.child p before n ns hF
    have hnb : n ≠ base := fun e => hbase (by simp [e])
    -- the nodes are distinct
    have hnd : (n :: below ++ rest).Nodup := (PreOrder.cons h1 h2).nodup h ha hind
    have hdisj : ∀ x ∈ rest, x ∉ n :: below := fun x hx hx' => by
      rw [List.nodup_append] at hnd
      exact hnd.2.2 x hx' x hx rfl
    have hindrest : Indep F ns := ⟨(List.nodup_cons.1 hind.1).2, fun a ha b hb => hind.2 a (by simp [ha]) b (by simp [hb])⟩
    have hrestbelow : ∀ x ∈ rest, ∀ y, F.Ancestor x y → y ∈ rest := by
      intro x hx y hy
      refine (h2.mem y).2 (.inr ?_)
      rcases (h2.mem x).1 hx with hx | ⟨m, hm, hx⟩
      · exact ⟨x, hx, hy⟩
      · exact ⟨m, hm, hx.trans hy⟩
    have hbelow_anc : ∀ x ∈ below, F.Ancestor n x := by
      intro x hx
      rcases (h1.mem x).1 hx with hx | ⟨m, hm, hx⟩
      · exact .parent hx
      · exact Forest.Ancestor.trans (.parent hm) hx
    have hv := visit_eq h hn (hcons.elements n (by simp) node hn)
    -- what comes after the tree of `n`
    have tail : ∀ data', data' = clearAll (n :: below) data → ∀ r : AllLayoutData,
        (∃ sibling, node.nextSibling = some sibling ∧ Ret d base sibling data' r) ↔
          (ns ≠ [] ∧ AllNext d F data rest ∧ ∃ sibling, pn.nextSibling = some sibling ∧
            ((p = base ∧ r = clearAll (n :: below ++ rest) data) ∨
              (p ≠ base ∧ Ret d base sibling (clearAll (n :: below ++ rest) data) r))) := by
      intro data' hd' r
      subst hd'
      rw [hl.next]
      cases ns with
      | nil => simp
      | cons s ns' =>
        have hc2 : ConsistentOn d F (clearAll (n :: below) data) rest := by
          constructor
          · intro id hid nd hnd hel
            rw [clearAll_not_mem (hdisj id hid)]
            exact hcons.elements id (by simp [hid]) nd hnd hel
          · intro id hid hb x hx
            rw [clearAll_not_mem (hdisj id hid)] at hb
            rw [clearAll_not_mem (hdisj x (hrestbelow id hid x hx))]
            exact hcons.below id (by simp [hid]) hb x hx
        have := ih2 p pn (before ++ [n]) (clearAll (n :: below) data) r s hpn (by simp [hF]) rfl
          (fun hb => hbase (by simp [hb])) hindrest hc2
        simp only [List.head?_cons, Option.some.injEq, exists_eq_left', this, ne_eq, reduceCtorEq, not_false_eq_true, true_and,
          clearAll_append]
        have hall : AllNext d F (clearAll (n :: below) data) rest ↔ AllNext d F data rest := by
          constructor
          · intro ha x hx hb
            exact ha x hx (by rw [clearAll_not_mem (hdisj x hx)]; exact hb)
          · intro ha x hx hb
            rw [clearAll_not_mem (hdisj x hx)] at hb
            exact ha x hx hb
        rw [hall]
    by_cases hdesc : (data n).selfBox = true ∧ F n ≠ []
    · -- the loop goes to the first child of `n`
      obtain ⟨hbox, hne⟩ := hdesc
      obtain ⟨child, hchild⟩ : ∃ child, (F n).head? = some child := by
        cases hFn : F n with
        | nil => exact absurd hFn hne
        | cons a l => exact ⟨a, rfl⟩
      have hv' : visit node n data = (clearAll [n] data, some child) := by rw [hv, if_pos hbox, hchild]
      rw [ret_descend hn hv']
      have hnotin : ∀ x ∈ below, x ∉ [n] := by
        intro x hx hx'
        simp only [List.mem_singleton] at hx'
        subst hx'
        exact ha _ (hbelow_anc _ hx)
      have hc1 : ConsistentOn d F (clearAll [n] data) below := by
        constructor
        · intro id hid nd hnd hel
          rw [clearAll_not_mem (hnotin id hid)]
          exact hcons.elements id (by simp [hid]) nd hnd hel
        · intro id hid hb x hx
          rw [clearAll_not_mem (hnotin id hid)] at hb
          have hxb : x ∈ below := by
            refine (h1.mem x).2 (.inr ?_)
            rcases (h1.mem id).1 hid with hid | ⟨m, hm, hid⟩
            · exact ⟨id, hid, hx⟩
            · exact ⟨m, hm, hid.trans hx⟩
          rw [clearAll_not_mem (hnotin x hxb)]
          exact hcons.below id (by simp [hid]) hb x hx
      rw [ih1 n node [] (clearAll [n] data) res child hn rfl hchild (fun hb => hbase (by simp [hb])) (Indep.children h ha n) hc1]
      have e1 : clearAll below (clearAll [n] data) = clearAll (n :: below) data := by rw [clearAll_append]; rfl
      have t := tail _ e1 res
      simp only [hnb, false_and, false_or, ne_eq, not_false_eq_true, true_and]
      rw [t]
      have hallb : AllNext d F (clearAll [n] data) below ↔ AllNext d F data below := by
        constructor
        · intro hA x hx hb
          exact hA x hx (by rw [clearAll_not_mem (hnotin x hx)]; exact hb)
        · intro hA x hx hb
          rw [clearAll_not_mem (hnotin x hx)] at hb
          exact hA x hx hb
      have hnext : HasNext d n ↔ ns ≠ [] := by
        constructor
        · rintro ⟨node', s, h3, h4⟩
          rw [hn] at h3
          cases h3
          rw [hl.next] at h4
          rintro rfl
          simp at h4
        · intro hne'
          cases ns with
          | nil => exact absurd rfl hne'
          | cons s _ => exact ⟨node, s, hn, by rw [hl.next]; rfl⟩
      rw [hallb, ← hnext]
      constructor
      · rintro ⟨a1, a2, a3, a4⟩
        refine ⟨?_, a4⟩
        intro x hx
        simp only [List.cons_append, List.mem_cons, List.mem_append] at hx
        rcases hx with rfl | hx | hx
        · exact fun _ _ => a2
        · exact a1 x hx
        · exact a3 x hx
      · rintro ⟨a1, a2⟩
        exact ⟨fun x hx => a1 x (by simp [hx]), a1 n (by simp) hbox hne, fun x hx => a1 x (by simp [hx]), a2⟩
    · -- the loop does not go below `n`
      have hv' : visit node n data = (clearAll [n] data, none) := by
        rw [hv]
        by_cases hb : (data n).selfBox = true
        · have : F n = [] := by
            by_contra hne
            exact hdesc ⟨hb, hne⟩
          simp [hb, this]
        · simp [hb]
      have hzero : ∀ x ∈ below, data x = ⟨false, false⟩ := by
        intro x hx
        by_cases hb : (data n).selfBox = true
        · have hFn : F n = [] := by
            by_contra hne
            exact hdesc ⟨hb, hne⟩
          rw [hFn] at h1
          cases h1
          cases hx
        · exact hcons.below n (by simp) (by simpa using hb) x (hbelow_anc x hx)
      have hallbelow : AllNext d F data (n :: below ++ rest) ↔ AllNext d F data rest := by
        constructor
        · intro hA x hx
          exact hA x (by simp [hx])
        · intro hA x hx hb hne
          simp only [List.cons_append, List.mem_cons, List.mem_append] at hx
          rcases hx with rfl | hx | hx
          · exact absurd ⟨hb, hne⟩ hdesc
          · rw [hzero x hx] at hb
            cases hb
          · exact hA x hx hb hne
      have e1 : clearAll [n] data = clearAll (n :: below) data := (clearAll_below hzero).symm
      rw [hallbelow]
      cases hns : ns with
      | cons s ns' =>
        have hs : node.nextSibling = some s := by rw [hl.next, hns]; rfl
        rw [ret_next hn hv' hs]
        have t := tail _ e1 res
        simp only [hs, Option.some.injEq, exists_eq_left', hns, ne_eq, reduceCtorEq, not_false_eq_true, true_and] at t
        simp only [hnb, false_and, false_or, ne_eq, not_false_eq_true, true_and]
        exact t
      | nil =>
        subst hns
        cases h2
        rw [ret_last hn hv' (by rw [hl.next]; rfl) hl.parent hpn]
        simp only [List.append_nil, e1]
        constructor
        · intro hx
          exact ⟨fun x hx => (by cases hx), hx⟩
        · exact fun hx => hx.2

/-! ### C43 -/

theorem siblingLoop_done {node : Node} : ∀ (fuel : Nat) (current : Nat) (r : Nat × Nat), siblingLoop d node fuel current = .done r →
    ∃ n, d.nodes[r.1]? = some n ∧ n.nextSibling = some r.2 := by
  intro fuel
  induction fuel with
  | zero => intro current r h; simp [siblingLoop] at h
  | succ fuel ih =>
    intro current r h
    rw [siblingLoop, get_eq] at h
    rcases h1 : d.nodes[current]? with _ | n
    · simp [h1] at h
    · simp only [h1] at h
      rcases h2 : n.nextSibling with _ | s
      · simp only [h2] at h
        rcases h3 : node.parent with _ | p
        · simp [h3] at h
        · simp only [h3] at h
          exact ih p r h
      · simp only [h2] at h
        injection h with h
        subst h
        exact ⟨n, h1, h2⟩

/-- **C43**: whatever the tree and the boxes, if the element is the last child of its parent then the call does not return. -/
theorem C43_last_child_violated (d : Document) (base : Nat) (hlast : ¬ HasNext d base) (data result : AllLayoutData) :
    ¬ Returns d base data result := by
  rintro ⟨fuel, h⟩
  unfold unsetBoxesInSubtree at h
  have key : ∀ (fuel id : Nat) (data : AllLayoutData), unsetLoop d base fuel id data ≠ .done result := by
    intro fuel
    induction fuel with
    | zero => intro id data h; simp [unsetLoop] at h
    | succ fuel ih =>
      intro id data h
      rw [unsetLoop, get_eq] at h
      rcases h1 : d.nodes[id]? with _ | node
      · simp [h1] at h
      · simp only [h1] at h
        rcases h2 : visit node id data with ⟨data', _ | child⟩
        · simp only [h2] at h
          rcases h3 : siblingLoop d node (fuel + 2) id with ⟨cur, sib⟩ | _ | _
          · simp only [h3] at h
            split at h
            · rename_i hc
              obtain ⟨n, h4, h5⟩ := siblingLoop_done _ _ _ h3
              exact hlast ⟨n, sib, by rw [← hc]; exact h4, h5⟩
            · exact ih _ _ h
          · simp [h3] at h
          · simp [h3] at h
        · simp only [h2] at h
          exact ih _ _ h
  exact key _ _ _ h

/-- **C43**, exactly when the call returns, and with which boxes: the element has a next sibling, and so has every node below it that
has a box and children. Then all the boxes in the subtree are removed, and nothing else changes. -/
theorem C43_subtree_partial (d : Document) (F : Forest) (h : Represents d F) (ha : F.Acyclic) (base : Nat)
    (data result : AllLayoutData) (hc : Consistent d F base data) :
    Returns d base data result ↔
      (HasNext d base ∧ (∀ x, F.Ancestor base x → (data x).selfBox = true → F x ≠ [] → HasNext d x) ∧
        result = cleared F base data) := by
  by_cases hnext : HasNext d base
  swap
  · constructor
    · intro hr
      exact absurd hr (C43_last_child_violated d base hnext data result)
    · exact fun hr => absurd hr.1 hnext
  obtain ⟨node, sibling, hn, hs⟩ := hnext
  have hv := visit_eq h hn (hc.elements base node (.inl rfl) hn)
  have hanc : ∀ {out}, PreOrder F (F base) out → ∀ x, x ∈ out ↔ F.Ancestor base x := by
    intro out ho x
    rw [ho.mem]
    constructor
    · rintro (hx | ⟨m, hm, hx⟩)
      · exact .parent hx
      · exact Forest.Ancestor.trans (.parent hm) hx
    · intro hx
      induction hx with
      | parent hx => exact .inl hx
      | step _ hx ih =>
        rcases ih with ih | ⟨m, hm, ih⟩
        · exact .inr ⟨_, ih, .parent hx⟩
        · exact .inr ⟨m, hm, .step ih hx⟩
  obtain ⟨out, ho⟩ : ∃ out, PreOrder F (F base) out := PreOrder.of_forall _ fun n _ => PreOrder.exists h ha n
  have hout := hanc ho
  have hbase : base ∉ out := fun hx => ha _ ((hout base).1 hx)
  have hcleared : clearAll (base :: out) data = cleared F base data := by
    funext x
    have hx : x ∈ base :: out ↔ (x = base ∨ F.Ancestor base x) := by rw [List.mem_cons, hout]
    by_cases h1 : x = base ∨ F.Ancestor base x
    · simp only [clearAll, cleared, hx.2 h1, h1, if_true]
    · simp only [clearAll, cleared, mt hx.1 h1, h1, if_false]
  have hN : HasNext d base := ⟨node, sibling, hn, hs⟩
  change Ret d base base data result ↔ _
  by_cases hdesc : (data base).selfBox = true ∧ F base ≠ []
  · obtain ⟨hbox, hne⟩ := hdesc
    obtain ⟨child, hchild⟩ : ∃ child, (F base).head? = some child := by
      cases hFn : F base with
      | nil => exact absurd hFn hne
      | cons a l => exact ⟨a, rfl⟩
    rw [ret_descend hn (by rw [hv, if_pos hbox, hchild])]
    have hnotin : ∀ x ∈ out, x ∉ [base] := by
      intro x hx hx'
      simp only [List.mem_singleton] at hx'
      exact hbase (hx' ▸ hx)
    have hc1 : ConsistentOn d F (clearAll [base] data) out := by
      constructor
      · intro id hid nd hnd hel
        rw [clearAll_not_mem (hnotin id hid)]
        exact hc.elements id nd (.inr ((hout id).1 hid)) hnd hel
      · intro id hid hbx x hx
        rw [clearAll_not_mem (hnotin id hid)] at hbx
        rw [clearAll_not_mem (hnotin x ((hout x).2 (((hout id).1 hid).trans hx)))]
        exact hc.below id (.inr ((hout id).1 hid)) hbx x hx
    rw [ret_children h ha ho base node [] (clearAll [base] data) result child hn rfl hchild hbase (Indep.children h ha base) hc1]
    have e1 : clearAll out (clearAll [base] data) = cleared F base data := by
      rw [clearAll_append]
      exact hcleared
    simp only [hs, Option.some.injEq, exists_eq_left', true_and, ne_eq, not_true_eq_false, false_and, or_false, e1, hN]
    constructor
    · rintro ⟨a1, a2⟩
      refine ⟨fun x hx hbx hne => a1 x ((hout x).2 hx) ?_ hne, a2⟩
      rw [clearAll_not_mem (hnotin x ((hout x).2 hx))]
      exact hbx
    · rintro ⟨a1, a2⟩
      refine ⟨fun x hx hbx hne => a1 x ((hout x).1 hx) ?_ hne, a2⟩
      rw [clearAll_not_mem (hnotin x hx)] at hbx
      exact hbx
  · have hv' : visit node base data = (clearAll [base] data, none) := by
      rw [hv]
      by_cases hbx : (data base).selfBox = true
      · have : F base = [] := by
          by_contra hne
          exact hdesc ⟨hbx, hne⟩
        simp [hbx, this]
      · simp [hbx]
    rw [ret_next hn hv' hs]
    have hzero : ∀ x ∈ out, data x = ⟨false, false⟩ := by
      intro x hx
      by_cases hbx : (data base).selfBox = true
      · have hFn : F base = [] := by
          by_contra hne
          exact hdesc ⟨hbx, hne⟩
        rw [hFn] at ho
        cases ho
        cases hx
      · exact hc.below base (.inl rfl) (by simpa using hbx) x ((hout x).1 hx)
    rw [← hcleared, clearAll_below hzero]
    simp only [true_and, ne_eq, not_true_eq_false, false_and, or_false, hN]
    constructor
    · intro hr
      refine ⟨fun x hx hbx => ?_, hr⟩
      rw [hzero x ((hout x).2 hx)] at hbx
      cases hbx
    · exact fun hr => hr.2

/-- **C43**, for an element that never had boxes in it, as in a document that is laid out for the first time: the call returns exactly
if the element has a next sibling, and changes nothing. -/
theorem C43_fresh_partial (d : Document) (F : Forest) (h : Represents d F) (ha : F.Acyclic) (base : Nat) (data result : AllLayoutData)
    (hc : ∀ x, x = base ∨ F.Ancestor base x → data x = ⟨false, false⟩) :
    Returns d base data result ↔ HasNext d base ∧ result = data := by
  have hcons : Consistent d F base data :=
    ⟨fun id _ hid _ _ => hc id hid, fun id hid _ x hx => hc x (.inr (by
      rcases hid with rfl | hid
      · exact hx
      · exact hid.trans hx))⟩
  have hclear : cleared F base data = data := by
    funext x
    unfold cleared
    split
    · rename_i hx
      exact (hc x hx).symm
    · rfl
  rw [C43_subtree_partial d F h ha base data result hcons, hclear]
  constructor
  · exact fun hr => ⟨hr.1, hr.2.2⟩
  · refine fun hr => ⟨hr.1, fun x hx hb => ?_, hr.2⟩
    rw [hc x (.inr hx)] at hb
    cases hb

/-- An element of the examples. -/
def exampleElement (name : String) (parent next prev first last : Option Nat) : Node :=
  ⟨parent, next, prev, first, last, .element ⟨⟨none, htmlNs, name⟩, [], false⟩⟩

/-- `<html><div><p>a</p>b</div><script></script></html>`: 0 is not used, 1 is the document, 2 `html`, 3 `div`, 4 `p`, 5 "a", 6 "b",
7 `script`. -/
def exampleDocument : Document :=
  { Document.new with nodes :=
    [ Node.new .document,
      ⟨none, none, none, some 2, some 2, .document⟩,
      exampleElement "html" (some 1) none none (some 3) (some 7),
      exampleElement "div" (some 2) (some 7) none (some 4) (some 6),
      exampleElement "p" (some 3) (some 6) none (some 5) (some 5),
      ⟨some 4, none, none, none, none, .text "a"⟩,
      ⟨some 3, none, some 4, none, none, .text "b"⟩,
      exampleElement "script" (some 2) none (some 3) none none ] }

/-- The children of the nodes of `exampleDocument`. -/
def exampleChildren : List (List Nat) := [[], [2], [3, 7], [4, 6], [5], [], [], []]

theorem exampleDocument_check : treeCheck exampleDocument exampleChildren = true := by decide +kernel

/-- The layout data of all elements, for the hypotheses of C43. -/
def exampleData : AllLayoutData := fun x => ⟨x = 2 ∨ x = 3 ∨ x = 4, x = 4⟩

theorem exampleData_other {x : Nat} (h : x ≠ 2 ∧ x ≠ 3 ∧ x ≠ 4) : exampleData x = ⟨false, false⟩ := by
  simp [exampleData, h.1, h.2.1, h.2.2]

theorem exampleData_consistent : Consistent exampleDocument (forestOf exampleChildren) 3 exampleData := by
  have hlt : ∀ {a b : Nat}, (forestOf exampleChildren).Ancestor a b → a < b := fun h => lt_of_check exampleDocument_check h
  constructor
  · intro id node _ hn hel
    apply exampleData_other
    refine ⟨?_, ?_, ?_⟩ <;>
    · rintro rfl
      cases hn
      exact hel _ rfl
  · intro id hid hb x hx
    apply exampleData_other
    have h1 := hlt hx
    have h2 : 3 ≤ id := by
      rcases hid with rfl | hid
      · exact Nat.le_refl _
      · exact Nat.le_of_lt (hlt hid)
    refine ⟨by omega, by omega, ?_⟩
    rintro rfl
    have : id = 3 := by omega
    subst this
    cases hb

/-- The hypotheses of `C43_subtree_partial` are met by a `div` with a nested `p`, which has a next sibling: its boxes are removed. -/
example : Represents exampleDocument (forestOf exampleChildren) ∧ (forestOf exampleChildren).Acyclic ∧
    Consistent exampleDocument (forestOf exampleChildren) 3 exampleData ∧
    HasNext exampleDocument 3 ∧ HasNext exampleDocument 4 ∧
    ∃ data, unsetBoxesInSubtree exampleDocument 9 3 exampleData = .done data ∧
      (List.range 8).map exampleData = [⟨false, false⟩, ⟨false, false⟩, ⟨true, false⟩, ⟨true, false⟩, ⟨true, true⟩, ⟨false, false⟩,
        ⟨false, false⟩, ⟨false, false⟩] ∧
      (List.range 8).map data = [⟨false, false⟩, ⟨false, false⟩, ⟨true, false⟩, ⟨false, false⟩, ⟨false, false⟩, ⟨false, false⟩,
        ⟨false, false⟩, ⟨false, false⟩] :=
  ⟨represents_of_check exampleDocument_check, acyclic_of_check exampleDocument_check, exampleData_consistent, ⟨_, 7, rfl, rfl⟩,
    ⟨_, 6, rfl, rfl⟩, _, rfl, by decide, by decide⟩

/-- `C43_last_child_violated` applies to the `script` element, which is the last child of its parent. -/
example : ¬ HasNext exampleDocument 7 := by
  rintro ⟨node, s, h1, h2⟩
  cases h1
  cases h2

end Verif.Layout
