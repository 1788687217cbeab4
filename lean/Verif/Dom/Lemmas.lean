import Verif.Dom.Spec
/- Helper lemmas for the DOM: each link update, as a formula on the fields of every node. -/
namespace Verif.Dom

namespace Document

theorem modify_eq {d : Document} {i : Nat} {f : Node → Node} (h : i < d.nodes.length) :
    d.modify i f = some { d with nodes := d.nodes.modify i f } := by
  simp [modify, h]

theorem modify_some {d d' : Document} {i : Nat} {f : Node → Node} (h : d.modify i f = some d') :
    i < d.nodes.length ∧ d' = { d with nodes := d.nodes.modify i f } := by
  unfold modify at h
  split at h <;> simp_all

end Document

namespace Represents

variable {d : Document} {F : Forest}

theorem mem_parent (h : Represents d F) {p c : Nat} (hc : c ∈ F p) :
    ∃ n, d.nodes[c]? = some n ∧ n.parent = some p := by
  obtain ⟨a, b, e⟩ := List.append_of_mem hc
  obtain ⟨n, h1, h2⟩ := h.child p a c b e
  exact ⟨n, h1, h2.parent⟩

theorem mem_unique (h : Represents d F) {p q c : Nat} (hp : c ∈ F p) (hq : c ∈ F q) : p = q := by
  obtain ⟨n, h1, h2⟩ := h.mem_parent hp
  obtain ⟨m, h3, h4⟩ := h.mem_parent hq
  rw [h1] at h3; cases h3
  rw [h2] at h4; cases h4; rfl

theorem mem_lt (h : Represents d F) {p c : Nat} (hc : c ∈ F p) : c < d.nodes.length := by
  obtain ⟨n, h1, _⟩ := h.mem_parent hc
  exact (List.getElem?_eq_some_iff.1 h1).1

theorem parent_lt (h : Represents d F) {p c : Nat} (hc : c ∈ F p) : p < d.nodes.length := by
  rcases Nat.lt_or_ge p d.nodes.length with h1 | h1
  · exact h1
  · rw [h.outside p h1] at hc; cases hc

end Represents

/-- Effect on one node of removing the node `n`, which stood between `l1` and `l2` among the children of `p`. -/
def detachUpd (n p : Nat) (l1 l2 : List Nat) (j : Nat) (x : Node) : Node :=
  { parent := if j = n then none else x.parent
    nextSibling := if j = n then none else if l1.getLast? = some j then l2.head? else x.nextSibling
    previousSibling := if j = n then none else if l2.head? = some j then l1.getLast? else x.previousSibling
    firstChild := if j = p ∧ l1 = [] then l2.head? else x.firstChild
    lastChild := if j = p ∧ l2 = [] then l1.getLast? else x.lastChild
    data := x.data }

namespace Document

theorem detach_formula {d : Document} {F : Forest} (h : Represents d F) {n p : Nat} {l1 l2 : List Nat}
    (e : F p = l1 ++ n :: l2) :
    ∃ d', d.detach n = some d' ∧ d'.nodes.length = d.nodes.length ∧ d'.styleElements = d.styleElements ∧
      ∀ j, d'.nodes[j]? = (d.nodes[j]?).map (detachUpd n p l1 l2 j) := by
  obtain ⟨x, hx, hl⟩ := h.child p l1 n l2 e
  have hn : n < d.nodes.length := (List.getElem?_eq_some_iff.1 hx).1
  have hp : p < d.nodes.length := h.parent_lt (c := n) (by simp [e])
  have nd := h.nodup p
  rw [e] at nd
  rcases List.eq_nil_or_concat l1 with rfl | ⟨l1', a, rfl⟩ <;> rcases l2 with _ | ⟨b, l2'⟩
  all_goals
    simp only [detach, get, hx, hl.parent, hl.prev, hl.next, Option.bind_eq_bind, Option.bind_some,
      List.getLast?_nil, List.head?_nil, List.head?_cons, List.concat_eq_append,
      List.getLast?_append, List.getLast?_singleton, Option.some_or]
  · rw [modify_eq hn]; simp only [Option.bind_some]
    rw [modify_eq (by simpa using hp)]; simp only [Option.bind_some]
    rw [modify_eq (by simpa using hp)]
    refine ⟨_, rfl, by simp, rfl, fun j => ?_⟩
    simp only [List.getElem?_modify, Option.map_eq_map, Option.map_map]
    congr 1
    funext y
    simp only [Function.comp, detachUpd]
    clear h hx hl e hn hp
    have e1 : (n = j) = (j = n) := propext eq_comm
    have e2 : (p = j) = (j = p) := propext eq_comm
    simp only [e1, e2]
    by_cases h1 : j = n <;> by_cases h2 : j = p <;> simp_all
  · have hb : b < d.nodes.length := h.mem_lt (p := p) (by simp [e])
    rw [modify_eq hn]; simp only [Option.bind_some]
    rw [modify_eq (by simpa using hb)]; simp only [Option.bind_some]
    rw [modify_eq (by simpa using hp)]
    refine ⟨_, rfl, by simp, rfl, fun j => ?_⟩
    simp only [List.getElem?_modify, Option.map_eq_map, Option.map_map]
    congr 1
    funext y
    simp only [Function.comp, detachUpd]
    clear h hx hl e hn hp
    have e1 : (n = j) = (j = n) := propext eq_comm
    have e2 : (p = j) = (j = p) := propext eq_comm
    have e3 : (b = j) = (j = b) := propext eq_comm
    have hnb : b ≠ n := by rintro rfl; simp at nd
    simp only [e1, e2, e3]
    by_cases h1 : j = n <;> by_cases h2 : j = p <;> by_cases h3 : j = b <;> simp_all
  · have ha : a < d.nodes.length := h.mem_lt (p := p) (by simp [e])
    rw [modify_eq hn]; simp only [Option.bind_some]
    rw [modify_eq (by simpa using hp)]; simp only [Option.bind_some]
    rw [modify_eq (by simpa using ha)]
    refine ⟨_, rfl, by simp, rfl, fun j => ?_⟩
    simp only [List.getElem?_modify, Option.map_eq_map, Option.map_map]
    congr 1
    funext y
    simp only [Function.comp, detachUpd]
    clear h hx hl e hn hp
    have e1 : (n = j) = (j = n) := propext eq_comm
    have e2 : (p = j) = (j = p) := propext eq_comm
    have e3 : (a = j) = (j = a) := propext eq_comm
    have hna : a ≠ n := by rintro rfl; simp [List.nodup_append] at nd
    simp only [e1, e2, e3]
    by_cases h1 : j = n <;> by_cases h2 : j = p <;> by_cases h3 : j = a <;> simp_all
  · have ha : a < d.nodes.length := h.mem_lt (p := p) (by simp [e])
    have hb : b < d.nodes.length := h.mem_lt (p := p) (by simp [e])
    rw [modify_eq hn]; simp only [Option.bind_some]
    rw [modify_eq (by simpa using hb)]; simp only [Option.bind_some]
    rw [modify_eq (by simpa using ha)]
    refine ⟨_, rfl, by simp, rfl, fun j => ?_⟩
    simp only [List.getElem?_modify, Option.map_eq_map, Option.map_map]
    congr 1
    funext y
    simp only [Function.comp, detachUpd]
    clear h hx hl e hn hp
    have e1 : (n = j) = (j = n) := propext eq_comm
    have e2 : (p = j) = (j = p) := propext eq_comm
    have e3 : (a = j) = (j = a) := propext eq_comm
    have e4 : (b = j) = (j = b) := propext eq_comm
    have hna : a ≠ n := by rintro rfl; simp [List.nodup_append] at nd
    have hnb : b ≠ n := by rintro rfl; simp [List.nodup_append] at nd
    have hab : a ≠ b := by rintro rfl; simp [List.nodup_append] at nd
    simp only [e1, e3, e4]
    by_cases h1 : j = n <;> by_cases h2 : j = p <;> by_cases h3 : j = a <;> by_cases h4 : j = b <;> simp_all

theorem detach_orphan {d : Document} {F : Forest} (h : Represents d F) {n : Nat} {x : Node}
    (hx : d.nodes[n]? = some x) (ho : x.parent = none) : d.detach n = some d := by
  have hn : n < d.nodes.length := (List.getElem?_eq_some_iff.1 hx).1
  obtain ⟨hp, hnx⟩ := h.orphan n x hx ho
  simp only [detach, get, hx, ho, hp, hnx, Option.bind_eq_bind, Option.bind_some]
  rw [modify_eq hn]
  simp only [Option.bind_some]
  congr 1
  have : d.nodes.modify n (fun x => { x with parent := none, previousSibling := none, nextSibling := none })
      = d.nodes := by
    apply List.ext_getElem?
    intro j
    rw [List.getElem?_modify]
    by_cases hj : n = j
    · subst hj
      rw [hx]; simp only [if_pos, Option.map_eq_map, Option.map_some]
      congr 1
      cases x; simp_all
    · simp [hj]
  rw [this]

end Document

theorem Represents.detach_not_mem {d : Document} {F : Forest} (h : Represents d F) {n : Nat} {x : Node}
    (hx : d.nodes[n]? = some x) (ho : x.parent = none) : F.detach n = F := by
  funext p
  simp only [Forest.detach]
  apply List.filter_eq_self.2
  intro c hc
  simp only [ne_eq, decide_not, Bool.not_eq_eq_eq_not, Bool.not_true, decide_eq_false_iff_not]
  rintro rfl
  obtain ⟨m, h1, h2⟩ := h.mem_parent hc
  rw [hx] at h1; cases h1; rw [ho] at h2; cases h2

theorem Represents.detach_at {d : Document} {F : Forest} (h : Represents d F) {n p : Nat} {l1 l2 : List Nat}
    (e : F p = l1 ++ n :: l2) (q : Nat) : F.detach n q = if q = p then l1 ++ l2 else F q := by
  have nd := h.nodup p
  rw [e] at nd
  simp only [Forest.detach]
  split
  · next hq =>
    subst hq; rw [e]
    have h1 : ∀ c ∈ l1, c ≠ n := by
      intro c hc hcn; subst hcn
      simp only [List.nodup_append, List.mem_cons, ne_eq, forall_eq_or_imp] at nd
      exact (nd.2.2 c hc).1 rfl
    have h2 : ∀ c ∈ l2, c ≠ n := by
      intro c hc hcn; subst hcn
      simp [List.nodup_append] at nd
      exact nd.2.1.1 hc
    simp only [List.filter_append, List.filter_cons, ne_eq, not_true_eq_false, decide_false, Bool.false_eq_true,
      if_false]
    rw [List.filter_eq_self.2 (by simpa using h1), List.filter_eq_self.2 (by simpa using h2)]
  · next hq =>
    apply List.filter_eq_self.2
    intro c hc
    simp only [ne_eq, decide_not, Bool.not_eq_eq_eq_not, Bool.not_true, decide_eq_false_iff_not]
    rintro rfl
    exact hq (h.mem_unique hc (p := q) (q := p) (by simp [e]))

/-- Links after `detachUpd` represent the forest with `n` removed. -/
theorem Represents.of_detachUpd {d d' : Document} {F : Forest} (h : Represents d F) {n p : Nat}
    {l1 l2 : List Nat} (e : F p = l1 ++ n :: l2) (hlen : d'.nodes.length = d.nodes.length)
    (hf : ∀ j, d'.nodes[j]? = (d.nodes[j]?).map (detachUpd n p l1 l2 j)) :
    Represents d' (F.detach n) ∧ ∃ x, d'.nodes[n]? = some x ∧ x.parent = none := by
  have hF : ∀ q, F.detach n q = if q = p then l1 ++ l2 else F q := fun q => h.detach_at e q
  have nd := h.nodup p
  rw [e] at nd
  have hn1 : n ∉ l1 := by intro hc; rw [List.nodup_append] at nd; exact nd.2.2 n hc n (by simp) rfl
  have hn2 : n ∉ l2 := by intro hc; simp [List.nodup_append] at nd; exact nd.2.1.1 hc
  have hdis : ∀ c, c ∈ l1 → c ∉ l2 := by
    intro c h1 h2; rw [List.nodup_append] at nd; exact nd.2.2 c h1 c (by simp [h2]) rfl
  have nd1 : l1.Nodup := (List.nodup_append.1 nd).1
  have nd2 : l2.Nodup := by have := (List.nodup_append.1 nd).2.1; simp at this; exact this.2
  obtain ⟨x0, hx0, hl0⟩ := h.child p l1 n l2 e
  refine ⟨⟨?_, ?_, ?_, ?_, ?_, ?_⟩, ?_⟩
  · intro q m hm
    rw [hf] at hm
    obtain ⟨m0, hm0, rfl⟩ := Option.map_eq_some_iff.1 hm
    obtain ⟨h1, h2⟩ := h.ends q m0 hm0
    rw [hF]
    by_cases hq : q = p
    · subst hq
      rw [e] at h1 h2
      constructor
      · simp only [detachUpd, true_and, if_true]
        cases l1 <;> simp_all
      · simp only [detachUpd, true_and, if_true]
        rcases List.eq_nil_or_concat l2 with rfl | ⟨l2', b, rfl⟩ <;> simp_all [List.getLast?_cons]
    · simp [hq, detachUpd, h1, h2]
  · intro q m1 c m2 hs
    rw [hF] at hs
    by_cases hq : q = p
    · subst hq
      simp only [if_true] at hs
      rcases List.append_eq_append_iff.1 hs with ⟨k, rfl, hk⟩ | ⟨k, hk, hk'⟩
      · -- c is in l2
        obtain ⟨m, hm, hl⟩ := h.child q (l1 ++ n :: k) c m2 (by rw [e, hk]; simp)
        refine ⟨_, by rw [hf, hm]; rfl, ?_, ?_, ?_⟩
        · have : c ≠ n := by rintro rfl; exact hn2 (by simp [hk])
          simp [detachUpd, this, hl.parent]
        · have hcn : c ≠ n := by rintro rfl; exact hn2 (by simp [hk])
          rcases k with _ | ⟨b, k'⟩
          · simp [detachUpd, hcn, hk]
          · have : b ≠ c := by rintro rfl; rw [hk] at nd2; simp at nd2
            have hlp := hl.prev
            rw [List.getLast?_append, List.getLast?_cons] at hlp
            simp only [detachUpd, hcn, if_false, hk, List.cons_append, List.head?_cons, Option.some.injEq,
              this, hlp, List.getLast?_append]
            simp [List.getLast?_cons]
        · have hcn : c ≠ n := by rintro rfl; exact hn2 (by simp [hk])
          have : l1.getLast? ≠ some c := by
            intro hc
            exact hdis c (List.mem_of_getLast? hc) (by simp [hk])
          simp [detachUpd, hcn, this, hl.next]
      · -- c is in l1, or l1 = m1
        rcases k with _ | ⟨c', k'⟩
        · -- c is the head of l2
          simp only [List.append_nil] at hk
          subst hk
          simp only [List.nil_append] at hk'
          subst hk'
          have hcn : c ≠ n := by rintro rfl; exact hn2 (by simp)
          obtain ⟨m, hm, hl⟩ := h.child q (l1 ++ [n]) c m2 (by rw [e]; simp)
          refine ⟨_, by rw [hf, hm]; rfl, ?_, ?_, ?_⟩
          · simp [detachUpd, hcn, hl.parent]
          · simp [detachUpd, hcn]
          · have : l1.getLast? ≠ some c := by
              intro hc
              exact hdis c (List.mem_of_getLast? hc) (by simp)
            simp [detachUpd, hcn, this, hl.next]
        · simp only [List.cons_append, List.cons.injEq] at hk'
          obtain ⟨rfl, rfl⟩ := hk'
          have hcn : c ≠ n := by rintro rfl; exact hn1 (by simp [hk])
          have hc2 : l2.head? ≠ some c := by
            intro hc
            exact hdis c (by simp [hk]) (List.mem_of_head? hc)
          obtain ⟨m, hm, hl⟩ := h.child q m1 c (k' ++ n :: l2) (by rw [e, hk]; simp)
          refine ⟨_, by rw [hf, hm]; rfl, ?_, ?_, ?_⟩
          · simp [detachUpd, hcn, hl.parent]
          · simp [detachUpd, hcn, hc2, hl.prev]
          · rcases List.eq_nil_or_concat k' with rfl | ⟨k'', b, rfl⟩
            · simp [detachUpd, hcn, hk]
            · have hb : b ≠ c := by rintro rfl; rw [hk] at nd1; simp [List.nodup_append] at nd1
              have hln := hl.next
              have : l1.getLast? ≠ some c := by
                rw [hk]; simp [List.getLast?_cons, hb]
              simp only [detachUpd, hcn, if_false, this, hln]
              cases k'' <;> simp
    · simp only [hq, if_false] at hs
      have hcn : c ≠ n := by
        rintro rfl
        exact hq (h.mem_unique (c := c) (p := q) (q := p) (by simp [hs]) (by simp [e]))
      obtain ⟨m, hm, hl⟩ := h.child q m1 c m2 hs
      have hc1 : l1.getLast? ≠ some c := by
        intro hc
        exact hq (h.mem_unique (c := c) (p := q) (q := p) (by simp [hs])
          (by rw [e]; simp [List.mem_of_getLast? hc]))
      have hc2 : l2.head? ≠ some c := by
        intro hc
        exact hq (h.mem_unique (c := c) (p := q) (q := p) (by simp [hs])
          (by rw [e]; simp [List.mem_of_head? hc]))
      exact ⟨_, by rw [hf, hm]; rfl, by simp [detachUpd, hcn, hl.parent],
        by simp [detachUpd, hcn, hc2, hl.prev], by simp [detachUpd, hcn, hc1, hl.next]⟩
  · intro c m q hm hp
    rw [hf] at hm
    obtain ⟨m0, hm0, rfl⟩ := Option.map_eq_some_iff.1 hm
    have hcn : c ≠ n := by rintro rfl; simp [detachUpd] at hp
    simp only [detachUpd, hcn, if_false] at hp
    have := h.claimed c m0 q hm0 hp
    simp [Forest.detach, this, hcn]
  · intro c m hm hp
    rw [hf] at hm
    obtain ⟨m0, hm0, rfl⟩ := Option.map_eq_some_iff.1 hm
    by_cases hcn : c = n
    · simp [detachUpd, hcn]
    · simp only [detachUpd, hcn, if_false] at hp ⊢
      have hc1 : l1.getLast? ≠ some c := by
        intro hc
        obtain ⟨m', h1, h2⟩ := h.mem_parent (c := c) (p := p) (by rw [e]; simp [List.mem_of_getLast? hc])
        rw [hm0] at h1; cases h1; rw [hp] at h2; cases h2
      have hc2 : l2.head? ≠ some c := by
        intro hc
        obtain ⟨m', h1, h2⟩ := h.mem_parent (c := c) (p := p) (by rw [e]; simp [List.mem_of_head? hc])
        rw [hm0] at h1; cases h1; rw [hp] at h2; cases h2
      simp only [hc1, hc2, if_false]
      exact h.orphan c m0 hm0 hp
  · intro q
    exact (h.nodup q).filter _
  · intro q hq
    simp [Forest.detach, h.outside q (by omega)]
  · exact ⟨_, by rw [hf, hx0]; rfl, by simp [detachUpd]⟩

/-- `detach` succeeds on a consistent document, has the abstract effect, and leaves `n` without a parent. -/
theorem Represents.detach {d : Document} {F : Forest} (h : Represents d F) {n : Nat}
    (hn : n < d.nodes.length) :
    ∃ d', d.detach n = some d' ∧ d'.nodes.length = d.nodes.length ∧ d'.styleElements = d.styleElements ∧
      (∀ j : Nat, (d'.nodes[j]?).map (·.data) = (d.nodes[j]?).map (·.data)) ∧
      Represents d' (F.detach n) ∧ ∃ x, d'.nodes[n]? = some x ∧ x.parent = none := by
  obtain ⟨x, hx⟩ : ∃ x, d.nodes[n]? = some x := ⟨_, List.getElem?_eq_getElem hn⟩
  cases hp : x.parent with
  | none =>
    refine ⟨d, Document.detach_orphan h hx hp, rfl, rfl, fun _ => rfl, ?_, x, hx, hp⟩
    rw [h.detach_not_mem hx hp]; exact h
  | some p =>
    obtain ⟨l1, l2, e⟩ := List.append_of_mem (h.claimed n x p hx hp)
    obtain ⟨d', h1, h2, h3, h4⟩ := Document.detach_formula h e
    obtain ⟨h5, h6⟩ := h.of_detachUpd e h2 h4
    refine ⟨d', h1, h2, h3, fun j => ?_, h5, h6⟩
    rw [h4, Option.map_map]; rfl

/-- Effect on one node of inserting the orphan `n` between `l1` and `l2` among the children of `p`. -/
def insertUpd (n p : Nat) (l1 l2 : List Nat) (j : Nat) (x : Node) : Node :=
  { parent := if j = n then some p else x.parent
    nextSibling := if j = n then l2.head? else if l1.getLast? = some j then some n else x.nextSibling
    previousSibling := if j = n then l1.getLast? else if l2.head? = some j then some n else x.previousSibling
    firstChild := if j = p ∧ l1 = [] then some n else x.firstChild
    lastChild := if j = p ∧ l2 = [] then some n else x.lastChild
    data := x.data }

theorem Represents.of_insertUpd {d d' : Document} {F : Forest} (h : Represents d F) {n p : Nat}
    {l1 l2 : List Nat} (e : F p = l1 ++ l2) {x : Node} (hx : d.nodes[n]? = some x) (ho : x.parent = none)
    (hlen : d'.nodes.length = d.nodes.length) (hpl : p < d.nodes.length)
    (hf : ∀ j, d'.nodes[j]? = (d.nodes[j]?).map (insertUpd n p l1 l2 j)) :
    Represents d' (fun q => if q = p then l1 ++ n :: l2 else F q) := by
  have nd := h.nodup p
  rw [e] at nd
  have hno : ∀ q, n ∉ F q := by
    intro q hc
    obtain ⟨m, h1, h2⟩ := h.mem_parent hc
    rw [hx] at h1; cases h1; rw [ho] at h2; cases h2
  have hn1 : n ∉ l1 := by intro hc; exact hno p (by simp [e, hc])
  have hn2 : n ∉ l2 := by intro hc; exact hno p (by simp [e, hc])
  have hdis : ∀ c, c ∈ l1 → c ∉ l2 := by
    intro c h1 h2; rw [List.nodup_append] at nd; exact nd.2.2 c h1 c h2 rfl
  have nd1 : l1.Nodup := (List.nodup_append.1 nd).1
  have nd2 : l2.Nodup := (List.nodup_append.1 nd).2.1
  refine ⟨?_, ?_, ?_, ?_, ?_, ?_⟩
  · intro q m hm
    rw [hf] at hm
    obtain ⟨m0, hm0, rfl⟩ := Option.map_eq_some_iff.1 hm
    obtain ⟨h1, h2⟩ := h.ends q m0 hm0
    by_cases hq : q = p
    · subst hq
      rw [e] at h1 h2
      constructor
      · simp only [insertUpd, true_and, if_true]
        cases l1 <;> simp_all
      · simp only [insertUpd, true_and, if_true]
        rcases List.eq_nil_or_concat l2 with rfl | ⟨l2', b, rfl⟩ <;> simp_all [List.getLast?_cons]
    · simp [hq, insertUpd, h1, h2]
  · intro q m1 c m2 hs
    by_cases hq : q = p
    · subst hq
      simp only [if_true] at hs
      rcases List.append_eq_append_iff.1 hs with ⟨k, rfl, hk⟩ | ⟨k, hk, hk'⟩
      · rcases k with _ | ⟨n', k'⟩
        · simp only [List.nil_append, List.cons.injEq] at hk
          obtain ⟨rfl, rfl⟩ := hk
          exact ⟨_, by rw [hf, hx]; rfl, by simp [insertUpd], by simp [insertUpd], by simp [insertUpd]⟩
        · simp only [List.cons_append, List.cons.injEq] at hk
          obtain ⟨rfl, hk⟩ := hk
          have hcn : c ≠ n := by rintro rfl; exact hn2 (by simp [hk])
          obtain ⟨m, hm, hl⟩ := h.child q (l1 ++ k') c m2 (by rw [e, hk]; simp)
          have hc1 : l1.getLast? ≠ some c := by
            intro hc
            exact hdis c (List.mem_of_getLast? hc) (by simp [hk])
          refine ⟨_, by rw [hf, hm]; rfl, by simp [insertUpd, hcn, hl.parent], ?_,
            by simp [insertUpd, hcn, hc1, hl.next]⟩
          rcases k' with _ | ⟨b, k''⟩
          · simp [insertUpd, hcn, hk]
          · have : b ≠ c := by rintro rfl; rw [hk] at nd2; simp at nd2
            have hlp := hl.prev
            simp only [insertUpd, hcn, if_false, hk, List.cons_append, List.head?_cons, Option.some.injEq,
              this, hlp]
            simp [List.getLast?_append, List.getLast?_cons]
      · rcases k with _ | ⟨c', k'⟩
        · simp only [List.append_nil] at hk
          subst hk
          simp only [List.nil_append, List.cons.injEq] at hk'
          obtain ⟨rfl, rfl⟩ := hk'
          exact ⟨_, by rw [hf, hx]; rfl, by simp [insertUpd], by simp [insertUpd], by simp [insertUpd]⟩
        · simp only [List.cons_append, List.cons.injEq] at hk'
          obtain ⟨rfl, rfl⟩ := hk'
          have hcn : c ≠ n := by rintro rfl; exact hn1 (by simp [hk])
          have hc2 : l2.head? ≠ some c := by
            intro hc
            exact hdis c (by simp [hk]) (List.mem_of_head? hc)
          obtain ⟨m, hm, hl⟩ := h.child q m1 c (k' ++ l2) (by rw [e, hk]; simp)
          refine ⟨_, by rw [hf, hm]; rfl, by simp [insertUpd, hcn, hl.parent],
            by simp [insertUpd, hcn, hc2, hl.prev], ?_⟩
          rcases List.eq_nil_or_concat k' with rfl | ⟨k'', b, rfl⟩
          · simp [insertUpd, hcn, hk]
          · have hb : b ≠ c := by rintro rfl; rw [hk] at nd1; simp [List.nodup_append] at nd1
            have hln := hl.next
            have : l1.getLast? ≠ some c := by
              rw [hk]; simp [List.getLast?_cons, hb]
            simp only [insertUpd, hcn, if_false, this, hln]
            cases k'' <;> simp
    · simp only [hq, if_false] at hs
      have hcn : c ≠ n := by
        rintro rfl
        exact hno q (by simp [hs])
      obtain ⟨m, hm, hl⟩ := h.child q m1 c m2 hs
      have hc1 : l1.getLast? ≠ some c := by
        intro hc
        exact hq (h.mem_unique (c := c) (p := q) (q := p) (by simp [hs])
          (by rw [e]; simp [List.mem_of_getLast? hc]))
      have hc2 : l2.head? ≠ some c := by
        intro hc
        exact hq (h.mem_unique (c := c) (p := q) (q := p) (by simp [hs])
          (by rw [e]; simp [List.mem_of_head? hc]))
      exact ⟨_, by rw [hf, hm]; rfl, by simp [insertUpd, hcn, hl.parent],
        by simp [insertUpd, hcn, hc2, hl.prev], by simp [insertUpd, hcn, hc1, hl.next]⟩
  · intro c m q hm hp
    rw [hf] at hm
    obtain ⟨m0, hm0, rfl⟩ := Option.map_eq_some_iff.1 hm
    by_cases hcn : c = n
    · subst hcn
      simp only [insertUpd, if_true, Option.some.injEq] at hp
      subst hp
      simp
    · simp only [insertUpd, hcn, if_false] at hp
      have := h.claimed c m0 q hm0 hp
      by_cases hq : q = p
      · subst hq; rw [e] at this; simp at this; simp; grind
      · simp [hq, this]
  · intro c m hm hp
    rw [hf] at hm
    obtain ⟨m0, hm0, rfl⟩ := Option.map_eq_some_iff.1 hm
    by_cases hcn : c = n
    · simp [insertUpd, hcn] at hp
    · simp only [insertUpd, hcn, if_false] at hp ⊢
      have hc1 : l1.getLast? ≠ some c := by
        intro hc
        obtain ⟨m', h1, h2⟩ := h.mem_parent (c := c) (p := p) (by rw [e]; simp [List.mem_of_getLast? hc])
        rw [hm0] at h1; cases h1; rw [hp] at h2; cases h2
      have hc2 : l2.head? ≠ some c := by
        intro hc
        obtain ⟨m', h1, h2⟩ := h.mem_parent (c := c) (p := p) (by rw [e]; simp [List.mem_of_head? hc])
        rw [hm0] at h1; cases h1; rw [hp] at h2; cases h2
      simp only [hc1, hc2, if_false]
      exact h.orphan c m0 hm0 hp
  · intro q
    by_cases hq : q = p
    · simp only [hq, if_true]
      rw [List.nodup_append] at nd ⊢
      refine ⟨nd.1, ?_, ?_⟩
      · simp [hn2, nd2]
      · intro a ha b hb
        rcases List.mem_cons.1 hb with rfl | hb
        · rintro rfl; exact hn1 ha
        · exact nd.2.2 a ha b hb
    · simp only [hq, if_false]; exact h.nodup q
  · intro q hq
    have : q ≠ p := by omega
    simp [this, h.outside q (by omega)]

theorem getElem?_modify_ne {l : List Node} {i j : Nat} {f : Node → Node} (h : i ≠ j) :
    (l.modify i f)[j]? = l[j]? := by
  rw [List.getElem?_modify]; simp [h]

theorem getElem?_modify_same {l : List Node} {i : Nat} {f : Node → Node} :
    (l.modify i f)[i]? = (l[i]?).map f := by
  rw [List.getElem?_modify]; simp

namespace Document

/-- Everything `append` does after its call to `detach`. -/
def attachLast (d : Document) (parent newChild : Nat) : Option Document := do
  let d ← d.modify newChild fun x => { x with parent := some parent }
  let p ← d.get parent
  let d ← d.modify parent fun x => { x with lastChild := none }
  let d ← match p.lastChild with
    | some lastChild => do
        let d ← d.modify newChild fun x => { x with previousSibling := some lastChild }
        let l ← d.get lastChild
        if l.nextSibling.isSome then none
        else d.modify lastChild fun x => { x with nextSibling := some newChild }
    | none => do
        let p ← d.get parent
        if p.firstChild.isSome then none
        else d.modify parent fun x => { x with firstChild := some newChild }
  d.modify parent fun x => { x with lastChild := some newChild }

theorem append_eq (d : Document) (p n : Nat) :
    d.append p n = (d.detach n).bind fun d => d.attachLast p n := rfl

theorem attachLast_formula {d : Document} {F : Forest} (h : Represents d F) {n p : Nat} {x : Node}
    (hx : d.nodes[n]? = some x) (ho : x.parent = none) (hp : p < d.nodes.length) (hnp : n ≠ p) :
    ∃ d', d.attachLast p n = some d' ∧ d'.nodes.length = d.nodes.length ∧ d'.styleElements = d.styleElements ∧
      ∀ j, d'.nodes[j]? = (d.nodes[j]?).map (insertUpd n p (F p) [] j) := by
  have hn : n < d.nodes.length := (List.getElem?_eq_some_iff.1 hx).1
  obtain ⟨y, hy⟩ : ∃ y, d.nodes[p]? = some y := ⟨_, List.getElem?_eq_getElem hp⟩
  obtain ⟨he1, he2⟩ := h.ends p y hy
  obtain ⟨hop, hon⟩ := h.orphan n x hx ho
  unfold attachLast
  simp only [get, Option.bind_eq_bind]
  rw [modify_eq hn]
  simp only [Option.bind_some]
  rw [getElem?_modify_ne hnp, hy]
  simp only [Option.bind_some]
  rw [modify_eq (by simpa using hp)]
  simp only [Option.bind_some]
  rcases List.eq_nil_or_concat (F p) with hl | ⟨l, a, hl⟩
  · simp only [hl, List.getLast?_nil] at he2
    simp only [he2, hl]
    rw [getElem?_modify_same, getElem?_modify_ne hnp, hy]
    simp only [hl, List.head?_nil] at he1
    simp only [Option.map_some, Option.bind_some, he1, Option.isSome_none, Bool.false_eq_true, if_false]
    rw [modify_eq (by simpa using hp)]
    simp only [Option.bind_some]
    rw [modify_eq (by simpa using hp)]
    refine ⟨_, rfl, by simp, rfl, fun j => ?_⟩
    simp only [List.getElem?_modify, Option.map_eq_map, Option.map_map]
    rcases hj : d.nodes[j]? with _ | z
    · simp
    · simp only [Option.map_some]
      congr 1
      simp only [Function.comp, insertUpd]
      have e1 : (n = j) = (j = n) := propext eq_comm
      have e2 : (p = j) = (j = p) := propext eq_comm
      simp only [e1, e2]
      by_cases h1 : j = n <;> by_cases h2 : j = p <;> simp_all
  · rw [List.concat_eq_append] at hl
    have hla : (F p).getLast? = some a := by simp [hl]
    obtain ⟨z, hz, hlz⟩ := h.child p l a [] (by simp [hl])
    have hza : z.nextSibling = none := hlz.next
    have hal : a < d.nodes.length := (List.getElem?_eq_some_iff.1 hz).1
    have hna : n ≠ a := by
      rintro rfl
      rw [hx] at hz; cases hz
      rw [hlz.parent] at ho; cases ho
    rw [hla] at he2
    simp only [he2]
    rw [modify_eq (by simpa using hn)]
    simp only [Option.bind_some]
    obtain ⟨z', hz', hzn⟩ : ∃ z', ((d.nodes.modify n fun x => { x with parent := some p }).modify p
        fun x => { x with lastChild := none })[a]? = some z' ∧ z'.nextSibling = none := by
      by_cases hpa : p = a
      · subst hpa
        rw [getElem?_modify_same, getElem?_modify_ne hna, hz]
        exact ⟨_, rfl, hza⟩
      · rw [getElem?_modify_ne hpa, getElem?_modify_ne hna, hz]
        exact ⟨_, rfl, hza⟩
    rw [getElem?_modify_ne hna, hz']
    simp only [Option.bind_some, hzn, Option.isSome_none, Bool.false_eq_true, if_false]
    rw [modify_eq (by simpa using hal)]
    simp only [Option.bind_some]
    rw [modify_eq (by simpa using hp)]
    refine ⟨_, rfl, by simp, rfl, fun j => ?_⟩
    simp only [List.getElem?_modify, Option.map_eq_map, Option.map_map]
    rcases hj : d.nodes[j]? with _ | w
    · simp
    · simp only [Option.map_some]
      congr 1
      simp only [Function.comp, insertUpd]
      have e1 : (n = j) = (j = n) := propext eq_comm
      have e2 : (p = j) = (j = p) := propext eq_comm
      have e3 : (a = j) = (j = a) := propext eq_comm
      simp only [e1, e2, e3, hla, Option.some.injEq]
      have hne : F p ≠ [] := by simp [hl]
      clear hz' hzn z' hz hlz hza he1 he2 hla hl
      by_cases h1 : j = n <;> by_cases h2 : j = p <;> by_cases h3 : j = a <;> simp_all

/-- Everything `insert_before` does after its call to `detach`. -/
def attachBefore (d : Document) (sibling newSibling : Nat) : Option Document := do
  let s ← d.get sibling
  let d ← d.modify newSibling fun x => { x with parent := s.parent }
  let d ← d.modify newSibling fun x => { x with nextSibling := some sibling }
  let s ← d.get sibling
  let d ← d.modify sibling fun x => { x with previousSibling := none }
  let d ← match s.previousSibling with
    | some prev => do
        let d ← d.modify newSibling fun x => { x with previousSibling := some prev }
        let p ← d.get prev
        if p.nextSibling = some sibling then
          d.modify prev fun x => { x with nextSibling := some newSibling }
        else none
    | none => do
        let s ← d.get sibling
        match s.parent with
        | some parent => do
            let p ← d.get parent
            if p.firstChild = some sibling then
              d.modify parent fun x => { x with firstChild := some newSibling }
            else none
        | none => some d
  d.modify sibling fun x => { x with previousSibling := some newSibling }

theorem insertBefore_eq (d : Document) (s n : Nat) :
    d.insertBefore s n = (d.detach n).bind fun d => d.attachBefore s n := rfl

theorem attachBefore_formula {d : Document} {F : Forest} (h : Represents d F) {n p s : Nat} {l1 l2 : List Nat}
    {x : Node} (hx : d.nodes[n]? = some x) (ho : x.parent = none) (e : F p = l1 ++ s :: l2) :
    ∃ d', d.attachBefore s n = some d' ∧ d'.nodes.length = d.nodes.length ∧ d'.styleElements = d.styleElements ∧
      ∀ j, d'.nodes[j]? = (d.nodes[j]?).map (insertUpd n p l1 (s :: l2) j) := by
  have hn : n < d.nodes.length := (List.getElem?_eq_some_iff.1 hx).1
  obtain ⟨hop, hon⟩ := h.orphan n x hx ho
  obtain ⟨y, hy, hly⟩ := h.child p l1 s l2 e
  have hs : s < d.nodes.length := (List.getElem?_eq_some_iff.1 hy).1
  have hp : p < d.nodes.length := h.parent_lt (c := s) (by simp [e])
  have hns : n ≠ s := by
    rintro rfl
    rw [hx] at hy; cases hy
    rw [hly.parent] at ho; cases ho
  have nd := h.nodup p
  rw [e] at nd
  unfold attachBefore
  simp only [get, Option.bind_eq_bind, hy, Option.bind_some]
  rw [modify_eq hn]
  simp only [Option.bind_some]
  rw [modify_eq (by simpa using hn)]
  simp only [Option.bind_some]
  rw [getElem?_modify_ne hns, getElem?_modify_ne hns, hy]
  simp only [Option.bind_some]
  rw [modify_eq (by simpa using hs)]
  simp only [Option.bind_some]
  rcases List.eq_nil_or_concat l1 with hl | ⟨l, a, hl⟩
  · subst hl
    have hpv : y.previousSibling = none := hly.prev
    simp only [hpv]
    rw [getElem?_modify_same, getElem?_modify_ne hns, getElem?_modify_ne hns, hy]
    simp only [Option.map_some, Option.bind_some, hly.parent]
    obtain ⟨w, hw⟩ : ∃ w, d.nodes[p]? = some w := ⟨_, List.getElem?_eq_getElem hp⟩
    have hw1 : w.firstChild = some s := by rw [(h.ends p w hw).1, e]; rfl
    obtain ⟨w', hw', hwf⟩ : ∃ w', (((d.nodes.modify n fun x => { x with parent := some p }).modify n
        fun x => { x with nextSibling := some s }).modify s
        fun x => { x with previousSibling := none })[p]? = some w' ∧ w'.firstChild = some s := by
      by_cases hps : s = p <;> by_cases hpn : n = p
      · omega
      · subst hps
        rw [getElem?_modify_same, getElem?_modify_ne hpn, getElem?_modify_ne hpn, hw]
        exact ⟨_, rfl, hw1⟩
      · subst hpn
        rw [getElem?_modify_ne hps, getElem?_modify_same, getElem?_modify_same, hw]
        exact ⟨_, rfl, hw1⟩
      · rw [getElem?_modify_ne hps, getElem?_modify_ne hpn, getElem?_modify_ne hpn, hw]
        exact ⟨_, rfl, hw1⟩
    rw [hw']
    simp only [Option.bind_some, hwf, if_true]
    rw [modify_eq (by simpa using hp)]
    simp only [Option.bind_some]
    rw [modify_eq (by simpa using hs)]
    refine ⟨_, rfl, by simp, rfl, fun j => ?_⟩
    simp only [List.getElem?_modify, Option.map_eq_map, Option.map_map]
    rcases hj : d.nodes[j]? with _ | v
    · simp
    · simp only [Option.map_some]
      congr 1
      simp only [Function.comp, insertUpd, List.getLast?_nil, List.head?_cons, Option.some.injEq]
      have e1 : (n = j) = (j = n) := propext eq_comm
      have e2 : (p = j) = (j = p) := propext eq_comm
      have e3 : (s = j) = (j = s) := propext eq_comm
      simp only [e1, e2, e3]
      clear hw' hwf w' hw1 hw w
      by_cases h1 : j = n <;> by_cases h2 : j = p <;> by_cases h3 : j = s <;> simp_all
  · rw [List.concat_eq_append] at hl
    subst hl
    have hpv : y.previousSibling = some a := by rw [hly.prev]; simp
    have hsa : s ≠ a := by rintro rfl; simp [List.nodup_append] at nd
    obtain ⟨z, hz, hlz⟩ := h.child p l a (s :: l2) (by simp [e])
    have hza : z.nextSibling = some s := hlz.next
    have hal : a < d.nodes.length := (List.getElem?_eq_some_iff.1 hz).1
    have hna : n ≠ a := by
      rintro rfl
      rw [hx] at hz; cases hz
      rw [hlz.parent] at ho; cases ho
    simp only [hpv]
    rw [modify_eq (by simpa using hn)]
    simp only [Option.bind_some]
    rw [getElem?_modify_ne hna, getElem?_modify_ne hsa, getElem?_modify_ne hna, getElem?_modify_ne hna, hz]
    simp only [Option.bind_some, hza, if_true]
    rw [modify_eq (by simpa using hal)]
    simp only [Option.bind_some]
    rw [modify_eq (by simpa using hs)]
    refine ⟨_, rfl, by simp, rfl, fun j => ?_⟩
    simp only [List.getElem?_modify, Option.map_eq_map, Option.map_map]
    rcases hj : d.nodes[j]? with _ | v
    · simp
    · simp only [Option.map_some]
      congr 1
      simp only [Function.comp, insertUpd, List.getLast?_append, List.getLast?_singleton, Option.some_or,
        List.head?_cons, Option.some.injEq, List.append_eq_nil_iff, List.cons_ne_nil, and_false, if_false]
      have e1 : (n = j) = (j = n) := propext eq_comm
      have e3 : (s = j) = (j = s) := propext eq_comm
      have e4 : (a = j) = (j = a) := propext eq_comm
      simp only [e1, e3, e4, hly.parent]
      by_cases h1 : j = n <;> by_cases h3 : j = s <;> by_cases h4 : j = a <;> simp_all

end Document

/-- `append` succeeds on a consistent document and has the abstract effect. -/
theorem Represents.append {d : Document} {F : Forest} (h : Represents d F) {n p : Nat}
    (hn : n < d.nodes.length) (hp : p < d.nodes.length) (hnp : n ≠ p) :
    ∃ d', d.append p n = some d' ∧ d'.nodes.length = d.nodes.length ∧ d'.styleElements = d.styleElements ∧
      (∀ j : Nat, (d'.nodes[j]?).map (·.data) = (d.nodes[j]?).map (·.data)) ∧
      Represents d' (F.append p n) := by
  obtain ⟨d1, h1, h2, h3, h4, h5, x, hx, ho⟩ := h.detach hn
  obtain ⟨d2, g1, g2, g3, g4⟩ := Document.attachLast_formula h5 hx ho (by omega) hnp
  refine ⟨d2, ?_, by omega, by simp [g3, h3], ?_, ?_⟩
  · rw [Document.append_eq, h1]; exact g1
  · intro j
    rw [g4, Option.map_map, ← h4]; rfl
  · have := h5.of_insertUpd (by simp) hx ho g2 (by omega) g4
    have e : F.append p n = fun q => if q = p then F.detach n p ++ [n] else F.detach n q := by
      funext q; simp only [Forest.append]; split <;> simp_all
    rw [e]; exact this

theorem Forest.insertBeforeList_split {s n : Nat} {l1 l2 : List Nat} (h : s ∉ l1) :
    Forest.insertBeforeList s n (l1 ++ s :: l2) = l1 ++ n :: s :: l2 := by
  induction l1 with
  | nil => simp [insertBeforeList]
  | cons a l ih =>
    simp only [List.mem_cons, not_or] at h
    have : a ≠ s := fun hc => h.1 hc.symm
    simp [insertBeforeList, this, ih h.2]

theorem Forest.insertBeforeList_not_mem {s n : Nat} {l : List Nat} (h : s ∉ l) :
    Forest.insertBeforeList s n l = l := by
  induction l with
  | nil => rfl
  | cons a l ih =>
    simp only [List.mem_cons, not_or] at h
    have : a ≠ s := fun hc => h.1 hc.symm
    simp [insertBeforeList, this, ih h.2]

/-- `insert_before` succeeds on a consistent document when the sibling has a parent. -/
theorem Represents.insertBefore {d : Document} {F : Forest} (h : Represents d F) {n p s : Nat}
    (hn : n < d.nodes.length) (hs : s ∈ F p) (hns : n ≠ s) :
    ∃ d', d.insertBefore s n = some d' ∧ d'.nodes.length = d.nodes.length ∧
      d'.styleElements = d.styleElements ∧
      (∀ j : Nat, (d'.nodes[j]?).map (·.data) = (d.nodes[j]?).map (·.data)) ∧
      Represents d' (F.insertBefore s n) := by
  obtain ⟨d1, h1, h2, h3, h4, h5, x, hx, ho⟩ := h.detach hn
  have hs' : s ∈ F.detach n p := by simp [Forest.detach, hs, Ne.symm hns]
  obtain ⟨l1, l2, e⟩ := List.append_of_mem hs'
  obtain ⟨d2, g1, g2, g3, g4⟩ := Document.attachBefore_formula h5 hx ho e
  refine ⟨d2, ?_, by omega, by simp [g3, h3], ?_, ?_⟩
  · rw [Document.insertBefore_eq, h1]; exact g1
  · intro j
    rw [g4, Option.map_map, ← h4]; rfl
  · have hp : p < d1.nodes.length := h5.parent_lt hs'
    have := h5.of_insertUpd e hx ho g2 hp g4
    have e' : F.insertBefore s n = fun q => if q = p then l1 ++ n :: s :: l2 else F.detach n q := by
      funext q
      simp only [Forest.insertBefore]
      by_cases hq : q = p
      · subst hq
        have nd := h5.nodup q
        rw [e] at nd ⊢
        simp only [if_true]
        apply Forest.insertBeforeList_split
        intro hc
        rw [List.nodup_append] at nd
        exact nd.2.2 s hc s (by simp) rfl
      · simp only [hq, if_false]
        apply Forest.insertBeforeList_not_mem
        intro hc
        exact hq (h5.mem_unique hc hs')
    rw [e']; exact this

end Verif.Dom
