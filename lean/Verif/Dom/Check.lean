/- Finite checks that a given document represents a given forest, for examples. -/
import Verif.Dom.Spec
namespace Verif.Dom

/-- The forest given by the child sequences of the first nodes. -/
def forestOf (L : List (List Nat)) : Forest := fun p => L.getD p []

/-- The links of child number `i` of `p`. -/
def childCheck (d : Document) (L : List (List Nat)) (p i : Nat) : Bool :=
  match (L.getD p [])[i]? with
  | none => true
  | some c =>
    match d.nodes[c]? with
    | none => false
    | some n => n.parent == some p && n.previousSibling == ((L.getD p []).take i).getLast? &&
        n.nextSibling == ((L.getD p []).drop (i + 1)).head?

/-- The links of node `p` itself. -/
def nodeCheck (d : Document) (L : List (List Nat)) (p : Nat) : Bool :=
  match d.nodes[p]? with
  | none => false
  | some n =>
    n.firstChild == (L.getD p []).head? && n.lastChild == (L.getD p []).getLast? &&
    (match n.parent with
      | some q => (L.getD q []).contains p
      | none => n.previousSibling == none && n.nextSibling == none) &&
    decide (L.getD p []).Nodup && (L.getD p []).all (fun c => decide (p < c)) &&
    (List.range (L.getD p []).length).all (childCheck d L p)

/-- All checks; children have larger identifiers than their parent. -/
def treeCheck (d : Document) (L : List (List Nat)) : Bool :=
  L.length == d.nodes.length && (List.range d.nodes.length).all (nodeCheck d L)

theorem nodeCheck_of {d : Document} {L : List (List Nat)} (h : treeCheck d L = true) {p : Nat} (hp : p < d.nodes.length) :
    nodeCheck d L p = true := by
  simp only [treeCheck, Bool.and_eq_true, List.all_eq_true, List.mem_range] at h
  exact h.2 p hp

theorem outside_of {d : Document} {L : List (List Nat)} (h : treeCheck d L = true) {p : Nat} (hp : d.nodes.length ≤ p) :
    forestOf L p = [] := by
  simp only [treeCheck, Bool.and_eq_true, beq_iff_eq] at h
  simp [forestOf, List.getD, List.getElem?_eq_none (by omega : L.length ≤ p)]

theorem represents_of_check {d : Document} {L : List (List Nat)} (h : treeCheck d L = true) : Represents d (forestOf L) := by
  have node : ∀ {p : Nat} {n : Node}, d.nodes[p]? = some n → _ := fun {p n} hn =>
    nodeCheck_of h (p := p) (by
      rw [List.getElem?_eq_some_iff] at hn
      exact hn.1)
  have hin : ∀ p, forestOf L p ≠ [] → nodeCheck d L p = true := by
    intro p hp
    apply nodeCheck_of h
    refine Nat.lt_of_not_le fun hle => hp (outside_of h hle)
  constructor
  · intro p n hn
    have := node hn
    simp only [nodeCheck, hn, Bool.and_eq_true, beq_iff_eq] at this
    exact ⟨this.1.1.1.1.1, this.1.1.1.1.2⟩
  · intro p before c after hF
    have := hin p (by simp [hF])
    unfold nodeCheck at this
    split at this
    · cases this
    · simp only [Bool.and_eq_true, List.all_eq_true, List.mem_range] at this
      have hF' : L.getD p [] = before ++ c :: after := hF
      have := this.2 before.length (by rw [hF']; simp)
      simp only [childCheck, hF', List.getElem?_append_right (Nat.le_refl _), Nat.sub_self, List.getElem?_cons_zero] at this
      split at this
      · cases this
      · rename_i n hn
        simp only [Bool.and_eq_true, beq_iff_eq] at this
        refine ⟨n, hn, this.1.1, ?_, ?_⟩
        · rw [this.1.2]
          simp
        · rw [this.2]
          simp [List.drop_append]
  · intro c n p hn hp
    have := node hn
    simp only [nodeCheck, hn, hp, Bool.and_eq_true, List.contains_iff_mem] at this
    exact this.1.1.1.2
  · intro c n hn hp
    have := node hn
    simp only [nodeCheck, hn, hp, Bool.and_eq_true, beq_iff_eq] at this
    exact ⟨this.1.1.1.2.1, this.1.1.1.2.2⟩
  · intro p
    by_cases hp : forestOf L p = []
    · rw [hp]
      exact List.nodup_nil
    · have := hin p hp
      unfold nodeCheck at this
      split at this
      · cases this
      · simp only [Bool.and_eq_true, decide_eq_true_eq] at this
        exact this.1.1.2
  · exact fun p => outside_of h

theorem lt_of_check {d : Document} {L : List (List Nat)} (h : treeCheck d L = true) {a b : Nat} (hab : (forestOf L).Ancestor a b) :
    a < b := by
  have lt : ∀ p c, c ∈ forestOf L p → p < c := by
    intro p c hc
    have hp : p < d.nodes.length := by
      refine Nat.lt_of_not_le fun hle => ?_
      rw [outside_of h hle] at hc
      cases hc
    have := nodeCheck_of h hp
    unfold nodeCheck at this
    split at this
    · cases this
    · simp only [Bool.and_eq_true, List.all_eq_true, decide_eq_true_eq] at this
      exact this.1.2 c hc
  induction hab with
  | parent hc => exact lt _ _ hc
  | step _ hc ih => exact Nat.lt_trans ih (lt _ _ hc)

theorem acyclic_of_check {d : Document} {L : List (List Nat)} (h : treeCheck d L = true) : (forestOf L).Acyclic :=
  fun n hn => absurd (lt_of_check h hn) (Nat.lt_irrefl n)

end Verif.Dom
