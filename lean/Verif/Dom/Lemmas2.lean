import Verif.Dom.Lemmas
import Mathlib.Data.List.Perm.Subperm
/- Helper lemmas for the DOM: acyclicity, pushing nodes, data changes, child enumeration. -/
namespace Verif.Dom

namespace Forest

theorem Ancestor.mono {F G : Forest} (h : ∀ p c, c ∈ F p → c ∈ G p) {a b : Nat} (hab : F.Ancestor a b) :
    G.Ancestor a b := by
  induction hab with
  | parent hc => exact .parent (h _ _ hc)
  | step _ hc ih => exact .step ih (h _ _ hc)

theorem Acyclic.mono {F G : Forest} (h : ∀ p c, c ∈ F p → c ∈ G p) (hG : G.Acyclic) : F.Acyclic :=
  fun n hn => hG n (hn.mono h)

theorem Acyclic.add_edge {F G : Forest} {n p : Nat}
    (h : ∀ q c, c ∈ G q → c ∈ F q ∨ (q = p ∧ c = n)) (hF : F.Acyclic) (hnp : n ≠ p)
    (ha : ¬ F.Ancestor n p) : G.Acyclic := by
  have key : ∀ a b, G.Ancestor a b →
      F.Ancestor a b ∨ ((a = p ∨ F.Ancestor a p) ∧ (b = n ∨ F.Ancestor n b)) := by
    intro a b hab
    induction hab with
    | parent hc =>
      rcases h _ _ hc with h1 | ⟨rfl, rfl⟩
      · exact .inl (.parent h1)
      · exact .inr ⟨.inl rfl, .inl rfl⟩
    | step _ hc ih =>
      rcases h _ _ hc with h1 | ⟨rfl, rfl⟩
      · rcases ih with ih | ⟨ih1, ih2⟩
        · exact .inl (.step ih h1)
        · refine .inr ⟨ih1, .inr ?_⟩
          rcases ih2 with rfl | ih2
          · exact .parent h1
          · exact .step ih2 h1
      · rcases ih with ih | ⟨ih1, ih2⟩
        · exact .inr ⟨.inr ih, .inl rfl⟩
        · rcases ih2 with h2 | h2
          · exact absurd h2.symm hnp
          · exact absurd h2 ha
  have trans : ∀ a b, F.Ancestor a b → ∀ c, F.Ancestor b c → F.Ancestor a c := by
    intro a b hab c hbc
    induction hbc with
    | parent hc => exact .step hab hc
    | step _ hc ih => exact .step ih hc
  intro m hm
  rcases key m m hm with h1 | ⟨h1, h2⟩
  · exact hF m h1
  · rcases h1 with rfl | h1 <;> rcases h2 with h2 | h2
    · exact hnp h2.symm
    · exact ha h2
    · subst h2; exact ha h1
    · exact ha (trans _ _ h2 _ h1)

theorem mem_detach {F : Forest} {n p c : Nat} : c ∈ F.detach n p ↔ c ∈ F p ∧ c ≠ n := by
  simp [detach]

theorem mem_append {F : Forest} {n p q c : Nat} (h : c ∈ F.append p n q) : c ∈ F q ∨ (q = p ∧ c = n) := by
  unfold append at h
  split at h
  · next hq =>
    rcases List.mem_append.1 h with h | h
    · exact .inl (mem_detach.1 h).1
    · exact .inr ⟨hq, by simpa using h⟩
  · exact .inl (mem_detach.1 h).1

theorem mem_insertBeforeList {s n c : Nat} {l : List Nat} (h : c ∈ insertBeforeList s n l) :
    c ∈ l ∨ (c = n ∧ s ∈ l) := by
  induction l with
  | nil => simp [insertBeforeList] at h
  | cons a l ih =>
    unfold insertBeforeList at h
    split at h
    · next ha => subst ha; simp only [List.mem_cons] at h ⊢; grind
    · simp only [List.mem_cons] at h ⊢
      grind

end Forest

namespace Represents
variable {d d' : Document} {F : Forest}

theorem append_acyclic (hF : F.Acyclic) {n p : Nat} (hnp : n ≠ p) (ha : ¬ F.Ancestor n p) :
    (F.append p n).Acyclic :=
  hF.add_edge (fun _ _ hc => Forest.mem_append hc) hnp ha

theorem insertBefore_acyclic (h : Represents d F) (hF : F.Acyclic) {n p s : Nat} (hs : s ∈ F p)
    (hnp : n ≠ p) (ha : ¬ F.Ancestor n p) : (F.insertBefore s n).Acyclic := by
  refine hF.add_edge (fun q c hc => ?_) hnp ha
  unfold Forest.insertBefore at hc
  rcases Forest.mem_insertBeforeList hc with hc | ⟨rfl, hc⟩
  · exact .inl (Forest.mem_detach.1 hc).1
  · exact .inr ⟨h.mem_unique (Forest.mem_detach.1 hc).1 hs, rfl⟩

theorem detach_acyclic (hF : F.Acyclic) {n : Nat} : (F.detach n).Acyclic :=
  hF.mono fun _ _ hc => (Forest.mem_detach.1 hc).1

/-- Only the links matter. -/
theorem congr_links (h : Represents d F) (hlen : d'.nodes.length = d.nodes.length)
    (hl : ∀ (j : Nat) (x' : Node), d'.nodes[j]? = some x' → ∃ x, d.nodes[j]? = some x ∧ x'.parent = x.parent ∧
      x'.previousSibling = x.previousSibling ∧ x'.nextSibling = x.nextSibling ∧
      x'.firstChild = x.firstChild ∧ x'.lastChild = x.lastChild) : Represents d' F := by
  refine ⟨?_, ?_, ?_, ?_, h.nodup, ?_⟩
  · intro p n hn
    obtain ⟨x, hx, h1, h2, h3, h4, h5⟩ := hl p n hn
    rw [h4, h5]; exact h.ends p x hx
  · intro p a c b e
    obtain ⟨n, hn, h1⟩ := h.child p a c b e
    have hc : c < d'.nodes.length := by
      rw [hlen]; exact (List.getElem?_eq_some_iff.1 hn).1
    obtain ⟨x, hx, g1, g2, g3, g4, g5⟩ := hl c _ (List.getElem?_eq_getElem hc)
    rw [hn] at hx; cases hx
    exact ⟨_, List.getElem?_eq_getElem hc, by rw [g1]; exact h1.parent, by rw [g2]; exact h1.prev,
      by rw [g3]; exact h1.next⟩
  · intro c n p hn hp
    obtain ⟨x, hx, h1, h2, h3, h4, h5⟩ := hl c n hn
    exact h.claimed c x p hx (by rw [← h1]; exact hp)
  · intro c n hn hp
    obtain ⟨x, hx, h1, h2, h3, h4, h5⟩ := hl c n hn
    rw [h2, h3]
    exact h.orphan c x hx (by rw [← h1]; exact hp)
  · intro p hp; exact h.outside p (by omega)

/-- Pushing a fresh node: it has no links and the forest is unchanged. -/
theorem push (h : Represents d F) (data : NodeData) (st : List Nat) :
    Represents { nodes := d.nodes ++ [Node.new data], styleElements := st } F := by
  have hold : ∀ (c : Nat) (n : Node), d.nodes[c]? = some n → (d.nodes ++ [Node.new data])[c]? = some n := by
    intro c n hn
    rw [List.getElem?_append_left (List.getElem?_eq_some_iff.1 hn).1]; exact hn
  have hnew : ∀ (c : Nat) (n : Node), (d.nodes ++ [Node.new data])[c]? = some n →
      d.nodes[c]? = some n ∨ (c = d.nodes.length ∧ n = Node.new data) := by
    intro c n hn
    rw [List.getElem?_append] at hn
    split at hn
    · exact .inl hn
    · next hlt =>
      have : c - d.nodes.length = 0 := by
        rcases Nat.eq_zero_or_pos (c - d.nodes.length) with h0 | h0
        · exact h0
        · rw [List.getElem?_eq_none (by simp; omega)] at hn; cases hn
      rw [this] at hn
      simp at hn
      exact .inr ⟨by omega, hn.symm⟩
  refine ⟨?_, ?_, ?_, ?_, h.nodup, ?_⟩
  · intro p n hn
    rcases hnew p n hn with h1 | ⟨rfl, rfl⟩
    · exact h.ends p n h1
    · rw [h.outside _ (Nat.le_refl _)]; exact ⟨rfl, rfl⟩
  · intro p a c b e
    obtain ⟨n, hn, h1⟩ := h.child p a c b e
    exact ⟨n, hold c n hn, h1⟩
  · intro c n p hn hp
    rcases hnew c n hn with h1 | ⟨rfl, rfl⟩
    · exact h.claimed c n p h1 hp
    · cases hp
  · intro c n hn hp
    rcases hnew c n hn with h1 | ⟨rfl, rfl⟩
    · exact h.orphan c n h1 hp
    · exact ⟨rfl, rfl⟩
  · intro p hp
    exact h.outside p (by simp at hp; omega)

/-- A node outside every sequence has no parent. -/
theorem parent_none (h : Represents d F) {c : Nat} {n : Node} (hn : d.nodes[c]? = some n)
    (hc : ∀ p, c ∉ F p) : n.parent = none := by
  cases hp : n.parent with
  | none => rfl
  | some p => exact absurd (h.claimed c n p hn hp) (hc p)

theorem siblings_eq (h : Represents d F) (p : Nat) : ∀ (l a : List Nat), F p = a ++ l →
    ∀ fuel, l.length ≤ fuel → d.nodeAndFollowingSiblings fuel l.head? = some l := by
  intro l
  induction l with
  | nil => intro a _ fuel _; cases fuel <;> rfl
  | cons c l ih =>
    intro a e fuel hf
    obtain ⟨fuel, rfl⟩ : ∃ k, fuel = k + 1 := ⟨fuel - 1, by simp at hf; omega⟩
    obtain ⟨n, hn, hl⟩ := h.child p a c l e
    simp only [List.head?_cons, Document.nodeAndFollowingSiblings, Document.get, hn, Option.bind_eq_bind,
      Option.bind_some, hl.next]
    rw [ih (a ++ [c]) (by simp [e]) fuel (by simpa using hf)]
    rfl

/-- The code's child enumeration yields the represented sequence. -/
theorem childrenOf_eq (h : Represents d F) {p : Nat} (hp : p < d.nodes.length) {fuel : Nat}
    (hf : (F p).length ≤ fuel) : d.childrenOf fuel p = some (F p) := by
  obtain ⟨n, hn⟩ : ∃ n, d.nodes[p]? = some n := ⟨_, List.getElem?_eq_getElem hp⟩
  simp only [Document.childrenOf, Document.get, hn, Option.bind_eq_bind, Option.bind_some, (h.ends p n hn).1]
  exact h.siblings_eq p (F p) [] (by simp) fuel hf

/-- A child sequence is no longer than the arena. -/
theorem length_le (h : Represents d F) (p : Nat) : (F p).length ≤ d.nodes.length := by
  have h1 : ∀ c ∈ F p, c < d.nodes.length := fun c hc => h.mem_lt hc
  have h2 := h.nodup p
  have : (F p).length ≤ (List.range d.nodes.length).length := by
    apply List.Subperm.length_le
    exact List.subperm_of_subset h2 (fun c hc => List.mem_range.2 (h1 c hc))
  simpa using this

/-- The forest is determined by the links. -/
theorem unique {G : Forest} (h : Represents d F) (g : Represents d G) : F = G := by
  funext p
  rcases Nat.lt_or_ge p d.nodes.length with hp | hp
  · have h1 := h.childrenOf_eq hp (h.length_le p)
    have h2 := g.childrenOf_eq hp (g.length_le p)
    exact Option.some.inj (h1.symm.trans h2)
  · rw [h.outside p hp, g.outside p hp]

end Represents
end Verif.Dom
