import Verif.Dom.Xml
/- Lemmas for the XML theorems. -/
namespace Verif.Dom

namespace Trees

def append : Trees → Trees → Trees
  | .nil, u => u
  | .text s r, u => .text s (r.append u)
  | .pi t x r, u => .pi t x (r.append u)
  | .element e c r, u => .element e c (r.append u)

def addText : Trees → String → Trees
  | .nil, s => .text s .nil
  | .text t .nil, s => .text (t ++ s) .nil
  | .text t r, s => .text t (r.addText s)
  | .pi t x r, s => .pi t x (r.addText s)
  | .element e c r, s => .element e c (r.addText s)

/-- Concatenation, merging text at the seam. -/
def join : Trees → Trees → Trees
  | .nil, u => u
  | .text t .nil, u => u.textCons t
  | .text t r, u => .text t (r.join u)
  | .pi t x r, u => .pi t x (r.join u)
  | .element e c r, u => .element e c (r.join u)

end Trees

/-- The trees as the event loop builds them: from the left. -/
def XmlContent.build (t : Trees) : XmlContent → Trees
  | nil => t
  | text s r => r.build (t.addText s)
  | pi n x r => r.build (t.append (.pi n (x.getD "") .nil))
  | comment r => r.build t
  | element n a c r => r.build (t.append (.element (xmlElement n a) (c.build .nil) .nil))

theorem Trees.join_nil : ∀ t : Trees, t.join .nil = t
  | .nil => rfl
  | .text _ .nil => rfl
  | .text _ (.text _ _) => by rw [Trees.join, Trees.join_nil]; simp
  | .text _ (.pi _ _ _) => by rw [Trees.join, Trees.join_nil]; simp
  | .text _ (.element _ _ _) => by rw [Trees.join, Trees.join_nil]; simp
  | .pi _ _ r => by rw [Trees.join, Trees.join_nil]
  | .element _ _ r => by rw [Trees.join, Trees.join_nil]

theorem Trees.join_text_ne {t : String} {r u : Trees} (h : r ≠ .nil) : (Trees.text t r).join u = .text t (r.join u) := by
  cases r <;> first | exact absurd rfl h | rfl

theorem Trees.addText_text_ne {t s : String} {r : Trees} (h : r ≠ .nil) :
    (Trees.text t r).addText s = .text t (r.addText s) := by
  cases r <;> first | exact absurd rfl h | rfl

theorem Trees.addText_ne_nil (s : String) : ∀ t : Trees, t.addText s ≠ .nil
  | .nil => by simp [addText]
  | .text _ .nil => by simp [addText]
  | .text _ (.text _ _) => by simp [addText]
  | .text _ (.pi _ _ _) => by simp [addText]
  | .text _ (.element _ _ _) => by simp [addText]
  | .pi _ _ _ => by simp [addText]
  | .element _ _ _ => by simp [addText]

theorem Trees.textCons_textCons (t s : String) (u : Trees) : (u.textCons s).textCons t = u.textCons (t ++ s) := by
  cases u <;> simp [textCons, String.append_assoc]

theorem Trees.join_addText (s : String) (u : Trees) (t : Trees) : (t.addText s).join u = t.join (u.textCons s) := by
  induction t with
  | nil => rfl
  | text t r ih =>
    by_cases h : r = .nil
    · subst h
      simp only [addText, join, textCons_textCons]
    · rw [addText_text_ne h, join_text_ne (addText_ne_nil s r), join_text_ne h, ih]
  | pi a b r ih => simp only [addText, join, ih]
  | element e c r _ ih => simp only [addText, join, ih]

theorem Trees.append_ne_nil {t v : Trees} (h : v ≠ .nil) : t.append v ≠ .nil := by
  cases t <;> simp [append, h]

theorem Trees.join_append_pi (n x : String) (u t : Trees) : (t.append (.pi n x .nil)).join u = t.join (.pi n x u) := by
  induction t with
  | nil => rfl
  | text t r ih =>
    by_cases h : r = .nil
    · subst h; rfl
    · rw [append, join_text_ne (append_ne_nil (by simp)), join_text_ne h, ih]
  | pi a b r ih => simp only [append, join, ih]
  | element e c r _ ih => simp only [append, join, ih]

theorem Trees.join_append_element (e : ElementData) (c u t : Trees) :
    (t.append (.element e c .nil)).join u = t.join (.element e c u) := by
  induction t with
  | nil => rfl
  | text t r ih =>
    by_cases h : r = .nil
    · subst h; rfl
    · rw [append, join_text_ne (append_ne_nil (by simp)), join_text_ne h, ih]
  | pi a b r ih => simp only [append, join, ih]
  | element e c r _ ih => simp only [append, join, ih]

theorem XmlContent.build_eq (x : XmlContent) : ∀ t : Trees, x.build t = t.join x.trees := by
  induction x with
  | nil => intro t; exact t.join_nil.symm
  | text s r ih => intro t; rw [build, ih, Trees.join_addText]; rfl
  | pi n d r ih => intro t; rw [build, ih, Trees.join_append_pi]; rfl
  | comment r ih => intro t; rw [build, ih]; rfl
  | element n a c r ihc ihr =>
    intro t; rw [build, ihr, ihc, Trees.join_append_element]; rfl

/-! ### HasTrees -/

theorem HasTrees.congr {d d' : Document} {F F' : Forest} (S : Nat → Prop)
    (hclosed : ∀ j, S j → ∀ c ∈ F j, S c)
    (hdata : ∀ j, S j → (d'.nodes[j]?).map Node.data = (d.nodes[j]?).map Node.data)
    (hF : ∀ j, S j → F' j = F j) : ∀ (t : Trees) (l : List Nat), (∀ j ∈ l, S j) → HasTrees d F l t →
    HasTrees d' F' l t := by
  intro t
  induction t with
  | nil => intro l _ h; cases l with
    | nil => trivial
    | cons a l => exact h.elim
  | text s r ih => intro l hl h; cases l with
    | nil => exact h.elim
    | cons a l =>
      obtain ⟨h1, h2, h3⟩ := h
      have ha := hl a (by simp)
      exact ⟨by rw [hdata a ha, h1], by rw [hF a ha, h2], ih l (fun j hj => hl j (by simp [hj])) h3⟩
  | pi s x r ih => intro l hl h; cases l with
    | nil => exact h.elim
    | cons a l =>
      obtain ⟨h1, h2, h3⟩ := h
      have ha := hl a (by simp)
      exact ⟨by rw [hdata a ha, h1], by rw [hF a ha, h2], ih l (fun j hj => hl j (by simp [hj])) h3⟩
  | element e c r ihc ih => intro l hl h; cases l with
    | nil => exact h.elim
    | cons a l =>
      obtain ⟨h1, h2, h3⟩ := h
      have ha := hl a (by simp)
      exact ⟨by rw [hdata a ha, h1], by rw [hF a ha]; exact ihc _ (hclosed a ha) h2,
        ih l (fun j hj => hl j (by simp [hj])) h3⟩

theorem HasTrees.append {d : Document} {F : Forest} {l' : List Nat} {u : Trees} (hu : HasTrees d F l' u) :
    ∀ (t : Trees) (l : List Nat), HasTrees d F l t → HasTrees d F (l ++ l') (t.append u) := by
  intro t
  induction t with
  | nil => intro l h; cases l with
    | nil => exact hu
    | cons a l => exact h.elim
  | text s r ih => intro l h; cases l with
    | nil => exact h.elim
    | cons a l => exact ⟨h.1, h.2.1, ih l h.2.2⟩
  | pi s x r ih => intro l h; cases l with
    | nil => exact h.elim
    | cons a l => exact ⟨h.1, h.2.1, ih l h.2.2⟩
  | element e c r _ ih => intro l h; cases l with
    | nil => exact h.elim
    | cons a l => exact ⟨h.1, h.2.1, ih l h.2.2⟩

/-- A non-empty list of matching nodes ends in a last tree. -/
theorem HasTrees.last {d : Document} {F : Forest} (k : Nat) : ∀ (t : Trees) (l : List Nat),
    HasTrees d F (l ++ [k]) t → ∃ t0 v, t = t0.append v ∧ HasTrees d F l t0 ∧ HasTrees d F [k] v ∧
      (∀ s, (d.nodes[k]?).map Node.data = some (.text s) → ∀ s', t.addText s' = t0.append (.text (s ++ s') .nil)) ∧
      ((∀ s, (d.nodes[k]?).map Node.data ≠ some (.text s)) → ∀ s', t.addText s' = t.append (.text s' .nil)) := by
  intro t
  induction t with
  | nil => intro l h; cases l <;> exact h.elim
  | text s r ih => intro l h; cases l with
    | nil =>
      obtain ⟨h1, h2, h3⟩ := h
      cases r with
      | nil =>
        refine ⟨.nil, .text s .nil, rfl, trivial, ⟨h1, h2, trivial⟩, fun s1 hs1 s' => ?_, fun hs => absurd h1 (hs s)⟩
        rw [h1] at hs1; cases hs1; rfl
      | _ => exact h3.elim
    | cons a l =>
      obtain ⟨h1, h2, h3⟩ := h
      obtain ⟨t0, v, e1, e2, e3, e4, e5⟩ := ih l h3
      have hr : r ≠ .nil := by
        rintro rfl
        cases l <;> exact h3.elim
      refine ⟨.text s t0, v, by rw [e1]; rfl, ⟨h1, h2, e2⟩, e3, fun s1 hs1 s' => ?_, fun hs s' => ?_⟩
      · rw [Trees.addText_text_ne hr, e4 s1 hs1]; rfl
      · rw [Trees.addText_text_ne hr, e5 hs]; rfl
  | pi s x r ih => intro l h; cases l with
    | nil =>
      obtain ⟨h1, h2, h3⟩ := h
      cases r with
      | nil =>
        refine ⟨.nil, .pi s x .nil, rfl, trivial, ⟨h1, h2, trivial⟩, fun s1 hs1 s' => ?_, fun _ _ => rfl⟩
        rw [h1] at hs1; cases hs1
      | _ => exact h3.elim
    | cons a l =>
      obtain ⟨h1, h2, h3⟩ := h
      obtain ⟨t0, v, e1, e2, e3, e4, e5⟩ := ih l h3
      refine ⟨.pi s x t0, v, by rw [e1]; rfl, ⟨h1, h2, e2⟩, e3, fun s1 hs1 s' => ?_, fun hs s' => ?_⟩
      · rw [Trees.addText, e4 s1 hs1]; rfl
      · rw [Trees.addText, e5 hs]; rfl
  | element e c r _ ih => intro l h; cases l with
    | nil =>
      obtain ⟨h1, h2, h3⟩ := h
      cases r with
      | nil =>
        refine ⟨.nil, .element e c .nil, rfl, trivial, ⟨h1, h2, trivial⟩, fun s1 hs1 s' => ?_, fun _ _ => rfl⟩
        rw [h1] at hs1; cases hs1
      | _ => exact h3.elim
    | cons a l =>
      obtain ⟨h1, h2, h3⟩ := h
      obtain ⟨t0, v, e1, e2, e3, e4, e5⟩ := ih l h3
      refine ⟨.element e c t0, v, by rw [e1]; rfl, ⟨h1, h2, e2⟩, e3, fun s1 hs1 s' => ?_, fun hs s' => ?_⟩
      · rw [Trees.addText, e4 s1 hs1]; rfl
      · rw [Trees.addText, e5 hs]; rfl

/-! ### One run of the event loop over some content -/

/-- What a run over some content at node `p` does: the tree under `p` grows, nothing else changes. -/
structure Grown (d : Document) (F : Forest) (p : Nat) (t : Trees) (d' : Document) (F' : Forest) : Prop where
  good : Good d' F'
  len : d.nodes.length ≤ d'.nodes.length
  styles : d'.styleElements = d.styleElements
  forest : ∀ q, q < d.nodes.length → q ≠ p → F' q = F q
  data : ∀ q, q < d.nodes.length → q ∉ F p → (d'.nodes[q]?).map Node.data = (d.nodes[q]?).map Node.data
  trees : HasTrees d' F' (F' p) t
  fresh : ∀ c ∈ F' p, c < d.nodes.length → c ∈ F p

theorem Forest.Ancestor.lt_right' {d : Document} {F : Forest} (h : Represents d F) {a b : Nat}
    (hab : F.Ancestor a b) : b < d.nodes.length := hab.lt_right h

/-- Appending a fresh leaf under `p`. -/
theorem Good.appendFresh {d : Document} {F : Forest} (h : Good d F) {p : Nat} (hp : p < d.nodes.length)
    (x : NodeData) :
    ∃ d', (d.newNode x).1.append p d.nodes.length = some d' ∧ d'.nodes.length = d.nodes.length + 1 ∧
      d'.styleElements = d.styleElements ∧ Good d' (F.append p d.nodes.length) ∧
      (∀ j : Nat, (d'.nodes[j]?).map Node.data =
        if j = d.nodes.length then some x else (d.nodes[j]?).map Node.data) ∧
      F.append p d.nodes.length p = F p ++ [d.nodes.length] ∧
      (∀ q, q ≠ p → F.append p d.nodes.length q = F q) := by
  obtain ⟨d', h1, h2, h3, h4, h5⟩ := (h.pushed x).append (h.mayMoveFresh x hp)
  refine ⟨d', h1, ?_, h3, h5, ?_, ?_, ?_⟩
  · rw [h2]; simp [Document.pushed, Document.newNode, Document.pushNode]
  · intro j; rw [h4, Document.data_pushed]
  · simp [Forest.append, Forest.detach_fresh h]
  · intro q hq; simp [Forest.append, hq, Forest.detach_fresh h]

/-- The trees already under `p` survive when a fresh node is appended to `p` and grown. -/
theorem HasTrees.frame {d d' : Document} {F F' : Forest} (h : Good d F) {p : Nat} {t : Trees}
    (ht : HasTrees d F (F p) t)
    (hF : ∀ q, q < d.nodes.length → q ≠ p → F' q = F q)
    (hd : ∀ q, q < d.nodes.length → (d'.nodes[q]?).map Node.data = (d.nodes[q]?).map Node.data) :
    HasTrees d' F' (F p) t := by
  refine HasTrees.congr (fun j => F.Ancestor p j) ?_ ?_ ?_ t (F p) ?_ ht
  · intro j hj c hc; exact .step hj hc
  · intro j hj; exact hd j (hj.lt_right h.rep)
  · intro j hj
    refine hF j (hj.lt_right h.rep) ?_
    rintro rfl
    exact h.acyclic _ hj
  · intro j hj; exact .parent hj

theorem Good.appendLeaf_grown {d : Document} {F : Forest} (h : Good d F) {p : Nat} (hp : p < d.nodes.length)
    (x : NodeData) {t u : Trees} (ht : HasTrees d F (F p) t)
    (hx : ∀ (d' : Document) (F' : Forest) (i : Nat), (d'.nodes[i]?).map Node.data = some x → F' i = [] →
      HasTrees d' F' [i] u) :
    ∃ d' F', (d.newNode x).1.append p d.nodes.length = some d' ∧ Grown d F p (t.append u) d' F' := by
  obtain ⟨d', h1, h2, h3, h4, h5, h6, h7⟩ := h.appendFresh hp x
  refine ⟨d', _, h1, h4, by omega, h3, fun q _ hq => h7 q hq, ?_, ?_, ?_⟩
  rotate_left 2
  · intro c hc hl
    rw [h6, List.mem_append, List.mem_singleton] at hc
    rcases hc with hc | rfl
    · exact hc
    · omega
  · intro q hq _
    rw [h5]; have : q ≠ d.nodes.length := by omega
    simp [this]
  · rw [h6]
    refine HasTrees.append (hx _ _ _ (by rw [h5]; simp) ?_) t (F p) (ht.frame h (fun q _ hq => h7 q hq) ?_)
    · rw [h7 _ (by omega)]
      exact h.rep.outside _ (Nat.le_refl _)
    · intro q hq
      rw [h5]; have : q ≠ d.nodes.length := by omega
      simp [this]

theorem Good.xmlText {d : Document} {F : Forest} (h : Good d F) {p : Nat} (hp : p < d.nodes.length)
    (s : String) {t : Trees} (ht : HasTrees d F (F p) t) :
    ∃ d' F', d.xmlText p s = some d' ∧ Grown d F p (t.addText s) d' F' := by
  obtain ⟨n, hn⟩ : ∃ n, d.nodes[p]? = some n := ⟨_, List.getElem?_eq_getElem hp⟩
  have hl := (h.rep.ends p n hn).2
  have eS : d.xmlText p s = d.sinkAppend p (.text s) := by
    simp only [Document.xmlText, Document.sinkAppend, Document.appendCommon, Document.get, hn,
      Option.bind_eq_bind, Option.bind_some]
    cases n.lastChild <;> rfl
  rcases h.sinkAppend_text hp s with ⟨i, t1, h1, h2, h3, h4⟩ | ⟨h1, _⟩
  · refine ⟨_, F, eS.trans h3, h4, by simp [Document.setData], rfl, fun _ _ _ => rfl, ?_, ?_, fun c hc _ => hc⟩
    · intro q hq hqp
      have hil := h.rep.mem_lt (List.mem_of_getLast? h1)
      rw [Document.data_setData d i q _ hil]
      have : q ≠ i := by rintro rfl; exact hqp (List.mem_of_getLast? h1)
      simp [this]
    · obtain ⟨l, hl'⟩ : ∃ l, F p = l ++ [i] := by
        rcases List.eq_nil_or_concat (F p) with e | ⟨l', b, e⟩
        · rw [e] at h1; cases h1
        · rw [List.concat_eq_append] at e; rw [e] at h1; simp at h1; exact ⟨l', by rw [e, h1]⟩
      have hil := h.rep.mem_lt (List.mem_of_getLast? h1)
      rw [hl'] at ht ⊢
      obtain ⟨t0, v, _, e2, e3, e4, _⟩ := HasTrees.last i t l ht
      rw [e4 t1 h2]
      have hFi : F i = [] := by
        cases v with
        | nil => exact e3.elim
        | text _ _ => exact e3.2.1
        | pi _ _ _ => exact e3.2.1
        | element e c r => rw [e3.1] at h2; cases h2
      have hi' : HasTrees (d.setData i (.text (t1 ++ s))) F [i] (.text (t1 ++ s) .nil) := by
        refine ⟨?_, hFi, trivial⟩
        rw [Document.data_setData d i i _ hil]; simp
      refine HasTrees.append hi' t0 l ?_
      · refine HasTrees.congr (fun j => F.Ancestor p j ∧ j ≠ i) ?_ ?_ (fun _ _ => rfl) t0 l ?_ e2
        · rintro j ⟨hj, hji⟩ c hc
          refine ⟨.step hj hc, ?_⟩
          rintro rfl
          have := h.rep.mem_unique hc (q := p) (by rw [hl']; simp)
          subst this
          exact h.acyclic _ hj
        · rintro j ⟨_, hji⟩
          rw [Document.data_setData d i j _ hil]; simp [hji]
        · intro j hj
          have nd := h.rep.nodup p
          rw [hl', List.nodup_append] at nd
          exact ⟨.parent (by rw [hl']; simp [hj]), nd.2.2 j hj i (by simp)⟩
  · have e : d.xmlText p s = (d.newNode (.text s)).1.append p d.nodes.length := by
      simp only [Document.xmlText, Document.get, hn, Option.bind_eq_bind, Option.bind_some, hl]
      cases hg : (F p).getLast? with
      | none => rfl
      | some i =>
        have hil := h.rep.mem_lt (List.mem_of_getLast? hg)
        obtain ⟨m, hm⟩ : ∃ m, d.nodes[i]? = some m := ⟨_, List.getElem?_eq_getElem hil⟩
        have := h1 i hg
        simp only [Document.pushText, Document.get, hm, Option.bind_eq_bind, Option.bind_some]
        cases hd : m.data with
        | text t' => exact absurd (by rw [hm]; simp [hd]) (this t')
        | _ => rfl
    rw [e]
    have e2 : t.addText s = t.append (.text s .nil) := by
      rcases List.eq_nil_or_concat (F p) with e | ⟨l', b, e⟩
      · rw [e] at ht
        cases t with
        | nil => rfl
        | _ => exact ht.elim
      · rw [List.concat_eq_append] at e
        rw [e] at ht
        obtain ⟨_, _, _, _, _, _, e5⟩ := HasTrees.last b t l' ht
        exact e5 (h1 b (by rw [e]; simp)) s
    rw [e2]
    exact h.appendLeaf_grown hp _ ht (fun d' F' i h1 h2 => ⟨h1, h2, trivial⟩)

theorem Grown.trans {d d1 d2 : Document} {F F1 F2 : Forest} {p : Nat} {t u : Trees}
    (h1 : Grown d F p t d1 F1) (h2 : Grown d1 F1 p u d2 F2) : Grown d F p u d2 F2 where
  good := h2.good
  len := Nat.le_trans h1.len h2.len
  styles := h2.styles.trans h1.styles
  forest := fun q hq hqp => (h2.forest q (Nat.lt_of_lt_of_le hq h1.len) hqp).trans (h1.forest q hq hqp)
  data := fun q hq hqp =>
    (h2.data q (Nat.lt_of_lt_of_le hq h1.len) (fun hc => hqp (h1.fresh q hc hq))).trans (h1.data q hq hqp)
  trees := h2.trees
  fresh := fun c hc hl => h1.fresh c (h2.fresh c hc (Nat.lt_of_lt_of_le hl h1.len)) hl

/-- The event loop over the events of `x` at node `p`, then over `rest`. -/
theorem Good.xmlLoop {ε : Type} (x : XmlContent) : ∀ {d : Document} {F : Forest} (_ : Good d F) {p : Nat}
    (_ : p < d.nodes.length) (t : Trees) (_ : HasTrees d F (F p) t) (anc : List Nat)
    (rest : List (Except ε XmlEvent)),
    ∃ d' F', Document.xmlLoop (x.events.map .ok ++ rest) d p anc = Document.xmlLoop rest d' p anc ∧
      Grown d F p (x.build t) d' F' := by
  induction x with
  | nil =>
    intro d F h p hp t ht anc rest
    exact ⟨d, F, rfl, ⟨h, Nat.le_refl _, rfl, fun _ _ _ => rfl, fun _ _ _ => rfl, ht, fun c hc _ => hc⟩⟩
  | comment r ih =>
    intro d F h p hp t ht anc rest
    exact ih h hp t ht anc rest
  | text s r ih =>
    intro d F h p hp t ht anc rest
    obtain ⟨d1, F1, e1, g1⟩ := h.xmlText hp s ht
    obtain ⟨d2, F2, e2, g2⟩ := ih g1.good (Nat.lt_of_lt_of_le hp g1.len) _ g1.trees anc rest
    refine ⟨d2, F2, ?_, g1.trans g2⟩
    rw [← e2]
    simp only [XmlContent.events, List.map_cons, List.cons_append, Document.xmlLoop, e1, Option.bind_eq_bind,
      Option.bind_some]
  | pi n v r ih =>
    intro d F h p hp t ht anc rest
    obtain ⟨d1, F1, e1, g1⟩ := h.appendLeaf_grown hp (.pi n (v.getD "")) (u := .pi n (v.getD "") .nil) ht
      (fun d' F' i h1 h2 => ⟨h1, h2, trivial⟩)
    obtain ⟨d2, F2, e2, g2⟩ := ih g1.good (Nat.lt_of_lt_of_le hp g1.len) _ g1.trees anc rest
    refine ⟨d2, F2, ?_, g1.trans g2⟩
    rw [← e2]
    have e1' : (d.newNode (.pi n (v.getD ""))).1.append p (d.newNode (.pi n (v.getD ""))).2 = some d1 := e1
    simp only [XmlContent.events, List.map_cons, List.cons_append, Document.xmlLoop, e1', Option.bind_eq_bind,
      Option.bind_some]
  | element n a c r ihc ihr =>
    intro d F h p hp t ht anc rest
    obtain ⟨d1, e1, l1, s1, g1, dd1, f1, f1'⟩ := h.appendFresh hp (.element (xmlElement n a))
    have hleaf : F.append p d.nodes.length d.nodes.length = [] := by
      rw [f1' _ (by omega)]; exact h.rep.outside _ (Nat.le_refl _)
    obtain ⟨d2, F2, e2, g2⟩ := ihc g1 (p := d.nodes.length) (by omega) .nil (by rw [hleaf]; trivial) (p :: anc)
      (.ok .endElement :: (r.events.map .ok ++ rest))
    have hdata : ∀ q, q < d1.nodes.length → (d2.nodes[q]?).map Node.data = (d1.nodes[q]?).map Node.data :=
      fun q hq => g2.data q hq (by rw [hleaf]; simp)
    have hF2p : F2 p = F p ++ [d.nodes.length] := by
      rw [g2.forest p (by omega) (by omega), f1]
    have grown1 : Grown d F p (t.append (.element (xmlElement n a) (c.build .nil) .nil)) d2 F2 := by
      refine ⟨g2.good, by have := g2.len; omega, g2.styles.trans s1, ?_, ?_, ?_, ?_⟩
      · intro q hq hqp
        rw [g2.forest q (by omega) (by omega), f1' q hqp]
      · intro q hq _
        rw [hdata q (by omega), dd1]
        have : q ≠ d.nodes.length := by omega
        simp [this]
      · rw [hF2p]
        have helem : HasTrees d2 F2 [d.nodes.length] (.element (xmlElement n a) (c.build .nil) .nil) := by
          refine ⟨?_, g2.trees, trivial⟩
          rw [hdata _ (by omega), dd1]; simp
        refine HasTrees.append helem t (F p) (ht.frame h ?_ ?_)
        · intro q hq hqp
          rw [g2.forest q (by omega) (by omega), f1' q hqp]
        · intro q hq
          rw [hdata q (by omega), dd1]
          have : q ≠ d.nodes.length := by omega
          simp [this]
      · intro k hk hl
        rw [hF2p, List.mem_append, List.mem_singleton] at hk
        rcases hk with hk | rfl
        · exact hk
        · omega
    obtain ⟨d3, F3, e3, g3⟩ := ihr g2.good (Nat.lt_of_lt_of_le hp grown1.len) _ grown1.trees anc rest
    refine ⟨d3, F3, ?_, grown1.trans g3⟩
    rw [← e3]
    have e1' : (d.newNode (.element (xmlElement n a))).1.append p (d.newNode (.element (xmlElement n a))).2 =
      some d1 := e1
    have id' : (d.newNode (.element (xmlElement n a))).2 = d.nodes.length := rfl
    simp only [XmlContent.events, List.map_append, List.map_cons, List.cons_append, List.append_assoc,
      Document.xmlLoop, e1', Option.bind_eq_bind, Option.bind_some]
    rw [id']
    rw [e2]
    rfl

end Verif.Dom
