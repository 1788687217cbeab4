/- Constructed boxes satisfy what layout assumes of them. -/
import Verif.Layout.ConstructInv
import Verif.Layout.TotalTheorems
import Verif.Style.CascadeTheorems
namespace Verif.Layout
open Verif.Style Verif.Text
variable {R Err : Type} {F : FontApi R Err}

theorem inlinesWf_append (bs cs : List InlineLevelBox) : inlinesWf F (bs ++ cs) ↔ inlinesWf F bs ∧ inlinesWf F cs := by
  induction bs with
  | nil => simp [inlinesWf]
  | cons b bs ih => simp [inlinesWf, ih, and_assoc]

theorem blocksWf_append (bs cs : List BlockLevelBox) : blocksWf F (bs ++ cs) ↔ blocksWf F bs ∧ blocksWf F cs := by
  induction bs with
  | nil => simp [blocksWf]
  | cons b bs ih => simp [blocksWf, ih, and_assoc]

/-- The style comes out of the cascade: `ComputedValues::new` ends with the fix-ups. -/
def Computed (style : ComputedValues) : Prop := ∃ values, style = postCascadeFixups values

theorem Computed.specified {s : ComputedValues} (h : Computed s) {o : DisplayOutside} {i : DisplayInside}
    (hd : displayOf s = .generatingBox o i) : ∃ o i, s.specifiedDisplay = .generatingBox o i := by
  obtain ⟨v, rfl⟩ := h
  unfold postCascadeFixups at *
  rw [displayFixup_specified]
  generalize borderFixups v = v' at *
  unfold displayOf displayFixup at hd
  rcases hv : (v' .display : Display) with _ | _ | ⟨o', i'⟩
  · simp [hv, Display.blockify] at hd
  · simp [hv, Display.blockify] at hd
  · exact ⟨o', i', rfl⟩

/-- The boxes in a builder satisfy `Wf`. -/
structure BuilderWf (F : FontApi R Err) (b : Builder) : Prop where
  blocks : blocksWf F b.blockLevelBoxes
  inlines : inlinesWf F b.ongoing
  stack : ∀ o ∈ b.stack, inlinesWf F o.children

theorem BuilderWf.new : BuilderWf F Builder.new := ⟨trivial, trivial, by simp [Builder.new]⟩

theorem BuilderWf.current {b : Builder} (h : BuilderWf F b) : inlinesWf F b.current := by
  unfold Builder.current
  split
  · rename_i o rest hs
    exact h.stack o (by simp [hs])
  · exact h.inlines

theorem BuilderWf.setCurrent {b : Builder} (h : BuilderWf F b) {bs : List InlineLevelBox} (h1 : inlinesWf F bs) :
    BuilderWf F (b.setCurrent bs) := by
  unfold Builder.setCurrent
  split
  · rename_i o rest hs
    refine ⟨h.blocks, h.inlines, fun o' ho' => ?_⟩
    rcases List.mem_cons.mp ho' with rfl | ho'
    · exact h1
    · exact h.stack o' (by simp [hs, ho'])
  · exact ⟨h.blocks, h1, h.stack⟩

theorem BuilderWf.push {b : Builder} (h : BuilderWf F b) {box : InlineLevelBox} (h1 : box.Wf F) : BuilderWf F (b.push box) :=
  h.setCurrent ((inlinesWf_append _ _).mpr ⟨h.current, h1, trivial⟩)

theorem squeeze_shapable (hsp : Shapable F 32) {t : List Nat} (ht : ∀ c ∈ t, Shapable F c) (p : Bool) :
    ∀ c ∈ squeeze p t, Shapable F c := by
  induction t generalizing p with
  | nil => simp [squeeze]
  | cons c t ih =>
    have ih := ih fun d hd => ht d (by simp [hd])
    intro d hd
    by_cases hc : isAsciiWhitespace c = true
    · cases p <;> simp only [squeeze, hc, if_true, Bool.false_eq_true, if_false, List.mem_cons] at hd
      · rcases hd with rfl | hd
        · exact hsp
        · exact ih _ d hd
      · exact ih _ d hd
    · rw [squeeze, if_neg hc, List.mem_cons] at hd
      rcases hd with rfl | hd
      · exact ht d (by simp)
      · exact ih _ d hd

theorem BuilderWf.handleText (hsp : Shapable F 32) {b : Builder} (h : BuilderWf F b) {t : List Nat} (ht : ∀ c ∈ t, Shapable F c)
    (ps : ComputedValues) : BuilderWf F (b.handleText t ps) := by
  rw [handleText_eq]
  split
  · exact h
  · refine h.setCurrent ?_
    have hadd : ∀ c ∈ b.added t, Shapable F c := squeeze_shapable hsp ht _
    have hcur := h.current
    rcases appendText_cases ps (b.added t) b.current with h1 | ⟨pre, s, u, h1, h2⟩
    · rw [h1, inlinesWf_append]
      exact ⟨hcur, hadd, trivial⟩
    · rw [h2, inlinesWf_append]
      rw [h1, inlinesWf_append] at hcur
      refine ⟨hcur.1, ?_, trivial⟩
      intro c hc
      rcases List.mem_append.mp hc with hc | hc
      · exact hcur.2.1 c hc
      · exact hadd c hc

theorem BuilderWf.endOngoing {b b1 : Builder} {cs : ComputedValues} (h : BuilderWf F b) (he : b.endOngoing cs = some b1) :
    BuilderWf F b1 := by
  unfold Builder.endOngoing at he
  split at he
  · cases he
  · split at he
    · injection he with he
      exact he ▸ h
    · injection he with he
      subst he
      exact ⟨(blocksWf_append _ _).mpr ⟨h.blocks, h.inlines, trivial⟩, trivial, h.stack⟩

theorem BuilderWf.finish {b : Builder} {cs : ComputedValues} {c : BlockContainer} {f : Bool} (h : BuilderWf F b)
    (he : b.finish cs = some (c, f)) : c.Wf F := by
  unfold Builder.finish at he
  split at he
  · simp only [Option.some.injEq, Prod.mk.injEq] at he
    obtain ⟨rfl, -⟩ := he
    exact h.blocks
  · split at he
    · simp only [Option.some.injEq, Prod.mk.injEq] at he
      obtain ⟨rfl, -⟩ := he
      exact h.inlines
    · rcases h1 : b.endOngoing cs with _ | b1
      · simp [h1] at he
      · simp only [h1, Option.some.injEq, Prod.mk.injEq] at he
        obtain ⟨rfl, -⟩ := he
        exact (h.endOngoing h1).blocks

theorem BuilderWf.pushBlock {b : Builder} (h : BuilderWf F b) {box : BlockLevelBox} (f : Bool) (hb : box.Wf F) :
    BuilderWf F { b with blockLevelBoxes := b.blockLevelBoxes ++ [box], containsFloats := f } :=
  ⟨(blocksWf_append _ _).mpr ⟨h.blocks, hb, trivial⟩, h.inlines, h.stack⟩

/-- The styles of the node come out of the cascade and its text can be shaped. -/
def NodeWf (F : FontApi R Err) (n : StyledNode) : Prop :=
  n.All (fun s _ => Computed s) ∧ ∀ c ∈ n.visibleText, Shapable F c

/-- See `NodeWf`. -/
def NodesWf (F : FontApi R Err) (ns : List StyledNode) : Prop :=
  nodesAll (fun s _ => Computed s) ns ∧ ∀ c ∈ visibleTexts ns, Shapable F c

theorem NodeWf.element {s : ComputedValues} {ch : List StyledNode} (h : NodeWf F (.element s ch)) (hd : displayOf s ≠ .none) :
    Computed s ∧ NodesWf F ch := by
  obtain ⟨h1, h2⟩ := h
  simp only [StyledNode.All, hd, false_or] at h1
  simp only [StyledNode.visibleText, hd, if_false] at h2
  exact ⟨h1.1, h1.2, h2⟩

theorem NodesWf.cons {n : StyledNode} {ns : List StyledNode} (h : NodesWf F (n :: ns)) : NodeWf F n ∧ NodesWf F ns := by
  obtain ⟨h1, h2⟩ := h
  simp only [nodesAll] at h1
  simp only [visibleTexts, List.mem_append] at h2
  exact ⟨⟨h1.1, fun c hc => h2 c (.inl hc)⟩, ⟨h1.2, fun c hc => h2 c (.inr hc)⟩⟩

theorem traverse_wf (hsp : Shapable F 32) : TraversalCases
    (fun _ _ n b b' => SameOutside b b' ∧ (NodeWf F n → BuilderWf F b → BuilderWf F b'))
    (fun _ _ ns b b' => SameOutside b b' ∧ (NodesWf F ns → BuilderWf F b → BuilderWf F b')) where
  ignored _ _ b := ⟨.refl b, fun _ => id⟩
  text _ _ t b := ⟨.handleText _ _ _, fun hn h => h.handleText hsp hn.2 _⟩
  none _ _ _ _ b _ := ⟨.refl b, fun _ => id⟩
  contents _ _ s _ _ _ hd h := ⟨h.1, fun hn => h.2 (hn.element (by rw [hd]; simp)).2⟩
  inline cs ps s ch b b1 o rest hd h hs := by
    refine ⟨traverse_shape.inline cs ps s ch b b1 o rest hd h.1 hs, fun hn hb => ?_⟩
    obtain ⟨rfl, -, -, h2, h3⟩ := inline_inner h.1 hs
    have hb1 := h.2 (hn.element (by rw [hd]; simp)).2 ⟨hb.blocks, hb.inlines, by simpa [inlinesWf] using hb.stack⟩
    have hb2 : BuilderWf F { b1 with stack := b.stack } := ⟨hb1.blocks, hb1.inlines, hb.stack⟩
    exact hb2.push (hb1.stack o (by simp [hs]))
  absoluteInline cs ps s ch b inner c f i h1 h2 h3 h4 h5 :=
    ⟨.setCurrent _ _, fun hn hb => by
      obtain ⟨hc, hn⟩ := hn.element (by rw [h1]; simp)
      exact hb.push ⟨hc.specified h1, (h3.2 hn .new).finish h4⟩⟩
  absoluteBlock cs ps s ch b inner c f i h1 h2 h3 h4 h5 :=
    ⟨traverse_shape.absoluteBlock cs ps s ch b inner c f i h1 h2 h3.1 h4 h5, fun hn hb =>
      hb.pushBlock _ ((h3.2 (hn.element (by rw [h1]; simp)).2 .new).finish h4)⟩
  floatInline cs ps s ch b inner c f i h1 h2 h2' h3 h4 h5 :=
    ⟨traverse_shape.floatInline cs ps s ch b inner c f i h1 h2 h2' h3.1 h4 h5, fun hn hb =>
      BuilderWf.push (b := { b with containsFloats := true }) ⟨hb.blocks, hb.inlines, hb.stack⟩
        ((h3.2 (hn.element (by rw [h1]; simp)).2 .new).finish h4)⟩
  floatBlock cs ps s ch b inner c f i h1 h2 h2' h3 h4 h5 :=
    ⟨traverse_shape.floatBlock cs ps s ch b inner c f i h1 h2 h2' h3.1 h4 h5, fun hn hb =>
      hb.pushBlock _ ((h3.2 (hn.element (by rw [h1]; simp)).2 .new).finish h4)⟩
  block cs ps s ch b b1 inner c f i h1 h2 h2' h0 h3 h4 := by
    refine ⟨traverse_shape.block cs ps s ch b b1 inner c f i h1 h2 h2' h0 h3.1 h4, fun hn hb => ?_⟩
    have hc := (h3.2 (hn.element (by rw [h1]; simp)).2 .new).finish h4
    refine (hb.endOngoing (splitInlines_eq h0).2).pushBlock _ ?_
    cases i <;> exact hc
  nil _ _ b := ⟨.refl b, fun _ => id⟩
  cons _ _ _ _ _ _ _ h h' := ⟨h.1.trans h'.1, fun hn hb => h'.2 hn.cons.2 (h.2 hn.cons.1 hb)⟩

theorem constructContainer_wf (hsp : Shapable F 32) {style : ComputedValues} {children : List StyledNode} {c : BlockContainer}
    {f : Bool} (hn : NodesWf F children) (h : constructContainer style children = some (c, f)) : c.Wf F := by
  unfold constructContainer at h
  rcases h1 : traverseNodes style style children Builder.new with _ | b
  · simp [h1] at h
  · simp only [h1] at h
    exact ((traverseNodes_induct (traverse_wf hsp) _ _ _ _ _ h1).2 hn .new).finish h

end Verif.Layout
