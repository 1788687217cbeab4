/- C26: shaped segments. -/
import Verif.Text.Shaped
namespace Verif.Text
variable {R Err : Type}

/-! Specification: what a session should hold, in terms of texts only. -/

/-- A character that the font can shape. -/
def Shapable (F : FontApi R Err) (ch : Nat) : Prop := ∃ id w, F.glyphId ch = .ok id ∧ F.glyphWidth id = .ok w

/-- The segment for a text: the glyph of each character in order, and the sum of their widths. -/
inductive IsShaped (F : FontApi R Err) : List Nat → List Nat → R → Prop
  | nil : IsShaped F [] [] F.zero
  | snoc {text glyphs width ch id w} : IsShaped F text glyphs width → F.glyphId ch = .ok id → F.glyphWidth id = .ok w →
      IsShaped F (text ++ [ch]) (glyphs ++ [id]) (F.add width w)

/-- A text editor that appends texts (up to the first character that cannot be shaped), remembers whole texts and goes
back to them. -/
structure Editor where
  text : List Nat
  saved : List (List Nat)

/-- The part of a text before the first character that the font cannot shape. -/
def shapablePrefix (ok : Nat → Bool) (text : List Nat) : List Nat := text.takeWhile ok

/-- One use of the editor. -/
def Editor.run (ok : Nat → Bool) (e : Editor) : Op → Editor
  | .append text => { e with text := e.text ++ shapablePrefix ok text }
  | .save => { e with saved := e.saved ++ [e.text] }
  | .restore k =>
    match e.saved[k]? with
    | some t => ⟨t, e.saved.take (k + 1)⟩
    | none => e

theorem appendChar_eq (F : FontApi R Err) (s : ShapedSegment R) (ch : Nat) :
    (∃ id w, F.glyphId ch = .ok id ∧ F.glyphWidth id = .ok w ∧
      s.appendChar F ch = (⟨s.glyphs ++ [id], F.add s.advanceWidth w⟩, none)) ∨
    (¬ Shapable F ch ∧ ∃ e, s.appendChar F ch = (s, some e)) := by
  unfold ShapedSegment.appendChar
  cases hg : F.glyphId ch with
  | error e =>
    refine Or.inr ⟨?_, e, rfl⟩
    rintro ⟨id, w, h, _⟩
    rw [hg] at h; cases h
  | ok id =>
    dsimp only
    cases hw : F.glyphWidth id with
    | error e =>
      refine Or.inr ⟨?_, e, rfl⟩
      rintro ⟨id', w, h, h'⟩
      rw [hg] at h; cases h
      rw [hw] at h'; cases h'
    | ok w => exact Or.inl ⟨id, w, rfl, hw, rfl⟩

theorem takeWhile_all (ok : Nat → Bool) : ∀ (text : List Nat), (∀ ch ∈ text, ok ch = true) → shapablePrefix ok text = text
  | [], _ => rfl
  | ch :: text, h => by
    simp only [shapablePrefix, List.takeWhile_cons, h ch (by simp), if_true]
    rw [show text.takeWhile ok = text from takeWhile_all ok text (fun c hc => h c (List.mem_cons_of_mem _ hc))]

theorem append_shaped (F : FontApi R Err) (ok : Nat → Bool) (hok : ∀ ch, ok ch = true ↔ Shapable F ch) :
    ∀ (more : List Nat) (text : List Nat) (s : ShapedSegment R), IsShaped F text s.glyphs s.advanceWidth →
    IsShaped F (text ++ shapablePrefix ok more) (s.append F more).1.glyphs (s.append F more).1.advanceWidth ∧
    s.glyphs <+: (s.append F more).1.glyphs ∧
    ((s.append F more).2 = none ↔ ∀ ch ∈ more, Shapable F ch) := by
  intro more
  induction more with
  | nil =>
    intro text s h
    simp only [shapablePrefix, List.takeWhile_nil, List.append_nil, ShapedSegment.append]
    exact ⟨h, List.prefix_rfl, by simp⟩
  | cons ch more ih =>
    intro text s h
    unfold ShapedSegment.append
    rcases appendChar_eq F s ch with ⟨id, w, hid, hw, he⟩ | ⟨hn, e, he⟩
    · rw [he]
      dsimp only
      have hch : ok ch = true := (hok ch).2 ⟨id, w, hid, hw⟩
      obtain ⟨h1, h2, h3⟩ := ih (text ++ [ch]) ⟨s.glyphs ++ [id], F.add s.advanceWidth w⟩ (.snoc h hid hw)
      refine ⟨?_, List.IsPrefix.trans (List.prefix_append _ _) h2, ?_⟩
      · simp only [shapablePrefix, List.takeWhile_cons, hch, if_true]
        simpa [shapablePrefix] using h1
      · rw [h3]
        constructor
        · intro hall c hc
          rcases List.mem_cons.1 hc with rfl | hc
          · exact ⟨id, w, hid, hw⟩
          · exact hall c hc
        · intro hall c hc
          exact hall c (List.mem_cons_of_mem _ hc)
    · rw [he]
      dsimp only
      have hch : ok ch = false := by
        cases hb : ok ch with
        | false => rfl
        | true => exact absurd ((hok ch).1 hb) hn
      refine ⟨?_, List.prefix_rfl, ?_⟩
      · simp only [shapablePrefix, List.takeWhile_cons, hch, List.append_nil]
        simpa using h
      · constructor
        · intro h; cases h
        · intro hall; exact absurd (hall ch (by simp)) hn

theorem isShaped_unique (F : FontApi R Err) {text g g' : List Nat} {w w' : R} (h : IsShaped F text g w)
    (h' : IsShaped F text g' w') : g = g' ∧ w = w' := by
  induction h generalizing g' w' with
  | nil =>
    generalize ht : ([] : List Nat) = t at h'
    cases h' with
    | nil => exact ⟨rfl, rfl⟩
    | snoc _ _ _ => simp at ht
  | snoc hprev hid hw ih =>
    rename_i text0 glyphs0 width0 ch id w0
    generalize ht : text0 ++ [ch] = t at h'
    cases h' with
    | nil => simp at ht
    | snoc hprev' hid' hw' =>
      obtain ⟨h1, h2⟩ := List.append_inj' ht rfl
      cases h2
      subst h1
      obtain ⟨rfl, rfl⟩ := ih hprev'
      rw [hid] at hid'; cases hid'
      rw [hw] at hw'; cases hw'
      exact ⟨rfl, rfl⟩

/-- A saved state that describes a text whose glyphs start the current glyphs. -/
def SavedFor (F : FontApi R Err) (glyphs : List Nat) (state : ShapedSegmentState R) (t : List Nat) : Prop :=
  ∃ g, IsShaped F t g state.advanceWidth ∧ g.length = state.glyphs ∧ g <+: glyphs

/-- The relation between a session and the editor. -/
structure Related (F : FontApi R Err) (s : Session R) (e : Editor) : Prop where
  shaped : IsShaped F e.text s.segment.glyphs s.segment.advanceWidth
  length : s.saved.length = e.saved.length
  saved : ∀ k (h : k < s.saved.length), SavedFor F s.segment.glyphs s.saved[k] (e.saved[k]'(by omega))
  nested : ∀ j k (h : k < s.saved.length) (hjk : j ≤ k), ∃ g g', IsShaped F (e.saved[j]'(by omega)) g (s.saved[j]'(by omega)).advanceWidth ∧
    g.length = (s.saved[j]'(by omega)).glyphs ∧ IsShaped F (e.saved[k]'(by omega)) g' (s.saved[k]).advanceWidth ∧ g <+: g'

theorem related_run (F : FontApi R Err) (ok : Nat → Bool) (hok : ∀ ch, ok ch = true ↔ Shapable F ch) (s : Session R)
    (e : Editor) (h : Related F s e) (op : Op) : Related F (s.run F op) (e.run ok op) := by
  cases op with
  | append text =>
    obtain ⟨h1, h2, _⟩ := append_shaped F ok hok text e.text s.segment h.shaped
    refine ⟨h1, h.length, ?_, h.nested⟩
    intro k hk
    obtain ⟨g, hg1, hg2, hg3⟩ := h.saved k hk
    exact ⟨g, hg1, hg2, hg3.trans h2⟩
  | save =>
    have hl := h.length
    refine ⟨h.shaped, by simp [Session.run, Editor.run, h.length], ?_, ?_⟩
    · intro k hk
      simp only [Session.run, List.length_append, List.length_cons, List.length_nil] at hk
      by_cases hk' : k < s.saved.length
      · simp only [Session.run, Editor.run]
        rw [List.getElem_append_left hk', List.getElem_append_left (by omega)]
        exact h.saved k hk'
      · simp only [Session.run, Editor.run]
        rw [List.getElem_append_right (by omega), List.getElem_append_right (by omega)]
        simp only [List.getElem_singleton]
        exact ⟨_, h.shaped, rfl, List.prefix_rfl⟩
    · intro j k hk hjk
      simp only [Session.run, List.length_append, List.length_cons, List.length_nil] at hk
      simp only [Session.run, Editor.run]
      by_cases hk' : k < s.saved.length
      · obtain ⟨g, g', a, b, c, d⟩ := h.nested j k hk' hjk
        refine ⟨g, g', ?_, ?_, ?_, d⟩
        · rw [List.getElem_append_left (by omega)]
          simp only [List.getElem_append_left (show j < s.saved.length by omega)]; exact a
        · simp only [List.getElem_append_left (show j < s.saved.length by omega)]; exact b
        · rw [List.getElem_append_left (by omega)]
          simp only [List.getElem_append_left hk']; exact c
      · have hks : k = s.saved.length := by omega
        subst hks
        by_cases hj : j < s.saved.length
        · obtain ⟨g, a, b, c⟩ := h.saved j hj
          refine ⟨g, s.segment.glyphs, ?_, ?_, ?_, c⟩
          · rw [List.getElem_append_left (by omega)]
            simp only [List.getElem_append_left hj]; exact a
          · simp only [List.getElem_append_left hj]; exact b
          · rw [List.getElem_append_right (by omega)]
            simp only [List.getElem_append_right (Nat.le_refl _), List.getElem_singleton]
            exact h.shaped
        · have hjs : j = s.saved.length := by omega
          subst hjs
          refine ⟨s.segment.glyphs, s.segment.glyphs, ?_, ?_, ?_, List.prefix_rfl⟩
          · rw [List.getElem_append_right (by omega)]
            simp only [List.getElem_append_right (Nat.le_refl _), List.getElem_singleton]
            exact h.shaped
          · simp only [List.getElem_append_right (Nat.le_refl _), List.getElem_singleton]
            rfl
          · rw [List.getElem_append_right (by omega)]
            simp only [List.getElem_append_right (Nat.le_refl _), List.getElem_singleton]
            exact h.shaped
  | restore k =>
    have hl := h.length
    by_cases hk : k < s.saved.length
    · have e1 : s.run F (.restore k) = ⟨s.segment.restore s.saved[k], s.saved.take (k + 1)⟩ := by
        simp only [Session.run, List.getElem?_eq_getElem hk]
      have e2 : e.run ok (.restore k) = ⟨e.saved[k]'(by omega), e.saved.take (k + 1)⟩ := by
        simp only [Editor.run, List.getElem?_eq_getElem (show k < e.saved.length by omega)]
      rw [e1, e2]
      obtain ⟨g, hg1, hg2, hg3⟩ := h.saved k hk
      have htake : s.segment.glyphs.take s.saved[k].glyphs = g := by
        rw [← hg2]
        exact (List.prefix_iff_eq_take.1 hg3).symm
      refine ⟨?_, by simp; omega, ?_, ?_⟩
      · simp only [ShapedSegment.restore, htake]
        exact hg1
      · intro j hj
        simp only [List.length_take] at hj
        simp only [List.getElem_take, ShapedSegment.restore, htake]
        obtain ⟨g1, g2, a, b, c, d⟩ := h.nested j k hk (by omega)
        obtain ⟨rfl, _⟩ := isShaped_unique F c hg1
        exact ⟨g1, a, b, d⟩
      · intro i j hj hij
        simp only [List.length_take] at hj
        simp only [List.getElem_take]
        exact h.nested i j (by omega) hij
    · have e1 : s.run F (.restore k) = s := by
        simp only [Session.run, List.getElem?_eq_none (show s.saved.length ≤ k by omega)]
      have e2 : e.run ok (.restore k) = e := by
        simp only [Editor.run, List.getElem?_eq_none (show e.saved.length ≤ k by omega)]
      rw [e1, e2]
      exact h

/-- C26: after any history of appends, saves and restores, the segment has the glyphs of the characters of the text that
the same history gives an editor that remembers whole texts, in order, and its advance width is the sum of theirs. So
restoring undoes exactly what was appended since the save, whatever happened in between. -/
theorem C26_history (F : FontApi R Err) (ok : Nat → Bool) (hok : ∀ ch, ok ch = true ↔ Shapable F ch) (ops : List Op) :
    IsShaped F (ops.foldl (Editor.run ok) ⟨[], []⟩).text (Session.runAll F ops).segment.glyphs
      (Session.runAll F ops).segment.advanceWidth := by
  have gen : ∀ (ops : List Op) (s : Session R) (e : Editor), Related F s e →
      Related F (ops.foldl (Session.run F) s) (ops.foldl (Editor.run ok) e) := by
    intro ops
    induction ops with
    | nil => intro s e h; exact h
    | cons op ops ih => intro s e h; exact ih _ _ (related_run F ok hok s e h op)
  refine (gen ops ⟨ShapedSegment.new F, []⟩ ⟨[], []⟩ ⟨.nil, rfl, ?_, ?_⟩).shaped
  · intro k hk; simp at hk
  · intro j k hk; simp at hk

/-- C26: saving, appending any text (with or without an error) and restoring gives the saved segment exactly. -/
theorem C26_undo (F : FontApi R Err) (s : ShapedSegment R) (text : List Nat) :
    (s.append F text).1.restore s.save = s := by
  have gen : ∀ (text : List Nat) (s : ShapedSegment R), s.glyphs <+: (s.append F text).1.glyphs := by
    intro text
    induction text with
    | nil => intro s; exact List.prefix_rfl
    | cons ch text ih =>
      intro s
      unfold ShapedSegment.append
      rcases appendChar_eq F s ch with ⟨id, w, _, _, he⟩ | ⟨_, e, he⟩
      · rw [he]
        exact (List.prefix_append s.glyphs [id]).trans (ih ⟨s.glyphs ++ [id], F.add s.advanceWidth w⟩)
      · rw [he]
        exact List.prefix_rfl
  simp only [ShapedSegment.restore, ShapedSegment.save]
  rw [← List.prefix_iff_eq_take.1 (gen text s)]

/-- C26: shaping a text succeeds if and only if the font can shape each of its characters, and gives the glyphs of the
text. -/
theorem C26_naive_shape (F : FontApi R Err) (text : List Nat) :
    ((∀ ch ∈ text, Shapable F ch) ↔ ∃ s, ShapedSegment.naiveShape F text = .ok s) ∧
    ∀ s, ShapedSegment.naiveShape F text = .ok s → IsShaped F text s.glyphs s.advanceWidth := by
  classical
  obtain ⟨h1, _, h3⟩ := append_shaped F (fun ch => decide (Shapable F ch)) (by simp) text [] (ShapedSegment.new F) .nil
  unfold ShapedSegment.naiveShape
  cases hr : (ShapedSegment.new F).append F text with
  | mk s e =>
    rw [hr] at h1 h3
    cases e with
    | some e =>
      dsimp only at h3 ⊢
      refine ⟨⟨fun h => absurd (h3.2 h) (by simp), fun ⟨s, hs⟩ => by cases hs⟩, fun s hs => by cases hs⟩
    | none =>
      dsimp only at h1 h3 ⊢
      refine ⟨⟨fun _ => ⟨s, rfl⟩, fun _ => h3.1 rfl⟩, ?_⟩
      intro s' hs'
      cases hs'
      have : shapablePrefix (fun ch => decide (Shapable F ch)) text = text := by
        exact takeWhile_all _ _ (fun ch hch => by simpa using h3.1 rfl ch hch)
      rw [this, List.nil_append] at h1
      exact h1

/-- A font with glyph `ch + 1` and width `10 * glyph` for characters below 100. -/
def sampleFont : FontApi Nat Unit where
  glyphId ch := if ch < 100 then .ok (ch + 1) else .error ()
  glyphWidth g := .ok (10 * g)
  zero := 0
  add := (· + ·)

/-- A history with nested saves, a failing append and a state restored twice. -/
example : (Session.runAll sampleFont
      [.append [1, 2], .save, .append [3, 200, 4], .save, .append [5], .restore 1, .append [6], .restore 0, .append [7],
        .restore 0, .append [8]]).segment.glyphs = [2, 3, 9] ∧
    (∀ ch, decide (ch < 100) = true ↔ Shapable sampleFont ch) := by
  refine ⟨by decide +kernel, ?_⟩
  intro ch
  simp only [decide_eq_true_eq, Shapable, sampleFont]
  constructor
  · intro h; exact ⟨ch + 1, 10 * (ch + 1), by rw [if_pos h], rfl⟩
  · rintro ⟨id, w, h, _⟩
    split at h
    · assumption
    · cases h

end Verif.Text
