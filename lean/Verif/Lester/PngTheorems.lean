/- C48 and C68: reading and writing PNG data through a stream of the user, and to a file. -/
import Verif.Lester.PngSpec
namespace Verif.Lester
variable {S Req Resp E P Out : Type}

private theorem errorsOf_append (l l' : List (Req × Resp × Ending E P)) : errorsOf (l ++ l') = errorsOf l ++ errorsOf l' := by
  induction l with
  | nil => rfl
  | cons u l ih =>
    obtain ⟨q, r, e⟩ := u
    cases e <;> simp [errorsOf, ih]

private theorem panicsOf_append (l l' : List (Req × Resp × Ending E P)) : panicsOf (l ++ l') = panicsOf l ++ panicsOf l' := by
  induction l with
  | nil => rfl
  | cons u l ih =>
    obtain ⟨q, r, e⟩ := u
    cases e <;> simp [panicsOf, ih]

/-- What running cairo's function adds to the record. -/
private theorem runC_spec (st : Stream S Req Resp E P) (ec : Nat) : ∀ (c : CCode Req Resp Out) (d : ClosureData S Req Resp E P),
    ∃ uses later, (runC st ec c d).2.uses = d.uses ++ uses ∧ Used st d.stream uses (runC st ec c d).2.stream ∧
      Talks c (uses.map (told ec) ++ later) (runC st ec c d).1 ∧
      (∀ x ∈ later, x.status = ec ∧ x.buffer = none) ∧
      (d.streamResult.isSome → uses = []) ∧
      (later ≠ [] → (runC st ec c d).2.streamResult.isSome) ∧
      (runC st ec c d).2.streamResult = (d.streamResult <|> (errorsOf uses).head?) ∧
      (runC st ec c d).2.panicPayload = ((panicsOf uses).getLast? <|> d.panicPayload) ∧
      (∀ before u after, uses = before ++ u :: after → (∃ e, u.2.2 = .err e) → after = []) := by
  intro c
  induction c with
  | done out =>
    intro d
    refine ⟨[], [], by simp [runC], .nil _, .done _, by simp, fun _ => rfl, by simp, ?_, ?_, ?_⟩
    · simp [runC, errorsOf]
    · simp [runC, panicsOf]
    · intro before u after h
      simp at h
  | call req k ih =>
    intro d
    by_cases hs : d.streamResult.isSome
    · have hc : callback st ec d req = (ec, none, d) := by simp [callback, hs]
      obtain ⟨uses, later, h1, h2, h3, h4, h5, h6, h7, h8, h9⟩ := ih ec none d
      have hu := h5 hs
      subst hu
      refine ⟨[], ⟨req, ec, none⟩ :: later, ?_, ?_, ?_, ?_, fun _ => rfl, ?_, ?_, ?_, h9⟩
      · simp only [runC, hc]; exact h1
      · simp only [runC, hc]; exact h2
      · simp only [runC, hc]
        exact .call h3
      · intro x hx
        rcases List.mem_cons.mp hx with rfl | hx
        · exact ⟨rfl, rfl⟩
        · exact h4 x hx
      · intro _
        simp only [runC, hc]
        rw [h7]
        revert hs
        cases d.streamResult <;> simp
      · simp only [runC, hc]; exact h7
      · simp only [runC, hc]; exact h8
    · have hn : d.streamResult = none := by simpa using hs
      rcases hr : (st.use d.stream req).2.2 with _ | e | p
      · have hc : callback st ec d req = (0, some (st.use d.stream req).2.1,
            { d with stream := (st.use d.stream req).1, uses := d.uses ++ [(req, (st.use d.stream req).2)] }) := by
          simp [callback, hn, hr, statusSuccess]
        obtain ⟨uses, later, h1, h2, h3, h4, h5, h6, h7, h8, h9⟩ := ih 0 (some (st.use d.stream req).2.1)
          { d with stream := (st.use d.stream req).1, uses := d.uses ++ [(req, (st.use d.stream req).2)] }
        refine ⟨(req, (st.use d.stream req).2) :: uses, later, ?_, ?_, ?_, h4, fun h => absurd h hs, ?_, ?_, ?_, ?_⟩
        · simp only [runC, hc]; rw [h1]; simp
        · simp only [runC, hc]; exact .cons h2
        · simp only [runC, hc, List.map_cons, List.cons_append, told, hr]
          exact .call h3
        · simp only [runC, hc]; exact h6
        · simp only [runC, hc]; rw [h7]
          rw [show (req, (st.use d.stream req).2) = (req, (st.use d.stream req).2.1, (st.use d.stream req).2.2) from rfl, hr]
          rfl
        · simp only [runC, hc]; rw [h8]
          rw [show (req, (st.use d.stream req).2) = (req, (st.use d.stream req).2.1, (st.use d.stream req).2.2) from rfl, hr]
          rfl
        · intro before u after h
          cases before with
          | nil =>
            rintro ⟨e, he⟩
            simp only [List.nil_append, List.cons.injEq] at h
            rw [← h.1] at he
            rw [hr] at he
            simp at he
          | cons b before =>
            simp only [List.cons_append, List.cons.injEq] at h
            exact h9 before u after h.2
      · have hc : callback st ec d req = (ec, some (st.use d.stream req).2.1,
            { d with stream := (st.use d.stream req).1, uses := d.uses ++ [(req, (st.use d.stream req).2)], streamResult := some e }) := by
          simp [callback, hn, hr]
        obtain ⟨uses, later, h1, h2, h3, h4, h5, h6, h7, h8, h9⟩ := ih ec (some (st.use d.stream req).2.1)
          { d with stream := (st.use d.stream req).1, uses := d.uses ++ [(req, (st.use d.stream req).2)], streamResult := some e }
        have hu := h5 rfl
        subst hu
        refine ⟨[(req, (st.use d.stream req).2)], later, ?_, ?_, ?_, h4, fun h => absurd h hs, ?_, ?_, ?_, ?_⟩
        · simp only [runC, hc]; rw [h1]; simp
        · simp only [runC, hc]; exact .cons h2
        · simp only [runC, hc, List.map_cons, List.cons_append, told, hr]
          exact .call h3
        · simp only [runC, hc]; exact h6
        · simp only [runC, hc]; rw [h7]
          rw [show (req, (st.use d.stream req).2) = (req, (st.use d.stream req).2.1, (st.use d.stream req).2.2) from rfl, hr]
          simp [errorsOf, hn]
        · simp only [runC, hc]; rw [h8]
          rw [show (req, (st.use d.stream req).2) = (req, (st.use d.stream req).2.1, (st.use d.stream req).2.2) from rfl, hr]
          rfl
        · intro before u after h
          cases before with
          | nil => simp only [List.nil_append, List.cons.injEq] at h; exact fun _ => h.2.symm
          | cons b before => simp at h
      · have hc : callback st ec d req = (ec, some (st.use d.stream req).2.1,
            { d with stream := (st.use d.stream req).1, uses := d.uses ++ [(req, (st.use d.stream req).2)], panicPayload := some p }) := by
          simp [callback, hn, hr]
        obtain ⟨uses, later, h1, h2, h3, h4, h5, h6, h7, h8, h9⟩ := ih ec (some (st.use d.stream req).2.1)
          { d with stream := (st.use d.stream req).1, uses := d.uses ++ [(req, (st.use d.stream req).2)], panicPayload := some p }
        refine ⟨(req, (st.use d.stream req).2) :: uses, later, ?_, ?_, ?_, h4, fun h => absurd h hs, ?_, ?_, ?_, ?_⟩
        · simp only [runC, hc]; rw [h1]; simp
        · simp only [runC, hc]; exact .cons h2
        · simp only [runC, hc, List.map_cons, List.cons_append, told, hr]
          exact .call h3
        · simp only [runC, hc]; exact h6
        · simp only [runC, hc]; rw [h7]
          rw [show (req, (st.use d.stream req).2) = (req, (st.use d.stream req).2.1, (st.use d.stream req).2.2) from rfl, hr]
          rfl
        · simp only [runC, hc]; rw [h8]
          rw [show (req, (st.use d.stream req).2) = (req, (st.use d.stream req).2.1, (st.use d.stream req).2.2) from rfl, hr]
          simp only [panicsOf]
          cases hp : panicsOf uses <;> simp [List.getLast?_cons]
        · intro before u after h
          cases before with
          | nil =>
            rintro ⟨e, he⟩
            simp only [List.nil_append, List.cons.injEq] at h
            rw [← h.1] at he
            rw [hr] at he
            simp at he
          | cons b before =>
            simp only [List.cons_append, List.cons.injEq] at h
            exact h9 before u after h.2

/-- **C48**, all of it for any stream and any cairo: cairo makes some calls and returns. The first calls are uses of the stream, and cairo is
told success for those that succeed and an error for the others. The others, which only come after the stream has failed, do not use it and
are told the error. Nothing is done with the stream after it has failed. The operation panics with the payload of the last panic of the
stream if there is one; if not, it returns the error of the stream if there is one; if not, what cairo returns. -/
theorem C48_exchange (st : Stream S Req Resp E P) (ec : Nat) (c : CCode Req Resp Out) (s : S) :
    ∃ uses later out, (withCCallback st ec c s).2.2 = uses ∧ Used st s uses (withCCallback st ec c s).2.1 ∧
      Talks c (uses.map (told ec) ++ later) out ∧
      (∀ x ∈ later, x.status = ec ∧ x.buffer = none) ∧
      (later ≠ [] → errorsOf uses ≠ []) ∧
      (∀ before u after, uses = before ++ u :: after → (∃ e, u.2.2 = .err e) → after = []) ∧
      (withCCallback st ec c s).1 =
        match (panicsOf uses).getLast?, errorsOf uses with
        | some p, _ => .panicked p
        | none, e :: _ => .ioError e
        | none, [] => .ok out := by
  obtain ⟨uses, later, h1, h2, h3, h4, h5, h6, h7, h8, h9⟩ := runC_spec st ec c ⟨s, none, none, []⟩
  refine ⟨uses, later, _, by simp [withCCallback, h1], h2, h3, h4, fun hl => ?_, h9, ?_⟩
  · have := h6 hl
    rw [h7] at this
    intro he
    simp [he] at this
  · simp only [withCCallback, h7, h8]
    cases (panicsOf uses).getLast? <;> cases errorsOf uses <;> rfl

private theorem errors_last {uses : List (Req × Resp × Ending E P)}
    (h : ∀ before u after, uses = before ++ u :: after → (∃ e, u.2.2 = .err e) → after = []) :
    errorsOf uses = [] ∨ ∃ before req resp e, uses = before ++ [(req, resp, .err e)] ∧ errorsOf before = [] := by
  induction uses with
  | nil => exact .inl rfl
  | cons u uses ih =>
    obtain ⟨q, r, x⟩ := u
    have hrec : ∀ before u after, uses = before ++ u :: after → (∃ e, u.2.2 = .err e) → after = [] :=
      fun before u after hb => h ((q, r, x) :: before) u after (by rw [hb]; rfl)
    cases x with
    | err e =>
      refine .inr ⟨[], q, r, e, ?_, rfl⟩
      rw [h [] (q, r, .err e) uses rfl ⟨e, rfl⟩]
      rfl
    | ok =>
      rcases ih hrec with h' | ⟨b, q', r', e, hu, hb⟩
      · exact .inl h'
      · exact .inr ⟨(q, r, .ok) :: b, q', r', e, by rw [hu]; rfl, hb⟩
    | panic p =>
      rcases ih hrec with h' | ⟨b, q', r', e, hu, hb⟩
      · exact .inl h'
      · exact .inr ⟨(q, r, .panic p) :: b, q', r', e, by rw [hu]; rfl, hb⟩

/-- **C48**: a stream that does not panic is used up to its first failure at most, and reading returns that failure; or no use of it fails, cairo
was given what the stream gave, and reading returns cairo's surface if its status is success and that status otherwise. -/
theorem C48_read (st : Stream S Nat Resp E P) (c : CCode Nat Resp (Out × Nat)) (s : S)
    (hp : panicsOf (readFromPng st c s).2.2 = []) :
    (∃ before req resp e, (readFromPng st c s).2.2 = before ++ [(req, resp, .err e)] ∧ errorsOf before = [] ∧
      (readFromPng st c s).1 = .ioError e) ∨
    (errorsOf (readFromPng st c s).2.2 = [] ∧ ∃ surface status,
      Talks c ((readFromPng st c s).2.2.map fun u => ⟨u.1, 0, some u.2.1⟩) (surface, status) ∧
      (readFromPng st c s).1 = if status = 0 then .ok surface else .cairoError status) := by
  obtain ⟨uses, later, out, h1, h2, h3, h4, h5, h6, h7⟩ := C48_exchange st statusReadError c s
  have hu : (readFromPng st c s).2.2 = uses := h1
  rw [hu] at hp ⊢
  rcases errors_last h6 with he | ⟨before, req, resp, e, hb, heb⟩
  · right
    refine ⟨he, out.1, out.2, ?_, ?_⟩
    · have hl : later = [] := by
        cases later with
        | nil => rfl
        | cons x l => exact absurd he (h5 (by simp))
      rw [hl, List.append_nil] at h3
      have hm : uses.map (told statusReadError) = uses.map fun u => (⟨u.1, 0, some u.2.1⟩ : Exchange Nat Resp) := by
        clear h1 h2 h3 h4 h5 h6 h7 hu
        induction uses with
        | nil => rfl
        | cons u uses ih =>
          obtain ⟨q, r, x⟩ := u
          cases x with
          | ok => rw [List.map_cons, List.map_cons, ih hp he]; rfl
          | err e => simp [errorsOf] at he
          | panic p => simp [panicsOf] at hp
      rw [hm] at h3
      exact h3
    · rw [hp, he] at h7
      by_cases h0 : out.2 = 0 <;> simp [readFromPng, h7, checkStatus, statusSuccess, h0]
  · left
    refine ⟨before, req, resp, e, hb, heb, ?_⟩
    have he : errorsOf uses = [e] := by rw [hb, errorsOf_append, heb]; rfl
    rw [hp, he] at h7
    simp only [readFromPng, h7, List.getLast?_nil]

/-- **C48**: a stream that does not panic is used up to its first failure at most, and writing returns that failure; or no use of it fails, the
stream was given exactly what cairo wrote, and the result is cairo's status. -/
theorem C48_write (st : Stream S (List Nat) Unit E P) (c : CCode (List Nat) Unit Nat) (s : S)
    (hp : panicsOf (writeToPng st c s).2.2 = []) :
    (∃ before req e, (writeToPng st c s).2.2 = before ++ [(req, (), .err e)] ∧ errorsOf before = [] ∧
      (writeToPng st c s).1 = .ioError e) ∨
    (errorsOf (writeToPng st c s).2.2 = [] ∧ ∃ status,
      Talks c ((writeToPng st c s).2.2.map fun u => ⟨u.1, 0, some ()⟩) status ∧
      (writeToPng st c s).1 = if status = 0 then .ok () else .cairoError status) := by
  obtain ⟨uses, later, out, h1, h2, h3, h4, h5, h6, h7⟩ := C48_exchange st statusWriteError c s
  have hu : (writeToPng st c s).2.2 = uses := h1
  rw [hu] at hp ⊢
  rcases errors_last h6 with he | ⟨before, req, resp, e, hb, heb⟩
  · right
    refine ⟨he, out, ?_, ?_⟩
    · have hl : later = [] := by
        cases later with
        | nil => rfl
        | cons x l => exact absurd he (h5 (by simp))
      rw [hl, List.append_nil] at h3
      have hm : uses.map (told statusWriteError) = uses.map fun u => (⟨u.1, 0, some ()⟩ : Exchange (List Nat) Unit) := by
        clear h1 h2 h3 h4 h5 h6 h7 hu
        induction uses with
        | nil => rfl
        | cons u uses ih =>
          obtain ⟨q, r, x⟩ := u
          cases x with
          | ok => rw [List.map_cons, List.map_cons, ih hp he]; rfl
          | err e => simp [errorsOf] at he
          | panic p => simp [panicsOf] at hp
      rw [hm] at h3
      exact h3
    · rw [hp, he] at h7
      by_cases h0 : out = 0 <;> simp [writeToPng, h7, checkStatus, statusSuccess, h0]
  · left
    refine ⟨before, req, e, hb, heb, ?_⟩
    have he : errorsOf uses = [e] := by rw [hb, errorsOf_append, heb]; rfl
    rw [hp, he] at h7
    simp only [writeToPng, h7, List.getLast?_nil]

/-- **C48**: when the stream panics, the operation panics, with the payload of a panic of the stream. That cairo has returned before is part of
the model: `withCCallback` looks at the payload after it has run all of cairo's function. -/
theorem C48_panic (st : Stream S Req Resp E P) (ec : Nat) (c : CCode Req Resp Out) (s : S) :
    (panicsOf (withCCallback st ec c s).2.2 ≠ [] ↔ ∃ p, (withCCallback st ec c s).1 = .panicked p) ∧
    ∀ p, (withCCallback st ec c s).1 = .panicked p → (panicsOf (withCCallback st ec c s).2.2).getLast? = some p := by
  obtain ⟨uses, later, out, h1, h2, h3, h4, h5, h6, h7⟩ := C48_exchange st ec c s
  rw [h1, h7]
  cases hp : (panicsOf uses).getLast? with
  | some p =>
    refine ⟨⟨fun _ => ⟨p, rfl⟩, fun _ h => ?_⟩, fun p' h => ?_⟩
    · rw [h] at hp; simp at hp
    · simp only [Finish.panicked.injEq] at h; rw [h]
  | none =>
    have hn : panicsOf uses = [] := List.getLast?_eq_none_iff.mp hp
    cases errorsOf uses <;> simp [hn]

private theorem stops_last (st : Stream S Req Resp E P) (ec : Nat) (hec : ec ≠ 0) : ∀ (c : CCode Req Resp Out) (d : ClosureData S Req Resp E P),
    Stops c → d.streamResult = none → ∃ uses, (runC st ec c d).2.uses = d.uses ++ uses ∧
      ∀ before u after, uses = before ++ u :: after → u.2.2 ≠ .ok → after = [] := by
  intro c
  induction c with
  | done out =>
    intro d _ _
    exact ⟨[], by simp [runC], fun before u after h => by simp at h⟩
  | call req k ih =>
    intro d hst hd
    cases hst with
    | call hk hk' =>
      rcases hr : (st.use d.stream req).2.2 with _ | e | p
      · have hc : callback st ec d req = (0, some (st.use d.stream req).2.1,
            { d with stream := (st.use d.stream req).1, uses := d.uses ++ [(req, (st.use d.stream req).2)] }) := by
          simp [callback, hd, hr, statusSuccess]
        obtain ⟨uses, h1, h2⟩ := ih 0 (some (st.use d.stream req).2.1)
          { d with stream := (st.use d.stream req).1, uses := d.uses ++ [(req, (st.use d.stream req).2)] } (hk _) hd
        refine ⟨(req, (st.use d.stream req).2) :: uses, by simp only [runC, hc]; rw [h1]; simp, ?_⟩
        intro before u after h hu
        cases before with
        | nil =>
          simp only [List.nil_append, List.cons.injEq] at h
          rw [← h.1] at hu
          exact absurd hr hu
        | cons b before =>
          simp only [List.cons_append, List.cons.injEq] at h
          exact h2 before u after h.2 hu
      all_goals
        obtain ⟨out, ho⟩ := hk' ec (some (st.use d.stream req).2.1) hec
        refine ⟨[(req, (st.use d.stream req).2)], ?_, ?_⟩
        · simp [runC, callback, hd, hr, ho]
        · intro before u after h _
          cases before with
          | nil => simp only [List.nil_append, List.cons.injEq] at h; exact h.2.symm
          | cons b before => simp at h

/-- **C48** for a cairo that gives up when the callback returns an error: the stream is not used any more after it has failed or panicked, and
the operation ends as its last use did if that was not successful. -/
theorem C48_stops_partial (st : Stream S Req Resp E P) (ec : Nat) (hec : ec ≠ 0) (c : CCode Req Resp Out) (hc : Stops c) (s : S) :
    (∀ before u after, (withCCallback st ec c s).2.2 = before ++ u :: after → u.2.2 ≠ .ok → after = []) ∧
    (∀ before req resp p, (withCCallback st ec c s).2.2 = before ++ [(req, resp, .panic p)] → (withCCallback st ec c s).1 = .panicked p) ∧
    (∀ before req resp e, (withCCallback st ec c s).2.2 = before ++ [(req, resp, .err e)] → (withCCallback st ec c s).1 = .ioError e) := by
  obtain ⟨uses, h1, h2⟩ := stops_last st ec hec c ⟨s, none, none, []⟩ hc rfl
  have hu : (withCCallback st ec c s).2.2 = uses := by simpa [withCCallback] using h1
  obtain ⟨uses', later, out, g1, g2, g3, g4, g5, g6, g7⟩ := C48_exchange st ec c s
  rw [hu] at g1
  subst g1
  have hok : ∀ before req resp x, uses = before ++ [(req, resp, x)] → errorsOf before = [] ∧ panicsOf before = [] := by
    intro before req resp x hb
    have : ∀ u ∈ before, u.2.2 = .ok := by
      intro u hu
      obtain ⟨b, a, hba⟩ := List.append_of_mem hu
      apply Classical.byContradiction
      intro hne
      have := h2 b u (a ++ [(req, resp, x)]) (by rw [hb, hba]; simp) hne
      simp at this
    clear hb
    induction before with
    | nil => exact ⟨rfl, rfl⟩
    | cons u before ih =>
      obtain ⟨q, r, y⟩ := u
      have hy := this (q, r, y) (by simp)
      simp only at hy
      subst hy
      exact ih fun u hu => this u (List.mem_cons_of_mem _ hu)
  rw [hu]
  refine ⟨h2, fun before req resp p hb => ?_, fun before req resp e hb => ?_⟩
  · obtain ⟨he, hp⟩ := hok _ _ _ _ hb
    rw [g7, hb, panicsOf_append, hp]
    rfl
  · obtain ⟨he, hp⟩ := hok _ _ _ _ hb
    rw [g7, hb, panicsOf_append, hp, errorsOf_append, he]
    rfl

/-! ## Files -/

private theorem file_write (f : File E) (bytes : List Nat) :
    ((f.write bytes).2 = none ∧ (f.write bytes).1.content = f.content ++ bytes ∨
      (∃ e, (f.write bytes).2 = some e) ∧ (f.write bytes).1 = f ∧ f.fails f.content bytes ≠ none) ∧
    (f.write bytes).1.fails = f.fails := by
  unfold File.write
  cases h : f.fails f.content bytes <;> simp

private theorem flushBuf_spec (w : BufWriter E) :
    (w.flushBuf.2 = none ∧ w.flushBuf.1.inner.content = w.inner.content ++ w.buf ∧ w.flushBuf.1.buf = [] ∨
      (∃ e, w.flushBuf.2 = some e) ∧ w.flushBuf.1.inner.content = w.inner.content ∧ ∃ content bytes, w.inner.fails content bytes ≠ none) ∧
    w.flushBuf.1.inner.fails = w.inner.fails := by
  unfold BufWriter.flushBuf
  by_cases hb : w.buf = []
  · simp [hb]
  · simp only [hb, if_false]
    obtain ⟨h, hf⟩ := file_write w.inner w.buf
    rcases h with ⟨h1, h2⟩ | ⟨⟨e, h1⟩, h2, h3⟩
    · simp [h1, h2, hf]
    · simp only [h1, h2]
      exact ⟨.inr ⟨⟨e, rfl⟩, trivial, _, _, h3⟩, trivial⟩

private theorem writeAll_spec (w : BufWriter E) (bytes : List Nat) (h : (w.writeAll bytes).2 = none) :
    (w.writeAll bytes).1.inner.content ++ (w.writeAll bytes).1.buf = w.inner.content ++ w.buf ++ bytes ∧
    (w.writeAll bytes).1.inner.fails = w.inner.fails := by
  unfold BufWriter.writeAll at h ⊢
  have hr : ∀ r : BufWriter E × Option E, (r = w.flushBuf ∨ r = (w, none)) → r.2 = none →
      r.1.inner.content ++ r.1.buf = w.inner.content ++ w.buf ∧ r.1.inner.fails = w.inner.fails := by
    rintro r (rfl | rfl) hn
    · obtain ⟨h, hf⟩ := flushBuf_spec w
      rcases h with ⟨h1, h2, h3⟩ | ⟨⟨e, h1⟩, -⟩
      · simp [h2, h3, hf]
      · rw [h1] at hn; simp at hn
    · simp
  by_cases hcap : w.buf.length + bytes.length > bufCapacity
  · simp only [hcap, if_true] at h ⊢
    rcases hfl : w.flushBuf.2 with _ | e
    · simp only [hfl] at h ⊢
      obtain ⟨h1, h2⟩ := hr _ (.inl rfl) hfl
      have hbuf : w.flushBuf.1.buf = [] := by
        obtain ⟨h, -⟩ := flushBuf_spec w
        rcases h with ⟨-, -, h3⟩ | ⟨⟨e, h1⟩, -⟩
        · exact h3
        · rw [h1] at hfl; simp at hfl
      by_cases hl : bytes.length ≥ bufCapacity
      · simp only [hl, if_true] at h ⊢
        obtain ⟨g, gf⟩ := file_write w.flushBuf.1.inner bytes
        rcases g with ⟨-, g2⟩ | ⟨⟨e, g1⟩, -⟩
        · rw [← h1, g2, hbuf, gf, h2]; simp
        · rw [g1] at h; simp at h
      · simp only [hl, if_false]
        rw [← h1]
        exact ⟨by simp, h2⟩
    · simp [hfl] at h
  · simp only [hcap, if_false] at h ⊢
    by_cases hl : bytes.length ≥ bufCapacity
    · simp only [hl, if_true] at h ⊢
      have hbuf : w.buf = [] := by
        have : w.buf.length = 0 := by omega
        exact List.length_eq_zero_iff.mp this
      obtain ⟨g, gf⟩ := file_write w.inner bytes
      rcases g with ⟨-, g2⟩ | ⟨⟨e, g1⟩, -⟩
      · rw [g2, hbuf, gf]; simp
      · rw [g1] at h; simp at h
    · simp only [hl, if_false]
      simp

private theorem used_file {P : Type} (w : BufWriter E) (uses : List (List Nat × Unit × Ending E P)) (w' : BufWriter E)
    (h : Used (bufStream E P) w uses w') (he : errorsOf uses = []) :
    w'.inner.content ++ w'.buf = w.inner.content ++ w.buf ++ (uses.map Prod.fst).flatten ∧ w'.inner.fails = w.inner.fails := by
  induction h with
  | nil s => simp
  | @cons s req rest s' _ ih =>
    have hn : (s.writeAll req).2 = none := by
      rcases hw : (s.writeAll req).2 with _ | e
      · rfl
      · exfalso
        have : ((bufStream E P).use s req).2 = ((), Ending.err e) := by simp [bufStream, hw]
        rw [this] at he
        simp [errorsOf] at he
    have hrest : errorsOf rest = [] := by
      have : ((bufStream E P).use s req).2 = ((), Ending.ok) := by simp [bufStream, hn]
      rw [this] at he
      exact he
    obtain ⟨h1, h2⟩ := ih hrest
    obtain ⟨h3, h4⟩ := writeAll_spec s req hn
    have hs : ((bufStream E P).use s req).1 = (s.writeAll req).1 := rfl
    rw [hs] at h1 h2
    rw [h1, h2, h3, h4]
    simp

private theorem bufStream_no_panic {P : Type} (w : BufWriter E) (uses : List (List Nat × Unit × Ending E P)) (w' : BufWriter E)
    (h : Used (bufStream E P) w uses w') : panicsOf uses = [] := by
  induction h with
  | nil s => rfl
  | @cons s req rest s' _ ih =>
    rcases hw : (s.writeAll req).2 with _ | e
    · rw [show ((bufStream E P).use s req).2 = ((), Ending.ok) by simp [bufStream, hw]]
      exact ih
    · rw [show ((bufStream E P).use s req).2 = ((), Ending.err e) by simp [bufStream, hw]]
      exact ih

/-- **C68**, which is what is true of `write_to_png_file`: when it returns success, cairo has written some bytes and returned success,
and the file has these bytes at its end, except that some of the last of them may be missing if a write to the file failed. See
`C68_file_violated`. -/
theorem C68_file_partial (f : File E) (P : Type) (c : CCode (List Nat) Unit Nat) (h : (writeToPngFile f P c).1 = .ok ()) :
    ∃ (parts : List (List Nat)) (missing : List Nat), Talks c (parts.map fun bytes => ⟨bytes, 0, some ()⟩) 0 ∧
      (writeToPngFile f P c).2.content ++ missing = f.content ++ parts.flatten ∧
      ((∀ content bytes, f.fails content bytes = none) → missing = []) := by
  obtain ⟨uses, later, out, h1, h2, -⟩ := C48_exchange (bufStream E P) statusWriteError c ⟨f, []⟩
  have hu : (writeToPng (bufStream E P) c ⟨f, []⟩).2.2 = uses := h1
  have hpan := bufStream_no_panic _ _ _ h2
  rcases C48_write (bufStream E P) c ⟨f, []⟩ (by rw [hu]; exact hpan) with ⟨before, req, e, -, -, he⟩ | ⟨he, status, ht, hr⟩
  · have : (writeToPngFile f P c).1 = .ioError e := he
    rw [h] at this
    simp at this
  · rw [hu] at he ht
    have hs : status = 0 := by
      have : (writeToPngFile f P c).1 = if status = 0 then .ok () else .cairoError status := hr
      rw [h] at this
      split at this <;> simp_all
    subst hs
    obtain ⟨h3, h4⟩ := used_file _ _ _ h2 he
    have hw : (writeToPngFile f P c).2 = (withCCallback (bufStream E P) statusWriteError c ⟨f, []⟩).2.1.flushBuf.1.inner := rfl
    generalize (withCCallback (bufStream E P) statusWriteError c ⟨f, []⟩).2.1 = w' at h3 h4 hw
    simp only [List.append_nil] at h3
    have ht' : Talks c ((uses.map Prod.fst).map fun bytes => ⟨bytes, 0, some ()⟩) 0 := by
      rw [List.map_map]; exact ht
    obtain ⟨hf, -⟩ := flushBuf_spec w'
    rcases hf with ⟨-, g2, -⟩ | ⟨-, g2, content, bytes, g3⟩
    · exact ⟨uses.map Prod.fst, [], ht', by rw [hw, g2, h3]; simp, fun _ => rfl⟩
    · refine ⟨uses.map Prod.fst, w'.buf, ht', by rw [hw, g2, h3], fun hnf => ?_⟩
      rw [h4, hnf] at g3
      exact absurd rfl g3

/-! ## Witnesses and examples -/

/-- A stream that gives bytes from a list, fails at its end, and panics when asked for more than three bytes. -/
def exampleStream : Stream (List Nat) Nat (List Nat) String String where
  use s n :=
    if n > 3 then (s, [], .panic "too much")
    else if n ≤ s.length then (s.drop n, s.take n, .ok) else ([], s, .err "end of file")

/-- A reader that asks for some bytes, then for as many as the first of them says, and gives up when it is told an error. -/
def exampleReader : CCode Nat (List Nat) (List Nat × Nat) :=
  .call 2 fun status buffer =>
    if status ≠ 0 then .done ([], status)
    else .call ((buffer.getD []).headD 0) fun status buffer => .done (buffer.getD [], status)

example : Stops exampleReader := by
  refine .call (fun buffer => ?_) (fun status buffer h => ⟨([], status), by simp only [h, ne_eq, not_false_eq_true, if_true]⟩)
  exact .call (fun _ => .done _) (fun _ _ _ => ⟨_, rfl⟩)

example : (readFromPng exampleStream exampleReader [3, 7, 1, 2, 3, 4]).1 = .ok [1, 2, 3] ∧
    (readFromPng exampleStream exampleReader [3, 7, 1, 2]).1 = .ioError "end of file" ∧
    (readFromPng exampleStream exampleReader [4, 7, 1, 2, 3, 4]).1 = .panicked "too much" := by decide +kernel

example : panicsOf (readFromPng exampleStream exampleReader [3, 7, 1, 2, 3, 4]).2.2 = [] := by decide +kernel

/-- A reader that goes on although it is told an error. -/
def stubbornReader : CCode Nat (List Nat) (List Nat × Nat) :=
  .call 4 fun _ _ => .call 2 fun status buffer => .done (buffer.getD [], status)

/-- **C48** is not so for every cairo: when the stream panics and cairo goes on, the stream is used again. -/
theorem C48_panic_violated : ∃ (st : Stream (List Nat) Nat (List Nat) String String) (c : CCode Nat (List Nat) (List Nat × Nat)) (s : List Nat)
    (before : List _) (u u' : _) (p : String), (readFromPng st c s).2.2 = before ++ [u, u'] ∧ u.2.2 = .panic p :=
  ⟨exampleStream, stubbornReader, [3, 7, 1], [], (4, [], .panic "too much"), (2, [3, 7], .ok), "too much", by decide +kernel, rfl⟩

/-- Writing the bytes of a list one after the other, giving up when told an error. -/
def writeParts : List (List Nat) → CCode (List Nat) Unit Nat
  | [] => .done 0
  | part :: rest => .call part fun status _ => if status ≠ 0 then .done status else writeParts rest

/-- A disk on which writing works. -/
def goodDisk : File String := ⟨[1], fun _ _ => none⟩

example : (writeToPngFile goodDisk Empty (writeParts [[137, 80, 78, 71], [13, 10]])).1 = .ok () ∧
    (writeToPngFile goodDisk Empty (writeParts [[137, 80, 78, 71], [13, 10]])).2.content = [1, 137, 80, 78, 71, 13, 10] := ⟨rfl, rfl⟩

/-- A disk that is full. -/
def fullDisk : File String := ⟨[], fun _ _ => some "no space left"⟩

/-- **C68** is not so: `write_to_png_file` says that all is well although nothing is in the file. -/
theorem C68_file_violated : (writeToPngFile fullDisk Empty (writeParts [[137, 80, 78, 71], [13, 10]])).1 = .ok () ∧
    (writeToPngFile fullDisk Empty (writeParts [[137, 80, 78, 71], [13, 10]])).2.content = [] := by
  constructor
  · rfl
  · rfl

end Verif.Lester
