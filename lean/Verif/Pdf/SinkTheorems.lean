/- C75: writing a document to any stream, and to a file. -/
import Verif.Pdf.Sink
import Verif.Pdf.FileLemmas
import Verif.Pdf.DocExample
namespace Verif.Pdf

/-! ### The calls write the bytes of the file -/

theorem nameCalls_flatten : ∀ b : List Byte, (nameCalls b).flatten = writeNameBytes b
  | [] => rfl
  | b :: bs => by
    rw [nameCalls, writeNameBytes, List.flatten_append, nameCalls_flatten bs]
    cases kind b <;> simp [writeHex]

theorem literalCalls_flatten : ∀ b : List Byte, (literalCalls b).flatten = writeLiteralBytes b
  | [] => rfl
  | b :: bs => by rw [literalCalls, writeLiteralBytes, List.flatten_cons, literalCalls_flatten bs]

theorem hexCalls_flatten : ∀ b : List Byte, (b.map writeHex).flatten = writeHexBytes b
  | [] => rfl
  | b :: bs => by rw [List.map_cons, writeHexBytes, List.flatten_cons, hexCalls_flatten bs]

section
variable {R : Type} (dtoa : R → List Byte)

mutual
theorem Object.calls_flatten : ∀ o : Object R, (o.calls dtoa).flatten = o.write dtoa
  | .usize n => by simp [Object.calls, Object.write]
  | .i32 i => by simp [Object.calls, Object.write]
  | .float r => by simp [Object.calls, Object.write]
  | .name b => by simp [Object.calls, Object.write, nameCalls_flatten, writeName]
  | .literal b => by simp [Object.calls, Object.write, literalCalls_flatten]
  | .hex b => by simp [Object.calls, Object.write, hexCalls_flatten]
  | .array .nil => by simp [Object.calls, Object.write]
  | .array (.cons o l) => by simp [Object.calls, Object.write, Object.calls_flatten o, Items.restCalls_flatten l]
  | .dict d => by simp [Object.calls, Object.write, Dictionary.pairCalls_flatten d]
  | .ref id => by simp [Object.calls, Object.write]
  | .alpha r => by simp [Object.calls, Object.write, nameCalls_flatten, writeName]
  | .owned p => by simp [Object.calls, Object.write, Pairs.calls_flatten p]
theorem Items.restCalls_flatten : ∀ l : Items R, (l.restCalls dtoa).flatten = l.writeRest dtoa
  | .nil => rfl
  | .cons o l => by simp [Items.restCalls, Items.writeRest, Object.calls_flatten o, Items.restCalls_flatten l]
theorem Pairs.calls_flatten : ∀ p : Pairs R, (p.calls dtoa).flatten = p.write dtoa
  | .nil => rfl
  | .cons k v l => by simp [Pairs.calls, Pairs.write, nameCalls_flatten, writeName, Object.calls_flatten v, Pairs.calls_flatten l]
theorem Dictionary.pairCalls_flatten : ∀ d : Dictionary R, (d.pairCalls dtoa).flatten = d.writePairs dtoa
  | .root p => by simp [Dictionary.pairCalls, Dictionary.writePairs, Pairs.calls_flatten p]
  | .linked prev p => by
    simp [Dictionary.pairCalls, Dictionary.writePairs, Dictionary.pairCalls_flatten prev, Pairs.calls_flatten p]
end

theorem Dictionary.calls_flatten (d : Dictionary R) : (d.calls dtoa).flatten = d.write dtoa := by
  simp [Dictionary.calls, Dictionary.write, Dictionary.pairCalls_flatten]

theorem writeEach_eq : ∀ (l : List (List Byte)) (w : CountingCalls),
    w.writeEach l = ⟨w.calls ++ l, w.count + l.flatten.length⟩
  | [], w => by simp [CountingCalls.writeEach]
  | b :: bs, w => by simp [CountingCalls.writeEach, writeEach_eq bs, CountingCalls.writeAll, Nat.add_assoc]

/-- The calls are like the bytes, with the same count. -/
def Same (w : CountingCalls) (v : Counting) : Prop := w.calls.flatten = v.out ∧ w.count = v.count

theorem indirectCalls_same : ∀ (cs : List (List (List Byte))) (w : CountingCalls) (v : Counting) (id : Nat), Same w v →
    Same (indirectCalls w id cs).1 (writeAllIndirect v id (cs.map List.flatten)).1 ∧
      (indirectCalls w id cs).2 = (writeAllIndirect v id (cs.map List.flatten)).2
  | [], w, v, id, h => ⟨h, rfl⟩
  | c :: cs, w, v, id, h => by
    obtain ⟨h1, h2⟩ := h
    have hs : Same ((((w.writeAll (decimal id)).writeAll (ascii " 0 obj\n")).writeEach c).writeAll (ascii "\nendobj\n"))
        (writeIndirect v id c.flatten).1 := by
      constructor
      · simp [writeIndirect, Counting.writeAll, CountingCalls.writeAll, writeEach_eq, h1]
      · simp [writeIndirect, Counting.writeAll, CountingCalls.writeAll, writeEach_eq, h2]
    obtain ⟨i1, i2⟩ := indirectCalls_same cs _ _ (id + 1) hs
    refine ⟨i1, ?_⟩
    simp only [indirectCalls, writeAllIndirect, List.map_cons]
    simp only [i2, h2, writeIndirect]

theorem xref_flatten (l : List Nat) : (l.map fun o => zeroPadded 10 o ++ ascii " 00000 n \n").flatten = xrefEntries l := by
  induction l with
  | nil => rfl
  | cons o os ih => simp only [List.map_cons, List.flatten_cons, ih, xrefEntries]

theorem PdfFile.calls_flatten (f : PdfFile) (basic : BasicObjects R) : (f.calls dtoa basic).flatten = f.write dtoa basic := by
  have h0 : Same ((CountingCalls.mk [] 0).writeAll fileHeader) ((Counting.mk [] 0).writeAll fileHeader) := by
    constructor <;> simp [CountingCalls.writeAll, Counting.writeAll]
  obtain ⟨a1, a2⟩ := indirectCalls_same [basic.pageTree.calls dtoa, basic.catalog.calls dtoa, basic.info.calls dtoa] _ _ firstId h0
  obtain ⟨b1, b2⟩ := indirectCalls_same (f.objects.map fun contents => [contents]) _ _ firstAvailableId a1
  have hm : (f.objects.map fun contents => [contents]).map List.flatten = f.objects := by
    rw [List.map_map]
    exact (List.map_congr_left (fun c _ => by simp)).trans (List.map_id _)
  have hb : [basic.pageTree.calls dtoa, basic.catalog.calls dtoa, basic.info.calls dtoa].map List.flatten =
      [basic.pageTree.write dtoa, basic.catalog.write dtoa, basic.info.write dtoa] := by
    simp [Dictionary.calls_flatten]
  rw [hm] at b1 b2
  rw [hb] at a1 a2 b1 b2
  unfold PdfFile.calls PdfFile.write PdfFile.writeObjects
  dsimp only
  rw [a2, b2, b1.2]
  simp only [List.flatten_append, List.flatten_cons, List.flatten_nil, List.append_nil, Dictionary.calls_flatten, xref_flatten, b1.1,
    List.append_assoc]

end

/-! ### Streams -/

section
variable {S ε : Type}

/-- A stream that does what `write` promises: when it says that it wrote `n` bytes, then the first `n` bytes have arrived, and otherwise
none. -/
structure Sink.Honest (k : Sink S ε) : Prop where
  wrote : ∀ s b s' n, k.write s b = (s', .wrote n) → n ≤ b.length ∧ k.received s' = k.received s ++ b.take n
  interrupted : ∀ s b s', k.write s b = (s', .interrupted) → k.received s' = k.received s
  failed : ∀ s b s' e, k.write s b = (s', .failed e) → k.received s' = k.received s

/-- The error is one that the stream returned, or it returned that it wrote nothing, when there was something to write. -/
def Sink.Returned (k : Sink S ε) : IoError ε → Prop
  | .sink e => ∃ s b, b ≠ [] ∧ (k.write s b).2 = .failed e
  | .writeZero => ∃ s b, b ≠ [] ∧ (k.write s b).2 = .wrote 0

theorem writeLoop_spec {k : Sink S ε} (hk : k.Honest) : ∀ (fuel : Nat) (s : S) (b : List Byte) (s' : S) (rest : List Byte)
    (e : Option (IoError ε)), k.writeLoop fuel s b = some (s', rest, e) →
    (∃ p, b = p ++ rest ∧ k.received s' = k.received s ++ p) ∧ (e = none ↔ rest = []) ∧ ∀ err, e = some err → k.Returned err := by
  intro fuel
  induction fuel with
  | zero => intro s b s' rest e h; simp [Sink.writeLoop] at h
  | succ fuel ih =>
    intro s b s' rest e h
    cases b with
    | nil =>
      simp only [Sink.writeLoop, Option.some.injEq, Prod.mk.injEq] at h
      obtain ⟨rfl, rfl, rfl⟩ := h
      exact ⟨⟨[], by simp, by simp⟩, by simp, by simp⟩
    | cons c cs =>
      rcases hw : k.write s (c :: cs) with ⟨s1, n | _ | e1⟩
      · cases n with
        | zero =>
          simp only [Sink.writeLoop, hw, Option.some.injEq, Prod.mk.injEq] at h
          obtain ⟨rfl, rfl, rfl⟩ := h
          have := (hk.wrote _ _ _ _ hw).2
          refine ⟨⟨[], rfl, by simpa using this⟩, by simp, ?_⟩
          intro err he
          cases he
          exact ⟨s, c :: cs, by simp, by rw [hw]⟩
        | succ n =>
          simp only [Sink.writeLoop, hw] at h
          obtain ⟨h1, h2⟩ := hk.wrote _ _ _ _ hw
          obtain ⟨⟨p, i1, i2⟩, i3⟩ := ih _ _ _ _ _ h
          refine ⟨⟨(c :: cs).take (n + 1) ++ p, ?_, ?_⟩, i3⟩
          · rw [List.append_assoc, ← i1, List.take_append_drop]
          · rw [i2, h2, List.append_assoc]
      · simp only [Sink.writeLoop, hw] at h
        obtain ⟨⟨p, i1, i2⟩, i3⟩ := ih _ _ _ _ _ h
        exact ⟨⟨p, i1, by rw [i2, hk.interrupted _ _ _ hw]⟩, i3⟩
      · simp only [Sink.writeLoop, hw, Option.some.injEq, Prod.mk.injEq] at h
        obtain ⟨rfl, rfl, rfl⟩ := h
        refine ⟨⟨[], rfl, by simpa using hk.failed _ _ _ _ hw⟩, by simp, ?_⟩
        intro err he
        cases he
        exact ⟨s, c :: cs, by simp, by rw [hw]⟩

theorem writeCalls_spec {k : Sink S ε} (hk : k.Honest) (fuel : Nat) : ∀ (calls : List (List Byte)) (s s' : S)
    (e : Option (IoError ε)), k.writeCalls fuel s calls = some (s', e) →
    (∃ p rest, calls.flatten = p ++ rest ∧ k.received s' = k.received s ++ p ∧ (e = none ↔ rest = [])) ∧
      ∀ err, e = some err → k.Returned err
  | [], s, s', e, h => by
    simp only [Sink.writeCalls, Option.some.injEq, Prod.mk.injEq] at h
    obtain ⟨rfl, rfl⟩ := h
    exact ⟨⟨[], [], rfl, by simp, by simp⟩, by simp⟩
  | b :: bs, s, s', e, h => by
    rw [Sink.writeCalls] at h
    rcases hl : k.writeLoop fuel s b with _ | ⟨s1, r1, _ | e1⟩
    · simp [hl] at h
    · simp only [hl] at h
      obtain ⟨⟨p1, a1, a2⟩, a3, _⟩ := writeLoop_spec hk _ _ _ _ _ _ hl
      obtain rfl := a3.1 rfl
      obtain ⟨⟨p2, r2, b1, b2, b3⟩, b4⟩ := writeCalls_spec hk fuel bs s1 s' e h
      refine ⟨⟨p1 ++ p2, r2, ?_, ?_, b3⟩, b4⟩
      · rw [List.flatten_cons, a1, b1]; simp
      · rw [b2, a2, List.append_assoc]
    · simp only [hl, Option.some.injEq, Prod.mk.injEq] at h
      obtain ⟨rfl, rfl⟩ := h
      obtain ⟨⟨p1, a1, a2⟩, a3, a4⟩ := writeLoop_spec hk _ _ _ _ _ _ hl
      refine ⟨⟨p1, r1 ++ bs.flatten, ?_, a2, ?_⟩, a4⟩
      · rw [List.flatten_cons, a1, List.append_assoc]
      · simp only [reduceCtorEq, List.append_eq_nil_iff, false_iff, not_and]
        intro hr
        exact absurd (a3.2 hr) (by simp)

theorem writeLoop_returns {k : Sink S ε} (hk : ∀ s b, b ≠ [] → ∃ s' n, k.write s b = (s', .wrote (n + 1))) : ∀ (fuel : Nat) (s : S) (b : List Byte),
    b.length < fuel → ∃ s', k.writeLoop fuel s b = some (s', [], none) := by
  intro fuel
  induction fuel with
  | zero => intro s b h; omega
  | succ fuel ih =>
    intro s b h
    cases b with
    | nil => exact ⟨s, rfl⟩
    | cons c cs =>
      obtain ⟨s1, n, hw⟩ := hk s (c :: cs) (by simp)
      simp only [Sink.writeLoop, hw]
      apply ih
      simp only [List.length_drop, List.length_cons] at h ⊢
      omega

theorem writeCalls_returns {k : Sink S ε} (hk : ∀ s b, b ≠ [] → ∃ s' n, k.write s b = (s', .wrote (n + 1))) (fuel : Nat) :
    ∀ (calls : List (List Byte)) (s : S), (∀ b ∈ calls, b.length < fuel) → ∃ s', k.writeCalls fuel s calls = some (s', none)
  | [], s, _ => ⟨s, rfl⟩
  | b :: bs, s, h => by
    obtain ⟨s1, h1⟩ := writeLoop_returns hk fuel s b (h b (by simp))
    simp only [Sink.writeCalls, h1]
    exact writeCalls_returns hk fuel bs s1 fun c hc => h c (by simp [hc])

variable {R : Type}

/-- **C75**, streams: whatever the stream does (write a part, be interrupted, fail), if writing a document to it returns success then
the stream got exactly the bytes of the document; if it returns an error then the stream got a part of them from the start, and not all,
and the error is the stream's. -/
theorem C75_stream (F : Floats R) (d : Doc R) (k : Sink S ε) (hk : k.Honest) (fuel : Nat) (s s' : S) (result : Option (IoError ε))
    (h : d.writeToPdf F k fuel s = some (s', result)) :
    (result = none → k.received s' = k.received s ++ d.write F) ∧
      ∀ error, result = some error → k.Returned error ∧
        ∃ part missing, d.write F = part ++ missing ∧ missing ≠ [] ∧ k.received s' = k.received s ++ part := by
  obtain ⟨⟨p, rest, h1, h2, h3⟩, h4⟩ := writeCalls_spec hk fuel (d.calls F) s s' result h
  rw [Doc.calls, PdfFile.calls_flatten] at h1
  constructor
  · intro hr
    obtain rfl := h3.1 hr
    rw [h2, Doc.write, h1, List.append_nil]
  · intro error he
    refine ⟨h4 error he, p, rest, h1, ?_, h2⟩
    intro hr
    rw [h3.2 hr] at he
    cases he

theorem callsBound (l : List (List Byte)) : ∃ N, ∀ b ∈ l, b.length < N := by
  induction l with
  | nil => exact ⟨0, by simp⟩
  | cons b bs ih =>
    obtain ⟨N, hN⟩ := ih
    refine ⟨max N (b.length + 1), ?_⟩
    intro c hc
    rcases List.mem_cons.1 hc with rfl | hc
    · omega
    · have := hN c hc; omega

/-- **C75**: a stream that takes at least a byte at each call gets the whole document. -/
theorem C75_returns (F : Floats R) (d : Doc R) (k : Sink S ε) (hk : k.Honest)
    (hp : ∀ s b, b ≠ [] → ∃ s' n, k.write s b = (s', .wrote (n + 1))) (s : S) :
    ∃ N, ∀ fuel ≥ N, ∃ s', d.writeToPdf F k fuel s = some (s', none) ∧ k.received s' = k.received s ++ d.write F := by
  obtain ⟨N, hN⟩ := callsBound (d.calls F)
  refine ⟨N, fun fuel hf => ?_⟩
  obtain ⟨s', h⟩ := writeCalls_returns hp fuel (d.calls F) s fun b hb => Nat.lt_of_lt_of_le (hN b hb) hf
  exact ⟨s', h, (C75_stream F d k hk fuel s s' none h).1 rfl⟩

/-! ### Files -/

theorem flushBuf_spec {k : Sink S ε} (hk : k.Honest) {fuel : Nat} {w w' : Buffered S} {e : Option (IoError ε)}
    (h : w.flushBuf k fuel = some (w', e)) :
    k.received w'.inner ++ w'.buf = k.received w.inner ++ w.buf ∧ (e = none ↔ w'.buf = []) ∧ ∀ err, e = some err → k.Returned err := by
  unfold Buffered.flushBuf at h
  rcases hl : k.writeLoop fuel w.inner w.buf with _ | ⟨s, rest, e1⟩
  · simp [hl] at h
  · simp only [hl, Option.some.injEq, Prod.mk.injEq] at h
    obtain ⟨rfl, rfl⟩ := h
    obtain ⟨⟨p, a1, a2⟩, a3, a4⟩ := writeLoop_spec hk _ _ _ _ _ _ hl
    refine ⟨?_, a3, a4⟩
    simp only [a2, List.append_assoc, ← a1]

/-- After `write_all`: without an error the bytes are in the stream or in the buffer, after those that were there; with an error some are
missing at the end. -/
theorem bufferedWriteAll_spec {k : Sink S ε} (hk : k.Honest) {fuel : Nat} {w w' : Buffered S} {b : List Byte} {e : Option (IoError ε)}
    (hw : w.buf.length ≤ bufferCapacity) (h : w.writeAll k fuel b = some (w', e)) :
    (∃ p rest, b = p ++ rest ∧ k.received w'.inner ++ w'.buf = k.received w.inner ++ w.buf ++ p ∧ (e = none ↔ rest = [])) ∧
      w'.buf.length ≤ bufferCapacity ∧ (∃ q, k.received w'.inner = k.received w.inner ++ q) ∧ ∀ err, e = some err → k.Returned err := by
  unfold Buffered.writeAll at h
  have loop : ∀ {s b s' r e}, k.writeLoop fuel s b = some (s', r, e) → ∃ q, k.received s' = k.received s ++ q := by
    intro s b s' r e hl
    obtain ⟨⟨q, _, q2⟩, _⟩ := writeLoop_spec hk _ _ _ _ _ _ hl
    exact ⟨q, q2⟩
  have flush : ∀ {w1 : Buffered S} {e1}, w.flushBuf k fuel = some (w1, e1) →
      (∃ q, k.received w1.inner = k.received w.inner ++ q) ∧ w1.buf.length ≤ bufferCapacity := by
    intro w1 e1 hf
    unfold Buffered.flushBuf at hf
    rcases hl : k.writeLoop fuel w.inner w.buf with _ | ⟨s, rest, e2⟩
    · simp [hl] at hf
    · simp only [hl, Option.some.injEq, Prod.mk.injEq] at hf
      obtain ⟨rfl, rfl⟩ := hf
      obtain ⟨⟨q, q1, q2⟩, _⟩ := writeLoop_spec hk _ _ _ _ _ _ hl
      refine ⟨⟨q, q2⟩, ?_⟩
      have := congrArg List.length q1
      simp only [List.length_append] at this ⊢
      omega
  have go : ∀ w1 : Buffered S, k.received w1.inner ++ w1.buf = k.received w.inner ++ w.buf →
      (∃ q, k.received w1.inner = k.received w.inner ++ q) →
      (b.length ≥ bufferCapacity → w1.buf = []) → w1.buf.length + b.length ≤ bufferCapacity ∨ w1.buf = [] →
      (if b.length ≥ bufferCapacity then
        match k.writeLoop fuel w1.inner b with
        | none => none
        | some (s, _, e) => some (⟨s, w1.buf⟩, e)
      else some (⟨w1.inner, w1.buf ++ b⟩, none)) = some (w', e) →
      (∃ p rest, b = p ++ rest ∧ k.received w'.inner ++ w'.buf = k.received w.inner ++ w.buf ++ p ∧ (e = none ↔ rest = [])) ∧
        w'.buf.length ≤ bufferCapacity ∧ (∃ q, k.received w'.inner = k.received w.inner ++ q) ∧ ∀ err, e = some err → k.Returned err := by
    intro w1 h1 hq h2 h3 h
    split at h
    · rename_i hcap
      have hb := h2 hcap
      rcases hl : k.writeLoop fuel w1.inner b with _ | ⟨s, rest, e1⟩
      · simp [hl] at h
      · simp only [hl, Option.some.injEq, Prod.mk.injEq] at h
        obtain ⟨rfl, rfl⟩ := h
        obtain ⟨⟨p, a1, a2⟩, a3, a4⟩ := writeLoop_spec hk _ _ _ _ _ _ hl
        obtain ⟨q, hq⟩ := hq
        refine ⟨⟨p, rest, a1, ?_, a3⟩, by simp [hb], ⟨q ++ p, by simp only [a2, hq, List.append_assoc]⟩, a4⟩
        rw [← h1]
        simp [hb, a2]
    · rename_i hcap
      simp only [Option.some.injEq, Prod.mk.injEq] at h
      obtain ⟨rfl, rfl⟩ := h
      refine ⟨⟨b, [], by simp, ?_, by simp⟩, ?_, hq, by simp⟩
      · rw [← h1, List.append_assoc]
      · simp only [List.length_append]
        rcases h3 with h3 | h3
        · exact h3
        · rw [h3]; simp only [List.length_nil]; omega
  by_cases hc : w.buf.length + b.length > bufferCapacity
  · simp only [hc, if_true] at h
    rcases hf : w.flushBuf k fuel with _ | ⟨w1, _ | e1⟩
    · simp [hf] at h
    · simp only [hf] at h
      obtain ⟨f1, f2, _⟩ := flushBuf_spec hk hf
      exact go w1 f1 (flush hf).1 (fun _ => f2.1 rfl) (Or.inr (f2.1 rfl)) h
    · simp only [hf, Option.some.injEq, Prod.mk.injEq] at h
      obtain ⟨rfl, rfl⟩ := h
      obtain ⟨f1, f2, f3⟩ := flushBuf_spec hk hf
      refine ⟨⟨[], b, rfl, by simpa using f1, ?_⟩, (flush hf).2, (flush hf).1, f3⟩
      simp only [reduceCtorEq, false_iff]
      rintro rfl
      simp only [List.length_nil] at hc
      omega
  · simp only [hc, if_false] at h
    refine go w rfl ⟨[], by simp⟩ (fun hcap => ?_) (Or.inl (by omega)) h
    have : w.buf.length = 0 := by omega
    exact List.length_eq_zero_iff.mp this

theorem bufferedWriteCalls_spec {k : Sink S ε} (hk : k.Honest) (fuel : Nat) : ∀ (calls : List (List Byte)) (w w' : Buffered S)
    (e : Option (IoError ε)), w.buf.length ≤ bufferCapacity → Buffered.writeCalls k fuel w calls = some (w', e) →
    (∃ p rest, calls.flatten = p ++ rest ∧ k.received w'.inner ++ w'.buf = k.received w.inner ++ w.buf ++ p ∧ (e = none ↔ rest = [])) ∧
      w'.buf.length ≤ bufferCapacity ∧ (∃ q, k.received w'.inner = k.received w.inner ++ q) ∧ ∀ err, e = some err → k.Returned err
  | [], w, w', e, hw, h => by
    simp only [Buffered.writeCalls, Option.some.injEq, Prod.mk.injEq] at h
    obtain ⟨rfl, rfl⟩ := h
    exact ⟨⟨[], [], rfl, by simp, by simp⟩, hw, ⟨[], by simp⟩, by simp⟩
  | b :: bs, w, w', e, hw, h => by
    rw [Buffered.writeCalls] at h
    rcases hl : w.writeAll k fuel b with _ | ⟨w1, _ | e1⟩
    · simp [hl] at h
    · simp only [hl] at h
      obtain ⟨⟨p1, r1, a1, a2, a3⟩, a4, ⟨q1, a5⟩, _⟩ := bufferedWriteAll_spec hk hw hl
      obtain rfl := a3.1 rfl
      obtain ⟨⟨p2, r2, b1, b2, b3⟩, b4, ⟨q2, b5⟩, b6⟩ := bufferedWriteCalls_spec hk fuel bs w1 w' e a4 h
      refine ⟨⟨p1 ++ p2, r2, ?_, ?_, b3⟩, b4, ⟨q1 ++ q2, by rw [b5, a5, List.append_assoc]⟩, b6⟩
      · rw [List.flatten_cons, a1, b1]; simp
      · rw [b2, a2]; simp
    · simp only [hl, Option.some.injEq, Prod.mk.injEq] at h
      obtain ⟨rfl, rfl⟩ := h
      obtain ⟨⟨p1, r1, a1, a2, a3⟩, a4, a5, a6⟩ := bufferedWriteAll_spec hk hw hl
      refine ⟨⟨p1, r1 ++ bs.flatten, ?_, a2, ?_⟩, a4, a5, a6⟩
      · rw [List.flatten_cons, a1, List.append_assoc]
      · simp only [reduceCtorEq, List.append_eq_nil_iff, false_iff, not_and]
        intro hr
        exact absurd (a3.2 hr) (by simp)

/-- **C75**, what is true of files: the file has the bytes of the document from the start. If an error is returned then it is the file's, and
some bytes are missing. If success is returned then at most the last 8192 bytes are missing, and none unless the file failed. See
`C75_file_violated`. -/
theorem C75_file_partial (F : Floats R) (d : Doc R) (k : Sink S ε) (hk : k.Honest) (fuel : Nat) (s s' : S) (result : Option (IoError ε))
    (h : d.writeToPdfFile F k fuel s = some (s', result)) :
    ∃ part missing, d.write F = part ++ missing ∧ k.received s' = k.received s ++ part ∧
      (result = none → missing.length ≤ 8192 ∧ (missing ≠ [] → ∃ error, k.Returned error)) ∧
      ∀ error, result = some error → missing ≠ [] ∧ k.Returned error := by
  unfold Doc.writeToPdfFile at h
  rcases hc : Buffered.writeCalls k fuel ⟨s, []⟩ (d.calls F) with _ | ⟨w, e⟩
  · simp [hc] at h
  · simp only [hc] at h
    rcases hf : w.flushBuf k fuel with _ | ⟨w2, e2⟩
    · simp [hf] at h
    · simp only [hf, Option.some.injEq, Prod.mk.injEq] at h
      obtain ⟨rfl, rfl⟩ := h
      obtain ⟨⟨p, rest, a1, a2, a3⟩, a4, ⟨q, a5⟩, a6⟩ := bufferedWriteCalls_spec hk fuel _ _ _ _ (by simp) hc
      rw [Doc.calls, PdfFile.calls_flatten] at a1
      simp only [List.append_nil] at a2 a5
      obtain ⟨f1, f2, f3⟩ := flushBuf_spec hk hf
      have f4 : ∃ q2, k.received w2.inner = k.received w.inner ++ q2 ∧ w.buf = q2 ++ w2.buf := by
        unfold Buffered.flushBuf at hf
        rcases hl : k.writeLoop fuel w.inner w.buf with _ | ⟨s1, rest1, e1⟩
        · simp [hl] at hf
        · simp only [hl, Option.some.injEq, Prod.mk.injEq] at hf
          obtain ⟨rfl, rfl⟩ := hf
          obtain ⟨⟨q2, q21, q22⟩, _⟩ := writeLoop_spec hk _ _ _ _ _ _ hl
          exact ⟨q2, q22, q21⟩
      obtain ⟨q2, g1, g2⟩ := f4
      rw [a5, g2, List.append_assoc] at a2
      have hp : p = q ++ q2 ++ w2.buf := by rw [List.append_assoc]; exact (List.append_cancel_left a2).symm
      refine ⟨q ++ q2, w2.buf ++ rest, ?_, ?_, ?_, ?_⟩
      · rw [Doc.write, a1, hp, List.append_assoc]
      · rw [g1, a5, List.append_assoc]
      · intro hr
        obtain rfl := a3.1 hr
        rw [List.append_nil]
        constructor
        · have := congrArg List.length g2
          rw [List.length_append] at this
          rw [bufferCapacity] at a4
          omega
        · intro hm
          rcases e2 with _ | error
          · exact absurd (f2.1 rfl) hm
          · exact ⟨error, f3 error rfl⟩
      · intro error he
        refine ⟨?_, a6 error he⟩
        intro hm
        rw [List.append_eq_nil_iff] at hm
        rw [a3.2 hm.2] at he
        cases he

theorem bufferedWriteCalls_small {k : Sink S ε} {fuel : Nat} : ∀ (calls : List (List Byte)) (w : Buffered S),
    w.buf.length + calls.flatten.length < bufferCapacity →
    Buffered.writeCalls k fuel w calls = some (⟨w.inner, w.buf ++ calls.flatten⟩, none)
  | [], w, _ => by simp [Buffered.writeCalls]
  | b :: bs, w, h => by
    simp only [List.flatten_cons, List.length_append] at h
    have hw : w.writeAll k fuel b = some (⟨w.inner, w.buf ++ b⟩, none) := by
      unfold Buffered.writeAll
      rw [if_neg (by omega)]
      simp only
      rw [if_neg (by omega)]
    simp only [Buffered.writeCalls, hw]
    rw [bufferedWriteCalls_small bs _ (by simp only [List.length_append]; omega)]
    simp

/-- **C75** fails for files: writing any document of fewer than 8192 bytes to a file on which every write fails (a full disk) returns
success, and the file is empty. -/
theorem C75_file_violated (F : Floats R) (d : Doc R) (hd : (d.write F).length < 8192) (k : Sink S ε) (error : ε)
    (hk : ∀ s b, k.write s b = (s, .failed error)) (s : S) (fuel : Nat) :
    d.writeToPdfFile F k (fuel + 1) s = some (s, none) := by
  have hlen : ((Buffered.mk s []).buf).length + (d.calls F).flatten.length < bufferCapacity := by
    rw [Doc.calls, PdfFile.calls_flatten]
    simpa [bufferCapacity, Doc.write] using hd
  unfold Doc.writeToPdfFile
  rw [bufferedWriteCalls_small _ _ hlen]
  simp only [List.nil_append, Buffered.flushBuf]
  cases hb : (d.calls F).flatten with
  | nil => simp [Sink.writeLoop]
  | cons c cs => simp [Sink.writeLoop, hk]

theorem flushBuf_returns {k : Sink S ε} (hk : ∀ s b, b ≠ [] → ∃ s' n, k.write s b = (s', .wrote (n + 1))) {fuel : Nat} (w : Buffered S)
    (h : w.buf.length < fuel) : ∃ s', w.flushBuf k fuel = some (⟨s', []⟩, none) := by
  obtain ⟨s', hl⟩ := writeLoop_returns hk fuel w.inner w.buf h
  exact ⟨s', by simp [Buffered.flushBuf, hl]⟩

theorem bufferedWriteCalls_returns {k : Sink S ε} (hh : k.Honest) (hk : ∀ s b, b ≠ [] → ∃ s' n, k.write s b = (s', .wrote (n + 1)))
    {fuel : Nat} (hf : bufferCapacity < fuel) : ∀ (calls : List (List Byte)) (w : Buffered S), w.buf.length ≤ bufferCapacity →
    (∀ b ∈ calls, b.length < fuel) → ∃ w', Buffered.writeCalls k fuel w calls = some (w', none)
  | [], w, _, _ => ⟨w, rfl⟩
  | b :: bs, w, hw, hb => by
    have h1 : ∃ w1, w.writeAll k fuel b = some (w1, none) := by
      have go : ∀ w1 : Buffered S, ∃ w2 : Buffered S, (if b.length ≥ bufferCapacity then
          match k.writeLoop fuel w1.inner b with
          | none => none
          | some (s, _, e) => some (⟨s, w1.buf⟩, e)
        else some (⟨w1.inner, w1.buf ++ b⟩, none)) = (some (w2, none) : Option (Buffered S × Option (IoError ε))) := by
        intro w1
        split
        · obtain ⟨s', hl⟩ := writeLoop_returns hk fuel w1.inner b (hb b (by simp))
          exact ⟨_, by rw [hl]⟩
        · exact ⟨_, rfl⟩
      unfold Buffered.writeAll
      by_cases hc : w.buf.length + b.length > bufferCapacity
      · obtain ⟨s', hfl⟩ := flushBuf_returns hk w (Nat.lt_of_le_of_lt hw hf)
        simp only [hc, if_true, hfl]
        exact go ⟨s', []⟩
      · simp only [hc, if_false]
        exact go w
    obtain ⟨w1, h1⟩ := h1
    obtain ⟨_, h2, _⟩ := bufferedWriteAll_spec hh hw h1
    simp only [Buffered.writeCalls, h1]
    exact bufferedWriteCalls_returns hh hk hf bs w1 h2 fun c hc => hb c (by simp [hc])

/-- **C75**: a file that takes at least a byte at each call gets the whole document. -/
theorem C75_file_returns (F : Floats R) (d : Doc R) (k : Sink S ε) (hk : k.Honest)
    (hp : ∀ s b, b ≠ [] → ∃ s' n, k.write s b = (s', .wrote (n + 1))) (s : S) :
    ∃ N, ∀ fuel ≥ N, ∃ s', d.writeToPdfFile F k fuel s = some (s', none) ∧ k.received s' = k.received s ++ d.write F := by
  obtain ⟨N, hN⟩ := callsBound (d.calls F)
  refine ⟨N + (bufferCapacity + 1), fun fuel hf => ?_⟩
  obtain ⟨w, hw⟩ := bufferedWriteCalls_returns hk hp (fuel := fuel) (by omega) (d.calls F) ⟨s, []⟩ (by simp)
    (fun b hb => by have := hN b hb; omega)
  obtain ⟨_, hb, _⟩ := bufferedWriteCalls_spec hk fuel _ _ _ _ (by simp) hw
  obtain ⟨s', hs⟩ := flushBuf_returns hp (fuel := fuel) w (by omega)
  have h : d.writeToPdfFile F k fuel s = some (s', none) := by simp [Doc.writeToPdfFile, hw, hs]
  refine ⟨s', h, ?_⟩
  obtain ⟨part, missing, h1, h2, h3, _⟩ := C75_file_partial F d k hk fuel s s' none h
  have : missing = [] := by
    by_contra hm
    -- no call failed
    rcases hc : w.flushBuf k fuel with _ | ⟨w2, e2⟩
    · rw [hs] at hc; cases hc
    obtain ⟨error, he⟩ := (h3 rfl).2 hm
    rcases error with _ | e
    · obtain ⟨s1, b1, hb1, hw1⟩ := he
      obtain ⟨s2, n, hn⟩ := hp s1 b1 hb1
      rw [hn] at hw1
      cases hw1
    · obtain ⟨s1, b1, hb1, hw1⟩ := he
      obtain ⟨s2, n, hn⟩ := hp s1 b1 hb1
      rw [hn] at hw1
      cases hw1
  rw [h2, h1, this, List.append_nil]

end

/-! ### Examples -/

/-- A pipe that takes at most three bytes at a time, is interrupted every other time, and is closed after `limit` bytes. -/
def pipe (limit : Nat) : Sink (List Byte × Bool) String where
  write s b :=
    if s.2 then ((s.1, false), .interrupted)
    else if limit ≤ s.1.length then (s, .failed "broken pipe")
    else ((s.1 ++ b.take 3, true), .wrote (min 3 b.length))
  received s := s.1

theorem pipe_honest (limit : Nat) : (pipe limit).Honest where
  wrote s b s' n h := by
    simp only [pipe] at h ⊢
    split at h
    · cases h
    · split at h
      · cases h
      · simp only [Prod.mk.injEq, WriteResult.wrote.injEq] at h
        obtain ⟨rfl, rfl⟩ := h
        refine ⟨Nat.min_le_right _ _, ?_⟩
        rcases Nat.le_total 3 b.length with h3 | h3
        · rw [Nat.min_eq_left h3]
        · rw [Nat.min_eq_right h3, List.take_of_length_le h3, List.take_length]
  interrupted s b s' h := by
    simp only [pipe] at h ⊢
    split at h
    · simp only [Prod.mk.injEq] at h
      rw [← h.1]
    · split at h <;> cases h
  failed s b s' e h := by
    simp only [pipe] at h ⊢
    split at h
    · cases h
    · split at h
      · simp only [Prod.mk.injEq] at h
        rw [← h.1]
      · cases h

/-- The pipe takes the whole document if it isn't closed, and otherwise a part of it, with an error. -/
example : ∃ s, (runDoc wholeFloats sampleFont [⟨100, 200, []⟩]).writeToPdf wholeFloats (pipe 1000) 200 ([], false) = some (s, none) ∧
    s.1 = (runDoc wholeFloats sampleFont [⟨100, 200, []⟩]).write wholeFloats := by
  have h : ((runDoc wholeFloats sampleFont [⟨100, 200, []⟩]).writeToPdf wholeFloats (pipe 1000) 200 ([], false)).any
      (fun r => r.2.isNone) = true := by decide +kernel
  rcases hw : (runDoc wholeFloats sampleFont [⟨100, 200, []⟩]).writeToPdf wholeFloats (pipe 1000) 200 ([], false) with _ | ⟨s, _ | e⟩
  · rw [hw] at h; cases h
  · exact ⟨s, rfl, (C75_stream _ _ _ (pipe_honest _) _ _ _ _ hw).1 rfl⟩
  · rw [hw] at h; cases h

example : ((runDoc wholeFloats sampleFont [⟨100, 200, []⟩]).writeToPdf wholeFloats (pipe 100) 200 ([], false)).any
    (fun r => r.1.1.length = 101 && r.2.isSome) = true := by decide +kernel

/-- A file on a full disk. -/
def fullDisk : Sink (List Byte) String where
  write s _ := (s, .failed "no space left on device")
  received s := s

example : ((runDoc wholeFloats sampleFont samplePages).write wholeFloats).length < 8192 ∧
    (∀ s b, fullDisk.write s b = (s, .failed "no space left on device")) ∧ fullDisk.Honest ∧
    (runDoc wholeFloats sampleFont samplePages).writeToPdfFile wholeFloats fullDisk 5 [] = some ([], none) := by
  have hl : ((runDoc wholeFloats sampleFont samplePages).write wholeFloats).length < 8192 := by decide +kernel
  refine ⟨hl, fun _ _ => rfl, ⟨?_, ?_, ?_⟩, C75_file_violated _ _ hl _ "no space left on device" (fun _ _ => rfl) _ _⟩
  · intro s b s' n h; cases h
  · intro s b s' h; cases h
  · intro s b s' e h; cases h; rfl

/-- A disk that takes everything. -/
def disk : Sink (List Byte) String where
  write s b := (s ++ b, .wrote b.length)
  received s := s

example : disk.Honest ∧ ∀ s b, b ≠ [] → ∃ s' n, disk.write s b = (s', .wrote (n + 1)) := by
  refine ⟨⟨?_, ?_, ?_⟩, ?_⟩
  · intro s b s' n h
    simp only [disk, Prod.mk.injEq, WriteResult.wrote.injEq] at h
    obtain ⟨rfl, rfl⟩ := h
    simp [disk]
  · intro s b s' h; cases h
  · intro s b s' e h; cases h
  · intro s b hb
    cases b with
    | nil => exact absurd rfl hb
    | cons c cs => exact ⟨s ++ c :: cs, cs.length, rfl⟩

end Verif.Pdf
