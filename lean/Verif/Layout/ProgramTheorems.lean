/- C112: the program writes the PDF file of its input, or says that it did not. -/
import Verif.Layout.Program
import Verif.Layout.FitTheorems
namespace Verif.Layout
open Verif.Style Verif.Style.Spec Verif.Text Verif.Pdf Verif.Dom

section
variable {Path Io : Type} [DecidableEq Path]

/-- What the system is trusted with: what is read from a file is what is in it. -/
def System.Honest (S : System Path Io) (files : Files Path) : Prop := ∀ path bytes, S.read path = .ok bytes → files path = some bytes

/-- The PDF file of what is in a file. -/
def PdfOf (parse : List Byte → List SinkOp) (pdf : Document → Option (List Byte)) (files : Files Path) (input : Path)
    (bytes : List Byte) : Prop :=
  ∃ html doc, files input = some html ∧ Document.new.runOps (parse html) = some doc ∧ pdf doc = some bytes

/-- The last of the states, or what was there before. -/
def finally_ (files : Files Path) (states : List (Files Path)) : Files Path := states.getLast?.getD files

theorem Files.put_put (files : Files Path) (path : Path) (a b : List Byte) : (files.put path a).put path b = files.put path b := by
  funext p
  simp only [Files.put]
  split <;> rfl

theorem finally_cons (files f : Files Path) (states : List (Files Path)) : finally_ files (f :: states) = finally_ f states := by
  simp only [finally_]
  cases states with
  | nil => rfl
  | cons g states => simp [List.getLast?_cons_cons]; rw [List.getLast?_eq_getLast_of_ne_nil (by simp)]; simp

theorem writeAll_states (path : Path) (files : Files Path) : ∀ (answers : List (WriteAnswer Io)) (done rest : List Byte),
    (∀ f ∈ (writeAll path files answers done rest).1, ∃ part, part <+: rest ∧ f = files.put path (done ++ part)) ∧
    ((writeAll path files answers done rest).2 = .success →
      finally_ (files.put path done) (writeAll path files answers done rest).1 = files.put path (done ++ rest))
  | [], done, [] => by simp [writeAll, finally_]
  | .took _ :: _, done, [] => by simp [writeAll, finally_]
  | .interrupted :: _, done, [] => by simp [writeAll, finally_]
  | .error _ :: _, done, [] => by simp [writeAll, finally_]
  | [], done, _ :: _ => by simp [writeAll]
  | .interrupted :: answers, done, b :: rest => by
    simp only [writeAll]
    exact writeAll_states path files answers done (b :: rest)
  | .error e :: _, done, _ :: _ => by simp [writeAll]
  | .took n :: answers, done, b :: rest => by
    simp only [writeAll]
    split
    · simp
    split
    · obtain ⟨h1, h2⟩ := writeAll_states path files answers (done ++ (b :: rest).take n) ((b :: rest).drop n)
      constructor
      · intro f hf
        rcases List.mem_cons.1 hf with rfl | hf
        · exact ⟨_, List.take_prefix _ _, rfl⟩
        · obtain ⟨part, hp, rfl⟩ := h1 f hf
          refine ⟨(b :: rest).take n ++ part, ?_, by rw [List.append_assoc]⟩
          conv => rhs; rw [← List.take_append_drop n (b :: rest)]
          exact (List.prefix_append_right_inj _).2 hp
      · intro h
        rw [finally_cons, h2 h, List.append_assoc, List.take_append_drop]
    · simp

variable (S : System Path Io) (parse : List Byte → List SinkOp) (pdf : Document → Option (List Byte))

theorem program_cases (args : List Path) (files : Files Path) (hS : S.Honest files) :
    (∃ self input output more bytes, args = self :: input :: output :: more ∧ PdfOf parse pdf files input bytes ∧
      program S parse pdf args files = writeFile S output bytes files) ∨
    ((program S parse pdf args files).1 = [] ∧ (program S parse pdf args files).2 ≠ .success) := by
  unfold program
  split
  · split
    · exact .inr ⟨rfl, by simp⟩
    rename_i html hread
    split
    · exact .inr ⟨rfl, by simp⟩
    rename_i doc hdoc
    split
    · exact .inr ⟨rfl, by simp⟩
    rename_i bytes hb
    exact .inl ⟨_, _, _, _, bytes, rfl, ⟨html, doc, hS _ _ hread, hdoc, hb⟩, rfl⟩
  · exact .inr ⟨rfl, by simp⟩

theorem writeFile_states (output : Path) (bytes : List Byte) (files : Files Path) :
    (∀ f ∈ (writeFile S output bytes files).1, ∃ part, part <+: bytes ∧ f = files.put output part) ∧
    ((writeFile S output bytes files).2 = .success → finally_ files (writeFile S output bytes files).1 = files.put output bytes) := by
  unfold writeFile
  split
  · simp
  obtain ⟨h1, h2⟩ := writeAll_states (Io := Io) output (files.put output []) S.answers [] bytes
  constructor
  · intro f hf
    rcases List.mem_cons.1 hf with rfl | hf
    · exact ⟨[], List.nil_prefix, rfl⟩
    · obtain ⟨part, hp, rfl⟩ := h1 f hf
      exact ⟨part, hp, by rw [List.nil_append, Files.put_put]⟩
  · intro h
    have := h2 h
    rw [Files.put_put, Files.put_put, List.nil_append] at this
    rw [finally_cons, this]

/-- **C112**: if the program says that it succeeded, then the file that is its second argument is the PDF file of what was in the file
that is its first, also if both are the same file, and no other file has changed. -/
theorem C112_success (args : List Path) (files : Files Path) (hS : S.Honest files)
    (h : (program S parse pdf args files).2 = .success) :
    ∃ self input output more bytes, args = self :: input :: output :: more ∧ PdfOf parse pdf files input bytes ∧
      ∀ path, finally_ files (program S parse pdf args files).1 path = if path = output then some bytes else files path := by
  rcases program_cases S parse pdf args files hS with ⟨self, input, output, more, bytes, h1, h2, h3⟩ | ⟨-, h1⟩
  · refine ⟨self, input, output, more, bytes, h1, h2, fun path => ?_⟩
    rw [h3] at h ⊢
    rw [(writeFile_states S output bytes files).2 h]
    rfl
  · exact absurd h h1

/-- **C112**: whatever happens, and wherever the program is stopped, no file has changed but the one that is its second argument, and what
is in that is as before, or the PDF file or the beginning of it. It is as before if no PDF file can be made. -/
theorem C112_stopped (args : List Path) (files : Files Path) (hS : S.Honest files) (state : Files Path)
    (hs : state ∈ files :: (program S parse pdf args files).1) :
    (∀ path, (∀ self input more, args ≠ self :: input :: path :: more) → state path = files path) ∧
    ∀ self input output more, args = self :: input :: output :: more →
      state output = files output ∨ ∃ bytes part, PdfOf parse pdf files input bytes ∧ part <+: bytes ∧ state output = some part := by
  rcases List.mem_cons.1 hs with rfl | hs
  · exact ⟨fun _ _ => rfl, fun _ _ _ _ _ => .inl rfl⟩
  rcases program_cases S parse pdf args files hS with ⟨self, input, output, more, bytes, h1, h2, h3⟩ | ⟨h1, -⟩
  · rw [h3] at hs
    obtain ⟨part, hp, rfl⟩ := (writeFile_states S output bytes files).1 _ hs
    constructor
    · intro path hpath
      have : path ≠ output := fun e => hpath self input more (e ▸ h1)
      simp [Files.put, this]
    · intro self' input' output' more' h1'
      rw [h1] at h1'
      cases h1'
      exact .inr ⟨bytes, part, h2, hp, by simp [Files.put]⟩
  · rw [h1] at hs
    cases hs

/-- The system takes all of `n` bytes, in any number of pieces and with any number of interruptions. -/
inductive TakesAll : Nat → List (WriteAnswer Io) → Prop
  | done (more : List (WriteAnswer Io)) : TakesAll 0 more
  | took {n k : Nat} {answers : List (WriteAnswer Io)} (hk : k ≠ 0) (h : TakesAll n answers) : TakesAll (k + n) (.took k :: answers)
  | interrupted {n : Nat} {answers : List (WriteAnswer Io)} (h : TakesAll n answers) : TakesAll n (.interrupted :: answers)

theorem writeAll_success (path : Path) (files : Files Path) {n : Nat} {answers : List (WriteAnswer Io)} (h : TakesAll n answers) :
    ∀ done rest : List Byte, rest.length = n → (writeAll path files answers done rest).2 = .success := by
  induction h with
  | done more =>
    intro done rest hr
    rw [List.length_eq_zero_iff] at hr
    subst hr
    rcases more with _ | ⟨_ | _ | _, _⟩ <;> rfl
  | @took n k answers hk h ih =>
    intro done rest hr
    rcases rest with _ | ⟨b, rest⟩
    · simp at hr; omega
    · simp only [writeAll, if_neg hk]
      rw [if_pos (by omega)]
      exact ih _ _ (by rw [List.length_drop]; omega)
  | interrupted h ih =>
    intro done rest hr
    rcases rest with _ | ⟨b, rest⟩
    · rfl
    · simp only [writeAll]
      exact ih _ _ hr

/-- **C112**: if the input can be read, a PDF file can be made of it, and the system creates the file and takes all of it, then the program
succeeds. -/
theorem C112_succeeds (self input output : Path) (more : List Path) (files : Files Path) (html bytes : List Byte) (doc : Document)
    (hr : S.read input = .ok html) (hd : Document.new.runOps (parse html) = some doc) (hp : pdf doc = some bytes)
    (hc : S.create output = .ok ()) (ht : TakesAll bytes.length S.answers) :
    (program S parse pdf (self :: input :: output :: more) files).2 = .success := by
  simp only [program, hr, hd, hp, writeFile, hc]
  exact writeAll_success output _ ht [] bytes rfl

end

theorem constructDocument_denotes {σ : Type} {E : Engine σ} {d : Document} {F : Forest} (hr : Represents d F) (ha : F.Acyclic)
    {fuel : Nat} {root : BlockFormattingContext} (hc : constructDocument E d fuel = some root) :
    ∃ set r style, parseStylesheets E d = some set ∧ d.rootElement d.nodes.length = some r ∧ nodeStyle E set d r none = some style ∧
      (displayOf style ≠ .none → ∃ tree hidden, Denotes E d F style tree hidden) := by
  unfold constructDocument at hc
  rcases hset : parseStylesheets E d with _ | set
  · simp [hset] at hc
  simp only [hset] at hc
  rcases hroot : d.rootElement d.nodes.length with _ | r
  · simp [hroot] at hc
  simp only [hroot] at hc
  rcases hs : nodeStyle E set d r none with _ | style
  · simp [hs] at hc
  simp only [hs] at hc
  refine ⟨set, r, style, rfl, rfl, hs, fun h5 => ?_⟩
  obtain ⟨node, hnode⟩ := nodeStyle_get hs
  simp only [if_neg h5, get_eq, hnode, (hr.ends r node hnode).1] at hc
  rcases h7 : styledNodes (fun child parent => nodeStyle E set d child (some parent)) d fuel style (F r).head? with _ | tree
  · simp [h7] at hc
  obtain ⟨hidden, t1, t2⟩ := styledNodes_sound hr fuel style r [] (F r) tree rfl h7
  exact ⟨tree, hidden, hr, ha, set, r, hset, hroot, hs, h5, t1⟩

section
variable {Path Io : Type} [DecidableEq Path] {R Err Er σ : Type} (P : Painter R Er) (E : Engine σ) (font : FontApi Rat Err)

/-- **C112**, from the HTML file to the PDF file: if the program says that it succeeded, then the input was read and parsed into a tree
with a root element. Unless this is not displayed, or an element floats, a reader finds one page in the file that was written, and on it all
the characters of the tree that are displayed, once each but for white space; in document order if no element is absolutely positioned. -/
theorem C112_text_partial {readReal : List Byte → Option R} (hd : RealText P.floats.dtoa readReal) (hl : FloatLaws P.floats)
    (hv : P.fontView.Valid) (hg : ∀ c g, font.glyphId c = .ok g → g < 65536) (S : System Path Io) (parse : List Byte → List SinkOp)
    (hparse : ∀ html, LegalHistory Document.new (parse html)) (fuel : Nat) (schedule : Oracle) (args : List Path) (files : Files Path)
    (hS : S.Honest files)
    (h : (program S parse (fun d => toPdfBytes P E font d fuel schedule) args files).2 = .success) :
    ∃ self input output more html bytes doc F rootStyle, args = self :: input :: output :: more ∧ files input = some html ∧
      finally_ files (program S parse (fun d => toPdfBytes P E font d fuel schedule) args files).1 output = some bytes ∧
      Document.new.runOps (parse html) = some doc ∧ Represents doc F ∧ F.Acyclic ∧ DocumentNodeIsRoot doc ∧
      (∃ set r, parseStylesheets E doc = some set ∧ doc.rootElement doc.nodes.length = some r ∧
        nodeStyle E set doc r none = some rootStyle) ∧
      (displayOf rootStyle ≠ .none → bytes.length ≤ 2 ^ 32 → ∃ tree hidden, Denotes E doc F rootStyle tree hidden ∧
        (floatOf rootStyle = .none ∧ nodesAll (fun s _ => floatOf s = .none) tree →
          ∃ m file page painted text glyphs, (∀ fuel, m ≤ fuel → readDocument readReal fuel bytes = some file) ∧ file.pages = [page] ∧
            (∃ m, ∀ fuel, m ≤ fuel →
              paintContents readReal P.floats.zero P.floats.one (gsAlpha file.extGState) fuel page.contents = some painted) ∧
            painted.flatMap shownGlyphs = glyphs.map Prod.snd ∧ Shown font text glyphs ∧
            (inked (text.map Prod.snd)).Perm (inked (visibleTexts tree)) ∧
            (positionOf rootStyle ≠ .absolute ∧ nodesAll (fun s _ => positionOf s ≠ .absolute) tree →
              inked (text.map Prod.snd) = inked (visibleTexts tree)))) := by
  obtain ⟨self, input, output, more, bytes, h1, ⟨html, doc, h2, h3, h4⟩, h5⟩ := C112_success S parse _ args files hS h
  obtain ⟨doc', h3', ⟨F, hr, ha⟩, hn⟩ := C01_history_wellformed (parse html) (hparse html)
  cases h3.symm.trans h3'
  have hc : ∃ root, constructDocument E doc fuel = some root := by
    have h4 : toPdfBytes P E font doc fuel schedule = some bytes := h4
    unfold toPdfBytes layoutDocument at h4
    rcases hc : constructDocument E doc fuel with _ | root
    · simp [hc] at h4
    · exact ⟨root, rfl⟩
  obtain ⟨root, hc⟩ := hc
  obtain ⟨set, r, rootStyle, e1, e2, e3, e4⟩ := constructDocument_denotes hr ha hc
  refine ⟨self, input, output, more, html, bytes, doc, F, rootStyle, h1, h2, by rw [h5, if_pos rfl], h3, hr, ha, hn, ⟨set, r, e1, e2, e3⟩, ?_⟩
  intro hdisp hs
  obtain ⟨tree, hidden, hden⟩ := e4 hdisp
  exact ⟨tree, hidden, hden, fun hf => C65_text_partial P E font doc hd hl hv hg F rootStyle tree hidden hden hf h4 hs⟩

end

/-! ### Example -/

/-- Elements without children, and texts, are appended, or something is created. -/
def opCheck (d : Document) : SinkOp → Bool
  | .createElement _ => true
  | .append p (.node n) => decide (n < d.nodes.length ∧ p < d.nodes.length ∧ n ≠ documentNodeId ∧ n ≠ p) &&
      (d.nodes[n]?).any fun x => x.firstChild.isNone
  | .append p (.text _) => decide (p < d.nodes.length)
  | _ => false

/-- All operations are like this. -/
def historyCheck : Document → List SinkOp → Bool
  | _, [] => true
  | d, op :: ops => opCheck d op && ((d.applyOp op).all fun d' => historyCheck d' ops)

theorem legalHistory_of_check : ∀ (d : Document) (ops : List SinkOp), historyCheck d ops = true → LegalHistory d ops
  | _, [], _ => trivial
  | d, op :: ops, h => by
    simp only [historyCheck, Bool.and_eq_true] at h
    refine ⟨fun F hF => ?_, fun d' hd' => legalHistory_of_check d' ops ?_⟩
    · have h := h.1
      unfold opCheck at h
      split at h
      · trivial
      · simp only [Bool.and_eq_true, decide_eq_true_eq] at h
        obtain ⟨⟨h1, h2, h3, h4⟩, h5⟩ := h
        refine ⟨h1, h2, h3, h4, Forest.not_ancestor_of_leaf ?_⟩
        rename_i n
        rcases hn : d.nodes[n]? with _ | x
        · rw [List.getElem?_eq_none_iff] at hn; omega
        · simp only [hn, Option.any_some, Option.isNone_iff_eq_none] at h5
          rw [(hF.ends n x hn).1] at h5
          simpa using h5
      · exact (of_decide_eq_true h :)
      · cases h
    · have := h.2
      rw [hd'] at this
      simpa using this

/-- An element of HTML. -/
def programElement (name : String) : ElementData := ⟨⟨none, htmlNs, name⟩, [], false⟩

/-- The calls that make `<html><head></head><div><p>a</p>b</div></html>`. -/
def programOps : List SinkOp :=
  [.createElement (programElement "html"), .append 1 (.node 2), .createElement (programElement "head"), .append 2 (.node 3),
   .createElement (programElement "div"), .append 2 (.node 4), .createElement (programElement "p"), .append 4 (.node 5),
   .append 5 (.text "a"), .append 4 (.text "b")]

/-- A system with one file, `0`, that takes `n` bytes one by one after an interruption. -/
def programSystem (n : Nat) : System Nat Unit where
  read path := if path = 0 then .ok [] else .error ()
  create _ := .ok ()
  answers := .interrupted :: List.replicate n (.took 1)

/-- The calls are those that html5ever may make, and the program succeeds and writes the file of `exampleDocument2`, for which see C65. -/
example : (∀ html : List Byte, LegalHistory Document.new ((fun _ => programOps) html)) ∧
    Document.new.runOps programOps = some exampleDocument2 ∧
    ∃ bytes, toPdfBytes examplePainter exampleEngine basicFont exampleDocument2 9 inOrder = some bytes ∧ bytes.length ≤ 2 ^ 32 ∧
      (programSystem bytes.length).Honest (fun path => if path = 0 then some [] else none) ∧
      (program (programSystem bytes.length) (fun _ => programOps) (fun d => toPdfBytes examplePainter exampleEngine basicFont d 9 inOrder)
        [7, 0, 1] (fun path => if path = 0 then some [] else none)).2 = .success := by
  have hops : Document.new.runOps programOps = some exampleDocument2 := by rfl
  obtain ⟨bytes, hb, hs⟩ := exampleDocument2_pdf
  refine ⟨fun _ => legalHistory_of_check _ programOps (by decide +kernel), hops, bytes, hb, hs, ?_, ?_⟩
  · intro path html h
    simp only [programSystem] at h
    split at h
    · cases h
      rename_i hp
      simp [hp]
    · cases h
  · refine C112_succeeds _ _ _ 7 0 1 [] _ [] bytes exampleDocument2 rfl hops hb rfl (.interrupted ?_)
    generalize bytes.length = n
    induction n with
    | zero => exact .done _
    | succ n ih =>
      rw [Nat.add_comm, Nat.add_comm, List.replicate_succ, Nat.add_comm]
      exact .took (by simp) ih

end Verif.Layout
