import Verif.Dom.XmlLemmas
/- Property theorems about `parse_xml` (C06, and the XML side of C07). -/
namespace Verif.Dom

/-- C06: the events of any content, surrounded by document start and end, are parsed without panic or error
into a consistent document whose document node has exactly the denoted trees as children. -/
theorem C06_parse_xml {ε : Type} (x : XmlContent) :
    ∃ d F, Document.parseXml (ε := ε) (.ok .other :: x.events.map .ok ++ [.ok .other]) = some (.ok d) ∧
      Represents d F ∧ F.Acyclic ∧ DocumentNodeIsRoot d ∧ HasTrees d F (F documentNodeId) x.trees := by
  obtain ⟨d, F, h1, h2⟩ := Good.new.xmlLoop (ε := ε) x (p := documentNodeId) (by decide) .nil trivial []
    [.ok .other]
  refine ⟨d, F, ?_, h2.good.rep, h2.good.acyclic, (docRoot_iff h2.good.rep).2 h2.good.root, ?_⟩
  · exact h1
  · have := h2.trees
    rw [XmlContent.build_eq] at this
    exact this

/-- C06, errors: when the reader reports an error after any part of a document, `parse_xml` returns that error.
`parts` are the contents already seen inside each open element, outermost first, with the start tags opened. -/
theorem C06_parse_xml_error {ε : Type} (e : ε) (rest : List (Except ε XmlEvent)) :
    ∀ (parts : List (XmlContent × XmlName × List (XmlName × String))) (last : XmlContent),
    Document.parseXml
      ((parts.flatMap fun q => q.1.events ++ [.startElement q.2.1 q.2.2]).map .ok ++ last.events.map .ok ++
        .error e :: rest) = some (.error e) := by
  have key : ∀ (parts : List (XmlContent × XmlName × List (XmlName × String))) (last : XmlContent)
      (d : Document) (F : Forest) (_ : Good d F) (p : Nat) (_ : p < d.nodes.length) (t : Trees)
      (_ : HasTrees d F (F p) t) (anc : List Nat),
      Document.xmlLoop
        ((parts.flatMap fun q => q.1.events ++ [.startElement q.2.1 q.2.2]).map .ok ++ last.events.map .ok ++
          .error e :: rest) d p anc = some (.error e) := by
    intro parts
    induction parts with
    | nil =>
      intro last d F h p hp t ht anc
      obtain ⟨d', F', h1, _⟩ := h.xmlLoop last hp t ht anc (.error e :: rest)
      simp only [List.flatMap_nil, List.map_nil, List.nil_append]
      rw [h1]; rfl
    | cons q parts ih =>
      intro last d F h p hp t ht anc
      obtain ⟨c, n, a⟩ := q
      obtain ⟨d1, F1, h1, g1⟩ := h.xmlLoop c hp t ht anc (.ok (.startElement n a) ::
        ((parts.flatMap fun q => q.1.events ++ [.startElement q.2.1 q.2.2]).map .ok ++ last.events.map .ok ++
          .error e :: rest))
      obtain ⟨d2, e2, l2, _, g2, _, _, f2⟩ := g1.good.appendFresh (Nat.lt_of_lt_of_le hp g1.len)
        (.element (xmlElement n a))
      have e2' : (d1.newNode (.element (xmlElement n a))).1.append p (d1.newNode (.element (xmlElement n a))).2 =
        some d2 := e2
      have hp1 : p < d1.nodes.length := Nat.lt_of_lt_of_le hp g1.len
      have hleaf : F1.append p d1.nodes.length d1.nodes.length = [] := by
        rw [f2 _ (by omega)]; exact g1.good.rep.outside _ (Nat.le_refl _)
      have := ih last d2 _ g2 d1.nodes.length (by omega) .nil (by rw [hleaf]; trivial) (p :: anc)
      simp only [List.flatMap_cons, List.map_append, List.map_cons, List.append_assoc,
        List.cons_append, List.nil_append] at h1 this ⊢
      rw [h1]
      simp only [Document.xmlLoop, e2', Option.bind_eq_bind, Option.bind_some]
      exact this
  intro parts last
  exact key parts last _ _ Good.new documentNodeId (by decide) .nil trivial []

/-- Non-vacuity of C06: `<a>x<!-- --><![CDATA[y]]><b/></a><?p?>` has one text child "xy" in `a`. -/
example : (XmlContent.element ⟨none, none, "a"⟩ []
      (.text "x" (.comment (.text "y" (.element ⟨none, none, "b"⟩ [] .nil .nil)))) (.pi "p" none .nil)).trees =
    .element ⟨⟨none, "", "a"⟩, [], false⟩
      (.text "xy" (.element ⟨⟨none, "", "b"⟩, [], false⟩ .nil .nil)) (.pi "p" "" .nil) := rfl

/-- C07 is violated for XML: whatever the content, no style sheet is ever registered. -/
theorem C07_xml_violated {ε : Type} (x : XmlContent) :
    ∃ d, Document.parseXml (ε := ε) (.ok .other :: x.events.map .ok ++ [.ok .other]) = some (.ok d) ∧
      ∀ fuel, d.stylesheetTexts fuel d.styleElements = some [] := by
  obtain ⟨d, F, h1, h2⟩ := Good.new.xmlLoop (ε := ε) x (p := documentNodeId) (by decide) .nil trivial []
    [.ok .other]
  refine ⟨d, h1, fun fuel => ?_⟩
  rw [h2.styles]; rfl

/-- The witness: an XHTML document with one enabled style element. -/
theorem C07_xml_violated_witness :
    ∃ (d : Document) (F : Forest), Document.parseXml (ε := Unit)
      (.ok .other :: (XmlContent.element ⟨none, some htmlNs, "style"⟩ [] (.text "p{}" .nil) .nil).events.map .ok ++
        [.ok .other]) = some (.ok d) ∧ Represents d F ∧
      d.idsWith (fun x => x.isStyle && x.styleEnabled) = [2] ∧ textContent (d.dataOf (F 2)) = "p{}" ∧
      d.stylesheetTexts 9 d.styleElements = some [] := by
  obtain ⟨d, F, h1, h2, _, _, h3⟩ := C06_parse_xml (ε := Unit)
    (XmlContent.element ⟨none, some htmlNs, "style"⟩ [] (.text "p{}" .nil) .nil)
  refine ⟨d, F, h1, h2, ?_⟩
  have hd : some (Except.ok d) = Document.parseXml (ε := Unit)
      (.ok .other :: (XmlContent.element ⟨none, some htmlNs, "style"⟩ [] (.text "p{}" .nil) .nil).events.map .ok ++
        [.ok .other]) := h1.symm
  have hc : d.childTextContent 9 2 = some "p{}" := by cases hd; decide
  have hlen : d.nodes.length = 4 := by cases hd; rfl
  refine ⟨by cases hd; decide, ?_, by cases hd; rfl⟩
  have := h2.childTextContent (i := 2) (fuel := 9) (by omega) (by omega)
  rw [hc] at this
  exact (Option.some.inj this).symm

end Verif.Dom
