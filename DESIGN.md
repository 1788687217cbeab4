# Formal model of SimonSapin/victor in Lean 4

## 1. Approach

The Rust sources in `/repo` are modelled function by function as total, computable Lean functions.
Each definition cites the file and lines it models. Conventions:

* `&mut self` methods become functions returning the new state.
* A Rust panic (assert, unwrap, index out of range, arithmetic overflow in a checked build) becomes an
  explicit failure value (`none` or an error constructor), never a default value.
* Loops become structural recursion, or recursion on fuel together with a theorem that the fuel given is enough.
  A loop that does not end is shown by a theorem that no amount of fuel is enough.
* External crates (html5ever, xml-rs, cssparser, selectors, xi-unicode, rayon, dtoa, itoa, poppler, cairo) are
  parameters, or are represented by the sequence of calls they make. What is assumed of them is listed in section 3.
* `f32`/`f64` arithmetic is modelled by exact rationals (`Rat`) where arithmetic matters, and by an arbitrary type
  with decidable equality where only equality matters. Rounding, NaN and infinities are not modelled, except in the
  models for C114 and C115, in which the operations are any functions, and for C116 to C128, in which they are those of IEEE 754.

For each area there is a model file (`Verif/<Area>/Model.lean` or similar), a small specification file that a
reader can check against the English property, helper lemmas, and a `Theorems` file with the property theorems, each
followed by an `example` or a witness showing that its hypotheses are met by a non-trivial case.

When the code violates a property, the model keeps the code's behaviour; the negation is proved on a concrete
witness (theorem names contain `_violated`), and the part that does hold is proved as `..._partial`.

## 2. Plan for each property

| id | what is modelled | how it is proved |
|----|------------------|------------------|
| C01 | arena of nodes with five links; `push_node`, `detach`, `append`, `insert_before`, sink calls | refinement: a predicate `Rep` relates links to an abstract forest (children lists + parent map); every operation preserves it; lifted to all operation lists |
| C02 | same | the abstract effect of each operation is the list operation (erase, append at end, insert before) |
| C03 | `next_in_tree_order`, `nodes`, `html_link_elements` | iteration equals the recursive pre-order of the abstract tree; `Nodup` |
| C04 | `append_common`, sink `append`, `append_before_sibling` | case analysis on the abstract child list |
| C05 | `reparent_children` | violated: witness with two children; general theorem of what the code does (moves only the first child), partial for at most one child |
| C06 | `parse_xml` loop over events | simulation between event stack machine and the recursively built tree |
| C07 | `parse_stylesheets`, `child_text_content`, `create_element` | filter/map specification for HTML; violated for XML with a witness |
| C08 | `add_attrs_if_missing`, `get_attr` | list lemma |
| C09 | `root_element` | iff characterisation over child kinds |
| C10 | `Object::write`, `Dictionary::write`, `write_name`, `write_hex` | an independent PDF reader (tokens, escapes) with `read (write o ++ rest) = some (o, rest)`; violated for names containing `#` + two hex digits; partial excludes `#` in names, CR in literal strings |
| C11 | `PdfFile::write`, `CountingWrite`, `itoa`, `itoa_zero_padded` | offsets proved to be prefix lengths; entry text = 10-digit decimal of it |
| C12 | `add_stream` | drop/take of the written bytes |
| C13 | `PdfFile` + `InProgressDoc` + `InProgressPage` | invariant over API histories |
| C14 | same | refinement to list of pages |
| C15 | page operations with graphics-state cache | an interpreter for the content-stream operators; simulation; `_printed` versions (C13 to C18): two readers of reals that agree on all texts that fit in a file read the same from it, so that numbers which are not in the file can be printed in any way |
| C16 | alpha table | invariant over histories |
| C17 | font table | invariant over histories incl. failures |
| C18 | `show_text` | decode of hex string = glyph ids |
| C19 | ToUnicode writer in `add_font` | independent parser of the bfchar blocks: `parse (write l) = l` |
| C20 | `Position::read_from` and the primitive readers | bounds lemma, value = big-endian spec |
| C21 | `binary_search` | loop invariant; completeness on sorted keys |
| C22 | `SliceIter` | forward proved; backward violated with witness + exact description of what it yields |
| C23 | Format 4 `get`, `each_code_point`, `glyph_id` | agreement theorem for well-formed tables |
| C24 | Format 12 | violated (truncation) + partial for glyph ids < 2^16 |
| C25 | `glyph_width`, `to_ems` | case split |
| C26 | `ShapedSegment` | list lemmas |
| C27 | `layout` of text_plain, `Rewind` | invariant over the segment stream |
| C28 | rule collection, stable sort, four cascade passes | winner = maximum in an explicitly defined order |
| C29 | declaration block with importance bits | filter specification |
| C30 | parse loop with rollback assertion | violated (assert) under the recorded reading of cssparser; partial |
| C31 | early/late cascade | winner-based specification |
| C32 | `ComputedValues::new`, css-wide keywords | case analysis per property, generic over property table |
| C33 | `blockify`, fix-ups | finite case analysis + arithmetic |
| C34 | `FourSides::parse` | violated; partial for symmetric lists |
| C35 | selector helpers | violated for class lists; others by tree lemmas |
| C36 | `CollapsedMargin` | commutative monoid; closed form over lists/permutations |
| C37 | `place_block_level_fragment` fold | invariant of the fold, closed form for positions |
| C38 | sequential and parallel branches | equality for any schedule (tasks pure) |
| C39 | inline margin solving | violated for over-constrained cases; partial |
| C40 | `solve_axis` and its two calls | equation per axis; violated for the block axis |
| C41 | `handle_text` and the builder around it | invariant of the traversal: the flowing text of the ongoing context is a fixed point of collapsing |
| C42 | block container builder and DOM traversal | induction principle of the traversal (one case for each way of handling a node); violated for block in inline and inline-block; exactly the rest is accepted; text in document order |
| C43 | `unset_boxes_in_subtree` on the arena, as a run with fuel | violated: for every tree and data it does not return for a last child; exact condition for returning by induction on the document order of the subtree |
| C44 | `TextRun::layout` | invariant of the loops |
| C45 | geom conversions | case analysis over writing modes |
| C46 | `to_pdf_bytes`, `paint_onto` | the calls on the page are those of a flat list of placed shapes; with C14 to C18 this is what a reader finds in the file |
| C47 | `PagesIter` | refinement to a double-ended list |
| C48 | callback state machine | induction over call sequences |
| C49 | conversions | arithmetic |
| C50 | `Font::parse` and table lookup | soundness of each step of an accepting parse |
| C51 | choice of character map | violated (C22); exact description of the records considered |
| C52 | justification in text_plain | sums of widths along a line |
| C53 | page loop of text_plain | violated (blank last page); only the last page can be blank |
| C54 | page loop of text_plain | violated (line overlaps the bottom margin); its top does not |
| C55 | name lookup and value parsers | violated for keywords; names and units proved for all declarations |
| C56 | `BorderSide::parse` | invariant of the loop over the filled fields; equivalence with an order-free specification |
| C57 | table of properties | violated (`border-right-color`); the others by the table and the generic parser |
| C58 | layout functions with fuel | fuel above the depth of the box tree suffices, for every tree that construction makes |
| C59 | `relative_adjustement` and its call | closed form; violated for percentages |
| C60 | `InlineFormattingContext::layout` | refinement: the stack machine of the code simulates a flat state of lines without nesting (`Laid` in InlineSpec.lean) |
| C61 | `TextRun::layout` | violated for texts that begin in the middle of a line; partial otherwise, from C60 |
| C62 | `handle_text` | violated with `display: contents`; otherwise the invariant that text runs directly in a box have the style of the box |
| C63 | `handle_leading_whitespace` | violated at the start of inline elements; otherwise the paragraphs of the boxes are those of the document, collapsed |
| C64 | `Document::layout`: style sheets, root element, traversal of the arena, boxes, fragments | the traversal returns a tree iff it is the styled tree of the forest (relation `StyledTree`) and no hidden element is a last child; with C42 and C58; violated with witness |
| C65 | `to_pdf_bytes` from the arena to bytes | induction on layout: the glyphs in the fragments are those of the runs of the boxes; with C42 (boxes keep the text) and C46 (the page shows the fragments); violated for floats |
| C66 | `render_with_options` | arithmetic of rounding up |
| C67 | `pixels_to_hex` | digits of a number determine it; induction on the buffer; a reader of numbers separated by commas gives the pixels back (`C67_values`) |
| C68 | `write_to_png_file`, std's `BufWriter` | invariant: file content and buffer together are what was written; violated when the last flush fails |
| C69 | parsers of longhand values | inversion of each parser against a relation between tokens and values; border-right-color missing; violated for numbers out of range |
| C70 | derive(Parse) as a function of the variants | injectivity of CamelCase to kebab-case by a code of the letters; induction over variants; parsers of the style model equal the generated ones |
| C71 | derive(SfntTable) as a function of the fields | prefix sums by induction; the tables of the code by evaluation |
| C72 | `tagged_union_with_jump_tables!` over bytes | induction over variants and arms in parallel; layout of RFC 2195 as specification |
| C73 | box construction with slots, deferred boxes and parallel tasks (Verif/Layout/Slots.lean) | simulation of `constructContainer` by the deferring builder; the program of each element is separate from that of its siblings, so every interleaving has the same effect on every cell; multiset invariant between stored boxes and the parts of the tree |
| C74 | the same, with `BoxSlot::drop` | violated: the simulation shows that every failure is an abort; partial for supported contents |
| C75 | the arguments of all calls of `write_all`; any stream, given by its `write`; the loop of `write_all` and `BufWriter` | the arguments together are the bytes of the file; induction over the calls: what was received and what is buffered are a prefix of them |
| C76 | user_agent.css as rules with simple selectors (Verif/Style/UserAgent.lean); author sheets are arbitrary | C28 with the candidates of the sheet enumerated by the kernel; violated for other languages and for elements not in the sheet |
| C77 | the parsed font as layout and the PDF writer use it (Verif/Layout/FontUse.lean); the reader copies text by the ToUnicode map (CopySpec.lean) | C65 with C15-C19 and C23-C25; violated when characters share a glyph |
| C78 | the bytes of Vera.ttf as one number (Verif/Font/VeraData.lean, Vera.lean); its parts are read by arithmetic on that number, which the kernel computes | steps of `Font.parse` on the file; table of its 256 characters; C23, C77 |
| C79 | nothing new: C06, C09, C76 and C78 put together (Verif/Layout/PlainSpec.lean says what a plain document and its text are) | styled tree of plain content by induction; trees of XML content; `C79_xml_returns` says exactly for which XML documents without `style` attributes a file is made |
| C80 | nothing new: C07, C09, C28, C46, C62 and C65 put together (Verif/Layout/LookSpec.lean says how CSS wants each character to look, without the model's cascade) | the styles found are the only ones that satisfy the specification (`C80_exists`, `C80_unique`); induction over the displayed nodes; glyphs of shapes with their sizes and colours |
| C81 | nothing new: the model of flow/inline.rs (Verif/Layout/RowSpec.lean says what the margin box of a fragment is) | invariants of the loop (`Invariant`): the maximum kept by each nesting level is that of its fragments, exactly so for the outermost level and before the first line break |
| C82 | as C81 | invariant of the loop: in each nesting level the fragments are in a row up to the start of the next level, relative to the start of the level |
| C83 | nothing new: the model of block and inline layout (Verif/Layout/StaticSpec.lean defines static positions from the box tree and the fragments of the flow) | induction on the nesting (`layout_static`): the pending boxes of a container are its absolutely positioned boxes in tree order, each with its static position; `place_marker` for block-level boxes, C60 for inline ones; C40 for the edges |
| C84 | as C83 | as C83 |
| C85 | nothing new: the models of the cascade, box construction, layout, painting and PDF output (Verif/Layout/GroundSpec.lean says which elements have boxes, from the document and the rules of CSS) | induction on the traversal (`traverse_collect`) and on the nesting (`layout_collect`): the styles of boxes are counted, for every predicate; C28 for the cascade, C46 for the page |
| C86 | nothing new: the models of the cascade, box construction, layout and painting (Verif/Layout/MarkSpec.lean says what is seen of a document) | box construction is shown to be a machine that reads one mark at a time (`runMarks_nodes`); white space after white space does not change its state; C28 for styles, C58 for fuel and schedules |
| C87 | nothing new: the models of the cascade and of `Document::layout` | a list sorted by a key is determined by its parts with equal keys (`sorted_unique`), and sorting is stable; C28's `style_values` |
| C88 | nothing new: the models of the cascade, box construction, layout, painting and PDF writing (Verif/Layout/ReadSpec.lean says what lines of text on a page are) | an invariant of inline layout keeps the texts of each nesting level between 0 and its height (`band_invariant`), and C60's flow is in order along each line (`Laid.turned`); induction over the nesting of blocks (`layout_lined`): margins stay non-negative, and a box whose margins collapse through has no text; C80 and C46 for the rest |
| C89 | nothing new: the models of the cascade, box construction, layout, painting and PDF writing (Verif/Layout/BoundSpec.lean says what nested boxes on a page are) | an invariant of inline layout keeps what is in each box on a line inside of it (`layoutInline_bound`); induction over the nesting of blocks (`layout_bound`): the height of a block is where its last child ends, margins stay non-negative; then C46 and C80 for the rest. Centred boxes that are too wide violate the property |
| C90 | as for C89 | a corollary of C89 for documents that are not taller than a page; longer ones violate the property, because there is only one page |
| C91 | the calls of C functions that each function of lester makes, with drops where Rust makes them, in all ways to end (Verif/Lester/Owner.lean); which C functions give, need and take references (Verif/Lester/OwnerSpec.lean) | a triple for each function: which references it has before and after, depending on how it ends, with a frame (`Keeps`); then induction over the steps of the program |
| C92 | the styles of the elements around each character, from the document (`DocumentNests`, Verif/Layout/NestSpec.lean), and those of the boxes around each text on the page (`PageItem.within`) | box construction keeps them, but for anonymous boxes (`traverse_boxed`, over `TraversalCases`), and layout keeps the boxes, also over line breaks (`inlineLoop_boxed`, `layout_boxed`); geometry from C89, the file from C46 |
| C93 | `BlocksAdded` (Verif/Layout/WrapSpec.lean): the contents of a block, and the same with plain blocks added; what is to be seen is the list of shapes that C46 finds in the file, without empty rectangles | a simulation of box construction (`runs_alike`, over `BlocksAdded`; the anonymous block around the ongoing inline boxes may be made earlier) gives trees of boxes related by `WrapC`; a simulation of layout (`WrapC.alike`) over a relational form of layout (`LaysC`) shows that margins collapse through a bare block from every state that placement comes to (`placeAll_from`, `Fragment.Alike`) |
| C94 | `AgreeUntil` (Verif/Layout/BeforeSpec.lean): two lists of contents that are the same up to a point, with the text up to there | the boxes begin in the same way (`AgreeUntil.begin`, by induction; text may be in an anonymous block in one of them only); so do the layouts (`Begin.same`): either nothing is to be seen yet, or the margin at the start is settled and the same in both, so that the block around is placed at the same point. `Appended` (the second only adds to the first): nothing else is in the first, so all that is seen, backgrounds too, stays (`C94_appended_partial`). For a point anywhere (`SameUntil`): the boxes pending in the builder at that point only grow at their end (`traverse_later`, `Grown`), two lists of inline boxes that grew from the same one are laid out in the same way up to the last space in it (`Twin.layout`: a line is broken at the same places as long as the text up to the next space is the same, `shapeLine_keeps`), and what follows the last space is at most the last word of the text (`traverse_short`); with absolutely positioned elements between blocks from C100 (`settled_layout`) |
| C95 | Verif/Lester/ImageSpec.lean: coordinates of PDF (8.3.4, 7.9.5), how poppler draws a page, scaling in cairo; on top of the reader of C14 to C18 and `renderWithOptions` of C66 | the media box has its top left corner at the origin, so that `cm`, poppler's flip and lester's scale compose to `(dx * x, dy * y)` (`imagePoint_page`); for each painted thing (`covers_asked`), for all pages (`C95_image`) and for laid out documents (`C95_document`, with C46) |
| C96 | `Indented` (Verif/Layout/IndentSpec.lean): the same contents with more white space where a line begins | the builder of boxes ends in the same state (`Indented.traverse`, by induction): where a line begins there is no inline content, so leading white space is dropped, and it is so again after each block; then as for C86 |
| C97 | Verif/Layout/ZoomSpec.lean: computed lengths multiplied by k, shapes multiplied by k; everything else as for C46 | every function of layout commutes with the multiplication (`zoom_layoutInline`, `zoom_solveAxis`, `zoom_collapse`, `zoom_layoutInFlow`, `zoom_layout`), comparisons because k is positive; box construction commutes because it never looks at a length (`zoom_traverse`); then placing and painting (`Placed.zoom`, `zoom_shape`) |
| C98 | `WordPart` (Verif/Layout/RoomSpec.lean): a part of a text that begins at the start of a word | lines are those of `IsBroken` (C44); by induction on one broken text, the n-th line of the one with more room ends no earlier than that of the other (`IsBroken.no_more`); all lines of a paragraph are as tall (`paragraph_height`) |
| C99 | `AgreeAfter` and `Shape.down` (Verif/Layout/AfterSpec.lean): contents that end in the same way, and the same shape further down | the boxes end in the same way (`AgreeAfter.end`); placing the same blocks from two states gives the same further down, and once a block that does not collapse through is placed the two states are the same but for their positions (`post_end`, from `placeAll_from` of C86); so with blocks around them, by induction (`End.same`); pages by C46. Blocks with a fixed height are left out: what is in them and what comes after them moves by different distances (`C99_fixed_height`); with absolutely positioned elements between blocks from C100 (`settled_layout`) |
| C100 | `nodesSettled` (a tree without its absolutely positioned elements) and `nodesApart` (these elements come between blocks) in Verif/Layout/AsideSpec.lean | layout commutes with taking the absolutely positioned boxes out of a tree of boxes (`lays_flow`, by induction on fuel, for all boxes); the boxes of the settled tree are those boxes but for anonymous blocks (`constructRoot_settled`), which cannot be seen (C93) |
| C101 | `nodesEmptied` (a second tree is the first one with nothing in its absolutely positioned elements, which may have other styles) in Verif/Layout/AsideSpec.lean | as C100 for the first document; of the second one nothing is seen but what is in flow, since its absolutely positioned boxes are empty and transparent (`layout_asides`, `layoutAbsolute_hollow`); the boxes in flow are the same (`constructRoot_emptied`) |
| C102 | `Wins` (from `Winner` of C28), `lastIn`, `lastMatching` in Verif/Style/LastTheorems.lean; `SameWinners` and `Readable` in Verif/Layout/LastTheorems.lean | the style of an element is determined by its winners (C28), so both style systems style all elements alike; which declarations win is determined by the last ones for each property, importance and specificity, since the sort is stable |
| C103 | `SameButColors`, `StyledNode.Recolored` and `SameButPaint` in Verif/Layout/RecolorSpec.lean; `PageShows` (what a reader finds in a file) in Verif/Layout/ShowsSpec.lean | layout commutes with any change of styles that keeps what layout looks at (`Dye`, `dye_layoutRoot`, by induction on fuel, for all boxes), and so does the construction of boxes (`AlikeBut.traverse`); colours are such a change. For style sheets, as in C102, but for the winners of the properties that are not colours |
| C104 | `Dissolved` in Verif/Layout/DissolveSpec.lean | the two trees are `AlikeBut` for the change of styles that keeps of the style of a text its font size and colour, so the fragments are the same but for styles of texts; of these nothing is painted but the font size and colour |
| C105 | the generated `match` as data (`MatchArm`, `runArms`) in Verif/Macros/Convert.lean; `Converted` in Verif/Macros/ConvertTheorems.lean | the names that are made for unnamed fields differ (`fieldName_injective`), so each field is bound to its own name; induction over variants |
| C106 | `DownStep`, `collapsedSize`, `descend`, `PageItem.steps`, `PageItem.Settled` and `Outline`, `Drawn` in Verif/Layout/CollapseSpec.lean: what is met on the way down a page, where sums of it lead, and which blocks there are | a normal form of lists of steps (leading margins, parts, trailing margins) is a monoid, and what `place_block_level_fragment` keeps is the normal form of what it has placed (`Stacked`, `LaysC.known`); with the way down to a block and this, its place is a sum (`LaysC.settled`); the outline by induction over box construction and layout; absolutely positioned elements between blocks by C100 |
| C107 | `Css.applies` in Verif/Layout/ApplySpec.lean: the "Applies to" lines of CSS 2.1; `nodesSameWhere`: trees with the same values where properties apply | layout commutes with the change of styles that puts initial values where a property does not apply (`relevantDye`), because sizes are only used of blocks and absolutely positioned boxes and offsets only of positioned ones (`BlockContainer.Fits`, an invariant of box construction and of what is left to be positioned) |
| C108 | `BorderPaint`, `seenBorders` in Verif/Layout/ApplySpec.lean | as C107: the colours and styles of borders are among what makes no difference |
| C109 | `SameButPlace`, `PageItem.Moved` in Verif/Layout/MoveSpec.lean: styles that differ in offsets only, and pages on which the boxes with these styles are moved | layout commutes with the change of styles that sets these offsets to zero and moves the boxes back (`moveDye`, with `Dye.KeepsFlow` and `Dye.KeepsPlace`, which are invariants of box construction and of what is left to be positioned, `constructRoot_fits`); both documents become the same |
| C110 | the matching algorithm of the crate selectors, with its ways of giving up early, over the queries of selectors.rs (Verif/Style/Matching.lean); `Selects` in Verif/Style/MatchingSpec.lean is the definition of CSS on the tree | induction over the selector, with a meaning for each of the four answers: which elements, reached by walking to earlier siblings and to parents, are not selected either (`Means`, `matchesComplex_means`); for styles by C28 |
| C111 | layout from `layoutDocument` and the files of `toPdfBytes`; `PageItem.Fits` in Verif/Layout/FitSpec.lean says where CSS puts boxes on the page, by CSS 2 8.1, 9.4.3, 10.3.3, 10.3.7, 10.5, 10.6.4 | which boxes are blocks, absolutely positioned or inline, by an invariant of the box builder (FitBoxes.lean); induction over fuel for layout, with what is still to be placed as part of the invariant (`layout_fits`); one box for each element by `layoutRoot_collect` |
| C112 | main.rs with the calls of html5ever, the files and the answers of the system to writes as parameters (Verif/Layout/Program.lean); the model gives what is in the files after each change, and being killed is that there are no more answers | induction over the answers for `write_all`; for the text by C01 and C65 |
| C113 | types.rs `From<LongDateTime>`, with `SystemTime` as whole seconds in an `i64` (Verif/Font/Dates.lean); the specification is the calendar | cases on the sign; the distance of the epochs is computed by the calendar |
| C114 | text_plain.rs once more, with the operations of the machine's numbers as a parameter of which nothing but `¬ 0 > 0` is assumed, and with the PDF document (Verif/Text/Machine.lean) | as C27, without any law of arithmetic; simulation of the exact model; the file by `C15_C18_contents` |
| C115 | layout and painting once more, with the operations of the machine's numbers and the lengths of styles as parameters, of which nothing but `0 = 0` and `0 + 0 = 0` is assumed (Verif/Layout/Machine.lean, MachinePaint.lean) | as C58, C38, C65 and C85, without any law of arithmetic; the file by `C15_C18_contents`, with the size and colour of each glyph; `C115_exact`: with exact numbers the two models are the same function; `toPdfBytes_calls`: the file is that of a page with a list of calls of the API, from which `C115_text_printed_partial` and `C115_backgrounds_printed_partial` need nothing of numbers that are not in the file |
| C116 | `f32`: bit patterns with the operations of IEEE 754, rounded to nearest, ties to even, as an instance of the arithmetics of C114 and C115 (Verif/Float/Single.lean, Verif/Text/SingleSpec.lean) | rounding is monotone and leaves numbers of the format alone, so sums, products and quotients keep the order; induction on the segments of a line and the lines of a page. `C116_rounding`, `C116_overflow`, `C116_operations` and `C116_special` say that the arithmetic is that of the standard; `validation/run.sh` compares it with the machine; `C116_file` composes it with C15 into what a reader of the file's bytes sees |
| C117 | `to_ems` and the conversion of ems to integers, in the single precision numbers of C116 (Verif/Font/Thousandths.lean) | if the number of units per em is a power of two, quotient and product have at most 24 significant bits, so the result is exact (`C117_power_partial`), also in files (`C117_file_partial`) and for the built-in font (`C117_built_in`); the relative error of each operation bounds the error for other fonts (`C117_close_partial`); the operations keep the order (`C117_monotone`); whatever the font says, the number is a 32 bit integer (`C117_range`). Violated for 1000 units per em (`C117_violated`) |
| C118 | components of colours as quotients of `f32`, and the table of opacities with its key of sixteen bits, in the single precision numbers of C116 (Verif/Pdf/SingleFloats.lean, Verif/Pdf/ColorTheorems.lean) | the relative error of a quotient is at most 2^-24, so the nearest byte is the one that was divided; rounding is monotone and integers below 2^24 are exact, so opacities with the same key differ by less than 6/65535; C15 then gives the pages and C115 the text and the backgrounds of documents; `C118_pages_printed`, `C118_text_printed_partial` and `C118_backgrounds_printed_partial` assume of dtoa only that the numbers in the file are read back |
| C119 | how the crate dtoa writes an `f32`: with a point from a millionth to 10^21, and otherwise with an exponent (Verif/Pdf/Dtoa.lean); the digits are a parameter, of which it is assumed that they are rounded to the number they were made of | the value of the digits around the point, as a PDF reader reads it; rounding is monotone, so it makes no difference to the form which digits are found; `C15_C18_contents_printed` and C115 for files; violated outside of the range, by a page (`C119_violated`) and by a document (`C119_document_violated`) |
| C120 | the inline layout of Verif/Layout/Machine.lean with the single precision numbers of Verif/Float/Single.lean; `exactFont` is the same font with fractions (Verif/Layout/LinesSpec.lean) | what `layoutInline` makes of a text for any arithmetic, by induction on lines (`layoutInline_lines`); sums of widths are multiples of 1 / 2^k below 2^24 such units, which are not rounded; the product with the font size is rounded once, and rounding is monotone; a text that fits is short, since its beginnings fit. Lines of whole numbers of pixels cannot stick out by less than 1 / 2^k (`C120_same_lines`); the tops of lines are sums whose error is bounded by induction (`C120_tops`) |
| C121 | `layout` of Verif/Text/Machine.lean with the arithmetic of Verif/Float/Single.lean; `JustifiedLine` (Verif/Text/JustifySpec.lean) says what a line should be | every operation is wrong by at most one part in 2^24 of a bound of its result (Verif/Float/SingleBounds.lean); the sum of widths, the gap and the places are bounded by induction on segments (Verif/Text/SingleJustify.lean); lines and pages come from `C114_layout` |
| C122 | as C121; `exactBaseline` (Verif/Text/PlacesSpec.lean) says where lines should be | the line height and the baseline are bounded operation by operation; the tops of lines, which are not below the bottom of the page, by induction on lines (`top_place`); lines and pages come from `C114_layout` |
| C123 | layout with any arithmetic (Verif/Layout/Machine.lean) with `f32`, and with exact numbers; `BlockContainer.OnlyBlocks` and `lengthsSum` (Verif/Layout/WholeSpec.lean) say which trees, `FragmentsAgree Exactly` that all numbers are the same | both runs are compared step by step, for any two arithmetics that agree on numbers up to a bound (`Simulation`, `layout_agree`: induction on the fuel); what a block and its margins take is at most 16 times its lengths, so that sums over a tree are linear; multiples of 2^-k below 2^(24-k) are numbers of single precision (`whole_simulation`); halves of auto margins need one more bit, but do not add up |
| C124 | layout, painting, PDF writer and `dtoa` with `f32`, and layout with exact numbers; `SeenAs` (Verif/Layout/WholePageSpec.lean) compares a rectangle that a reader finds with one of `Placed` and `Fragment.shape` (the specification of C46) | `layout_agree` of C123 gives equal boxes; by induction on the depth, the sums over ancestors that painting computes stay on the same grid (`fragments_exact`, with `Low` for the depth and the colours of fragments); numbers on the grid are printed without an exponent (C119) and read back; colours by C118 |
| C125 | layout with `f32` and with exact numbers, of blocks, inline elements and text; `BlockContainer.Ruled`, `BlockContainer.reach` and `RowsAgree` (Verif/Layout/RowsSpec.lean) say which documents, how far from the left something can be, and what is compared | the simulation of C123 in the inline direction only (nothing is known of vertical numbers, as the height of a line is rounded): characters of a line by induction (`shapeLine_rows`), lines of a run and the ends of open inline elements (`textLines_rows`, `breakLine_rows`), the loop over inline boxes with a budget for what remains to be done (`inlineStep_rows`, `GoodLine`), then blocks (`layout_rows`); totality by C115 |
| C126 | painting with `f32` of the documents of C125, and the PDF reader of C15; `InRow` and `RowCalls` (Verif/Layout/RowsPageSpec.lean) say what is compared with the shapes of C46 | RowsAgree of C125 with bounds, then induction on the tree of fragments with the extent of what is around it (`fragment_row`); the reader by C15 for numbers that are printed without an exponent (C119) |
| C127 | the layouts of C125; `ColumnsAgree` (Verif/Layout/ColumnsSpec.lean) compares the vertical positions and heights, `Fragment.steps` and `Fragment.mass` measure a document | `Follows n m`: `n` roundings of numbers of which the absolute values add up to `m`; it is kept by sums, maxima and minima, so that no budget for a whole document is needed; what is decided in layout depends on numbers that are exact (C123, C125) only; `tallness` and `bulk` (Verif/Layout/ColumnsStatic.lean) bound the two measures by the tree of boxes alone, as each turn of the loop over a text ends one line at most |
| C128 | painting with `f32` of the documents of C127; `ColumnCalls`, `InColumn` and `TextsTo` (Verif/Layout/ColumnsPageSpec.lean) beside `RowCalls` and `InRow` of C126; the bound is `pageError` | `Follows` of C127 for differences and for the ascender, induction on the tree of fragments with the roundings of the position of what is around it (`fragment_column`); the reader by C15 for numbers that are printed without an exponent (C119); `Nested` and `pageBound` (Verif/Layout/ColumnsPageStatic.lean) bound the depth of the fragments and the sizes of their texts by the tree of boxes |

## 3. Trusted base

* Lean 4.33.0's kernel, and the axioms `propext`, `Classical.choice`, `Quot.sound` (a theorem may use fewer).
  No other axiom, no `sorry`, no compiled evaluation.
* The reading of the Rust sources: nothing here executes the Rust code. Section 3.3 says how the model was compared with its output.

* That a parameter standing for an external crate behaves as listed in 3.1.
* The independent readers and specifications (PDF object reader, content stream interpreter, CSS cascade order, ...):
  they are small and meant to be read.

### 3.1 Assumptions on external code

* html5ever calls the tree sink with existing nodes, moves no node below itself, and never moves the document node
  (`LegalOp` in Verif/Dom/Spec.lean).
* xml-rs delivers the events of the document; the model starts at the events.
* itoa and dtoa: integers print in decimal; reals print as a text that the reader of reals accepts (parameter `RealText`).
  dtoa prints NaN, infinities and exponents, which are not valid in PDF. The theorems whose names end with `_printed` (or `_printed_partial`),
  and `C116_file`, therefore assume this only of the numbers that are in the file (`RealTextOn`, Verif/Pdf/PrintedSpec.lean), for the reader
  `readSingle` of Verif/Pdf/DecimalReal.lean, which reads decimals as ISO 32000-1, 7.3.3 has them and rounds to the nearest `f32`; of dtoa
  they assume only that such a number is read back. C119 models the texts of dtoa (version 0.4), except for the choice of digits (Grisu2), and
  shows which numbers are read back; that this account of the crate, whose source is not in /repo, is right is assumed. `exactText_reads` shows that all finite numbers can be printed so. Nothing is claimed of
  files with other numbers.
* cssparser: tokenizing, nesting and error recovery to the end of a declaration; `parse_entirely` as used by the declaration
  parser; colour syntax of one token (parameter `Colors`). Functions such as `rgb(...)` count as one token.
* selectors: parsing of selectors is a parameter; the queries it makes on elements are modelled. Specificity and matching are parameters
  of the cascade. For C110 they are modelled after the crate's version 0.21 (Verif/Style/Matching.lean), whose source is not in /repo: that
  this account of `matches_selector` and `Selector::specificity` is right is assumed.
* Rust's `sort_by_key` is a stable sort (Lean's `mergeSort`, stable by theorem).
* xi-unicode: break positions are increasing, and the last is a hard break at the end of the text.
* `f32`/`f64`: exact rationals, see section 1; plain text layout (C114), HTML layout and painting (C115) also with
  any arithmetic, of which the model of `f32` (Verif/Float/Single.lean) is an instance. That `f32` is IEEE 754 binary32, rounded to
  nearest, is what the language says; `C116_rounding`, `C116_overflow` and `C116_operations` say that the model is.
* rayon and rayon_croissant: a parallel `mapfold_reduce_into` splits the list into contiguous tasks, each of which folds from an
  empty accumulator; accumulators are joined in the order of the list, and `collect` keeps the order. The cuts are arbitrary.
* The layout of enums with `repr(u8)` etc. and of structs with `repr(C)` is as the language defines it (RFC 2195; C72).
* cairo calls the callback finitely often and returns; nothing else is assumed of it for C48. It makes surfaces of the size and
  format asked for, no larger than 32767 by 32767. poppler has the pages it counts; it says the size of the media box, and draws the
  page with the top left corner of the media box at the origin and a unit for each point (C95).
* What `std::fs::read` gives is what is in the file; `std::fs::write` creates the file and calls `write_all`, which is modelled (C112).
* `std::ops::Range`, `std::io::BufWriter`, `read_exact`, `write_all`, `catch_unwind` behave as documented; the first two are
  modelled.

### 3.2 What is modelled

| part of the repository | model | left out |
|---|---|---|
| victor/src/dom/mod.rs, html.rs, xml.rs | Verif/Dom | layout data of elements; quirks mode; error reporting |
| victor/src/pdf/object.rs, syntax.rs | Verif/Pdf/Object, File, Sink; Dtoa (how the dtoa crate lays out the digits of a number) | the digits themselves, which are a parameter with the law `FindsDigits` |
| victor/src/pdf/mod.rs, convert.rs | Verif/Pdf/Doc*, ToUnicode, Sink | an error of `File::create` |
| victor/src/fonts | Verif/Font (Vera.ttf: VeraData, Vera) | `unsafe` pointer casts are bounds-checked reads; static fonts' laziness |
| victor/src/text.rs, text_plain.rs | Verif/Text (Machine.lean: any arithmetic, with the PDF document) | |
| victor/src/style | Verif/Style | tokenizing, parsing of selectors, error messages |
| victor/src/geom.rs, primitives.rs | Verif/Layout/Geom | transforms |
| victor/src/layout/fragments.rs, mod.rs, positioned.rs, flow/mod.rs, flow/inline.rs, flow/root.rs (layout) | Verif/Layout (Machine.lean: any arithmetic) | replaced contents (an empty type in the code); floats, which the code does not lay out |
| victor/src/layout/flow/construct.rs, dom_traversal.rs, flow/root.rs (construction) | Verif/Layout/Construct, Document, Unset, Slots | pseudo-elements and replaced contents (never made by the code); panics inside parallel tasks other than those of box construction |
| victor/src/main.rs | Verif/Layout/Program | links between files; reading in several pieces |
| victor/src/paint.rs | Verif/Layout/Paint, MachinePaint | in Paint, rounding of intermediate positions (they are rounded once, by `Painter.round`) |
| lester/src/poppler.rs, cairo.rs, convert.rs, errors.rs, lib.rs | Verif/Lester | what cairo and poppler do; lifetimes (the borrow checker's work); the contents of strings of glib |
| proc-macros/src/style.rs (derive(Parse), derive(FromSpecified)), generic.rs (derive(FromVariants)), lib.rs (derive(SfntTable)); victor/src/tagged_union_with_jump_tables.rs | Verif/Macros | derive(SpecifiedAsComputed, ReadFromBytes): their results are modelled where they are used; hygiene and error messages of macros |

### 3.3 The model against the repository's own expected files

That the model is what the code does rests on reading. As a check on the reading, `validation/run.sh` evaluates the model (with Lean's
interpreter; no theorem depends on it) on the inputs of the tests in /repo/tests and compares what it gives with the files kept there,
which the code gave. This is a test of the model, not a proof of anything.

| test | model that is run | result |
|---|---|---|
| tests/pdf.rs, expected.pdf: two pages, three fonts, colours | `Font.parse`, `Font.glyphId`, `fontView`, `runDoc`, `PdfFile.write`, with `f32` and the shortest decimals of dtoa | all 173811 bytes are the same |
| tests/alice.rs, alice.pdf: plain text on three pages, justified (the breaks of xi-unicode are read off the file) | `Text.Machine.layout` with `f32`, then as above | of 18330 tokens two are the same `f32` printed otherwise (dtoa's algorithm, Grisu2, does not always find the shortest decimal, the test does), which makes one length and six offsets differ by one; all others are the same |
| tests/reftests/blocks.html, text.html, alice.html with their images | sink calls, `userAgentSheet`, cascade, `matchesSelector`, `constructRoot`, `layoutRoot`, `paintDocument` (what html5ever and cssparser give is written by hand) | all pixels are the same, but for those with the ink of glyphs, which are not drawn; colours, nested and collapsed boxes, line breaks and the parts of a broken inline box are among them |
| pseudo-random and special numbers | the operations of Verif/Float/Single.lean, against the `Float32` of the machine | 900000 results, all the same |
| tests/reftests/abspos/\*: each document and its reference | as above | both look the same, for all four pairs |

## 4. Disagreements between code and properties

Found while modelling; each has a theorem named `..._violated` unless noted.

1. `reparent_children` moves only the first child (C05).
2. `parse_xml` does not register `<style>` elements (C07).
3. PDF names: `#` is not escaped, so `#41` reads back as `A` (C10).
4. PDF literal strings: a carriage return is written as such and reads back as a line feed (C10).
5. Offsets are cast to `u32`: a file of 4 GiB or more has wrong ones (C11).
6. `SliceIter::next_back` is off by one record (C22), so a font with one character map is rejected (C51).
7. Format 12 enumeration truncates glyph ids that lookup rejects (C24).
8. text_plain adds a blank page when the last line takes the last place of a page (C53).
9. text_plain lets a line extend below the bottom margin (C54).
10. A declaration with tokens after a valid value panics (C30).
11. Four-sided shorthands with four values exchange left and right (C34).
12. `has_class` compares the whole class attribute (C35).
13. Keywords are case-sensitive (C55).
14. The property `border-right-color` is registered under another name (C57).
15. `in_html_document` is always true, so type selectors are case-insensitive in XML documents too (`C110_xml_violated`).
16. Margins that solve the width equation ignore the other margin (C39).
17. The vertical axis of absolutely positioned boxes is solved with the width of the containing block; boxes with only `right`
    are placed from its height (C40).
18. Percentages of relative offsets of blocks refer to the box itself (C59).
19. A space at the end of a text run is dropped without a line break if it does not fit (C44).
20. A relatively positioned inline box is not displaced after a line break (C60).
21. The width available to the lines of a text run is computed once, at its first line (C61).
22. A block in an inline element makes box construction panic; `inline-block` is unimplemented (C42).
23. Text in an element with `display: contents` takes the style of the text before it (C62).
24. White space at the start of an inline element is dropped after a word (C63).
25. `unset_boxes_in_subtree` does not return for an element that is the last child of its parent (C43), so laying out a document
    in which an element with `display: none` is a last child, such as `<body>a<script></script></body>`, never returns (C64).
26. The contents of floating boxes are not laid out, so their text is not in the PDF file (C65).
27. After a panic of a stream, a further callback uses the stream again, and a second panic replaces the first (C48).
28. NaN passes the check of the conversion from `f64` to `i32` (C49).
29. `width * height` is computed in `i32`: without overflow checks the length of the pixel buffer wraps for sizes that cairo does
    not make (C49).
30. `write_to_png_file` drops a `BufWriter`, so an error of the last flush is ignored (C68).
31. A panic in box construction drops a box slot that is not set; its destructor asserts that it is, so the process is aborted (C74).
32. `write_to_pdf_file` drops a `BufWriter` too: a document of fewer than 8192 bytes written to a full disk gives success and an empty file (C75).
33. `@namespace` is not implemented, so the rules of user_agent.css apply to elements of all languages: `<header>` of an XML vocabulary is a block (C76).
34. user_agent.css has no rules for headings, sections and lists, which are displayed inline (C76).
35. Where several characters have the same glyph in the font, the ToUnicode map lists that glyph several times (convert.rs 331-339), and text copied from the PDF may have one character in place of another (C77).
36. **C79**. No PDF file is made of `<html><body>a<script></script></body></html>`, nor of `<html><p>a<b>b<p>c</p></b></p></html>`: `C79_violated`. For XML documents without `style` attributes whose root element is displayed, `C79_xml_returns` says that these two patterns, an element that is not displayed in last position and a block in an inline element, are the only ones.
37. **C81**. The nesting levels inside inline boxes do not forget their height at a line break (flow/inline.rs 225-243, 328-337: only the outermost level is reset), so an inline box with a large text on its first line is as tall on all its lines: `C81_heights_violated`.
38. **C82**. `finish_layout` takes the start corner, which is relative to the inline box outside, from the position on the line (flow/inline.rs 235), so an inline box in an inline box is too wide by the position of the outer one: `C82_widths_violated`; `C82_excess` says by how much.
39. **C83**. The empty fragment of an absolutely positioned block is placed without the margins before it (flow/mod.rs 152-159), so the box is too high by the margin below the previous block: `C83_margin_violated`.
40. **C83**. Static positions are in the coordinates of the content box, and are used in those of the padding box (positioned.rs 85-113), so in a positioned box with padding the box is moved up and to the left by the padding: `C83_padding_violated`.
41. **C84**. A relatively positioned inline box is not the containing block of the absolutely positioned boxes in it: `C84_inline_violated`.
42. **C85**. Backgrounds of floating elements are not painted, because nothing is made of floating boxes (see C65): `C85_floats_violated`.
43. **C86**. Adding an element that is not displayed at the end of its parent makes layout hang (see C43, C64), although nothing is seen of it; a comment after it changes that again: `C86_undisplayed_violated`.

44. **Centred boxes that are too wide stick out at the left** (C89). When `margin-left` and `margin-right` are both `auto`, the code
divides what is left of the width among them even if that is negative. CSS 2 (section 10.3.3) says that margins that are `auto` are zero when the box
is too wide. `C89_centred_violated` has a box of 800 pixels on a page of 600: its text begins at -100.

45. **There is only one page** (C90). `Document::to_pdf_bytes` makes one page of 600 by 800 pixels, and what does not fit is below it.
`C90_tall_violated` has 45 short paragraphs, the last of which begins at 844.8 pixels.
46. **A plain block around an absolutely positioned element moves it** (C93). Its static position does not count the margin of the block
above it (victor/src/layout/flow/mod.rs: it is at `current_block_direction_position`, before `current_margin` is added).
`C93_absolute_violated` has a difference of 10 pixels.
47. **A block that is added after text moves the text, if its offset is a percentage** (C94). Text that is next to a block is put in an
anonymous block, which has no definite height (victor/src/layout/flow/construct.rs, `end_ongoing_inline_formatting_context`), so `top: 50%`
on an inline element in a block with a height counts without blocks next to it and is ignored with them. CSS 2.1 (9.2.1.1) has percentages
skip anonymous blocks. `C94_percentages_violated` has a difference of 50 pixels.
48. **White space at the end of a block is kept** (C96). `handle_leading_whitespace` (victor/src/layout/flow/construct.rs) collapses white
space with what is before it only, so a line break at the end of a block, or between text and a block after it, is a space at the end of
the line, with a glyph, and under the background of its element. CSS (Text 3, 4.1.2) removes white space at the end of lines.
`C96_end_violated` has a background that is twice as wide.
49. **A paragraph can get longer in a wider block** (C98). `TextRun::layout` (victor/src/layout/flow/inline.rs) finds the width available to
a run once, where the run begins, and uses it for all the lines of the run. If the run begins near the end of a line, all of its lines are
as short as what was left of the first one. `C98_room_violated` has a paragraph that takes three lines in 80 pixels and five in 96.
50. **An absolutely positioned element in a line changes where lines are broken** (C100). The text before and the text after it are
separate runs, and a line is only broken within a run (`TextRun::layout`, victor/src/layout/flow/inline.rs). `C100_line_violated` has a
paragraph whose second word goes out of its block instead of below the first, because of an empty absolutely positioned element. Between
blocks, such an element puts the lines beside it in an anonymous block (victor/src/layout/flow/construct.rs,
`handle_absolutely_positioned_element`), in which percentages of the height of the block are no longer known
(`C100_percentage_violated`).
51. **A block with `height: 0` and nothing in it keeps the margins above it from those below it** (C106). In CSS the margins of such a block
collapse through it (section 8.3.1: "zero or auto computed height"). In victor/src/layout/flow/mod.rs, 364-369 and 402-407, this is so only
if the height is `auto`. `C106_height_violated` has a paragraph that is 30 pixels too far down for this reason. `Css.through` in
Verif/Layout/FlowSpec.lean, which C37 uses, is the rule of the code in this case and the next one.
52. **A block with nothing in it but an empty inline element keeps margins apart** (C106). There is no line in such a block for CSS (section
9.4.2), so the margins above and below it collapse. In victor/src/layout/flow/inline.rs, 139-143, the contents of a block with inline
contents never let margins through, whatever is in them. `C106_line_violated` has `<nav><span></span></nav>`.
53. **Negative paddings, widths, heights, font sizes and border widths are accepted, and so are percentages as border widths** (C69). In CSS such
declarations are invalid and others apply instead (CSS 2, sections 8.4, 8.5.1, 10.2, 10.5 and 15.7). The parsers of lengths
(victor/src/style/values/length.rs, 44-119) have no ranges, and `LineWidth::parse` (victor/src/style/values/border.rs) reads a length or a
percentage. `C69_negative_violated` and `C69_percentage_violated` are for all such numbers.
54. **The vertical margins of inline elements make lines higher** (C107). In CSS `margin-top` and `margin-bottom` have no effect on inline
elements (CSS 2, section 8.3). In victor/src/layout/flow/inline.rs, 195-198 and 256-263, they move the element down and count for the height
of the line. `C107_violated` has a text that is 10 pixels too far down.
55. **Borders are not painted** (C108). victor/src/paint.rs paints backgrounds and text only. `C108_bytes_violated`: the file is the same
for all colours and styles of borders, as long as their widths are the same.
56. **Moving an inline element makes it narrower** (C109). `finish_layout` in victor/src/layout/flow/inline.rs computes the width of an inline
box from the place it is moved to (see also C82), so with `left: 10px` the right edge stays where it is. `C109_inline_violated` has a
background of 16 pixels that becomes 6 pixels wide.
57. **Class selectors and names with capitals, inside longer selectors** (C110). Through combinators, the faults of C35 (class attributes
of several words) and of item 15 make selectors miss elements or select others: `C110_class_violated`, `C110_xml_violated`. Apart from these
two, matching is proved to be that of CSS. The crate counts no more than 1023 simple selectors of a kind in specificity, which CSS leaves to
implementations; `C110_specificity_partial` has this as a hypothesis.
58. **Left margins that are `auto` disregard right margins** (C111). The faults of C39, C40, C59 and C89 are seen on the page:
`C111_left_violated` is a block 100px wide with `margin-left: auto; margin-right: 10px`, whose left edge is 10px too far to the right.
`PageItem.Fits` leaves out just the cases in which these faults show, and the vertical places of blocks in flow, which are those of C106.
59. **Widths are off by one in fonts with 1000 units per em** (C117). `to_ems` divides by the number of units per em in single precision, and
the file has the product of the quotient and 1000, truncated. For 1000 units per em, as is usual in PostScript outlines, the product can be
less than the width: `C117_violated` is a font file with a glyph of 251 units that has the width 250 in the PDF file. (With native floats, 739
of the 65536 widths are off by one.) With 2048 units per em, and any other power of two, all widths are right. Rounding instead of
truncating would be right for all fonts.
60. **Very small and very large numbers are written with an exponent, which PDF does not have** (C119). `Object::Float` is written by
`dtoa::write`, whose texts are those of JSON: `1e-7` for a ten-millionth, `1e21`, and words for NaN and the infinities. A PDF reader takes them
for operators. `C119_violated` is a page with one rectangle, and `C119_document_violated` the document `lookDocument` with the rule
`p { padding-left: 0.0000001px }`: files are made of them, but nothing of their contents can be painted. `C119_exponents`: this is so of every
number, other than zero, below a millionth or above 10^21; `C119_plain`: all others are read back. (The source of dtoa is not in /repo:
that it writes so is an assumption, like what is listed in 3.1.)

61. **Of more than 1023 simple selectors of a kind only 1023 count** (C110). CSS sets no limit on the counts that make up the specificity of a
selector. The crate selectors packs each of the three in ten bits, and takes 1023 where there are more. `C110_specificity_violated`: for every
n from 1023 on, `:root` written n + 1 times is not more specific than written n times. `specificity_capped` is the order for all selectors.
