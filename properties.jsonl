{"id": "C01", "title": "DOM links stay a consistent tree under every tree-building history", "statement": "After any sequence of tree-sink operations (create node, append, insert before a sibling, remove from parent, append text) that never inserts a node under itself or its own descendant, every parent/first-child/last-child/previous/next link agrees with one ordered tree: each node has at most one parent, its parent's child chain contains it exactly once, sibling links are mutual, and following parents never cycles.", "quantifier": "all finite operation histories on a document and all node ids", "why_tests_cant": "The number of histories is unbounded; a broken link shows only after particular interleavings of moves, detaches and inserts.", "anchors": ["victor/src/dom/mod.rs: Document::new, push_node, detach, append, insert_before", "victor/src/dom/html.rs: TreeSink for Sink"]}
{"id": "C02", "title": "Append, insert-before and detach act on child sequences as list operations", "statement": "On a consistent tree, appending a node removes it from its old parent's child sequence and puts it last in the new parent's; inserting before a sibling puts it immediately before that sibling in the sibling's parent; detaching removes it; all other child sequences, the relative order of all other children, and all node data are unchanged.", "quantifier": "all consistent trees, parents, children and siblings (including moves within the same parent)", "why_tests_cant": "Moves within one parent, first/last positions and single children interact; tests can only sample shapes.", "anchors": ["victor/src/dom/mod.rs: detach 108, append 131, insert_before 145"]}
{"id": "C03", "title": "Document iteration visits each attached node exactly once in document order", "statement": "Iterating over a document's nodes terminates and yields precisely the pre-order of the tree rooted at the document node, with no node repeated or skipped; hence link elements are reported in document order and only with both rel and href present.", "quantifier": "all consistent trees of any depth and width", "why_tests_cant": "Depth and width are unbounded and the climb back through ancestors has a case per shape.", "anchors": ["victor/src/dom/mod.rs: next_in_tree_order 190, nodes 197, html_link_elements 63"]}
{"id": "C04", "title": "Adjacent text is coalesced and never lost or reordered", "statement": "Inserting text through the HTML sink (at the end of a parent, or before a sibling) extends the immediately preceding text node if there is one and otherwise creates exactly one new text node at that position; the concatenated text of the parent's children after insertion is the old text with the new text inserted at that place, and text insertion never makes two adjacent text nodes on its own left side.", "quantifier": "all consistent trees, parents, siblings and strings", "why_tests_cant": "Depends on the node kind found at the insertion point for every tree.", "anchors": ["victor/src/dom/html.rs: append_common 30, append 135, append_before_sibling 143"]}
{"id": "C05", "title": "Reparenting children moves all of them, in order", "statement": "Asking the sink to reparent the children of a node moves every child, in order, to the end of the new parent's children and leaves the old parent without children.", "quantifier": "all consistent trees and child counts", "why_tests_cant": "The bug only shows for two or more children; only unusual HTML reaches this call.", "anchors": ["victor/src/dom/html.rs: reparent_children 201"]}
{"id": "C06", "title": "XML parsing builds the tree denoted by the event stream", "statement": "For every well-nested XML event stream, the resulting document is the tree whose elements, processing instructions and merged character data are those of the stream, in order and at the same nesting; comments and document events add nothing; every later event still lands in the right element.", "quantifier": "all well-nested event streams", "why_tests_cant": "Nesting depth and event order are unbounded.", "anchors": ["victor/src/dom/xml.rs: Document::parse_xml 5"]}
{"id": "C07", "title": "Every style element created contributes its style sheet, in creation order, whichever parser made the document", "statement": "Style elements whose type attribute is absent or equal to text/css up to ASCII case contribute the concatenation of their child text to the author style sheet, in creation order, and no other element contributes, for HTML and for XML (XHTML) documents.", "quantifier": "all documents produced by either parser", "why_tests_cant": "Requires comparing parsers over every document.", "anchors": ["victor/src/dom/mod.rs: parse_stylesheets 47, child_text_content 161", "victor/src/dom/html.rs: create_element 100", "victor/src/dom/xml.rs: parse_xml"]}
{"id": "C08", "title": "Adding missing attributes never changes existing ones", "statement": "Merging attributes into an element (duplicate html/body tags) keeps every existing attribute and its value, and adds just those given attributes whose name was not already present, in order; looking up an attribute that existed before gives the same answer after.", "quantifier": "all attribute lists", "why_tests_cant": "Name overlap between arbitrary lists.", "anchors": ["victor/src/dom/html.rs: add_attrs_if_missing 178", "victor/src/dom/mod.rs: get_attr 254"]}
{"id": "C09", "title": "The root element lookup returns the only element child of the document or fails loudly", "statement": "For any tree, the root element lookup succeeds iff the document's children consist of doctypes, comments, processing instructions and exactly one element, and then returns that element.", "quantifier": "all documents", "why_tests_cant": "Any mixture and order of child kinds.", "anchors": ["victor/src/dom/mod.rs: root_element 78"]}
{"id": "C10", "title": "Serialised PDF objects read back as the same value", "statement": "For every object value the writer accepts (integers, reals, literal and hexadecimal strings, names, arrays, dictionaries, references, nested to any depth), a reader following the PDF object syntax reads back exactly that value and stops exactly at its end.", "quantifier": "all PDF object values of any depth, all bytes in strings and names", "why_tests_cant": "Escaping and delimiting depend on every byte value and every pair of adjacent tokens.", "anchors": ["victor/src/pdf/object.rs: Object::write 151, Dictionary::write 213, write_name 242, write_hex 234"]}
{"id": "C11", "title": "The cross-reference table points at every object", "statement": "In every file written, cross-reference entry n holds the byte offset at which the text 'n 0 obj' for object n begins, entries are 20 bytes long, the startxref number is the offset of the xref keyword, and the declared Size is one more than the number of objects.", "quantifier": "all documents smaller than 4 GiB (and the precise failure beyond)", "why_tests_cant": "Offsets depend on every preceding byte.", "anchors": ["victor/src/pdf/syntax.rs: PdfFile::write 65, itoa_zero_padded 146, CountingWrite 153"]}
{"id": "C12", "title": "Stream objects declare their exact length", "statement": "For every stream added, a reader taking /Length bytes after the stream keyword obtains exactly the given contents and finds endstream next; whatever the contents, even if they contain the endstream keyword.", "quantifier": "all stream dictionaries and contents", "why_tests_cant": "Contents are arbitrary bytes.", "anchors": ["victor/src/pdf/syntax.rs: add_stream 38"]}
{"id": "C13", "title": "Object identifiers are unique and all references resolve", "statement": "Over any history of adding pages, painting and writing, each identifier handed out denotes exactly one object in the output, and every reference in the page tree, catalog, pages, fonts and graphics-state resources points to an object that is in the file.", "quantifier": "all histories of the PDF API", "why_tests_cant": "Identifier allocation interleaves fonts, alpha states, pages and streams.", "anchors": ["victor/src/pdf/syntax.rs: add_indirect_object 58", "victor/src/pdf/convert.rs: InProgressDoc::write 33, InProgressPage::drop 101, add_font 268"]}
{"id": "C14", "title": "Pages appear once each, in the order they were finished", "statement": "The page tree lists precisely the pages that were added, in order, its Count equals their number, and each page has its own content stream and its own media box of the requested size in points.", "quantifier": "all documents and page sequences", "why_tests_cant": "Any number of pages with any content.", "anchors": ["victor/src/pdf/convert.rs: InProgressDoc::write, InProgressPage::drop", "victor/src/pdf/mod.rs: add_page"]}
{"id": "C15", "title": "Every shape is painted in the colour last requested", "statement": "When a reader executes the content stream of a page, each rectangle and text run is painted with the fill colour and opacity of the latest set-colour request (or opaque black if none), although redundant operators are omitted.", "quantifier": "all sequences of page operations, colours and alphas", "why_tests_cant": "Caching of state means errors depend on histories of any length.", "anchors": ["victor/src/pdf/convert.rs: set_color 168, set_alpha 242, new 144, paint_rectangle 176, show_text 188"]}
{"id": "C16", "title": "Opacity resources are shared and distinct", "statement": "Opacity values are clamped to 0..1 (as 16-bit keys), the same opacity always refers to the same named resource across pages, two different keys never share a name, and each name used by a page is defined in the document's resources with that opacity.", "quantifier": "all histories of set-colour calls over all pages", "why_tests_cant": "Deduplication table is shared across the whole document history.", "anchors": ["victor/src/pdf/convert.rs: set_alpha 242, InProgressDoc::write"]}
{"id": "C17", "title": "Fonts are embedded once and named consistently", "statement": "Showing text with the same font any number of times embeds it once; different fonts get different names; each name used by a page is defined in the document's resources as that font; a font that fails to load is not registered and the failing call leaves page content unchanged.", "quantifier": "all histories of show-text calls", "why_tests_cant": "Deduplication by identity across histories with failures in between.", "anchors": ["victor/src/pdf/convert.rs: add_font 268, show_text 188"]}
{"id": "C18", "title": "Text runs carry their glyphs exactly", "statement": "The operand shown for a text run decodes, two bytes per glyph big-endian, to exactly the run's glyph identifiers in order, inside a properly nested text object with the run's font size and position.", "quantifier": "all glyph sequences", "why_tests_cant": "Every 16-bit value and every length.", "anchors": ["victor/src/pdf/convert.rs: show_text 188"]}
{"id": "C19", "title": "The glyph to Unicode map is complete and well-formed", "statement": "The ToUnicode map written for a font lists each (glyph, code point) pair given by the font exactly once, in order, in blocks of at most 100 entries each preceded by its exact count, and each entry decodes (UTF-16) to the pair.", "quantifier": "all glyph/code point lists", "why_tests_cant": "Block boundaries at multiples of 100 and surrogate pairs.", "anchors": ["victor/src/pdf/convert.rs: add_font 268 (ToUnicode)"]}
{"id": "C20", "title": "Reading font data never goes out of bounds", "statement": "For any byte string and any position, a read either returns the big-endian value of bytes wholly inside the data or an error; it never reads outside the data.", "quantifier": "all byte strings and positions", "why_tests_cant": "Malformed fonts are unbounded in variety.", "anchors": ["victor/src/fonts/parsing.rs: ReadFromBytes, Position, Slice"]}
{"id": "C21", "title": "Table lookup by binary search finds a record iff it is present", "statement": "On records sorted by key, the search returns a record with the key if one exists and reports absence otherwise, terminates on any data, and never inspects a record outside the slice.", "quantifier": "all slices, sizes and keys (sorted for completeness; any for termination and soundness)", "why_tests_cant": "Boundary arithmetic errors show only at some sizes.", "anchors": ["victor/src/fonts/parsing.rs: binary_search_by_key 180, binary_search 197", "victor/src/fonts/mod.rs: find_table 263"]}
{"id": "C22", "title": "Record iteration visits each record once, forwards or backwards", "statement": "Iterating a slice of records yields each record's position once in order, and iterating in reverse yields the same positions in reverse order.", "quantifier": "all slices", "why_tests_cant": "Any count and record size.", "anchors": ["victor/src/fonts/parsing.rs: SliceIter::next 261, next_back 275", "victor/src/fonts/cmap.rs: Cmap::parse 13"]}
{"id": "C23", "title": "Character lookup and character enumeration of a font agree (segment format)", "statement": "For every well-formed format 4 table, enumerating a font's code points yields (c, g) iff looking up c gives the non-zero glyph g, in increasing order, so the embedded ToUnicode map matches the glyphs used.", "quantifier": "all format 4 tables and code points", "why_tests_cant": "2^16 code points by unbounded tables; segment boundaries.", "anchors": ["victor/src/fonts/cmap.rs: Format4::get 103, each_code_point 130, glyph_id 154, Cmap::each_code_point 50"]}
{"id": "C24", "title": "Character lookup and character enumeration of a font agree (group format)", "statement": "For every format 12 table, enumerating yields (c, g) iff looking up c gives the non-zero glyph g; values that do not fit a glyph identifier are rejected by both.", "quantifier": "all format 12 tables and code points", "why_tests_cant": "32-bit ranges; overflow only at extremes.", "anchors": ["victor/src/fonts/cmap.rs: Format12::get 199, each_code_point 230"]}
{"id": "C25", "title": "Glyph widths follow the metrics table with the last width repeated", "statement": "For every glyph id below the number of metrics the width is that record's advance divided by the units per em; for others it is the last record's; a table without metrics gives an error, never an out-of-bounds read.", "quantifier": "all fonts and glyph ids", "why_tests_cant": "Every count and id.", "anchors": ["victor/src/fonts/mod.rs: glyph_width 153, to_ems 171"]}
{"id": "C26", "title": "Restoring a saved shaped segment undoes everything since", "statement": "Saving, appending any text and restoring yields the saved segment exactly; the segment's advance width always equals the sum of its glyph advances, and its glyphs are the glyphs of its characters in order.", "quantifier": "all texts, fonts and save points", "why_tests_cant": "Any interleaving of appends and restores.", "anchors": ["victor/src/text.rs: ShapedSegment append_char 48, save 55, restore 62"]}
{"id": "C27", "title": "Plain-text layout places all text, in order, within the page", "statement": "Laying out plain text shows every part of the text between two break opportunities exactly once, in order, on lines and pages. A line ends at each required break, and otherwise only when the next part does not fit; a line is wider than the text area only if one part is too wide by itself (parts of width zero may precede it). Positions follow from the margins, the line height and the widths. Only a character that the font cannot shape gives an error.", "quantifier": "all texts, widths, page sizes and line-break opportunities", "why_tests_cant": "Pushback and page breaks interact over unbounded text.", "anchors": ["victor/src/text_plain.rs: layout 40, Rewind 135"]}
{"id": "C28", "title": "The cascade picks the declaration CSS says wins", "statement": "For each property, the declaration that takes effect is the one greatest in the order: important user-agent, important author (inline style after sheets), normal author, normal user-agent; then higher specificity; then later in source order.", "quantifier": "all sets of rules, specificities, origins and importance", "why_tests_cant": "Any number of rules in any order.", "anchors": ["victor/src/style/cascade.rs: finish 46, push_matching 56, MatchingDeclarations::cascade 76, style_for_element 85"]}
{"id": "C29", "title": "A declaration block applies its important and normal declarations separately and completely", "statement": "Parsing a declaration block keeps each valid declaration with its importance in order, and cascading normal (important) declarations applies precisely the normal (important) ones in order.", "quantifier": "all declaration lists", "why_tests_cant": "Bit-vector boundaries and any mix.", "anchors": ["victor/src/style/declaration_block.rs: parse 17, cascade_normal / cascade_important 50"]}
{"id": "C30", "title": "An invalid declaration is ignored without harming its neighbours", "statement": "Any declaration that fails to parse contributes nothing, parsing never aborts, and all other declarations in the block take effect as if it were absent.", "quantifier": "all sequences of valid and invalid declarations", "why_tests_cant": "Error recovery state over sequences.", "anchors": ["victor/src/style/declaration_block.rs: parse 17, parse_value 79"]}
{"id": "C31", "title": "Two-phase cascading equals one in which font size is known first", "statement": "Computing values in two passes (early properties, then the others) gives each property the value of its winning declaration, with relative lengths resolved against the element's own final font size and font-size itself against the parent's.", "quantifier": "all lists of declarations over all properties", "why_tests_cant": "Order dependence between properties.", "anchors": ["victor/src/style/properties/macros.rs: if_early_cascade, if_late_cascade, ComputedValues::new 192", "victor/src/style/properties/mod.rs: Phase 93"]}
{"id": "C32", "title": "Inheritance and CSS-wide keywords", "statement": "With no declaration, inherited properties take the parent's computed value and others the initial value; inherit, initial and unset give the parent's, the initial, and whichever applies by the property's nature; the root's parent is the initial style.", "quantifier": "all styles and all properties", "why_tests_cant": "All properties times all keyword histories.", "anchors": ["victor/src/style/properties/macros.rs: cascade_css_wide_keyword_into 37, ComputedValues::new 192"]}
{"id": "C33", "title": "Computed style fix-ups hold for every element", "statement": "Every computed style has zero width for a border side whose style is none and the cascaded width otherwise; a floated or absolutely positioned element has the block-level counterpart of its display; otherwise display is as cascaded; the display of the cascade is kept beside; no other property changes; fixing up twice changes no value.", "quantifier": "all computed styles", "why_tests_cant": "Combinations of all property values.", "anchors": ["victor/src/style/values/box_.rs: blockify 51, fixup 67", "victor/src/style/values/border.rs: fixup 30", "victor/src/style/properties/mod.rs: post_cascade_fixups 22"]}
{"id": "C34", "title": "Four-sided shorthands follow the CSS side order", "statement": "margin, padding and border-width/style/color shorthands with one to four values set top, right, bottom, left as CSS prescribes.", "quantifier": "all value lists of length 1..4", "why_tests_cant": "All lists and shorthands.", "anchors": ["victor/src/style/values/generic.rs: FourSides::parse 16"]}
{"id": "C35", "title": "Class, id and structural selectors match what CSS defines", "statement": "A class selector matches iff the name is one of the whitespace-separated words of the class attribute; an id selector iff the id attribute is that name; sibling navigation goes to the nearest sibling element and skips other nodes; :empty holds iff there is no element child and no non-empty text; :root iff the parent is not an element; :link for a, area and link with an href.", "quantifier": "all documents and names", "why_tests_cant": "All attribute strings and trees.", "anchors": ["victor/src/style/selectors.rs: has_class 229, is_empty 239, is_root 259, find_element 104"]}
{"id": "C36", "title": "Margin collapsing does not depend on order", "statement": "Adjoining margins collapse to the largest positive plus the most negative margin whatever the order and grouping in which they are adjoined.", "quantifier": "all lists of margins", "why_tests_cant": "Any number and order of margins.", "anchors": ["victor/src/layout/fragments.rs: CollapsedMargin 87"]}
{"id": "C37", "title": "Block children are stacked without overlap and the height is their extent", "statement": "In-flow block children of a block container are placed one after the other: each border box starts where the previous one ended plus the collapsed margin between them, floats and out-of-flow boxes take no space, and the content height is where the last one ended (with the trailing margin only when it does not collapse through).", "quantifier": "all child lists with all margins, sizes and collapse-through flags", "why_tests_cant": "Any sequences of children with collapse-through ones among them.", "anchors": ["victor/src/layout/flow/mod.rs: layout_block_level_children 106, place_block_level_fragment 114"]}
{"id": "C38", "title": "Parallel and sequential layout give the same result", "statement": "Laying out the children of a block container in parallel, under any scheduling, yields the same fragments, positions and list of absolutely positioned boxes as laying them out one at a time.", "quantifier": "all trees and all schedules", "why_tests_cant": "Schedules cannot be enumerated by tests.", "anchors": ["victor/src/layout/flow/mod.rs: layout_block_level_children 106"]}
{"id": "C39", "title": "Horizontal box dimensions of blocks add up to the containing block", "statement": "For every in-flow block box, margins plus borders plus paddings plus width equal the containing block's width.", "quantifier": "all margins (length, percentage, auto), paddings, borders, widths, container sizes", "why_tests_cant": "Real-valued parameters with four auto combinations.", "anchors": ["victor/src/layout/flow/mod.rs: layout_in_flow_non_replaced_block_level 300"]}
{"id": "C40", "title": "Absolutely positioned boxes satisfy the CSS positioning equation on each axis", "statement": "On each axis, offsets plus margins plus padding plus border plus size equal the containing block's size on that same axis when at least one offset is not auto-resolved from static position, with auto margins split or zeroed as CSS defines.", "quantifier": "all offset/size/margin combinations and containing block sizes", "why_tests_cant": "Twelve auto combinations on two axes over reals.", "anchors": ["victor/src/layout/positioned.rs: solve_axis 130, layout 115"]}
{"id": "C41", "title": "Collapsible white space becomes single spaces across elements", "statement": "Text in an inline formatting context has every run of white space (also spanning inline element boundaries) reduced to at most one space, no space at the start, and its non-space characters unchanged and in order.", "quantifier": "all texts split over all inline structures", "why_tests_cant": "Runs may span any number of elements.", "anchors": ["victor/src/layout/flow/construct.rs: handle_text 194, handle_leading_whitespace 264"]}
{"id": "C42", "title": "Every box of the document is laid out in order whatever the nesting of blocks and inlines", "statement": "Box construction accepts every nesting of block-level, inline-level, floating and absolutely positioned elements, and the resulting boxes contain each element's text in document order.", "quantifier": "all box trees", "why_tests_cant": "Nesting unbounded; block-in-inline only in some.", "anchors": ["victor/src/layout/flow/construct.rs: handle_element 162, handle_block_level_element 336, end_ongoing_inline_formatting_context 472"]}
{"id": "C43", "title": "display:none subtrees lose their boxes and nothing else does", "statement": "When an element generates no box, all its descendants' stored boxes are removed, boxes of nodes outside the subtree are kept, and the operation terminates.", "quantifier": "all trees and subtree positions (first, middle, last child)", "why_tests_cant": "Termination and escape depend on position in the tree.", "anchors": ["victor/src/layout/dom_traversal.rs: unset_boxes_in_subtree 312"]}
{"id": "C44", "title": "Line breaking loses no text and terminates", "statement": "Breaking a text run into lines terminates, keeps every non-space character in order exactly once, drops only the spaces at which lines were broken, and a line that exceeds the available width has no earlier break opportunity.", "quantifier": "all texts, widths and fonts", "why_tests_cant": "Unbounded text and break positions.", "anchors": ["victor/src/layout/flow/inline.rs: TextRun::layout 271"]}
{"id": "C45", "title": "Logical and physical coordinates convert back and forth", "statement": "Converting sizes, sides and rectangles between physical and flow-relative coordinates is lossless in every writing mode in which it is supported, and horizontal/vertical and start/end are mapped as CSS Writing Modes defines.", "quantifier": "all values and writing modes", "why_tests_cant": "All writing modes by all values.", "anchors": ["victor/src/geom.rs: size_to_flow_relative 66, to_flow_relative 155, to_physical 284"]}
{"id": "C46", "title": "Painting puts each box at the sum of its ancestors' offsets, backgrounds behind contents", "statement": "Painting a fragment tree emits, in tree order, one rectangle per box with a non-transparent background covering exactly its border box, and text at its absolute position; parents' backgrounds come before their descendants' content.", "quantifier": "all fragment trees", "why_tests_cant": "Nesting depth unbounded.", "anchors": ["victor/src/paint.rs: paint_onto 36, 70"]}
{"id": "C47", "title": "Rendered page iteration is a faithful double-ended exact-size iterator", "statement": "Under any mixture of next, next-from-back, nth and len calls, pages come out each at most once, the reported length is the number still to come, and draining gives all page indexes in order.", "quantifier": "all call sequences and page counts", "why_tests_cant": "Interleavings of front and back calls.", "anchors": ["lester/src/poppler.rs: PagesIter 83"]}
{"id": "C48", "title": "PNG streaming reports the first I/O failure and stops touching the stream", "statement": "When reading or writing PNG data through a user's stream, if any call fails then the operation returns that first error, and the stream is not used again after an error; a panic in the stream is propagated to the caller after the C code has returned; otherwise the outcome is the C library's status.", "quantifier": "all callback sequences by the C library and all stream behaviours", "why_tests_cant": "The C library decides how many calls and when.", "anchors": ["lester/src/cairo.rs: with_c_callback 173, read_from_png 244, write_to_png 265"]}
{"id": "C49", "title": "Integer conversions at the C boundary never change a value", "statement": "A size passed to or received from the C libraries is converted exactly or the call fails; the pixel buffer's length is width times height and each in-bounds (x, y) maps to a distinct in-bounds index.", "quantifier": "all sizes", "why_tests_cant": "Boundaries of machine integers.", "anchors": ["lester/src/convert.rs: TryInto 30-101", "lester/src/cairo.rs: pixels 91, new 55"]}
{"id": "C50", "title": "An accepted font is what its tables say", "statement": "Whenever parsing a font file succeeds, the file is a TrueType file whose directory lists the required tables, the font's metrics are the numbers at the specified places of those tables, its name is the first PostScript name in a supported encoding, and its bytes are the file's.", "quantifier": "all byte strings", "why_tests_cant": "Files are unbounded in variety; field offsets and directory search must be right for all of them.", "anchors": ["victor/src/fonts/mod.rs: Font::parse 76, read_postscript_name 198, find_table 263", "victor/src/fonts/tables.rs", "proc-macros/src/lib.rs: derive_sfnt_table 16"]}
{"id": "C51", "title": "The last supported character map of a font is used", "statement": "A font file with a character map in a supported format and encoding is accepted, and the last such map in the cmap table's record list is the one used.", "quantifier": "all well-formed font files", "why_tests_cant": "Any number and order of encoding records.", "anchors": ["victor/src/fonts/cmap.rs: Cmap::parse 13", "victor/src/fonts/parsing.rs: next_back 275"]}
{"id": "C52", "title": "Justified lines fill the text area", "statement": "In justified plain text, every line of two parts or more that was broken because the next part does not fit starts at the left margin and ends exactly at the right margin, with equal non-negative spaces between its parts; lines ended by a required break, and lines of text that is not justified, have no space added.", "quantifier": "all texts, widths and page sizes", "why_tests_cant": "The sum of positions along a line depends on every width on it.", "anchors": ["victor/src/text_plain.rs: layout 106-122"]}
{"id": "C53", "title": "Plain-text documents have no blank pages", "statement": "When a non-empty plain text is laid out, every page of the document shows some text.", "quantifier": "all texts, widths and page sizes", "why_tests_cant": "Depends on where the last line of an arbitrary text falls.", "anchors": ["victor/src/text_plain.rs: layout 74-131"]}
{"id": "C54", "title": "Plain text stays above the bottom margin", "statement": "On a page of plain text, no line other than the first of its page extends below the bottom margin.", "quantifier": "all texts, line heights and page sizes", "why_tests_cant": "Depends on how the line height divides the page height.", "anchors": ["victor/src/text_plain.rs: layout 125-129"]}
{"id": "C55", "title": "Keywords, property names and units are ASCII case-insensitive", "statement": "The value of a declaration is valid and sets the same values whatever the case of its property name, of the units of its dimensions and of its keywords.", "quantifier": "all declarations", "why_tests_cant": "All spellings of all keywords.", "anchors": ["victor/src/style/values/mod.rs: CssWideKeyword::parse", "victor/src/style/properties/macros.rs: property_data_by_name", "proc-macros/src/style.rs: derive_parse", "victor/src/style/values/length.rs: parse"]}
{"id": "C56", "title": "The border-top shorthand takes its parts in any order and resets what is missing", "statement": "border-top accepts precisely the non-empty lists of a line style, a colour and a width, each at most once and in any order; it sets each of its three longhands to the value given or resets it to its initial value.", "quantifier": "all lists of tokens", "why_tests_cant": "All orders and lengths of values.", "anchors": ["victor/src/style/values/border.rs: BorderSide::parse 54, parse_one_or_more", "victor/src/style/properties/definitions.rs: border-top"]}
{"id": "C57", "title": "Each longhand can be set by its CSS name", "statement": "For each supported longhand property, a declaration with its CSS name and a value valid for it sets that property to that value.", "quantifier": "all supported longhands and values", "why_tests_cant": "All properties times all values.", "anchors": ["victor/src/style/properties/definitions.rs", "victor/src/style/properties/macros.rs: property_data_by_name 255"]}
{"id": "C58", "title": "Layout of any box tree terminates without panicking", "statement": "Layout of a document returns for every box tree, viewport size and scheduling: no recursion is unbounded, no assertion on margins, fragments or writing modes fails, and no index into fragments is out of range.", "quantifier": "all box trees of any depth whose text the font can shape, all viewports and schedules", "why_tests_cant": "Unbounded trees and all schedules.", "anchors": ["victor/src/layout/flow/mod.rs: layout_block_level_children 106, place_block_level_fragment 114", "victor/src/layout/positioned.rs: adjust_static_positions 306", "victor/src/layout/flow/inline.rs: layout 69", "victor/src/layout/flow/root.rs: layout 88"]}
{"id": "C59", "title": "Relative positioning moves a block by its offsets and nothing else", "statement": "A block box with position: relative is displaced from its position in normal flow by left (or else -right) and top (or else -bottom), percentages being of the size of the containing block; without it the offsets have no effect; and the positions of the other boxes do not depend on it.", "quantifier": "all styles, containing blocks and contents", "why_tests_cant": "Real-valued offsets and sizes, percentages and auto combinations.", "anchors": ["victor/src/layout/mod.rs: relative_adjustement 106", "victor/src/layout/flow/mod.rs: layout_in_flow_non_replaced_block_level 300"]}
{"id": "C60", "title": "Inline content flows along lines that are stacked", "statement": "The texts of an inline formatting context are placed on lines in document order, each where the previous one ended plus the padding, border and margin of the inline boxes that end and begin in between; a new line begins at the start edge, below the previous one; relatively positioned inline boxes are displaced by their offsets on every line; an absolutely positioned box without offsets is where it would have been in the flow.", "quantifier": "all trees of inline boxes and texts, containing blocks and fonts", "why_tests_cant": "Nesting of inline boxes and the number of lines are unbounded; boxes are split at any depth.", "anchors": ["victor/src/layout/flow/inline.rs: InlineFormattingContext::layout 69, start_layout 176, finish_layout 225, TextRun::layout 271, finish_line 150"]}
{"id": "C61", "title": "A line is broken only when the next word does not fit the containing block", "statement": "No line of a text ends while the next word would still fit on it within the width of the containing block.", "quantifier": "all texts, starting positions and widths", "why_tests_cant": "Depends on the position at which the text begins and on all widths.", "anchors": ["victor/src/layout/flow/inline.rs: TextRun::layout 271-343"]}
{"id": "C62", "title": "Each character is rendered with the style of the element that contains it", "statement": "In the boxes made for a document, each character that is not white space is in a text run with the computed style of the element whose child the text is.", "quantifier": "all documents and styles", "why_tests_cant": "Depends on how elements and texts follow one another at any depth.", "anchors": ["victor/src/layout/flow/construct.rs: handle_text 194, last_text 203", "victor/src/layout/dom_traversal.rs: traverse_element 91"]}
{"id": "C63", "title": "White space between words is not lost", "statement": "Each paragraph of the document (text in flow between block boundaries) appears in the boxes with each run of white space made one space, and white space at the start removed, wherever inline elements begin and end.", "quantifier": "all documents", "why_tests_cant": "White space can be at any place around element boundaries at any depth.", "anchors": ["victor/src/layout/flow/construct.rs: handle_text 194, handle_leading_whitespace 264"]}
{"id": "C64", "title": "Laying out a parsed document returns", "statement": "Whatever elements a document has and wherever they are, laying it out for the first time returns: it neither panics nor runs forever, and the characters that are displayed come out in document order.", "quantifier": "all document trees, style sheets that the parser accepts, viewports and divisions of the work between threads", "why_tests_cant": "Whether it returns depends on the position of each element in the tree and on the styles of all of them.", "anchors": ["victor/src/layout/flow/root.rs: Document::layout 4, BoxTreeRoot::construct 15", "victor/src/layout/dom_traversal.rs: traverse_children_of 53, traverse_element 91, unset_boxes_in_subtree 312"]}
{"id": "C65", "title": "The text of a document is in the PDF file", "statement": "Whenever a PDF file is made of a document, a reader of the file finds one page showing the glyphs of all the characters of the displayed elements that are not white space, each exactly once, in document order as long as nothing is absolutely positioned, and it is the same file however the work is divided between threads.", "quantifier": "all documents, style sheets, fonts, divisions of the work between threads", "why_tests_cant": "It is about the composition of styling, box construction, line breaking, layout, painting and PDF writing on arbitrary trees.", "anchors": ["victor/src/paint.rs: Document::to_pdf_bytes 8", "victor/src/layout/flow/mod.rs: BlockLevelBox::layout 240", "victor/src/layout/flow/inline.rs: layout 65"]}
{"id": "C66", "title": "A rendered page just fits its image", "statement": "Rendering a page at any resolution gives an image in which the page, at the scale used for drawing it, fits, and which would be too small with one pixel less in either direction; the page is drawn exactly once, on an opaque white image if a white backdrop was asked for and otherwise on a transparent one.", "quantifier": "all page sizes, resolutions, backdrops and print modes", "why_tests_cant": "sizes and resolutions are real numbers; rounding up must agree with the scale for each of them", "anchors": ["lester/src/poppler.rs: render_with_options, size_in_css_px", "lester/src/cairo.rs: ImageSurface::new_c_int"]}
{"id": "C67", "title": "Different pixels are reported differently", "statement": "The text that a failed pixel comparison prints has the value of each pixel in hexadecimal, and two different buffers never have the same text.", "quantifier": "all buffers of 32-bit pixels", "why_tests_cant": "injectivity over buffers of any length", "anchors": ["lester/src/lib.rs: pixels_to_hex, assert_pixels_eq"]}
{"id": "C68", "title": "A file that was written successfully is complete", "statement": "When writing an image to a file returns success, the file contains all the bytes of the PNG encoding.", "quantifier": "all images and all patterns of write failures", "why_tests_cant": "failures can happen at any write, also at the last", "anchors": ["lester/src/cairo.rs: write_to_png_file, write_to_png"]}
{"id": "C69", "title": "A longhand declaration has the meaning CSS gives it", "statement": "A declaration of a supported longhand property is accepted exactly if its value is a css-wide keyword or a single token (length, percentage, number zero, keyword, colour) that the property's grammar allows, and then the property gets the value that CSS gives to this token.", "quantifier": "all token lists, all supported longhand properties", "why_tests_cant": "there are unboundedly many values; a wrong keyword mapping or unit is only visible in the one value a test did not use", "anchors": ["victor/src/style/values/box_.rs: Display::parse", "victor/src/style/values/length.rs: SpecifiedLength::parse", "victor/src/style/values/border.rs", "victor/src/style/properties/definitions.rs"]}
{"id": "C70", "title": "A parser generated from an enum accepts the keyword of each variant", "statement": "For an enum with variants in CamelCase, the generated parser accepts an identifier exactly if it is the name of a variant in kebab-case, and returns this variant; different variants have different keywords; variants with a field are tried first, in order.", "quantifier": "all enums with distinct CamelCase variant names, all token lists", "why_tests_cant": "the macro is generic over enums; collisions of keywords or a missed variant depend on the names", "anchors": ["proc-macros/src/style.rs: derive_parse, camel_case_to_kebab_case", "victor/src/style/values"]}
{"id": "C71", "title": "Fields of font tables are read where the font format has them", "statement": "The generated accessors of a table read each field directly after the fields before it, at an aligned position, without overlap, inside the table, whose size is the sum of the sizes of the fields; structs for which this is not possible are rejected at compile time. For the tables used, these are the positions of the TrueType format.", "quantifier": "all struct definitions", "why_tests_cant": "the macro is generic over structs; reading another field's bytes yields plausible numbers for most fonts", "anchors": ["proc-macros/src/lib.rs: derive_sfnt_table", "victor/src/fonts/tables.rs"]}
{"id": "C72", "title": "A method of a tagged union runs the arm of the value's variant", "statement": "A method that is dispatched through a jump table runs exactly the block written for the variant of the value, with the fields of the value, for all enums and values; a match whose arms are missing, out of order or bind a wrong number of fields does not compile.", "quantifier": "all enums, all values of them in memory, all methods and arguments", "why_tests_cant": "the dispatch is unsafe code over the memory layout of arbitrary enums; a wrong offset may only matter for field types with another alignment", "anchors": ["victor/src/tagged_union_with_jump_tables.rs", "victor/src/style/properties/macros.rs"]}
{"id": "C73", "title": "Boxes do not depend on how threads are scheduled", "statement": "Laying out a document makes the same boxes, and stores the same boxes in the same elements, for every order in which the threads that finish deferred boxes run. No access to the layout data of an element conflicts with another. Afterwards each element that is displayed holds the box that it has in the box tree, elements with `display: contents` are marked, the others are as before; each box of the tree is that of the root element, an anonymous block, or held by exactly one element. Laying out again changes nothing.", "quantifier": "every document, every style system, every interleaving of the parallel tasks, every state of the layout data in which nothing is borrowed and no element with `display: none` has a box", "why_tests_cant": "The interleavings of the tasks cannot be enumerated, and a test runs the one that the scheduler takes.", "anchors": ["victor/src/layout/flow/construct.rs: BlockContainer::construct, handle_inline_level_element, handle_block_level_element, handle_absolutely_positioned_element, handle_float_element, IntermediateBlockLevelBox::finish", "victor/src/layout/dom_traversal.rs: BoxSlot, element_box_slot, traverse_element, traverse_children_of", "victor/src/layout/flow/root.rs: BoxTreeRoot::construct"]}
{"id": "C74", "title": "A failure of layout can be caught", "statement": "If boxes cannot be made of a document because it uses something that is not supported, the caller of layout gets a panic, which it can catch; the process is not aborted.", "quantifier": "every tree of styled elements", "why_tests_cant": "Which trees fail is an infinite set, and a test that aborts the process ends all tests.", "anchors": ["victor/src/layout/dom_traversal.rs: BoxSlot::drop", "victor/src/layout/flow/construct.rs: handle_inline_level_element, handle_block_level_element, end_ongoing_inline_formatting_context"]}
{"id": "C75", "title": "A PDF is written completely or an error is reported", "statement": "If writing a document to a stream or a file returns success, then exactly the bytes of the document have arrived there; otherwise a part of them from the start has arrived, and the error is one the stream returned. A stream that always takes something gets the whole document.", "quantifier": "every document, every stream (partial writes, interruptions and failures at any call)", "why_tests_cant": "A stream can fail at any of the many calls of write, and a test's stream fails at a few of them.", "anchors": ["victor/src/pdf/mod.rs: Document::write_to_pdf, Document::write_to_pdf_file", "victor/src/pdf/syntax.rs: PdfFile::write, CountingWrite", "victor/src/pdf/object.rs: Object::write, Dictionary::write"]}
{"id": "C76", "title": "Elements are displayed by default as HTML says", "statement": "Where the author of a document does not say otherwise, elements that HTML hides (head, script, style, title, anything with the attribute hidden...) are not displayed, those it makes blocks are blocks, others are inline; the body has a margin of 8px. A hidden input is not displayed whatever the author says. Elements of other languages are not affected.", "quantifier": "every element with any attributes, any style sheets of the author, any style of the parent", "why_tests_cant": "The combinations of element, attributes and author style sheets are unbounded.", "anchors": ["victor/src/style/user_agent.css", "victor/src/style/cascade.rs: USER_AGENT_STYLESHEET, style_for_element", "victor/src/style/rules.rs: RulesParser", "victor/src/style/selectors.rs: local_name, attr_matches"]}
{"id": "C77", "title": "The text of a document can be copied out of its PDF", "statement": "Copying the text of the page of a PDF file made of an HTML document gives the text of the elements that are displayed, in document order, whatever the font.", "quantifier": "every document, every font file with a well-formed character map, every division of the work between threads, every reader of PDF files that follows the specification", "why_tests_cant": "It relates an unbounded document and an arbitrary font file to the bytes of the PDF, through layout, the glyph numbers and the ToUnicode map.", "anchors": ["victor/src/paint.rs: to_pdf_bytes", "victor/src/fonts/mod.rs: glyph_id, each_code_point", "victor/src/pdf/convert.rs: add_font, show_text", "victor/src/text.rs: append_char"]}
{"id": "C78", "title": "The built-in font serves every document", "statement": "The font file included in the program is accepted when it is first used. Whatever its characters, a supported document is laid out and made into a PDF file with it. Text in the characters of the font, which include printable ASCII and Latin-1, can be copied from the PDF in exactly one way, and is the text displayed.", "quantifier": "every character, every document with supported styles, every division of the work between threads, every reader of PDF files that follows the specification", "why_tests_cant": "A test loads the font and lays out a few texts. That no character and no document can fail on this file, and that no two of its characters share a glyph, is a statement about all of them.", "anchors": ["victor/src/fonts/mod.rs: include_fonts, BITSTREAM_VERA_SANS, Font::parse, glyph_id", "victor/fonts/vera/Vera.ttf", "victor/src/layout/flow/inline.rs: TextRun::layout", "victor/src/paint.rs: to_pdf_bytes"]}
{"id": "C79", "title": "Documents without styles of their own become PDF files with their text", "statement": "A document in which the author leaves it to the user agent how elements are displayed, with the style sheet of the user agent and the built-in font, becomes a PDF file, and exactly one text can be copied from it: the characters of the elements that are displayed by default, in document order, but for white space. For XML documents this holds from the XML to the PDF file.", "quantifier": "every document tree, every XML document, every text in the characters of the font, every division of the work between threads", "why_tests_cant": "A test renders a few documents. That the parser, the cascade, box construction, layout, painting and the font subset agree on the text of every document is a statement about all trees.", "anchors": ["victor/src/dom/xml.rs: parse_xml", "victor/src/dom/mod.rs: Document::parse_stylesheets, root_element", "victor/src/style/cascade.rs: style_for_element", "victor/src/style/user_agent.css", "victor/src/paint.rs: to_pdf_bytes"]}
{"id": "C80", "title": "Text on the page looks as the cascade says", "statement": "Whenever a PDF file is made of a document that an HTML parser built, each glyph on its page has the font size and the colour that CSS gives to the element its character is in: those of the winning declaration among the user agent's rules, the enabled style elements and the style attribute, or else inherited or initial. All displayed characters are there, but for white space.", "quantifier": "every document tree, every set of style sheets and style attributes, every selector matcher, every font, every division of the work between threads", "why_tests_cant": "A test renders a few documents with a few rules. That the style sheets found, the cascade, inheritance down the tree, box construction, line breaking, painting and the PDF output agree on the look of every character is a statement about all documents and all style sheets.", "anchors": ["victor/src/dom/mod.rs: Document::parse_stylesheets, style_elements", "victor/src/style/cascade.rs: style_for_element, StyleSet::finish", "victor/src/layout/dom_traversal.rs: traverse_element", "victor/src/layout/flow/construct.rs: handle_text", "victor/src/layout/fragments.rs: TextFragment", "victor/src/paint.rs: to_pdf_bytes"]}
{"id": "C81", "title": "Lines and inline boxes are as tall as what is in them", "statement": "Everything on a line begins at the top of the line. The line is exactly as tall as the tallest thing on it, and so is every inline box, on each line that it is on, of what is in it there.", "quantifier": "every sequence and nesting of texts and inline boxes, with all styles, every containing block and every font", "why_tests_cant": "A test lays out a few lines. That the heights are right after any number of line breaks, at any depth of nesting, with any mixture of font sizes, is a statement about all states of the loop.", "anchors": ["victor/src/layout/flow/inline.rs: InlineFormattingContext::layout, LinesBoxes::finish_line, InlineBox::start_layout, PartialInlineBoxFragment::finish_layout, TextRun::layout"]}
{"id": "C82", "title": "Inline content fills its inline boxes without gaps", "statement": "What is on a line follows each other from the start of the line, without gaps and without overlap, with its margins, borders and padding; and what is in an inline box fills exactly the width of the inline box, so that backgrounds are as wide as the text in front of them.", "quantifier": "every sequence and nesting of texts and inline boxes without relative positioning, with all styles, every containing block and every font", "why_tests_cant": "A test lays out a few lines. The widths depend on positions that are relative to the enclosing inline boxes, and are reset at line breaks; that they fit is a statement about all nestings and all line breaks.", "anchors": ["victor/src/layout/flow/inline.rs: InlineFormattingContext::layout, InlineBox::start_layout, PartialInlineBoxFragment::finish_layout, TextRun::layout"]}
{"id": "C83", "title": "Absolutely positioned boxes without offsets stay where they would have been", "statement": "On an axis on which both offsets (`left` and `right`, or `top` and `bottom`) are `auto`, an absolutely positioned box is at its static position: its margin edge is where it would have been if the box were in the flow: at the left and below what precedes it for a block, after the text that precedes it for what would have been inline, however deep it is nested in boxes that are not positioned.", "quantifier": "every box tree, page size and division of the work between threads, every absolutely positioned box in it", "why_tests_cant": "A test lays out one nesting. The position is adjusted once per level of nesting, after the boxes of that level are placed and in lists that are merged from several threads; that the sum is right for every depth and every schedule is a statement about all trees.", "anchors": ["victor/src/layout/positioned.rs: AbsolutelyPositionedBox::layout, AbsolutelyPositionedFragment::adjust_static_positions, in_positioned_containing_block", "victor/src/layout/flow/mod.rs: layout_block_level_children, place_block_level_fragment", "victor/src/layout/flow/inline.rs: InlineFormattingContext::layout", "victor/src/layout/flow/root.rs: BoxTreeRoot::layout"]}
{"id": "C84", "title": "The offsets of an absolutely positioned box count from its nearest positioned ancestor", "statement": "Every absolutely positioned box is laid out exactly once, by the nearest box around it that is positioned, or by the page if there is none, after the flow of that box and in tree order; and `left` and `top` are the distances of its margin edges from the edges of the padding box of that box, or of the page.", "quantifier": "every box tree, page size and division of the work between threads, every absolutely positioned box in it", "why_tests_cant": "A test lays out one nesting. The pending boxes are handed up through lists that all levels and threads share; that none is lost, laid out twice or taken by the wrong ancestor is a statement about all trees.", "anchors": ["victor/src/layout/positioned.rs: in_positioned_containing_block, AbsolutelyPositionedFragment::layout", "victor/src/layout/flow/mod.rs: layout_in_flow_non_replaced_block_level, layout_block_level_children", "victor/src/layout/flow/root.rs: BoxTreeRoot::layout"]}
{"id": "C85", "title": "Every background is painted, in the colour that CSS gives", "statement": "In the PDF file that is made of a document, a reader finds for each element that has a box and a background that is not transparent a filled rectangle in the background colour that the cascade gives to the element. There are no other filled rectangles, but for further pieces of elements that are broken across lines. If no element is absolutely positioned and no element in a line has a background, the rectangles are painted in document order, so that elements are painted on top of those that they are in.", "quantifier": "every document, style sheet, font and division of the work between threads for which a file is made", "why_tests_cant": "A test compares the pages of a few documents. An element could lose its background, or get that of another, in the cascade, in box construction, in layout, in painting or in the file; only a statement about all documents excludes that.", "anchors": ["victor/src/paint.rs: Document::to_pdf_bytes, paint_onto", "victor/src/style/cascade.rs: style_for_element", "victor/src/layout/flow/construct.rs: BlockContainerBuilder", "victor/src/layout/flow/inline.rs: PartialInlineBoxFragment::finish_layout", "victor/src/layout/flow/mod.rs: layout_in_flow_non_replaced_block_level", "victor/src/pdf/mod.rs: Page::paint_rectangle"]}
{"id": "C86", "title": "Only text, elements and styles show on the page", "statement": "If a reader sees the same of two documents, the PDF files made of them are the same, byte by byte. What is seen of a document are its characters, where displayed elements begin and end, and the style that CSS gives to each, but not how much white space there is between words. So comments, processing instructions, the way text is cut into nodes, elements that are not displayed, the names and attributes of elements that do not change styles, the amount of white space, and the schedule of threads make no difference.", "quantifier": "every pair of documents, with any style sheets, fonts and divisions of the work between threads", "why_tests_cant": "A test can compare two documents that differ in one place. That no difference of this kind, in any place of any document, changes any byte can only be proved.", "anchors": ["victor/src/paint.rs: Document::to_pdf_bytes", "victor/src/layout/dom_traversal.rs: traverse_children_of, traverse_element", "victor/src/layout/flow/construct.rs: handle_text, handle_leading_whitespace, last_text", "victor/src/layout/flow/root.rs: BoxTreeRoot::construct"]}
{"id": "C87", "title": "Rules count only where they match, in the order of their specificity", "statement": "The PDF file of a document stays the same if rules are added to its style sheets, or removed, that match no element or are invalid, if the selectors of a rule become rules of their own, if a sheet is cut in two, or if a rule changes places with a neighbour that is not equally specific. The same holds for the style of each element. (Sheets that make the parser panic are C30.)", "quantifier": "every document and every two lists of style sheets that can be read, such that each element matches the same rules of each specificity in the same order", "why_tests_cant": "There is no end to the rules that could be added, the places where they could be, and the documents; a test tries a few.", "anchors": ["victor/src/style/cascade.rs: StyleSetBuilder::add_stylesheet, StyleSetBuilder::finish, StyleSet::push_matching, style_for_element", "victor/src/dom/mod.rs: parse_stylesheets", "victor/src/paint.rs: Document::to_pdf_bytes"]}
{"id": "C88", "title": "The page reads from top to bottom and from left to right", "statement": "On the page of a document whose elements flow normally (nothing floats, is positioned, has a set height, or has negative or percentage margins, borders or paddings, or a negative font size), the text is in lines that are below each other. The rectangles of the texts on a line do not overlap and are in order from left to right. Reading line by line, from left to right, gives the characters of the displayed elements of the document, in order.", "quantifier": "every HTML document of this kind, with any style sheets, any nesting of elements, any texts, any font whose glyphs have no negative widths, and any division of the work between threads", "why_tests_cant": "A test reads one page. That lines never overlap and never change places has to hold for each nesting of blocks and inline elements, all margins, borders, paddings and font sizes, and all ways in which lines break.", "anchors": ["victor/src/paint.rs: Document::to_pdf_bytes", "victor/src/layout/flow/mod.rs: place_block_level_fragment, layout_in_flow_non_replaced_block_level", "victor/src/layout/flow/inline.rs: InlineFormattingContext::layout, finish_layout, finish_line, TextRun::layout", "victor/src/layout/flow/construct.rs: BlockContainer::construct"]}
{"id": "C89", "title": "What is in an element is inside of it on the page", "statement": "On the page of a document whose elements flow normally (nothing floats, is positioned, has a set height, or has negative or percentage margins, borders or paddings, or a negative font size), boxes are nested: what is in the box of an element, at any depth, does not stick out of the box at the top, the bottom or the left, and text in a box that is on a line does not stick out of that box at the right either. Backgrounds cover the boxes and are painted below what is in them. Everything is in the box of the root element, which is not above or at the left of the page.", "quantifier": "every HTML document of this kind, with any style sheets, any nesting of elements, any texts, any font whose glyphs have no negative widths, and any division of the work between threads", "why_tests_cant": "A test looks at one nesting of boxes. That nothing escapes has to hold at all depths, with margins that collapse through any number of boxes, and for all ways in which lines break.", "anchors": ["victor/src/paint.rs: Document::to_pdf_bytes", "victor/src/layout/flow/mod.rs: place_block_level_fragment, layout_in_flow_non_replaced_block_level", "victor/src/layout/flow/inline.rs: InlineFormattingContext::layout, finish_layout, finish_line, start_layout", "victor/src/layout/fragments.rs: BoxFragment, CollapsedBlockMargins"]}
{"id": "C90", "title": "All of the text is on a page", "statement": "All of the text of a document whose elements flow normally is on a page of the PDF file: between the top and the bottom of a page, and not at the left of it.", "quantifier": "every HTML document of the kind that C89 is about, of any length", "why_tests_cant": "A test has a document of one length.", "anchors": ["victor/src/paint.rs: Document::to_pdf_bytes", "victor/src/layout/mod.rs: Document::layout, BoxTreeRoot::layout"]}
{"id": "C91", "title": "Objects of cairo and poppler are used while they are alive and released exactly once", "statement": "Whatever a program does with lester's images, documents, pages, strings and errors, in any order, and however cairo, poppler and the streams answer (errors and panics included): C functions are only called with objects that are alive, and when the values of the program are gone, every object that a C function gave has been released exactly once.", "quantifier": "every sequence of uses of lester's API, with values dropped in any order (also a document before its pages), and every way in which the C functions answer", "why_tests_cant": "A test runs a few sequences of calls and cannot make cairo fail at each place; a leak or a double release in a path after an error would not show.", "anchors": ["lester/src/cairo.rs: ImageSurface, CairoContext, read_from_png, write_to_png, with_c_callback!", "lester/src/poppler.rs: PdfDocument, Page, GlibString, render_with_options", "lester/src/errors.rs: GlibError"]}
{"id": "C92", "title": "The text of an element is in the boxes of the element", "statement": "Whenever a PDF file is made of a document whose elements flow without overlapping and are not centred: each character that is displayed, but for white space, is on the page once, in document order, in exactly the boxes of the elements around it (those with `display: contents` have none), nested as in the document and each in the style the cascade gives to its element, but for anonymous boxes; and it does not stick out of any of them at the top, at the bottom or at the left. So text stands on the backgrounds of the elements it is in, and on no others.", "quantifier": "all documents whose displayed elements are in normal flow, of any size and depth, all style sheets, fonts, line breaks and schedules", "why_tests_cant": "A test compares a few pages; text in the box of another element at some nesting, line break or whitespace position would not show.", "anchors": ["victor/src/layout/flow/construct.rs: BlockContainerBuilder", "victor/src/layout/flow/inline.rs: InlineFormattingContext::layout", "victor/src/layout/flow/mod.rs", "victor/src/paint.rs"]}
{"id": "C93", "title": "A block that has nothing of its own changes nothing on the page", "statement": "A block element without margins, borders, padding, background, width, height and position, with the colour and font size of its parent (a `div` without declarations), can be put around any run of the contents of a block, and taken away again, without a change on the page: whenever both documents are laid out, the same glyphs and rectangles are painted at the same places in the same order (but for rectangles without width or height), unless the block breaks a line, or something in it is computed from the height of the block around it. So margins collapse through it, and lines, widths and paint order do not depend on it.", "quantifier": "all pairs of documents of which one is the other with such blocks added, any number of them and at any depth, all margins, borders, floats and texts, all fonts, viewports and schedules", "why_tests_cant": "A test compares a few pairs of pages; that margins collapse wrongly through some nesting of blocks, for some signs of the margins, would not show.", "anchors": ["victor/src/layout/flow/mod.rs: layout_block_level_children, PlacementState, layout_in_flow_non_replaced_block_level", "victor/src/layout/flow/construct.rs: BlockContainerBuilder", "victor/src/layout/flow/inline.rs: InlineFormattingContext::layout"]}
{"id": "C94", "title": "What comes before a change stays where it is", "statement": "If two documents are the same up to some point, which can be anywhere (between two elements, within a block, within an inline element or in the middle of a text), then the text before it, but for the word that is not complete at that point, is painted with the same glyphs, in the same sizes and colours, at the same places on both pages, whatever follows: text is added at the end of a document, or its end is changed or removed, without moving what was there before. If the point is the beginning of a block, or the end of an element, the last word stays too.", "quantifier": "all pairs of documents without absolutely positioned and floating elements that are the same up to some point, at any depth, whatever follows in each; all margins, sizes, fonts, viewports and schedules", "why_tests_cant": "A test edits a few documents; that a margin of something added later collapses with the margins before it and so moves them, for some nesting and some signs of margins, would not show.", "anchors": ["victor/src/layout/flow/mod.rs: layout_block_level_children, PlacementState, layout_in_flow_non_replaced_block_level", "victor/src/layout/flow/construct.rs: BlockContainerBuilder", "victor/src/layout/flow/inline.rs: InlineFormattingContext::layout"]}
{"id": "C95", "title": "What is painted at a place on a page is at that place in its image", "statement": "If a document is written to PDF with victor and its pages are rendered with lester at dx by dy pixels per CSS px, the image of a page of w by h px has w*dx by h*dy pixels, rounded up, and every rectangle and every text run covers just those points of the image that are dx and dy times those it covers on the page, counted in CSS px from the top left corner: images are not turned, mirrored, moved or stretched, and text is upright. The image of a laid out document has 600*dx by 800*dy pixels.", "quantifier": "all sequences of pages, of any size that is not negative, with any rectangles and text runs; all resolutions, in both directions; all documents that can be laid out", "why_tests_cant": "A test renders one page at one or two resolutions (tests/pdf.rs has 4 by 4 px at 2 by 3); that two crates agree on the direction of the axes, the origin and the unit for every page, position and resolution is not settled by that.", "anchors": ["victor/src/pdf/convert.rs: CSS_TO_PDF_SCALE_X, CSS_TO_PDF_SCALE_Y, InProgressPage::new, show_text, paint_rectangle, drop", "lester/src/poppler.rs: size_in_css_px, render_with_options, PX_PER_PT", "victor/src/paint.rs: to_pdf_bytes"]}
{"id": "C96", "title": "Line breaks and indentation between blocks change nothing", "statement": "If white space is added or removed at the beginning of blocks, before blocks that come first or after another block, and after blocks, as line breaks and indentation in a source file, exactly the same PDF file is made, byte by byte.", "quantifier": "all pairs of documents that are the same but for white space in these places, at any depth, of any amount, in any number of text nodes, around blocks, floating and absolutely positioned elements, elements that are not displayed, and blocks in inline elements; all styles, fonts and schedules", "why_tests_cant": "A test has a few indented documents; that an anonymous box is made of white space next to some kind of element, which changes how margins collapse or paints a space, would show only with that nesting.", "anchors": ["victor/src/layout/flow/construct.rs: BlockContainerBuilder, handle_text, handle_leading_whitespace, end_ongoing_inline_formatting_context", "victor/src/layout/dom_traversal.rs: traverse_children_of"]}
{"id": "C97", "title": "Layout has no unit of its own", "statement": "If the font size and every length of the style of every element is multiplied by a positive number k, and so is the size of the page, then everything on the page is the same but k times as large: the same rectangles and the same glyphs in the same colours and in the same order, with corners, sizes, baselines and font sizes multiplied by k. Lines break at the same places, margins collapse in the same way, and the boxes take the same places with respect to each other. Percentages are kept. A document that is not laid out at all is not laid out at any other size either.", "quantifier": "all documents, all styles of their elements, all page sizes, all positive factors, all fonts, all schedules", "why_tests_cant": "A test lays out a document at one size. A constant number of pixels anywhere in layout (a default line height, a minimum width, a tolerance in the line breaker) would only show at another size, and only in a document that gets to that branch.", "anchors": ["victor/src/layout/flow/mod.rs: BlockFormattingContext, layout_block_level_children, layout_in_flow_non_replaced_block_level", "victor/src/layout/flow/inline.rs: layout, InlineBox, TextRun", "victor/src/layout/flow/root.rs: layout", "victor/src/layout/positioned.rs: layout", "victor/src/text.rs: ShapedSegment", "victor/src/paint.rs"]}
{"id": "C98", "title": "A paragraph does not get longer when there is more room for it", "statement": "If a paragraph is laid out in a wider containing block, in a smaller font, or without some of the words at its start or any of the text at its end, or all of these at once, it has no more lines and is not taller. If all of it is in one style its height is the number of lines times the height of a line in that style.", "quantifier": "all texts, all parts of them that begin at the start of a word, all widths of containing blocks, all font sizes that are not negative, and all fonts without negative widths", "why_tests_cant": "A test has a few texts at a few widths; that lines are broken too early at some width, so that a paragraph gets longer at that width only, would be missed.", "anchors": ["victor/src/layout/flow/inline.rs: layout, TextRun::layout, PartialInlineBoxFragment, LinesBoxes", "victor/src/text.rs: ShapedSegment::append, append_char"]}
{"id": "C99", "title": "What comes after a change moves as a whole", "statement": "If a document is changed in any way before some block, also within blocks that have no fixed height, the text after that point stays as it is: the same glyphs on the same lines, in the same sizes and colours and at the same distance from the left; all of it is further down or up by the same distance. If the blocks around the change have no background, this is so of the backgrounds after that point, too.", "quantifier": "all pairs of documents that are the same from the beginning of a block on, at any depth of blocks, and differ in any way before that; all styles, fonts, viewports and schedules", "why_tests_cant": "A test compares a few pairs of documents; that some change, such as one that makes a margin collapse or empties a block, moves parts of what comes later against each other would show only with that combination.", "anchors": ["victor/src/layout/flow/mod.rs: BlockContainer::layout, place_block_level_fragment, layout_in_flow_non_replaced_block_level", "victor/src/layout/flow/construct.rs: BlockContainerBuilder", "victor/src/layout/fragments.rs: CollapsedMargin, CollapsedBlockMargins"]}
{"id": "C100", "title": "Absolutely positioned elements do not affect what is in flow", "statement": "If the absolutely positioned elements of a document are taken out of it, everything else stays where it is on the page, in the same order, whatever was in these elements, however large they were and wherever they were moved to.", "quantifier": "all documents, all sets of absolutely positioned elements in them at any depth, with whatever contents and styles, and all sizes of the page", "why_tests_cant": "A test has a few absolutely positioned elements at a few places; that one of them takes up room, ends a line, or keeps margins from collapsing at some other place would be missed.", "anchors": ["victor/src/layout/flow/mod.rs: BlockLevelBox::layout, BlockContainer::layout, layout_in_flow_non_replaced_block_level", "victor/src/layout/flow/inline.rs: InlineFormattingContext::layout", "victor/src/layout/positioned.rs: AbsolutelyPositionedBox, AbsolutelyPositionedFragment", "victor/src/layout/flow/construct.rs: handle_absolutely_positioned_element"]}
{"id": "C101", "title": "What is in absolutely positioned elements does not move anything else", "statement": "If the absolutely positioned elements of a document are emptied and made transparent, wherever they are (between blocks, in the middle of a line, within inline elements or within floats), and whatever else is changed in their styles, everything else stays where it is on the page, in the same order.", "quantifier": "all documents, all absolutely positioned elements in them at any depth, with whatever contents and styles, and all sizes of the page", "why_tests_cant": "A test has a few absolutely positioned elements with a few contents; that some contents, or some size or offset, take up room at some other place would be missed.", "anchors": ["victor/src/layout/flow/mod.rs: BlockLevelBox::layout, BlockContainer::layout, layout_in_flow_non_replaced_block_level", "victor/src/layout/flow/inline.rs: InlineFormattingContext::layout", "victor/src/layout/positioned.rs: AbsolutelyPositionedBox, AbsolutelyPositionedFragment", "victor/src/layout/flow/construct.rs: handle_absolutely_positioned_element"]}
{"id": "C102", "title": "Only the declarations that win make a difference", "statement": "If style sheets and style attributes are changed so that for each element of a document and each property the same declaration still wins, or still none does, the same file is made of the document. In particular declarations of different properties in a rule may change places, a declaration may be left out if a later one in the rule is of the same property and importance, and a rule may be split in two.", "quantifier": "all documents, all pairs of sets of style sheets and style attributes in which the same declarations win, whatever else is in them", "why_tests_cant": "A test compares two versions of one style sheet; a declaration that loses but still leaves a trace, for some property, order or importance, would be missed.", "anchors": ["victor/src/style/cascade.rs: StyleSetBuilder, StyleSet::push_matching, MatchingDeclarations::cascade, style_for_element", "victor/src/style/declaration_block.rs: DeclarationBlock", "victor/src/style/properties/macros.rs: ComputedValues::new"]}
{"id": "C103", "title": "Changing colours changes nothing but colours", "statement": "If style sheets and style attributes are changed in declarations of colours only (color, background-color, border colours), everything stays where it is on the page, in the same order: the same backgrounds at the same places in the same sizes, the same glyphs at the same places in the same sizes, except for their colours and for backgrounds that are fully transparent in one of the two documents.", "quantifier": "all documents, all pairs of sets of style sheets and style attributes in which the same declarations of the other properties win, all sizes of the page", "why_tests_cant": "A test recolours a few elements; a colour that reaches the layout through some other property (a border, an inherited value, an initial value that depends on the colour) in some combination would be missed.", "anchors": ["victor/src/style/properties/definitions.rs: color, background_color, border_*_color", "victor/src/style/values/color.rs: Color, RGBA", "victor/src/layout/flow/mod.rs: layout_in_flow_non_replaced_block_level", "victor/src/layout/flow/inline.rs: InlineFormattingContext::layout", "victor/src/pdf/mod.rs: PaintingContext"]}
{"id": "C104", "title": "display: contents leaves no trace", "statement": "If an element with display: contents has the font size and the colour of what it is in, replacing it by its contents makes no difference: the same file is made, byte for byte, whatever else is in its style (margins, borders, positions, backgrounds), at any depth and for any number of such elements at once.", "quantifier": "all documents, all sets of elements with display: contents in them, whatever their other properties, all sizes of the page", "why_tests_cant": "A test dissolves one element in one context; that such an element ends a line, splits text, opens a box or lends its style at some other place would be missed.", "anchors": ["victor/src/layout/dom_traversal.rs: traverse_element, Contents", "victor/src/layout/element_data.rs: LayoutBox::DisplayContents", "victor/src/layout/flow/construct.rs: BlockContainerBuilder, handle_text", "victor/src/style/values/box_.rs: Display"]}
{"id": "C105", "title": "Generated conversions keep the variant and every field", "statement": "The conversion from specified to computed values that is derived for a struct or an enum keeps the variant of a value and converts each of its fields by itself, in its place, whether the fields have names or not, however many there are and in whatever order the specified type has them. The derived conversions from the types of single fields wrap a value in the variant that holds that type, unchanged. So computed lengths, percentages, auto and line widths are what their types say.", "quantifier": "all definitions of structs and enums, all values of them, all conversions of the fields", "why_tests_cant": "A macro can be run on a few definitions only; a name of a field that captures another one, or an arm for the wrong variant, for some other definition would be missed.", "anchors": ["proc-macros/src/style.rs: derive_from_specified, derive_specified_as_computed", "proc-macros/src/generic.rs: derive_from_variants", "victor/src/style/values/length.rs: LengthOrPercentage, LengthOrPercentageOrAuto, SpecifiedLength", "victor/src/style/values/border.rs: LineWidth"]}
{"id": "C106", "title": "Margins collapse where CSS says, and nowhere else", "statement": "The boxes on the page are those of the blocks of the document, in document order and nested like them. Going down the page, margins with nothing between them (no border, padding, line, set height, or edge of the root element or of a block formatting context of its own) take up the largest positive one plus the most negative one, whichever blocks they belong to: siblings, a block and its first or last child at any depth, and the two margins of a block with nothing in it. The border of every block begins and ends where these sums have it (CSS 2, section 8.3.1).", "quantifier": "all documents without absolutely positioned elements in which every line has text and no block without contents has height: 0; all style sheets, margins (also negative, percentages and auto), paddings, borders, heights, nestings and relative offsets; all fonts, page sizes and schedules", "why_tests_cant": "Which margins meet depends on every block between them; any nesting and any run of empty blocks can be in between.", "anchors": ["victor/src/layout/flow/mod.rs: layout_block_level_children 106, place_block_level_fragment 114, layout_in_flow_non_replaced_block_level 310-430", "victor/src/layout/fragments.rs: CollapsedMargin, CollapsedBlockMargins", "victor/src/layout/flow/construct.rs"]}
{"id": "C107", "title": "Properties make no difference where they do not apply", "statement": "If the properties of two documents have the same values wherever they apply, the same file is made of both, whatever the values are elsewhere: widths, heights and vertical margins of inline elements, offsets of elements that are not positioned, colours of borders that are not there, box properties of elements with display: contents, and anything in elements that are not displayed.", "quantifier": "all pairs of documents, style sheets and user agent sheets whose trees of styled nodes agree where properties apply; all fonts, page sizes and schedules; the root element is a block", "why_tests_cant": "It is about pairs of documents, and any element at any depth may have any value of any property that does not apply to it.", "anchors": ["victor/src/layout/flow/mod.rs: layout_in_flow_non_replaced_block_level", "victor/src/layout/flow/inline.rs: start_layout 176-222, finish_layout 224-268", "victor/src/layout/positioned.rs", "victor/src/layout/mod.rs: relative_adjustement", "victor/src/paint.rs"]}
{"id": "C108", "title": "Borders are painted", "statement": "A border whose style is not none and whose width is not zero is painted, in its colour, where the border area of the box is; a border whose style is none is not painted.", "quantifier": "all documents and style sheets, all colours, styles and widths of borders; all fonts, page sizes and schedules; the root element is a block", "why_tests_cant": "Any of the four borders of any box at any depth may have any colour.", "anchors": ["victor/src/paint.rs", "victor/src/style/properties/definitions.rs: border", "victor/src/style/values/border.rs"]}
{"id": "C109", "title": "Moving a positioned element moves what is in it, and nothing else", "statement": "If two documents differ only in the offsets (top, left, bottom, right) of positioned elements, what is on their pages differs only in places: a positioned element is moved by the difference of its offsets, together with everything in it, and nothing else is moved, added, lost, resized or reordered. This holds for relatively positioned elements with offsets that are no percentages, and along each axis for absolutely positioned elements that are placed at one side and whose size is not computed from the offsets.", "quantifier": "all pairs of documents, style sheets and user agent sheets whose trees of styled nodes differ only in such offsets; any number of moved elements, nested in any way; all fonts, page sizes and schedules", "why_tests_cant": "It is about pairs of documents of any size, with elements moved at any depth and by any distance, and about everything else on the page.", "anchors": ["victor/src/layout/mod.rs: relative_adjustement", "victor/src/layout/flow/mod.rs: layout_in_flow_non_replaced_block_level", "victor/src/layout/positioned.rs: AbsolutelyPositionedFragment::layout", "victor/src/layout/flow/inline.rs: finish_layout"]}
{"id": "C110", "title": "Selectors select what CSS defines", "statement": "An element is styled by a rule if and only if CSS says that the rule's selector selects it: all simple selectors of the last compound hold of the element (type, id, class, attribute, :root, :empty, :first-child, :last-child, :only-child, :nth-child and its relatives, :not), and some parent, ancestor, element just before or element before it, according to the combinator, is selected by the rest, through any sequence of combinators. Matching always ends and does not panic. Among rules that select it, specificity orders them as CSS says.", "quantifier": "all document trees, all elements in them, all selectors with any number of combinators and simple selectors, in all style sheets", "why_tests_cant": "It ranges over trees of any depth and width and selectors of any length. Matching goes back and tries other candidates, and skips those it deems hopeless, so mistakes show only for particular shapes of tree and selector together.", "anchors": ["victor/src/style/selectors.rs: matches, find_element, parent_element, prev_sibling_element, next_sibling_element, attr_matches, has_class, has_id, is_empty, is_root, is_html_element_in_html_document", "victor/src/dom/mod.rs: in_html_document", "victor/src/style/cascade.rs: StyleSet::push_matching"]}
{"id": "C111", "title": "Blocks and absolutely positioned boxes are where CSS says, and as large, on the page", "statement": "On the page of the PDF file, each block element and each absolutely positioned element has one box. Its horizontal place and its width, and its height if given, are those that CSS derives from its style and its containing block: for a block, the content area of the nearest block around it, with margins, borders, paddings, percentages, auto widths, auto margins and relative offsets resolved against it; for an absolutely positioned box, the padding area of the nearest positioned box around it, or the page.", "quantifier": "all documents and style sheets, all nestings of blocks, lines and positioned boxes, and all values of the properties of the box model", "why_tests_cant": "Each box is laid out relative to others, in passes that move boxes after they were laid out, so a mistake in one place is carried into everything inside it; only a statement about absolute places on the page, for boxes at any depth, shows that the relative ones add up.", "anchors": ["victor/src/layout/flow/mod.rs: layout_in_flow_non_replaced_block_level", "victor/src/layout/mod.rs: relative_adjustement", "victor/src/layout/positioned.rs: in_positioned_containing_block, AbsolutelyPositionedFragment::layout, solve_axis", "victor/src/paint.rs: Document::to_pdf_bytes, paint_onto"]}
{"id": "C112", "title": "The program writes the PDF of its input, or says that it did not, and touches nothing else", "statement": "If the program `victor input output` ends with success, then the output file is exactly the PDF file made of what was in the input file, also if both are the same file, and on its page is the text of the HTML document. Wherever the program is stopped, by an error, a panic or by being killed between two writes, no other file has changed, and the output file is as before or holds the PDF file or a beginning of it; it is as before if no PDF file can be made of the input. If the input can be read, a PDF file can be made, and the system takes all of it in pieces of any size with any interruptions, then the program succeeds.", "quantifier": "all arguments, all contents of all files, all points at which the program may be stopped, all answers of the operating system to its reads and writes", "why_tests_cant": "It ranges over all points at which a process can be killed and all ways in which the system can split or refuse writes.", "anchors": ["victor/src/main.rs: main", "victor/src/dom/html.rs: parse_html", "victor/src/paint.rs: Document::to_pdf_bytes"]}
{"id": "C113", "title": "Dates in fonts are converted to the instants that they denote", "statement": "A date in a font, a number of seconds since the beginning of 1904, is converted to the same instant of the system's clock, for dates before and after 1904, with and without overflow checks. If the clock has no such instant, the conversion panics.", "quantifier": "all 64-bit numbers of seconds, negative ones included", "why_tests_cant": "It ranges over all 64-bit numbers; the sign is handled by cases, and the least number has no negation.", "anchors": ["victor/src/fonts/types.rs: LongDateTime, From<LongDateTime> for SystemTime"]}
{"id": "C114", "title": "Plain text is laid out completely whatever the numbers are", "statement": "However the machine rounds, and also if sizes are zero, negative, infinite or not a number, laying out plain text ends without panicking. It fails, with a font error, exactly if some character (but for newlines at the end of a segment) has no glyph or no width, or the font cannot be embedded. Otherwise the document has pages of the requested size that show every part of the text between two break opportunities once and in order; lines are filled greedily and end where a break is required, pages are filled from the top; and a PDF reader that reads the file finds the parts with their glyphs where the layout put them. With exact numbers this is the layout of C27.", "quantifier": "all texts and breaks, all styles, all fonts, and all arithmetics in which zero is not more than zero", "why_tests_cant": "It ranges over all texts, all sizes and over how each operation rounds; comparisons that are false both ways decide when loops end.", "anchors": ["victor/src/text_plain.rs: layout, Style, css_units, Rewind", "victor/src/text.rs: ShapedSegment::naive_shape", "victor/src/pdf/mod.rs: Document, Page", "victor/src/pdf/convert.rs: show_text"]}
{"id": "C115", "title": "Layout of HTML ends and shows the whole text whatever the numbers are", "statement": "However the machine rounds, and also if lengths are huge, negative, infinite or not a number, making a PDF file of a document ends without panicking (for the documents, fonts and texts of C64), and always makes the same file, however the work is divided between threads. If no element floats and the numbers in the file can be read, a reader finds one page, on which are the glyphs of all the displayed characters, each once, but for white space: upright, in the font size and the colour of the character's own element, and in document order if no element is absolutely positioned. The rectangles on the page are one for each element that has a box and a background, in the colour of the background, and further pieces of such elements that are in lines.", "quantifier": "all documents, style sheets, fonts and schedules, and all arithmetics in which zero and the sum of two zeros equal zero; lengths of styles are any function of the style", "why_tests_cant": "It ranges over all documents and over how each operation rounds; comparisons with NaN are false both ways, and the assertions of layout compare floats for equality.", "anchors": ["victor/src/layout: all of it", "victor/src/layout/fragments.rs: CollapsedMargin", "victor/src/layout/flow/mod.rs: layout, place_fragment_considering_collapsing_margins", "victor/src/layout/flow/inline.rs: layout, TextRun::layout", "victor/src/layout/positioned.rs: AbsolutelyPositionedFragment::layout", "victor/src/geom.rs", "victor/src/paint.rs: to_pdf_bytes, paint_onto"]}
{"id": "C116", "title": "With the floats of the machine, plain text stays in reading order", "statement": "In single precision, where each operation rounds, a plain text that is laid out with a finite positive font size, a font without negative widths, and a line height, an ascender and margins that are not negative, is shown in reading order on each page: on a line each part of the text begins not before the end of the one before it, also when the line is justified; each further line begins at the left margin and is not above the line before it; and no coordinate is NaN, left of the margin or above the first line.", "quantifier": "all texts and breaks (up to 2^64), fonts and usual styles, with IEEE 754 binary32 arithmetic, also where it overflows to infinity", "why_tests_cant": "Rounding errors add up along a line and down a page; that they never reorder parts of the text is a property of all sums, not of those that tests compute.", "anchors": ["victor/src/text_plain.rs: layout", "victor/src/text.rs: ShapedSegment::naive_shape", "victor/src/pdf/convert.rs: Page::show_text, Page::set_alpha"]}
{"id": "C117", "title": "Glyph widths in the file are those of the font", "statement": "The widths of the glyphs of a font (and its bounding box, ascender and descender) are in the PDF file the lengths of the font file in thousandths of an em, rounded towards zero to an integer; of two lengths the longer is not written as the smaller number.", "quantifier": "all lengths of font files (16 bits), all numbers of units per em (1 to 65535) and all font files", "why_tests_cant": "The length is divided and multiplied in single precision before it is truncated; which of the 2^32 combinations are off by one is seen only by examining all of them.", "anchors": ["victor/src/fonts/mod.rs: Font::to_ems, Font::glyph_width", "victor/src/pdf/object.rs: From<Length<f32, Em>> for Object", "victor/src/pdf/convert.rs: InProgressDoc::add_font"]}
{"id": "C118", "title": "Colours keep their eight bits", "statement": "What is painted in a colour of CSS, of which red, green, blue and opacity are bytes, is read from the PDF file in a colour whose nearest bytes are the same, though the file has them as fractions of one in single precision and shares one opacity between all that agree in sixteen bits; what is painted before a colour is set is opaque black. This holds of all rectangles and texts on pages, and of each glyph of an HTML document, for the colour of its element, and each rectangle, for the background of its element.", "quantifier": "all histories of painting on pages with all 2^32 colours, in IEEE 754 binary32 arithmetic; all HTML documents without floating elements of which a file is made", "why_tests_cant": "That two opacities never share an entry of the table, nor a component rounds to another byte, is about all pairs of colours and all orders of painting.", "anchors": ["victor/src/primitives.rs: From<cssparser::RGBA> for RGBA", "victor/src/pdf/convert.rs: Page::set_color, Page::set_alpha", "victor/src/paint.rs"]}
{"id": "C119", "title": "Numbers in PDF files are PDF numbers", "statement": "Whatever numbers a page is painted with, a PDF reader reads the very same single precision numbers from the file, and so paints the page. (PDF has no exponents, and no words for infinity.)", "quantifier": "all single precision numbers, whatever digits the decimal printer finds for them; all histories of painting on pages; all HTML documents without floating elements of which a file is made", "why_tests_cant": "Whether a number is printed in a form that PDF has depends on its size: it is about all 2^32 of them, and the numbers in a file are results of arithmetic on all lengths of a document.", "anchors": ["victor/src/pdf/object.rs: Object::write (Object::Float)", "victor/src/pdf/convert.rs", "victor/src/paint.rs"]}
{"id": "C120", "title": "Rounding does not change where lines are broken", "statement": "With single precision numbers, a paragraph is broken into the lines that exact arithmetic gives. If the number of units per em of the font is a power of two, as it is for the built-in font, texts are measured without any rounding; lines are broken only where the next word does not fit, and a line that could be broken sticks out of its block by one rounding at most (a part in 2^23). If font size and width of the block are whole numbers of pixels, the lines are exactly those of exact arithmetic. The i-th line is 1.2 i font sizes below the first, but for i(i+8) parts in 2^24 of the font size, for up to 4096 lines.", "quantifier": "all texts without words wider than 2^22 font units, all fonts with a power of two of units per em, all font sizes and all block widths up to 2^23 font units", "why_tests_cant": "Single precision addition is not associative and rounds most sums: whether the sum of the widths of any sequence of glyphs is exact, and on which side of the width of any block it is, is about all texts and fonts.", "anchors": ["victor/src/layout/flow/inline.rs: TextRun::layout", "victor/src/text.rs: ShapedSegment::append", "victor/src/fonts/mod.rs: Font::glyph_width, Font::to_ems"]}
{"id": "C121", "title": "Justified lines fill the text area in spite of rounding", "statement": "With single precision numbers, in a justified plain text every line of two segments or more that was ended because the next segment does not fit starts at the left margin and ends at the right margin, with equal gaps that are not negative, but for roundings: a gap is wrong by at most 9 parts in 2^24 of the page width, and the end of the line by at most 12 such parts for each segment of the line.", "quantifier": "all texts and breaks, all fonts without negative widths, all usual styles, pages up to 2^100 pixels wide, lines of up to 2^17 segments", "why_tests_cant": "The widths, the gap and each place are rounded, and the errors add up along a line: that they stay small is about every sequence of widths.", "anchors": ["victor/src/text_plain.rs: layout 79-122", "victor/src/fonts/mod.rs: Font::to_ems"]}
{"id": "C122", "title": "Lines of plain text are at equal distances in spite of rounding", "statement": "With single precision numbers, the baseline of the j-th line of every page of a plain text is j line heights below the first, which is below the top margin as the style says (with half of the space that the font size leaves above the text), but for roundings: at most 3 j + 9 parts in 2^24 of the height of the page and a line together.", "quantifier": "all texts and breaks, all fonts, all styles with sizes that are not negative, and between 2^-100 and 2^100 pixels", "why_tests_cant": "Each line is placed by one more rounded addition: that the errors stay small is about all heights and all numbers of lines.", "anchors": ["victor/src/text_plain.rs: layout 40-60, 74-130"]}
{"id": "C123", "title": "Boxes of whole pixels are not rounded", "statement": "With single precision numbers, the layout of a document that consists of blocks whose lengths are all in whole pixels (or in halves, quarters, … of them) is the one that mathematics gives: every position and size of every box is exactly the same number, through margins that collapse, auto margins, auto widths and heights and relative positions. So boxes that should touch do touch, without seams.", "quantifier": "all trees of blocks of any depth and width without text and absolutely positioned elements, all lengths that are multiples of 2^-k pixels, as long as the width of the page and 16 times the sum of all lengths are less than 2^(23-k) pixels (for whole pixels, some half a million pixels), all divisions of the work between threads", "why_tests_cant": "It is about every number that is computed for every box of every tree. A test compares some boxes of some documents; one addition that needs one more bit would be enough to make it false.", "anchors": ["victor/src/layout/flow/mod.rs: layout_block_level_children 106-237, layout_in_flow_non_replaced_block_level 300-439", "victor/src/layout/fragments.rs: CollapsedMargin", "victor/src/layout/mod.rs: relative_adjustement"]}
{"id": "C124", "title": "Backgrounds are on the page where CSS puts them", "statement": "The PDF file of a document that consists of blocks whose lengths are in whole pixels (or in halves, quarters, … of them) has a page on which a reader finds exactly one rectangle for each block with a background that is not transparent, those of outer blocks before those of inner ones, and nothing else. The corner and the size that the reader finds in the text of the file are exactly those that the block has by the rules of CSS, in pixels from the top left of the page, including its padding and border; the colour and the opacity have the same bytes as in the style of the block.", "quantifier": "all documents whose boxes are blocks without text and absolutely positioned elements, all lengths that are multiples of 2^-k pixels with k up to 18, if they are not too large for the depth of the tree; all colours; all divisions of the work between threads; all fonts that can be embedded", "why_tests_cant": "It goes through all steps from the style to the bytes of the file, with the rounding of single precision numbers in the layout, in the sums over the ancestors of a block, in decimal notation and in the components of colours, for trees of any size. A test compares a few files.", "anchors": ["victor/src/layout/mod.rs", "victor/src/paint.rs: to_pdf_bytes 8-33, paint_onto 37-89", "victor/src/pdf/mod.rs", "victor/src/primitives.rs: RGBA 24-28"]}
{"id": "C125", "title": "Rounding changes no line of a document, and moves nothing to the left or to the right", "statement": "In a document of blocks, inline elements and text whose lengths are in whole pixels (or in halves, quarters, … of them), with the built-in font, every box, line and piece of text has exactly the horizontal position and the width that it would have if the program computed with the numbers of mathematics, and the same glyphs are in the same lines.", "quantifier": "all documents without absolutely positioned elements whose lengths, font sizes and font sizes divided by the units per em are multiples of 2^-k pixels, if no nesting of blocks and no paragraph is too long for k (for text of 16 pixels, k = 7 and about 65000 pixels, of which a paragraph counts 4 times its length on one line); any number of blocks, depth of inline elements, characters and division of the work between threads; any font with a power of two units per em", "why_tests_cant": "Whether a line is broken depends on a comparison of sums of rounded numbers; a test finds the break to be right for some texts, not for all.", "anchors": ["victor/src/layout/flow/inline.rs: InlineFormattingContext::layout 69-146, InlineBox::start_layout 176-221, PartialInlineBoxFragment::finish_layout 225-267, TextRun::layout 271-344", "victor/src/layout/flow/mod.rs: layout_in_flow_non_replaced_block_level 300-439", "victor/src/text.rs: ShapedSegment"]}
{"id": "C126", "title": "Backgrounds and texts are in the PDF file exactly where CSS puts them, from left to right", "statement": "In a document of blocks, inline elements and text whose lengths are in whole pixels (or in halves, quarters, … of them), the page of the PDF file has, in order, the backgrounds and the texts of the document; the left side and the width of each background and the start of each text are exactly those that they would have if the program computed with the numbers of mathematics; the glyphs are the same, and the colours have the same bytes.", "quantifier": "all documents without absolutely positioned elements whose lengths, font sizes and font sizes divided by the units per em are multiples of 2^-k pixels, if the depth of the fragments times the extent of the document is not too large for k; any number of blocks, lines and characters and division of the work between threads; any font with a power of two units per em", "why_tests_cant": "The positions in the file are sums of rounded numbers over all the boxes around something; a test finds them right for some documents, not for all.", "anchors": ["victor/src/paint.rs: Document::to_pdf_bytes 8-33, Fragment::paint_onto 37-69, BoxFragment::paint_onto 71-89", "victor/src/pdf/mod.rs: Page::set_color, paint_rectangle, show_text 59-74", "victor/src/layout/flow/inline.rs: InlineFormattingContext::layout 69-146"]}
{"id": "C127", "title": "Rounding moves nothing far up or down", "statement": "In a document of blocks, inline elements and text whose lengths are in whole pixels (or in halves, quarters, … of them), every vertical position and height in the layout is a finite number that differs by at most n·m/2^23 pixels from what it would be if the program computed with the numbers of mathematics, where n is about the number of blocks and lines below each other, added up over the blocks inside each other, and m is the sum of the heights and lengths in the document. For a page full of text this is far less than a pixel, and no error grows faster than that.", "quantifier": "all documents without absolutely positioned elements whose lengths, font sizes and font sizes divided by the units per em are multiples of 2^-k pixels, if the extent of the document is not too large for k; any number of blocks, lines and characters (up to n = 2^23 and m = 2^100) and division of the work between threads; any font with a power of two units per em", "why_tests_cant": "Errors of rounding add up with the number of lines and blocks; a test shows their sum for some documents, not for all.", "anchors": ["victor/src/layout/flow/inline.rs: Lines::finish_line 150-172, finish_layout 225-262, TextRun::layout 271-345", "victor/src/layout/flow/mod.rs: layout_block_level_children 106-237, layout_in_flow_non_replaced_block_level 300-400", "victor/src/layout/fragments.rs: CollapsedMargin 86-116"]}
{"id": "C128", "title": "Everything on the page of the PDF file is where CSS puts it, but for a small part of a pixel", "statement": "In a document of blocks, inline elements and text whose lengths are in whole pixels (or in halves, quarters, … of them), the page of the PDF file has, in order, the backgrounds and the texts of the document, with the same glyphs and colours as if the program computed with the numbers of mathematics. Each is exactly at its horizontal position, and its vertical position, and the height of a background, differ from the exact ones by at most a bound that grows with the number of blocks and lines below each other, with their depth and with their height: for a short document far less than a pixel.", "quantifier": "all documents without absolutely positioned elements whose lengths, font sizes and font sizes divided by the units per em are multiples of 2^-k pixels, if the depth of the fragments times the extent of the document is not too large for k; any number of blocks, lines and characters and division of the work between threads; any font with a power of two units per em", "why_tests_cant": "Positions in the file are sums of rounded numbers over all blocks and lines before something and over all boxes around it; a test finds them right for some documents, not for all.", "anchors": ["victor/src/paint.rs: Document::to_pdf_bytes 8-33, Fragment::paint_onto 37-69, BoxFragment::paint_onto 71-89", "victor/src/pdf/mod.rs: Page::set_color, paint_rectangle, show_text 59-74", "victor/src/layout/flow/mod.rs: layout_block_level_children 106-237, layout_in_flow_non_replaced_block_level 300-400", "victor/src/layout/flow/inline.rs: Lines::finish_line 150-172, finish_layout 225-262, TextRun::layout 271-345"]}
