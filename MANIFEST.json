{
 "claims": [
  {
   "property": "C01",
   "status": "proved",
   "theorems": [
    "Verif.Dom.C01_history_wellformed",
    "Verif.Dom.C01_step_wellformed",
    "Verif.Dom.C01_forest_unique",
    "Verif.Dom.C01_links_agree"
   ],
   "note": "Invariant over every legal sequence of tree-builder calls."
  },
  {
   "property": "C02",
   "status": "proved",
   "theorems": [
    "Verif.Dom.C02_append",
    "Verif.Dom.C02_insertBefore",
    "Verif.Dom.C02_detach"
   ],
   "note": "Refinement to operations on child lists."
  },
  {
   "property": "C03",
   "status": "proved",
   "theorems": [
    "Verif.Dom.C03_document_order",
    "Verif.Dom.C03_link_elements"
   ],
   "note": ""
  },
  {
   "property": "C04",
   "status": "proved",
   "theorems": [
    "Verif.Dom.C04_append_text",
    "Verif.Dom.C04_insert_text_before"
   ],
   "note": ""
  },
  {
   "property": "C05",
   "status": "partial",
   "theorems": [
    "Verif.Dom.C05_reparent_partial",
    "Verif.Dom.C05_reparent_violated",
    "Verif.Dom.C05_reparent_violated_witness"
   ],
   "note": "The code moves only the first child: the property is false for two or more children; proved for at most one."
  },
  {
   "property": "C06",
   "status": "proved",
   "theorems": [
    "Verif.Dom.C06_parse_xml",
    "Verif.Dom.C06_parse_xml_error"
   ],
   "note": "From the reader's events on."
  },
  {
   "property": "C07",
   "status": "partial",
   "theorems": [
    "Verif.Dom.C07_style_elements",
    "Verif.Dom.C07_xml_violated",
    "Verif.Dom.C07_xml_violated_witness"
   ],
   "note": "Proved for HTML; false for XML documents, where no style element is registered."
  },
  {
   "property": "C08",
   "status": "proved",
   "theorems": [
    "Verif.Dom.C08_merge",
    "Verif.Dom.C08_add_attrs"
   ],
   "note": ""
  },
  {
   "property": "C09",
   "status": "proved",
   "theorems": [
    "Verif.Dom.C09_root_element"
   ],
   "note": ""
  },
  {
   "property": "C10",
   "status": "partial",
   "theorems": [
    "Verif.Pdf.C10_roundtrip_partial",
    "Verif.Pdf.C10_injective_partial",
    "Verif.Pdf.C10_contexts",
    "Verif.Pdf.C10_name_roundtrip_iff",
    "Verif.Pdf.C10_example",
    "Verif.Pdf.C10_violated_name",
    "Verif.Pdf.C10_violated_literal"
   ],
   "note": "Proved for all objects whose names have no '#' and whose literal strings have no carriage return, under stated assumptions on the text of floats; the two excluded cases are refuted by witnesses because the writer does not escape them."
  },
  {
   "property": "C100",
   "status": "partial",
   "theorems": [
    "Verif.Layout.C100_settled_partial",
    "Verif.Layout.C100_pages_partial",
    "Verif.Layout.C100_line_violated",
    "Verif.Layout.C100_percentage_violated"
   ],
   "note": "Proved for absolutely positioned elements that come between blocks, at any depth. Missing: those in lines (C100_line_violated), in inline elements and in floats, and inline elements moved by a percentage of a height (C100_percentage_violated)."
  },
  {
   "property": "C101",
   "status": "proved",
   "theorems": [
    "Verif.Layout.C101_filled",
    "Verif.Layout.C101_pages"
   ],
   "note": "Examples: exampleDocument2_filled (two documents) and line_filled (in the middle of a line). That an absolutely positioned element that is there at all can change line breaks is C100_line_violated."
  },
  {
   "property": "C102",
   "status": "proved",
   "theorems": [
    "Verif.Style.C102_last",
    "Verif.Style.C102_exchange",
    "Verif.Style.C102_overridden",
    "Verif.Style.C102_split",
    "Verif.Style.C102_block",
    "Verif.Layout.C102_document"
   ],
   "note": "C102_document is the property; the others give changes that its hypothesis covers. Example: last_same."
  },
  {
   "property": "C103",
   "status": "proved",
   "theorems": [
    "Verif.Layout.C103_recolored",
    "Verif.Layout.C103_total",
    "Verif.Layout.C103_pages",
    "Verif.Layout.C103_document",
    "Verif.Layout.C103_sheets"
   ],
   "note": "C103_recolored is for trees of styled nodes, C103_document for style sheets and style attributes, C103_sheets gives changes that its hypothesis covers. Example: look_recolored."
  },
  {
   "property": "C104",
   "status": "proved",
   "theorems": [
    "Verif.Layout.C104_dissolved",
    "Verif.Layout.C104_bytes",
    "Verif.Layout.C104_total"
   ],
   "note": "Example: exampleDocument2_dissolved."
  },
  {
   "property": "C105",
   "status": "proved",
   "theorems": [
    "Verif.Macros.C105_specified",
    "Verif.Macros.C105_variants",
    "Verif.Macros.C105_lengths"
   ],
   "note": "C105_lengths: the computed values of the style model are those of the generated code."
  },
  {
   "property": "C106",
   "status": "partial",
   "theorems": [
    "Verif.Layout.C106_margins_partial",
    "Verif.Layout.C106_pages_partial",
    "Verif.Layout.C106_asides_partial",
    "Verif.Layout.C106_asides_pages_partial",
    "Verif.Layout.C106_height_violated",
    "Verif.Layout.C106_line_violated"
   ],
   "note": "C106_asides_partial: with absolutely positioned elements between blocks. Missing: absolutely positioned elements in lines, floats and lines without text (C106_line_violated), and blocks without contents with height: 0 (C106_height_violated). Examples: marginDocument_example, sideDocument_margins."
  },
  {
   "property": "C107",
   "status": "partial",
   "theorems": [
    "Verif.Layout.C107_applies_partial",
    "Verif.Layout.C107_bytes_partial",
    "Verif.Layout.C107_total_partial",
    "Verif.Layout.C107_violated"
   ],
   "note": "Missing: vertical margins of inline elements do make a difference (C107_violated), and the root element is a block. Example: applyDocument_example."
  },
  {
   "property": "C108",
   "status": "partial",
   "theorems": [
    "Verif.Layout.C108_none_partial",
    "Verif.Layout.C108_paint_violated",
    "Verif.Layout.C108_bytes_violated"
   ],
   "note": "Borders without style are not painted (C108_none_partial); that others are painted is false for every document (C108_paint_violated, C108_bytes_violated). Example: borderDocument_example."
  },
  {
   "property": "C109",
   "status": "partial",
   "theorems": [
    "Verif.Layout.C109_moved_partial",
    "Verif.Layout.C109_total_partial",
    "Verif.Layout.C109_pages_partial",
    "Verif.Layout.C109_inline_violated"
   ],
   "note": "Missing: relatively positioned inline elements, whose boxes change their width (C109_inline_violated) and which are not displaced after a line break (C60). Examples: relativeMove_example, absoluteMove_example."
  },
  {
   "property": "C11",
   "status": "partial",
   "theorems": [
    "Verif.Pdf.C11_objects_found_partial",
    "Verif.Pdf.C11_table",
    "Verif.Pdf.C11_trailer",
    "Verif.Pdf.C11_violated_large",
    "Verif.Pdf.C11_violated_large_witness",
    "Verif.Pdf.C11_example"
   ],
   "note": "Proved for files of at most 4 GiB. Offsets are truncated to 32 bits by the code, so the claim is false for larger files: refuted by C11_violated_large."
  },
  {
   "property": "C110",
   "status": "partial",
   "theorems": [
    "Verif.Style.C110_selects_partial",
    "Verif.Style.C110_style_partial",
    "Verif.Style.C110_specificity_partial",
    "Verif.Style.C110_specificity_violated",
    "Verif.Style.C110_class_violated",
    "Verif.Style.C110_xml_violated"
   ],
   "note": "Missing: class attributes of several words (C110_class_violated) and names with capital letters outside of HTML (C110_xml_violated), for which it is false; specificity beyond 1023 simple selectors of a kind, for which it is false too (C110_specificity_violated; specificity_capped says what holds then). The matching algorithm is that of the crate selectors, as assumed in DESIGN.md 3.1. Example: selects_example."
  },
  {
   "property": "C111",
   "status": "partial",
   "theorems": [
    "Verif.Layout.C111_page_partial",
    "Verif.Layout.C111_boxes_partial",
    "Verif.Layout.C111_left_violated"
   ],
   "note": "Missing: the cases in which the code does not do what CSS says: auto left margins with a right margin or without room (C111_left_violated), percentages of relative offsets (C59), right without left, percentages of heights and top with bottom of absolutely positioned boxes (C40), floats (C85_floats_violated). Also missing: static positions, shrink-to-fit widths, and the vertical places of blocks in flow (C106). Examples: fitDocument_boxed, fitDocument_pdf and the example after them."
  },
  {
   "property": "C112",
   "status": "partial",
   "theorems": [
    "Verif.Layout.C112_success",
    "Verif.Layout.C112_stopped",
    "Verif.Layout.C112_succeeds",
    "Verif.Layout.C112_text_partial"
   ],
   "note": "The files: proved. That the text is on the page: missing for documents in which an element floats (C65_floats_violated)."
  },
  {
   "property": "C113",
   "status": "proved",
   "theorems": [
    "Verif.Font.C113_dates"
   ],
   "note": "The code converts no dates elsewhere: the conversion is there for users of the module."
  },
  {
   "property": "C114",
   "status": "proved",
   "theorems": [
    "Verif.Text.Machine.C114_layout",
    "Verif.Text.Machine.C114_order",
    "Verif.Text.Machine.C114_file",
    "Verif.Text.Machine.C114_exact"
   ],
   "note": "Of the arithmetic only that 0 > 0 is false is assumed. C114_file is for numbers whose texts a PDF reader reads back (RealText): NaN and infinities are printed as words, which are not PDF; C115_text_printed_partial and C115_backgrounds_printed_partial need it only of the numbers in the file. Breaks as in C27."
  },
  {
   "property": "C115",
   "status": "partial",
   "theorems": [
    "Verif.Layout.Machine.C115_schedules",
    "Verif.Layout.Machine.C115_total",
    "Verif.Layout.Machine.C115_fuel",
    "Verif.Layout.Machine.C115_boxes",
    "Verif.Layout.Machine.C115_returns_partial",
    "Verif.Layout.Machine.C115_text_partial",
    "Verif.Layout.Machine.C115_backgrounds_partial",
    "Verif.Layout.Machine.C115_exact",
    "Verif.Layout.Machine.C115_single_partial",
    "Verif.Layout.Machine.C115_numbers",
    "Verif.Layout.Machine.C115_text_printed_partial",
    "Verif.Layout.Machine.C115_backgrounds_printed_partial"
   ],
   "note": "Partial like C64 and C65: what makes the code panic with exact numbers (C64) is excluded, and floating elements are not shown (C65_floats_violated). C115_text_partial is for numbers whose texts a PDF reader reads back (RealText): NaN and infinities are printed as words, which are not PDF; C115_text_printed_partial and C115_backgrounds_printed_partial need it only of the numbers in the file."
  },
  {
   "property": "C116",
   "status": "proved",
   "theorems": [
    "Verif.Text.Machine.C116_order",
    "Verif.Text.Machine.C116_file",
    "Verif.Float.Single.C116_rounding",
    "Verif.Float.Single.C116_overflow",
    "Verif.Float.Single.C116_operations",
    "Verif.Float.Single.C116_special",
    "Verif.Pdf.C116_floats"
   ],
   "note": "Usual styles only, as in the statement: with a negative line height or margin the text is where the style says. C116_rounding, C116_overflow and C116_operations say that the model of f32 is IEEE 754; C116_floats that it meets what C13 to C18 assume of floats. How numbers are written (dtoa) is not modelled: C116_file assumes that those in the file are read back."
  },
  {
   "property": "C117",
   "status": "partial",
   "theorems": [
    "Verif.Font.C117_power_partial",
    "Verif.Font.C117_file_partial",
    "Verif.Font.C117_close_partial",
    "Verif.Font.C117_monotone",
    "Verif.Font.C117_range",
    "Verif.Font.C117_violated",
    "Verif.Layout.C117_built_in"
   ],
   "note": "Exact if the number of units per em is a power of two, as in the built-in font; violated for 1000 units per em (C117_violated), where the error is less than one thousandth of an em and a millionth of the length (C117_close_partial). The order is kept for all fonts, and every number written is a 32 bit integer."
  },
  {
   "property": "C118",
   "status": "proved",
   "theorems": [
    "Verif.Pdf.C118_pages",
    "Verif.Pdf.C118_pages_printed",
    "Verif.Pdf.C118_color",
    "Verif.Pdf.C118_opacity",
    "Verif.Pdf.C118_component",
    "Verif.Layout.Machine.C118_text_partial",
    "Verif.Layout.Machine.C118_backgrounds_partial",
    "Verif.Layout.Machine.C118_text_printed_partial",
    "Verif.Layout.Machine.C118_backgrounds_printed_partial"
   ],
   "note": "C118_text_partial and C118_backgrounds_partial are partial only in that documents in which an element floats are excluded, as in the statement (C65_floats_violated). In the theorems with printed in their names, only the numbers in the file are assumed to be read back."
  },
  {
   "property": "C119",
   "status": "partial",
   "theorems": [
    "Verif.Pdf.C119_plain",
    "Verif.Pdf.C119_file_partial",
    "Verif.Pdf.C119_exponents",
    "Verif.Pdf.C119_violated",
    "Verif.Layout.Machine.C119_text_partial",
    "Verif.Layout.Machine.C119_document_violated"
   ],
   "note": "Numbers other than zero below a millionth or above 10^21 are printed with an exponent, which PDF does not have: C119_exponents says that this is so of all of them, C119_violated and C119_document_violated that nothing is painted of a page with one. All others: proved. How the crate dtoa prints numbers is modelled from what is known of it, its source is not in /repo. Examples: C119_example, C119_example_document."
  },
  {
   "property": "C12",
   "status": "proved",
   "theorems": [
    "Verif.Pdf.C12_stream",
    "Verif.Pdf.C12_example"
   ],
   "note": ""
  },
  {
   "property": "C120",
   "status": "proved",
   "theorems": [
    "Verif.Layout.Machine.C120_measured",
    "Verif.Layout.Machine.C120_lines",
    "Verif.Layout.Machine.C120_same_lines",
    "Verif.Layout.Machine.C120_tops",
    "Verif.Layout.Machine.C120_font",
    "Verif.Layout.Machine.C120_built_in"
   ],
   "note": "For a paragraph that is one text. Examples: C120_example, C120_example_tops, C120_example_rounded (the one rounding does occur)."
  },
  {
   "property": "C121",
   "status": "proved",
   "theorems": [
    "Verif.Text.Machine.C121_line",
    "Verif.Text.Machine.C121_text"
   ],
   "note": "Single precision counterpart of C52_justified. Examples: C121_example, C121_example_rounded (the roundings do occur)."
  },
  {
   "property": "C122",
   "status": "proved",
   "theorems": [
    "Verif.Text.Machine.C122_baselines"
   ],
   "note": "Example: C122_example (the roundings do occur)."
  },
  {
   "property": "C123",
   "status": "proved",
   "theorems": [
    "Verif.Layout.Machine.C123_blocks",
    "Verif.Layout.Machine.C123_document",
    "Verif.Layout.Machine.C123_exists"
   ],
   "note": "Example: C123_example. The property is about documents without text and absolutely positioned elements; for lines of text see C120."
  },
  {
   "property": "C124",
   "status": "proved",
   "theorems": [
    "Verif.Layout.Machine.C124_page"
   ],
   "note": "Example: C124_example. The property is about documents without text and absolutely positioned elements; for text see C115 and C119."
  },
  {
   "property": "C125",
   "status": "proved",
   "theorems": [
    "Verif.Layout.Machine.C125_rows",
    "Verif.Layout.Machine.C125_exists",
    "Verif.Layout.Machine.C125_document"
   ],
   "note": "Example: C125_example. Vertical positions are rounded (the height of a line is 1.2 times the size of the font); for them see C115, C122 and, without text, C123."
  },
  {
   "property": "C126",
   "status": "partial",
   "theorems": [
    "Verif.Layout.Machine.C126_calls",
    "Verif.Layout.Machine.C126_page_partial",
    "Verif.Layout.Machine.C126_static_calls"
   ],
   "note": "Examples: C126_example, C128_static_example. C126_static_calls has conditions on the tree of boxes only. C126_calls is the property for the calls of the PDF API, with no further condition. C126_page_partial is that of the file, if all numbers are such that they are printed without an exponent; of other files it is false (C119_document_violated). Vertical positions are rounded."
  },
  {
   "property": "C127",
   "status": "proved",
   "theorems": [
    "Verif.Layout.Machine.C127_columns",
    "Verif.Layout.Machine.C127_document",
    "Verif.Layout.Machine.C127_static"
   ],
   "note": "Examples: C127_example, C127_static_example. In C127_columns n and m are measured on the exact layout, because the number of lines is known only then; they do not depend on rounding. In C127_static they are measured on the tree of boxes, with a line for each character, and that both layouts succeed is proved."
  },
  {
   "property": "C128",
   "status": "partial",
   "theorems": [
    "Verif.Layout.Machine.C128_calls",
    "Verif.Layout.Machine.C128_page_partial",
    "Verif.Layout.Machine.C128_static_calls",
    "Verif.Layout.Machine.C128_static_page_partial"
   ],
   "note": "Examples: C128_example, C128_static_example. C128_calls is the property for the calls of the PDF API, C128_static_calls the same with a bound that is measured on the tree of boxes. C128_page_partial and C128_static_page_partial are that of the file, if all numbers are such that they are printed without an exponent; of other files it is false (C119_document_violated)."
  },
  {
   "property": "C13",
   "status": "proved",
   "theorems": [
    "Verif.Pdf.C13_identifiers",
    "Verif.Pdf.C13_references",
    "Verif.Pdf.C13_references_printed",
    "Verif.Pdf.C13_to_C18_example"
   ],
   "note": "For files of at most 4 GiB (see C11), floats abstract with stated laws."
  },
  {
   "property": "C14",
   "status": "proved",
   "theorems": [
    "Verif.Pdf.C14_pages",
    "Verif.Pdf.C14_pages_printed",
    "Verif.Pdf.C13_to_C18_example"
   ],
   "note": "For files of at most 4 GiB (see C11), floats abstract with stated laws."
  },
  {
   "property": "C15",
   "status": "proved",
   "theorems": [
    "Verif.Pdf.C15_C18_contents",
    "Verif.Pdf.C15_C18_contents_printed",
    "Verif.Pdf.C15_numbers",
    "Verif.Pdf.C13_to_C18_example"
   ],
   "note": "'Same colour' is equality of floats; opacity up to the 16-bit resolution the code uses. For files of at most 4 GiB (see C11), floats abstract with stated laws."
  },
  {
   "property": "C16",
   "status": "proved",
   "theorems": [
    "Verif.Pdf.C16_opacities",
    "Verif.Pdf.C16_opacities_printed",
    "Verif.Pdf.C15_C18_contents",
    "Verif.Pdf.C15_C18_contents_printed",
    "Verif.Pdf.C13_to_C18_example"
   ],
   "note": "That a name used by a page has the requested opacity is part of C15_C18_contents. For files of at most 4 GiB (see C11), floats abstract with stated laws."
  },
  {
   "property": "C17",
   "status": "proved",
   "theorems": [
    "Verif.Pdf.C17_fonts",
    "Verif.Pdf.C17_fonts_printed",
    "Verif.Pdf.C17_failure",
    "Verif.Pdf.C15_C18_contents",
    "Verif.Pdf.C15_C18_contents_printed",
    "Verif.Pdf.C13_to_C18_example"
   ],
   "note": "Fonts are identified by address. A failing call leaves unreferenced objects in the file. For files of at most 4 GiB (see C11), floats abstract with stated laws."
  },
  {
   "property": "C18",
   "status": "proved",
   "theorems": [
    "Verif.Pdf.C18_glyph_codes",
    "Verif.Pdf.C15_C18_contents",
    "Verif.Pdf.C15_C18_contents_printed",
    "Verif.Pdf.C13_to_C18_example"
   ],
   "note": "For files of at most 4 GiB (see C11), floats abstract with stated laws."
  },
  {
   "property": "C19",
   "status": "proved",
   "theorems": [
    "Verif.Pdf.C19_to_unicode",
    "Verif.Pdf.C19_example",
    "Verif.Pdf.C19_example_block"
   ],
   "note": ""
  },
  {
   "property": "C20",
   "status": "proved",
   "theorems": [
    "Verif.Font.C20_read_u16",
    "Verif.Font.C20_read_i16",
    "Verif.Font.C20_read_u32",
    "Verif.Font.C20_read_tag",
    "Verif.Font.C20_read_bytes",
    "Verif.Font.C20_no_undefined_behaviour"
   ],
   "note": "Arithmetic overflow of positions is a panic (checked build)."
  },
  {
   "property": "C21",
   "status": "proved",
   "theorems": [
    "Verif.Font.C21_inspects_inside",
    "Verif.Font.C21_terminates_and_sound",
    "Verif.Font.C21_complete",
    "Verif.Font.C21_find_table_sound",
    "Verif.Font.C21_find_table"
   ],
   "note": ""
  },
  {
   "property": "C22",
   "status": "partial",
   "theorems": [
    "Verif.Font.C22_forward",
    "Verif.Font.C22_backward_violated",
    "Verif.Font.C22_backward_partial"
   ],
   "note": "Reverse iteration is off by one record: violated, with the exact positions it yields."
  },
  {
   "property": "C23",
   "status": "proved",
   "theorems": [
    "Verif.Font.C23_lookup",
    "Verif.Font.C23_enumeration",
    "Verif.Font.C23_example"
   ],
   "note": "Files below 4 GiB."
  },
  {
   "property": "C24",
   "status": "partial",
   "theorems": [
    "Verif.Font.C24_lookup",
    "Verif.Font.C24_enumeration_general",
    "Verif.Font.C24_enumeration_violated",
    "Verif.Font.C24_enumeration_partial",
    "Verif.Font.C24_example"
   ],
   "note": "Enumeration truncates glyph numbers to 16 bits where lookup rejects them; agreement is proved when the numbers fit."
  },
  {
   "property": "C25",
   "status": "proved",
   "theorems": [
    "Verif.Font.C25_own_width",
    "Verif.Font.C25_last_width",
    "Verif.Font.C25_no_metrics",
    "Verif.Font.C25_outside",
    "Verif.Font.C25_example"
   ],
   "note": "The f32 quotient is a parameter."
  },
  {
   "property": "C26",
   "status": "proved",
   "theorems": [
    "Verif.Text.C26_history",
    "Verif.Text.C26_undo",
    "Verif.Text.C26_naive_shape"
   ],
   "note": ""
  },
  {
   "property": "C27",
   "status": "proved",
   "theorems": [
    "Verif.Text.C27_layout",
    "Verif.Text.C27_measures",
    "Verif.Text.C27_order",
    "Verif.Text.C27_overflow",
    "Verif.Text.C27_last_break_needed"
   ],
   "note": "Assumes what xi_unicode guarantees: ordered break positions, the last one required and at the end of the text. Exact arithmetic instead of f32; errors of show_text not modelled."
  },
  {
   "property": "C28",
   "status": "proved",
   "theorems": [
    "Verif.Style.C28_winner",
    "Verif.Style.C28_one_winner",
    "Verif.Style.C28_contents_exist"
   ],
   "note": "Specificity and matching of a selector are the selectors crate's; tokenizing is cssparser's."
  },
  {
   "property": "C29",
   "status": "proved",
   "theorems": [
    "Verif.Style.C29_block",
    "Verif.Style.C29_unique"
   ],
   "note": ""
  },
  {
   "property": "C30",
   "status": "partial",
   "theorems": [
    "Verif.Style.C30_violated",
    "Verif.Style.C30_panic_iff",
    "Verif.Style.C30_ignored_partial"
   ],
   "note": "A declaration with tokens after a valid value makes the parser panic; exactly these do. All other invalid declarations are ignored."
  },
  {
   "property": "C31",
   "status": "proved",
   "theorems": [
    "Verif.Style.C31_em",
    "Verif.Style.C28_winner"
   ],
   "note": "C28_winner gives every value in terms of the element's own font size; C31_em states it for lengths in em."
  },
  {
   "property": "C32",
   "status": "proved",
   "theorems": [
    "Verif.Style.C32_css_wide",
    "Verif.Style.C32_anonymous",
    "Verif.Style.C28_winner"
   ],
   "note": ""
  },
  {
   "property": "C33",
   "status": "proved",
   "theorems": [
    "Verif.Style.C33_fixups",
    "Verif.Style.C33_idempotent"
   ],
   "note": ""
  },
  {
   "property": "C34",
   "status": "partial",
   "theorems": [
    "Verif.Style.C34_violated",
    "Verif.Style.C34_sides_partial",
    "Verif.Style.C34_four_values"
   ],
   "note": "With four values left and right are exchanged; all other lengths are proved."
  },
  {
   "property": "C35",
   "status": "partial",
   "theorems": [
    "Verif.Style.C35_navigation",
    "Verif.Style.C35_navigation_root",
    "Verif.Style.C35_empty",
    "Verif.Style.C35_root",
    "Verif.Style.C35_id",
    "Verif.Style.C35_attribute",
    "Verif.Style.C35_link",
    "Verif.Style.C35_class_partial",
    "Verif.Style.C35_class_violated"
   ],
   "note": "The class attribute is compared as a whole: false for several classes."
  },
  {
   "property": "C36",
   "status": "proved",
   "theorems": [
    "Verif.Layout.C36_collapse",
    "Verif.Layout.C36_order"
   ],
   "note": ""
  },
  {
   "property": "C37",
   "status": "proved",
   "theorems": [
    "Verif.Layout.C37_next",
    "Verif.Layout.C37_first",
    "Verif.Layout.C37_out_of_flow",
    "Verif.Layout.C37_extent",
    "Verif.Layout.C37_empty",
    "Verif.Layout.C37_auto_height",
    "Verif.Layout.C37_auto_height_independent",
    "Verif.Layout.C37_height"
   ],
   "note": "Exact arithmetic. Floats take no space because the code does not lay them out."
  },
  {
   "property": "C38",
   "status": "proved",
   "theorems": [
    "Verif.Layout.C38_schedules",
    "Verif.Layout.C38_in_order",
    "Verif.Layout.C38_mapfold"
   ],
   "note": "Assumes that rayon_croissant starts each task with an empty accumulator and appends accumulators in order, and that collect keeps the order."
  },
  {
   "property": "C39",
   "status": "partial",
   "theorems": [
    "Verif.Layout.C39_sum",
    "Verif.Layout.C39_equation_partial",
    "Verif.Layout.C39_equation_violated",
    "Verif.Layout.C39_used_values"
   ],
   "note": "With a width that is not auto, the margin box is too wide by the margin that is not auto; C39_sum gives the exact width in every case."
  },
  {
   "property": "C40",
   "status": "partial",
   "theorems": [
    "Verif.Layout.C40_exact",
    "Verif.Layout.C40_reachable",
    "Verif.Layout.C40_horizontal_partial",
    "Verif.Layout.C40_horizontal_violated",
    "Verif.Layout.C40_vertical_partial",
    "Verif.Layout.C40_vertical_violated"
   ],
   "note": "The vertical axis is solved with the width of the containing block, and right-anchored boxes are placed from its height; C40_exact says what holds in every case. Shrink-to-fit is not implemented by the code."
  },
  {
   "property": "C41",
   "status": "proved",
   "theorems": [
    "Verif.Layout.C41_collapsed",
    "Verif.Layout.C41_white_space",
    "Verif.Layout.C42_order"
   ],
   "note": "C41_collapsed is the white space, C42_order the other characters. That spaces are not lost is C63."
  },
  {
   "property": "C42",
   "status": "partial",
   "theorems": [
    "Verif.Layout.C42_order",
    "Verif.Layout.C41_white_space",
    "Verif.Layout.C42_document_order",
    "Verif.Layout.C42_supported_partial",
    "Verif.Layout.C42_violated",
    "Verif.Layout.C42_layout"
   ],
   "note": "A block in an inline element panics and inline-block is unimplemented; C42_supported_partial says exactly what is accepted, C42_order that text is in order, C42_layout that what is accepted is laid out."
  },
  {
   "property": "C43",
   "status": "partial",
   "theorems": [
    "Verif.Layout.C43_subtree_partial",
    "Verif.Layout.C43_fresh_partial",
    "Verif.Layout.C43_last_child_violated"
   ],
   "note": "Never returns if the element is the last child of its parent. C43_subtree_partial says exactly when it returns, and that then exactly the boxes of the subtree are removed."
  },
  {
   "property": "C44",
   "status": "partial",
   "theorems": [
    "Verif.Layout.C44_lines",
    "Verif.Layout.C44_text",
    "Verif.Layout.C44_text_partial",
    "Verif.Layout.C44_text_violated",
    "Verif.Layout.C44_fits",
    "Verif.Layout.C44_unique",
    "Verif.Layout.C44_terminates"
   ],
   "note": "A space at the end of a run that does not fit is dropped without a line break, so the next run is glued to the word before it. All the rest is proved."
  },
  {
   "property": "C45",
   "status": "proved",
   "theorems": [
    "Verif.Layout.C45_sides",
    "Verif.Layout.C45_sides_lossless",
    "Verif.Layout.C45_sizes",
    "Verif.Layout.C45_rect",
    "Verif.Layout.C45_supported",
    "Verif.Layout.C45_inflate",
    "Verif.Layout.C45_start_corner"
   ],
   "note": "Rectangles are convertible to physical coordinates only in horizontal left-to-right mode, the only one that styles can have."
  },
  {
   "property": "C46",
   "status": "proved",
   "theorems": [
    "Verif.Layout.C46_returns",
    "Verif.Layout.C46_page"
   ],
   "note": "Positions are exact rationals that are rounded when given to the page."
  },
  {
   "property": "C47",
   "status": "proved",
   "theorems": [
    "Verif.Lester.C47_pages",
    "Verif.Lester.C47_drain",
    "Verif.Lester.C47_once",
    "Verif.Lester.C47_range"
   ],
   "note": "Assumes that poppler has the pages that it counts."
  },
  {
   "property": "C48",
   "status": "partial",
   "theorems": [
    "Verif.Lester.C48_exchange",
    "Verif.Lester.C48_read",
    "Verif.Lester.C48_write",
    "Verif.Lester.C48_panic",
    "Verif.Lester.C48_stops_partial",
    "Verif.Lester.C48_panic_violated"
   ],
   "note": "C48_exchange is complete for any cairo and stream. After a panic of the stream, as opposed to an error, a cairo that goes on uses the stream again."
  },
  {
   "property": "C49",
   "status": "partial",
   "theorems": [
    "Verif.Lester.C49_usize",
    "Verif.Lester.C49_i32",
    "Verif.Lester.C49_u32",
    "Verif.Lester.C49_f64_partial",
    "Verif.Lester.C49_nan_violated",
    "Verif.Lester.C49_new",
    "Verif.Lester.C49_pixels_partial",
    "Verif.Lester.C49_pixels_returns",
    "Verif.Lester.C49_pixels_violated",
    "Verif.Lester.C49_index",
    "Verif.Lester.C49_render"
   ],
   "note": "NaN is converted to 0; without overflow checks the length of the buffer wraps for sizes that cairo does not make."
  },
  {
   "property": "C50",
   "status": "proved",
   "theorems": [
    "Verif.Font.C50_parse_sound"
   ],
   "note": ""
  },
  {
   "property": "C51",
   "status": "partial",
   "theorems": [
    "Verif.Font.C51_single_map_violated",
    "Verif.Font.C51_last_map_partial",
    "Verif.Font.C50_parse_sound"
   ],
   "note": "Because of C22 the first record is never considered and the bytes after the records are; a valid font with one map is rejected."
  },
  {
   "property": "C52",
   "status": "proved",
   "theorems": [
    "Verif.Text.C52_justified",
    "Verif.Text.C52_not_justified",
    "Verif.Text.C27_layout"
   ],
   "note": "Exact arithmetic."
  },
  {
   "property": "C53",
   "status": "partial",
   "theorems": [
    "Verif.Text.C53_last_page_violated",
    "Verif.Text.C53_blank_pages_partial",
    "Verif.Text.C27_layout"
   ],
   "note": "A blank page is added when the last line takes the last place of a page."
  },
  {
   "property": "C54",
   "status": "partial",
   "theorems": [
    "Verif.Text.C54_bottom_violated",
    "Verif.Text.C54_bottom_partial",
    "Verif.Text.C27_layout"
   ],
   "note": "The test is on the top of the line, so a line can extend below the margin by up to its height."
  },
  {
   "property": "C55",
   "status": "partial",
   "theorems": [
    "Verif.Style.C55_keywords_violated",
    "Verif.Style.C55_names_and_units_partial"
   ],
   "note": "Keywords are compared with their case; property names and units are not."
  },
  {
   "property": "C56",
   "status": "proved",
   "theorems": [
    "Verif.Style.C56_border_top"
   ],
   "note": "Assumes that the keywords of line styles and widths are not colours for cssparser."
  },
  {
   "property": "C57",
   "status": "partial",
   "theorems": [
    "Verif.Style.C57_names_partial",
    "Verif.Style.C57_violated"
   ],
   "note": "border-right-color is not a known property; all others are."
  },
  {
   "property": "C58",
   "status": "proved",
   "theorems": [
    "Verif.Layout.C58_total",
    "Verif.Layout.C58_fuel"
   ],
   "note": "For box trees in which every character can be shaped and absolutely positioned boxes in inline contents come from elements that generate boxes."
  },
  {
   "property": "C59",
   "status": "partial",
   "theorems": [
    "Verif.Layout.C59_displacement_partial",
    "Verif.Layout.C59_displacement_violated",
    "Verif.Layout.C59_static"
   ],
   "note": "Percentages refer to the size of the box itself."
  },
  {
   "property": "C60",
   "status": "partial",
   "theorems": [
    "Verif.Layout.C60_flow_partial",
    "Verif.Layout.C60_flow_violated"
   ],
   "note": "Proved for contents without relatively positioned inline boxes: these lose their displacement at a line break. The heights of lines are bounded from below only."
  },
  {
   "property": "C61",
   "status": "partial",
   "theorems": [
    "Verif.Layout.C61_full_lines_partial",
    "Verif.Layout.C61_full_lines_violated"
   ],
   "note": "The available width is computed once per run, so it is wrong after the first line of a run that begins in the middle of a line."
  },
  {
   "property": "C62",
   "status": "partial",
   "theorems": [
    "Verif.Layout.C62_style_partial",
    "Verif.Layout.C62_style_violated"
   ],
   "note": "Text in an element with display: contents joins the text run before it and takes its style."
  },
  {
   "property": "C63",
   "status": "partial",
   "theorems": [
    "Verif.Layout.C63_words_partial",
    "Verif.Layout.C63_words_violated"
   ],
   "note": "White space at the start of an inline element is dropped even if a word precedes the element."
  },
  {
   "property": "C64",
   "status": "partial",
   "theorems": [
    "Verif.Layout.C64_returns_partial",
    "Verif.Layout.C64_layout_partial",
    "Verif.Layout.C64_violated",
    "Verif.Layout.C42_document_order"
   ],
   "note": "Exactly when boxes are made; an element with display: none that is a last child makes it hang. Documents whose style sheets or attributes make the CSS parser panic are C30."
  },
  {
   "property": "C65",
   "status": "partial",
   "theorems": [
    "Verif.Layout.C65_text_partial",
    "Verif.Layout.C65_boxes",
    "Verif.Layout.C65_returns_partial",
    "Verif.Layout.C65_schedules",
    "Verif.Layout.C65_floats_violated"
   ],
   "note": "Nothing is made of floating boxes, so their text is lost; proved for documents without floats. C65_boxes says what is shown if there are floats."
  },
  {
   "property": "C66",
   "status": "proved",
   "theorems": [
    "Verif.Lester.C66_render"
   ],
   "note": "Exact arithmetic; C49_render is for any rounding of products."
  },
  {
   "property": "C67",
   "status": "proved",
   "theorems": [
    "Verif.Lester.C67_value",
    "Verif.Lester.C67_values",
    "Verif.Lester.C67_distinct"
   ],
   "note": "Example: C67_example_values."
  },
  {
   "property": "C68",
   "status": "partial",
   "theorems": [
    "Verif.Lester.C68_file_partial",
    "Verif.Lester.C68_file_violated"
   ],
   "note": "Errors of the last flush are ignored."
  },
  {
   "property": "C69",
   "status": "partial",
   "theorems": [
    "Verif.Style.C69_css_partial",
    "Verif.Style.C69_value_partial",
    "Verif.Style.C69_unique",
    "Verif.Style.C69_negative_violated",
    "Verif.Style.C69_percentage_violated"
   ],
   "note": "C69_css_partial is for values with numbers that CSS allows for the property, C69_value_partial says which values are accepted. Negative paddings, sizes, font sizes and border widths, and percentages as border widths, are accepted though CSS does not allow them. border-right-color is missing: it is registered under another name (C57). Keywords are compared with case (C55)."
  },
  {
   "property": "C70",
   "status": "proved",
   "theorems": [
    "Verif.Macros.C70_keyword",
    "Verif.Macros.C70_parse",
    "Verif.Macros.C70_expansions"
   ],
   "note": "The macro is modelled as a function of the variants."
  },
  {
   "property": "C71",
   "status": "proved",
   "theorems": [
    "Verif.Macros.C71_fields",
    "Verif.Macros.C71_disjoint",
    "Verif.Macros.C71_tables"
   ],
   "note": ""
  },
  {
   "property": "C72",
   "status": "proved",
   "theorems": [
    "Verif.Macros.C72_compiles",
    "Verif.Macros.C72_dispatch"
   ],
   "note": "The layout of enums with repr(int) is that of RFC 2195, which the language guarantees."
  },
  {
   "property": "C73",
   "status": "proved",
   "theorems": [
    "Verif.Layout.C73_boxes",
    "Verif.Layout.C73_stored",
    "Verif.Layout.C73_tree"
   ],
   "note": "Atomic accesses to cells in any interleaving that keeps the order of each task; relaxed memory is not modelled. Removal of boxes of earlier layouts is C43."
  },
  {
   "property": "C74",
   "status": "partial",
   "theorems": [
    "Verif.Layout.C74_abort_violated",
    "Verif.Layout.C74_violated",
    "Verif.Layout.C74_supported_partial"
   ],
   "note": "Every failure of box construction drops a slot that is not set while unwinding, which panics again and aborts the process. The failures are those of C42; panics in styles (C30) come before a slot is borrowed in the root element only and are not covered."
  },
  {
   "property": "C75",
   "status": "partial",
   "theorems": [
    "Verif.Pdf.C75_stream",
    "Verif.Pdf.C75_returns",
    "Verif.Pdf.C75_file_partial",
    "Verif.Pdf.C75_file_violated",
    "Verif.Pdf.C75_file_returns"
   ],
   "note": "True of write_to_pdf. write_to_pdf_file drops a BufWriter without flushing it, so an error of the last flush is lost."
  },
  {
   "property": "C76",
   "status": "partial",
   "theorems": [
    "Verif.Style.C76_display_partial",
    "Verif.Style.C76_display_total",
    "Verif.Style.C76_hidden_input",
    "Verif.Style.C76_margins",
    "Verif.Style.C76_namespace_violated",
    "Verif.Style.C76_blocks_violated"
   ],
   "note": "The sheet of the user agent lacks headings, sections and lists, and its name space is ignored."
  },
  {
   "property": "C77",
   "status": "partial",
   "theorems": [
    "Verif.Layout.C77_copy_partial",
    "Verif.Layout.C77_unique_partial",
    "Verif.Layout.C77_returns_partial",
    "Verif.Layout.C77_shared_violated"
   ],
   "note": "Elements that float are not shown (C65); characters that share a glyph may be exchanged."
  },
  {
   "property": "C78",
   "status": "partial",
   "theorems": [
    "Verif.Font.C78_parses",
    "Verif.Font.C78_characters",
    "Verif.Layout.C78_returns_partial",
    "Verif.Layout.C78_copy_partial"
   ],
   "note": "The font file and its characters: proved. Documents: elements that float are not shown (C65)."
  },
  {
   "property": "C79",
   "status": "partial",
   "theorems": [
    "Verif.Layout.C79_returns_partial",
    "Verif.Layout.C79_copy_partial",
    "Verif.Layout.C79_xml_partial",
    "Verif.Layout.C79_xml_returns",
    "Verif.Layout.C79_violated"
   ],
   "note": "No file is made where an element that is not displayed is the last node in its parent, or a block is in an inline element."
  },
  {
   "property": "C80",
   "status": "partial",
   "theorems": [
    "Verif.Layout.C80_look_partial",
    "Verif.Layout.C80_exists",
    "Verif.Layout.C80_unique",
    "Verif.Layout.C80_documents"
   ],
   "note": "Missing: documents in which an element floats (C65_floats_violated) or changes the font size or colour while it has display: contents (C62_style_violated), of which it is false."
  },
  {
   "property": "C81",
   "status": "partial",
   "theorems": [
    "Verif.Layout.C81_heights_partial",
    "Verif.Layout.C81_tops",
    "Verif.Layout.C81_heights_violated"
   ],
   "note": "Inline boxes after their first line are as tall as on the line where they were tallest: false of the code."
  },
  {
   "property": "C82",
   "status": "partial",
   "theorems": [
    "Verif.Layout.C82_widths_partial",
    "Verif.Layout.C82_excess",
    "Verif.Layout.C82_widths_violated"
   ],
   "note": "Inline boxes in inline boxes are too wide: false of the code."
  },
  {
   "property": "C83",
   "status": "partial",
   "theorems": [
    "Verif.Layout.C83_page_partial",
    "Verif.Layout.C83_relative_partial",
    "Verif.Layout.C83_absolute_partial",
    "Verif.Layout.C83_margin_violated",
    "Verif.Layout.C83_padding_violated"
   ],
   "note": "Margins before the box are not counted, and in positioned boxes with padding the position is off by the padding: false of the code. Nothing is said of inline contexts with relatively positioned inline boxes (see C60)."
  },
  {
   "property": "C84",
   "status": "partial",
   "theorems": [
    "Verif.Layout.C84_page_partial",
    "Verif.Layout.C84_relative",
    "Verif.Layout.C84_absolute",
    "Verif.Layout.C84_inline_violated"
   ],
   "note": "Relatively positioned inline boxes are not containing blocks: false of the code. right, bottom, and percentages of the height: see C40."
  },
  {
   "property": "C85",
   "status": "partial",
   "theorems": [
    "Verif.Layout.C85_backgrounds_partial",
    "Verif.Layout.C85_exists",
    "Verif.Layout.C85_unique",
    "Verif.Layout.C85_floats_violated"
   ],
   "note": "Nothing is painted of floating elements: false of the code. Documents whose style elements are not registered: see C07. The places and sizes of the rectangles: see C46 and the properties of layout."
  },
  {
   "property": "C86",
   "status": "partial",
   "theorems": [
    "Verif.Layout.C86_same_partial",
    "Verif.Layout.C86_made_partial",
    "Verif.Layout.C86_exists",
    "Verif.Layout.C86_unique",
    "Verif.Layout.C86_undisplayed_violated"
   ],
   "note": "If a file is made of both documents, it is the same; that one is made of both is false of the code if an element that is not displayed is the last child of its parent. Documents whose style elements are not registered: see C07."
  },
  {
   "property": "C87",
   "status": "proved",
   "theorems": [
    "Verif.Style.C87_style",
    "Verif.Layout.C87_document",
    "Verif.Layout.C87_unmatched",
    "Verif.Layout.C87_exchange",
    "Verif.Layout.C87_selectors"
   ],
   "note": ""
  },
  {
   "property": "C88",
   "status": "proved",
   "theorems": [
    "Verif.Layout.C88_reads",
    "Verif.Layout.lookDocument_reads"
   ],
   "note": ""
  },
  {
   "property": "C89",
   "status": "partial",
   "theorems": [
    "Verif.Layout.C89_inside_partial",
    "Verif.Layout.lookDocument_inside",
    "Verif.Layout.C89_centred_violated"
   ],
   "note": "Centred boxes (both margins auto, with a set width) are excluded: the code violates the property for those that are too wide."
  },
  {
   "property": "C90",
   "status": "partial",
   "theorems": [
    "Verif.Layout.C90_on_page_partial",
    "Verif.Layout.C90_tall_violated",
    "Verif.Layout.shortRoot_fits"
   ],
   "note": "Holds if the box of the root element is not taller than the page; the code makes one page only, so that it is violated by longer documents."
  },
  {
   "property": "C91",
   "status": "proved",
   "theorems": [
    "Verif.Lester.C91_alive",
    "Verif.Lester.C91_released",
    "Verif.Lester.C91_example"
   ],
   "note": "Which C functions give and take references is as their documentation says (Verif/Lester/OwnerSpec.lean)."
  },
  {
   "property": "C92",
   "status": "partial",
   "theorems": [
    "Verif.Layout.C92_nested_partial",
    "Verif.Layout.C92_exists",
    "Verif.Layout.lookDocument_nests"
   ],
   "note": "Missing: centred boxes (C89_centred_violated); elements that are out of flow or overlap."
  },
  {
   "property": "C93",
   "status": "partial",
   "theorems": [
    "Verif.Layout.C93_added_partial",
    "Verif.Layout.C93_pages_partial",
    "Verif.Layout.unwrappedDocument_added",
    "Verif.Layout.C93_absolute_violated"
   ],
   "note": "Missing: absolutely positioned elements, for which it does not hold (C93_absolute_violated), and blocks that are added inside of inline elements and floats."
  },
  {
   "property": "C94",
   "status": "partial",
   "theorems": [
    "Verif.Layout.C94_before_partial",
    "Verif.Layout.C94_appended_partial",
    "Verif.Layout.C94_pages_partial",
    "Verif.Layout.C94_anywhere_partial",
    "Verif.Layout.C94_anywhere_pages_partial",
    "Verif.Layout.wordsDocument_before",
    "Verif.Layout.last_word_moves",
    "Verif.Layout.longerDocument_before",
    "Verif.Layout.C94_asides_partial",
    "Verif.Layout.sideDocument_moves",
    "Verif.Layout.C94_percentages_violated"
   ],
   "note": "C94_anywhere_partial: a difference anywhere, also within a line or a text (last_word_moves shows that the last word has to be left out there). C94_asides_partial: with absolutely positioned elements between blocks. Missing: absolutely positioned elements in lines, floating elements, backgrounds where something is replaced, the backgrounds of the blocks something is added to, and offsets that are percentages of the height of the block around the text, for which it does not hold (C94_percentages_violated)."
  },
  {
   "property": "C95",
   "status": "proved",
   "theorems": [
    "Verif.Lester.C95_image",
    "Verif.Lester.C95_document",
    "Verif.Lester.imagePages_image",
    "Verif.Lester.imagePages_point"
   ],
   "note": "Products are exact, as in C66; positions on the page do not depend on that, except for the factor 96/72 of lester, which is not exact in f64."
  },
  {
   "property": "C96",
   "status": "partial",
   "theorems": [
    "Verif.Layout.C96_indented_partial",
    "Verif.Layout.indentedDocument_same",
    "Verif.Layout.C96_end_violated"
   ],
   "note": "Missing: white space at the end of blocks and before a block that comes after text, of which it does not hold (C96_end_violated)."
  },
  {
   "property": "C97",
   "status": "proved",
   "theorems": [
    "Verif.Layout.C97_zoom",
    "Verif.Layout.C97_document",
    "Verif.Layout.sizedDocument_zoom"
   ],
   "note": "Lengths are exact rationals: rounding in f32 is not modelled. For factors that are powers of two rounding commutes with the multiplication too, short of overflow and subnormal numbers; for other factors the positions agree up to rounding."
  },
  {
   "property": "C98",
   "status": "partial",
   "theorems": [
    "Verif.Layout.C98_room_partial",
    "Verif.Layout.C98_height",
    "Verif.Layout.C98_room_violated"
   ],
   "note": "Missing: paragraphs with several runs of text, of which it does not hold (C98_room_violated)."
  },
  {
   "property": "C99",
   "status": "partial",
   "theorems": [
    "Verif.Layout.C99_after_partial",
    "Verif.Layout.C99_visible_partial",
    "Verif.Layout.C99_pages_partial",
    "Verif.Layout.middleDocument_after",
    "Verif.Layout.C99_asides_partial",
    "Verif.Layout.sideDocument_moves",
    "Verif.Layout.C99_fixed_height"
   ],
   "note": "C99_asides_partial: with absolutely positioned elements between blocks. Missing: absolutely positioned elements in lines, floating elements."
  }
 ]
}