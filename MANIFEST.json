{
 "claims": [
  {
   "property": "C01",
   "status": "proved",
   "theorems": [
    "Verif.C01_ids_consecutive",
    "Verif.C01_lookup",
    "Verif.C01_ids_stable",
    "Verif.C01_setItem"
   ],
   "note": "Invariant over arbitrary histories of add / item assignment / output."
  },
  {
   "property": "C02",
   "status": "proved",
   "theorems": [
    "Verif.C02_xref_points_at_objects"
   ],
   "note": "Byte offsets of every xref entry and startxref, for every history, file below 10^10 bytes."
  },
  {
   "property": "C03",
   "status": "proved",
   "theorems": [
    "Verif.C03_trailer_size"
   ],
   "note": "Size entry of the written trailer."
  },
  {
   "property": "C04",
   "status": "proved",
   "theorems": [
    "Verif.C04_output_repeatable",
    "Verif.C04_output_keeps_objects"
   ],
   "note": "A second output writes the same bytes and changes nothing."
  },
  {
   "property": "C05",
   "status": "proved",
   "theorems": [
    "Verif.C05_stream",
    "Verif.C05_stream_read"
   ],
   "note": "Length, data and restoration; also through the PDF object reader."
  },
  {
   "property": "C06",
   "status": "partial",
   "theorems": [
    "Verif.C06_stream_lost",
    "Verif.C06_failed_serialisation_keeps_stream_false",
    "Verif.C06_failure_safe_partial"
   ],
   "note": "False in general (C06_failed_serialisation_keeps_stream_false, C06_stream_lost: every failure loses the stream). The partial theorem covers values that contain no stream."
  },
  {
   "property": "C07",
   "status": "partial",
   "theorems": [
    "Verif.C07_string_roundtrip_partial",
    "Verif.C07_string_rejected",
    "Verif.C07_string_roundtrip_false",
    "Verif.C07_backslash_altered",
    "Verif.C07_cr_altered"
   ],
   "note": "False for backslash and CR (C07_string_roundtrip_false, C07_backslash_altered, C07_cr_altered); the partial theorem covers strings without them."
  },
  {
   "property": "C08",
   "status": "proved",
   "theorems": [
    "Verif.C08_object_roundtrip",
    "Verif.C08_object_self_delimiting"
   ],
   "note": "Objects with a PDF meaning (strings without backslash/CR, see C07)."
  },
  {
   "property": "C09",
   "status": "partial",
   "theorems": [
    "Verif.C09_text_shown_partial",
    "Verif.C09_text_shown_eol",
    "Verif.C09_carriage_return_false"
   ],
   "note": "Model of clean_words, output_text and PDFState.compare; the emitted string is read back with the PDF lexer of Spec/PdfLex. Proved for text without carriage returns; C09_text_shown_eol says what happens in general (ends of lines are read as line feeds) and C09_carriage_return_false is a witness."
  },
  {
   "property": "C10",
   "status": "partial",
   "theorems": [
    "Verif.C10_list_text_partial",
    "Verif.C10_closing_paren_false",
    "Verif.C10_opening_paren_false",
    "Verif.C10_backslash_false"
   ],
   "note": "Proved for list texts with balanced parentheses and without backslashes and carriage returns, which are written without escaping; negations for '1)', '(a' and a backslash."
  },
  {
   "property": "C11",
   "status": "partial",
   "theorems": [
    "Verif.C11_glyphs_partial",
    "Verif.C11_missing_rejected",
    "Verif.C11_paren_false",
    "Verif.C11_glyph13_false"
   ],
   "note": "Proved for texts without parentheses and backslashes and glyph numbers without a byte 13; missing characters are rejected. Negations: text is escaped before it is encoded; byte 13 is read as 10."
  },
  {
   "property": "C12",
   "status": "proved",
   "theorems": [
    "Verif.C12_roman",
    "Verif.C12_rejected",
    "Verif.C12_injective"
   ],
   "note": "Value, canonical form, rejection outside 1..3999, injectivity."
  },
  {
   "property": "C13",
   "status": "proved",
   "theorems": [
    "Verif.C13_page_ranges",
    "Verif.C13_rejected"
   ],
   "note": "Membership for every list of items, with blanks; malformed items rejected."
  },
  {
   "property": "C14",
   "status": "partial",
   "theorems": [
    "Verif.C14_slices_partial",
    "Verif.C14_slices_false",
    "Verif.C14_empty_part",
    "Verif.C14_index_list"
   ],
   "note": "False for slices with explicit negative bounds and negative steps in general (C14_slices_false); the partial theorem says exactly which slices agree with Python."
  },
  {
   "property": "C15",
   "status": "partial",
   "theorems": [
    "Verif.C15_margin_list",
    "Verif.C15_margin_number",
    "Verif.C15_margin_tuple_partial",
    "Verif.C15_margin_string_partial",
    "Verif.C15_margin_dict",
    "Verif.C15_margins_false",
    "Verif.C15_two_separators"
   ],
   "note": "Tuples and strings deviate (C15_margins_false, C15_two_separators); lists, numbers and dicts fully covered."
  },
  {
   "property": "C16",
   "status": "partial",
   "theorems": [
    "Verif.C16_style_string_partial",
    "Verif.C16_bool_form_rejected",
    "Verif.C16_malformed_rejected",
    "Verif.C16_bad_color_type_error",
    "Verif.C16_blank_before_size_rejected"
   ],
   "note": "Bool forms `b:1` are rejected (C16_bool_form_rejected), malformed colours raise TypeError (C16_bad_color_type_error), blanks before s/r are rejected; everything else covered."
  },
  {
   "property": "C17",
   "status": "partial",
   "theorems": [
    "Verif.C17_hex_short",
    "Verif.C17_hex_long",
    "Verif.C17_hex_in_unit",
    "Verif.C17_named",
    "Verif.C17_number_and_none",
    "Verif.C17_lists",
    "Verif.C17_components",
    "Verif.C17_component_refused",
    "Verif.C17_text",
    "Verif.C17_writable_partial",
    "Verif.C17_writable_false",
    "Verif.C17_bad_accepted"
   ],
   "note": "A colour list of the wrong length is accepted and cannot be written (C17_writable_false, C17_bad_accepted); all other forms covered."
  },
  {
   "property": "C18",
   "status": "partial",
   "theorems": [
    "Verif.C18_paints_partial",
    "Verif.C18_unknown_style_rejected",
    "Verif.C18_no_colour_false"
   ],
   "note": "Every list of fills and lines whose colours have 1 or 3 components is painted with its own attributes and the state restored; an unset colour inherits the previous fill (C18_no_colour_false)."
  },
  {
   "property": "C19",
   "status": "proved",
   "theorems": [
    "Verif.C19_defaults",
    "Verif.C19_defaults_set",
    "Verif.C19_paper",
    "Verif.C19_page_geometry",
    "Verif.C19_y_duality",
    "Verif.C19_page_created"
   ],
   "note": "Size, rotation, margins, content box, cursor; for any running sections that leave the sheet alone. C19_defaults, C19_defaults_set: setup_page, any number of calls."
  },
  {
   "property": "C20",
   "status": "proved",
   "theorems": [
    "Verif.C20_letters",
    "Verif.C20_split",
    "Verif.C20_words",
    "Verif.C20_prefix"
   ],
   "note": "Over any sequence of rectangles, for every paragraph: the words of the lines of all runs are the words of the content, in order (C20_words at the end, C20_prefix before it); letter by letter from the texts as they are written (C20_letters, C20_split)."
  },
  {
   "property": "C21",
   "status": "partial",
   "theorems": [
    "Verif.C21_lines_fit_partial",
    "Verif.C21_list_lines_false"
   ],
   "note": "Proved for paragraphs without list text; false with list text, where a line after a line break ignores the list indent (C21_list_lines_false)."
  },
  {
   "property": "C22",
   "status": "proved",
   "theorems": [
    "Verif.C22_height"
   ],
   "note": "For every state reached by runs in any rectangles."
  },
  {
   "property": "C23",
   "status": "partial",
   "theorems": [
    "Verif.C23_finishes_partial",
    "Verif.C23_high_line_false"
   ],
   "note": "Proved when greatest size + greatest rise + line margin of the content fits the new pages; without that the loop never ends (C23_high_line_false)."
  },
  {
   "property": "C24",
   "status": "partial",
   "theorems": [
    "Verif.C24_restore_partial",
    "Verif.C24_indent_false",
    "Verif.C24_lost_words_false",
    "Verif.C24_finished_false"
   ],
   "note": "Proved for checkpoints taken after a line was placed, when the paragraph was not finished in between and has no list text. False otherwise: the indent is lost (C24_indent_false), words are lost when nothing fits after the restore (C24_lost_words_false), a finished paragraph stays finished (C24_finished_false)."
  },
  {
   "property": "C25",
   "status": "proved",
   "theorems": [
    "Verif.C25_rich_text"
   ],
   "note": "Characters, line breaks, cascaded styles and ids of every nested content; removal by equality as in the code, for every equality of dicts; wrong types are rejected."
  },
  {
   "property": "C26",
   "status": "partial",
   "theorems": [
    "Verif.C26_own_state",
    "Verif.C26_used_fonts_partial",
    "Verif.C26_list_font_false"
   ],
   "note": "The stream of a run executed on the text machine of Spec/Machine shows everything with its own font, size, colour and rise (C26_own_state, complete for list texts that can be shown, see C10). used_fonts: proved unless the text of a list is shown by a later run than the one that set it up; negation C26_list_font_false."
  },
  {
   "property": "C27",
   "status": "partial",
   "theorems": [
    "Verif.C27_justified_partial",
    "Verif.C27_line_before_last_false",
    "Verif.C27_truetype_false"
   ],
   "note": "Proved for lines that are not among the last two of a run, standard fonts and paragraphs without line breaks, up to the rounding of Tw. Negations: the line before a last line of one word; TrueType fonts."
  },
  {
   "property": "C28",
   "status": "partial",
   "theorems": [
    "Verif.C28_line_starts_partial",
    "Verif.C28_second_rectangle_false",
    "Verif.C28_right_indent_false",
    "Verif.C28_right_list_false"
   ],
   "note": "Sum of the horizontal moves in the stream, up to rounding. Partial: right aligned and centred paragraphs only without indent and list; correct_indent has to be right. Negations: second rectangle after a rectangle of one line, right aligned with indent, right aligned list."
  },
  {
   "property": "C29",
   "status": "partial",
   "theorems": [
    "Verif.C29_cells_partial",
    "Verif.C29_negative_margin_false",
    "Verif.C29_no_content_false"
   ],
   "note": "C29_cells_partial: plain cells (no spans), any contents that hand out their pieces in order, any rectangles: each cell once, completely, row by row. Missing: negative margins, which lose text (C29_negative_margin_false); a cell dict without content never finishes (C29_no_content_false)."
  },
  {
   "property": "C30",
   "status": "partial",
   "theorems": [
    "Verif.C30_row_restored_partial",
    "Verif.C30_pending_cells_false",
    "Verif.C30_restore_false"
   ],
   "note": "Only the row index is restored; set_state ignores the pending cells when a row index is given (table.py:246-249), proved as C30_pending_cells_false and C30_restore_false."
  },
  {
   "property": "C31",
   "status": "partial",
   "theorems": [
    "Verif.C31_height_partial",
    "Verif.C31_overflow_false",
    "Verif.C31_empty_rows_false",
    "Verif.C31_words_partial"
   ],
   "note": "C31_height_partial: plain cells with contents that keep to their height and are not empty: at most the rectangle's height, or 4 points more if a cell is left over. Violated in general: C31_overflow_false, C31_empty_rows_false."
  },
  {
   "property": "C32",
   "status": "proved",
   "theorems": [
    "Verif.C32_widths_normalised",
    "Verif.C32_rejected",
    "Verif.C32_columns_tile"
   ],
   "note": "Exact arithmetic; every widths list and column count; zero sums rejected."
  },
  {
   "property": "C33",
   "status": "partial",
   "theorems": [
    "Verif.C33_cells_partial",
    "Verif.C33_first_row_lost_false",
    "Verif.C33_after_break_false"
   ],
   "note": "C33_cells_partial: tables with colspans and rowspans; the conditions and what fails are in C33_first_row_lost_false and C33_after_break_false."
  },
  {
   "property": "C34",
   "status": "proved",
   "theorems": [
    "Verif.C34_borders",
    "Verif.C34_border_value",
    "Verif.C34_fills"
   ],
   "note": "Every list of definitions accepted by the code, borders in both directions and fills."
  },
  {
   "property": "C35",
   "status": "partial",
   "theorems": [
    "Verif.C35_content_partial",
    "Verif.C35_nested_repeated_false"
   ],
   "note": "C35_content_partial: boxes of leaves and images (flowing or not) with any number of columns, any contents that hand out their pieces in order, any rectangles. Missing: nested boxes and groups; a nested box can be repeated (C35_nested_repeated_false)."
  },
  {
   "property": "C36",
   "status": "partial",
   "theorems": [
    "Verif.C36_balancing_partial",
    "Verif.C36_no_height_false"
   ],
   "note": "C36_balancing_partial: boxes of paragraphs, tables and images, any number of columns, any rectangles with a height, contents that are finished when given a certain height. Missing: nested boxes and groups. Violated in a rectangle of height 0: C36_no_height_false."
  },
  {
   "property": "C37",
   "status": "partial",
   "theorems": [
    "Verif.C37_parts_partial",
    "Verif.C37_lines_remain_false"
   ],
   "note": "C37_parts_partial: text and image parts show each element once after any number of attempts, for the boxes of C35. Violated for table lines and fills: C37_lines_remain_false."
  },
  {
   "property": "C38",
   "status": "partial",
   "theorems": [
    "Verif.C38_group_partial",
    "Verif.C38_start_lost_false",
    "Verif.C38_spacing_false",
    "Verif.C38_image_lost_false"
   ],
   "note": "C38_group_partial: a group that is not placed adds nothing and leaves the position in the column; a group of paragraphs and tables that is placed is complete if it does not start a column and its bottom margins are small enough. Violated otherwise: C38_start_lost_false, C38_image_lost_false; the space before the next element changes: C38_spacing_false."
  },
  {
   "property": "C39",
   "status": "partial",
   "theorems": [
    "Verif.C39_image_partial",
    "Verif.C39_proportions",
    "Verif.C39_margins_false",
    "Verif.C39_min_height_false"
   ],
   "note": "C39_proportions: all images of all content boxes, with groups and nested boxes. C39_image_partial: inside the column and not below it, if the column is wider than the margins and min_height is positive. Violated otherwise: C39_margins_false, C39_min_height_false."
  },
  {
   "property": "C40",
   "status": "proved",
   "theorems": [
    "Verif.C40_page_stream_order"
   ],
   "note": "Any history of page operations."
  },
  {
   "property": "C41",
   "status": "proved",
   "theorems": [
    "Verif.C41_image_names",
    "Verif.C41_image_painted"
   ],
   "note": "Any history of page operations; the written portion also executed on the graphics machine."
  },
  {
   "property": "C42",
   "status": "partial",
   "theorems": [
    "Verif.C42_fonts_partial",
    "Verif.C42_stream_partial",
    "Verif.C42_replaced_font_false",
    "Verif.C42_bullet_false"
   ],
   "note": "Every font name in a page's stream resolves to the font object of its family and mode, for every history of a document without add_font; counterexamples for a replaced font and for bullets"
  },
  {
   "property": "C43",
   "status": "partial",
   "theorems": [
    "Verif.C43_one_document_partial",
    "Verif.C43_standard",
    "Verif.C43_second_document_false",
    "Verif.C43_wrong_face_false",
    "Verif.C43_added_font_false"
   ],
   "note": "Proved for the first document of a process; counterexamples for a second document, a wrong face, and PDF.add_font"
  },
  {
   "property": "C44",
   "status": "proved",
   "theorems": [
    "Verif.C44_page_tree",
    "Verif.C44_no_pages_rejected"
   ],
   "note": "Any history of pages, objects, entry updates and earlier outputs; the builder makes a single flat node."
  },
  {
   "property": "C45",
   "status": "proved",
   "theorems": [
    "Verif.C45_name_tree",
    "Verif.C45_no_labels"
   ],
   "note": "Any number of labels in any registration order; lookup by a reader that descends by Limits, from the catalog."
  },
  {
   "property": "C46",
   "status": "proved",
   "theorems": [
    "Verif.C46_outline_tree",
    "Verif.C46_no_outlines"
   ],
   "note": "Every forest, every level; titles, destinations, all links, root and item counts; other objects unchanged. Closed items get Count -1 (the standard asks for the negated number of descendants)."
  },
  {
   "property": "C47",
   "status": "proved",
   "theorems": [
    "Verif.C47_outline_levels",
    "Verif.C47_forest_unique"
   ],
   "note": "Every sequence of levels; success exactly when no level is skipped; the forest is determined by document order and levels."
  },
  {
   "property": "C48",
   "status": "partial",
   "theorems": [
    "Verif.C48_layout_partial",
    "Verif.C48_leak_false"
   ],
   "note": "Layout proved for settings made by every section or nowhere; a per_page style otherwise leaks to later pages (counterexample)."
  },
  {
   "property": "C49",
   "status": "partial",
   "theorems": [
    "Verif.C49_numbers_partial",
    "Verif.C49_consecutive",
    "Verif.C49_offset_false"
   ],
   "note": "Numbers, resets and consecutive numbering proved; the documented offset rule is false (counterexample)."
  },
  {
   "property": "C50",
   "status": "partial",
   "theorems": [
    "Verif.C50_listed",
    "Verif.C50_page_partial",
    "Verif.C50_order_false"
   ],
   "note": "Lists and context values proved for marks in one place each; shown numbers proved when a lower page shows a beginning of what a higher one shows; a delayed group breaks it (counterexample)."
  },
  {
   "property": "C51",
   "status": "partial",
   "theorems": [
    "Verif.C51_jpeg_header_partial",
    "Verif.C51_accepted_has_frame",
    "Verif.C51_rejected_value_error",
    "Verif.C51_scan_without_frame_rejected",
    "Verif.C51_no_frame_rejected",
    "Verif.C51_fill_bytes_false",
    "Verif.C51_tem_rejected"
   ],
   "note": "Every header of non-frame segments and RST/SOI/EOI markers; acceptance implies a frame header with the reported values; fill bytes and TEM are mis-handled (C51_fill_bytes_false, C51_tem_rejected)."
  },
  {
   "property": "C52",
   "status": "proved",
   "theorems": [
    "Verif.C52_links"
   ],
   "note": "One action object per link, exact annotations per page and last destination per label for every history of a document"
  },
  {
   "property": "C53",
   "status": "partial",
   "theorems": [
    "Verif.C53_running_partial",
    "Verif.C53_none_width_false",
    "Verif.C53_none_x_false"
   ],
   "note": "Set of running sections and their rectangles proved for measures that are not None; None measures differ from the documentation (counterexamples)."
  },
  {
   "property": "C54",
   "status": "partial",
   "theorems": [
    "Verif.C54_copy_equal",
    "Verif.C54_copy_independent_partial",
    "Verif.C54_tuple_shared_false"
   ],
   "note": "Equality for every finite structure; independence under arbitrary edits for structures of lists and dicts; containers inside tuples or other objects are shared (C54_tuple_shared_false)."
  },
  {
   "property": "C55",
   "status": "proved",
   "theorems": [
    "Verif.C55_marks"
   ],
   "note": "Documents are trees without sharing; a footnote inside a footnote is not a mark."
  },
  {
   "property": "C56",
   "status": "partial",
   "theorems": [
    "Verif.C56_image_partial",
    "Verif.C56_top_false"
   ],
   "note": "the place of the top is violated (bottom at y)"
  },
  {
   "property": "C57",
   "status": "proved",
   "theorems": [
    "Verif.C57_images"
   ],
   "note": "histories of documents"
  },
  {
   "property": "C58",
   "status": "partial",
   "theorems": [
    "Verif.C58_rectangle",
    "Verif.C58_cursor_partial",
    "Verif.C58_cursor_exact",
    "Verif.C58_cursor_false",
    "Verif.C58_put"
   ],
   "note": "boxes without parts; the cursor is too low otherwise"
  },
  {
   "property": "C59",
   "status": "proved",
   "theorems": [
    "Verif.C59_parts"
   ],
   "note": "histories of documents"
  },
  {
   "property": "C60",
   "status": "partial",
   "theorems": [
    "Verif.C60_widths_partial",
    "Verif.C60_shared_glyph_false",
    "Verif.C60_no_characters_false"
   ],
   "note": "Completeness for every font with a character; soundness when no two characters share a glyph. Violated for shared glyphs (C60_shared_glyph_false) and for fonts without characters (C60_no_characters_false)."
  },
  {
   "property": "C61",
   "status": "partial",
   "theorems": [
    "Verif.C61_characters_partial",
    "Verif.C61_many_false",
    "Verif.C61_astral_false"
   ],
   "note": "Exact for fonts of at most 100 characters of the basic plane; violated by every font with more characters (C61_many_false) or with a character above U+FFFF (C61_astral_false)."
  },
  {
   "property": "C62",
   "status": "partial",
   "theorems": [
    "Verif.C62_words_partial",
    "Verif.C62_rows_partial",
    "Verif.C62_narrow_image_false"
   ],
   "note": "the words and images of each cell, over any rectangles; without row spans in the first row (counterexample C33_first_row_lost_false) and with boxes of positive width for images (counterexample)"
  },
  {
   "property": "C63",
   "status": "partial",
   "theorems": [
    "Verif.C63_ends_partial",
    "Verif.C63_all_shown_partial",
    "Verif.C63_high_image_false"
   ],
   "note": "Cells without row spans whose contents fit into a page (and colspans, None cells, any first page): the loop ends without errors within a bound, and all words and images were shown. Not proved for row spans; false for an image higher than the pages (C63_high_image_false)."
  },
  {
   "property": "C64",
   "status": "proved",
   "theorems": [
    "Verif.C64_file_reads_back"
   ],
   "note": "The file, read by an executable specification reader, gives back the trailer, every object and every stream."
  },
  {
   "property": "C65",
   "status": "proved",
   "theorems": [
    "Verif.C65_document",
    "Verif.C65_trees_built",
    "Verif.C65_no_pages",
    "Verif.C65_operations"
   ],
   "note": "any history of operations; assumes all values have a PDF meaning and the output succeeds with less than 10^10 bytes"
  },
  {
   "property": "C66",
   "status": "partial",
   "theorems": [
    "Verif.C66_lines_and_fills_partial",
    "Verif.C66_line_missing"
   ],
   "note": "proved for all tables without overlapping cells, except those with both a cell of one column and more than two rows and a cell of more than one column, where the code leaves out a line (C66_line_missing)"
  },
  {
   "property": "C67",
   "status": "partial",
   "theorems": [
    "Verif.C67_marks_partial",
    "Verif.C67_right_indent_false",
    "Verif.C67_truetype_false",
    "Verif.C67_second_rectangle_false"
   ],
   "note": "the whole stream of a paragraph and the rectangles of its ids; not for right aligned or centred paragraphs with an indent, justified TrueType text and later rectangles with correct_indent, where it is false (three negations)"
  },
  {
   "property": "C68",
   "status": "partial",
   "theorems": [
    "Verif.C68_baselines_partial",
    "Verif.C68_list_text_false"
   ],
   "note": "every baseline for every run; that the last one is at the reported height only if the text of the list is not higher than the first line, otherwise false (negation)"
  },
  {
   "property": "C69",
   "status": "partial",
   "theorems": [
    "Verif.C69_nested_partial",
    "Verif.C69_order_partial",
    "Verif.C69_spans_partial",
    "Verif.C69_row_span_false"
   ],
   "note": "things of every depth, and their order (C69_order_partial); partial: inner tables have no row spans (C69_row_span_false), margins and borders are not negative, images have sizes and room, inner boxes have one column, no groups and no boxes as elements"
  },
  {
   "property": "C70",
   "status": "partial",
   "theorems": [
    "Verif.C70_words_partial"
   ],
   "note": "paragraphs and images, any number of columns, with paragraphs as values; the code is the same for one column and for one page, and loses words otherwise (C76_columns_false); partial: no groups (C38) and no nested boxes (C35_nested_repeated_false)"
  },
  {
   "property": "C71",
   "status": "partial",
   "theorems": [
    "Verif.C71_content_partial",
    "Verif.C71_table_partial",
    "Verif.C71_fine_partial",
    "Verif.C71_cell_margin_false",
    "Verif.C71_margin_twice"
   ],
   "note": "proved for the walk over all elements; the margins of single sides of cells and the margins of tables are inherited against the claim (C71_cell_margin_false, C71_margin_twice)"
  },
  {
   "property": "C72",
   "status": "partial",
   "theorems": [
    "Verif.C72_again_partial",
    "Verif.C72_cell_partial",
    "Verif.C72_again_false",
    "Verif.C72_text_false"
   ],
   "note": "proved for the same place and for cells; negation at other places (C72_again_false, C72_text_false)"
  },
  {
   "property": "C73",
   "status": "partial",
   "theorems": [
    "Verif.C73_boxes_partial",
    "Verif.C73_text_partial",
    "Verif.C73_text_false"
   ],
   "note": "proved for content boxes and tables and the alignment of text; negation for the line height and the indent of text (C73_text_false)"
  },
  {
   "property": "C74",
   "status": "partial",
   "theorems": [
    "Verif.C74_closed",
    "Verif.C74_jpg_partial",
    "Verif.C74_png_partial",
    "Verif.C74_refused",
    "Verif.C74_no_ending",
    "Verif.C74_path_false",
    "Verif.C74_position_false"
   ],
   "note": "proved for paths with a stem and file-like objects at their beginning; negations C74_path_false and C74_position_false"
  },
  {
   "property": "C75",
   "status": "partial",
   "theorems": [
    "Verif.C75_ends_partial",
    "Verif.C75_all_shown_partial",
    "Verif.C75_high_image_false",
    "Verif.C75_flowing_images_false",
    "Verif.C75_high_line_false"
   ],
   "note": "one column, paragraphs and images that fit a page, fewer than 48 flowing images; fails for lines or images higher than a page and for many flowing images"
  },
  {
   "property": "C76",
   "status": "partial",
   "theorems": [
    "Verif.C76_one_column_partial",
    "Verif.C76_before_last_partial",
    "Verif.C76_first_page_partial",
    "Verif.C76_words_partial",
    "Verif.C76_columns_false",
    "Verif.C76_indent_false",
    "Verif.C76_footnotes_false"
   ],
   "note": "one column over any pages, the pages before the last one and a box on one page for any number of columns; fails for balanced columns on a later page and for pages with footnotes (counterexamples); partial: no groups, nested boxes or tables"
  },
  {
   "property": "C77",
   "status": "partial",
   "theorems": [
    "Verif.C77_words_partial",
    "Verif.C77_characters_partial"
   ],
   "note": "paragraphs without lists, in the fonts of the standard, on pages without running sections"
  },
  {
   "property": "C78",
   "status": "partial",
   "theorems": [
    "Verif.C78_places_partial",
    "Verif.C78_between",
    "Verif.C78_below"
   ],
   "note": "paragraphs without lists, in the fonts of the standard, on pages without running sections; line heights that are not negative"
  },
  {
   "property": "C79",
   "status": "partial",
   "theorems": [
    "Verif.C79_styles_partial"
   ],
   "note": "paragraphs without lists, in the fonts of the standard, on pages without running sections; a style names its font as the fonts of the document do"
  },
  {
   "property": "C80",
   "status": "partial",
   "theorems": [
    "Verif.C80_document_partial"
   ],
   "note": "C80_document_partial: fonts of the standard, paragraphs without lists, content boxes of one column, no groups or boxes directly in boxes, no row spans beginning in the first row, default move"
  },
  {
   "property": "C81",
   "status": "partial",
   "theorems": [
    "Verif.C81_licence",
    "Verif.C81_flags",
    "Verif.C81_metrics",
    "Verif.C81_name_partial",
    "Verif.C81_name_false",
    "Verif.C81_unreadable_false",
    "Verif.C81_written",
    "Verif.C81_few_names_false",
    "Verif.C81_no_os2_false"
   ],
   "note": "the name is right only for files whose first seven names are 0 to 6; C81_licence, C81_flags, C81_metrics and C81_written are complete; four counterexamples"
  },
  {
   "property": "C82",
   "status": "partial",
   "theorems": [
    "Verif.C82_box",
    "Verif.C82_group",
    "Verif.C82_cell",
    "Verif.C82_cell_text",
    "Verif.C82_number_false",
    "Verif.C82_group_in_table_false",
    "Verif.C82_no_kind_false",
    "Verif.C82_two_kinds_false"
   ],
   "note": "proved for all documented kinds; fails for numbers in boxes and groups, for groups in tables and for dicts of no or two kinds"
  },
  {
   "property": "C83",
   "status": "partial",
   "theorems": [
    "Verif.C83_inside_partial",
    "Verif.C83_broken_span_false",
    "Verif.C83_text_and_images_partial"
   ],
   "note": "proved for all tables without overlapping cells and with columns, borders and margins that are not negative, except those left out in C66; for a cell broken before its last row, only that it stays inside of the rectangle of the table, and it is proved that it may go below the lower line (C83_broken_span_false)"
  },
  {
   "property": "C84",
   "status": "partial",
   "theorems": [
    "Verif.C84_book_partial",
    "Verif.C84_pages_partial"
   ],
   "note": "C84_book_partial: content boxes of one column, fonts of the standard, no lists and no footnotes, running sections with a width; values can be written as in C77"
  },
  {
   "property": "C85",
   "status": "proved",
   "theorems": [
    "Verif.C85_sides",
    "Verif.C85_rectangle",
    "Verif.C85_margins_false"
   ],
   "note": "sides and top for any number of columns, the lower end for one column; rectangles of the same width"
  },
  {
   "property": "C86",
   "status": "proved",
   "theorems": [
    "Verif.C86_piled",
    "Verif.C86_group_space_false"
   ],
   "note": "boxes of one column; contents that keep to their rectangle are a hypothesis, shown for paragraphs and images"
  },
  {
   "property": "C87",
   "status": "partial",
   "theorems": [
    "Verif.C87_nested_partial",
    "Verif.C87_document"
   ],
   "note": "boxes have one column and no groups"
  },
  {
   "property": "C88",
   "status": "partial",
   "theorems": [
    "Verif.C88_margins_partial"
   ],
   "note": "lines and fills are missing; the horizontal place of text is in C90"
  },
  {
   "property": "C89",
   "status": "partial",
   "theorems": [
    "Verif.C89_links_partial"
   ],
   "note": "C89_links_partial: for paragraphs without indents and lists, in one column, standard fonts, running sections with place and size given; the zoom of names is not spoken of."
  },
  {
   "property": "C90",
   "status": "partial",
   "theorems": [
    "Verif.C90_words_partial",
    "Verif.C90_margins_partial",
    "Verif.C90_last_justified_false",
    "Verif.C90_before_last_false",
    "Verif.C90_right_blank_false"
   ],
   "note": "C90_words_partial, C90_margins_partial: no lists, indents only in left aligned and justified paragraphs (none in documents); negations for last justified lines and blanks at the end of right aligned lines"
  },
  {
   "property": "C91",
   "status": "proved",
   "theorems": [
    "Verif.C91_book",
    "Verif.C91_document",
    "Verif.C91_links",
    "Verif.C91_book_not_latin",
    "Verif.C91_writable",
    "Verif.C91_read",
    "Verif.C91_not_latin"
   ],
   "note": "any sequence of operations, and any document of sections, with values that can be written gives a file without error, all objects readable, and C65, C84 and C89 hold of it; witnesses for characters outside latin-1"
  },
  {
   "property": "C92",
   "status": "partial",
   "theorems": [
    "Verif.C92_file_partial",
    "Verif.C92_lines_and_fills_partial"
   ],
   "note": "proved for lines and fills of nested tables and boxes and in the file of a document; missing: the lower end, boxes with columns or groups, colours without components, fills and lines of paragraphs"
  },
  {
   "property": "C93",
   "status": "partial",
   "theorems": [
    "Verif.C93_file_partial",
    "Verif.C93_box",
    "Verif.C93_nested_partial"
   ],
   "note": "C93_box: any columns and programs. Nested (C93_nested_partial) and in the file (C93_file_partial): boxes as in C87, one column and no groups."
  },
  {
   "property": "C94",
   "status": "partial",
   "theorems": [
    "Verif.C94_box",
    "Verif.C94_table",
    "Verif.C94_nested_partial",
    "Verif.C94_contents_partial",
    "Verif.C94_leaves",
    "Verif.C94_document_partial"
   ],
   "note": "boxes of any columns with groups, images and boxes in them, and tables with all spans, fully proved (C94_box, C94_table); inside each other to any depth, but inside tables boxes have one column; exact rationals"
  },
  {
   "property": "C95",
   "status": "proved",
   "theorems": [
    "Verif.C95_list",
    "Verif.C95_pages",
    "Verif.C95_shorter",
    "Verif.C95_listed",
    "Verif.C95_numbers",
    "Verif.C95_shown",
    "Verif.C95_bottom_false",
    "Verif.C95_room_false",
    "Verif.C95_texts"
   ],
   "note": "C95_pages: section above, rule, list below, on all pages of a section of one column. C95_list: the list is drawn as measured, moved. C95_listed: a list if and only if there are marks, of their notes in order. C95_numbers, C95_shown: the numbers the marks show. C95_shorter: pages of paragraphs and tables in any number of columns show what shorter pages would, with contexts that change. C95_bottom_false, C95_room_false: lists that hang above the margin, or lose their first notes."
  },
  {
   "property": "C96",
   "status": "proved",
   "theorems": [
    "Verif.C96_lines",
    "Verif.C96_room",
    "Verif.C96_stream",
    "Verif.C96_box"
   ],
   "note": "C96_lines, C96_room, C96_stream: all paragraphs. C96_box: boxes of one column of paragraphs. C95_texts: C95_shown without its hypothesis, for paragraphs of fixed text."
  }
 ]
}