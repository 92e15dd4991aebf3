# Design of the formal model of pdfme

Everything is in Lean 4 under `lean/Verif`. The model is written by reading `/repo/pdfme/*.py`;
the Python code is never run.

## Layout

* `Verif/Py.lean`, `Verif/PyDict.lean` – Python strings, bytes, integers and dicts.
* `Verif/Model/*.lean` – the model: one Lean definition per Python function (or per branch of a long
  function), each with a comment citing file and lines.
* `Verif/Spec/*.lean` – small independent specifications: a PDF literal-string and object reader, a reader of
  content streams, a graphics/text-state machine, the Python `range`/`slice` rule, Roman numeral values, the PDF
  name-tree lookup, the outline and page tree readers, the words of a text, what a table and a content box should
  show. They do not import the model (a few state a property of a model type and then say so).
* `Verif/Lemmas/*.lean` – auxiliary lemmas.
* `Verif/Props/Cxx_*.lean` – the property theorems (names `Cxx_…`), with a concrete `example` beside each.
* `seeded/LOG.jsonl` – the mutation tests: wrong versions of the model and the theorems that catch them.

Names: `…_partial` is a theorem that proves a part of the property (the docstring and *Scope* below say what is
missing); `…_false` proves that the code violates the property, with a concrete witness.

## Trusted base

* The Lean 4 kernel, and the axioms `propext`, `Classical.choice`, `Quot.sound` only. No own axioms, no `sorry`,
  no `native_decide`, no `bv_decide`. Bounded evaluation (`decide`) is used for counterexamples, for examples and for
  the finite tables of C12 and C17 only.
* The hand translation from Python to Lean, and the English reading of the specifications.
* Parameters instead of models: zlib (any function), `random`, the bytes Pillow and fontTools return, the decimal
  text of a float (`NumFmt`: any function, where needed with the property that it reads back as a number close to
  the rounded value), `float(s)` of a string.

## Conventions

* `str` is `List Char` (`Str`), `bytes` is `List UInt8`; `encode('latin')` is partial.
* Python exceptions are values (`Except PyErr`). Loops without an evident bound take fuel, and the theorems either
  prove that the fuel suffices or speak about every fuel that is enough.
* Mutable objects are values returned by each step; where sharing matters (C54) there is an explicit heap.
* Numbers of layouts are rationals: IEEE rounding is out of scope. `round(x, 3)` is a function with error at most
  1/2000 where a theorem needs it.
* Widths of characters, the contents of table cells and the leaves of content boxes are arbitrary functions or
  state machines with a small contract (a cell content hands out its pieces in order; a paragraph never
  reports more than its height, which is C22).

## The properties one by one

### C01 Object ids are consecutive, unique and stable — proved

*Model:* `PDFBase` as a state with an object list (Model/Base).

*Proof:* invariant over an arbitrary list of operations. `C01_lookup` says what every number gives; oddity: negative numbers count with the place 0, `base[-1]` is the object before the last one.

*Scope:* Invariant over arbitrary histories of add / item assignment / output.

*Theorems:* `C01_ids_consecutive`, `C01_lookup`, `C01_ids_stable`, `C01_setItem`.

### C02 Cross-reference table points at the objects — proved

*Model:* `PDFBase.output` as a function to bytes (Model/Base).

*Proof:* offsets are lengths of prefixes; induction over the object loop; the ten-digit field by the lemmas on `zfill`.

*Scope:* Byte offsets of every xref entry and startxref, for every history, file below 10^10 bytes.

*Theorems:* `C02_xref_points_at_objects`.

### C03 Trailer Size and xref subsection count agree with the objects — proved

*Model:* as C02.

*Proof:* the trailer is read back with the object reader.

*Scope:* Size entry of the written trailer.

*Theorems:* `C03_trailer_size`.

### C04 Output is repeatable — proved

*Model:* `output` as a state transformer on objects and trailer.

*Proof:* the state after one output is a fixed point of the next.

*Scope:* A second output writes the same bytes and changes nothing.

*Theorems:* `C04_output_repeatable`, `C04_output_keeps_objects`.

### C05 Stream Length is exact and the stream dict is restored — proved

*Model:* `parse_stream`, `encode_stream` (Model/Parser).

*Proof:* direct, and through the PDF object reader of Spec/PdfObj.

*Scope:* Length, data and restoration; also through the PDF object reader.

*Theorems:* `C05_stream`, `C05_stream_read`.

### C06 A failed serialisation leaves the stream object intact — partial

*Model:* as C05, with the state that an exception leaves behind.

*Proof:* the negation by a stream with an unknown filter.

*Scope:* False in general (C06_failed_serialisation_keeps_stream_false, C06_stream_lost: every failure loses the stream). The partial theorem covers values that contain no stream.

*Disagreement with the code:* `parse_stream` pops `__stream__` before the filter is looked up; every exception after that loses the data.

*Theorems:* `C06_stream_lost`, `C06_failed_serialisation_keeps_stream_false`, `C06_failure_safe_partial`.

### C07 Python strings survive serialisation as PDF strings — partial

*Model:* `parse_obj` of a str against the literal-string grammar of Spec/PdfLex.

*Proof:* induction over the string.

*Scope:* False for backslash and CR (C07_string_roundtrip_false, C07_backslash_altered, C07_cr_altered); the partial theorem covers strings without them.

*Disagreement with the code:* `parse_obj` escapes parentheses but not the backslash (parser.py:78-79), and a carriage return is read as a line feed.

*Theorems:* `C07_string_roundtrip_partial`, `C07_string_rejected`, `C07_string_roundtrip_false`, `C07_backslash_altered`, `C07_cr_altered`.

### C08 Nested objects survive serialisation — proved

*Model:* `parse_obj`, `parse_dict`, `parse_list` against Spec/PdfObj.

*Proof:* mutual structural induction; tokens are self-delimiting.

*Scope:* Objects with a PDF meaning (strings without backslash/CR, see C07).

*Theorems:* `C08_object_roundtrip`, `C08_object_self_delimiting`.

### C09 Text shown with a standard font is the text given — partial

*Model:* `clean_words`, `output_text`, `PDFState.compare` (Model/TextOut).

*Proof:* the operand is read by Spec/PdfLex; induction over the characters.

*Scope:* Model of clean_words, output_text and PDFState.compare; the emitted string is read back with the PDF lexer of Spec/PdfLex. Proved for text without carriage returns; C09_text_shown_eol says what happens in general (ends of lines are read as line feeds) and C09_carriage_return_false is a witness.

*Disagreement with the code:* a carriage return inside text is written raw and read as a line feed.

*Theorems:* `C09_text_shown_partial`, `C09_text_shown_eol`, `C09_carriage_return_false`.

### C10 A list bullet text is shown as given — partial

*Model:* the list text of `add_line_to_stream`.

*Proof:* balanced parentheses are read as themselves.

*Scope:* Proved for list texts with balanced parentheses and without backslashes and carriage returns, which are written without escaping; negations for '1)', '(a' and a backslash.

*Disagreement with the code:* the list text is written without escaping: `1)`, `(a` and a backslash change or break the stream.

*Theorems:* `C10_list_text_partial`, `C10_closing_paren_false`, `C10_opening_paren_false`, `C10_backslash_false`.

### C11 Text shown with a TrueType font selects the glyphs of the text — partial

*Model:* `encode_text`, `as_hex`.

*Proof:* bytes of the operand in pairs are the glyph numbers.

*Scope:* Proved for texts without parentheses and backslashes and glyph numbers without a byte 13; missing characters are rejected. Negations: text is escaped before it is encoded; byte 13 is read as 10.

*Disagreement with the code:* words are escaped before the glyph numbers are looked up, so parentheses and backslashes select the glyph of the backslash as well; glyph numbers with a byte 13 are read as 10.

*Theorems:* `C11_glyphs_partial`, `C11_missing_rejected`, `C11_paren_false`, `C11_glyph13_false`.

### C12 Roman page numbers — proved

*Model:* `to_roman` (Model/Roman).

*Proof:* independent value and canonical form (Spec/Roman); the finite range by kernel evaluation, rejection in general.

*Scope:* Value, canonical form, rejection outside 1..3999, injectivity.

*Theorems:* `C12_roman`, `C12_rejected`, `C12_injective`.

### C13 Page ranges mean what the string says — proved

*Model:* `parse_range_string`, `MuiltiRange` (Model/Range).

*Proof:* against the Python `range` rule of Spec/Slice.

*Scope:* Membership for every list of items, with blanks; malformed items rejected.

*Theorems:* `C13_page_ranges`, `C13_rejected`.

### C14 Table position strings select like Python slices — partial

*Model:* `PDFTable.parse_pos_string`, `parse_range_string`.

*Proof:* arithmetic on `Int` against the slice rule of Spec/Slice.

*Scope:* False for slices with explicit negative bounds and negative steps in general (C14_slices_false); the partial theorem says exactly which slices agree with Python.

*Disagreement with the code:* `-10::2` on five rows selects 1 and 3 (the bound is wrapped, not clamped); `::-1` selects nothing.

*Theorems:* `C14_slices_partial`, `C14_slices_false`, `C14_empty_part`, `C14_index_list`.

### C15 Margins follow the CSS rule — partial

*Model:* `parse_margin` (Model/Margin).

*Proof:* case analysis against Spec/Margin.

*Scope:* Tuples and strings deviate (C15_margins_false, C15_two_separators); lists, numbers and dicts fully covered.

*Disagreement with the code:* a tuple of three and a string with a single number raise `TypeError`; a comma followed by a blank leaves an empty piece, which is rejected.

*Theorems:* `C15_margin_list`, `C15_margin_number`, `C15_margin_tuple_partial`, `C15_margin_string_partial`, `C15_margin_dict`, `C15_margins_false`, `C15_two_separators`.

### C16 Style strings set exactly the listed attributes — partial

*Model:* `parse_style_str` (Model/StyleStr).

*Proof:* induction over the items against Spec/Style.

*Scope:* Bool forms `b:1` are rejected (C16_bool_form_rejected), malformed colours raise TypeError (C16_bad_color_type_error), blanks before s/r are rejected; everything else covered.

*Disagreement with the code:* `b:1` is rejected although documented; a malformed colour raises `TypeError`.

*Theorems:* `C16_style_string_partial`, `C16_bool_form_rejected`, `C16_malformed_rejected`, `C16_bad_color_type_error`, `C16_blank_before_size_rejected`.

### C17 Colour specifications — partial

*Model:* `parse_color`, `PDFColor` (Model/Color).

*Proof:* hex digits by Spec/Hex; the table of names by evaluation; components of lists and of texts with separators through an independent relation (`Component`).

*Scope:* A colour list of the wrong length is accepted and cannot be written (C17_writable_false, C17_bad_accepted); all other forms covered.

*Disagreement with the code:* a list of four numbers is accepted and fails when written; a list of two is silently no colour; `#-12345` is accepted with a negative channel.

*Theorems:* `C17_hex_short`, `C17_hex_long`, `C17_hex_in_unit`, `C17_named`, `C17_number_and_none`, `C17_lists`, `C17_components`, `C17_component_refused`, `C17_text`, `C17_writable_partial`, `C17_writable_false`, `C17_bad_accepted`.

### C18 Fills and lines are painted with their own attributes — partial

*Model:* `create_graphics` (Model/Graphics).

*Proof:* the stream is read by Spec/Content and executed by Spec/Machine; simulation invariant on the remembered attributes.

*Scope:* Every list of fills and lines whose colours have 1 or 3 components is painted with its own attributes and the state restored; an unset colour inherits the previous fill (C18_no_colour_false).

*Disagreement with the code:* an item without colour is painted with the colour of the item before it.

*Theorems:* `C18_paints_partial`, `C18_unknown_style_rejected`, `C18_no_colour_false`.

### C19 Page geometry — proved

*Model:* `PDFPage`, `setup_page`, `add_page`, `get_page_size` (Model/Page); the table of named sizes is compared with ISO 216, JIS and the American sizes (`C19_paper`; the height of jis-b4 is 1031.812 where rounding gives 1031.811).

*Proof:* algebra; running sections are any functions that leave the sheet alone. `C19_defaults`: an induction over calls of `setup_page`.

*Scope:* Size, rotation, margins, content box, cursor; for any running sections that leave the sheet alone. C19_defaults, C19_defaults_set: setup_page, any number of calls.

*Theorems:* `C19_defaults`, `C19_defaults_set`, `C19_paper`, `C19_page_geometry`, `C19_y_duality`, `C19_page_created`.

### C20 No text is lost, duplicated or reordered when a paragraph is split — proved

*Model:* `PDFTextBase` and `PDFTextLine` (Model/Text).

*Proof:* invariant “placed ++ pending = content” over any history of rectangles. `C20_letters` begins with the texts as they are written (Spec/Letters, with its own list of the white space of Python), so that the cutting into words (text.py:697-702) is part of the claim; `C20_split` says what the pieces are.

*Scope:* Over any sequence of rectangles, for every paragraph: the words of the lines of all runs are the words of the content, in order (C20_words at the end, C20_prefix before it); letter by letter from the texts as they are written (C20_letters, C20_split).

*Theorems:* `C20_letters`, `C20_split`, `C20_words`, `C20_prefix`.

### C21 Lines fit the paragraph width — partial

*Model:* as C20.

*Proof:* invariant on the width of the current line.

*Scope:* Proved for paragraphs without list text; false with list text, where a line after a line break ignores the list indent (C21_list_lines_false).

*Disagreement with the code:* after a line break inside a list paragraph the line is as wide as without the list indent.

*Theorems:* `C21_lines_fit_partial`, `C21_list_lines_false`.

### C22 A paragraph never exceeds its rectangle's height — proved

*Model:* as C20.

*Proof:* invariant on heights.

*Scope:* For every state reached by runs in any rectangles.

*Theorems:* `C22_height`.

### C23 Adding a paragraph to a document finishes — partial

*Model:* the loop of `PDF.text` over the runs of C20.

*Proof:* a measure (words left) decreases with each page.

*Scope:* Proved when greatest size + greatest rise + line margin of the content fits the new pages; without that the loop never ends (C23_high_line_false).

*Disagreement with the code:* a line that is higher than the content box is never placed and `PDF.text` adds pages for ever.

*Theorems:* `C23_finishes_partial`, `C23_high_line_false`.

### C24 Paragraph checkpoints restore the paragraph — partial

*Model:* `get_state`, `set_state`.

*Proof:* what is restored determines the next run; negations by small paragraphs.

*Scope:* Proved for checkpoints taken after a line was placed, when the paragraph was not finished in between and has no list text. False otherwise: the indent is lost (C24_indent_false), words are lost when nothing fits after the restore (C24_lost_words_false), a finished paragraph stays finished (C24_finished_false).

*Disagreement with the code:* before the first line the indent is lost; words are lost when nothing fits after the restore; a paragraph that was finished in between stays finished.

*Theorems:* `C24_restore_partial`, `C24_indent_false`, `C24_lost_words_false`, `C24_finished_false`.

### C25 Rich text keeps its text and cascades its styles — proved

*Model:* `_recursive_content_parse` (Model/RichText).

*Proof:* induction over nested contents against Spec/RichText.

*Scope:* Characters, line breaks, cascaded styles and ids of every nested content; removal by equality as in the code, for every equality of dicts; wrong types are rejected.

*Theorems:* `C25_rich_text`.

### C26 Every text run is shown in its own font, size, colour and rise — partial

*Model:* `add_line_to_stream`, `output_text` (Model/TextOut).

*Proof:* the stream executed on Spec/Machine; the remembered state equals the state of the machine.

*Scope:* The stream of a run executed on the text machine of Spec/Machine shows everything with its own font, size, colour and rise (C26_own_state, complete for list texts that can be shown, see C10). used_fonts: proved unless the text of a list is shown by a later run than the one that set it up; negation C26_list_font_false.

*Disagreement with the code:* the list font is only reported by the run that set the list up.

*Theorems:* `C26_own_state`, `C26_used_fonts_partial`, `C26_list_font_false`.

### C27 Justified lines fill the width — partial

*Model:* as C26, with `Tw`.

*Proof:* widths from the text engine, up to the rounding of the number written.

*Scope:* Proved for lines that are not among the last two of a run, standard fonts and paragraphs without line breaks, up to the rounding of Tw. Negations: the line before a last line of one word; TrueType fonts.

*Disagreement with the code:* the line before the last is not stretched when the last word starts a new line; `Tw` has no effect on two-byte fonts.

*Theorems:* `C27_justified_partial`, `C27_line_before_last_false`, `C27_truetype_false`.

### C28 Lines start at the horizontal position their alignment asks for — partial

*Model:* as C26, with the `Td` moves.

*Proof:* sum of the moves, up to rounding per line.

*Scope:* Sum of the horizontal moves in the stream, up to rounding. Partial: right aligned and centred paragraphs only without indent and list; correct_indent has to be right. Negations: second rectangle after a rectangle of one line, right aligned with indent, right aligned list.

*Disagreement with the code:* `correct_indent` after a rectangle that took one line; `indent` of right aligned or centred paragraphs.

*Theorems:* `C28_line_starts_partial`, `C28_second_rectangle_false`, `C28_right_indent_false`, `C28_right_list_false`.

### C29 Tables keep every cell exactly once across pages — partial

*Model:* the engine of `PDFTable` (Model/TableRun).

*Proof:* invariant over rows and runs; the contents satisfy `Honest` (pieces in order). `RowOrder`: the labels of what is shown do not go back to an earlier row, and the rows before one that is shown are complete.

*Scope:* C29_cells_partial: plain cells (no spans), any contents that hand out their pieces in order, any rectangles: each cell once, completely, row by row. Missing: negative margins, which lose text (C29_negative_margin_false); a cell dict without content never finishes (C29_no_content_false).

*Disagreement with the code:* negative margins make the reported height 0 and lose text; a cell dict without content key stays pending for ever.

*Theorems:* `C29_cells_partial`, `C29_negative_margin_false`, `C29_no_content_false`.

### C30 Table checkpoints restore the table — partial

*Model:* `get_state`, `set_state` (Model/TableDefs).

*Proof:* direct; negation with pending cells.

*Scope:* Only the row index is restored; set_state ignores the pending cells when a row index is given (table.py:246-249), proved as C30_pending_cells_false and C30_restore_false.

*Disagreement with the code:* `set_state` uses `elif` (table.py:246-249): the pending cells are ignored when a row index is given.

*Theorems:* `C30_row_restored_partial`, `C30_pending_cells_false`, `C30_restore_false`.

### C31 A table never exceeds its rectangle's height — partial

*Model:* as C29.

*Proof:* invariant on heights.

*Scope:* C31_height_partial: plain cells with contents that keep to their height and are not empty: at most the rectangle's height, or 4 points more if a cell is left over. Violated in general: C31_overflow_false, C31_empty_rows_false.

*Disagreement with the code:* a row that finds no room after others still takes 4 points, and so does a row of empty cells.

*Theorems:* `C31_height_partial`, `C31_overflow_false`, `C31_empty_rows_false`, `C31_words_partial`.

### C32 Table columns tile the table width — proved

*Model:* `__init__`, positions and widths (Model/TableDefs).

*Proof:* sums of rationals.

*Scope:* Exact arithmetic; every widths list and column count; zero sums rejected.

*Theorems:* `C32_widths_normalised`, `C32_rejected`, `C32_columns_tile`.

### C33 Merged cells are not drawn twice — partial

*Model:* as C29, with spans.

*Proof:* the pending spans determine the covered positions of the next row.

*Scope:* C33_cells_partial: tables with colspans and rowspans; the conditions and what fails are in C33_first_row_lost_false and C33_after_break_false.

*Disagreement with the code:* a first row in which all cells span rows has height 0 and cancels the table; when a page breaks inside a merged cell the row span is forgotten and the covered position is shown.

*Theorems:* `C33_cells_partial`, `C33_first_row_lost_false`, `C33_after_break_false`.

### C34 Border and fill definitions: last one wins — proved

*Model:* `setup_borders`, `setup_fills`, `get_border`.

*Proof:* induction over the definitions.

*Scope:* Every list of definitions accepted by the code, borders in both directions and fills.

*Theorems:* `C34_borders`, `C34_border_value`, `C34_fills`.

### C35 A content box keeps every element exactly once and in order — partial

*Model:* `PDFContentPart` with columns, delayed elements, balancing and nested boxes (Model/Content).

*Proof:* invariant over the calls of the mutually recursive engine; the elements satisfy `Honest`. `BoxSettled`: the elements before one that is shown are complete, but for flowing images.

*Scope:* C35_content_partial: boxes of leaves and images (flowing or not) with any number of columns, any contents that hand out their pieces in order, any rectangles. Missing: nested boxes and groups; a nested box can be repeated (C35_nested_repeated_false).

*Disagreement with the code:* a nested box is repeated when a flowing image before it fails twice.

*Theorems:* `C35_content_partial`, `C35_nested_repeated_false`.

### C36 Column balancing terminates — partial

*Model:* as C35.

*Proof:* the height searched for halves at each attempt until the difference is below 1; bound on the number of attempts.

*Scope:* C36_balancing_partial: boxes of paragraphs, tables and images, any number of columns, any rectangles with a height, contents that are finished when given a certain height. Missing: nested boxes and groups. Violated in a rectangle of height 0: C36_no_height_false.

*Disagreement with the code:* in a rectangle of height 0 the search never ends: `if self.minim_diff_last` takes a difference of 0 for no difference.

*Theorems:* `C36_balancing_partial`, `C36_no_height_false`.

### C37 Balancing leaves no traces of abandoned attempts — partial

*Model:* as C35: parts with the cut `parts[:parts_index]`.

*Proof:* the invariant of C35 is on the parts that remain.

*Scope:* C37_parts_partial: text and image parts show each element once after any number of attempts, for the boxes of C35. Violated for table lines and fills: C37_lines_remain_false.

*Disagreement with the code:* `reset` cuts `parts` but not `lines` and `fills`.

*Theorems:* `C37_parts_partial`, `C37_lines_remain_false`.

### C38 Groups are placed completely or not at all — partial

*Model:* `process_group`, `process_group_element`.

*Proof:* the first pass leaves the parts alone; the second pass places what the first measured.

*Scope:* C38_group_partial: a group that is not placed adds nothing and leaves the position in the column; a group of paragraphs and tables that is placed is complete if it does not start a column and its bottom margins are small enough. Violated otherwise: C38_start_lost_false, C38_image_lost_false; the space before the next element changes: C38_spacing_false.

*Disagreement with the code:* at the start of a column the second pass starts lower than the first one, and what finds no room is lost; an image of a group can be lost as well. A group that is tried and put off changes `starting` and `last_bottom`, so the element after it is placed lower (`C38_spacing_false`).

*Theorems:* `C38_group_partial`, `C38_start_lost_false`, `C38_spacing_false`, `C38_image_lost_false`.

### C39 Images keep their proportions and fit — partial

*Model:* `process_image`.

*Proof:* invariant over every box of the engine.

*Scope:* C39_proportions: all images of all content boxes, with groups and nested boxes. C39_image_partial: inside the column and not below it, if the column is wider than the margins and min_height is positive. Violated otherwise: C39_margins_false, C39_min_height_false.

*Disagreement with the code:* margins wider than the column make the width negative; a negative `min_height` puts the image below the column.

*Theorems:* `C39_image_partial`, `C39_proportions`, `C39_margins_false`, `C39_min_height_false`.

### C40 Page content is written in call order — proved

*Model:* `PDFPage.add` (Model/Page).

*Proof:* invariant over page operations.

*Scope:* Any history of page operations.

*Theorems:* `C40_page_stream_order`.

### C41 Image resources are named consistently — proved

*Model:* `PDFPage.add_image`.

*Proof:* invariant over page operations; executed on Spec/Machine.

*Scope:* Any history of page operations; the written portion also executed on the graphics machine.

*Theorems:* `C41_image_names`, `C41_image_painted`.

### C42 Fonts: one object per font, every used font is a page resource — partial

*Model:* `_add_or_get_font`, `_used_font`, `_add_text` (Model/PdfText, Model/Fonts).

*Proof:* invariant over histories of a document; names in the streams by the lexer.

*Scope:* Every font name in a page's stream resolves to the font object of its family and mode, for every history of a document without add_font; counterexamples for a replaced font and for bullets

*Disagreement with the code:* `add_font` of a family that is in use leaves the old object in `used_fonts`; bullets, see C26.

*Theorems:* `C42_fonts_partial`, `C42_stream_partial`, `C42_replaced_font_false`, `C42_bullet_false`.

### C43 Registered fonts work in every document of the process — partial

*Model:* `PDFFonts`, class state `STANDARD_FONTS`/`fonts` (Model/Fonts).

*Proof:* invariant over histories of a process; negations by two documents.

*Scope:* Proved for the first document of a process; counterexamples for a second document, a wrong face, and PDF.add_font

*Disagreement with the code:* a font loaded with `PDF.add_font` cannot be used (only registered families are looked for); the class-level tables make a second document raise `KeyError` or get a wrong face.

*Theorems:* `C43_one_document_partial`, `C43_standard`, `C43_second_document_false`, `C43_wrong_face_false`, `C43_added_font_false`.

### C44 Page tree — proved

*Model:* `_build_pages_tree` (Model/Trees).

*Proof:* the objects are read by the page-tree reader of Spec/PageTree.

*Scope:* Any history of pages, objects, entry updates and earlier outputs; the builder makes a single flat node.

*Theorems:* `C44_page_tree`, `C44_no_pages_rejected`.

### C45 Every label is found through the name tree — proved

*Model:* `_build_dests_tree`, `_build_dests` (Model/NameTree).

*Proof:* sorted leaves, Limits as intervals; lookup of Spec/NameTree.

*Scope:* Any number of labels in any registration order; lookup by a reader that descends by Limits, from the catalog.

*Theorems:* `C45_name_tree`, `C45_no_labels`.

### C46 Outline tree links are consistent — proved

*Model:* `_build_outlines_tree`, `_build_outlines` (Model/Outline).

*Proof:* mutual induction over the forest; the links are followed by Spec/Outline.

*Scope:* Every forest, every level; titles, destinations, all links, root and item counts; other objects unchanged. Closed items get Count -1 (the standard asks for the negated number of descendants).

*Theorems:* `C46_outline_tree`, `C46_no_outlines`.

### C47 Outline levels nest by document order — proved

*Model:* pdf.py:632-638 (insertion).

*Proof:* induction over the sequence of levels.

*Scope:* Every sequence of levels; success exactly when no level is skipped; the forest is determined by document order and levels.

*Theorems:* `C47_outline_levels`, `C47_forest_unique`.

### C48 Per-page styles apply only to their pages — partial

*Model:* `PDFDocument` pages (Model/Document).

*Proof:* state machine over the pages of a document.

*Scope:* Layout proved for settings made by every section or nowhere; a per_page style otherwise leaks to later pages (counterexample).

*Disagreement with the code:* settings of a `per_page` entry persist in `setup_page` for later pages and sections.

*Theorems:* `C48_layout_partial`, `C48_leak_false`.

### C49 Page numbers — partial

*Model:* `get_page_number`, numbering of sections.

*Proof:* induction over pages.

*Scope:* Numbers, resets and consecutive numbering proved; the documented offset rule is false (counterexample).

*Disagreement with the code:* the offset is added instead of subtracted; the offset of the document style is applied again after a section with reset.

*Theorems:* `C49_numbers_partial`, `C49_consecutive`, `C49_offset_false`.

### C50 Footnote numbers match the footnote list — partial

*Model:* `_add_content`, `_check_footnotes`, `_get_footnotes_obj` (Model/Footnotes).

*Proof:* the page is laid out again with a smaller height until the footnotes fit.

*Scope:* Lists and context values proved for marks in one place each; shown numbers proved when a lower page shows a beginning of what a higher one shows; a delayed group breaks it (counterexample).

*Disagreement with the code:* laying out a page again for its footnotes may lose the words of a paragraph that goes on there (`C76_footnotes_false`); when the smaller rectangle puts a group off, a mark that shows 2 belongs to the footnote listed as 1.

*Theorems:* `C50_listed`, `C50_page_partial`, `C50_order_false`.

### C51 JPEG dimensions — partial

*Model:* `parse_jpg` (Model/Image).

*Proof:* recursion on the remaining bytes.

*Scope:* Every header of non-frame segments and RST/SOI/EOI markers; acceptance implies a frame header with the reported values; fill bytes and TEM are mis-handled (C51_fill_bytes_false, C51_tem_rejected).

*Disagreement with the code:* fill bytes (FF FF) and TEM are rejected.

*Theorems:* `C51_jpeg_header_partial`, `C51_accepted_has_frame`, `C51_rejected_value_error`, `C51_scan_without_frame_rejected`, `C51_no_frame_rejected`, `C51_fill_bytes_false`, `C51_tem_rejected`.

### C52 Links and references land on the right rectangles — proved

*Model:* `_add_text` (Model/PdfText).

*Proof:* induction over rectangles and histories against Spec/Links.

*Scope:* One action object per link, exact annotations per page and last destination per label for every history of a document

*Theorems:* `C52_links`.

### C53 Running sections geometry — partial

*Model:* `_set_running_sections`, `add_running_section`, `add_page` (Model/Document).

*Proof:* case analysis; induction over pages.

*Scope:* Set of running sections and their rectangles proved for measures that are not None; None measures differ from the documentation (counterexamples).

*Disagreement with the code:* a width of `None` reaches to the right margin of the page even from its left edge; `x` or `y` of `None` mean the corner of the contents or the end of the section before.

*Theorems:* `C53_running_partial`, `C53_none_width_false`, `C53_none_x_false`.

### C54 Copies are independent and equal — partial

*Model:* `copy` on a heap (Model/Copy).

*Proof:* fresh addresses are disjoint from the old ones.

*Scope:* Equality for every finite structure; independence under arbitrary edits for structures of lists and dicts; containers inside tuples or other objects are shared (C54_tuple_shared_false).

*Disagreement with the code:* tuples are not copied: containers inside are shared.

*Theorems:* `C54_copy_equal`, `C54_copy_independent_partial`, `C54_tuple_shared_false`.

### C55 Footnotes of a document — proved

*Model:* `_traverse_document_footnotes` (Model/Footnotes).

*Proof:* mutual induction over documents.

*Scope:* Documents are trees without sharing; a footnote inside a footnote is not a mark.

*Theorems:* `C55_marks`.

### C56 Size and place of an image — partial

*Model:* `add_image` (Model/PdfParts).

*Proof:* invariant over histories of a document (`PdfD.Inv`); the portion is executed on Spec/Machine.

*Scope:* the place of the top is violated (bottom at y)

*Disagreement with the code:* `add_image` sets `page._y = y` and paints upwards from there: `y` (or the cursor) is the *bottom* of the image, not the top; on a page without margins an image at the cursor is above the page. With `move="bottom"` the cursor ends one height below the bottom of the image.

*Theorems:* `C56_image_partial`, `C56_top_false`.

### C57 One object for each image — proved

*Model:* `self.images` (Model/PdfParts).

*Proof:* invariant `Imgs` over histories.

*Scope:* histories of documents

*Theorems:* `C57_images`.

### C58 The cursor after a table or content box — partial

*Model:* `_position_and_size`, the ends of `_table`/`_content` (Model/PdfParts); what a box computes is a parameter.

*Proof:* the cursor as a fold over the parts; formula for boxes of paragraphs; `C58_put` for the whole call, from the rectangle asked for to the cursor afterwards.

*Scope:* boxes without parts; the cursor is too low otherwise

*Disagreement with the code:* `_add_parts` calls `_add_text`/`add_image` with their default `move="bottom"`: every paragraph of a table or content box moves the cursor down by its height (every image sets it to its own place), then the height of the box is added (pdf.py:775-776, 853-854). After a box of paragraphs the cursor is too low by the sum of their heights.

*Theorems:* `C58_rectangle`, `C58_cursor_partial`, `C58_cursor_exact`, `C58_cursor_false`, `C58_put`.

### C59 What is painted of a table or content box — proved

*Model:* `_add_graphics`, `_add_parts` (Model/PdfParts).

*Proof:* induction over the parts; adding text leaves the rest of the page alone (`Still`).

*Scope:* histories of documents

*Theorems:* `C59_parts`.

### C60 Widths of an embedded font — partial

*Model:* `compute_char_widths`, `add_font` (Model/Fonts); the array is read by `readW` (Spec/FontFile, only the form `c [w1 … wn]`).

*Proof:* the loop is rewritten as a list of groups (`groupLoop`); completeness needs that equal glyphs have equal widths, soundness that glyphs are distinct.

*Scope:* Completeness for every font with a character; soundness when no two characters share a glyph. Violated for shared glyphs (C60_shared_glyph_false) and for fonts without characters (C60_no_characters_false).

*Disagreement with the code:* `prev_glyph_id` is only set when a group begins (fonts.py:396-401), so a group goes on while the glyph is the one after its *first*: of three consecutive characters with glyphs 3, 4, 4 the third width is filed under glyph 5 (`C60_shared_glyph_false`). A font without characters gets the array `[[]]`.

*Theorems:* `C60_widths_partial`, `C60_shared_glyph_false`, `C60_no_characters_false`.

### C61 Characters of an embedded font — partial

*Model:* `get_tounicode_cmap`, `add_font` (Model/Fonts); the text is read by `readCMap` (Spec/FontFile): a line reader for `bfchar` blocks of at most 100 entries, two-byte codes and UTF-16BE characters.

*Proof:* the text is split into its lines (`textLines_toUnicode`), hexadecimal numbers are read back (`hexNum_zfill`), induction over the entries.

*Scope:* Exact for fonts of at most 100 characters of the basic plane; violated by every font with more characters (C61_many_false) or with a character above U+FFFF (C61_astral_false).

*Disagreement with the code:* all characters are put into one `bfchar` block, which may have 100 entries at most (so nearly every font file violates this; many readers are lenient), and characters above U+FFFF are written as five or six digits instead of UTF-16BE surrogates.

*Theorems:* `C61_characters_partial`, `C61_many_false`, `C61_astral_false`.

### C62 Words and images of table cells — partial

*Model:* `process_text`, `process_image` (Model/Cells) in the table of Model/TableRun: a paragraph is its `TCfg` and the rectangles it was run in. Here nothing is assumed of the contents of cells: they are the paragraphs of Model/Text.

*Proof:* the contract of C29/C33 is proved for paragraphs (from C20) and images in boxes that are wide enough (`leafSafe_honest`), and a table whose cells are wide enough runs as with that contract (`runs_cong`). `C31_words_partial` is C31 for these tables.

*Scope:* the words and images of each cell, over any rectangles; without row spans in the first row (counterexample C33_first_row_lost_false) and with boxes of positive width for images (counterexample)

*Disagreement with the code:* an image in a box without width (a column of width 0, or margins wider than the column) has a negative height; in the first row this undoes the run if no other cell has any height, and the image is lost (`C62_narrow_image_false`).

*Theorems:* `C62_words_partial`, `C62_rows_partial`, `C62_narrow_image_false`.

### C63 Adding a table ends — partial

*Model:* the loop of `PDF.table` (Model/PdfTable) over the tables of C62; the rectangles of the pages are given.

*Proof:* a measure of what is left (rows not started, words of the delayed cells, one for the row that may be undone) gets smaller in every rectangle in which the delayed cells fit (`tableRun_ends`); contents that get smaller are a contract (`Spec.Ends`), proved for paragraphs (`textRun_progress`) and images. No errors: `pages_total`.

*Scope:* Cells without row spans whose contents fit into a page (and colspans, None cells, any first page): the loop ends without errors within a bound, and all words and images were shown. Not proved for row spans; false for an image higher than the pages (C63_high_image_false).

*Disagreement with the code:* an image that is as high as a page or higher is never shown and `PDF.table` adds pages for ever (`C63_high_image_false`); so it does for a cell without content (`C29_no_content_false`). Not proved: tables with row spans.

*Theorems:* `C63_ends_partial`, `C63_all_shown_partial`, `C63_high_image_false`.

### C64 A reader finds every object — proved

*Model:* `PDFBase.output` and `parse_obj` as for C01-C08; the reader `openFile`, `PdfFile.object` (Spec/Reader) is an executable function on bytes written from ISO 32000: `startxref` read from the end, entries of 20 bytes, objects through the lexer of C08, streams by their `Length`. It reads files with one cross-reference section.

*Proof:* the lexer is cut into the part before and after a byte (`lexRun`), and bytes that lex on their own are read up to the next keyword (`readUntil_lexTo`, `readUntil_closed` for `>>stream`); the table and trailer are read back by computation on their layout (`file_opens`), the objects by `file_at`, `obj_ok` (C08) and `stream_ok` (C05).

*Scope:* The file, read by an executable specification reader, gives back the trailer, every object and every stream.

*Theorems:* `C64_file_reads_back`.

### C65 A reader finds the whole document — proved

*Model:* `PDF.output` (Model/PdfOutput) on the document states of C42-C59: the parts of a page (portions of its stream, resources, annotations) are put into its dicts by `Page.flush`, then come the page tree (C44), the name tree (C45), the outline (C46) and `PDFBase.output` (C64). The order of `Font` and `XObject` within `Resources` is fixed. The reader (Spec/ReadDoc) is executable and written from ISO 32000: catalog, page tree with `Parent` and `Count` checked, contents, resources, link annotations, name tree by `Limits`, outline by `First`/`Next` with `Parent`, `Prev` and `Last` checked; a depth bounds how far trees are followed. Assumed: every value of the document has a PDF meaning (`readable`, decidable), the output succeeds, it is shorter than 10^10 bytes.

*Proof:* an invariant of the objects of a document (`OutInv`, Lemmas/PdfOutput) kept by every operation; the state after the three trees (`trees_ok`, Lemmas/PdfTrees); every dict of the table is found in the file (`reads_file` from C64); trees of dicts become trees of the reader by induction (Lemmas/ReadDoc). `C65_operations` states the same from the list of operations (Spec/DocShown: places, links, spots, outline items) without looking at the document state; images must not be action dicts; invariant `OpsInv` (Lemmas/DocOps) on top of that of C52.

*Scope:* any history of operations; assumes all values have a PDF meaning and the output succeeds with less than 10^10 bytes

*Theorems:* `C65_document`, `C65_trees_built`, `C65_no_pages`, `C65_operations`.

### C66 The lines and fills of a table — partial

*Model:* the engine of tables (Model/TableRun) with any contents of cells; the specification (Spec/TableLines) knows a grid of rows with a border above and at the left of each position, the cells over it, `stretches` of equal borders and the corners, and says with `Drawing` what one run should draw.

*Proof:* the pen: an invariant of `process_borders` over the list of borders so far (Lemmas/TableLines: the open horizontal line and the open vertical lines are the last stretches, the finished ones are the others), an invariant of `is_span` over the positions of a row and over rows (Lemmas/TableGrid, TableGridRow, TableGridRun), one of `fills_mem`, and the end of a run (Lemmas/TableGridEnd).

*Scope:* proved for all tables without overlapping cells, except those with both a cell of one column and more than two rows and a cell of more than one column, where the code leaves out a line (C66_line_missing)

*Disagreement with the code:* `is_span` (table.py:649-668) sets `is_rowspan` when it passes under a cell of one column that goes on in the next row, and nothing resets it: a cell of several columns later in that row loses its upper border over its further columns (`C66_line_missing`). The theorem leaves out the tables with both kinds of cells (`FlagOk`). Two more oddities are part of what is proved: after a page break the lower line of the page has the upper borders of the row that was broken, and a position under a cell that spans rows and was finished on the page before is an empty cell of its own on the next page, with its borders.

*Theorems:* `C66_lines_and_fills_partial`, `C66_line_missing`.

### C67 Backgrounds, underlines and links are where the text is — partial

*Model:* what a run writes (Model/TextOut: text, graphics and ids) and the stream made of them (Model/Graphics.paragraphStream); the specification (Spec/TextMarks) knows the pieces of lines one after the other, each as wide as it is shown, and what belongs to a piece.

*Proof:* the text half is that of C26 to C28 with the moves kept (Lemmas/TextMarksPlace.runItems_moves); the painted half is an invariant of what is remembered of the graphics (`TgInv`, Lemmas/TextMarks). Both halves are related by `CloseMark`: the place of a piece in the variables of the code and in the numbers that were written differ by at most one rounding for each move so far and each blank of the line. The whole stream (moved by `cm` and `Tm`) is executed on the machine of Spec/Machine. That ids are noted in the order in which they first appear (`firsts`) is an invariant of the keys of the dict of ids. Assumed of numbers: they are written in decimal up to `ε`, also after a minus (`TFmt.Signed`; an instance is proved for examples).

*Scope:* the whole stream of a paragraph and the rectangles of its ids; not for right aligned or centred paragraphs with an indent, justified TrueType text and later rectangles with correct_indent, where it is false (three negations)

*Disagreement with the code:* in a right aligned or centred paragraph with an indent the marks of the first line are moved by the indent, but its text is not (`C67_right_indent_false`); in justified text in TrueType fonts the word spacing is not applied to the blanks of two-byte codes, but the marks are placed as if it was (`C67_truetype_false`); in later rectangles of a paragraph whose first rectangle has room for one line, the second line is moved to the left by the indent, but its marks are not (`C67_second_rectangle_false`). The theorem leaves out these three cases. Backgrounds are 1.2 times as high as the size of the text, but the rectangles of links only as high as the size.

*Theorems:* `C67_marks_partial`, `C67_right_indent_false`, `C67_truetype_false`, `C67_second_rectangle_false`.

### C68 Baselines of a run — partial

*Model:* the same model; the depth of a baseline is defined from the heights of the lines (C22).

*Proof:* induction over the lines with the sum of the vertical moves (`mvAt_down`); with C22 for the reported height.

*Scope:* every baseline for every run; that the last one is at the reported height only if the text of the list is not higher than the first line, otherwise false (negation)

*Disagreement with the code:* if the text of a list is higher than the first line, the line is moved down by the size of that text (text.py:843-845), but the reported height does not know of it: the text is shown below the height reported, and may be below the rectangle (`C68_list_text_false`).

*Theorems:* `C68_baselines_partial`, `C68_list_text_false`.

### C69 Tables and boxes inside each other show everything once — partial

*Model:* `process_content` and `process_table` (Model/Nest, for any kind of leaves; here the words and images of C33): things of depth n + 1 are made of things of depth n; the state of an inner table or box is what it was made from and the rectangles it was run in. Every paragraph and image has a number that the code does not see (Spec/Nest).

*Proof:* induction over the depth: a table or box whose contents are honest (they show the next atoms, nothing without height, and are complete when finished) is honest itself. By C33 and C35 what is shown of a number is a prefix; a run without height shows nothing (Lemmas/TableZero, Lemmas/ContentZero); contents are used only with widths that suit them (Lemmas/TableCong, Lemmas/ContentCong). The order (`C69_order_partial`; Spec/Order says what comes first) is proved by looking at two numbers at once: the contract of C33 and C35 with the parts of the first marked `false` and those of the second `true`, and what is held being all of the first and then all of the second (Lemmas/NestOrder). There is no order between the cells of a row, which are shown side by side and continue on the next page.

*Scope:* things of every depth, and their order (C69_order_partial); partial: inner tables have no row spans (C69_row_span_false), margins and borders are not negative, images have sizes and room, inner boxes have one column, no groups and no boxes as elements

*Disagreement with the code:* if all the cells of the first row of an inner table span rows, the words they show in the first rectangle are lost (`C69_row_span_false`, as in C33).

*Theorems:* `C69_nested_partial`, `C69_order_partial`, `C69_spans_partial`, `C69_row_span_false`.

### C70 The words of a content box in columns — partial

*Model:* `PDFContentPart` with paragraphs (Model/Content, Model/Cells).

*Proof:* C35 with the paragraphs of Model/Cells, restricted to widths they can be run in (`contentBox_runs_cong`).

*Scope:* paragraphs and images, any number of columns, with paragraphs as values; the code is the same for one column and for one page, and loses words otherwise (C76_columns_false); partial: no groups (C38) and no nested boxes (C35_nested_repeated_false)

*Disagreement with the code:* the theorem is about paragraphs as values; with several columns over several pages the code loses words on the last page (`C76_columns_false`). For one column, and for one page, the two are the same (C76).

*Theorems:* `C70_words_partial`.

### C71 The styles of everything inside — partial

*Model:* `process_style`, `get_element_styles`, `get_cell_style`, the styles of the parts and the texts, and what `PDF` puts around them (Model/Styles): a walk over the tree of elements that says for each text, cell, table and box the style it is laid out with. Values are any type; the numbers and strings in it are told by the context. Errors are of the class that is raised, the place in the order of evaluation is kept.

*Proof:* the specification (Spec/Styles) knows a list of layers, from the inside out, and `says` looks for the first that says something. `Follows` relates the walk to them by induction over the tree. `C71_fine_partial`: if all styles are dicts or known formats and what must be a number is one, nothing is refused.

*Scope:* proved for the walk over all elements; the margins of single sides of cells and the margins of tables are inherited against the claim (C71_cell_margin_false, C71_margin_twice)

*Disagreement with the code:* a margin of one side given for all cells of a table (`cell_margin_top`) beats the `cell_margin` of a single cell (`C71_cell_margin_false`); the margins of a table are inherited by the boxes in its cells and applied to their elements again (`C71_margin_twice`). `Follows` describes both as they are. A group as a cell is not recognised.

*Theorems:* `C71_content_partial`, `C71_table_partial`, `C71_fine_partial`, `C71_cell_margin_false`, `C71_margin_twice`.

### C72 An element can be drawn again — partial

*Model:* the same functions give back the style that is left in the element of the caller.

*Proof:* a text at the same place: what is left in it, drawn again, gives the same dict. The table works on a copy of a cell, which stays as it was.

*Scope:* proved for the same place and for cells; negation at other places (C72_again_false, C72_text_false)

*Disagreement with the code:* `element["style"] = style.copy()` (content.py:859) and `_init_text` (pdf.py:512) write into the dict of the caller: an element that is drawn again elsewhere (every running section is, pdf.py:278-279) keeps the style of the first drawing (`C72_again_false`, `C72_text_false`). Proved for the same place and for cells.

*Theorems:* `C72_again_partial`, `C72_cell_partial`, `C72_again_false`, `C72_text_false`.

### C73 The settings of the document hold everywhere — partial

*Model:* `_default_paragraph_style`, `_create_text`, `_text`, `text` with their default arguments and `_default_content_style` (Model/Styles).

*Proof:* from C71 by what the layers say of a key nobody mentions (`AllSilent`); `text` by computation.

*Scope:* proved for content boxes and tables and the alignment of text; negation for the line height and the indent of text (C73_text_false)

*Disagreement with the code:* `text`, `_text` and `_create_text` have the default arguments `line_height=1.1` and `indent=0`, so what was given to the document is not used by `text` (`C73_text_false`). The layout attributes in the `style` of a dict given to `text` are ignored as well.

*Theorems:* `C73_boxes_partial`, `C73_text_partial`, `C73_text_false`.

### C74 An image is what the ending of its name says — partial

*Model:* `PDFImage.__init__`, `parse_jpg` from a position and `parse_png` (Model/ImageFile). The files are a function of the path, Pillow is any function of the bytes; opened and closed files are part of the result. `lower` is that of ASCII.

*Proof:* `Writes` says how an ending may be written; `normExt_iff` shows that the code accepts exactly these. With C51 for the frame header.

*Scope:* proved for paths with a stem and file-like objects at their beginning; negations C74_path_false and C74_position_false

*Disagreement with the code:* `.jpg` and `jpg` as a string are JPEG files, as a path they are refused (`C74_path_false`). A file-like object that is not at its beginning is measured from where it is, but embedded from its beginning (`C74_position_false`).

*Theorems:* `C74_closed`, `C74_jpg_partial`, `C74_png_partial`, `C74_refused`, `C74_no_ending`, `C74_path_false`, `C74_position_false`.

### C75 Adding a content box to a document comes to an end — partial

*Model:* The loop of `PDF.content` (pdf.py:860-876) as `CContent.runs` over a first rectangle and pages of one size (Model/Content), with paragraphs as leaves (Model/Cells).

*Proof:* Lemmas/ContentEnds: the words and elements left are a measure that every full page makes smaller; an image is tried at most once for each flowing image before it, so fewer than 48 of them never reach the limit of 50. `textRun_mono`: a run of a paragraph never goes back. With C70 for what was shown. The bound is the number of words, items and elements.

*Scope:* one column, paragraphs and images that fit a page, fewer than 48 flowing images; fails for lines or images higher than a page and for many flowing images

*Disagreement with the code:* a line higher than a page adds pages for ever (`C75_high_line_false`); an image higher than a page raises `Exception` after fifty pages (`C75_high_image_false`); 52 flowing images that fit a page each raise it as well, because each page tries all that wait (`C75_flowing_images_false`).

*Theorems:* `C75_ends_partial`, `C75_all_shown_partial`, `C75_high_image_false`, `C75_flowing_images_false`, `C75_high_line_false`.

### C76 Laying out a page again does not change its paragraphs — partial

*Model:* The paragraphs of a content box as a list of `PDFText` objects that saved states point to (Model/ParObjects); `set_state` sets two of their attributes.

*Proof:* a simulation with the content box of Model/Content, whose paragraphs are values: the objects of the delayed elements are different ones, and each is in the state its value says. Balancing breaks this only on a page that began with a paragraph going on; a box that is balancing never leaves its page (`run_settles`). The counterexamples are evaluated.

*Scope:* one column over any pages, the pages before the last one and a box on one page for any number of columns; fails for balanced columns on a later page and for pages with footnotes (counterexamples); partial: no groups, nested boxes or tables

*Disagreement with the code:* `set_state` (text.py:539-553) restores `last_part` and `last_word`, not `last_part_line`, `last_word_line` and `is_first_line`, and all copies of a saved state share the `PDFText` object. When a page on which a paragraph goes on is laid out again and no line of it fits, `add_current_line` goes back to where the *trial before* had ended: the words are on no page. It happens with balanced columns (`C76_columns_false`) and with footnotes in one column (`C76_footnotes_false`, where the footnote is lost with them); a paragraph put off before its first line loses its indent (`C76_indent_false`).

*Theorems:* `C76_one_column_partial`, `C76_before_last_partial`, `C76_first_page_partial`, `C76_words_partial`, `C76_columns_false`, `C76_indent_false`, `C76_footnotes_false`.

### C77 The text that is given can be read in the file — partial

*Model:* `PDF.text` with its loop over pages (Model/PdfPages), on top of `_text`, the runs and streams of a paragraph, `_add_text`, `add_page` and `output`. The reader of Spec/FileText opens the file with the reader of C65, executes the contents of each page with the machine of Spec/Machine and reads one character per byte.

*Proof:* the stream of every page is a sequence of portions each of which executes from any idle state; by C26 and C67 a portion shows the strings of its lines, by C20 the lines have the words of the content, by C65 the reader gets the streams. Partial: paragraphs without lists, in the fonts of the standard (TrueType fonts write glyph numbers), no running sections; as in C65 the values are assumed to be writable.

*Scope:* paragraphs without lists, in the fonts of the standard, on pages without running sections

*Theorems:* `C77_words_partial`, `C77_characters_partial`.

### C78 Text stays between the margins, each paragraph below the one before — partial

*Model:* as C77; the place of a string in the file is `Event.origin` (Spec/FileText): the text matrix and the moves of the text object, read as numbers, when nothing else transforms the page. `stacked` says that pieces follow each other without gaps.

*Proof:* an invariant of the pages: their pieces are stacked from the upper margin to the cursor, which stays above the lower margin by C22; inside a piece the baselines are where C68 says, plus the rounding of each move (`mvAt_across`, `mvAt_down`). `C78_between` and `C78_below` draw the consequences. Partial: as C77 (no lists, whose text can be below the reported height, see C68), line heights that are not negative; nothing is said about where lines end (C21) or about the rise of parts of a text.

*Scope:* paragraphs without lists, in the fonts of the standard, on pages without running sections; line heights that are not negative

*Theorems:* `C78_places_partial`, `C78_between`, `C78_below`.

### C79 Text in the file has the font, size, colour and rise that were given — partial

*Model:* as C77, with the fonts of Model/Fonts, their objects in the file and the resources of the pages. `baseFont` of Spec/Glyphs lists the 14 names of the standard; `pageGlyphs` is a reader that takes size, colour and rise from the graphics state and the font from the resources.

*Proof:* `text_chunk` says of every portion that its strings have the characters and styles of its lines (C26) and that their fonts were reported; `StdInv` is an invariant of the document: each name in the resources of a page is that of the object of its font, and names of different fonts differ (`new_inj`); `object_read` (C65) reads these objects in the file; by C20 the lines have the characters of the content. Partial: as C77; the name a style has for its font is assumed to be the one the fonts of the document give it (C42). How numbers are written is a parameter.

*Scope:* paragraphs without lists, in the fonts of the standard, on pages without running sections; a style names its font as the fonts of the document do

*Theorems:* `C79_styles_partial`.

### C80 Paragraphs, images, tables and content boxes of a document can be read in its file — partial

*Model:* `madeDoc` of Model/PdfFlow: `table`, `content` and their loops over pages, with the tables of Model/TableRun whose cells hold the paragraphs of Model/TextOut and images, and tables and boxes of Model/Nest in each other to any depth; `image`; the rest as C77. Spec/FileParts: what a reader sees of the events of a page (words, and images with the object their name has in the resources). Spec/DocHeld: the paragraphs and images that a table or box holds.

*Proof:* every call is shown as pieces, each a run of events on one page (`DrawnDoc`); the contents of the pages are exactly the pieces in order, by induction over the calls, the pages of a table, and the parts of a run. Fills and borders show no text or image (`createGraphics_silent`). Which words and images the parts of a table have is C62, carried over to `docExec` by a simulation (`docExec_leaf`); of boxes and nested tables it is C69, which holds for any leaves that are honest (`doc_good`), the number of a part naming the paragraph or image it shows (`held_images`). What comes first is said in Spec/Order (`boxBefore`, `gridBefore`), and that it is shown first is `box_order` and `table_order`. The images are looked up in the resources of the page and read as objects (`object_read`). Partial: fonts of the standard, no lists, boxes of one column, no group and no box directly in a box, no row spans that begin in the first row, boxes of images wider than 0, the default `move`; that the calls end is C70 and C63.

*Scope:* C80_document_partial: fonts of the standard, paragraphs without lists, content boxes of one column, no groups or boxes directly in boxes, no row spans beginning in the first row, default move

*Theorems:* `C80_document_partial`.

### C81 What a document says of an embedded font is what the font file says — partial

*Model:* Model/FontDescriptor: the tables of a font file as fontTools gives them, and `_get_font_descriptor` with exact numbers. Spec/FontTables: the bits of `fsType` in OpenType, thousandths.

*Proof:* case analysis; bit by bit for the licence and the flags. `C81_written`: a reader finds every value under its key, and nothing else, in the bytes of the descriptor (with C08). The name is only right for files with the names 0 to 6 in order (`C81_name_partial`, `C81_name_false`); a wrong name with blanks makes the dictionary unreadable (`C81_unreadable_false`); fonts without `OS/2` or with fewer than seven names cannot be loaded (`C81_no_os2_false`, `C81_few_names_false`).

*Scope:* the name is right only for files whose first seven names are 0 to 6; C81_licence, C81_flags, C81_metrics and C81_written are complete; four counterexamples

*Disagreement with the code:* the name of the font is taken from the seventh record of the `name` table, whatever its kind (`C81_name_false`); blanks in it are written into a PDF name as they are (`C81_unreadable_false`); files with fewer than seven records, or without `OS/2`, cannot be loaded (`C81_few_names_false`, `C81_no_os2_false`).

*Theorems:* `C81_licence`, `C81_flags`, `C81_metrics`, `C81_name_partial`, `C81_name_false`, `C81_unreadable_false`, `C81_written`, `C81_few_names_false`, `C81_no_os2_false`.

### C82 Elements are shown as what they are — partial

*Model:* Model/Elements: `parse_element`, `process`, `process_group_element`, `get_cell_style` and `add_cell` as decisions over the keys of a dict. Spec/Elements: what an element is, from the documentation.

*Proof:* case analysis over the keys. It fails for numbers in content boxes and groups (`C82_number_false`), groups in tables (`C82_group_in_table_false`), dicts of no kind (`C82_no_kind_false`) and of two kinds (`C82_two_kinds_false`).

*Scope:* proved for all documented kinds; fails for numbers in boxes and groups, for groups in tables and for dicts of no or two kinds

*Disagreement with the code:* numbers are text in cells but an `AttributeError` in content boxes and groups (`C82_number_false`); a group in a table shows nothing and the table never ends (`C82_group_in_table_false`); an unknown dict is an `AttributeError`, an exception or an endless cell according to the place (`C82_no_kind_false`); a dict of two kinds is taken differently by boxes and tables (`C82_two_kinds_false`).

*Theorems:* `C82_box`, `C82_group`, `C82_cell`, `C82_cell_text`, `C82_number_false`, `C82_group_in_table_false`, `C82_no_kind_false`, `C82_two_kinds_false`.

### C83 What a cell holds is shown inside of the cell — partial

*Model:* the engine of tables (Model/TableRun) with any contents; Spec/InCells: areas, the inside of a cell given where columns and rows begin, and contents that keep to their rectangle.

*Proof:* the invariant of C66 was extended by where each content was run and by the heights still needed by cells over several rows (`HeightInv` in Lemmas/TableGridRow: what `heights_mem` holds is what the cell needs below the current row); the rest is the geometry of rectangles that share no position of the grid. Contents that keep to their rectangle are a hypothesis, shown for paragraphs (with C22) and images. A cell whose last row is not on the page only ends where the room of the table ends (`C83_broken_span_false`); `FlagOk` as in C66.

*Scope:* proved for all tables without overlapping cells and with columns, borders and margins that are not negative, except those left out in C66; for a cell broken before its last row, only that it stays inside of the rectangle of the table, and it is proved that it may go below the lower line (C83_broken_span_false)

*Disagreement with the code:* if a table is broken inside of a cell of several rows, before the last of them, the rows drawn are not made high enough for the content of that cell, which goes on below the lower line of the table (`C83_broken_span_false`): the height is only asked for in the last row of the span (table.py:822-824, 662-668).

*Theorems:* `C83_inside_partial`, `C83_broken_span_false`, `C83_text_and_images_partial`.

### C84 A document of sections can be read in its file — partial

*Model:* `PDFDocument.run` with all it puts on the pages (Model/PdfDoc, on Model/PdfFlow and Model/Document); Spec/PdfReader and Spec/TextReader, with `BookRead` in the file of the theorem.

*Proof:* an induction over pages and sections with the invariant of C80 (`DrawnDoc`), the pieces grouped by page (`BookDrawn` in Lemmas/BookPages). What running sections hold may depend on the page number. `C84_pages_partial` shows that the pages planned are those of `docRun`, of which C48, C49 and C53 tell sections, numbers, sizes, margins and places. Missing: footnotes (a run with one ends the model), several columns, lists, fonts that are embedded, running sections without a width; that the values can be written is a hypothesis as in C77.

*Scope:* C84_book_partial: content boxes of one column, fonts of the standard, no lists and no footnotes, running sections with a width; values can be written as in C77

*Theorems:* `C84_book_partial`, `C84_pages_partial`.

### C85 A content box shows nothing outside of its rectangle — proved

*Model:* content boxes (Model/Content) with any contents; Spec/InBox: areas of parts, contents that keep to their rectangle, the width of a column, and elements with sane margins (`ElIn`, by the width of the column they are in).

*Proof:* an invariant of the stack of boxes, kept by every step of the run: each box is as wide as a column of the next one, so a column that `next_section` moves to gives its descendants room; `y` never goes above the top, since nothing that is placed has a negative height. `one` switches on the claim for the lower end: with one column there is no balancing, so `max_y` never changes. Not claimed for several columns, where `reset` moves `max_y`. Shown for contents with `KeepsIn`; C83 shows that of paragraphs and images.

*Scope:* sides and top for any number of columns, the lower end for one column; rectangles of the same width

*Disagreement with the code:* an image whose margins are wider than its column has a negative height, and what follows is placed above the box (`C85_margins_false`, content.py:912-934). Images of groups with a least height are left out: that height is multiplied with a ratio which can be negative (content.py:1157-1158).

*Theorems:* `C85_sides`, `C85_rectangle`, `C85_margins_false`.

### C86 What a content box of one column shows is one below the other — proved

*Model:* as C85; Spec/Piled: a block is what one element shows at one time, and blocks are below each other.

*Proof:* with the invariant of C85, the relation `Grow` between the state before and after each step: what is added are blocks between the old and the new `y`, each below the ones before, and `y` stays or is not below the rectangle. Boxes inside hand on their `y` (`newChild_ys`), and with one column no step goes back up.

*Scope:* boxes of one column; contents that keep to their rectangle are a hypothesis, shown for paragraphs and images

*Disagreement with the code:* the space above a group is neither its own upper margin nor the lower margin of the element before, but the lower margin of its own last element (`C86_group_space_false`): the second pass begins at `initial_y` without `margin_top`, and with the `last_bottom` that the first pass left (content.py:1128-1131, 1159-1169).

*Theorems:* `C86_piled`, `C86_group_space_false`.

### C87 Tables and content boxes inside each other show nothing outside of their rectangle — partial

*Model:* nestings of tables and content boxes (Model/Nest) with any contents; Spec/InNest: tables and boxes with sane borders, margins and widths at every depth (`nestIn`), and runs in rectangles one after the other (`StepsIn`).

*Proof:* by induction on the depth: with contents that keep to their rectangle (only what C85 asks of contents, not the heights of C83, which broken tables do not have), a table does by C66 and a box by C85. Since a thing inside is run in the widths of its cells only, the contents are replaced by ones that fail in other widths (`fineExec`), and the runs stay the same (`run_cong`, Lemmas/Nest). Partial: boxes have one column and no groups, as in Model/Nest.

*Scope:* boxes have one column and no groups

*Theorems:* `C87_nested_partial`, `C87_document`.

### C88 In the file of a document sections stay between the margins — partial

*Model:* as C84; Spec/InPage: the area between the margins, and events of the content streams inside of an area.

*Proof:* C84 also gives, for each page, the state that the box of the section was run in, the rectangle, and the piece of the file of each part (`BodyOn`, `RunDrawn`); by C87 the parts are in the rectangle; the lines of a paragraph are in it by C78, and paragraphs with lines have a height. Partial: for lines and fills see C92, for the horizontal place of text C90; what is missing in C84 is missing here; running sections without a place or size are not spoken of.

*Scope:* lines and fills are missing; the horizontal place of text is in C90

*Theorems:* `C88_margins_partial`.

### C89 Links, names and outline in the file of a document of sections — partial

*Model:* as C84 and C65; Spec/FileLinks: what the ids of a piece of text ask for, and the pieces of what is shown. A paragraph that is shown is remembered with its place and ids (`Painted.mark`).

*Proof:* C84 also gives the pieces of the file and the operations behind them; each paragraph is shown with the marks of C67 (`TextMarked`, Lemmas/FileText.text_chunk), whose ids are noted in the order of their first appearance (`MarksNoted`), so that the links, spots and outline items of C65 are those of the marks (Lemmas/FileLinks: `piece_links`, `piece_spots`, `piece_outlines`; `group_…` in Props/C89). That the words with their ids are those of the paragraphs follows as in C80 and C84 (`content_held`, `box_shows`) for the words with styles and ids (`section_words`, `running_words`: where a content is cut it goes on on the next page; a word may be cut into pieces). `plainNest` is the specification of contents of C80 with the further conditions, and `plain_good` transfers what is proved of these. Partial: no indents and no lists (see C67 and its disagreements), no footnotes, one column, standard fonts, running sections with their place and size given; the zoom of a name is not spoken of.

*Scope:* C89_links_partial: for paragraphs without indents and lists, in one column, standard fonts, running sections with place and size given; the zoom of names is not spoken of.

*Theorems:* `C89_links_partial`.

### C90 Text is between the left and right end of what it is given — partial

*Model:* as C20, C21, C67 and C84; Spec/InWidth: the words of a line one after the other from where the line begins, each as wide as the font says, with the word spacing for blanks (not for codes of two bytes).

*Proof:* `run_marks` (Props/C67) says, besides C67, that each line begins within the rounding of where the alignment and indent put it (`startAt`), and that the word spacing is that of the factor of the line. The lines fit as C21 says (`textRun_fits`); `line_within` (Lemmas/InWidth) puts these together: the width of what comes before a word and of the word is at most the width of the line without the blanks at its end, and blanks have the width that the word spacing gives them. In a document the paragraphs are within the margins by C87 (`content_parts_in`), and the file shows them as `RunMarked` says (`piece_within`, `flow_within`). Partial: no lists; no indent for right aligned and centred paragraphs (C67 is false for them), and in documents no indents at all; the exceptions below; in documents what is missing in C88 and C89. In the file the words of a line are those of the model (`TextPiece.lines`), which are tied to the document by `BoxWords` and to the strings of the file by `eventGlyphs`; that a viewer uses the widths of the metrics is C68 and C81.

*Scope:* C90_words_partial, C90_margins_partial: no lists, indents only in left aligned and justified paragraphs (none in documents); negations for last justified lines and blanks at the end of right aligned lines

*Disagreement with the code:* the last line of a justified paragraph, and the line before it if the last word begins a line, are shown with their natural blanks although only 70 % of these had to fit, and so go beyond the right end (`C90_last_justified_false`, `C90_before_last_false`; text.py:202, 348, 712-714, 819); a right aligned or centred line that ends with a blank (at the end of the paragraph or before a line break) counts it, and begins before the left end (`C90_right_blank_false`; text.py:822-827). A single word that is too wide is not broken.

*Theorems:* `C90_words_partial`, `C90_margins_partial`, `C90_last_justified_false`, `C90_before_last_false`, `C90_right_blank_false`.

### C91 A document made from values that can be written can be saved and read — proved

*Model:* as C65; Spec/Writable: which ids, images and font files can be written (strings of latin-1 without backslash and carriage return, names of regular characters, streams of bytes with a known filter).

*Proof:* `Clean` (Lemmas/WritableDoc) says that everything a document holds can be written: its objects (`Base.Fine`), the names of its fonts and resources, the targets of its annotations, its labels and the titles and targets of its outline. It is kept by every operation, by induction along the model. The trees of `output` keep it as well (Lemmas/WritableTrees: pages, outline, and the name tree, whose open node is not complete for a while: its `Limits` hold `None`). A dict that is `Fine` is written (`Fine.parses`) and readable (`Fine.readable`), so `output` has no error and C65 applies without conditions on the objects. For documents of sections (`C91_book`, `C91_document`, `C91_links`) `Clean` is part of what is kept while a document is drawn (`DrawnDoc.clean`, Lemmas/FileParts), and the ids that the pieces of a page carry are those of its paragraphs: Lemmas/TextIds says so for one paragraph (every id of `textOut` is one of its content), Lemmas/WritableBook for boxes and tables (`idSpec`, with the induction over the nesting of C69).

*Scope:* any sequence of operations, and any document of sections, with values that can be written gives a file without error, all objects readable, and C65, C84 and C89 hold of it; witnesses for characters outside latin-1

*Disagreement with the code:* a label, target, address or title with a character that is not in latin-1 is accepted by `text`, `table` and `content`, and only `output` fails, with a `UnicodeEncodeError` after part of the file is written (`C91_not_latin`, and `C91_book_not_latin` for a document of sections; parser.py:85). One with a backslash is written, but stands for something else (C07).

*Theorems:* `C91_book`, `C91_document`, `C91_links`, `C91_book_not_latin`, `C91_writable`, `C91_read`, `C91_not_latin`.

### C92 Lines and fills of tables stay inside, and look like the borders and fills that were asked for — partial

*Model:* as C87, with Spec/Shapes: how lines and fills may look (a `Palette`: borders, colours, and how far lines may be outside), and where they may be; Spec/ShapeRead: the same of the fills and strokes that are read from a content stream (path, width, colour, cap and dash pattern). `SectionPainted` says that the first piece of a page paints everything that the run of the content box leaves.

*Proof:* `table_shapes`: by C66 (`Drawing`) the lines of a run are those of the stretches of the borders and of the contents; a stretch has the look of one of its borders, its ends are at corners and half of a crossing border beyond, and the columns are between the sides of the table. For boxes the invariant of C85 is repeated for lines and fills (Lemmas/BoxShapes); both together go by induction over the depth (`nest_neat`). In the file: `_add_graphics` paints what C18 says of `create_graphics` (`GraphicsShown` in Lemmas/FileParts, carried through Lemmas/BookPages), so each event is of one of the lines or fills (`fill_shape`, `line_shape`). Partial: nothing is said about the lower end (C31: rows can be higher than the room left); boxes are as in C87 (one column, no groups); colours are given and have one or three components (C18); fills and lines of paragraphs are in C28 and C90.

*Scope:* proved for lines and fills of nested tables and boxes and in the file of a document; missing: the lower end, boxes with columns or groups, colours without components, fills and lines of paragraphs

*Theorems:* `C92_file_partial`, `C92_lines_and_fills_partial`.

### C93 Everything drawn inside a table or box is drawn by it, once — partial

*Model:* as C87 and C92. Spec/Ledger: the runs of the contents (`Call`) and what a box must leave because of them (`Ledger`: lines and fills of all runs, in order; pieces of all runs in one column, otherwise some of them). Spec/LedgerNest: the same through all depths (`Accounted`; for tables it asks for the `Drawing` of C66 and that the contents are accounted for), and what is read from a page (`FillRead`, `LineRead`, `PaintsAll`).

*Proof:* `C93_box` by an induction over the run of a box with any number of columns and boxes in it (Lemmas/BoxLedger: each step adds the output of one more run, `Adds`); `nest_accounted` by induction over the depth, with C66 for tables; `C93_file_partial` joins it with the reader of C92. Partial: nested and in the file the boxes are as in C87 (one column, no groups).

*Scope:* C93_box: any columns and programs. Nested (C93_nested_partial) and in the file (C93_file_partial): boxes as in C87, one column and no groups.

*Disagreement with the code:* In several columns the lines and fills of attempts that were given up are drawn as well, because `reset` (content.py:635-670) takes back only the pieces (see C37): an example beside `C93_file_partial` shows two tables in two columns whose lines are drawn thirteen times instead of twice.

*Theorems:* `C93_file_partial`, `C93_box`, `C93_nested_partial`.

### C94 Tables and boxes are laid out the same wherever their rectangle is — partial

*Model:* as C37, C66 and C87: the model of boxes (content.py:30-1171), of tables (table.py:451-1002) and of things inside each other. Spec/Moved: what a run leaves (`RunLeft`), moving it, rows of rectangles each with a distance (`Moves`), and the runs in these (`drawings`, `tableDrawings`, `boxDrawings`).

*Proof:* every function of the model commutes with moving (Lemmas/BoxMoved, TableMoved), by induction over fuel, rows and elements; the fields that a run overwrites before it reads them (`TS.stale`) may differ. Things that remember rectangles of earlier runs are compared up to these (`Nest.forget`, Lemmas/NestMoved). `C94_leaves` shows the hypothesis for the paragraphs and images of documents. Partial: inside tables boxes have one column (the model of things inside each other), and coordinates are exact rationals, so the rounding of floats is left out.

*Scope:* boxes of any columns with groups, images and boxes in them, and tables with all spans, fully proved (C94_box, C94_table); inside each other to any depth, but inside tables boxes have one column; exact rationals

*Theorems:* `C94_box`, `C94_table`, `C94_nested_partial`, `C94_contents_partial`, `C94_leaves`, `C94_document_partial`.

### C95 Footnotes are below the text of their page, and making room for them changes nothing else — proved

*Model:* `_add_content` with `get_state`, `set_state` and `_content` (Model/FootPage, document.py:362-408, 439-462), and the pages of a section (document.py:315-360); boxes as in C37. Which notes belong to which marks is a parameter `notes`, which `pageNotes` instantiates with the function of C50; a parameter is also what the start of a page does to the context. Spec/FootPage: notes (`NoteEl`), lists that have room (`ListsFit`), where things are on a page (`FootPageIn`), the shorter page (`ShorterPage`).

*Proof:* a list of paragraphs, tables and images that was finished has the state of a new one (`run_going`, `list_again`), so running it again is running a new one; C86 and C94 then give its place. A box of leaves keeps its elements in every run, also when columns are balanced (`run_kept`), so a section that is set back is the section before (`restored_run`); an induction over pages gives `C95_shorter`, where the shorter pages are drawn with the context each had (`ctxDrawings`). `C95_listed` puts `C95_list` and C50 together. `C95_numbers` has the numbers of the marks: their places in the first layout. Lemmas/FootMarks runs a box of one column in two rectangles side by side: the lower one has the first of the marks (`content_lower`), so that `C95_shown` has the numbers of the list, for leaves that do this themselves (`LeavesShrink`: a hypothesis, false if a longer number moves a word to the next line; `C96_box` and `C95_texts` do without it for paragraphs whose texts do not change). Missing from `C95_pages`: sections of several columns (as in C85).

*Scope:* C95_pages: section above, rule, list below, on all pages of a section of one column. C95_list: the list is drawn as measured, moved. C95_listed: a list if and only if there are marks, of their notes in order. C95_numbers, C95_shown: the numbers the marks show. C95_shorter: pages of paragraphs and tables in any number of columns show what shorter pages would, with contexts that change. C95_bottom_false, C95_room_false: lists that hang above the margin, or lose their first notes.

*Disagreement with the code:* the room for the list is measured with the marks of the first layout. If the second layout has fewer of them, the list ends above the lower margin (`C95_bottom_false`). A list that has no room on a page is not noticed if the notes that do have room are small: `footnotes_height` is then the height of these, no exception is raised, and as `_content` runs the same object again it shows the rest; the notes that were measured are not shown and the others run below the page (`C95_room_false`). The rule is 150 long also on narrower pages.

*Theorems:* `C95_list`, `C95_pages`, `C95_shorter`, `C95_listed`, `C95_numbers`, `C95_shown`, `C95_bottom_false`, `C95_room_false`, `C95_texts`.

### C96 In a lower rectangle a paragraph shows the first lines that it shows in a higher one — proved

*Model:* the paragraph of C20–C23 (`textRun`, `textOut`: text.py:616-958), and for boxes `docExec` (C83). Nothing is added to the model.

*Proof:* Lemmas/TextLower runs both rectangles side by side (`Below`): the heights are compared in `addCurrentLine` only, so the states are equal until the lower one is full, and after this the higher one only adds lines (`addCurrentLine_below`, `wordLoop_below`, `partLoop_below`, `textRun_below`). Lemmas/TextFull follows the heights of the lines (C22) until the runs part: the line that is refused is the next one of the higher rectangle (`C96_room`). The streams of a prefix of the lines are prefixes (`streamLines_append`, `streamLines_text`, `streamLines_grow`). With `content_lower` of C95 this gives `C96_box`, and with `C95_shown` the theorem `C95_texts`. Boxes: one column of paragraphs, without groups, tables, flowing images and boxes in them.

*Scope:* C96_lines, C96_room, C96_stream: all paragraphs. C96_box: boxes of one column of paragraphs. C95_texts: C95_shown without its hypothesis, for paragraphs of fixed text.

*Theorems:* `C96_lines`, `C96_room`, `C96_stream`, `C96_box`.

## Further observations about the code

Not theorems unless a name is given; found while modelling.

* `_build_pages_tree` makes a single node for all pages: `count` is only increased when a node is opened (C44).
* Closed outline items get `Count -1`, whatever the number of descendants (C46).
* A footnote inside a footnote is not recognised; a footnote dict whose `style` is a string raises; the style of a mark
  is always replaced; an id that occurs in two parts is listed twice (C50, C55).
* The text of a `var` is evaluated again by each run of `add_part`.
* The bullet of a list is shown with the word spacing of the paragraph before; its `first_indent` is written unrounded.
* A list paragraph that starts with a newline raises; a negative line height writes `--5`.
* The rectangles of ids and backgrounds of right aligned or centred paragraphs with an indent are off by the indent.
* `image_place` with an unknown value repeats until the 50th try raises; `mimim_forward` (content.py:615) is never read.
* Pending fills of row-spanning cells are lost at the end of a table run; `is_rowspan` stays true to the end of a row; an
  empty table raises `AttributeError` when run.
* The f-string at fonts.py:66 has a backslash in an expression and is a syntax error before Python 3.12.
* `_get_font_descriptor` reads `self.ascent`, which does not exist, for a font without an `OS/2` table (fonts.py:310; `C81_no_os2_false`).
* Standard Symbol and ZapfDingbats fonts get `WinAnsiEncoding` (fonts.py:187-190).
* Running sections are drawn in the order of a Python set.
* A number as an element of a content box becomes a string in `parse_element`, and then `.keys()` raises `AttributeError` (`C82_number_false`).
* The documentation puts `min_height` directly into the dict of an image in a group; the code reads it only from the style of the element (content.py:1135-1142).
* A table that is put off at the start of a section of a balanced content box is not set back between two tries, because `PDFTable.set_state`
  uses `elif` (table.py:246-249). So Model/Nest has boxes of one column only.
* The `tries` of an image are kept in its dict, so an image in a running section that does not fit raises after 50 pages.
* A margin of one side given for all cells of a table (`cell_margin_top`) beats the `cell_margin` of a single cell.
* A page range with an empty stop (`3:`) raises `ValueError` (C13).

## Coverage

| file | modelled | not modelled |
|------|----------|--------------|
| base.py | all of `PDFBase` | `__str__`, `__repr__`, `__iter__` |
| parser.py, encoders.py | all | zlib itself |
| color.py | all | |
| utils.py | `get_page_size`, `parse_margin`, `parse_style_str`, `create_graphics`, `to_roman`, `get_paragraph_stream`, `copy`, `MuiltiRange`, `parse_range_string`, `as_hex`, `escape_string` | `subs` |
| text.py | all of `PDFState`, `PDFTextLinePart`, `PDFTextLine`, `PDFTextBase`, `PDFText` | widths of characters (any function) |
| table.py | set-up, borders, fills, spans, rows, cells, runs, contents of cells, `get_cell_style` | |
| content.py | all of `PDFContentPart`, `PDFContent.__init__/run`, `get_element_styles` | |
| page.py | all | |
| fonts.py | registration, lookup, embedding, `encode_text`, `compute_char_widths`, `get_tounicode_cmap`, `_get_font_descriptor` | width tables |
| image.py | all | Pillow |
| pdf.py | pages, running sections, fonts, `_add_text`, `add_image`, adding tables and content boxes, page/name/outline trees, `output`, page numbers, defaults of styles, `image`, `table`, `content`, `text` with their loops | |
| document.py | sections, pages, numbering, running sections, footnotes and their place; all of a run down to the bytes of the file, without footnotes (C84) | `build_pdf`, `output` (pass-through) |
