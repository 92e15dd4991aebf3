{"id": "C01", "title": "Object ids are consecutive, unique and stable", "statement": "After any sequence of PDFBase.add and item-assignment calls, the k-th successful add returned an object whose id is k, base[k] for an id never re-assigned is still that object, len(base) equals the number of successful adds, base[0] is None, and a rejected add (unsupported type) changes nothing. Lookup is total: every other number counts from the end or raises an IndexError.", "quantifier": "every finite history of add / __setitem__ / rejected add calls, any objects", "why_tests_cant": "it is a statement about every call history, not a handful of sequences", "anchors": ["pdfme/base.py: PDFBase.add, __getitem__, __setitem__, __len__", "pdfme/parser.py: PDFObject, PDFRef"]}
{"id": "C02", "title": "Cross-reference table points at the objects", "statement": "In the bytes written by PDFBase.output, for every object number i the i-th in-use xref entry is exactly 20 bytes long and its 10-digit decimal offset is the byte position at which 'i 0 obj' starts; the number after startxref is the byte position of the keyword xref.", "quantifier": "every list of serialisable objects of any size whose file stays below 10^10 bytes, any version string, any trailer", "why_tests_cant": "offsets depend on the length of every earlier object; tests only sample documents", "anchors": ["pdfme/base.py: PDFBase.output"]}
{"id": "C03", "title": "Trailer Size and xref subsection count agree with the objects", "statement": "The written trailer's Size value and the count in the xref header line both equal the number of objects plus one, whatever Size the caller's trailer dict held before.", "quantifier": "every object list and every caller-supplied trailer dict", "why_tests_cant": "universal over histories and trailers", "anchors": ["pdfme/base.py: PDFBase.output"]}
{"id": "C04", "title": "Output is repeatable", "statement": "Calling output a second time on an unchanged PDFBase writes exactly the same bytes as the first time (the random file ID is chosen once), and leaves every object as it was.", "quantifier": "every PDFBase state whose first output succeeds, every pair of random ids", "why_tests_cant": "output mutates stream dicts and the trailer while serialising; only an argument over all objects shows the mutation is undone", "anchors": ["pdfme/base.py: PDFBase.output", "pdfme/parser.py: parse_stream"]}
{"id": "C05", "title": "Stream Length is exact and the stream dict is restored", "statement": "When a stream dict is serialised, the bytes between 'stream\\n' and '\\nendstream' are the (filtered) stream data, the Length entry written in the dictionary equals their number, a stale caller-supplied Length is overridden, and afterwards the dict still holds its stream data and skip-filter flag.", "quantifier": "every stream dict, every stream content (bytes or dict of bytes), every filter function", "why_tests_cant": "universal over contents and key orders", "anchors": ["pdfme/parser.py: parse_stream", "pdfme/encoders.py: encode_stream"]}
{"id": "C06", "title": "A failed serialisation leaves the stream object intact", "statement": "If serialising a stream object raises (unsupported filter, wrong stream type), the object still holds its stream data, so the caller can fix the cause and output again.", "quantifier": "every stream dict and every failing cause", "why_tests_cant": "a crash-point property: it must hold at every point where serialisation can raise", "anchors": ["pdfme/parser.py: parse_stream", "pdfme/encoders.py: encode_stream"]}
{"id": "C07", "title": "Python strings survive serialisation as PDF strings", "statement": "Reading the bytes produced for a str (dest names, URIs, outline titles, ...) with the PDF literal-string grammar gives back exactly the latin-1 bytes of that str; strings outside latin-1 are rejected with an error rather than altered.", "quantifier": "every Python str", "why_tests_cant": "needs all strings, including ones containing backslashes, parentheses and end-of-line bytes", "anchors": ["pdfme/parser.py: parse_obj"]}
{"id": "C08", "title": "Nested objects survive serialisation", "statement": "A PDF reader applied to the bytes produced for any nesting of dicts, lists, tuples, booleans, integers, references, names and strings recovers an object with the same structure and the same leaf values, and consumes exactly those bytes.", "quantifier": "every object tree of any depth and width with regular-character keys and names, whose strings are free of backslash and CR (C07 covers strings), whose byte leaves are names or hex strings and whose floats print as PDF reals; stream dicts are covered by C05", "why_tests_cant": "token-separation errors appear only for particular neighbour combinations at any depth", "anchors": ["pdfme/parser.py: parse_obj, parse_dict, parse_list, PDFRef.ref"]}
{"id": "C09", "title": "Text shown with a standard font is the text given", "statement": "The string operand written for a line part shown with a standard font, read by the PDF literal-string grammar, is exactly the concatenation of the words of that part.", "quantifier": "every list of words over every character", "why_tests_cant": "needs all strings; escaping bugs hide in rare characters", "anchors": ["pdfme/text.py: PDFTextBase.clean_words, output_text", "pdfme/utils.py: escape_string"]}
{"id": "C10", "title": "A list bullet text is shown as given", "statement": "The string operand written for list_text, read by the PDF literal-string grammar, is exactly list_text, and the following operators stay outside of the string.", "quantifier": "every list_text string", "why_tests_cant": "all strings, including '1)' or '(a)'", "anchors": ["pdfme/text.py: PDFTextBase.add_line_to_stream"]}
{"id": "C11", "title": "Text shown with a TrueType font selects the glyphs of the text", "statement": "The string operand written for a line part shown with an embedded TrueType font decodes (two bytes per glyph) to exactly the glyph ids the font's character map assigns to the characters of the text, one per character.", "quantifier": "every text whose characters are all in the font's map, every character map into 16 bit glyph ids", "why_tests_cant": "all strings and all fonts", "anchors": ["pdfme/fonts.py: PDFTrueTypeFont.encode_text", "pdfme/utils.py: as_hex, escape_string", "pdfme/text.py: clean_words, output_text"]}
{"id": "C12", "title": "Roman page numbers", "statement": "to_roman returns, for every integer strictly between 0 and 4000, the canonical Roman numeral whose value is that integer (distinct integers give distinct numerals); every other integer is rejected with an exception.", "quantifier": "every integer", "why_tests_cant": "exhaustive over all integers including rejected ones, and canonicity is a property of the whole string", "anchors": ["pdfme/utils.py: to_roman, _roman_ten, _roman_five"]}
{"id": "C13", "title": "Page ranges mean what the string says", "statement": "For a per_page 'pages' string, membership of page n in the parsed set holds exactly when n equals one of the listed integers or lies in one of the listed start:stop:step ranges with Python range semantics; strings with an empty stop or step are rejected.", "quantifier": "every list of integers and ranges (any signs, any nonzero step), every page number", "why_tests_cant": "arithmetic progression membership over unbounded integers", "anchors": ["pdfme/utils.py: parse_range_string, MuiltiRange"]}
{"id": "C14", "title": "Table position strings select like Python slices", "statement": "For a table with a given number of rows or columns, a position range a:b:c in fills/borders selects exactly the in-range indexes the Python slice a:b:c selects, and a comma list selects exactly those indexes with negatives counted from the end.", "quantifier": "every start, stop, step (present or omitted, any sign) and every count", "why_tests_cant": "all integer combinations", "anchors": ["pdfme/table.py: PDFTable.parse_range_string, parse_pos_string"]}
{"id": "C15", "title": "Margins follow the CSS rule", "statement": "parse_margin maps a number, a string, or a list/tuple of 0..n numbers to the documented top/right/bottom/left values, always with all four sides present.", "quantifier": "every number, every numeric list or tuple of any length, every numeric string", "why_tests_cant": "all lengths and container types", "anchors": ["pdfme/utils.py: parse_margin"]}
{"id": "C16", "title": "Style strings set exactly the listed attributes", "statement": "parse_style_str of a semicolon-separated list of well-formed attributes returns exactly the mapping in which each attribute has the value of its last occurrence, including the bool forms b, b:1 and b:0; malformed items raise ValueError.", "quantifier": "every list of well-formed attributes", "why_tests_cant": "all combinations of attributes", "anchors": ["pdfme/utils.py: parse_style_str"]}
{"id": "C17", "title": "Colour specifications", "statement": "parse_color maps '#rgb', '#rgba', '#rrggbb', '#rrggbbaa' to the three channel values in [0,1] given by the hex digits (alpha ignored), every named colour to a triple in [0,1], a number to a gray level, a list of one or three numbers or texts of numbers to these numbers (other texts are refused), a text of three numbers with a comma or space between them likewise, the empty string and None to no colour; and every colour it accepts can be written as a PDF colour operator.", "quantifier": "every string, number and list", "why_tests_cant": "all inputs", "anchors": ["pdfme/color.py: parse_color, PDFColor"]}
{"id": "C18", "title": "Fills and lines are painted with their own attributes", "statement": "Interpreting the stream create_graphics builds with the PDF graphics-state machine paints exactly the given fills and lines in order, each with its own colour, width and dash pattern, and leaves the surrounding graphics state untouched; unknown line styles are rejected.", "quantifier": "every list of graphics dicts, every surrounding graphics state", "why_tests_cant": "redundant-operator elimination is correct only if the tracked state equals the real one after every prefix", "anchors": ["pdfme/utils.py: create_graphics", "pdfme/color.py: PDFColor.__eq__, __str__"]}
{"id": "C19", "title": "Page geometry", "statement": "A page added with a given size, rotation and margins has a content box of exactly the page size minus margins, the cursor starts at its top-left corner, and page.y / page._y always describe the same point from opposite edges; rotation swaps width and height exactly once. A named size is that of the paper standard, upright, to a thousandth of a point. After any calls of setup_page each of size, rotation and margins is the one that was given last; what was never given is as it was at the start.", "quantifier": "every size, rotation flag, margins, default/override combination", "why_tests_cant": "all numeric combinations and defaulting paths", "anchors": ["pdfme/page.py: PDFPage", "pdfme/pdf.py: PDF.setup_page, add_page", "pdfme/utils.py: get_page_size"]}
{"id": "C20", "title": "No text is lost, duplicated or reordered when a paragraph is split", "statement": "Running a paragraph over any sequence of rectangles until it is finished emits, over all the runs together, exactly the words of the paragraph in order, each word exactly once, and every letter of it in the style and with the ids of the text it was written in. The words are those of the texts as they are written: letters between white space and line breaks, also when a word goes over several texts.", "quantifier": "every paragraph (any parts, words, styles, line breaks, fonts, alignments), every sequence of rectangles", "why_tests_cant": "page-break positions interact with part and word boundaries; only an invariant over all histories covers them", "anchors": ["pdfme/text.py: PDFTextBase.run, add_part, add_current_line, PDFTextLine.add_word, add_accumulated"]}
{"id": "C21", "title": "Lines fit the paragraph width", "statement": "Every line a paragraph run emits is narrower than the width available to that line (with spaces at their minimum width when justified), unless the line holds a single word.", "quantifier": "every paragraph, font metrics and rectangle", "why_tests_cant": "a property of greedy breaking for all inputs", "anchors": ["pdfme/text.py: PDFTextLine.add_word, PDFTextBase.add_part, init, setup_list"]}
{"id": "C22", "title": "A paragraph never exceeds its rectangle's height", "statement": "After run the reported current_height is at most the rectangle's height (when that is not negative), and equals the sum of the heights of the emitted lines.", "quantifier": "every paragraph and rectangle", "why_tests_cant": "all inputs", "anchors": ["pdfme/text.py: PDFTextBase.add_current_line"]}
{"id": "C23", "title": "Adding a paragraph to a document finishes", "statement": "PDF.text finishes after adding finitely many pages: whenever every line is at most as high as the page's content box each page consumes at least one line.", "quantifier": "every paragraph and page geometry", "why_tests_cant": "termination", "anchors": ["pdfme/pdf.py: PDF.text", "pdfme/text.py: PDFTextBase.run"]}
{"id": "C24", "title": "Paragraph checkpoints restore the paragraph", "statement": "Restoring with set_state a state obtained with get_state and running again in a rectangle gives the same result as running there directly after the checkpoint, whatever was run in between.", "quantifier": "every paragraph, every sequence of runs between checkpoint and restore, every rectangle", "why_tests_cant": "history property", "anchors": ["pdfme/text.py: PDFTextBase.get_state, set_state, run", "pdfme/document.py: _add_content", "pdfme/content.py: process_text"]}
{"id": "C25", "title": "Rich text keeps its text and cascades its styles", "statement": "Turning nested paragraph content into flat parts keeps the characters in order, with one line break per newline, and gives every piece of text the style obtained by overriding the defaults with the styles of its enclosing dicts from outermost to innermost, and the ids of all of them.", "quantifier": "every nested content tree", "why_tests_cant": "structural induction over arbitrary nesting", "anchors": ["pdfme/text.py: PDFText._recursive_content_parse, _new_text_part"]}
{"id": "C26", "title": "Every text run is shown in its own font, size, colour and rise", "statement": "Interpreting a paragraph's text stream with the PDF text-state machine shows every line part with exactly its own font, size, fill colour and rise, and every font selected in the stream is reported in used_fonts.", "quantifier": "every sequence of line parts with arbitrary styles", "why_tests_cant": "only-emit-differences is correct only if the remembered state equals the real one at every point", "anchors": ["pdfme/text.py: PDFState.compare, PDFTextBase.output_text, add_line_to_stream, add_current_line"]}
{"id": "C27", "title": "Justified lines fill the width", "statement": "In a justified paragraph the extra word spacing written for a line that is not last makes the words plus spaces of the line exactly as wide as the space available to that line.", "quantifier": "every line with at least one space", "why_tests_cant": "real arithmetic over all widths", "anchors": ["pdfme/text.py: PDFTextBase.add_line_to_stream, output_text"]}
{"id": "C28", "title": "Lines start at the horizontal position their alignment asks for", "statement": "Accumulating the relative moves written in the text stream, every line of a left or justified paragraph starts at the left edge (first line at the indent), right aligned lines end at the right edge and centred lines are centred.", "quantifier": "every sequence of lines and rectangles", "why_tests_cant": "relative moves accumulate over the whole paragraph", "anchors": ["pdfme/text.py: PDFTextBase.add_line_to_stream"]}
{"id": "C29", "title": "Tables keep every cell exactly once across pages", "statement": "Running a table over any sequence of rectangles until it is finished emits the content of every non-merged cell exactly once, completely and row by row: when something of a row is shown, the rows before it have been shown completely.", "quantifier": "every table of plain cells, every split behaviour of the cell contents, every sequence of rectangles", "why_tests_cant": "history and data dependent", "anchors": ["pdfme/table.py: PDFTable.run, add_row, add_cell"]}
{"id": "C30", "title": "Table checkpoints restore the table", "statement": "set_state(**get_state()) restores both the row index and the pending cells of a table.", "quantifier": "every table state", "why_tests_cant": "history property", "anchors": ["pdfme/table.py: PDFTable.get_state, set_state"]}
{"id": "C31", "title": "A table never exceeds its rectangle's height", "statement": "After run the table's current_height is at most the rectangle height.", "quantifier": "every table and rectangle", "why_tests_cant": "all inputs", "anchors": ["pdfme/table.py: PDFTable.add_row, add_cell"]}
{"id": "C32", "title": "Table columns tile the table width", "statement": "The columns of a table are laid side by side without gaps: column k starts where column k-1 ends and the last one ends at the right edge; a colspan cell is as wide as the columns it covers; widths are proportional to the given ones.", "quantifier": "every widths list with nonzero sum, every column count", "why_tests_cant": "all lists", "anchors": ["pdfme/table.py: PDFTable.__init__, get_cell_dimensions, add_cell"]}
{"id": "C33", "title": "Merged cells are not drawn twice", "statement": "A grid position covered by the colspan or rowspan of an earlier cell adds no content, and every other position adds its cell; without row spans the rows are shown one after the other.", "quantifier": "every well-formed span layout", "why_tests_cant": "all layouts", "anchors": ["pdfme/table.py: PDFTable.is_span, add_cell"]}
{"id": "C34", "title": "Border and fill definitions: last one wins", "statement": "The border (fill) used at a grid position is the last one in the list whose position string covers it, and the default when none does.", "quantifier": "every list of border and fill definitions", "why_tests_cant": "all lists", "anchors": ["pdfme/table.py: setup_borders, get_border, setup_fills, _setup_cell_fill"]}
{"id": "C35", "title": "A content box keeps every element exactly once and in order", "statement": "Running a single-column content box over any sequence of rectangles until finished emits every element completely and exactly once, in document order (elements after a flowing image may precede it): when something of an element is shown, every element before it that is not a flowing image has been shown completely.", "quantifier": "every list of elements, every split behaviour, every sequence of rectangles", "why_tests_cant": "history dependent", "anchors": ["pdfme/content.py: PDFContentPart.run, add_delayed, add_elements, next_section, PDFContent.run"]}
{"id": "C36", "title": "Column balancing terminates", "statement": "The balancing loop of a multi-column content box stops after finitely many attempts.", "quantifier": "every content, every fitting behaviour", "why_tests_cant": "termination", "anchors": ["pdfme/content.py: PDFContentPart.reset, run"]}
{"id": "C37", "title": "Balancing leaves no traces of abandoned attempts", "statement": "After a content box is re-laid out for column balancing, nothing placed by the abandoned attempt (text, images, table lines, table fills) remains.", "quantifier": "every attempt contents", "why_tests_cant": "history property", "anchors": ["pdfme/content.py: PDFContentPart.reset"]}
{"id": "C38", "title": "Groups are placed completely or not at all", "statement": "A group element contributes either all of its elements to the current column or none of them; if none, the next element is placed as if the group were not there.", "quantifier": "every group and column state", "why_tests_cant": "all inputs", "anchors": ["pdfme/content.py: PDFContentPart.process_group, process_group_element"]}
{"id": "C39", "title": "Images keep their proportions and fit", "statement": "An image placed in a content box keeps the proportions of the source image and lies inside the column, centred between the margins of its style, and above its bottom.", "quantifier": "every image and column geometry", "why_tests_cant": "all numeric inputs", "anchors": ["pdfme/content.py: PDFContentPart.process_image", "pdfme/pdf.py: PDF.add_image"]}
{"id": "C40", "title": "Page content is written in call order", "statement": "The page stream is the concatenation of the portions in the order they were added, and each add returns a fresh id.", "quantifier": "every sequence of adds", "why_tests_cant": "all histories", "anchors": ["pdfme/page.py: PDFPage.add"]}
{"id": "C41", "title": "Image resources are named consistently", "statement": "On every page two different images never share a resource name, the same image always uses the same name, and every name drawn in the page stream is defined in the page's resources as that image.", "quantifier": "every sequence of add_image calls", "why_tests_cant": "history property", "anchors": ["pdfme/page.py: PDFPage.add_image", "pdfme/pdf.py: PDF.add_image"]}
{"id": "C42", "title": "Fonts: one object per font, every used font is a page resource", "statement": "Every font used by text added to a page is listed in that page's resources under the name used in the stream, distinct fonts have distinct names, and each font is embedded once per document.", "quantifier": "every history of text additions", "why_tests_cant": "history property", "anchors": ["pdfme/pdf.py: PDF._add_or_get_font, _used_font, _add_text", "pdfme/page.py: PDFPage.add_font", "pdfme/fonts.py: PDFFonts"]}
{"id": "C43", "title": "Registered fonts work in every document of the process", "statement": "Once a font is registered, requesting it succeeds in every document created in the process.", "quantifier": "every sequence of documents and font requests", "why_tests_cant": "global-state history", "anchors": ["pdfme/fonts.py: PDFFonts.get_font, load_font, PDFFont.loaded_fonts"]}
{"id": "C44", "title": "Page tree", "statement": "The page tree written by output contains every page exactly once, in order; every Count is the number of leaf pages below; every Parent points to the node listing the page; output of a document without pages is rejected.", "quantifier": "every number of pages", "why_tests_cant": "unbounded page count", "anchors": ["pdfme/pdf.py: PDF._build_pages_tree, output"]}
{"id": "C45", "title": "Every label is found through the name tree", "statement": "Looking up any label in the dests name tree by the PDF lookup procedure (descending by Limits) finds the destination last registered for that label, and unknown names are not found. The other objects and the other entries of the catalog are left alone.", "quantifier": "every set of labels of any size", "why_tests_cant": "unbounded tree depth", "anchors": ["pdfme/pdf.py: PDF._build_dests, _build_dests_tree"]}
{"id": "C46", "title": "Outline tree links are consistent", "statement": "The outline objects reproduce the outline forest: First/Last/Next/Prev/Parent enumerate exactly the children of each item in order, and the root Count is the number of items visible at the configured level. The other objects and the other entries of the catalog are left alone.", "quantifier": "every outline forest", "why_tests_cant": "arbitrary trees", "anchors": ["pdfme/pdf.py: PDF._build_outlines, _build_outlines"]}
{"id": "C47", "title": "Outline levels nest by document order", "statement": "Adding outlines with levels in document order attaches each level-k item under the most recent level-(k-1) item, loses none and keeps the order; a level that skips over a missing parent is an error.", "quantifier": "every sequence of levels", "why_tests_cant": "all sequences", "anchors": ["pdfme/pdf.py: PDF._add_text"]}
{"id": "C48", "title": "Per-page styles apply only to their pages", "statement": "The size, rotation and margin of page n are those of the section overridden by exactly the per_page entries whose ranges contain n.", "quantifier": "every per_page list, every number of pages", "why_tests_cant": "history property", "anchors": ["pdfme/document.py: PDFDocument._process_section", "pdfme/pdf.py: PDF.setup_page"]}
{"id": "C49", "title": "Page numbers", "statement": "The displayed number of the i-th page follows the documented offset rule (4th page with offset 3 shows 1), and page_numbering_reset makes the first page of the section number 1 and the following ones consecutive.", "quantifier": "every page count and offset", "why_tests_cant": "all integers", "anchors": ["pdfme/pdf.py: PDF.get_page_number, page_index", "pdfme/document.py: PDFDocument._process_section"]}
{"id": "C50", "title": "Footnote numbers match the footnote list", "statement": "On each page the footnotes listed are exactly those whose marks appear on the page, in order of appearance, numbered 1..k, and each mark's context value equals its position in the list.", "quantifier": "every arrangement of marks on a page", "why_tests_cant": "all arrangements", "anchors": ["pdfme/document.py: PDFDocument._check_footnote, _check_footnotes, _get_footnotes_obj, _traverse_document_footnotes"]}
{"id": "C51", "title": "JPEG dimensions", "statement": "For every well-formed JPEG header (any sequence of non-frame segments and stand-alone markers, then a frame header) the image gets the width, height, depth and colour space of that frame header; input without a frame header is rejected; the scan always terminates.", "quantifier": "every byte string", "why_tests_cant": "all byte strings", "anchors": ["pdfme/image.py: PDFImage.parse_jpg"]}
{"id": "C52", "title": "Links and references land on the right rectangles", "statement": "Every id rectangle of a placed paragraph produces an annotation at that rectangle translated by the paragraph position; the same URI shares one action object in the whole document; a label's destination is the last placement of the label.", "quantifier": "every sequence of placed paragraphs", "why_tests_cant": "history property", "anchors": ["pdfme/pdf.py: PDF._add_text", "pdfme/page.py: add_annot, add_link, add_reference"]}
{"id": "C53", "title": "Running sections geometry", "statement": "Symbolic running-section sizes and positions resolve to the documented margin/page measures, and every page created after registering running sections contains each of them.", "quantifier": "every margin, page size and section list", "why_tests_cant": "all inputs", "anchors": ["pdfme/document.py: PDFDocument._set_running_sections", "pdfme/pdf.py: PDF.add_page, add_running_section"]}
{"id": "C54", "title": "Copies are independent and equal", "statement": "The library's copy function returns an equal structure sharing no list or dict with the original, so later mutation of one is not visible in the other.", "quantifier": "every nested structure and every mutation", "why_tests_cant": "aliasing property over all structures", "anchors": ["pdfme/utils.py: copy"]}
{"id": "C55", "title": "Footnotes of a document", "statement": "Traversing a document numbers the dicts that have a footnote consecutively in document order, makes each the mark of its own number (id, var and style), collects the text of each at that number, and changes nothing else.", "quantifier": "every document tree", "why_tests_cant": "all trees", "anchors": ["pdfme/document.py: PDFDocument._traverse_document_footnotes"]}
{"id": "C56", "title": "Size and place of an image", "statement": "Adding an image to a document gives it the width and height asked for; without both it is as wide as the content of the page, and a dimension that is not given follows from the proportions of the image. Its left is at x and its top at y (or at the cursor), it is painted once, from its own object, at the end of the stream of the current page, and the cursor moves to its bottom or to its right.", "quantifier": "every history of pages, paragraphs, images, tables and content boxes; every image, rectangle and move", "why_tests_cant": "all histories and all rational sizes", "anchors": ["pdfme/pdf.py: PDF.add_image", "pdfme/page.py: PDFPage.add_image"]}
{"id": "C57", "title": "One object for each image", "statement": "However often and wherever images are added to a document, the images with one name share one object, whose dict is that of the first of them; images with different names have different objects, and there is no object without an image.", "quantifier": "every history of pages, paragraphs, images, tables and content boxes", "why_tests_cant": "all histories", "anchors": ["pdfme/pdf.py: PDF.add_image, PDF._add_parts"]}
{"id": "C58", "title": "The cursor after a table or content box", "statement": "A table or content box begins at the place asked for (by default at the cursor) and reaches by default to the right and lower margins. Afterwards the cursor is at the bottom of the box (move bottom) or at its right (move next).", "quantifier": "every history, every box, every rectangle", "why_tests_cant": "all histories and all rational sizes", "anchors": ["pdfme/pdf.py: PDF._position_and_size, PDF._table, PDF._content, PDF._add_parts"]}
{"id": "C59", "title": "What is painted of a table or content box", "statement": "A table or content box adds to the stream of the current page its fills and lines first and then each of its parts, in their order and at their places: paragraphs with their graphics below their text, images with their sizes from the objects of their names. No other page changes.", "quantifier": "every history and every box", "why_tests_cant": "all histories and all boxes", "anchors": ["pdfme/pdf.py: PDF._add_graphics, PDF._add_parts, PDF._table, PDF._content"]}
{"id": "C60", "title": "Widths of an embedded font", "statement": "In the document, the array W of an embedded font gives every glyph of the font the advance width of the font file in thousandths of the font size, and gives no glyph another width.", "quantifier": "every font file (every character map, every advance width and size), every document it is added to", "why_tests_cant": "all character maps", "anchors": ["pdfme/fonts.py: PDFTrueTypeFont.compute_char_widths, PDFTrueTypeFont.add_font"]}
{"id": "C61", "title": "Characters of an embedded font", "statement": "The ToUnicode map of an embedded font, read as ISO 32000 says, gives every glyph exactly the characters that have this glyph in the font file.", "quantifier": "every font file (every character map), every document it is added to", "why_tests_cant": "all character maps", "anchors": ["pdfme/fonts.py: get_tounicode_cmap, PDFTrueTypeFont.add_font"]}
{"id": "C62", "title": "Words and images of table cells", "statement": "A table of paragraphs and images shows the words of every paragraph and every image in the cell they belong to, in order and once: over any sequence of rectangles each cell shows the first words of its paragraph, and all of them once the table is finished; without row spans, when something of a row is shown, the rows before it have been shown completely.", "quantifier": "every table of paragraphs and images with any spans, styles, borders and widths, every sequence of rectangles", "why_tests_cant": "all tables, texts and rectangles", "anchors": ["pdfme/table.py: PDFTable.process_text, process_image, add_cell, run", "pdfme/text.py: PDFText.run"]}
{"id": "C63", "title": "Adding a table ends", "statement": "PDF.table adds finitely many pages: if every cell can be shown on a page of its own (each line of its paragraph fits below the other, its image is lower than the page), the loop ends without an error, after at most as many further pages as the table has rows, cells, words and line breaks, and then every word and image has been shown.", "quantifier": "every table of paragraphs and images, every style, border and width, every space left on the first page, every page size", "why_tests_cant": "termination for all tables", "anchors": ["pdfme/pdf.py: PDF.table", "pdfme/table.py: PDFTable.run, add_row, add_cell, process_text, process_image", "pdfme/text.py: PDFText.run"]}
{"id": "C64", "title": "A reader finds every object", "statement": "The file written by PDFBase.output opens in a PDF reader that starts at the end of the file and follows the cross-reference table: the trailer entries are those given (Size the number of objects plus one), every object is found under its number with the value it was given, every stream with its dictionary and, after undoing the filter, exactly its bytes, and no other number is in use.", "quantifier": "every history of calls on a PDFBase, every object with a PDF meaning, every stream, every filter inverse", "why_tests_cant": "all objects and histories", "anchors": ["pdfme/base.py: PDFBase.output", "pdfme/parser.py: parse_obj, parse_dict, parse_list, parse_stream", "pdfme/encoders.py: encode_stream"]}
{"id": "C65", "title": "A reader finds the whole document", "statement": "The file written by PDF.output opens in a PDF reader, which finds exactly the pages that were added, in order, each with its size, the concatenation of the portions added to it as its contents, its fonts and images under their names and its links with rectangle and target; for every label the destination registered last, on one of these pages, and nothing for other names; and the outline with its titles, destinations and nesting. Output of a document without pages is refused.", "quantifier": "every document made by any sequence of pages, texts with links, labels, references and outlines, images and boxes; every outlines_level; every filter inverse", "why_tests_cant": "all documents; pages, names and outline items without bound", "anchors": ["pdfme/pdf.py: PDF.output, PDF._build_pages_tree, PDF._build_dests, PDF._build_dests_tree, PDF._build_outlines", "pdfme/page.py: PDFPage.add, add_font, add_annot, add_link, add_reference, add_image", "pdfme/base.py: PDFBase.output"]}
{"id": "C66", "title": "The lines and fills of a table", "statement": "Every run of a table draws its borders exactly once: for each row and each column one line for every stretch of neighbouring equal borders, from corner to corner (half the width of the widest crossing border beyond them), with the defined width, colour and style; inside a cell that spans rows or columns nothing is drawn. Every cell with a fill colour is filled once, over all its columns and over all of its rows that are drawn in this run, and the drawn cells cover the grid without overlap. Lines and fills of the contents of the cells come beside these, and nothing else is drawn.", "quantifier": "every table with cells that stay in it and do not overlap, all spans, all borders and fills, all rectangles, any number of runs before; every content of the cells", "why_tests_cant": "lines are built step by step while the rows are laid out, over all combinations of spans, border changes and page breaks", "anchors": ["pdfme/table.py: PDFTable.is_span, PDFTable.compare_borders, PDFTable.process_borders, PDFTable.add_row, PDFTable.add_cell, PDFTable._setup_cell_fill, PDFTable.run"]}
{"id": "C67", "title": "Backgrounds, underlines and links are where the text is", "statement": "The backgrounds and underlines of a paragraph are painted exactly over the pieces of text they belong to, in the colours of their styles, and the rectangles of links and labels are around the pieces that carry them: for every piece that is not blank, where the text operators show it (the sum of the moves, the widths and word spacings before it on its line), as wide as it is shown, relative to its own baseline and size, up to the rounding of the numbers; nothing else is painted or noted, and ids are noted in the order in which they first appear.", "quantifier": "every paragraph (all texts, styles, fonts, alignments, lists), every width and height, every run of it and every place on the page", "why_tests_cant": "the places are computed twice, for the text and for the marks; all alignments, styles and rectangles", "anchors": ["pdfme/text.py: PDFText.add_line_to_stream, PDFText.output_graphics, PDFText.output_text", "pdfme/utils.py: get_paragraph_stream"]}
{"id": "C68", "title": "Baselines of a run", "statement": "The lines of a run are shown one below the other: the baseline of the first line is its height below the top of the rectangle, each further one the height of its line times the line height below the one before, and the text of a list is on the baseline of the first line; so the last baseline is at the height the run reports, and all are inside the rectangle.", "quantifier": "every paragraph, every rectangle and every run", "why_tests_cant": "all texts and styles, accumulated over all lines", "anchors": ["pdfme/text.py: PDFText.add_line_to_stream, PDFText.add_current_line, PDFTextLine.height"]}
{"id": "C69", "title": "Tables and boxes inside each other show everything once", "statement": "However deep tables and content boxes are put inside each other, and in whatever rectangles the outermost one is run, every paragraph in it shows its words in order and none twice, every image is shown at most once, and when the outermost one says that it is finished every word of every paragraph and every image has been shown. What comes first is shown first, and completely before what comes after it: an element of a box (but for images that flow) before the elements after it, a row of a table before the rows after it.", "quantifier": "every depth, every table without row spans inside (the outermost one may have them below its first row), every box of one column, all texts, styles, margins and sizes that are not negative, all rectangles", "why_tests_cant": "nesting without bound; every level has its own state that is saved and restored at every page break", "anchors": ["pdfme/table.py: PDFTable.process_content, PDFTable.process_table, PDFTable.add_content, PDFTable.run", "pdfme/content.py: PDFContentPart.process_table, PDFContentPart.process_text, PDFContent.run", "pdfme/text.py: PDFText.run"]}
{"id": "C70", "title": "The words of a content box in columns", "statement": "A content box of paragraphs and images, in any number of columns, run in any rectangles, shows the words of each paragraph in order, none twice, and every image at most once, in the order of the document but for images that flow; once it is finished all words and images have been shown, however often the columns were tried again to balance them.", "quantifier": "every list of paragraphs and images, every number of columns, all rectangles and styles", "why_tests_cant": "balancing runs the same paragraphs again and again; all contents and sizes", "anchors": ["pdfme/content.py: PDFContent.run, PDFContentPart.add_elements, PDFContentPart.process_text, PDFContentPart.reset", "pdfme/text.py: PDFText.run"]}
{"id": "C71", "title": "The styles of everything inside", "statement": "Every paragraph, table, cell and content box of a document has, for each attribute, the value said nearest to it: by its own style (a dict or the name of a format, which beat the string of its key), else by the styles around it from the inside out (box, cell, table, box, ...), else the setting of the document; what a table or box says for itself (borders, margins of cells, distances) is not handed on by mistake, and a document of proper styles is not refused.", "quantifier": "every tree of texts, images, tables, boxes and groups of any depth, all styles and formats, all settings of the document", "why_tests_cant": "styles meet at every level of nesting; all combinations of attributes and depths", "anchors": ["pdfme/utils.py: process_style", "pdfme/content.py: get_element_styles, PDFContentPart.__init__", "pdfme/table.py: PDFTable.get_cell_style, PDFTable.add_cell", "pdfme/pdf.py: PDF._default_content_style, PDF._create_table, PDF._create_content"]}
{"id": "C72", "title": "An element can be drawn again", "statement": "An element that was drawn once and is drawn again, at another place or on another page, looks the way it would if it had not been drawn before: drawing it does not change it.", "quantifier": "every element, all styles of the two places", "why_tests_cant": "the dicts of the caller are shared between the drawings; only an element drawn at two places shows it", "anchors": ["pdfme/content.py: PDFContentPart.process_text", "pdfme/table.py: PDFTable.get_cell_style", "pdfme/pdf.py: PDF._init_text, PDF.add_page"]}
{"id": "C73", "title": "The settings of the document hold everywhere", "statement": "Where nothing else is said, every paragraph of a document has the alignment, the line height and the indent that were given to the document, be it added with text, in a content box or in a table.", "quantifier": "every document, all settings, all contents that say nothing about an attribute", "why_tests_cant": "defaults are written at several places of the code; all attributes and all ways to add a paragraph", "anchors": ["pdfme/pdf.py: PDF.__init__, PDF._default_paragraph_style, PDF._create_text, PDF._text, PDF.text, PDF._default_content_style"]}
{"id": "C74", "title": "An image is what the ending of its name says", "statement": "Whether an image is a JPEG or a PNG file is told by the ending given, or else by that of the path, in letters of either case and with or without a dot, the same for a string and a path; a JPEG file is embedded as it is with the size of its frame header, a PNG file as what Pillow makes of it, and anything else is refused. The file that was opened is closed once, whatever happens, and an object of the caller is never closed.", "quantifier": "all arguments of the three kinds, all paths, all contents of files, all results of Pillow", "why_tests_cant": "all names and contents, and every place where an exception may leave the function", "anchors": ["pdfme/image.py: PDFImage.__init__, PDFImage.parse_jpg, PDFImage.parse_png"]}
{"id": "C75", "title": "Adding a content box to a document comes to an end", "statement": "PDF.content adds pages until its content box is finished. This happens after finitely many pages and without an error, whatever is left of the first page, if every line and every image fits a page, and then all words of all paragraphs and all images have been shown once, in document order but for images that flow.", "quantifier": "all content boxes of one column with paragraphs and images, all character widths, all first rectangles, all page sizes", "why_tests_cant": "termination for all contents, and an unbounded number of pages", "anchors": ["pdfme/pdf.py: PDF.content, PDF._content", "pdfme/content.py: PDFContent.run, PDFContentPart.run, PDFContentPart.add_delayed, PDFContentPart.add_elements, PDFContentPart.process_image"]}
{"id": "C76", "title": "Laying out a page again does not change its paragraphs", "statement": "A page is laid out several times, to balance its columns or to make room for footnotes. A paragraph that began on an earlier page goes on in each of these trials where that page had left it, with the same words, widths and indents, as if no trial had been before; in the end every word of it has been shown once.", "quantifier": "every list of paragraphs and images, all character widths, all rectangles, any number of columns and pages", "why_tests_cant": "trials share objects with what was saved before them; only pages that are laid out again while a paragraph goes on show it", "anchors": ["pdfme/content.py: PDFContentPart.process_text, PDFContentPart.reset, PDFContentPart.set_state, PDFContentPart.get_state", "pdfme/text.py: PDFTextBase.set_state, PDFTextBase.get_state, PDFTextBase.add_current_line", "pdfme/document.py: PDFDocument._add_content", "pdfme/utils.py: copy"]}
{"id": "C77", "title": "The text that is given can be read in the file", "statement": "Make a document by adding pages and paragraphs with `PDF.text`. A reader that opens its file, takes the pages in order, executes their contents and reads the strings that are shown finds every paragraph, in order: its words are exactly the words given, with the same word boundaries, none lost, doubled or out of order, even when the paragraph is broken over lines and pages and when it has parentheses, backslashes or line ends in it.", "quantifier": "every sequence of pages and paragraphs, all contents, styles, character widths and page sizes", "why_tests_cant": "layout, escaping, streams, page tree, cross references and compression all have to agree for one word to be read; the content of files is not compared in tests", "anchors": ["pdfme/pdf.py: PDF.text, PDF._text, PDF._add_text, PDF.add_page, PDF.output", "pdfme/text.py: PDFTextBase.run, PDFTextBase.add_line_to_stream, PDFTextBase.output_text", "pdfme/page.py: PDFPage.add", "pdfme/base.py: PDFBase.output"]}
{"id": "C78", "title": "Text stays between the margins, each paragraph below the one before", "statement": "In the file of a document made by adding pages and paragraphs with `PDF.text`, every page has the size that was asked for, and the paragraphs of a page are shown one directly below the other in the order in which they were added, from the upper margin down: no baseline is in the upper or lower margin, none of a later paragraph is above the end of an earlier one on its page, and the lines of a paragraph that is not indented, centred or right aligned begin at the left margin, on every page on which the paragraph goes on, up to the rounding of numbers.", "quantifier": "every sequence of pages and paragraphs, all contents, styles, character widths, line heights, page sizes and margins", "why_tests_cant": "the place of a line in the file is a sum of rounded moves in a text object placed by the cursor of the page, which measures from the top while the file measures from the bottom; tests do not compute it", "anchors": ["pdfme/pdf.py: PDF.text, PDF._text, PDF._position_and_size, PDF._add_text, PDF.add_page", "pdfme/page.py: PDFPage.go_to_beginning, PDFPage.y, PDFPage.add", "pdfme/text.py: PDFTextBase.run, PDFTextBase.add_line_to_stream", "pdfme/utils.py: get_paragraph_stream"]}
{"id": "C79", "title": "Text in the file has the font, size, colour and rise that were given", "statement": "Make a document by adding pages and paragraphs with `PDF.text`, with styles that change inside of paragraphs. A reader that opens its file, executes the contents of the pages in order and looks up the fonts in the resources of the page finds every character (blanks apart) in order, each in the font of the standard that its family and mode name, and in the size, the colour and the rise of its style. No style leaks to the text after it, to the next paragraph or to the next page, and no page names a font that it does not have.", "quantifier": "every sequence of pages and paragraphs, all contents, styles in the fonts of the standard, character widths and page sizes", "why_tests_cant": "the writer leaves out operators for what it believes is set already; whether it is set depends on all the text before; fonts are objects shared by pages under names; tests do not execute streams", "anchors": ["pdfme/text.py: PDFState.compare, PDFTextBase.output_text, PDFTextBase.run", "pdfme/pdf.py: PDF._used_font, PDF._add_or_get_font, PDF._add_text, PDF.text", "pdfme/fonts.py: PDFStandardFont.add_font, PDFFonts.get_font", "pdfme/page.py: PDFPage.add_font"]}
{"id": "C80", "title": "Paragraphs, images, tables and content boxes of a document can be read in its file", "statement": "Make a document with calls of `PDF.add_page`, `PDF.text`, `PDF.image`, `PDF.table` and `PDF.content` in any order, with tables and content boxes in each other to any depth. A reader that opens its file, takes the pages in order and executes their contents finds the calls one after the other, and nothing else: the words of every paragraph; every image once; and of every table or box exactly the words and images of the paragraphs and images in it, the words of each paragraph in order, none lost or doubled when rows are broken over pages, and in reading order: the elements of a box one after the other (but for images that flow), and so the rows of a table. An image that is shown is the object that was given, under a name of its page, with its data unchanged.", "quantifier": "every sequence of such calls, all contents, styles, spans, borders, character widths, images and page sizes", "why_tests_cant": "every layer takes part, from the delayed cells of a broken row to the names of images in the resources of a page; a file is not read back in tests", "anchors": ["pdfme/pdf.py: PDF.table, PDF._table, PDF.content, PDF._content, PDF.image, PDF.add_image, PDF._add_parts, PDF._add_graphics, PDF._add_text, PDF.text, PDF.output", "pdfme/table.py: PDFTable.run, PDFTable.add_row, PDFTable.add_cell, PDFTable.process_text, PDFTable.process_image, PDFTable.process_content, PDFTable.process_table", "pdfme/content.py: PDFContent.run, PDFContentPart.run, PDFContentPart.process", "pdfme/page.py: PDFPage.add_image, PDFPage.add", "pdfme/utils.py: create_graphics", "pdfme/base.py: PDFBase.output"]}
{"id": "C81", "title": "What a document says of an embedded font is what the font file says", "statement": "When a font file is loaded, the font descriptor has the PostScript name of the font, its flags (fixed width, slanted, bold) as bits at their places, and its box, ascent, descent and height of capitals in thousandths of the size, whatever the units of the font, and a reader finds each of these values under its key in the written descriptor; a font that may not be embedded is refused, and any other font with the required tables is taken.", "quantifier": "all tables of a font file: names, units, sizes, weights, licence bits, missing tables", "why_tests_cant": "licence bits, weights and table versions of real font files; the tests load no font file with missing tables or names", "anchors": ["pdfme/fonts.py: PDFTrueTypeFont._get_font_descriptor, PDFTrueTypeFont.load_font"]}
{"id": "C82", "title": "Elements are shown as what they are", "statement": "An element of a content box, a group or a table that is a paragraph (a string, list, tuple, or a dict with a key that begins with a dot), an image, a table, a content box or a group is given to the method for its kind; what is not allowed there is refused; a number is shown as its text.", "quantifier": "all elements and all sets of keys of dicts, in the three kinds of containers", "why_tests_cant": "three copies of the same decision with different orders and fallbacks; the tests use correct dicts only", "anchors": ["pdfme/content.py: PDFContentPart.parse_element, PDFContentPart.process, PDFContentPart.process_group_element", "pdfme/table.py: PDFTable.get_cell_style, PDFTable.add_cell"]}
{"id": "C83", "title": "What a cell holds is shown inside of the cell", "statement": "On every page that a table is put on, what is shown of a cell lies inside of the cell, between its borders and margins, and inside of the rectangle of the table; so the texts and images of different cells never overlap.", "quantifier": "all tables with any row and column spans, column widths, borders, margins and contents that keep to the rectangle they get (paragraphs and images do), all rectangles, all numbers of page breaks", "why_tests_cant": "needs row spans whose content is higher than its rows, wide borders, and page breaks inside of spans together; the tests look at no positions", "anchors": ["pdfme/table.py: PDFTable.add_cell, PDFTable.is_span, PDFTable.add_row, PDFTable.get_cell_dimensions"]}
{"id": "C84", "title": "A document of sections can be read in its file", "statement": "Run a document with sections and running sections and save it. The file opens in a reader, and its pages are those of the sections, one section after the other, each beginning a new page and going on on as many as it needs; every page has the size of its section, shows its running sections with the number of the page, and then the section. Every paragraph and image of a section is shown completely and once on the pages of that section, in reading order (the elements of a box and the rows of a table one after the other).", "quantifier": "all lists of sections (content boxes of one column with paragraphs, images, tables and boxes in each other to any depth), styles, running sections, per-page settings, page sizes and margins, numbering styles and offsets, fonts of the standard", "why_tests_cant": "needs the whole of document, content, table, text, page and file writing together, for every document; the tests build a document but never read the file", "anchors": ["pdfme/document.py: PDFDocument.run, PDFDocument._process_section, PDFDocument._add_content", "pdfme/pdf.py: PDF.add_page, PDF.add_running_section, PDF._content, PDF._add_graphics, PDF._add_text, PDF._add_parts"]}
{"id": "C85", "title": "A content box shows nothing outside of its rectangle", "statement": "Whatever a content box shows in a rectangle - paragraphs, tables, images, groups and boxes inside of boxes, in one or several columns, also what was put off on earlier pages - lies between the left and the right side of the rectangle and not above its top. If the boxes have one column, it does not go below the lower end either.", "quantifier": "all content boxes with elements that keep to the rectangles they get, with margins and gaps that are not negative and images whose margins leave room in the columns (those in groups without a least height), all rectangles of the same width, one after the other (for boxes of one column of any widths that leave that room)", "why_tests_cant": "needs boxes in columns of boxes, delayed elements, page breaks and column balancing together, and the tests look at no positions; wide margins of an image move what follows above the box (C85_margins_false)", "anchors": ["pdfme/content.py: PDFContentPart.setup, PDFContentPart.next_section, PDFContentPart.update_dimensions, PDFContentPart.get_min_x, PDFContentPart.process_text, PDFContentPart.process_image, PDFContentPart.process_child, PDFContentPart.process_group, PDFContentPart.run"]}
{"id": "C86", "title": "What a content box of one column shows is one below the other", "statement": "In a content box of one column, also with boxes of one column inside, nothing that is shown overlaps anything else: what is shown in a rectangle are blocks, each of them the parts of one element or an image, and each lies below all the ones before. The height that the box reports covers all of it and is not more than the height of the rectangle.", "quantifier": "all content boxes of one column with elements that keep to the rectangles they get and report a height that covers them (paragraphs, images and tables of them do), with margins that are not negative and images whose margins leave room (those in groups without a least height), all rectangles of the same width, one after the other (for boxes of one column of any widths that leave that room)", "why_tests_cant": "needs every order of paragraphs, images, groups, put off elements and nested boxes; overlaps are only visible on a drawn page", "anchors": ["pdfme/content.py: PDFContentPart.add_delayed, PDFContentPart.add_elements, PDFContentPart.update_dimensions, PDFContentPart.process_text, PDFContentPart.process_image, PDFContentPart.process_child, PDFContentPart.process_group, PDFContent.run"]}
{"id": "C87", "title": "Tables and content boxes inside each other show nothing outside of their rectangle", "statement": "A table or content box may hold tables and content boxes, to any depth. Run in rectangles one after the other, on as many pages as it needs, it shows in each rectangle nothing outside of it.", "quantifier": "all nestings of tables (any spans, widths, borders) and content boxes of one column, with paragraphs and images or any contents that keep to the rectangle they get, with borders and margins that are not negative and images whose margins leave room in the widths they get, all rectangles, all numbers of page breaks", "why_tests_cant": "needs nestings of any depth with page breaks inside of them, and a table reports heights that its contents may exceed (C83_broken_span_false); the tests look at no positions", "anchors": ["pdfme/table.py: PDFTable.run, PDFTable.add_cell, PDFTable.process_table, PDFTable.process_content", "pdfme/content.py: PDFContent.run, PDFContentPart.process_table, PDFContentPart.process_image"]}
{"id": "C88", "title": "In the file of a document sections stay between the margins", "statement": "Run a document with sections and running sections, save it and open the file. On every page the lines of text of the section are between the upper and the lower margin, also of the tables and content boxes in it, and its images are between all four margins; the text and images of a running section are in the same way inside of the rectangle given for it.", "quantifier": "as C84, with boxes and tables as in C87; all roundings of numbers by at most some amount, which is added for every number that makes up a position", "why_tests_cant": "needs the positions in the file of everything, for every document, after all page breaks; the tests look at no positions", "anchors": ["pdfme/document.py: PDFDocument.run, PDFDocument._process_section", "pdfme/pdf.py: PDF.add_running_section, PDF._content, PDF._add_parts, PDF._add_text, PDF.add_image", "pdfme/page.py: PDFPage.add_image, PDFPage.go_to_beginning"]}
{"id": "C89", "title": "Links, names and outline in the file of a document of sections", "statement": "Build a document of sections with running sections, save it and open the file. The pieces of text of every page carry the ids that the words of the paragraphs have there. The links of a page are exactly those that its pieces of text ask for: the rectangle of each is around its piece, where the content stream shows it, and it leads to the name or address of the id. A name leads to the first piece with this label in the last paragraph on which it is shown, on its page, and a name that is not shown leads nowhere. The outline has exactly the items that the shown pieces ask for, in the order of the document.", "quantifier": "as C84: every document of sections and running sections with their content boxes, tables, paragraphs and images, all page breaks, every rounding of the numbers by at most some amount", "why_tests_cant": "relates every word of the input to positions in the bytes of the file through all layers (lines, boxes, tables, pages, objects), for every document; the tests look at no positions", "anchors": ["pdfme/document.py: PDFDocument.run, PDFDocument._process_section", "pdfme/pdf.py: PDF._add_text, PDF._add_parts, PDF.add_running_section, PDF.output", "pdfme/text.py: PDFText.add_line_to_stream, PDFText.output_graphics", "pdfme/page.py: PDFPage.add_link, PDFPage.add_reference"]}
{"id": "C90", "title": "Text is between the left and right end of what it is given", "statement": "A word of a paragraph is shown between the left and right end of the width of the paragraph, if its line has more than one word: where the content stream begins the line, with the widths of the font and the word spacing that is set, no word begins before the left end or ends after the right end, up to the rounding of numbers. In the file of a document of sections every such word is between the left and right margin of its page, and in a running section between the ends of its place.", "quantifier": "all paragraphs (alignments, styles, ids), widths, heights, metrics that are not negative; all documents of sections as in C84 and C89, every rounding of the numbers by at most some amount", "why_tests_cant": "a statement about the places of all words in the file, through line breaking, alignment, tables, columns of boxes, margins and rounding; the tests look at no positions", "anchors": ["pdfme/text.py: PDFTextLine.add_word, PDFTextBase.add_line_to_stream, PDFTextBase.output_text", "pdfme/content.py: PDFContentPart.run", "pdfme/table.py: PDFTable.run", "pdfme/document.py: PDFDocument.run"]}
{"id": "C91", "title": "A document made from values that can be written can be saved and read", "statement": "Make a document by any sequence of pages, paragraphs, images, tables and content boxes. If the labels, targets, addresses and titles are latin-1 text without backslash and carriage return, and the images, fonts and numbers are values that can be written, then saving it does not fail, every object of the document is written as the PDF object it stands for, and a reader finds in the file the pages, links, names and outline that were asked for. The same holds for a document of sections with running sections (C84, C89): if the ids of all its paragraphs can be written, it can be saved, and what C84 and C89 say of its file needs no condition on its objects.", "quantifier": "all sequences of operations with at least one page, all documents of at least one section, all ids, images and font files that meet the condition, every compression function; reading: files of less than 10^10 bytes", "why_tests_cant": "needs every object that any sequence of operations can leave in the document, also the nodes of the page, name and outline trees; the tests save documents without looking at the objects", "anchors": ["pdfme/pdf.py: PDF.output, PDF._add_or_get_font, PDF._add_text, PDF.add_image, PDF._build_pages_tree, PDF._build_dests_tree, PDF._build_outlines", "pdfme/base.py: PDFBase.output, PDFBase.add", "pdfme/parser.py: parse_obj, parse_dict, parse_stream", "pdfme/page.py: PDFPage.add_annot, PDFPage.add_image, PDFPage.add_font", "pdfme/fonts.py: PDFTrueTypeFont.add_font"]}
{"id": "C92", "title": "Lines and fills of tables stay inside, and look like the borders and fills that were asked for", "statement": "Run a table or a content box, with tables and content boxes inside each other to any depth, in rectangles one after the other. Every line is horizontal or vertical, has the width, colour and style of a border of one of the tables, and is, with its thickness, between the left and right side of the rectangle and not above its top, up to half of the width of the widest border; every fill has a colour of one of the tables, has no negative size, and is between the sides and not above the top. Save a document of sections (C84) and open the file: on every page all fills and lines of the section are painted, they look like that, and they are between the left and right margin and not above the upper margin; those of a running section are in the same way inside of the rectangle given for it.", "quantifier": "boxes and tables as in C87, all borders and fills, all rectangles; in the file: as C84, colours with one or three components, styles solid, dashed and dotted, all roundings of numbers by at most some amount", "why_tests_cant": "needs the lines of tables in boxes in tables after all page breaks and with all combinations of borders; the tests look at no positions", "anchors": ["pdfme/table.py: PDFTable.run, PDFTable.process_borders, PDFTable.add_row, PDFTable.add_cell, PDFTable._setup_cell_fill", "pdfme/content.py: PDFContentPart.process_child, PDFContentPart.add_elements", "pdfme/pdf.py: PDF._add_graphics, PDF._content, PDF.add_running_section", "pdfme/utils.py: create_graphics"]}
{"id": "C93", "title": "Everything drawn inside a table or box is drawn by it, once", "statement": "Run a content box: the lines and fills that it leaves are exactly those that its contents left when they were run, in that order and each once, and if it is set in one column (and so are the boxes in it) the pieces are exactly theirs as well. Run a table or box with tables and boxes inside each other to any depth: a table leaves the lines of its grid, its fills, and what its contents left (C66), and the same holds of every content, so that nothing drawn inside is lost, repeated or changed on its way out. Save a document of sections (C84) and open the file: the first piece of the section on each page paints all these fills and then all these lines, each at its place and with its own look, and nothing else.", "quantifier": "all contents of boxes, any number of columns (lines and fills), any programs for the contents; nested: boxes and tables as in C87; in the file: as C92", "why_tests_cant": "needs every nesting of tables and boxes over all page breaks; a lost line shows only on the page", "anchors": ["pdfme/content.py: PDFContentPart.process_child, PDFContentPart.add_elements", "pdfme/content.py: PDFContentPart.process_table", "pdfme/table.py: PDFTable.run, PDFTable.process_content, PDFTable.process_table", "pdfme/pdf.py: PDF._add_graphics, PDF._content", "pdfme/utils.py: create_graphics"]}
{"id": "C94", "title": "Tables and boxes are laid out the same wherever their rectangle is", "statement": "Run a table or a content box in a row of rectangles, one after the other until nothing is left, and run it again with every rectangle moved by some distance of its own (same widths and heights): the second run ends with the same error, or leaves the same pieces, images, lines and fills in every rectangle, in the same order, each moved by exactly the distance its rectangle was moved and changed in nothing else, takes the same heights, and is finished at the same rectangle. This holds for boxes of any number of columns with groups, images and boxes in them, for tables with any spans, borders and fills, and for tables and boxes inside each other. It needs only that the paragraphs inside follow their rectangles, which those of documents do. So measuring a footnote list or running section in one place and drawing it in another draws what was measured.", "quantifier": "all boxes and tables, all rows of rectangles and distances, all contents that follow their rectangles; inside tables the boxes have one column", "why_tests_cant": "a relation between pairs of runs over all places and all page breaks; a test sees one place, and a coordinate remembered from an earlier page shows only in some", "anchors": ["pdfme/content.py: PDFContent.setup, PDFContent.run, PDFContentPart.run, PDFContentPart.add_elements, PDFContentPart.process_add_ans, PDFContentPart.reset, PDFContentPart.process_image, PDFContentPart.process_child", "pdfme/table.py: PDFTable.setup, PDFTable.run, PDFTable.process_borders, PDFTable.add_row, PDFTable.add_cell, PDFTable._setup_cell_fill", "pdfme/document.py: PDFDocument._add_content"]}
{"id": "C95", "title": "Footnotes are below the text of their page, and making room for them changes nothing else", "statement": "Take the pages of a section. A page without a list shows the section in its whole rectangle, and a page has a list if and only if it shows marks; the list is then that of the notes of exactly these marks, in their order, numbered from 1. If the section has paragraphs and tables in one column, whose lines do not change with the numbers of the marks, every mark shows the number that its note has in the list. On a page with a list of footnotes the rule begins at the left margin and is 150 long; all that is to be seen of the section (of one column) is above the rule, by 5 or more, and all of the list is below it, by 5 or more; at least 25 are left above the rule. If the list has room on a page of its own, it is drawn exactly as it was measured there, moved down to 5 below the rule; if the list of the second layout is as high as that of the first, it ends at the lower margin. If the section has paragraphs and tables only (any number of columns), then what its pages show, page after page, is exactly what it would show on pages that are shorter by the list and its distances: the first layout leaves no trace, and nothing is lost or shown twice because of it.", "quantifier": "all sections, rectangles, contexts, rules for which marks have which notes, and numbers of pages; notes that are paragraphs, tables or images that do not flow", "why_tests_cant": "needs all ways in which a mark, its note and the end of a page meet: each page is laid out twice from the same saved state and the list three times", "anchors": ["pdfme/document.py: PDFDocument._add_content, PDFDocument._get_footnotes_obj, PDFDocument._process_footnotes, PDFDocument._process_section", "pdfme/content.py: PDFContent.run, PDFContentPart.setup, PDFContentPart.get_state, PDFContentPart.set_state, PDFContentPart.next_section", "pdfme/pdf.py: PDF._content"]}
{"id": "C96", "title": "In a lower rectangle a paragraph shows the first lines that it shows in a higher one", "statement": "Run a paragraph from the same place in two rectangles of the same width, one not higher than the other. Its lines in the lower one are the first of its lines in the higher one, with the same words, spacing and parts; if it ends in the lower one, both runs are the same in everything, and if not, the first line that is missing has no room there below the others. The text, the lines and the backgrounds written for the lower rectangle are the beginning of those written for the higher one, and its ids (links, labels, footnote marks) are the first of those of the higher one. A box of one column with such paragraphs shows in the lower rectangle the first footnote marks of those that it shows in the higher one; so on pages with footnotes every mark of a fixed text has the number of its note.", "quantifier": "all paragraphs (fonts, sizes, alignments, indents, lists, variables), widths, heights and places to go on from; boxes of one column", "why_tests_cant": "a relation between pairs of runs over all heights: a test sees some heights, and a decision that looks at the room left shows only where a line just fits", "anchors": ["pdfme/text.py: PDFTextBase.run, PDFTextBase.add_part, PDFTextBase.add_current_line, PDFTextBase.add_line_to_stream", "pdfme/content.py: PDFContentPart.add_elements, PDFContentPart.process_text", "pdfme/document.py: PDFDocument._add_content"]}
