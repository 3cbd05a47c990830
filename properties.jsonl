{"id": "C01", "title": "Whitespace encoding is lossless", "statement": "For every text string, decoding the list of text fragments and whitespace elements that encode_whitespaces produces gives back exactly the original string.", "quantifier": "all finite strings of characters (any mix of blanks, tabs, newlines and other characters, any length)", "why_tests_cant": "the encoder is a character-level state machine with a pending-blank counter; its behaviour depends on every run length and position, an infinite set", "anchors": ["ezodf/whitespaces.py: encode_whitespaces, decode_whitespaces, _WhitespaceEncoder, Spaces, Tabulator, LineBreak"]}
{"id": "C02", "title": "Whitespace encoding survives ODF white-space collapsing", "statement": "The encoded form of any text never contains a raw tab, a raw newline or two adjacent raw blanks in one text fragment, every <text:s> stands for at least one blank and directly follows a fragment ending in a blank, and so an ODF reader that collapses white space as documented recovers the text exactly (for text with no leading/trailing blank in a collapsible position and no carriage return).", "quantifier": "all strings", "why_tests_cant": "needs every string; the collapsing reader and the encoder only agree because of an invariant about all prefixes", "anchors": ["ezodf/whitespaces.py: _WhitespaceEncoder", "docs/whitespaces.rst"]}
{"id": "C03", "title": "append_text appends to the plain text", "statement": "After span.append_text(t), plaintext() is the old plaintext() followed by t, and no previously existing child element or its text is altered; hence any sequence of append_text calls yields the concatenation, and a Paragraph/Span/Heading built from a text has that text as plaintext().", "quantifier": "all existing element contents (any nesting and tails), all strings, all sequences of calls", "why_tests_cant": "the fragment is attached to the element text, to the last child's tail or as new children depending on the existing content", "anchors": ["ezodf/text.py: Span.append_text, Span.plaintext, Span.__init__"]}
{"id": "C04", "title": "textlen equals the length of plaintext", "statement": "For Span, Paragraph, Heading and Hyperlink content, textlen equals len(plaintext()) for arbitrarily nested content.", "quantifier": "all element trees of text-level elements, any depth, any stored non-negative (schema-conform) blank counts", "why_tests_cant": "two independent recursive functions over arbitrary trees must agree", "anchors": ["ezodf/text.py: Span.textlen, Span.plaintext", "ezodf/base.py: GenericWrapper.textlen, plaintext", "ezodf/whitespaces.py: Spaces"]}
{"id": "C05", "title": "Cell addresses and index pairs correspond one to one", "statement": "Every (row, column) pair of non-negative integers is denoted by exactly one canonical address (letters without padding, row number without leading zero), address_to_index maps that address to that pair, and two canonical addresses with the same index are equal.", "quantifier": "all pairs of naturals, all canonical addresses of any length", "why_tests_cant": "column names are unbounded base-26 numerals without zero; tests reach a handful", "anchors": ["ezodf/tableutils.py: address_to_index, CELL_ADDRESS"]}
{"id": "C06", "title": "Exactly the well-formed addresses are accepted", "statement": "address_to_index succeeds on exactly the strings that are (in any letter case) one or more letters followed by one or more digits (optionally one trailing newline, an artefact of the regular expression), ignores letter case, and raises ValueError on everything else.", "quantifier": "all ASCII strings", "why_tests_cant": "acceptance is a statement about all strings, including the rejected ones", "anchors": ["ezodf/tableutils.py: address_to_index, get_cell_index"]}
{"id": "C07", "title": "iter_cell_range enumerates the rectangle", "statement": "iter_cell_range(pos, size) yields every cell index of the rectangle exactly once in row-major order starting with pos, and nothing else; it raises ValueError for a negative start or a size below 1; the variant without start position yields the same list without its first element.", "quantifier": "all positions and sizes", "why_tests_cant": "unbounded sizes", "anchors": ["ezodf/tableutils.py: iter_cell_range, iter_cell_range_without_start_pos"]}
{"id": "C08", "title": "Row and column bookkeeping always matches the XML tree", "statement": "After any history of successful table operations (append/insert/delete rows and columns, set cell, cell spans, reset) the rows and columns shown by the Table object are exactly the row and column elements of the XML tree in document order, so what is saved is what the API shows.", "quantifier": "all loaded or new tables whose rows are not nested in each other, all finite operation histories", "why_tests_cant": "the object keeps its own row/column lists next to the tree; they must stay equal after every history", "anchors": ["ezodf/tablerowcontroller.py: TableRowController", "ezodf/tablecolumncontroller.py: TableColumnController", "ezodf/table.py: Table"]}
{"id": "C09", "title": "Tables stay rectangular", "statement": "Starting from any table that has been loaded or created, after any history of successful row/column operations and assignments of fresh cells all rows have the same number of cells, ncols() is that number and nrows() the number of rows.", "quantifier": "all tables, all operation histories", "why_tests_cant": "invariant over unbounded histories", "anchors": ["ezodf/tablerowcontroller.py", "ezodf/tablenormalizer.py: align_table_columns"]}
{"id": "C10", "title": "Row operations act like list operations on rows", "statement": "append_rows(n) adds n empty rows of the current width at the end, insert_rows(i, n) puts n empty rows directly before the row that was at i, delete_rows(i, n) removes exactly rows i..i+n-1; every other row keeps its cells (same elements, same content) and relative order.", "quantifier": "all tables, indices (also negative) and counts", "why_tests_cant": "must hold for every size, index, count and previous history", "anchors": ["ezodf/tablerowcontroller.py: append_rows, insert_rows, delete_rows", "ezodf/table.py"]}
{"id": "C11", "title": "Column operations act like list operations on every row", "statement": "append_columns(n), insert_columns(i, n) and delete_columns(i, n) do to every row, and to the list of column infos, exactly what the corresponding list operation does; all other cells and column infos are unchanged and keep their relative order.", "quantifier": "all tables, indices (also negative) and counts", "why_tests_cant": "must hold for every size, index and count", "anchors": ["ezodf/tablerowcontroller.py: append_columns, insert_columns, delete_columns", "ezodf/tablecolumncontroller.py: append, insert, delete"]}
{"id": "C12", "title": "Setting one cell changes only that cell", "statement": "table[pos] = cell makes get_cell(pos) return that cell element and leaves every other cell of the table as it was, provided the cell is not already part of the table.", "quantifier": "all tables, positions and detached cells", "why_tests_cant": "frame property over all other cells", "anchors": ["ezodf/tablerowcontroller.py: set_cell, get_cell", "ezodf/table.py: set_cell, __setitem__"]}
{"id": "C13", "title": "Negative indices address from the end", "statement": "Every table operation given a negative index -k (1 <= k <= size) behaves exactly as with the index size-k, including insert with a count above 1.", "quantifier": "all tables, all valid negative indices and counts", "why_tests_cant": "unbounded sizes; insertion recomputes the negative index in every round while the list grows", "anchors": ["ezodf/tablerowcontroller.py: _adjust_negative_indices, insert_rows, delete_rows, insert_columns, delete_columns", "ezodf/tablecolumncontroller.py"]}
{"id": "C14", "title": "A rejected table operation leaves the table unchanged", "statement": "Whenever a row/column operation, a reset or a cell-span operation raises an exception, the table (cells, rows, column infos) is as it was before the call.", "quantifier": "all tables, operations and arguments that make the operation raise", "why_tests_cant": "quantifies over every failing argument and every intermediate failure point", "anchors": ["ezodf/tablerowcontroller.py", "ezodf/tablecolumncontroller.py", "ezodf/table.py: reset", "ezodf/cellspancontroller.py"]}
{"id": "C15", "title": "Strategy 'all' reproduces the stored grid", "statement": "Opening a table with the expand strategy 'all' yields exactly the grid that the file denotes: row r / column c of the API is the stored cell whose repeated rows and columns cover (r, c), and an empty cell where a row is shorter than the widest one.", "quantifier": "all stored tables with any repetition counts and row grouping", "why_tests_cant": "repetition counts and shapes are unbounded; tests use three fixed tables", "anchors": ["ezodf/tablenormalizer.py: _ExpandAll, TableNormalizer, normalize_table", "docs/docmanagement.rst"]}
{"id": "C16", "title": "Strategies 'all_but_last' and 'all_less_maxcount' have their documented shape", "statement": "With 'all_less_maxcount' a row (column cell) is repeated as stored when its count is below maxcount and appears exactly once otherwise; with 'all_but_last' every row/cell is expanded as stored except the last row and the last cell of each row, which appear once; rows are then padded to the widest row.", "quantifier": "all stored tables, all maxcount pairs above 1", "why_tests_cant": "unbounded counts and shapes", "anchors": ["ezodf/tablenormalizer.py: _ExpandAllButLast, _ExpandAllLessMaxCount", "ezodf/conf.py"]}
{"id": "C17", "title": "Loading is idempotent and leaves no repetition", "statement": "After loading a table no row or cell carries a repetition count above one, all rows have the same number of cells, and loading the resulting tree again (under any strategy) changes nothing.", "quantifier": "all stored tables with positive repetition counts, all strategies", "why_tests_cant": "all inputs", "anchors": ["ezodf/tablenormalizer.py: normalize_table", "ezodf/tablecolumncontroller.py: _expand_repeated_content"]}
{"id": "C18", "title": "Row, column and cell views agree", "statement": "row(i)[j], column(j)[i], get_cell((i, j)) and the (i, j) entry produced by rows(), columns() and itercells() are the same cell, and itercells() visits every cell exactly once in row-major order.", "quantifier": "all rectangular tables and indices", "why_tests_cant": "all sizes", "anchors": ["ezodf/table.py: row, rows, column, columns, itercells, get_cell"]}
{"id": "C19", "title": "Column infos stay in step with the columns", "statement": "For a table created by the API, the number of column infos equals ncols() after any history of successful operations, so column_info(j) exists for every column j.", "quantifier": "all operation histories on tables created with Table(name, size)", "why_tests_cant": "invariant over unbounded histories of two separately maintained lists", "anchors": ["ezodf/table.py: Table", "ezodf/tablecolumncontroller.py"]}
{"id": "C20", "title": "reset and clear give an empty table of the requested size", "statement": "table.reset((n, m)) with n, m >= 1 leaves a table with n rows, m columns, m column infos and only empty cells, keeping the name; clear() keeps the size; table attributes other than the name are dropped.", "quantifier": "all tables and sizes", "why_tests_cant": "all sizes and previous contents, including grouped rows", "anchors": ["ezodf/table.py: reset, clear", "ezodf/tablerowcontroller.py: reset", "ezodf/tablecolumncontroller.py: reset"]}
{"id": "C21", "title": "A table copy is equal and independent", "statement": "table.copy() has the same cells and column infos as the original and shares no element with it, so no later operation on the copy changes the original or vice versa.", "quantifier": "all tables, all later operations", "why_tests_cant": "independence quantifies over all later mutations", "anchors": ["ezodf/table.py: copy"]}
{"id": "C22", "title": "set_cell_span covers exactly the rectangle", "statement": "After a successful set_cell_span(pos, size) the cell at pos reports that span and is not covered, every other cell in the rectangle is covered, and cells outside the rectangle are unchanged; cell contents are kept.", "quantifier": "all tables, positions and sizes", "why_tests_cant": "frame and postcondition over unbounded rectangles", "anchors": ["ezodf/cellspancontroller.py: set_span", "ezodf/cells.py: _set_span, _set_covered"]}
{"id": "C23", "title": "remove_cell_span undoes set_cell_span", "statement": "set_cell_span followed by remove_cell_span on the same position restores every cell of a table in which the rectangle had no covered or spanning cell; remove_cell_span on a cell without span does nothing.", "quantifier": "all tables, positions and sizes", "why_tests_cant": "all sizes", "anchors": ["ezodf/cellspancontroller.py: remove_span, set_span"]}
{"id": "C24", "title": "set_cell_span rejects bad ranges without effect", "statement": "set_cell_span raises IndexError for a negative position, ValueError for a size below one, a rectangle exceeding the table or one containing a spanning cell, and in these cases changes nothing.", "quantifier": "all tables, positions and sizes", "why_tests_cant": "all inputs", "anchors": ["ezodf/cellspancontroller.py: _check_pos_and_size, _has_cell_range_spanned_cells"]}
{"id": "C25", "title": "Spans never overlap", "statement": "In a table built by set_cell_span/remove_cell_span calls from an unspanned table, the rectangles of the spanning cells are pairwise disjoint and a cell is covered exactly if it lies in the rectangle of another, spanning cell.", "quantifier": "all histories of span calls", "why_tests_cant": "global invariant over unbounded histories", "anchors": ["ezodf/cellspancontroller.py"]}
{"id": "C26", "title": "Cell values read back as written", "statement": "After a successful set_value, value_type and value report what was written: text as the same text, numbers as the float of the number, booleans as the boolean, date/time strings unchanged; percentage and currency are read as floats.", "quantifier": "all values and value types accepted by set_value, all previous cell states", "why_tests_cant": "all values and all previous contents of the cell", "anchors": ["ezodf/cells.py: Cell.set_value, value, value_type"]}
{"id": "C27", "title": "Changing a cell value leaves no trace of the old value and keeps unrelated properties", "statement": "After set_value no value attribute or content of the previous value remains, while style, formula, protection, validation and span of the cell are kept; the currency is reported only for currency cells.", "quantifier": "all previous cell states and all new values", "why_tests_cant": "quantifies over histories of set_value calls", "anchors": ["ezodf/cells.py: set_value, _clear_old_value, _clear_value_attribute, currency"]}
{"id": "C28", "title": "A rejected set_value leaves the cell unchanged", "statement": "If set_value raises, the cell still has its previous value, type and content.", "quantifier": "all cells and arguments for which set_value raises", "why_tests_cant": "every failing input and failure point", "anchors": ["ezodf/cells.py: set_value, _set_new_value", "ezodf/base.py: set_attr"]}
{"id": "C29", "title": "Text in string cells", "statement": "append_text on a string cell appends to the last paragraph/heading (value grows by exactly the text) or starts a new paragraph (value grows by a newline and the text when there was one), and raises TypeError for any other type; setting display_form never changes value or value_type and reads back as written when the cell had no other paragraph.", "quantifier": "all cells and texts", "why_tests_cant": "all existing contents", "anchors": ["ezodf/cells.py: append_text, display_form, plaintext"]}
{"id": "C30", "title": "Sheets behave like an ordered list with names", "statement": "len, iteration, names, access by index and by name, replacing, deleting and appending of sheets act as the corresponding list operations on the ordered list of sheets, whatever other elements the document body contains and without touching those.", "quantifier": "all document bodies (any other elements interleaved), all keys, all sheets", "why_tests_cant": "all bodies and histories", "anchors": ["ezodf/pagecontainer.py: AbstractPageContainer", "ezodf/sheets.py", "ezodf/pages.py"]}
{"id": "C31", "title": "Sheet index and insert agree with sheet access", "statement": "sheets[sheets.index(s)] is s for every sheet s of a document, and after sheets.insert(i, s) with 0 <= i <= len(sheets), sheets[i] is s.", "quantifier": "all spreadsheet documents, sheets and positions", "why_tests_cant": "all bodies", "anchors": ["ezodf/pagecontainer.py: index, insert", "ezodf/body.py: GenericBody, SpreadsheetBody"]}
{"id": "C32", "title": "Access to a sheet always yields the same object", "statement": "Accessing the same sheet repeatedly, by index, by name or by iteration, yields one and the same Table object, whatever other sheets were accessed, created or appended in between, so structural changes made through one access are seen through every other; distinct sheets never share an object.", "quantifier": "all histories of sheet accesses, creations and deletions", "why_tests_cant": "cache correctness over all histories, including reuse of memory addresses", "anchors": ["ezodf/wrapcache.py", "ezodf/pagecontainer.py: _child_by_index, _child_by_name, __iter__"]}
{"id": "C33", "title": "Reordering body children is a stable, idempotent permutation", "statement": "PreludeEpilogueOrganizer.reorder only permutes the children: prelude elements come first grouped in the declared tag order, epilogue elements last grouped in the declared order, everything else stays in between in its old order, equal tags keep their order, and a second call changes nothing.", "quantifier": "all children lists, all duplicate-free tag lists that do not overlap", "why_tests_cant": "all permutations and lengths", "anchors": ["ezodf/nodeorganizer.py: PreludeEpilogueOrganizer"]}
{"id": "C34", "title": "The prelude (epilogue) block is the longest ordered prefix (suffix)", "statement": "len of a PreludeTagBlock is the length of the longest prefix of the children whose tags are prelude tags in non-decreasing declared order; for an EpilogueTagBlock the longest suffix; insert_position_after() / insert_position_before() without tag are exactly the block borders.", "quantifier": "all children lists and tag lists", "why_tests_cant": "maximality is a statement about all prefixes", "anchors": ["ezodf/nodeorganizer.py: PreludeTagBlock, EpilogueTagBlock"]}
{"id": "C35", "title": "Appending to a text body keeps the epilogue last", "statement": "body.append(x) of a text document inserts x directly before the trailing epilogue block, keeps all other children in order, and so any sequence of appends of content elements yields content in call order followed by the unchanged epilogue.", "quantifier": "all text bodies, all sequences of appended elements", "why_tests_cant": "histories of appends on arbitrary bodies", "anchors": ["ezodf/body.py: TextBody.append", "ezodf/nodeorganizer.py: EpilogueTagBlock.insert_position_before"]}
{"id": "C36", "title": "Structure check is exact", "statement": "NodeStructureChecker.is_valid(node) holds exactly when the children are an ordered prelude block, then only midrange elements, then an ordered epilogue block.", "quantifier": "all children lists", "why_tests_cant": "an iff over all lists", "anchors": ["ezodf/nodestructurechecker.py: NodeStructureChecker.is_valid", "ezodf/nodestructuretags.py"]}
{"id": "C37", "title": "Tag-relative insert positions keep the block ordered", "statement": "Inserting an element with a prelude tag at insert_position_before(tag) or insert_position_after(tag) keeps the prelude block ordered and makes it exactly one longer (likewise for the epilogue block).", "quantifier": "all children lists and tags", "why_tests_cant": "all blocks, including those lacking the tag and its successors", "anchors": ["ezodf/nodeorganizer.py: insert_position_before, insert_position_after, tag_info"]}
{"id": "C38", "title": "The manifest is a map from path to media type", "statement": "After any sequence of add/remove calls on a manifest without duplicate paths, find(path) reports exactly the media type of the last add not followed by a remove, entries of other paths are untouched, each path occurs at most once, and META-INF/manifest.xml is never listed by add.", "quantifier": "all histories of add and remove, all paths", "why_tests_cant": "unbounded histories", "anchors": ["ezodf/manifest.py: Manifest"]}
{"id": "C39", "title": "Saving keeps every package member", "statement": "The zip written by save/tobytes starts with the uncompressed mimetype member, contains every registered document part exactly once with its current content, and every member of the opened package that is not a registered part with its original content, and nothing else; member names are unique if they were unique in the opened package.", "quantifier": "all opened packages, all sets of registered parts", "why_tests_cant": "all packages; data-loss freedom is universal", "anchors": ["ezodf/filemanager.py: FileManager._tozip, _copy_zip_to, _copy_from_zip_to_zip, register, tobytes"]}
{"id": "C40", "title": "No crash point of save loses the document", "statement": "If saving to a file is interrupted at any point, the complete old document or the complete new document exists in the directory; with backup enabled the old document is present under its own name or as .bak at every point, no other file changes, and after completion the name holds the new document and .bak the previous one.", "quantifier": "all crash points, all file systems states, backup on or off", "why_tests_cant": "requires every interruption point, not only completed calls", "anchors": ["ezodf/filemanager.py: FileManager.save, tmpfilename", "ezodf/document.py: FlatXMLDocument._saving_routine", "ezodf/bytestreammanager.py: save"]}
{"id": "C41", "title": "Repeated saves preserve the package", "statement": "After any sequence of saves (to the same or other names) and edits of registered parts, the last written file contains the current registered parts and all extra members of the originally opened package unchanged.", "quantifier": "all sequences of saves and edits", "why_tests_cant": "histories; each save re-reads the previously written file", "anchors": ["ezodf/filemanager.py: save, zipname", "ezodf/document.py: saveas"]}
{"id": "C42", "title": "A failed save can be repeated", "statement": "If writing a document part fails during save, the document object is unchanged, so a later save succeeds once the cause is gone.", "quantifier": "all failure points while writing parts", "why_tests_cant": "needs every failure point", "anchors": ["ezodf/filemanager.py: _tozip"]}
{"id": "C43", "title": "Every save increments the editing cycles by one", "statement": "n successful saves of a document raise the stored editing-cycles number by n (a missing or non-numeric entry counts as 0).", "quantifier": "all documents and all numbers of saves", "why_tests_cant": "histories and all stored values", "anchors": ["ezodf/meta.py: inc_editing_cycles", "ezodf/document.py: _BaseDocument.save"]}
{"id": "C44", "title": "Meta entries are independent variables", "statement": "meta[key] = v makes meta[key] read v and leaves every other metatag, keyword, user tag and statistic unchanged; an unset key raises KeyError; clear() removes everything.", "quantifier": "all documents, keys and values", "why_tests_cant": "frame property over all other entries", "anchors": ["ezodf/meta.py: OfficeDocumentMeta.__setitem__, __getitem__, clear, TAGS"]}
{"id": "C45", "title": "Keywords behave like a set", "statement": "After any history of add/remove/clear on a document without duplicate keywords, a keyword is contained exactly if it was added after the last remove/clear, iteration yields each contained keyword exactly once in order of addition, and nothing else in the meta data changes.", "quantifier": "all histories and keywords", "why_tests_cant": "unbounded histories", "anchors": ["ezodf/meta.py: Keywords"]}
{"id": "C46", "title": "User tags behave like a typed dictionary", "statement": "After any history of set/del/update/clear the user tags read as the dictionary obtained by the same operations; KeyError exactly for absent names; typeof reports the declared type, 'string' when none was declared.", "quantifier": "all histories, names, values and types", "why_tests_cant": "unbounded histories", "anchors": ["ezodf/meta.py: Usertags"]}
{"id": "C47", "title": "Statistics read back as written", "statement": "count[key] = n makes count[key] read n for every supported key and integer n and leaves the others unchanged, unknown keys raise KeyError, unset or non-numeric entries read 0, and iteration yields exactly the stored pairs.", "quantifier": "all keys, integers and previous states", "why_tests_cant": "all integers and states", "anchors": ["ezodf/meta.py: Statistic"]}
{"id": "C48", "title": "Namespace expansion does not depend on the cache", "statement": "CN(tag) depends only on the currently registered namespaces, never on earlier calls: it expands prefix:local with the registered URI, returns names already in Clark notation unchanged (so expansion is idempotent), raises for unknown prefixes and malformed names, and distinct prefixed names of the ODF namespaces expand to distinct names.", "quantifier": "all tags, all histories of calls and registrations", "why_tests_cant": "cache transparency over all histories", "anchors": ["ezodf/xmlns.py: _XMLNamespaces, CN", "ezodf/const.py: ALL_NSMAP"]}
{"id": "C49", "title": "Document types and mimetypes correspond", "statement": "Document type and mimetype determine each other, a document created with newdoc(t) reports doctype t and its mimetype, every documented doctype can be created, and opening finds the mimetype from the mimetype member, else the manifest root entry, else the file extension; templates lose their -template suffix.", "quantifier": "all documented document types; all packages", "why_tests_cant": "combination of tables and fallbacks over all packages", "anchors": ["ezodf/const.py: MIMETYPES, FILE_EXT_FOR_MIMETYPE, MIMETYPE_BODYTAG_MAP, MIMETYPE_NSMAP", "ezodf/document.py: newdoc, __detect_mime_type, _new_doc_from_template, PackagedDocument"]}
{"id": "C50", "title": "Broadcasts reach exactly the subscribers", "statement": "After any history of subscribe/unsubscribe and object destruction, broadcast(event) calls the handler of every live subscriber of that event exactly once and of nobody else; with a root only subscribers of that document are called.", "quantifier": "all histories, events and roots", "why_tests_cant": "unbounded histories and object lifetimes", "anchors": ["ezodf/observer.py: Observer"]}
{"id": "C51", "title": "Durations survive a format/parse round trip", "statement": "Parsing the formatted form of a duration gives the duration back (up to the format's resolution).", "quantifier": "all durations", "why_tests_cant": "all durations of any length", "anchors": ["ezodf/timeparser.py: duration_to_string, duration_parser"]}
{"id": "C52", "title": "Dates and date-times survive a format/parse round trip", "statement": "Parsing the formatted form of a date or date-time gives it back (to the second), and formatting a parsed well-formed string gives a string denoting the same instant.", "quantifier": "all calendar dates and times", "why_tests_cant": "all dates", "anchors": ["ezodf/timeparser.py: TimeParser.parse, __str__"]}
{"id": "C53", "title": "Duration parser accepts exactly the documented grammar and sums its parts", "statement": "duration_parser succeeds exactly on P[nY][nM][nD][T[nH][nM][n[,n]S]] and returns 365*Y+30*M+D days plus H hours, M minutes and S seconds; anything else raises ValueError.", "quantifier": "all strings", "why_tests_cant": "acceptance over all strings", "anchors": ["ezodf/timeparser.py: duration_matcher, duration_parser"]}
{"id": "C54", "title": "Variables read back as written and do not interfere", "statement": "Assigning a value to a simple variable or user field makes it read back with the same value and the matching type, updates every instance of it in the document, and leaves all other variables, fields and text untouched.", "quantifier": "all documents, names and values (text, numbers, booleans)", "why_tests_cant": "all documents and values", "anchors": ["ezodf/variables.py: Variables, SimpleVariable, UserField, SimpleVariableInstance"]}
{"id": "C55", "title": "Bounded integer, boolean and visibility properties", "statement": "Integer properties with a lower limit never report a value below the limit and read back max(limit, n) after writing n; boolean properties read back the truth value written; visibility only ever takes one of the allowed values by assignment and rejects others without effect; setting one property leaves the others unchanged.", "quantifier": "all integers, booleans, strings and previous attribute states", "why_tests_cant": "all integers and states", "anchors": ["ezodf/propertymixins.py"]}
{"id": "C56", "title": "Style containers behave like dictionaries", "statement": "container[name] = style makes container[name] return that style, replaces an existing style of that name and leaves the others unchanged; unknown names raise KeyError.", "quantifier": "all containers, names and styles, all histories", "why_tests_cant": "cache/tree agreement over histories", "anchors": ["ezodf/styles.py: Container, BaseStyle"]}
{"id": "C57", "title": "Wrapped elements behave like lists of their children", "statement": "index, get, set, delete, insert, append, insert_before, remove and replace act on the ordered children as the corresponding list operations (negative indices included), adding an element that already has a parent moves it, and no operation loses or duplicates any element.", "quantifier": "all trees, indices and elements", "why_tests_cant": "all trees and aliasing situations", "anchors": ["ezodf/base.py: GenericWrapper"]}
{"id": "C58", "title": "Lists built from items read back in order", "statement": "ezlist(items, header) yields a list whose header (if any) is the first child and whose items have exactly the given texts in order; assigning a new header replaces the old one and keeps the items.", "quantifier": "all item sequences", "why_tests_cant": "all sequences", "anchors": ["ezodf/__init__.py: ezlist", "ezodf/text.py: List, ListItem, ListHeader"]}
{"id": "C59", "title": "Sheet names are normalised", "statement": "A table name read back after assignment has no tab, carriage return, quote or surrounding white space; assigning an already normalised name reads back unchanged; normalisation is idempotent; a name that normalises to nothing is rejected with ValueError and leaves the old name.", "quantifier": "all strings", "why_tests_cant": "all strings", "anchors": ["ezodf/table.py: Table.name, _normalize_sheet_name", "ezodf/base.py: set_attr"]}
{"id": "C60", "title": "A saved package passes the package check", "statement": "Every package written by save for a document with a supported mimetype satisfies check_zipfile_for_oasis_validity: mimetype first and stored, manifest, content, meta and styles present and listed with the right root media type.", "quantifier": "all documents and packages", "why_tests_cant": "all packages", "anchors": ["ezodf/filemanager.py: check_zipfile_for_oasis_validity, _tozip", "ezodf/document.py: PackagedDocument.__init__"]}
{"id": "C61", "title": "Style attributes read back as written", "statement": "style[key] = value makes style[key] return value for every key of the attribute map of the class and changes nothing else; unknown keys raise KeyError.", "quantifier": "all style elements, keys and values", "why_tests_cant": "all keys and values", "anchors": ["ezodf/styles.py: BaseStyle, Style, DefaultStyle, PageLayout"]}
{"id": "C62", "title": "A table written to a file and read again shows the same grid", "statement": "A table that is created or opened, changed by any successful calls of the Table API (no cell with a repetition count put in), written and read again, with any expansion strategy, shows the same numbers of rows and columns, the same name, and cells with the same content; this holds at every point of a life of repeated editing, writing and reading.", "quantifier": "all tables, histories, strategies, maximum counts above 1", "why_tests_cant": "all histories with all strategies", "anchors": ["ezodf/table.py", "ezodf/tablenormalizer.py", "ezodf/tablerowcontroller.py"]}
{"id": "C63", "title": "Opening a document adds missing frame elements and changes nothing else", "statement": "Setting up a document around its stored trees keeps every stored node, its content and the order of its children; exactly the frame elements that are missing are added, as last children of their parents; the attributes of the document denote the first frame elements of their kind; setting it up again changes nothing; if it fails, at most bare frame elements have been added.", "quantifier": "all stored styles.xml and content.xml trees, all mimetypes", "why_tests_cant": "all trees", "anchors": ["ezodf/content.py", "ezodf/styles.py: OfficeDocumentStyles", "ezodf/body.py", "ezodf/document.py: PackagedDocument.__init__", "ezodf/xmlns.py: subelement"]}
{"id": "C64", "title": "Frame elements stand in the order of the schema", "statement": "After a document has been set up, the frame elements of its parts stand in the order that OpenDocument prescribes, if the stored ones did.", "quantifier": "all stored trees", "why_tests_cant": "all trees", "anchors": ["ezodf/content.py", "ezodf/styles.py", "ezodf/body.py"]}
{"id": "C65", "title": "inject_style makes a style available under its name", "statement": "After inject_style(xml) the style is the last child of office:styles with its whole tree, nothing else has changed, and document.styles.styles[name] is the injected style; this holds for every kind of style and every kind of document.", "quantifier": "all documents, all style elements", "why_tests_cant": "all documents and elements", "anchors": ["ezodf/document.py: inject_style", "ezodf/xmlns.py: fake_element", "ezodf/styles.py: Container"]}
{"id": "C66", "title": "Flat documents can be created, opened and opened again", "statement": "FlatXMLDocument can be created for every known type, gets its frame elements, and opening the tree of a flat document (also one created by the library) succeeds, keeps what is stored and recognises its type; a root with another tag raises ValueError.", "quantifier": "all types, all stored trees", "why_tests_cant": "all trees", "anchors": ["ezodf/document.py: FlatXMLDocument"]}
{"id": "C67", "title": "Protection of tables and sections", "statement": "Setting protected on a table or section reads back, changes no other attribute than the flag and the protection key, stores the 12 random letters and digits as the key when protection is switched on, and removes the key when it is switched off.", "quantifier": "all elements, all random choices", "why_tests_cant": "the key is random; all elements", "anchors": ["ezodf/tableutils.py", "ezodf/table.py: protected", "ezodf/text.py: Section.protected", "ezodf/base.py"]}
{"id": "C68", "title": "New sections and pages have the given attributes", "statement": "A new section or page can be made with every name and style, an empty one meaning none; it has exactly the attributes that were given, and the name of a page can be changed.", "quantifier": "all names and styles", "why_tests_cant": "all strings", "anchors": ["ezodf/text.py: Section", "ezodf/drawingpage.py"]}
{"id": "C69", "title": "Saving a document and opening the file gives the same document", "statement": "A packaged document that was created or opened, changed through its trees, meta data and registered files, and saved any number of times, can be opened again after a successful save; the opened document has the same type and name, the same trees of meta data, styles and content (an empty text counts as no text), says the same in the meta data, declares the same variables and user fields and has the same sheets with the same grids; files of the package that are not registered keep their bytes, and saving changes nothing in the document but the meta data.", "quantifier": "all documents, histories, clocks, file systems and XML libraries that read what they wrote", "why_tests_cant": "all trees, histories and packages", "anchors": ["ezodf/document.py", "ezodf/filemanager.py", "ezodf/meta.py", "ezodf/content.py", "ezodf/styles.py", "ezodf/body.py"]}
{"id": "C70", "title": "Attributes and texts set through a wrapped element read back", "statement": "set_attr stores the text of a number, truth value or non-empty text so that get_attr (get_bool_attr for truth values) gives it back, refuses None and the empty text with ValueError and no effect, and changes no other attribute, text, tail or tag; set_bool_attr and get_bool_attr are inverse and true means exactly the text 'true'; absent attributes read as the default; text and tail read back and decide plaintext() and textlen.", "quantifier": "all elements, attribute names, values and histories of calls", "why_tests_cant": "all elements and histories", "anchors": ["ezodf/base.py: get_attr, get_bool_attr, set_attr, set_bool_attr, text, tail, textlen, plaintext"]}
{"id": "C71", "title": "Tables can be used with addresses", "statement": "table[a], table[a] = cell, row(a), column(a), row_info(a), column_info(a), set_cell_span(a, size) and remove_cell_span(a) with the name a of a cell (any letter case, leading zeros allowed) mean the row, the column or the cell named, exactly as with the numbers; names outside the table raise IndexError, strings that name no cell raise ValueError and keys of other types TypeError, in each case without effect; an integer key is the position of a child element.", "quantifier": "all tables, all strings, all positions and cells", "why_tests_cant": "all names and table sizes, and the frame over all other cells", "anchors": ["ezodf/table.py: __getitem__, __setitem__, row, column, row_info, column_info, set_cell_span, remove_cell_span", "ezodf/tableutils.py: get_cell_index, address_to_index", "ezodf/base.py: get_child, set_child"]}
{"id": "C72", "title": "What is no document is refused with a definite exception", "statement": "Opening a stream that is no zip file raises BadZipfile and a name that is no zip file IOError; a manifest or part that is no XML raises XMLSyntaxError; a part with another root element ValueError; a mimetype or document type that is unknown or has no body KeyError; templates that are no zip file IOError, and with a mimetype of no document type InvalidFiletypeError.", "quantifier": "all packages, contents, file names, streams and file systems", "why_tests_cant": "all packages and mimetypes", "anchors": ["ezodf/document.py: opendoc, newdoc, _new_doc_from_template, PackagedDocument.__init__", "ezodf/filemanager.py: get_xml_element", "ezodf/content.py", "ezodf/styles.py", "ezodf/meta.py"]}
{"id": "C73", "title": "The configured expand strategy decides how tables are opened", "statement": "The strategy set last is the one by which every table opened afterwards is expanded (maxcount at least 2); without a setting and after a reset it is all_less_maxcount with (32, 32), and a setting without maxcount means (32, 32); with an unknown strategy every table is refused with TypeError and left unchanged, and no table can be made or copied; new tables do not depend on the known strategies.", "quantifier": "all histories of set and reset calls, all names, maxcounts and stored tables", "why_tests_cant": "all histories and tables", "anchors": ["ezodf/conf.py", "ezodf/table.py: __init__", "ezodf/tablerowcontroller.py: __init__", "ezodf/tablecolumncontroller.py: _expand_repeated_content"]}
{"id": "C74", "title": "The controllers replace rows and columns and keep the other children", "statement": "reset of the row controller removes exactly the elements for rows of any table and appends rows of empty cells as last children; reset of the column controller removes exactly the elements for columns and inserts empty columns directly after the longest prelude; all other children keep their order, and the row and column lists are those of the tree. Exchanging a column puts a copy of the given column in its place and changes nothing else; other elements raise TypeError and indices outside IndexError without effect. A refused reset changes nothing.", "quantifier": "all tables with any children, all sizes, columns and indices", "why_tests_cant": "all child sequences and sizes", "anchors": ["ezodf/tablerowcontroller.py: reset", "ezodf/tablecolumncontroller.py: reset, __len__, __getitem__, __setitem__, _check_column_type"]}
{"id": "C75", "title": "Indices outside the table are refused", "statement": "A table operation given a row or column index below -size or not below size raises IndexError and leaves the table unchanged (row, column, their infos, cells, inserting and deleting rows, deleting columns).", "quantifier": "all tables, all indices outside, all counts", "why_tests_cant": "all indices and sizes", "anchors": ["ezodf/tablerowcontroller.py: _adjust_negative_indices, get_cell, set_cell, row, column, insert_rows, delete_rows, delete_columns", "ezodf/tablecolumncontroller.py: get_table_column"]}
{"id": "C76", "title": "Writing through the cells, rows and columns of a table", "statement": "A method of the cell table[pos] (set_value, append_text, setting display_form, assigning and deleting properties) has in the table the effect and the result or exception that it has on a cell outside of a table; all other cells, the row and column elements, the other children and the table element stay as they were. After any sequence of such writes, refused ones included, every cell is what the calls addressed to it make of it, in order. Assigning a property of row_info(i) or column_info(i) changes the attributes of that row or column only.", "quantifier": "all tables, all positions and indices from either end, all calls and histories of calls", "why_tests_cant": "all histories over all positions, aliasing of positions from either end", "anchors": ["ezodf/table.py: get_cell, row_info, column_info", "ezodf/cells.py: Cell", "ezodf/tablerowcontroller.py: get_cell", "ezodf/propertymixins.py"]}
{"id": "C77", "title": "Assigning a cell of the table to another place moves it", "statement": "table[q] = table[p] puts the very cell at p in place of the cell at q and takes it out of its row, where the later cells move one column to the left; all other cells, the row and column elements, the other children and the table element stay, and the row list is that of the tree. Afterwards the rows are no longer equally long (if there are at least two). Assigning a cell to its own place changes nothing; an element of a row that is no cell is refused with TypeError.", "quantifier": "all rectangular tables, all pairs of positions from either end", "why_tests_cant": "all tables and pairs of positions", "anchors": ["ezodf/table.py: get_cell, set_cell", "ezodf/tablerowcontroller.py: set_cell"]}
{"id": "C78", "title": "A spreadsheet made by a program is the same after saving and opening", "statement": "A program makes or opens a spreadsheet, makes tables, calls their methods, writes into cells, rows and columns, and appends, inserts, fetches, replaces and deletes sheets, in any order, with any arguments, and with saving in between; calls may raise. Every call on a table does to that table what it does to a table by itself, and no call changes another table or, unless it is a call on the sheets, the order of the sheets; the same sheet is always the same object. A file that is saved can be opened: it has the sheets with their names in their order, and each sheet the program had an object of shows the same size, name, and in each cell the same value, type, currency, text and span. In particular a value written last into a cell is what is read from the file.", "quantifier": "all programs of these calls on any number of tables, all arguments, all names, sizes and positions, all configurations of the expansion, all clocks and file systems", "why_tests_cant": "the histories of calls over several tables and sheets of one tree are unbounded", "anchors": ["ezodf/pagecontainer.py: AbstractPageContainer", "ezodf/sheets.py: Sheets", "ezodf/table.py: Table", "ezodf/wrapcache.py: wrap", "ezodf/document.py: PackagedDocument.save, saveas", "ezodf/document.py: newdoc, opendoc"]}
{"id": "C79", "title": "A document written to memory is the same document", "statement": "doc.tobytes(), and saving to a stream, at any point of the life of a packaged document: the bytes can be opened and give a document with the same mimetype, meta data, trees, body and declarations, as far as a file can tell. tobytes changes neither the document nor any file, whether it succeeds or not; called twice it gives the same package, and called after a save (to a file or a stream) it gives exactly the package that was saved.", "quantifier": "all packaged documents reached by any history of opening or making, editing, saving and writing to memory; all libraries that read what they write; all worlds and file systems in which the bytes are opened", "why_tests_cant": "the histories and the documents are unbounded", "anchors": ["ezodf/document.py: PackagedDocument.tobytes, saveas, opendoc", "ezodf/filemanager.py: tobytes, save", "ezodf/bytestreammanager.py: save, get_zip"]}
{"id": "C80", "title": "Refused calls of the operating system lose nothing", "statement": "If the operating system refuses any call made by a save (creating or completing the temporary file, removing the old backup or the document, renaming), the save raises; at every point and afterwards the complete old or the complete new document is in the folder, with backup the old one under its own name or as .bak, and no other file changes but a new temporary file. A save that returns has done everything. After a failed save, a later save still writes all registered parts and all other members of the opened package.", "quantifier": "all sets of refused calls depending on the state of the files, all file systems, all documents and histories", "why_tests_cant": "needs a failure at every call in every state", "anchors": ["ezodf/filemanager.py: FileManager.save", "ezodf/document.py: FlatXMLDocument._saving_routine, newdoc"]}
{"id": "C81", "title": "A text document made by a program is the same after saving and opening", "statement": "A program makes or opens a document, makes paragraphs, spans, headings, hyperlinks, lists, sections and numbered paragraphs, sets their texts and attributes, appends text, and appends, inserts, fetches, replaces and removes them in the body and in each other, in any order, with any arguments, and with saving in between; calls may raise. No such program changes the styles, anything of the content outside of the body, or the containers of declarations. append_text of an object appends exactly the text, wherever the object is, and changes nothing else. A file that is saved can be opened: the elements of the body are at the same places with the same tags, attributes and plain texts. In particular paragraphs, headings and lists appended to the body of a new text document are in the file, in their order, with their texts, levels, items and style names.", "quantifier": "all programs of these calls on any number of objects, all arguments, all documents that can be opened, all clocks and file systems, all texts (for the file: those XML can hold)", "why_tests_cant": "the histories of calls on the objects of one tree are unbounded", "anchors": ["ezodf/text.py: Span, Paragraph, Heading, Hyperlink, ListHeader, ListItem, List, Section, NumberedParagraph", "ezodf/__init__.py: ezlist", "ezodf/body.py: TextBody.append", "ezodf/base.py: GenericWrapper", "ezodf/document.py: PackagedDocument.save, saveas", "ezodf/document.py: newdoc, opendoc"]}
{"id": "C82", "title": "Variables and user fields survive saving and opening", "statement": "In every document that is made or opened, body.variables and body.userfields give for each declared name the value it has in the content. An assignment under a name changes the declaration and the instances of this name only: the values of all other names, in both containers, are read as before; under an unknown name it raises and changes nothing. A value that the entry takes (user fields: truth values and values that count as true; variables with an instance: all but truth values) is read after the assignment and, when the document is saved and opened, again, where an empty text of a variable is read as None. When a document is saved and opened, all keys are there and every value is read again, with the same exception. Programs with text objects, saves and assignments to other names do not change what a user field reads.", "quantifier": "all documents that can be made or opened, all names and keys, all values, all programs of these calls, all clocks and file systems", "why_tests_cant": "needs all values, names and histories of calls, and the whole way through the file", "anchors": ["ezodf/variables.py: SimpleVariables, UserFields, SimpleVariable, UserField", "ezodf/body.py: GenericBody", "ezodf/document.py: PackagedDocument.save, opendoc"]}
{"id": "C83", "title": "Drawings and presentations that are made by programs survive saving and opening", "statement": "In every drawing and presentation that is made or opened, and in no other document, doc.pages gives the draw:page children of the body, in order. Appending a page makes it the last page, assigning replaces the page that the key means, deleting takes it out with all that is on it, fetching gives the page itself; indices may be negative, names find the first page of this name, wrong keys and objects that are no pages raise and change nothing. Whatever else a program does with pages and text objects, nothing but the content of the body changes in the document. When it is saved and opened, the pages are the same in the same order with the same content, and every key means the same page or raises the same exception. A new document to which named pages with paragraphs, headings and lists are appended has exactly these pages after saving and opening, in this order, with these names and texts.", "quantifier": "all documents that can be made or opened, all programs with pages and text objects, all keys, names and texts that XML can hold, all clocks and file systems", "why_tests_cant": "needs all histories of calls, all trees and the whole way through the file", "anchors": ["ezodf/pagecontainer.py: AbstractPageContainer", "ezodf/pages.py: Pages", "ezodf/drawingpage.py: DrawingPage", "ezodf/presentationpage.py: PresentationPage", "ezodf/body.py: DrawingBody, PresentationBody", "ezodf/document.py: PackagedDocument"]}
{"id": "C84", "title": "A page layout object gives the properties of header and footer", "statement": "PageLayout(element) gives, as header and footer, objects around the header and the footer properties of the page layout as OpenDocument has them (style:header-footer-properties in style:header-style and style:footer-style), whose attributes can be read. What is missing is added and nothing else changes; a layout that has everything is not changed; making the object again gives the same elements and changes nothing. Without new=True a missing style raises KeyError and nothing changes.", "quantifier": "all trees and all page layout elements in them, with any children", "why_tests_cant": "needs all trees, with any of the elements present, missing or repeated", "anchors": ["ezodf/styles.py: BaseStyle._properties, PageLayout, Properties", "ezodf/xmlns.py: subelement"]}
{"id": "C85", "title": "Meta data survive the whole life of a document", "statement": "However often a document is changed, saved, written to bytes or to a stream and opened again, its meta data are at every moment what the statements on them say, and nothing else that is done to the document has an influence on them. A text assigned to a tag is read until the tag is assigned again or cleared; keywords are those that were added and not removed, in order; user tags keep value and type until they are set again or deleted; counts are those assigned last. The number of editing cycles grows by one with each save and not otherwise. An empty text is read as None after the document was opened again. A new document with any meta data of characters that XML can hold can be saved and opened with these data.", "quantifier": "all documents that can be made or opened, all histories of statements on meta data, changes of the other parts, saves (also failing ones) and openings, all texts that XML can hold, all clocks and file systems", "why_tests_cant": "needs all histories of calls, with any number of ways through the file", "anchors": ["ezodf/meta.py: Meta, Keywords, Usertags, Statistic", "ezodf/document.py: PackagedDocument.saveas, save, tobytes, opendoc"]}
{"id": "C86", "title": "Documents that are open at the same time do not influence each other", "statement": "A program may open and make any number of documents and work with them in any order. Whatever it does with the others (text and pages, meta data, other files of the package, names, saving, also when a statement raises), nothing of a document changes: neither its trees nor its attributes, its meta data, its list of parts nor the objects that the program has of it. What the document writes is not changed either, and a document saved later and opened again is the one that was there before, provided that no other document is saved to the file that it was opened from. Saving changes no existing file but the one saved to and its backup.", "quantifier": "all programs with any number of documents, all interleavings of statements, all file systems and libraries", "why_tests_cant": "needs all programs and all interleavings over shared memory, cache and files", "anchors": ["ezodf/document.py: opendoc, newdoc, PackagedDocument", "ezodf/filemanager.py: FileManager.save, _tozip", "ezodf/wrapcache.py: wrap"]}
{"id": "C87", "title": "Objects can be moved between documents", "statement": "The objects of a program can be put into any open document and into any other object, wherever they are. Putting an object into the body (or a page into the pages) of a document puts it there with all that is in it, takes it out of the document that it was in, and changes no other tree. Whatever a program moves, all documents stay in order: styles, content outside of the bodies and declarations of variables and fields are unchanged, and every document can be saved and opened again with what it has then. A program that has no statement with a document and uses no object that is in it changes nothing of it and nothing of what it writes, provided that no document is saved to the file that it was opened from.", "quantifier": "all programs with any number of documents and objects, all interleavings of statements, all file systems and libraries", "why_tests_cant": "needs all programs over shared memory with arbitrary moves between trees", "anchors": ["ezodf/base.py: append, insert, remove, replace", "ezodf/body.py: TextBody.append", "ezodf/pagecontainer.py: append", "ezodf/document.py: opendoc, newdoc, PackagedDocument.save"]}
{"id": "C88", "title": "Tables can stand among the text of a document", "statement": "A program may make tables and put them into the body of a document of any kind, into sections and into other objects, move and remove them there, and get the tables of an opened document from their parents. Whatever it does, the document stays in order (styles, content outside of the body and declarations are unchanged); no statement but a call on a table changes that table; a call on a table, one of its cells, rows or columns has the result and the effect that it has on the table alone, wherever the table is, and changes no element outside of it. The document can be saved and opened again, with the same elements at the same places, and each table that the program had an object of is read again with its name, its size and its cells.", "quantifier": "all programs of text and table statements over one document of any kind, all documents whose tables can be read, all file systems and libraries", "why_tests_cant": "needs all interleavings of moving tables in a tree with changes inside of them", "anchors": ["ezodf/table.py: Table.__init__", "ezodf/base.py: append, insert, remove, replace, get_child", "ezodf/body.py: TextBody.append", "ezodf/xmlns.py: wrap", "ezodf/document.py: PackagedDocument.save, opendoc, newdoc"]}
{"id": "C89", "title": "All objects of one table show the same table", "statement": "A program can have several objects of one table, because get_child and iteration make a new object each time they meet its element. What is changed through one of them is shown by all of them: each object has the same rows, columns and cells as the others at all times, and getting one more object changes nothing.", "quantifier": "all tables in all documents, any number of objects, all sequences of calls through any of them", "why_tests_cant": "needs all tables, all calls and all orders in which the objects are used", "anchors": ["ezodf/xmlns.py: wrap", "ezodf/base.py: get_child, __iter__", "ezodf/table.py: Table.__init__", "ezodf/tablerowcontroller.py: TableRowController.__init__", "ezodf/tablecolumncontroller.py: TableColumnController.__init__"]}
{"id": "C90", "title": "A copy of a table is a table of its own in the document", "statement": "table.copy(newname) in a program with a document makes a new table that is not in the document yet, with the name that was given ('CopyOf' and the old name if none was) in normalised form, and with the content, attributes and size of the table; nothing else in the program changes. Without a usable name it raises and changes nothing. Afterwards the table and its copy are independent: whatever the program does with the document, with copies of copies, and with the cells of both, each cell of each of the two is what the original cell is after the calls that address it in this table; and a table that no statement calls stays as it is.", "quantifier": "all programs over documents of any kind, all tables, names, and sequences of statements and copies", "why_tests_cant": "needs all tables and all interleavings of changes to the table, its copies and the rest of the document", "anchors": ["ezodf/table.py: Table.copy", "ezodf/table.py: Table.__init__", "ezodf/table.py: Table.name"]}
{"id": "C91", "title": "Documents with tables that are open at the same time do not disturb each other", "statement": "A program can open and make any number of documents, work with the text, the sheets and the tables of each in any order, copy tables, also for use in another document, and save any of them at any time. Each statement works with one document; the trees, the objects and the tables of all other documents are exactly the same afterwards. newdoc always succeeds while other documents are open. table.copy for another document makes a table with the content of the first and nothing of it in common: later calls on the one never change the other, in whatever order they come. Saving a document and opening the file again while everything else is open gives one more document with the same body and tables.", "quantifier": "all programs over any number of documents of all kinds, all tables, all interleavings", "why_tests_cant": "needs all numbers of documents and all interleavings of statements with them", "anchors": ["ezodf/document.py: newdoc, opendoc, PackagedDocument", "ezodf/table.py: Table.copy", "ezodf/base.py: GenericWrapper", "ezodf/filemanager.py: FileManager"]}
{"id": "C92", "title": "Tables can be moved between open documents", "statement": "A program with any number of open documents can put any of its objects, also a table that is a sheet of one document or inside of its text, into any other document. The object with all that is in it is then at the new place and gone from the old one: doc.sheets.append makes it the last sheet, doc.body.append of a text puts it before the elements that have to be at the end; all other trees are unchanged. Whatever the program does, every document keeps its frame (everything outside of the body, the declarations at its beginning, its type), all tables stay in order, and no call on one table changes another. The table object keeps working after a move: every cell is what it would be after the same calls in one place. A document with tables from others can be saved and opened again beside all that is open, and shows the same tables.", "quantifier": "all programs over any number of documents, all tables, all moves and interleavings", "why_tests_cant": "needs all numbers of documents and all sequences of moves, calls and copies", "anchors": ["ezodf/base.py: GenericWrapper.append, insert", "ezodf/pagecontainer.py: AbstractPageContainer", "ezodf/body.py: TextBody, SpreadsheetBody", "ezodf/wrapcache.py: _WrapCache"]}
