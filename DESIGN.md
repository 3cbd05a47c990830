# Machine-checked model of ezodf

Subject: T0ha/ezodf at the commit checked out in `/repo` (Python).  The code was read as
text, never run.  This directory holds the properties (`properties.jsonl`), a Lean 4 model
(`lean/Verif/Model`), helper lemmas (`lean/Verif/Proofs`) and the property theorems with
their independent specifications (`lean/Verif/Props`).

## Method

* *Shallow functional model*, one Lean definition per Python function, same branches, same
  order of effects.  Each definition cites file and lines.
* *Exceptions are values* (`Exc`).  Functions that mutate and may raise return the state
  *together with* the result, so "what is left behind after an exception" can be stated.
* *XML trees* are one datatype (`Forest`, first-child / next-sibling, the representation of
  libxml2); every element carries a unique number standing for the identity of the lxml
  proxy, so "the same cell object" and "moved element" can be stated.
* *Names*: tags and attribute keys are written with prefixes (`"table:table-cell"`) instead of
  Clark names; C48 proves that the expansion of prefixed names is injective, which is what
  makes this harmless.
* *Properties refuted by the code*: the negation is proved with a concrete witness (theorem
  name contains `refuted`), and the strongest true variant is proved as `…_partial`.

## Trusted base

* Lean 4.33.0 kernel; axioms used: at most `propext`, `Classical.choice`, `Quot.sound`
  (see the per-theorem list at the end of this file).
* The reading of the Python code in `Model/*` (comments cite the lines).
* The documented behaviour of lxml/libxml2, `zipfile`, `re`, `datetime`, the file system, IEEE
  floats, and of Python's `str`, `list` and `dict`, written down as the primitive definitions of
  `Model/Py.lean`, `Model/Dict.lean`, `Model/Xml.lean`, `Model/XmlTree.lean`, `Model/Float64.lean`
  and the library parts of `Model/Package.lean` and `Model/Time.lean`.
* Libraries that are parameters: their assumed laws are structures named `Lawful` (or fields of the
  parameter, as in `Time.Nd`), and each is shown to be satisfiable.


## Which code is modelled

For every source file: the model files that cite it, how many of its functions are cited, and the functions that are not modelled (trivial constructors and one-line delegations are often covered by the definition that uses them).

| file | model | functions | not modelled |
|---|---|---|---|
| __init__.py | Text, TextProgram | 1 of 1 | - |
| base.py | Base, Cells, Keys, Mix, Mixins, PageProgram, Protection, Table, Text, TextProgram, Variables, Whitespace | 31 of 32 | GenericWrapper.kind |
| body.py | Organizer, Parts, TextProgram, VarProgram | 5 of 5 | - |
| bytestreammanager.py | Package, Whole | 4 of 4 | - |
| cells.py | Cells, Mixins, TableWrite, Text | 21 of 22 | CoveredCell.kind |
| cellspancontroller.py | Table | 11 of 11 | - |
| compatibility.py | Package, Protection, Variables | 1 of 12 | is_string, is_bytes, bytes2unicode, is_stream, is_string, is_bytes, itermap, tobytes, bytes2unicode, is_zipfile, is_stream |
| conf.py | Books, Conf, Mix, Normalizer, Program, Shelf | 10 of 10 | - |
| const.py | Conf, Document, Xmlns | 0 of 0 | - |
| content.py | Document, Parts | 3 of 3 | - |
| document.py | Desk, Document, Fault, Meta, Mix, Package, PageProgram, Parts, Program, TextProgram, Whole | 20 of 21 | _BaseDocument.__init__ |
| drawingpage.py | PageProgram, Protection | 4 of 4 | - |
| filemanager.py | Document, Fault, Package, Whole | 16 of 17 | FileObject.filename |
| manifest.py | Manifest, Package | 4 of 4 | - |
| meta.py | Document, Meta, Whole | 31 of 31 | - |
| nodeorganizer.py | Organizer, TextProgram | 21 of 21 | - |
| nodestructurechecker.py | Organizer | 2 of 2 | - |
| nodestructuretags.py | Tags | 0 of 0 | - |
| observer.py | Observer | 6 of 6 | - |
| pagecontainer.py | PageContainer, Program | 15 of 15 | - |
| pages.py | PageContainer | 1 of 1 | - |
| presentationpage.py | PageProgram, Protection | 1 of 1 | - |
| propertymixins.py | FloatProperty, Mixins, Protection, TextProgram | 11 of 11 | - |
| protection.py | Protection | 1 of 1 | - |
| sheets.py | PageContainer | 1 of 1 | - |
| styles.py | Document, PageLayout, Parts, Styles | 11 of 11 | - |
| table.py | Books, Conf, Keys, Mix, MixCopy, Mixins, Normalizer, Program, Protection, Table, TableCopy, TableWrite, WrapCache | 32 of 32 | - |
| tablecolumncontroller.py | Controllers, Keys, Normalizer, Program, Table | 21 of 21 | - |
| tablenormalizer.py | Normalizer | 17 of 17 | - |
| tablerowcontroller.py | Keys, Normalizer, Program, Table | 20 of 21 | TableCellAccessor.rows |
| tableutils.py | Normalizer, Table, TableUtils | 14 of 14 | - |
| text.py | Mixins, Protection, Text, TextProgram | 19 of 19 | - |
| timeparser.py | Time | 8 of 8 | - |
| variables.py | VarProgram, Variables | 21 of 22 | UserFieldInstance.type |
| whitespaces.py | Text, Whitespace | 21 of 21 | - |
| wrapcache.py | Program, Shelf, WrapCache | 4 of 4 | - |
| xmlns.py | Meta, Mix, Mixins, Organizer, PageContainer, PageLayout, PageProgram, Parts, Styles, Text, VarProgram, Whole, WrapCache, Xmlns | 11 of 11 | - |


## Per property

### C01 Whitespace encoding is lossless

*Modelled*: `Model/Whitespace.lean`: the encoder state machine (whitespaces.py:30-131, counter, stack, flush) and the decoder.
*Proved*: invariant of the encoder loop: decoding output plus pending state gives the consumed prefix; injectivity follows.

*Status*: proved. Theorems: `Ws.C01_decode_encode`, `Ws.C01_encode_injective`. Note: all strings.

### C02 Whitespace encoding survives ODF white-space collapsing

*Modelled*: same.
*Proved*: specification `Spec/Collapse`: a consumer that collapses white space as ODF 1.1 section 5.1.1 says; shape invariant of the emitted fragments. The exclusions of the statement (leading/trailing blank, carriage return) are shown to be necessary (`C02_unprotected_refuted`).

*Status*: proved. Theorems: `Ws.C02_fragments`, `Ws.C02_collapse_safe`, `Ws.C02_unprotected_refuted`.

### C03 append_text appends to the plain text

*Modelled*: `Model/Text.lean`: Span.append_text over arbitrary forests.
*Proved*: plaintext of the result is plaintext ++ text; old children are a prefix; induction over histories.

*Status*: proved. Theorems: `Txt.C03_append_text`, `Txt.C03_append_text_frame`, `Txt.C03_append_text_history`.

### C04 textlen equals the length of plaintext

*Modelled*: textlen / plaintext recursions of text.py.
*Proved*: structural induction; outside the schema (negative text:c) and for list items the two differ (refuted theorems, outside the quantifier of C04).

*Status*: proved. Theorems: `Txt.C04_textlen`, `Txt.C04_clean_append_text`, `Txt.C04_negative_count_refuted`, `Txt.C04_list_item_refuted`. Note: text-level elements with non-negative blank counts; the two exceptions are refuted separately.

### C05 Cell addresses and index pairs correspond one to one

*Modelled*: tableutils.address_to_index.
*Proved*: specification: printer of canonical addresses; bijective base 26.

*Status*: proved. Theorems: `Address.C05_address_roundtrip`, `Address.C05_canonical_unique`, `Address.C05_address_canonical`.

### C06 Exactly the well-formed addresses are accepted

*Modelled*: the regular expression `^([A-Z]+)(\d+)$` after upper, int().
*Proved*: acceptance iff over all ASCII strings; finding: `A0` is accepted and means row -1, other reference types raise NameError.

*Status*: proved. Theorems: `Address.C06_accepted`, `Address.C06_case_insensitive`, `Address.C06_value`, `Address.C06_row_zero_refuted`, `Address.C06_other_reference`.

### C07 iter_cell_range enumerates the rectangle

*Modelled*: iter_cell_range and iter_cell_range_without_start_pos as lists.
*Proved*: sorted, exact membership, first element.

*Status*: proved. Theorems: `Address.C07_range`, `Address.C07_rejects`.

### C08 Row and column bookkeeping always matches the XML tree

*Modelled*: `Model/Table.lean`: TableRowController, TableColumnController, Table over a `Forest` with the two caches of row/column references.
*Proved*: invariant `Inv` (unique ids, rows/columns not nested, caches = document order) preserved by every operation, also by ones that raise; induction over histories (`Hist`). Opened tables satisfy it by `load_spec` (C15-C17).

*Status*: proved. Theorems: `Tbl.C08_bookkeeping`, `Tbl.C08_created`, `Tbl.C08_opened`, `Tbl.C08_is_consistent`, `Tbl.C08_consistent_history`, `Tbl.C08_set_child_refuted`. Note: every history of calls, including ones that raise (reset and clear have to succeed), from every table satisfying the invariant Inv; created and opened tables satisfy it; the histories include changes of cells, rows and columns in place (C76).

### C09 Tables stay rectangular

*Modelled*: same.
*Proved*: `Rect` preserved by successful operations; assigning a cell that is already in the table (excluded: fresh cells only) would break it.

*Status*: proved. Theorems: `Tbl.C09_rectangular`, `Tbl.C09_opened`. Note: all histories of successful calls from a rectangular table, in particular from opened ones; created tables see C19_column_infos; the histories include changes of cells, rows and columns in place (C76).

### C10 Row operations act like list operations on rows

*Modelled*: append/insert/delete rows.
*Proved*: row lists of the tree before and after; indices through the relation `Denotes`.

*Status*: proved. Theorems: `Tbl.C10_append_rows`, `Tbl.C10_insert_rows`, `Tbl.C10_delete_rows`, `Tbl.C10_table_row`. Note: row lists of the tree before and after, indices through Denotes (also negative).

### C11 Column operations act like list operations on every row

*Modelled*: append/insert/delete columns, including the column infos.
*Proved*: per-row relations Appended/Inserted/DeletedCells.

*Status*: proved. Theorems: `Tbl.C11_append_columns`, `Tbl.C11_insert_columns`, `Tbl.C11_delete_columns`. Note: cells of every row and column infos before and after; p is the position among cells, q among column infos (equal when in step).

### C12 Setting one cell changes only that cell

*Modelled*: set_cell through `Table.__setitem__`.
*Proved*: pointwise on `docCell`, frame for rows, columns and the rest of the tree.

*Status*: proved. Theorems: `Tbl.C12_set_cell`. Note: Detached: the new cell shares no identity with the table and contains no row or column element.

### C13 Negative indices address from the end

*Modelled*: the index adjustments of every operation (adjust in get_cell, insert/delete rows/columns, column_info).
*Proved*: equality of the whole effect for index and index - n. False for remove_cell_span (ValueError) and for column operations when column infos and columns are out of step (witnesses). `C13_remove_span_negative_refuted`: for every spanning cell in every table the negative position raises ValueError.

*Status*: partial. Theorems: `Tbl.C13_row`, `Tbl.C13_column`, `Tbl.C13_column_info`, `Tbl.C13_cell`, `Tbl.C13_insert_rows`, `Tbl.C13_delete_rows`, `Tbl.C13_insert_columns`, `Tbl.C13_delete_columns`, `Tbl.C13_remove_span_refuted`, `Tbl.C13_out_of_step_refuted`, `Tbl.C13_remove_span_negative_refuted`. Note: proved for rows, cells, column infos and for columns that are in step with the column infos; false for remove_cell_span and for column operations on tables with fewer column infos than columns (refuted with witnesses).

### C14 A rejected table operation leaves the table unchanged

*Modelled*: all operations with their partial effects before an exception.
*Proved*: false as stated: delete_rows/delete_columns beyond the end delete what is there and then raise, insert_columns can insert cells before the column controller raises, reset clears before it fails (witnesses); the rest proved under `Safe`, and for set_cell_span. `Props/Damage.lean` and `Props/SpansExact.lean` say, for all tables, exactly what every call that violates the property leaves behind (`C14_*_damage`): which rows, cells or spans are gone, and which are as before.

*Status*: partial. Theorems: `Tbl.C14_unchanged_partial`, `Tbl.C14_set_span_partial`, `Tbl.C14_delete_rows_refuted`, `Tbl.C14_delete_columns_refuted`, `Tbl.C14_insert_columns_refuted`, `Tbl.C14_reset_refuted`, `Tbl.C14_delete_rows_damage`, `Tbl.C14_delete_columns_damage`, `Tbl.C14_insert_columns_damage`, `Tbl.C14_append_columns_damage`, `Tbl.C14_reset_damage`, `Tbl.C14_set_span_damage`, `Tbl.C14_remove_span_damage`. Note: false in general (witnesses for delete_rows, delete_columns, insert_columns, reset); proved under the conditions Safe, and for every set_cell_span with a size other than (1, 1).

### C15 Strategy 'all' reproduces the stored grid

*Modelled*: `Model/Normalizer.lean`: the three expand strategies for rows, cells and columns, alignment, the load sequence of Table(xmlnode=…); copies take fresh identities.
*Proved*: specification `Spec/Grid`: run-length decoding `rle`, lookup by position `coverAt`, padding `padded`. Loop lemma `forNodes` over rows/columns of the tree (list of rows before/after, identities stay unique); `load_spec` for all strategies at once.

*Status*: proved. Theorems: `Tbl.C15_grid`, `Tbl.C15_cells`. Note: all stored tables (rows and columns not nested in each other, readable counts >= 1), any maxcount; grid as a list of rows and through get_cell; columns and everything else included.

### C16 Strategies 'all_but_last' and 'all_less_maxcount' have their documented shape

*Modelled*: same.
*Proved*: `load_spec` with the effective counts `lessMax`, `lastOnce`; maxcount 1 raises a KeyError (witness).

*Status*: proved. Theorems: `Tbl.C16_less_maxcount`, `Tbl.C16_all_but_last`, `Tbl.C16_maxcount_one_refused`. Note: all stored tables, all maxcount pairs above 1; maxcount 1 raises KeyError (witness).

### C17 Loading is idempotent and leaves no repetition

*Modelled*: same.
*Proved*: expanders keep nodes with count one (`load_again`): the second load returns the identical tree.

*Status*: proved. Theorems: `Tbl.C17_idempotent`. Note: second load gives the identical tree (elements with identities), any strategy and maxcount > 1.

### C18 Row, column and cell views agree

*Modelled*: row, column, rows, columns, itercells.
*Proved*: all views agree with `docCell`.

*Status*: proved. Theorems: `Tbl.C18_views`, `Tbl.C18_rows`, `Tbl.C18_columns`, `Tbl.C18_itercells`, `Tbl.C18_itercells_cells`.

### C19 Column infos stay in step with the columns

*Modelled*: column controller.
*Proved*: `InStep` preserved by every successful operation.

*Status*: proved. Theorems: `Tbl.C19_column_infos`. Note: ; the histories include changes of cells, rows and columns in place (C76).

### C20 reset and clear give an empty table of the requested size

*Modelled*: reset, clear, constructor.
*Proved*: exact result; the name survives only if it is present and normalised (refuted otherwise). `C20_reset_exact`: reset succeeds exactly if the name has a character that is neither quote nor white space, and the name is kept exactly if it is normalised.

*Status*: partial. Theorems: `Tbl.C20_reset`, `Tbl.C20_clear`, `Tbl.C20_created`, `Tbl.C20_unnamed_refuted`, `Tbl.C20_name_refuted`, `Tbl.C20_reset_exact`. Note: proved for tables with a normalised, non-empty name (all tables created by the API, after any history); false for tables without a name or with a stored name that is not normalised (refuted with witnesses).

### C21 A table copy is equal and independent

*Modelled*: `Model/TableCopy.lean`: deep copy with fresh identities, loading under the configured strategy, name.
*Proved*: `load_again` on the clone; independence: every operation only brings in identities from the supply or of the given cell (`run_grow`, all operations, all states), so two tables stay apart through all interleaved histories; `run_keep`: no operation adds a repetition count. Not modelled: giving a cell of one table to `set_cell` of the other (lxml moves it). `Props/CopyOutcome.lean`, `C21_outcome`: every outcome of `copy` for a table without stored repetitions: it succeeds exactly with a name that is not blank, or without one if the table has a name; otherwise ValueError or TypeError.

*Status*: partial. Theorems: `Tbl.C21_same`, `Tbl.C21_cells`, `Tbl.C21_independent`, `Tbl.C21_created`, `Tbl.C21_opened`, `Tbl.C21_repeated_refuted`, `Tbl.C21_nameless_refuted`, `Tbl.C21_outcome`. Note: equal and independent for every table without stored repetitions and rows of equal length (all created tables after any history without counted cells, all opened ones); false for a table into which a cell with a repetition count was put, and copy() of a table without name raises (both refuted with witnesses).

### C22 set_cell_span covers exactly the rectangle

*Modelled*: cellspancontroller.set_span, cells._set_span/_set_covered.
*Proved*: `setCellSpan_core`: complete case analysis of the call with the resulting cell at every position; `Kept` says content and all other attributes stay. `C22_succeeds` is the converse. Finding: size (1, 1) on an ordinary cell raises KeyError.

*Status*: proved. Theorems: `Tbl.C22_set_span`, `Tbl.C22_succeeds`. Note: every state satisfying Inv; also shows when the call succeeds.

### C23 remove_cell_span undoes set_cell_span

*Modelled*: remove_span.
*Proved*: composition of the two pointwise results; attributes that covering deletes (the two matrix attributes) do not come back (`C23_matrix_refuted`). `C23_undo_exact` gives every cell after the two calls, `C23_undo_iff` the exact condition under which all are as before.

*Status*: partial. Theorems: `Tbl.C23_undo_partial`, `Tbl.C23_no_span`, `Tbl.C23_matrix_refuted`, `Tbl.C23_undo_exact`, `Tbl.C23_undo_iff`. Note: proved for cells without the four attributes that covering removes; false for cells with a matrix attribute (refuted with witness).

### C24 set_cell_span rejects bad ranges without effect

*Modelled*: _check_pos_and_size, _has_cell_range_spanned_cells.
*Proved*: NameError instead of IndexError/ValueError because `tostr` is not imported in cellspancontroller.py (refuted for all tables); rejection without effect proved for all four kinds.

*Status*: partial. Theorems: `Tbl.C24_rejects_partial`, `Tbl.C24_negative_refuted`, `Tbl.C24_size_refuted`. Note: all four kinds of bad arguments are rejected without effect; the first two raise NameError instead of IndexError/ValueError (tostr is not imported), refuted for all tables.

### C25 Spans never overlap

*Modelled*: histories of set/remove.
*Proved*: invariant `SpanInv`; false as stated because covered cells are not checked (`C25_overlap_refuted`), proved for histories that avoid covered cells. `Props/SpansOverlap.lean`: the exact condition. `C25_step`: a successful `set_cell_span` of any size on a table without overlaps leaves none if and only if no cell of its rectangle was covered; `C25_exact`: in a history of span calls, failing ones included, there is no overlap at any time if and only if every successful `set_cell_span` met no covered cell.

*Status*: partial. Theorems: `Tbl.C25_no_overlap_partial`, `Tbl.C25_overlap_refuted`, `Tbl.C25_step`, `Tbl.C25_exact`. Note: false: a rectangle with covered cells is accepted (witness); proved for histories that set no span over a covered cell, including failing calls.

### C26 Cell values read back as written

*Modelled*: `Model/Cells.lean`: Cell.set_value with its checks, conversion, clearing and storing; value, value_type; constructor. Python floats are a parameter (`FloatLib`, laws in `FloatLib.Lawful`).
*Proved*: evaluation of both paths (content, attribute) on an arbitrary tree; stored attributes compared with the ODF table `odfAttr`; text goes through the white space theorems C01/C03. Refuted for values that do not fit the type. `C26_exact` says what is read after every accepted value, type and currency, including texts that denote no number.

*Status*: partial. Theorems: `Cells.C26_text`, `Cells.C26_as_text`, `Cells.C26_element`, `Cells.C26_number`, `Cells.C26_boolean`, `Cells.C26_boolean_read`, `Cells.C26_date_time`, `Cells.C26_numeric_text`, `Cells.C26_constructor`, `Cells.C26_mismatch_refuted`, `Cells.C26_boolean_text_refuted`, `Cells.C26_exact`. Note: every previous cell state; proved for values that fit the type (text, elements, numbers, booleans, date/time texts, numeric texts); false for a text that is no number given as a float (accepted, then reading raises) and for texts given as boolean.

### C27 Changing a cell value leaves no trace of the old value and keeps unrelated properties

*Modelled*: same.
*Proved*: case analysis `setValue_cases`; "no trace" stated as non-interference between two arbitrary previous cells. `C27_currency_exact`, `C27_currency_iff`: the currency after every call and the exact condition for the clause on it; `C27_left`: the value attributes left on any element.

*Status*: partial. Theorems: `Cells.C27_kept`, `Cells.C27_kept_properties`, `Cells.C27_no_trace`, `Cells.C27_conform`, `Cells.C27_history`, `Cells.C27_currency_refuted`, `Cells.C27_currency_partial`, `Cells.C27_stray_refuted`, `Cells.C27_currency_exact`, `Cells.C27_currency_iff`, `Cells.C27_left`. Note: no trace of the old value (non-interference, all cells ODF allows, all histories) and unrelated properties kept; the currency clause is false (witness) and proved when no currency was left over.

### C28 A rejected set_value leaves the cell unchanged

*Modelled*: same, with the state after each exception.
*Proved*: iff for failing calls; the empty text is refuted.

*Status*: partial. Theorems: `Cells.C28_rejected_partial`, `Cells.C28_empty_text_refuted`, `Cells.C28_empty_text`. Note: exact set of failing calls; unchanged for all of them except the empty text for a non-string type, which empties the cell and then raises.

### C29 Text in string cells

*Modelled*: append_text, display_form setter, plaintext.
*Proved*: decomposition of the children at the last/first paragraph; text lemmas of C03.

*Status*: proved. Theorems: `Cells.C29_append_grows`, `Cells.C29_append_new`, `Cells.C29_append_rejects`, `Cells.C29_display_form`, `Cells.C29_display_form_reads`. Note: all cells and texts.

### C30 Sheets behave like an ordered list with names

*Modelled*: `Model/PageContainer.lean`: all of `AbstractPageContainer`, on the world of C57 and the heap of C32. Loading a table when its wrapper is built is left out (it changes only the inside of the table).
*Proved*: Specification: `chosen` (children with the tag), `others`, `lookup` (key to element). Each operation from the lxml theorems of C57 and filtering; `C30_history` folds `Op.spec`.

*Status*: proved. Theorems: `Pages.C30_len`, `Pages.C30_iter`, `Pages.C30_get`, `Pages.C30_append`, `Pages.C30_refused`, `Pages.C30_set`, `Pages.C30_swap`, `Pages.C30_del`, `Pages.C30_history`, `Pages.C30_sheets`, `Pages.C30_pages`. Note: all bodies, keys and sheets, all histories; a body lies in no sheet.

### C31 Sheet index and insert agree with sheet access

*Modelled*: same, and `GenericBody.__init__` with `subelement`.
*Proved*: False: witness `C31_refuted` is a new document. `C31_index_partial`/`C31_insert_partial`: if and only if conditions for all documents. `Props/SheetsIndex.lean`, `C31_declared_refuted`: the negation for all documents whose body starts with something else than a sheet, as the body of a new document does.

*Status*: partial. Theorems: `Pages.C31_index_partial`, `Pages.C31_insert_partial`, `Pages.C31_refuted`, `Pages.C31_declared_refuted`. Note: false for every new document: index and insert count all children of the body, which start with the declarations; exact conditions proved.

### C32 Access to a sheet always yields the same object

*Modelled*: `Model/WrapCache.lean`: `_WrapCache`, keyed by the address of the proxy; proxies are created and destroyed, addresses are used again; the allocator is an arbitrary function that returns an address not in use.
*Proved*: Invariant `Inv`: a cached wrapper keeps its proxy alive, so its address stays its own. `C32_same`: all objects a program gets in a history.

*Status*: proved. Theorems: `Pages.C32_same`, `Pages.C32_again`, `Pages.C32_uncached`, `Pages.C32_clear`, `Pages.C32_remove`. Note: all histories over any number of documents, any allocator that does not hand out memory in use; wrapping without the cache is excluded (C32_uncached shows why).

### C33 Reordering body children is a stable, idempotent permutation

*Modelled*: nodeorganizer.reorder.
*Proved*: list level, polymorphic in the tag type: stable sort by rank.

*Status*: proved. Theorems: `Org.C33_reorder`, `Org.C33_text_tables`, `Org.C33_spreadsheet`, `Org.C33_spreadsheet_content`.

### C34 The prelude (epilogue) block is the longest ordered prefix (suffix)

*Modelled*: PreludeTagBlock / EpilogueTagBlock.
*Proved*: maximality over all prefixes/suffixes.

*Status*: proved. Theorems: `Org.C34_prelude`, `Org.C34_epilogue`, `Org.C34_borders`, `Org.C34_tags`.

### C35 Appending to a text body keeps the epilogue last

*Modelled*: TextBody.append, GenericBody.__init__.
*Proved*: insert before the longest ordered epilogue suffix; histories. Finding: opening a document without declarations puts them behind the epilogue.

*Status*: proved. Theorems: `Org.C35_append`, `Org.C35_append_history`, `Org.C35_open_unchanged`, `Org.C35_open_then_append_refuted`. Note: holds for the body as it is when append is called; opening a document without declarations puts them behind the epilogue (refuted theorem).

### C36 Structure check is exact

*Modelled*: NodeStructureChecker.is_valid.
*Proved*: iff.

*Status*: proved. Theorems: `Org.C36_is_valid`, `Org.C36_text_body`, `Org.C36_stream`, `Org.C36_paged`.

### C37 Tag-relative insert positions keep the block ordered

*Modelled*: insert_position_before/after with tag, tag_info.
*Proved*: false in general (position 0 when the tag and its successors are absent); exact condition proved; tag_info exact for both kinds of blocks.

*Status*: partial. Theorems: `Org.C37_before_partial`, `Org.C37_after_partial`, `Org.C37_epilogue_after_partial`, `Org.C37_before_refuted`, `Org.C37_after_refuted`, `Org.C37_tag_info`, `Org.C37_epilogue_tag_info`, `Org.C37_unknown_tag`. Note: false in general (position 0 when the tag and its successors are absent); the exact condition is proved.

### C38 The manifest is a map from path to media type

*Modelled*: `Model/Manifest.lean`: children of the manifest element as a list of elements.
*Proved*: history = fold of the abstract map `specStep`; per-path sublists of the children. Needs no duplicate paths at the start (two entries of one path: remove takes one).

*Status*: proved. Theorems: `Manifest.C38_map`, `Manifest.C38_once`, `Manifest.C38_last_add`, `Manifest.C38_last_remove`, `Manifest.C38_others`, `Manifest.C38_itself`. Note: all histories from any manifest without duplicate paths; the version attribute is covered too.

### C39 Saving keeps every package member

*Modelled*: `Model/Package.lean`: `FileManager.register`, `FileObject.tobytes`, `_tozip`, `_copy_zip_to`, `_copy_from_zip_to_zip`, `tobytes`. A zip file is its list of members; XML serialisation and the compression are parameters (`Lib`); every `writestr` may fail (`sink`).
*Proved*: `C39_first`: the first member is the stored mimetype. `C39_parts`: each registered part occurs exactly once with the bytes it has now (an independent `currentBytes`). `C39_rest`: the remaining members are those of the opened package whose names are not registered, in their order, with the content that reading the name gives. `C39_unique`: names are unique if they were. `C39_succeeds`: it does not fail if the parts can be written.

*Status*: proved. Theorems: `Package.C39_first`, `Package.C39_parts`, `Package.C39_rest`, `Package.C39_unique`, `Package.C39_succeeds`. Note: all packages, all sets of registered parts, all file systems; C39_succeeds: the save succeeds if all parts can be written.

### C40 No crash point of save loses the document

*Modelled*: `FileManager.save`, `tmpfilename`, `ByteStreamManager.save`, `FlatXMLDocument._saving_routine`, `os.remove`, `os.rename`; the disc is a function from paths to contents and every change is appended to a log (the crash points), the temporary file is written in arbitrary pieces.
*Proved*: By case analysis on the states of the log (`save_states`). Refuted for the byte-stream manager (truncates the target first), for flat XML without backup and for the clash of the temporary name with the target; `C40_flat_backup` covers flat XML with backup.

*Status*: partial. Theorems: `Package.C40_crash`, `Package.C40_backup`, `Package.C40_others`, `Package.C40_done`, `Package.C40_free`, `Package.C40_flat_backup`, `Package.C40_stream_refuted`, `Package.C40_flat_refuted`, `Package.C40_clash_refuted`. Note: proved for FileManager.save at every crash point (also while the temporary file is being written) and for flat XML with backup; false for ByteStreamManager.save, for flat XML without backup, and when the temporary name equals the target name (witnesses).

### C41 Repeated saves preserve the package

*Modelled*: As C39/C40, plus histories (`Op`, `run`) of registrations, edits, manifest edits, saves and `tobytes`, including failing ones.
*Proved*: Invariant `Keeps`: the extra members of the current source are those of the opened package (with the content that reading gives). `C41_saves` combines it with C39 for the last save. `C41_unique`: with unique names nothing is normalised.

*Status*: proved. Theorems: `Package.C41_saves`, `Package.C41_current`, `Package.C41_unique`. Note: all histories of registrations, edits, manifest edits, saves to files and streams and tobytes, including failing ones.

### C42 A failed save can be repeated

*Modelled*: As C39.
*Proved*: Refuted: `C42_lost` (for all documents: a part that cannot be written loses the mimetype entry) and `C42_later` (then every save raises KeyError), witness `C42_refuted`. `C42_copy_partial`: failures after the parts leave the document as it is.

*Status*: partial. Theorems: `Package.C42_lost`, `Package.C42_later`, `Package.C42_refuted`, `Package.C42_copy_partial`. Note: false: a failing part loses the mimetype entry, every later save raises KeyError (C42_lost for all documents, witness); holds for failures while copying the other members.

### C43 Every save increments the editing cycles by one

*Modelled*: `Model/Meta.lean`: OfficeDocumentMeta on the children of office:meta with node identities; save as far as it concerns the meta data (outcome of the routine is a parameter).
*Proved*: all operations are simulated by an abstract state `Abs` (`Spec/Meta`): tags, keywords, user tags, counts; `abs_step`, `abs_run`.

*Status*: proved. Theorems: `Meta.C43_save`, `Meta.C43_saves`, `Meta.C43_empty`. Note: all meta elements, any other use of the meta data between the saves; an entry without text makes every save raise TypeError (C43_empty gives the exact outcome).

### C44 Meta entries are independent variables

*Modelled*: same.
*Proved*: frame per operation (`Frame`: nodes with other tags unchanged); `C44_history` is the simulation.

*Status*: proved. Theorems: `Meta.C44_set`, `Meta.C44_unset`, `Meta.C44_clear`, `Meta.C44_history`. Note: all meta elements, all histories of all operations of meta.py against an abstract state.

### C45 Keywords behave like a set

*Modelled*: Keywords.
*Proved*: specification `kwSpec`/`kwHolds` over histories.

*Status*: proved. Theorems: `Meta.C45_iter`, `Meta.C45_contains`, `Meta.C45_frame`. Note: all histories of all operations of meta.py.

### C46 User tags behave like a typed dictionary

*Modelled*: Usertags.
*Proved*: specification: function from names to value and type (`uSpec`); read, typeof, contains, del and iteration expressed through it. Stored duplicates refuted. `Props/MetaUserExact.lean`: `C46_exact`: the user tags behave as a dictionary in all histories if and only if the document stores no name twice; `C46_delete`: in any document a deletion removes exactly one entry of the name.

*Status*: partial. Theorems: `Meta.C46_history_partial`, `Meta.C46_read`, `Meta.C46_iter_partial`, `Meta.C46_duplicates_refuted`, `Meta.C46_delete`, `Meta.C46_exact`. Note: all histories for documents that store no name twice (kept by every history); false for stored duplicates (del leaves the second, witness).

### C47 Statistics read back as written

*Modelled*: Statistic.
*Proved*: `pyInt_intStr`; iteration compares names in Clark notation; stored non-numbers refuted. `C47_iter_exact` (`Props/MetaUserExact.lean`): in any document iteration yields the stored entries one for one exactly if all values are numbers, and raises ValueError otherwise.

*Status*: partial. Theorems: `Meta.C47_set`, `Meta.C47_zero`, `Meta.C47_history`, `Meta.C47_iter_partial`, `Meta.C47_iter_history`, `Meta.C47_iter_refuted`, `Meta.C47_iter_exact`. Note: everything but iteration over stored non-numeric entries, which raises ValueError (witness); numeric statistics stay numeric through all histories.

### C48 Namespace expansion does not depend on the cache

*Modelled*: `Model/Xmlns.lean`: the three dictionaries of _XMLNamespaces, the namespace tables of const.py.
*Proved*: invariant `CacheOk`; answers as a function of the registrations of the history (`lastUri`), so independent of the calls; injectivity from distinct URIs without closing brace (checked over the whole table).

*Status*: proved. Theorems: `Xmlns.C48_prefixed`, `Xmlns.C48_clark`, `Xmlns.C48_malformed`, `Xmlns.C48_cache`, `Xmlns.C48_idempotent`, `Xmlns.C48_injective`, `Xmlns.C48_standard`. Note: all histories of CN and register_namespace from any initial namespaces; malformed names raise ValueError, the empty name IndexError.

### C49 Document types and mimetypes correspond

*Modelled*: `Model/Document.lean`: the mimetype tables of const.py, `opendoc`, `__detect_mime_type`, `newdoc`, `_new_doc_from_template`, `PackagedDocument.__init__`, `get_xml_element`, `os.path.splitext`. Libraries (`DLib`): UTF-8 decoding, root tag of an XML file, bytes of a part. Wrapper objects of the body are not part of this model.
*Proved*: `C49_tables` (both directions), `C49_new`, `C49_creatable` (iff, for all strings), `C49_open`/`C49_opens` (which mimetype, and when opening succeeds), `C49_template`/`C49_template_opens`. Refuted: six types cannot be created; the file extension is never used.

*Status*: partial. Theorems: `Document.C49_tables`, `Document.C49_new`, `Document.C49_creatable`, `Document.C49_create_refuted`, `Document.C49_open`, `Document.C49_opens`, `Document.C49_extension_refuted`, `Document.C49_template`, `Document.C49_template_opens`. Note: all types, all packages; false: six documented types (odf otf odm oth otc oti) raise KeyError in newdoc, and the fallback to the file extension never succeeds (the extension keeps its dot); exact set of creatable types proved.

### C50 Broadcasts reach exactly the subscribers

*Modelled*: `Model/Observer.lean`: `subscribe`, `unsubscribe`, `broadcast`, and the death of an object as an operation on the weak sets. Objects are compared by identity, their attributes do not change, handlers do not use the observer. Truth of `root` is a flag (an lxml element without children is false).
*Proved*: Specification `subscribed`: the last relevant operation decides. Invariant: the weak set of an event has no repetitions and holds exactly the subscribed objects (`run_members`). `C50_broadcast_partial` counts the calls; `C50_errors` states when subscribing and unsubscribing fail. Refuted: childless root, raising handlers. `C50_at_most`: with any listeners, also such as raise, only live subscribers are called, each at most once; `C50_count`: the number of listeners. `Props/ObserverOutcome.lean`, `C50_outcome`: with any listeners a broadcast succeeds exactly if no live subscriber makes it fail (`Fails`), otherwise it raises what one of them raises; if it succeeds, exactly the live subscribers that it is for (`Reached`) have been called, each once.

*Status*: partial. Theorems: `Observer.C50_broadcast_partial`, `Observer.C50_errors`, `Observer.C50_childless_refuted`, `Observer.C50_raise_refuted`, `Observer.C50_count`, `Observer.C50_at_most`, `Observer.C50_outcome`. Note: all histories of subscribe, unsubscribe, destruction and broadcast; false: a root element without children counts as false and reaches everybody, and a handler that raises keeps the others from being called.

### C51 Durations survive a format/parse round trip

*Modelled*: `duration_to_string`, `get_time` (with float division), `%d`/`%02d`/`%06d`, and everything of C53. A timedelta is its number of microseconds.
*Proved*: `formatted_eq`: what is written is a string of the grammar with known parts; then C53. Negative durations: `C51_negative_refuted` for all of them.

*Status*: partial. Theorems: `Time.C51_roundtrip_partial`, `Time.C51_negative_refuted`. Note: all durations that are not negative, resolution 100 microseconds; false for every negative duration: the written text is rejected.

### C52 Dates and date-times survive a format/parse round trip

*Modelled*: `parse`, `__str__`, `datetime.strptime` (the patterns of `_strptime.TimeRE` as backtracking matchers, whole text, valid calendar date), `strftime` with `%Y` as parameter.
*Proved*: First matches of each pattern on formatted numbers (`reY_at`, …), composed by `seq_head`. `C52_reformat`: every parsed string.

*Status*: partial. Theorems: `Time.C52_date`, `Time.C52_datetime`, `Time.C52_reformat`, `Time.C52_year_refuted`, `Time.C52_unpadded_partial`, `Time.C52_calendar`, `Time.C52_kind`, `Time.C52_object_partial`, `Time.C52_str`. Note: all dates and date-times where strftime pads years to four digits; without padding (glibc) all from year 1000 on, and false for every earlier year.

### C53 Duration parser accepts exactly the documented grammar and sums its parts

*Modelled*: `duration_matcher` as backtracking matcher, `clean`, `float()` as correctly rounded binary64 (`Model/Float64.lean`, defined, not assumed), `timedelta` as CPython computes it (`accum`, `delta_new`). `\d` is a parameter table that is fixed on ASCII.
*Proved*: `match_sound`/`match_complete` against the grammar `render`; `Stands`: whole numbers are exact up to 2**53 and otherwise large; `timedelta_frac`: error bound; `timedelta_exact`: unique nearest integer. `F64.round_nearest` and `F64.round_overflow` show that the definitions of `Model/Float64.lean` are rounding to a nearest binary64 number with ties to even, and infinity exactly where IEEE 754 has it.

*Status*: partial. Theorems: `Time.C53_accepts_partial`, `Time.C53_sum`, `Time.C53_sum_micros`, `Time.C53_sum_partial`, `Time.C53_newline_refuted`, `Time.C53_digits_refuted`, `Time.C53_overflow_refuted`, `Time.C53_precision_refuted`, `F64.round_nearest`, `F64.round_overflow`. Note: all strings, with binary64 arithmetic; ValueError exactly outside the grammar, up to a final newline and non-ASCII digits (false there); exact sum without fraction or with up to six digits below 2**32 seconds, error bound otherwise; OverflowError from 10**9 days on.

### C54 Variables read back as written and do not interfere

*Modelled*: `Model/Variables.lean`: all of variables.py on the world of C57 (nodes changed in place), `GenericWrapper.get_attr`/`set_attr`/`get_bool_attr`/`set_bool_attr`. Floats as in C26. Names with an apostrophe make another path expression and are modelled as an error.
*Proved*: Specification: `IsInstance` (tag, name, same tree, below the root), `Only` (what may have changed), `written` (text and type). Each assignment is one map over the world (`simpleSet_eq`, `fieldSet_eq`), histories are compositions (`run_eq`). `C54_container`: dictionary of the declarations. Refuted in six ways, four of them for all documents.

*Status*: partial. Theorems: `Vars.C54_simple_set`, `Vars.C54_simple_value`, `Vars.C54_simple_read_partial`, `Vars.C54_field_set_partial`, `Vars.C54_history_partial`, `Vars.C54_container`, `Vars.C54_bool_refuted`, `Vars.C54_uninstanced_refuted`, `Vars.C54_falsy_refuted`, `Vars.C54_field_instances_refuted`, `Vars.C54_clash_refuted`, `Vars.C54_parts_refuted`, `Vars.C54_shown`. Note: false: True reads back False, variables without instance cannot be read, zero and empty text are refused by user fields, instances of user fields are never updated, same-named fields and variables interfere, other document parts are not updated; the rest proved for all documents and histories. Names with an apostrophe excluded.

### C55 Bounded integer, boolean and visibility properties

*Modelled*: `Model/Mixins.lean`: getters, setters, deleters by kind, and the property lists of the classes that use them.
*Proved*: `read_write` per kind, independence from distinct attribute names (checked over the class lists), history = fold of `specStep`. Refuted for start_value: its getter does not bound what a document stores. `C55_stored` gives the attribute that each assignment writes, `C55_read` the reading of every stored attribute, `C55_limits` the classes with a limit. `Model/FloatProperty.lean`, `C55_float`: float properties (no class of the library has one).

*Status*: partial. Theorems: `Mixins.C55_limit`, `Mixins.C55_integer`, `Mixins.C55_start_value`, `Mixins.C55_boolean`, `Mixins.C55_visibility`, `Mixins.C55_independent`, `Mixins.C55_history`, `Mixins.C55_number_frame`, `Mixins.C55_start_value_refuted`, `Mixins.C55_stored`, `Mixins.C55_read`, `Mixins.C55_limits`, `Mixins.C55_float`. Note: all kinds of properties and all classes, histories of assignments and deletions; false only for start_value read from a stored document (the getter has no bound, witness).

### C56 Style containers behave like dictionaries

*Modelled*: `Model/Styles.lean`: `Container` with its cache (elements put there by reading, objects put there by assigning) on the world of C57; `wrap` as far as styles are concerned.
*Proved*: Invariant `Agrees`: cached elements are the first children with the name. `C56_set_partial` uses the append and replace theorems of C57; `C56_history_partial` folds `Op.spec`. Refuted for every assignment (`C56_assigned_refuted`) and every page layout (`C56_layout_refuted`).

*Status*: partial. Theorems: `Styles.C56_get_partial`, `Styles.C56_set_partial`, `Styles.C56_history_partial`, `Styles.C56_assigned_refuted`, `Styles.C56_layout_refuted`. Note: false: after any assignment the name can neither be read (AttributeError) nor assigned again (TypeError), page layouts can never be read; names not assigned before and all histories proved.

### C57 Wrapped elements behave like lists of their children

*Modelled*: `Model/Lxml.lean` (the documented behaviour of lxml elements that base.py relies on: moving, indices, refusal of cycles, tails) and `Model/Base.lean` (`GenericWrapper`). A world is the list of all trees a program holds, nodes have identities.
*Proved*: Specification: `children`, `content`, `tops` (functions of a node) and `Below`; `Same`/`Moved`/`Replaced`/`Removed` say what changed and that everything else is as before. Each operation from one lemma about `Forest.subst` (`subst_all`); `C57_history`: no history of operations loses or duplicates a node. Refuted: `insert` with an index below `-len` appends. `Props/BaseExact.lean`: `C57_insert_left`: an index before the start makes the element the last child, in every tree; `C57_insert_exact`: the result is that of Python lists if and only if the index is not before the start or there are no children.

*Status*: partial. Theorems: `Base.C57_len`, `Base.C57_get`, `Base.C57_index`, `Base.C57_append`, `Base.C57_insert_partial`, `Base.C57_insert_own`, `Base.C57_insert_refuted`, `Base.C57_insert_before`, `Base.C57_insert_before_self`, `Base.C57_replace`, `Base.C57_set`, `Base.C57_remove`, `Base.C57_delete`, `Base.C57_clear`, `Base.C57_cycle`, `Base.C57_history`, `Base.C57_root`, `Base.C57_find`, `Base.C57_insert_left`, `Base.C57_insert_exact`. Note: all trees, indices and elements, all histories; false only for insert with an index below -len, which appends instead of inserting at the start.

### C58 Lists built from items read back in order

*Modelled*: ezlist, header setter.
*Proved*: construction lemma.

*Status*: proved. Theorems: `Txt.C58_ezlist`, `Txt.C58_set_header`, `Txt.C58_set_header_rejects`.

### C59 Sheet names are normalised

*Modelled*: Table.name setter, normalize_sheet_name.
*Proved*: string lemmas.

*Status*: proved. Theorems: `Tbl.C59_assign`, `Tbl.C59_reject`, `Tbl.C59_accept`, `Tbl.C59_idempotent`.

### C60 A saved package passes the package check

*Modelled*: `check_zipfile_for_oasis_validity` on the bytes of the zip file, on top of the package model; `Lib.Lawful`/`DLib.Lawful` state what is assumed of zipfile, lxml and UTF-8 (`lawful_exists` shows that this can be met).
*Proved*: Invariant over histories: registered parts (`partAfter`), the entries of the manifest (`run_manifest`); `check_written` computes the check. Opened manifests with two root entries: `C60_twice` (always false), witness `C60_refuted`.

*Status*: partial. Theorems: `Document.C60_saved`, `Document.C60_bytes`, `Document.C60_new`, `Document.C60_twice`, `Document.C60_refuted`. Note: all documents and histories whose opened manifest lists the root at most once, by file-entry elements; false otherwise (add edits the first entry, the check reads the last; witness).

### C61 Style attributes read back as written

*Modelled*: `BaseStyle.__getitem__`, `__setitem__` and the attribute maps.
*Proved*: `C61_read_partial`: all keys of all classes. `C61_write_refuted`: assigning changes nothing, for all inputs.

*Status*: partial. Theorems: `Styles.C61_read_partial`, `Styles.C61_keys_partial`, `Styles.C61_write_refuted`, `Styles.C61_refuted`. Note: false: assigning is a no-op for every style, key and value; reading proved for all keys.

### C62 A table written to a file and read again shows the same grid

*Modelled*: The models of C08 to C21. Writing and parsing XML is the relation `SameContent` (same trees, other element identities); the parser is trusted to produce it.
*Proved*: `Life`: created, opened, called, read again. Invariant: bookkeeping (`Inv`), no repetition count anywhere (`AllE Once`), rows of equal length. For opened tables the invariant comes from the grid of C15/C16 (`opened_once`), under `Tidy`: repetition counts only at rows, cells and columns. `C62_repeated_refuted`: the condition on given cells is needed. Stored tables may state repetition counts of 1; `reread_file`: a table that is written and read again shows the same cells.

*Status*: proved. Theorems: `Tbl.C62_reread`, `Tbl.C62_opened`, `Tbl.C62_repeated_refuted`. Note: Life: creation, opening, all histories of successful calls, writing and reading, in any order; C62_repeated_refuted shows that the condition on given cells is needed; the histories include changes of cells, rows and columns in place (C76).

### C63 Opening a document adds missing frame elements and changes nothing else

*Modelled*: `Model/Parts.lean`: OfficeDocumentStyles, OfficeDocumentContent, the body classes, `subelement`, the tree part of `PackagedDocument.__init__`, on the world of C57. The set-up of meta.xml is in `Model/Meta.lean` and not part of these trees.
*Proved*: Specification `Ext W W' add`: old nodes, contents and orders kept, the children of `q` get bare new elements with the tags `add q`. One lemma about adding a last child (`addLast`), composition (`Ext.trans`). `C63_document` gives `add` exactly; `C63_always` covers every outcome. `C63_new` (`Props/NewTree.lean`): a new document in any memory, with what its body has.

*Status*: proved. Theorems: `Parts.C63_styles`, `Parts.C63_content`, `Parts.C63_body`, `Parts.C63_document`, `Parts.C63_complete`, `Parts.C63_again`, `Parts.C63_wrong_root`, `Parts.C63_always`, `Parts.C63_unknown_type`, `Parts.C63_new`. Note: containers of declarations with other children raise AttributeError (hypothesis Declared; C63_always holds without it).

### C64 Frame elements stand in the order of the schema

*Modelled*: same.
*Proved*: `C64_new_partial`, `C64_stored_partial` from the exact additions of C63. Refuted by a content.xml that has a body only. `Props/PartsOrder.lean`, `C64_exact`: the exact condition: after the set-up of a document, stored or new, the frame elements of a part are in order if and only if those that were there before are a beginning of the frame.

*Status*: partial. Theorems: `Parts.C64_new_partial`, `Parts.C64_stored_partial`, `Parts.C64_refuted`, `Parts.C64_exact`. Note: new parts and parts whose stored frame elements are a beginning of the frame are in order; false for other stored parts.

### C65 inject_style makes a style available under its name

*Modelled*: `inject_style`, `fake_element` (the parsed nodes are given), `Container` of C56.
*Proved*: `C65_added` from the effect of `append` on all nodes; names: `Injected.first`, then C56. Refuted for all names in use, all page layouts, all flat documents.

*Status*: partial. Theorems: `Parts.C65_added`, `Parts.C65_document`, `Parts.C65_read_partial`, `Parts.C65_taken_refuted`, `Parts.C65_layout_refuted`, `Parts.C65_empty`, `Parts.C65_flat_refuted`. Note: the tree part holds for all styles except page layouts; reading by name if the name is new; false for names in use, page layouts and flat documents.

### C66 Flat documents can be created, opened and opened again

*Modelled*: `FlatXMLDocument.__init__`, `_setup`, `get_application_body`; without the inside of the meta element.
*Proved*: As C63. `C66_reread_refuted`: for all created documents, because the root never gets office:mimetype.

*Status*: partial. Theorems: `Parts.C66_new_partial`, `Parts.C66_open_partial`, `Parts.C66_complete`, `Parts.C66_reread_refuted`, `Parts.C66_root_refuted`, `Parts.C66_types_refuted`. Note: creating and opening proved for types with a body tag; no flat document created by the library can be opened again; wrong roots raise AttributeError; some known types cannot be created.

### C67 Protection of tables and sections

*Modelled*: `Model/Protection.lean`: the properties `protected` of tables and sections, `random_protection_key` (the sample is given), `set_attr`, `set_bool_attr`, `tostr` of a list.
*Proved*: Computation of the two branches. `C67_key_refuted`: what is stored is the text of the Python list, not the 12 characters, for every sample. `C67_unprotect_refuted`: the key stays.

*Status*: partial. Theorems: `Protection.C67_reads`, `Protection.C67_frame`, `Protection.C67_table`, `Protection.C67_section`, `Protection.C67_key`, `Protection.C67_key_refuted`, `Protection.C67_unprotect_refuted`. Note: the flag reads back and nothing else changes; the stored key is the text of a Python list, not the 12 characters, and stays when protection is switched off.

### C68 New sections and pages have the given attributes

*Modelled*: `Section.__init__`, `DrawingPage.__init__`, the properties `name`.
*Proved*: `C68_section`, `C68_rename` as stated; `C68_page_partial` for names that are not empty; `C68_page_refuted`: a page with the empty name cannot be made (ValueError), unlike a section.

*Status*: partial. Theorems: `Protection.C68_section`, `Protection.C68_page_partial`, `Protection.C68_page_refuted`, `Protection.C68_rename`. Note: proved for sections and for pages with a name; a page with an empty name is refused.

### C69 Saving a document and opening the file gives the same document

*Modelled*: `Model/Whole.lean` joins the models of the package (C39 to C41), the document classes (C60), the trees (C63) and the meta data (C42 to C44). Writing and parsing XML is an arbitrary library with the laws `XLib.Lawful`: what was written is read again (`data t' = shape t`), new nodes have new identities, no file is empty. Comments, processing instructions and namespace declarations are not part of the trees; names are ASCII.
*Proved*: `Lives`: opened or created, trees exchanged for any with the frame elements in place, meta data changed, files registered, saved (with or without success). Invariant `Good`. `C69_reopen` follows the whole way: bytes of the five files (`saved_parts`), detection, checks of the roots, attributes of the document (`docrefs_shape`, `C63_complete`), meta data (`metaInit_reread`). `C69_new`: no condition but a working disk. `C69_grid` joins C62. `C69_empty_refuted`: for the trees themselves the claim is false. `xlib_exists`: the laws can be met. `C69_name`: the name of an opened document and the refusal to save a nameless one. `newIn_ok`: a new document can be made in any memory.

*Status*: proved. Theorems: `Whole.C69_reopen`, `Whole.C69_frame`, `Whole.C69_metaData`, `Whole.C69_members`, `Whole.C69_sheets`, `Whole.C69_sheetnames`, `Whole.C69_grid`, `Whole.C69_saves`, `Whole.C69_new`, `Whole.C69_empty_refuted`, `Whole.xlib_exists`, `Whole.C69_texts`, `Whole.C69_names`, `Whole.C69_name`, `Whole.newIn_ok`. Note: relative to XML libraries that read again what they wrote (XLib.Lawful; such libraries exist, xlib_exists); an empty text is read as no text (C69_empty_refuted); comments, processing instructions and namespace declarations are not in the trees; the histories of a document include setting the name.

### C70 Attributes and texts set through a wrapped element read back

*Modelled*: `Model/Protection.lean`: the attribute methods of `GenericWrapper`, `text`, `tail`, `textlen`, `plaintext` on an element; values are texts, integers, truth values, `None` and lists of characters (no floats or other objects).
*Proved*: Computation; `C70_history` by induction over the calls with the specification `stores`. `C70_int_refuted`, `C70_set_attr_bool_refuted`: 0 and False are refused as if they were empty, True is stored as "True", for every element.

*Status*: partial. Theorems: `Protection.C70_text`, `Protection.C70_int_partial`, `Protection.C70_int_refuted`, `Protection.C70_refused`, `Protection.C70_default`, `Protection.C70_bool`, `Protection.C70_bool_exact`, `Protection.C70_set_attr_bool_refuted`, `Protection.C70_texts`, `Protection.C70_history`. Note: all elements, names and histories; false for the number 0 and the truth value False, which set_attr refuses, and True, which set_attr stores as "True".

### C71 Tables can be used with addresses

*Modelled*: `Model/Keys.lean`: `Table.__getitem__`, `__setitem__`, `row`, `column`, `row_info`, `column_info`, `set_cell_span`, `remove_cell_span` with all kinds of keys; `get_child`, `set_child` of a table.
*Proved*: The specification `NamesCell` (column name in any letter case, row number with leading zeros) with C06 and C12, C18, C22. `C71_row_zero_refuted`: in every table `A0` is accepted and denotes the last row. `C71_other`: the message of the intended TypeError uses an undefined name. `C08_set_child_refuted`: a row exchanged by an integer key is not noticed by the row list.

*Status*: partial. Theorems: `Tbl.C71_cell`, `Tbl.C71_set_cell`, `Tbl.C71_set_cell_refused`, `Tbl.C71_row`, `Tbl.C71_column`, `Tbl.C71_column_info`, `Tbl.C71_outside`, `Tbl.C71_malformed`, `Tbl.C71_other`, `Tbl.C71_set_span`, `Tbl.C71_span_calls`, `Tbl.C71_row_zero_refuted`, `Tbl.C71_child`, `Tbl.C71_set_child`. Note: all tables, names and positions; false for row number 0 (accepted, denotes the last row) and for keys of other types (NameError instead of TypeError).

### C72 What is no document is refused with a definite exception

*Modelled*: The models of C49: `opendoc`, `__detect_mime_type`, `newdoc`, `_new_doc_from_template`, `PackagedDocument.__init__`.
*Proved*: Which mimetype a package states (`States`) and what a bad part is (`Broken`, `Foreign`) are said of the zip file; `packaged_refuses` follows the order in which the parts are read. Refuted for all packages with a foreign styles.xml and for all names of missing or other files. `C72_stream_no_type`: a stream that states no type.

*Status*: partial. Theorems: `Document.C72_unknown_mimetype`, `Document.C72_no_body`, `Document.C72_bad_part_partial`, `Document.C72_foreign_styles_refuted`, `Document.C72_bad_manifest`, `Document.C72_no_zip_refuted`, `Document.C72_bad_stream`, `Document.C72_template_no_zip`, `Document.C72_template_mimetype`, `Document.C72_unknown_doctype`, `Document.C72_stream_no_type`. Note: all packages, paths and streams; false for a foreign styles.xml (NameError) and for missing or other files given by name (KeyError instead of IOError).

### C73 The configured expand strategy decides how tables are opened

*Modelled*: `Model/Conf.lean`: `Config`, `TableExpandStrategyConfig`, and the constructor of `Table` under a configuration.
*Proved*: `InForce` says which setting counts; then C15 and C16. `C73_new`: the constructor for new tables goes through the expansion of an empty table.

*Status*: proved. Theorems: `Tbl.C73_open`, `Tbl.C73_default`, `Tbl.C73_unknown`, `Tbl.C73_new`, `Tbl.C73_no_table`. Note: all histories of settings and all stored tables.

### C74 The controllers replace rows and columns and keep the other children

*Modelled*: `Model/Table.lean`: `reset` of both controllers; `Model/Controllers.lean`: `__len__`, `__getitem__`, `__setitem__` of the column controller.
*Proved*: Children as lists: `filter` on the tags as written in the OpenDocument schema, position by `OrderedBlock` (C34). `C74_column_set` from `colStep` and `clone_spec`. `C74_reset_rows_refuted`: for every table the rows are gone when the size is refused.

*Status*: partial. Theorems: `Tbl.C74_reset_rows`, `Tbl.C74_reset_rows_refuted`, `Tbl.C74_reset_columns`, `Tbl.C74_reset_columns_refused`, `Tbl.C74_column_get`, `Tbl.C74_column_set`, `Tbl.C74_column_set_refused`. Note: all tables with any children; false only for a refused reset of the rows, which has removed the rows before it raises.

### C75 Indices outside the table are refused

*Modelled*: The models of C08 to C14.
*Proved*: `Outside` is said of the index and the size alone. `C75_cell_refuted`, `C75_delete_rows_refuted`: for every table an index `-k - size` is taken for `-k`.

*Status*: partial. Theorems: `Tbl.C75_rows`, `Tbl.C75_columns`, `Tbl.C75_cell_partial`, `Tbl.C75_cell_refuted`, `Tbl.C75_cell_column_refuted`, `Tbl.C75_delete_partial`, `Tbl.C75_delete_rows_refuted`. Note: false in every table for cells and for deleting with indices from -2*size to -size-1 (they are counted from the end twice); proved for all others.

### C76 Writing through the cells, rows and columns of a table

*Modelled*: `Model/TableWrite.lean`: `onCell`, `onRow`, `onColumn` apply the methods of C26 to C31 to the element in the tree; new paragraphs get new identities. References to paragraphs that the caller keeps are not modelled.
*Proved*: `CellCall.natural`: a method does the same to cells with the same content. `onCell_spec`: the effect on the tree is `editCell`, which is one of the calls in the histories of C08, C09, C19, C62. `C76_history` folds the calls that address each cell; a position is addressed by up to three indices in each direction (`addresses`, cf. C75).

*Status*: proved. Theorems: `Tbl.C76_cell`, `Tbl.C76_value`, `Tbl.C76_history`, `Tbl.C76_hist`, `Tbl.C76_row`, `Tbl.C76_column`. Note: in-place edits of cells, rows and columns are also among the calls of the histories of C08, C09, C19 and C62; a paragraph given as value must not contain rows or columns (NoTable).

### C77 Assigning a cell of the table to another place moves it

*Modelled*: `assignCell`: `table[q] = table[p]` with `setCell` of a cell that is already in the tree (lxml unlinks it first).
*Proved*: `cellSubst`: exchanging one cell by its identity, used twice (taking out, putting in); `cell_id_inj`: cells are determined by their identities. `C77_rectangular_refuted`: for all tables and positions.

*Status*: proved. Theorems: `Tbl.C77_move`, `Tbl.C77_cells`, `Tbl.C77_same`, `Tbl.C77_rectangular_refuted`, `Tbl.C77_type`. Note: the statement includes that the rows are no longer equally long, proved for all tables (C77_rectangular_refuted refutes preservation of C09 for this call).

### C78 A spreadsheet made by a program is the same after saving and opening

*Modelled*: `Model/Program.lean`: a program is a list of statements over the document (C69) and its table objects (C08 to C21, C76). A table object works on the element in the tree of the document; `doc.sheets` is the container of C30; `wrap` gives the one object of an element. Elements taken out of a table, and references to cells, rows and columns that the caller keeps, are not modelled.
*Proved*: `OK`: the invariant (frame of the document, each table in the document or a root of its own, tables in order, other sheets legible). `Proofs/Frame.lean`, `Program.lean`, `ProgTable.lean`, `ProgText.lean`, `ProgStep.lean`, `ProgDoc.lean`, `ProgAct.lean`: each statement keeps it and has the stated effect; `C78_runs` is the induction over programs, `C78_reopen` joins it with C69 and C62 (`reread_file`), `C78_values` with C76. `C78_local`: the effect depends on the trees and objects only; with it `Props/ProgDemo.lean` runs a program with concrete values through saving and opening.

*Status*: proved. Theorems: `Program.C78_create`, `Program.C78_method`, `Program.C78_append`, `Program.C78_insert`, `Program.C78_access`, `Program.C78_delete`, `Program.C78_replace`, `Program.C78_errors`, `Program.C78_step`, `Program.C78_runs`, `Program.C78_new`, `Program.C78_open`, `Program.C78_reopen`, `Program.C78_reopen_as`, `Program.C78_values`, `Program.C78_local`. Note: relative to lawful XML libraries as in C69; opened documents have to have sheets whose tables can be read (Legible, C62); elements given to cells are no tables and carry no repetition counts; the strings of the document have to be ones XML can write (Writable).

### C79 A document written to memory is the same document

*Modelled*: `tobytesWhole` and `saveStreamWhole` in `Model/Whole.lean`: the current bytes of the registered objects, then `tobytes` or `save` of the package model (C39). A stream passed to `saveas` becomes `docname`; the model keeps the old name.
*Proved*: `Props/WholeBytes.lean`: `bytes_again` (a package written again, from the same source or from what was written, has the same members), `reopen_src` (opening any source that holds the five parts, shared with C69). `Lives` has the two calls as further steps, so C69 holds with them in the history.

*Status*: proved. Theorems: `Whole.C79_frame`, `Whole.C79_bytes`, `Whole.C79_again`, `Whole.C79_file`, `Whole.C79_succeeds`, `Whole.C79_stream`, `Whole.C79_stream_bytes`, `Whole.C79_stream_succeeds`. Note: The libraries are the same parameters as in C69. tobytes and saving to a stream are also steps of the histories `Lives` of C69. A stream given to saveas is taken to be empty; it becomes the name of the document, which the model leaves as it was..

### C80 Refused calls of the operating system lose nothing

*Modelled*: `Model/Fault.lean`: `saveF` and `flatSaveF` are the functions of C40 in which each call on a file may be refused, depending on the call and the state of the files.
*Proved*: `Proofs/Fault.lean`: a computation with refused calls does what the one without does, or stops with an exception after a prefix of its changes (`Less`, closed under sequencing), so C40 carries over to all states; histories with refused saves keep the invariant of C41 as long as the source file stays.

*Status*: partial. Theorems: `Package.C80_crash`, `Package.C80_backup`, `Package.C80_others`, `Package.C80_report`, `Package.C80_none`, `Package.C80_flat_backup`, `Package.C80_elsewhere`, `Package.C80_unnamed`, `Package.C80_later_partial`, `Package.C80_later_refuted`. Note: The last clause is false: if the last rename is refused, the source file of the manager is gone and the next save silently loses all unregistered members (C80_later_refuted); it holds if each failed save leaves the source file as it was (C80_later_partial). The rest is proved for FileManager.save and for flat XML with backup; documents opened from a stream and flat XML without backup already violate C40. C80_unnamed: newdoc() without a name cannot be saved and leaves a temporary file..

### C81 A text document made by a program is the same after saving and opening

*Modelled*: `Model/TextProgram.lean`: a program is a list of statements over the document (C69) and its text objects; an object is a node of the one forest, in the tree of the document or not. The constructors of `text.py`, `ezlist`, `append_text`, `append` of a text body, the container methods of C59.
*Proved*: `Kept`: the nodes that are not inside of the body keep their content and children (`Proofs/Content.lean`); `Step`, closed under sequencing, for each statement (`ContentOps.lean`, `ContentProg.lean`). `Put` (`ContentText.lean`, `ContentMake.lean`): a tree is exchanged for another one; the effects of `append_text` and the constructors on nodes are those of C03 and C58 on trees. `C81_reopen` joins it with C69, `C81_document` with C35 (where `append` puts an element) and the characters that XML can hold. `C81_made`: what each constructor makes. `C81_body_append`, `C81_set_header`: with any object of the program, also one that is in the document already, from C57 and C34. If the new header is an ancestor of the list the setter raises after the old header has left the list (example beside it).

*Status*: proved. Theorems: `TextProg.C81_step`, `TextProg.C81_runs`, `TextProg.C81_new`, `TextProg.C81_open`, `TextProg.C81_reopen`, `TextProg.C81_reopen_as`, `TextProg.C81_append_text`, `TextProg.C81_blocks`, `TextProg.C81_document`, `TextProg.C81_made`, `TextProg.C81_body_append`, `TextProg.C81_set_header`. Note: Programs leave the two containers of declarations in the body alone and take no table, body or container by its number (Allowed); append_text is called on spans, header set on lists. For the file the trees must be writable (legal XML characters); C81_document derives this from the given strings..

### C82 Variables and user fields survive saving and opening

*Modelled*: `Model/VarProgram.lean`: the containers `doc.body.variables` and `doc.body.userfields` of the document of C69, with the variables of C54. The reading of floats is an arbitrary library (C26) with `float("")` raising.
*Proved*: `read_eq`: what is read is a function of the tree of the content (`pick`, `seen`). `assign_change`: an assignment is a change of elements in place, so the document stays in order (`Sound.map`). `C82_reopen`: `Tells` carries the trees through the file (C69). `Props/VarTexts.lean` joins it with the programs of C81: declarations belong to the frame (`decl_kept`), roots stay roots (`root_step`).

*Status*: proved. Theorems: `VarProg.C82_unknown`, `VarProg.C82_others`, `VarProg.C82_writable`, `VarProg.C82_field`, `VarProg.C82_simple`, `VarProg.C82_reopen`, `VarProg.C82_document`, `VarProg.C82_new`, `VarProg.C82_open`, `VarProg.C82_empty`, `VarProg.C82_texts`, `VarProg.C82_assign`, `VarProg.C82_program`, `VarProg.C82_program_document`, `VarProg.C82_start`. Note: Values that C54 refutes (truth values of variables, values of user fields that count as false, variables without instance) are outside of the statement; F.parse [] = none: float("") raises..

### C83 Drawings and presentations that are made by programs survive saving and opening

*Modelled*: `Model/PageProgram.lean`: the programs of C81 with `doc.pages` of C30 (which shares the cache of `wrapcache.py` with all documents) and the constructors of pages. `exec` evaluates the arguments before `doc.pages`, which matters only for the exception when both fail.
*Proved*: `Keeps`: each statement keeps the invariant of C81 and the soundness of the cache; `acts_ok` derives the unchanged frame. The statements are C30 on the body (`onPages_ok`). `C83_reopen` joins C69: the trees below the body correspond (`kids_file`), so lists, names and `lookup` do. `C83_document`: `Proofs/PageSlides.lean` follows the programs with `Put` and `Made` of C81; the bodies of new documents are a table (`new_pages`).

*Status*: proved. Theorems: `PageProg.C83_step`, `PageProg.C83_runs`, `PageProg.C83_pages`, `PageProg.C83_append`, `PageProg.C83_insert`, `PageProg.C83_get`, `PageProg.C83_delete`, `PageProg.C83_set`, `PageProg.C83_errors`, `PageProg.C83_page`, `PageProg.C83_start`, `PageProg.C83_reopen`, `PageProg.C83_reopen_as`, `PageProg.C83_document`. Note: Programs with pages and text objects, the cache of wrapper objects included, with saving and opening..

### C84 A page layout object gives the properties of header and footer

*Modelled*: `Model/PageLayout.lean`: `_properties` and `PageLayout.__init__`, with `subelement` as in C36.
*Proved*: `Proofs/Parts.lean`: `Ext` says what two calls of `subelement` add; `C84_make_partial` joins four of them. The property is false: the names of the properties elements are not those of OpenDocument (`C84_odf_refuted`, for every layout), so that a complete layout is changed (`C84_change_refuted`), and no attribute can be read (`C84_read_refuted`).

*Status*: partial. Theorems: `Styles.C84_make_partial`, `Styles.C84_again_partial`, `Styles.C84_old_partial`, `Styles.C84_odf_refuted`, `Styles.C84_change_refuted`, `Styles.C84_read_refuted`. Note: False of the code: it looks for style:header-style-properties and style:footer-style-properties, which OpenDocument does not have, and adds them to every layout; no attribute of them can be read. Proved for all trees: exactly these elements are found or added and nothing else changes, a second object is the same, and new=False raises KeyError for missing styles..

### C85 Meta data survive the whole life of a document

*Modelled*: The models of C43 to C46 (meta data), C69 and C79 (whole documents).
*Proved*: `Career`: histories in which a document is also opened again, with the events that concern meta data. `C85_life`: the invariants of C69 are kept, texts stay legal (`legal_step` for each statement, `legal_told` for opened trees), and the abstract meta data are the fold `evSpec`; the other theorems read one channel of it by a specification of its own. `C85_document` joins it with `new_ok` and `C69_saves`.

*Status*: proved. Theorems: `Whole.C85_life`, `Whole.C85_tag`, `Whole.C85_assigned`, `Whole.C85_keywords`, `Whole.C85_user`, `Whole.C85_userSet`, `Whole.C85_count`, `Whole.C85_cycles`, `Whole.C85_document`. Note: Histories `Career` of documents over the models of C69 and C79 with events for meta data; the specification is a fold over the events..

### C86 Documents that are open at the same time do not influence each other

*Modelled*: `Model/Desk.lean`: the documents of C83 over one memory (node identities are unique in all of it), one cache and one file system. Statements with tables and variables, and statements that put an object of one document into another one, are not in this language.
*Proved*: `Apart`: the trees and free nodes of two documents are disjoint; `quiet_step`: a statement with one is `Quiet` for the other, and the invariant of C81 is kept with the new nodes counted to the others (`later`); `made_beside`: opening and making documents adds new nodes only. `C86_alone` joins it with `C86_files` (what saving leaves of the files) and `tozip_at` (what is written depends on the source file only). `C86_overwritten_refuted`: two concrete documents, with any lawful libraries.

*Status*: proved. Theorems: `Desk.C86_step`, `Desk.C86_runs`, `Desk.C86_start`, `Desk.C86_sound`, `Desk.C86_files`, `Desk.C86_bytes`, `Desk.C86_alone`, `Desk.C86_reopen`, `Desk.C86_overwritten_refuted`. Note: For the statements of C83 (text objects and pages), meta data, other files, names and saving. Statements with tables and variables are not in this program language; for statements that put an object of one document into another one see C87. C86_overwritten_refuted: the condition on the files is needed..

### C87 Objects can be moved between documents

*Modelled*: `Model/Room.lean`: as C86, with objects that belong to no document: a statement may use any object anywhere.
*Proved*: For every document `j` the frame (`F j`: the nodes of its trees outside of the contents of the body) is a set of nodes that has no object and no body of another document. `View.page_sent` follows each statement once more, seen from a document whose body need not be the one in use, so that a statement with one document is a `Step` for all of them; `fresh_kept` gives the frame of a new document. `C87_away`: the tree of a root that is not used is added to the frame (`kept_union`). `C87_moved`, `C87_page` use `C81_body_append`, `C83_append` and `moved_cut` (`cut`: the tree without the object). `C87_isolation_refuted`: a paragraph is made, put into one document and then into another one, with any lawful libraries.

*Status*: proved. Theorems: `Room.C87_step`, `Room.C87_runs`, `Room.C87_start`, `Room.C87_sound`, `Room.C87_away`, `Room.C87_moved`, `Room.C87_page`, `Room.C87_files`, `Room.C87_misses`, `Room.C87_alone`, `Room.C87_reopen`, `Room.C87_isolation_refuted`. Note: For the statements of C83 (text objects and pages), meta data, other files, names and saving, with objects shared by all documents. Statements with tables and variables are not in this program language. C87_sound makes every statement theorem of C81 and C83 available with objects that are in other documents. C87_isolation_refuted: the condition that no object of the document is used is needed..

### C88 Tables can stand among the text of a document

*Modelled*: `Model/Mix.lean`: the statements of C81 and C78 over one document and one list of objects, with `get_child` for tables (`grab`). Two objects for one table, and text statements that put something into a table, are left out.
*Proved*: `Props/Mix.lean`, from `Proofs/Mix*.lean`. `Cover R T W`: the topmost tables and what is in them. `Calm`: a text statement changes nothing of them but the text that follows a table. `Put`: a call exchanges the tree of one table. `C88_step` and `C88_runs` for all statements, `C88_text`, `C88_method`, `C88_create`, `C88_grab` for what each does, `C88_new`, `C88_open`, `C88_reopen`, `C88_reopen_as` for documents. `Props/MixValues.lean`: `C88_cells`, what every cell of a table is after any program that writes into its cells and does anything else with the document; `C88_values`, the same after saving and opening again.

*Status*: proved. Theorems: `Mix.C88_step`, `Mix.C88_runs`, `Mix.C88_text`, `Mix.C88_method`, `Mix.C88_create`, `Mix.C88_grab`, `Mix.C88_new`, `Mix.C88_open`, `Mix.C88_reopen`, `Mix.C88_reopen_as`, `Mix.C88_cells`, `Mix.C88_values`. Note: Programs with tables among the text of a document of any kind. Text statements do not reach into tables (they may move them); get_child is not called for a table that the program already has an object of; table calls are those of C78..

### C89 All objects of one table show the same table

*Modelled*: The programs of C78 and C88 with several entries for one element in the list of table objects. Calls through an object with outdated lists are left out (the rows in them may be detached from the table).
*Proved*: `Props/Views.lean`. `C89_call`: after an allowed call through one object, each other object shows the table with the rows and columns of before, so it shows the same if and only if the row and column elements are the same. `C89_shared_partial`: the calls on cells, spans, infos and names, through any objects in any order, keep all objects equal; `C89_cells` gives what each cell is afterwards. `C89_again`: loading the table once more changes nothing. `C89_rows_refuted`: a row appended through one object is missing in the other.

*Status*: partial. Theorems: `Views.C89_call`, `Views.C89_again`, `Views.C89_shared_partial`, `Views.C89_cells`, `Views.C89_rows_refuted`. Note: False of the code for calls that add, remove or exchange rows or columns: each object has its own lists (C89_rows_refuted). C89_call says for every allowed call exactly what another object of the table shows afterwards, and when it is the same; C89_shared_partial and C89_cells prove the property for all sequences of calls that leave the lists alone; C89_again: getting another object of a table in use changes nothing. What a call through an object with outdated lists does is not modelled, since it may reach elements that are no longer in the table..

### C90 A copy of a table is a table of its own in the document

*Modelled*: `Model/MixCopy.lean`: the programs of C88 with `Table.copy` (C21) as one more statement. The copy is a new object of the program, in no other element.
*Proved*: `Props/MixCopy.lean`. `copyOf_sound`: the copy of a sound table is sound and new; with `Ready.made` of C88 this gives `C90_copy`, with the exact conditions for TypeError and ValueError. `C90_program` and `C90_cells` are inductions over programs; `C90_apart` joins the two with the correspondence of cells (`docCell_same`). As the invariant of C88 is kept, `C88_reopen` holds after such programs.

*Status*: proved. Theorems: `Mix.C90_copy`, `Mix.C90_step`, `Mix.C90_program`, `Mix.C90_cells`, `Mix.C90_apart`. Note: Programs over one document with text, sheets, tables and copies; saving and opening such a document is C88_reopen..

### C91 Documents with tables that are open at the same time do not disturb each other

*Modelled*: `Model/Books.lean`: several documents, each with the statements of C88 and C90, in one memory and one file system; `copyTo` copies a table of one document for another one. `seen` gives each document the present memory and files.
*Proved*: `Proofs/Books.lean`, `Props/Books.lean`, `Props/NewTree.lean`, `Props/BooksDemo.lean`. The invariant `OK` is that of C88 for each document (with the set of nodes that belong to the others as foreign) and that no two have a node in common. A step of one document is `Moves` of C88 with what it leaves unchanged (`Firm`), which is `Quiet` for the others (from C86); `ready_quiet` and `shown_quiet` carry the invariant and the tables over a quiet step. `C91_new` rests on `C63_new`, which makes a document in any memory. `C91_cells`, `C91_apart` are inductions over programs as in C90, `C91_reopen` joins `C88_reopen` with the step for opening.

*Status*: proved. Theorems: `Books.C91_sound`, `Books.C91_step`, `Books.C91_runs`, `Books.C91_start`, `Books.C91_new`, `Books.C91_copyTo`, `Books.C91_cells`, `Books.C91_apart`, `Books.C91_reopen`. Note: Objects belong to the document that they are made for (moving text objects between documents is C87); conditions on statements are those of C88 and C90..

### C92 Tables can be moved between open documents

*Modelled*: `Model/Shelf.lean`: several documents as in C91, but the objects and tables of the program are one list that all documents use, so a statement with one document can take a table out of another.
*Proved*: `Proofs/Shelf.lean`, `Props/Shelf.lean`, `Props/ShelfMoved.lean`, `Props/ShelfDemo.lean`. The invariant `OK` has the tables and objects once (`Stock`) and for each document its frame (`Doc`); no object is in a frame, and no frame has the body of another document. `over_copy` shows of each statement of C88 and C90 that a document whose frame has none of the objects keeps it (`Guest`, `Left`), also if the statement moves nodes out of it. `new_bare`: a new document has no tables. `C92_sheet` and `C92_moved` give the tree after a move exactly, `C92_cells` is an induction over programs with `C90_cells` for one statement. `Props/ShelfAgain.lean`: an opened document has exactly two trees (`made_roots`), each is what the file tells of the tree that was written (C69), so all its tables can be read, also those outside of the body; `C92_reopen` joins this with `C88_reopen`.

*Status*: proved. Theorems: `Shelf.C92_sound`, `Shelf.C92_step`, `Shelf.C92_runs`, `Shelf.C92_start`, `Shelf.C92_new`, `Shelf.C92_sheet`, `Shelf.C92_moved`, `Shelf.C92_cells`, `Shelf.C92_reopen`. Note: Any number of documents in one memory, with the objects of the program common to all. Statements are those of C88 and C90 with any document, meta data, files, names, saving, opening and making documents. As in C88 a program fetches a table with get_child only once (C89 is about several objects of one table), and the tables of an opened document must be readable..

## Axioms per theorem

Output of `#print axioms` for every theorem in MANIFEST.json (`-` means none).

* -: Protection.C70_texts, Styles.C61_write_refuted, Styles.C84_read_refuted

* propext: Address.C06_case_insensitive, Address.C06_other_reference, Base.C57_len, Meta.C47_zero, Mixins.C55_limits, Org.C33_spreadsheet_content, Org.C33_text_tables, Org.C34_tags, Org.C35_open_then_append_refuted, Org.C37_after_refuted, Org.C37_before_refuted, Org.C37_unknown_tag, Parts.C65_empty, Parts.C65_layout_refuted, Styles.C61_read_partial, Tbl.C13_remove_span_negative_refuted, Tbl.C23_no_span, Tbl.C24_negative_refuted, Tbl.C71_other, Tbl.C73_no_table, Tbl.C74_reset_columns_refused, Tbl.C77_type, Txt.C03_append_text_frame, Txt.C58_set_header_rejects

* propext, Classical.choice, Quot.sound: Address.C05_address_canonical, Address.C05_address_roundtrip, Address.C05_canonical_unique, Address.C06_accepted, Address.C06_row_zero_refuted, Address.C06_value, Address.C07_range, Base.C57_get, Base.C57_history, Base.C57_insert_before, Base.C57_insert_before_self, Base.C57_root, Books.C91_apart, Books.C91_cells, Books.C91_copyTo, Books.C91_new, Books.C91_reopen, Books.C91_runs, Books.C91_sound, Books.C91_start, Books.C91_step, Cells.C26_as_text, Cells.C26_boolean, Cells.C26_boolean_read, Cells.C26_boolean_text_refuted, Cells.C26_constructor, Cells.C26_date_time, Cells.C26_element, Cells.C26_exact, Cells.C26_mismatch_refuted, Cells.C26_number, Cells.C26_numeric_text, Cells.C26_text, Cells.C27_conform, Cells.C27_currency_exact, Cells.C27_currency_iff, Cells.C27_currency_partial, Cells.C27_currency_refuted, Cells.C27_history, Cells.C27_kept, Cells.C27_kept_properties, Cells.C27_left, Cells.C27_no_trace, Cells.C27_stray_refuted, Cells.C28_empty_text, Cells.C28_empty_text_refuted, Cells.C28_rejected_partial, Cells.C29_append_grows, Cells.C29_append_new, Cells.C29_append_rejects, Cells.C29_display_form, Cells.C29_display_form_reads, Desk.C86_alone, Desk.C86_bytes, Desk.C86_files, Desk.C86_overwritten_refuted, Desk.C86_reopen, Desk.C86_runs, Desk.C86_sound, Desk.C86_start, Desk.C86_step, Document.C49_creatable, Document.C49_create_refuted, Document.C49_extension_refuted, Document.C49_new, Document.C49_open, Document.C49_opens, Document.C49_tables, Document.C49_template, Document.C49_template_opens, Document.C60_bytes, Document.C60_new, Document.C60_refuted, Document.C60_saved, Document.C60_twice, Document.C72_bad_manifest, Document.C72_bad_part_partial, Document.C72_bad_stream, Document.C72_foreign_styles_refuted, Document.C72_no_body, Document.C72_no_zip_refuted, Document.C72_stream_no_type, Document.C72_template_mimetype, Document.C72_template_no_zip, Document.C72_unknown_doctype, Document.C72_unknown_mimetype, F64.round_nearest, F64.round_overflow, Manifest.C38_itself, Manifest.C38_last_add, Manifest.C38_last_remove, Manifest.C38_map, Manifest.C38_once, Manifest.C38_others, Meta.C43_empty, Meta.C43_save, Meta.C43_saves, Meta.C44_clear, Meta.C44_history, Meta.C44_set, Meta.C45_contains, Meta.C45_iter, Meta.C46_delete, Meta.C46_duplicates_refuted, Meta.C46_exact, Meta.C46_history_partial, Meta.C46_iter_partial, Meta.C46_read, Meta.C47_history, Meta.C47_iter_exact, Meta.C47_iter_history, Meta.C47_iter_partial, Meta.C47_iter_refuted, Meta.C47_set, Mix.C88_cells, Mix.C88_create, Mix.C88_grab, Mix.C88_method, Mix.C88_new, Mix.C88_open, Mix.C88_reopen, Mix.C88_reopen_as, Mix.C88_runs, Mix.C88_step, Mix.C88_text, Mix.C88_values, Mix.C90_apart, Mix.C90_cells, Mix.C90_copy, Mix.C90_program, Mix.C90_step, Mixins.C55_boolean, Mixins.C55_float, Mixins.C55_history, Mixins.C55_independent, Mixins.C55_integer, Mixins.C55_limit, Mixins.C55_number_frame, Mixins.C55_read, Mixins.C55_start_value, Mixins.C55_start_value_refuted, Mixins.C55_stored, Mixins.C55_visibility, Observer.C50_childless_refuted, Observer.C50_raise_refuted, Org.C33_reorder, Org.C33_spreadsheet, Org.C34_borders, Org.C34_epilogue, Org.C34_prelude, Org.C35_append, Org.C35_append_history, Org.C36_is_valid, Org.C36_paged, Org.C36_stream, Org.C36_text_body, Org.C37_after_partial, Org.C37_before_partial, Org.C37_epilogue_after_partial, Org.C37_epilogue_tag_info, Org.C37_tag_info, Package.C39_first, Package.C39_parts, Package.C39_rest, Package.C39_succeeds, Package.C39_unique, Package.C40_backup, Package.C40_clash_refuted, Package.C40_crash, Package.C40_done, Package.C40_flat_backup, Package.C40_flat_refuted, Package.C40_free, Package.C40_others, Package.C40_stream_refuted, Package.C41_current, Package.C41_saves, Package.C42_copy_partial, Package.C42_later, Package.C42_lost, Package.C42_refuted, Package.C80_backup, Package.C80_crash, Package.C80_elsewhere, Package.C80_flat_backup, Package.C80_later_partial, Package.C80_later_refuted, Package.C80_none, Package.C80_others, Package.C80_report, Package.C80_unnamed, PageProg.C83_append, PageProg.C83_delete, PageProg.C83_document, PageProg.C83_errors, PageProg.C83_get, PageProg.C83_insert, PageProg.C83_page, PageProg.C83_pages, PageProg.C83_reopen, PageProg.C83_reopen_as, PageProg.C83_runs, PageProg.C83_set, PageProg.C83_start, PageProg.C83_step, Pages.C30_del, Pages.C30_get, Pages.C30_history, Pages.C30_pages, Pages.C30_set, Pages.C30_sheets, Pages.C31_declared_refuted, Pages.C31_index_partial, Pages.C31_insert_partial, Pages.C31_refuted, Pages.C32_again, Pages.C32_same, Parts.C63_again, Parts.C63_always, Parts.C63_body, Parts.C63_complete, Parts.C63_content, Parts.C63_document, Parts.C63_new, Parts.C63_unknown_type, Parts.C63_wrong_root, Parts.C64_exact, Parts.C64_new_partial, Parts.C64_refuted, Parts.C64_stored_partial, Parts.C66_complete, Parts.C66_new_partial, Parts.C66_open_partial, Parts.C66_reread_refuted, Parts.C66_root_refuted, Parts.C66_types_refuted, Program.C78_access, Program.C78_append, Program.C78_create, Program.C78_delete, Program.C78_errors, Program.C78_insert, Program.C78_local, Program.C78_method, Program.C78_new, Program.C78_open, Program.C78_reopen, Program.C78_reopen_as, Program.C78_replace, Program.C78_runs, Program.C78_step, Program.C78_values, Protection.C67_frame, Protection.C67_key, Protection.C67_key_refuted, Protection.C67_reads, Protection.C67_section, Protection.C67_table, Protection.C67_unprotect_refuted, Protection.C68_page_partial, Protection.C68_page_refuted, Protection.C68_rename, Protection.C68_section, Protection.C70_bool, Protection.C70_bool_exact, Protection.C70_default, Protection.C70_history, Protection.C70_int_partial, Protection.C70_int_refuted, Protection.C70_refused, Protection.C70_set_attr_bool_refuted, Protection.C70_text, Room.C87_alone, Room.C87_away, Room.C87_files, Room.C87_isolation_refuted, Room.C87_misses, Room.C87_moved, Room.C87_page, Room.C87_reopen, Room.C87_runs, Room.C87_sound, Room.C87_start, Room.C87_step, Shelf.C92_cells, Shelf.C92_moved, Shelf.C92_new, Shelf.C92_reopen, Shelf.C92_runs, Shelf.C92_sheet, Shelf.C92_sound, Shelf.C92_start, Shelf.C92_step, Styles.C56_history_partial, Styles.C56_set_partial, Styles.C84_again_partial, Styles.C84_change_refuted, Styles.C84_make_partial, Styles.C84_odf_refuted, Tbl.C08_bookkeeping, Tbl.C08_consistent_history, Tbl.C08_created, Tbl.C08_is_consistent, Tbl.C08_opened, Tbl.C08_set_child_refuted, Tbl.C09_opened, Tbl.C09_rectangular, Tbl.C10_append_rows, Tbl.C10_delete_rows, Tbl.C10_insert_rows, Tbl.C11_append_columns, Tbl.C11_delete_columns, Tbl.C11_insert_columns, Tbl.C12_set_cell, Tbl.C13_delete_columns, Tbl.C13_insert_columns, Tbl.C13_insert_rows, Tbl.C13_out_of_step_refuted, Tbl.C13_remove_span_refuted, Tbl.C14_append_columns_damage, Tbl.C14_delete_columns_damage, Tbl.C14_delete_columns_refuted, Tbl.C14_delete_rows_damage, Tbl.C14_delete_rows_refuted, Tbl.C14_insert_columns_damage, Tbl.C14_insert_columns_refuted, Tbl.C14_remove_span_damage, Tbl.C14_reset_damage, Tbl.C14_reset_refuted, Tbl.C14_set_span_damage, Tbl.C14_set_span_partial, Tbl.C14_unchanged_partial, Tbl.C15_cells, Tbl.C15_grid, Tbl.C16_all_but_last, Tbl.C16_less_maxcount, Tbl.C16_maxcount_one_refused, Tbl.C17_idempotent, Tbl.C18_columns, Tbl.C18_views, Tbl.C19_column_infos, Tbl.C20_clear, Tbl.C20_created, Tbl.C20_name_refuted, Tbl.C20_reset, Tbl.C20_reset_exact, Tbl.C20_unnamed_refuted, Tbl.C21_cells, Tbl.C21_created, Tbl.C21_independent, Tbl.C21_nameless_refuted, Tbl.C21_opened, Tbl.C21_outcome, Tbl.C21_repeated_refuted, Tbl.C21_same, Tbl.C22_set_span, Tbl.C22_succeeds, Tbl.C23_matrix_refuted, Tbl.C23_undo_exact, Tbl.C23_undo_iff, Tbl.C23_undo_partial, Tbl.C24_rejects_partial, Tbl.C25_exact, Tbl.C25_no_overlap_partial, Tbl.C25_overlap_refuted, Tbl.C25_step, Tbl.C59_accept, Tbl.C59_reject, Tbl.C62_opened, Tbl.C62_repeated_refuted, Tbl.C62_reread, Tbl.C71_cell, Tbl.C71_child, Tbl.C71_column, Tbl.C71_column_info, Tbl.C71_malformed, Tbl.C71_outside, Tbl.C71_row, Tbl.C71_row_zero_refuted, Tbl.C71_set_cell, Tbl.C71_set_cell_refused, Tbl.C71_set_child, Tbl.C71_set_span, Tbl.C71_span_calls, Tbl.C73_default, Tbl.C73_open, Tbl.C73_unknown, Tbl.C74_column_get, Tbl.C74_column_set, Tbl.C74_column_set_refused, Tbl.C74_reset_columns, Tbl.C74_reset_rows_refuted, Tbl.C75_cell_column_refuted, Tbl.C75_cell_partial, Tbl.C75_cell_refuted, Tbl.C75_columns, Tbl.C75_delete_partial, Tbl.C75_delete_rows_refuted, Tbl.C75_rows, Tbl.C76_cell, Tbl.C76_column, Tbl.C76_hist, Tbl.C76_history, Tbl.C76_row, Tbl.C76_value, Tbl.C77_cells, Tbl.C77_move, Tbl.C77_rectangular_refuted, TextProg.C81_append_text, TextProg.C81_blocks, TextProg.C81_body_append, TextProg.C81_document, TextProg.C81_made, TextProg.C81_new, TextProg.C81_open, TextProg.C81_reopen, TextProg.C81_reopen_as, TextProg.C81_runs, TextProg.C81_set_header, TextProg.C81_step, Time.C51_negative_refuted, Time.C51_roundtrip_partial, Time.C52_calendar, Time.C52_date, Time.C52_datetime, Time.C52_kind, Time.C52_object_partial, Time.C52_reformat, Time.C52_str, Time.C52_unpadded_partial, Time.C52_year_refuted, Time.C53_accepts_partial, Time.C53_digits_refuted, Time.C53_newline_refuted, Time.C53_overflow_refuted, Time.C53_precision_refuted, Time.C53_sum, Time.C53_sum_micros, Time.C53_sum_partial, Txt.C03_append_text, Txt.C03_append_text_history, Txt.C04_clean_append_text, Txt.C04_list_item_refuted, Txt.C04_negative_count_refuted, Txt.C04_textlen, Txt.C58_ezlist, Txt.C58_set_header, VarProg.C82_assign, VarProg.C82_document, VarProg.C82_empty, VarProg.C82_field, VarProg.C82_new, VarProg.C82_open, VarProg.C82_others, VarProg.C82_program, VarProg.C82_program_document, VarProg.C82_reopen, VarProg.C82_simple, VarProg.C82_start, VarProg.C82_texts, VarProg.C82_unknown, VarProg.C82_writable, Vars.C54_bool_refuted, Vars.C54_clash_refuted, Vars.C54_container, Vars.C54_falsy_refuted, Vars.C54_field_instances_refuted, Vars.C54_field_set_partial, Vars.C54_history_partial, Vars.C54_parts_refuted, Vars.C54_shown, Vars.C54_simple_read_partial, Vars.C54_simple_set, Vars.C54_simple_value, Vars.C54_uninstanced_refuted, Views.C89_call, Views.C89_cells, Views.C89_rows_refuted, Views.C89_shared_partial, Whole.C69_empty_refuted, Whole.C69_frame, Whole.C69_grid, Whole.C69_members, Whole.C69_metaData, Whole.C69_name, Whole.C69_names, Whole.C69_new, Whole.C69_reopen, Whole.C69_saves, Whole.C69_sheetnames, Whole.C69_sheets, Whole.C69_texts, Whole.C79_again, Whole.C79_bytes, Whole.C79_file, Whole.C79_frame, Whole.C79_stream, Whole.C79_stream_bytes, Whole.C79_stream_succeeds, Whole.C79_succeeds, Whole.C85_assigned, Whole.C85_count, Whole.C85_cycles, Whole.C85_document, Whole.C85_keywords, Whole.C85_life, Whole.C85_tag, Whole.C85_user, Whole.C85_userSet, Whole.newIn_ok, Whole.xlib_exists, Ws.C01_decode_encode, Ws.C01_encode_injective, Ws.C02_collapse_safe, Ws.C02_fragments, Ws.C02_unprotected_refuted, Xmlns.C48_injective, Xmlns.C48_standard

* propext, Quot.sound: Address.C07_rejects, Base.C57_append, Base.C57_clear, Base.C57_cycle, Base.C57_delete, Base.C57_find, Base.C57_index, Base.C57_insert_exact, Base.C57_insert_left, Base.C57_insert_own, Base.C57_insert_partial, Base.C57_insert_refuted, Base.C57_remove, Base.C57_replace, Base.C57_set, Meta.C44_unset, Meta.C45_frame, Observer.C50_at_most, Observer.C50_broadcast_partial, Observer.C50_count, Observer.C50_errors, Observer.C50_outcome, Org.C35_open_unchanged, Package.C41_unique, Pages.C30_append, Pages.C30_iter, Pages.C30_len, Pages.C30_refused, Pages.C30_swap, Pages.C32_clear, Pages.C32_remove, Pages.C32_uncached, Parts.C63_styles, Parts.C65_added, Parts.C65_document, Parts.C65_flat_refuted, Parts.C65_read_partial, Parts.C65_taken_refuted, Styles.C56_assigned_refuted, Styles.C56_get_partial, Styles.C56_layout_refuted, Styles.C61_keys_partial, Styles.C61_refuted, Styles.C84_old_partial, Tbl.C10_table_row, Tbl.C13_cell, Tbl.C13_column, Tbl.C13_column_info, Tbl.C13_delete_rows, Tbl.C13_row, Tbl.C18_itercells, Tbl.C18_itercells_cells, Tbl.C18_rows, Tbl.C24_size_refuted, Tbl.C59_assign, Tbl.C59_idempotent, Tbl.C73_new, Tbl.C74_reset_rows, Tbl.C77_same, Views.C89_again, Xmlns.C48_cache, Xmlns.C48_clark, Xmlns.C48_idempotent, Xmlns.C48_malformed, Xmlns.C48_prefixed
