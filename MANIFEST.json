{
 "claims": [
  {
   "property": "C01",
   "status": "proved",
   "theorems": [
    "Verif.Ws.C01_decode_encode",
    "Verif.Ws.C01_encode_injective"
   ],
   "note": "all strings"
  },
  {
   "property": "C02",
   "status": "proved",
   "theorems": [
    "Verif.Ws.C02_fragments",
    "Verif.Ws.C02_collapse_safe",
    "Verif.Ws.C02_unprotected_refuted"
   ],
   "note": ""
  },
  {
   "property": "C03",
   "status": "proved",
   "theorems": [
    "Verif.Txt.C03_append_text",
    "Verif.Txt.C03_append_text_frame",
    "Verif.Txt.C03_append_text_history"
   ],
   "note": ""
  },
  {
   "property": "C04",
   "status": "proved",
   "theorems": [
    "Verif.Txt.C04_textlen",
    "Verif.Txt.C04_clean_append_text",
    "Verif.Txt.C04_negative_count_refuted",
    "Verif.Txt.C04_list_item_refuted"
   ],
   "note": "text-level elements with non-negative blank counts; the two exceptions are refuted separately"
  },
  {
   "property": "C05",
   "status": "proved",
   "theorems": [
    "Verif.Address.C05_address_roundtrip",
    "Verif.Address.C05_canonical_unique",
    "Verif.Address.C05_address_canonical"
   ],
   "note": ""
  },
  {
   "property": "C06",
   "status": "proved",
   "theorems": [
    "Verif.Address.C06_accepted",
    "Verif.Address.C06_case_insensitive",
    "Verif.Address.C06_value",
    "Verif.Address.C06_row_zero_refuted",
    "Verif.Address.C06_other_reference"
   ],
   "note": ""
  },
  {
   "property": "C07",
   "status": "proved",
   "theorems": [
    "Verif.Address.C07_range",
    "Verif.Address.C07_rejects"
   ],
   "note": ""
  },
  {
   "property": "C08",
   "status": "proved",
   "theorems": [
    "Verif.Tbl.C08_bookkeeping",
    "Verif.Tbl.C08_created",
    "Verif.Tbl.C08_opened",
    "Verif.Tbl.C08_is_consistent",
    "Verif.Tbl.C08_consistent_history",
    "Verif.Tbl.C08_set_child_refuted"
   ],
   "note": "every history of calls, including ones that raise (reset and clear have to succeed), from every table satisfying the invariant Inv; created and opened tables satisfy it; the histories include changes of cells, rows and columns in place (C76)"
  },
  {
   "property": "C09",
   "status": "proved",
   "theorems": [
    "Verif.Tbl.C09_rectangular",
    "Verif.Tbl.C09_opened"
   ],
   "note": "all histories of successful calls from a rectangular table, in particular from opened ones; created tables see C19_column_infos; the histories include changes of cells, rows and columns in place (C76)"
  },
  {
   "property": "C10",
   "status": "proved",
   "theorems": [
    "Verif.Tbl.C10_append_rows",
    "Verif.Tbl.C10_insert_rows",
    "Verif.Tbl.C10_delete_rows",
    "Verif.Tbl.C10_table_row"
   ],
   "note": "row lists of the tree before and after, indices through Denotes (also negative)"
  },
  {
   "property": "C11",
   "status": "proved",
   "theorems": [
    "Verif.Tbl.C11_append_columns",
    "Verif.Tbl.C11_insert_columns",
    "Verif.Tbl.C11_delete_columns"
   ],
   "note": "cells of every row and column infos before and after; p is the position among cells, q among column infos (equal when in step)"
  },
  {
   "property": "C12",
   "status": "proved",
   "theorems": [
    "Verif.Tbl.C12_set_cell"
   ],
   "note": "Detached: the new cell shares no identity with the table and contains no row or column element"
  },
  {
   "property": "C13",
   "status": "partial",
   "theorems": [
    "Verif.Tbl.C13_row",
    "Verif.Tbl.C13_column",
    "Verif.Tbl.C13_column_info",
    "Verif.Tbl.C13_cell",
    "Verif.Tbl.C13_insert_rows",
    "Verif.Tbl.C13_delete_rows",
    "Verif.Tbl.C13_insert_columns",
    "Verif.Tbl.C13_delete_columns",
    "Verif.Tbl.C13_remove_span_refuted",
    "Verif.Tbl.C13_out_of_step_refuted",
    "Verif.Tbl.C13_remove_span_negative_refuted"
   ],
   "note": "proved for rows, cells, column infos and for columns that are in step with the column infos; false for remove_cell_span and for column operations on tables with fewer column infos than columns (refuted with witnesses)"
  },
  {
   "property": "C14",
   "status": "partial",
   "theorems": [
    "Verif.Tbl.C14_unchanged_partial",
    "Verif.Tbl.C14_set_span_partial",
    "Verif.Tbl.C14_delete_rows_refuted",
    "Verif.Tbl.C14_delete_columns_refuted",
    "Verif.Tbl.C14_insert_columns_refuted",
    "Verif.Tbl.C14_reset_refuted",
    "Verif.Tbl.C14_delete_rows_damage",
    "Verif.Tbl.C14_delete_columns_damage",
    "Verif.Tbl.C14_insert_columns_damage",
    "Verif.Tbl.C14_append_columns_damage",
    "Verif.Tbl.C14_reset_damage",
    "Verif.Tbl.C14_set_span_damage",
    "Verif.Tbl.C14_remove_span_damage"
   ],
   "note": "false in general (witnesses for delete_rows, delete_columns, insert_columns, reset); proved under the conditions Safe, and for every set_cell_span with a size other than (1, 1)"
  },
  {
   "property": "C15",
   "status": "proved",
   "theorems": [
    "Verif.Tbl.C15_grid",
    "Verif.Tbl.C15_cells"
   ],
   "note": "all stored tables (rows and columns not nested in each other, readable counts >= 1), any maxcount; grid as a list of rows and through get_cell; columns and everything else included"
  },
  {
   "property": "C16",
   "status": "proved",
   "theorems": [
    "Verif.Tbl.C16_less_maxcount",
    "Verif.Tbl.C16_all_but_last",
    "Verif.Tbl.C16_maxcount_one_refused"
   ],
   "note": "all stored tables, all maxcount pairs above 1; maxcount 1 raises KeyError (witness)"
  },
  {
   "property": "C17",
   "status": "proved",
   "theorems": [
    "Verif.Tbl.C17_idempotent"
   ],
   "note": "second load gives the identical tree (elements with identities), any strategy and maxcount > 1"
  },
  {
   "property": "C18",
   "status": "proved",
   "theorems": [
    "Verif.Tbl.C18_views",
    "Verif.Tbl.C18_rows",
    "Verif.Tbl.C18_columns",
    "Verif.Tbl.C18_itercells",
    "Verif.Tbl.C18_itercells_cells"
   ],
   "note": ""
  },
  {
   "property": "C19",
   "status": "proved",
   "theorems": [
    "Verif.Tbl.C19_column_infos"
   ],
   "note": "; the histories include changes of cells, rows and columns in place (C76)"
  },
  {
   "property": "C20",
   "status": "partial",
   "theorems": [
    "Verif.Tbl.C20_reset",
    "Verif.Tbl.C20_clear",
    "Verif.Tbl.C20_created",
    "Verif.Tbl.C20_unnamed_refuted",
    "Verif.Tbl.C20_name_refuted",
    "Verif.Tbl.C20_reset_exact"
   ],
   "note": "proved for tables with a normalised, non-empty name (all tables created by the API, after any history); false for tables without a name or with a stored name that is not normalised (refuted with witnesses)"
  },
  {
   "property": "C21",
   "status": "partial",
   "theorems": [
    "Verif.Tbl.C21_same",
    "Verif.Tbl.C21_cells",
    "Verif.Tbl.C21_independent",
    "Verif.Tbl.C21_created",
    "Verif.Tbl.C21_opened",
    "Verif.Tbl.C21_repeated_refuted",
    "Verif.Tbl.C21_nameless_refuted",
    "Verif.Tbl.C21_outcome"
   ],
   "note": "equal and independent for every table without stored repetitions and rows of equal length (all created tables after any history without counted cells, all opened ones); false for a table into which a cell with a repetition count was put, and copy() of a table without name raises (both refuted with witnesses); C21_outcome gives every outcome for tables without stored repetitions"
  },
  {
   "property": "C22",
   "status": "proved",
   "theorems": [
    "Verif.Tbl.C22_set_span",
    "Verif.Tbl.C22_succeeds"
   ],
   "note": "every state satisfying Inv; also shows when the call succeeds"
  },
  {
   "property": "C23",
   "status": "partial",
   "theorems": [
    "Verif.Tbl.C23_undo_partial",
    "Verif.Tbl.C23_no_span",
    "Verif.Tbl.C23_matrix_refuted",
    "Verif.Tbl.C23_undo_exact",
    "Verif.Tbl.C23_undo_iff"
   ],
   "note": "proved for cells without the four attributes that covering removes; false for cells with a matrix attribute (refuted with witness)"
  },
  {
   "property": "C24",
   "status": "partial",
   "theorems": [
    "Verif.Tbl.C24_rejects_partial",
    "Verif.Tbl.C24_negative_refuted",
    "Verif.Tbl.C24_size_refuted"
   ],
   "note": "all four kinds of bad arguments are rejected without effect; the first two raise NameError instead of IndexError/ValueError (tostr is not imported), refuted for all tables"
  },
  {
   "property": "C25",
   "status": "partial",
   "theorems": [
    "Verif.Tbl.C25_no_overlap_partial",
    "Verif.Tbl.C25_overlap_refuted",
    "Verif.Tbl.C25_step",
    "Verif.Tbl.C25_exact"
   ],
   "note": "false: a rectangle with covered cells is accepted (witness); proved for histories that set no span over a covered cell, including failing calls; C25_exact is the exact condition on a history of span calls from a table without spans"
  },
  {
   "property": "C26",
   "status": "partial",
   "theorems": [
    "Verif.Cells.C26_text",
    "Verif.Cells.C26_as_text",
    "Verif.Cells.C26_element",
    "Verif.Cells.C26_number",
    "Verif.Cells.C26_boolean",
    "Verif.Cells.C26_boolean_read",
    "Verif.Cells.C26_date_time",
    "Verif.Cells.C26_numeric_text",
    "Verif.Cells.C26_constructor",
    "Verif.Cells.C26_mismatch_refuted",
    "Verif.Cells.C26_boolean_text_refuted",
    "Verif.Cells.C26_exact"
   ],
   "note": "every previous cell state; proved for values that fit the type (text, elements, numbers, booleans, date/time texts, numeric texts); false for a text that is no number given as a float (accepted, then reading raises) and for texts given as boolean"
  },
  {
   "property": "C27",
   "status": "partial",
   "theorems": [
    "Verif.Cells.C27_kept",
    "Verif.Cells.C27_kept_properties",
    "Verif.Cells.C27_no_trace",
    "Verif.Cells.C27_conform",
    "Verif.Cells.C27_history",
    "Verif.Cells.C27_currency_refuted",
    "Verif.Cells.C27_currency_partial",
    "Verif.Cells.C27_stray_refuted",
    "Verif.Cells.C27_currency_exact",
    "Verif.Cells.C27_currency_iff",
    "Verif.Cells.C27_left"
   ],
   "note": "no trace of the old value (non-interference, all cells ODF allows, all histories) and unrelated properties kept; the currency clause is false (witness) and proved when no currency was left over"
  },
  {
   "property": "C28",
   "status": "partial",
   "theorems": [
    "Verif.Cells.C28_rejected_partial",
    "Verif.Cells.C28_empty_text_refuted",
    "Verif.Cells.C28_empty_text"
   ],
   "note": "exact set of failing calls; unchanged for all of them except the empty text for a non-string type, which empties the cell and then raises"
  },
  {
   "property": "C29",
   "status": "proved",
   "theorems": [
    "Verif.Cells.C29_append_grows",
    "Verif.Cells.C29_append_new",
    "Verif.Cells.C29_append_rejects",
    "Verif.Cells.C29_display_form",
    "Verif.Cells.C29_display_form_reads"
   ],
   "note": "all cells and texts"
  },
  {
   "property": "C30",
   "status": "proved",
   "theorems": [
    "Verif.Pages.C30_len",
    "Verif.Pages.C30_iter",
    "Verif.Pages.C30_get",
    "Verif.Pages.C30_append",
    "Verif.Pages.C30_refused",
    "Verif.Pages.C30_set",
    "Verif.Pages.C30_swap",
    "Verif.Pages.C30_del",
    "Verif.Pages.C30_history",
    "Verif.Pages.C30_sheets",
    "Verif.Pages.C30_pages"
   ],
   "note": "all bodies, keys and sheets, all histories; a body lies in no sheet"
  },
  {
   "property": "C31",
   "status": "partial",
   "theorems": [
    "Verif.Pages.C31_index_partial",
    "Verif.Pages.C31_insert_partial",
    "Verif.Pages.C31_refuted",
    "Verif.Pages.C31_declared_refuted"
   ],
   "note": "false for every new document: index and insert count all children of the body, which start with the declarations; exact conditions proved; C31_declared_refuted covers every body that starts with another element"
  },
  {
   "property": "C32",
   "status": "proved",
   "theorems": [
    "Verif.Pages.C32_same",
    "Verif.Pages.C32_again",
    "Verif.Pages.C32_uncached",
    "Verif.Pages.C32_clear",
    "Verif.Pages.C32_remove"
   ],
   "note": "all histories over any number of documents, any allocator that does not hand out memory in use; wrapping without the cache is excluded (C32_uncached shows why)"
  },
  {
   "property": "C33",
   "status": "proved",
   "theorems": [
    "Verif.Org.C33_reorder",
    "Verif.Org.C33_text_tables",
    "Verif.Org.C33_spreadsheet",
    "Verif.Org.C33_spreadsheet_content"
   ],
   "note": ""
  },
  {
   "property": "C34",
   "status": "proved",
   "theorems": [
    "Verif.Org.C34_prelude",
    "Verif.Org.C34_epilogue",
    "Verif.Org.C34_borders",
    "Verif.Org.C34_tags"
   ],
   "note": ""
  },
  {
   "property": "C35",
   "status": "proved",
   "theorems": [
    "Verif.Org.C35_append",
    "Verif.Org.C35_append_history",
    "Verif.Org.C35_open_unchanged",
    "Verif.Org.C35_open_then_append_refuted"
   ],
   "note": "holds for the body as it is when append is called; opening a document without declarations puts them behind the epilogue (refuted theorem)"
  },
  {
   "property": "C36",
   "status": "proved",
   "theorems": [
    "Verif.Org.C36_is_valid",
    "Verif.Org.C36_text_body",
    "Verif.Org.C36_stream",
    "Verif.Org.C36_paged"
   ],
   "note": ""
  },
  {
   "property": "C37",
   "status": "partial",
   "theorems": [
    "Verif.Org.C37_before_partial",
    "Verif.Org.C37_after_partial",
    "Verif.Org.C37_epilogue_after_partial",
    "Verif.Org.C37_before_refuted",
    "Verif.Org.C37_after_refuted",
    "Verif.Org.C37_tag_info",
    "Verif.Org.C37_epilogue_tag_info",
    "Verif.Org.C37_unknown_tag"
   ],
   "note": "false in general (position 0 when the tag and its successors are absent); the exact condition is proved"
  },
  {
   "property": "C38",
   "status": "proved",
   "theorems": [
    "Verif.Manifest.C38_map",
    "Verif.Manifest.C38_once",
    "Verif.Manifest.C38_last_add",
    "Verif.Manifest.C38_last_remove",
    "Verif.Manifest.C38_others",
    "Verif.Manifest.C38_itself"
   ],
   "note": "all histories from any manifest without duplicate paths; the version attribute is covered too"
  },
  {
   "property": "C39",
   "status": "proved",
   "theorems": [
    "Verif.Package.C39_first",
    "Verif.Package.C39_parts",
    "Verif.Package.C39_rest",
    "Verif.Package.C39_unique",
    "Verif.Package.C39_succeeds"
   ],
   "note": "all packages, all sets of registered parts, all file systems; C39_succeeds: the save succeeds if all parts can be written"
  },
  {
   "property": "C40",
   "status": "partial",
   "theorems": [
    "Verif.Package.C40_crash",
    "Verif.Package.C40_backup",
    "Verif.Package.C40_others",
    "Verif.Package.C40_done",
    "Verif.Package.C40_free",
    "Verif.Package.C40_flat_backup",
    "Verif.Package.C40_stream_refuted",
    "Verif.Package.C40_flat_refuted",
    "Verif.Package.C40_clash_refuted"
   ],
   "note": "proved for FileManager.save at every crash point (also while the temporary file is being written) and for flat XML with backup; false for ByteStreamManager.save, for flat XML without backup, and when the temporary name equals the target name (witnesses)"
  },
  {
   "property": "C41",
   "status": "proved",
   "theorems": [
    "Verif.Package.C41_saves",
    "Verif.Package.C41_current",
    "Verif.Package.C41_unique"
   ],
   "note": "all histories of registrations, edits, manifest edits, saves to files and streams and tobytes, including failing ones"
  },
  {
   "property": "C42",
   "status": "partial",
   "theorems": [
    "Verif.Package.C42_lost",
    "Verif.Package.C42_later",
    "Verif.Package.C42_refuted",
    "Verif.Package.C42_copy_partial"
   ],
   "note": "false: a failing part loses the mimetype entry, every later save raises KeyError (C42_lost for all documents, witness); holds for failures while copying the other members"
  },
  {
   "property": "C43",
   "status": "proved",
   "theorems": [
    "Verif.Meta.C43_save",
    "Verif.Meta.C43_saves",
    "Verif.Meta.C43_empty"
   ],
   "note": "all meta elements, any other use of the meta data between the saves; an entry without text makes every save raise TypeError (C43_empty gives the exact outcome)"
  },
  {
   "property": "C44",
   "status": "proved",
   "theorems": [
    "Verif.Meta.C44_set",
    "Verif.Meta.C44_unset",
    "Verif.Meta.C44_clear",
    "Verif.Meta.C44_history"
   ],
   "note": "all meta elements, all histories of all operations of meta.py against an abstract state"
  },
  {
   "property": "C45",
   "status": "proved",
   "theorems": [
    "Verif.Meta.C45_iter",
    "Verif.Meta.C45_contains",
    "Verif.Meta.C45_frame"
   ],
   "note": "all histories of all operations of meta.py"
  },
  {
   "property": "C46",
   "status": "partial",
   "theorems": [
    "Verif.Meta.C46_history_partial",
    "Verif.Meta.C46_read",
    "Verif.Meta.C46_iter_partial",
    "Verif.Meta.C46_duplicates_refuted",
    "Verif.Meta.C46_delete",
    "Verif.Meta.C46_exact"
   ],
   "note": "all histories for documents that store no name twice (kept by every history); false for stored duplicates (del leaves the second, witness); C46_exact: the tags behave as a dictionary in all histories exactly if no name is stored twice"
  },
  {
   "property": "C47",
   "status": "partial",
   "theorems": [
    "Verif.Meta.C47_set",
    "Verif.Meta.C47_zero",
    "Verif.Meta.C47_history",
    "Verif.Meta.C47_iter_partial",
    "Verif.Meta.C47_iter_history",
    "Verif.Meta.C47_iter_refuted",
    "Verif.Meta.C47_iter_exact"
   ],
   "note": "everything but iteration over stored non-numeric entries, which raises ValueError (witness); numeric statistics stay numeric through all histories; C47_iter_exact is the exact condition"
  },
  {
   "property": "C48",
   "status": "proved",
   "theorems": [
    "Verif.Xmlns.C48_prefixed",
    "Verif.Xmlns.C48_clark",
    "Verif.Xmlns.C48_malformed",
    "Verif.Xmlns.C48_cache",
    "Verif.Xmlns.C48_idempotent",
    "Verif.Xmlns.C48_injective",
    "Verif.Xmlns.C48_standard"
   ],
   "note": "all histories of CN and register_namespace from any initial namespaces; malformed names raise ValueError, the empty name IndexError"
  },
  {
   "property": "C49",
   "status": "partial",
   "theorems": [
    "Verif.Document.C49_tables",
    "Verif.Document.C49_new",
    "Verif.Document.C49_creatable",
    "Verif.Document.C49_create_refuted",
    "Verif.Document.C49_open",
    "Verif.Document.C49_opens",
    "Verif.Document.C49_extension_refuted",
    "Verif.Document.C49_template",
    "Verif.Document.C49_template_opens"
   ],
   "note": "all types, all packages; false: six documented types (odf otf odm oth otc oti) raise KeyError in newdoc, and the fallback to the file extension never succeeds (the extension keeps its dot); exact set of creatable types proved"
  },
  {
   "property": "C50",
   "status": "partial",
   "theorems": [
    "Verif.Observer.C50_broadcast_partial",
    "Verif.Observer.C50_errors",
    "Verif.Observer.C50_childless_refuted",
    "Verif.Observer.C50_raise_refuted",
    "Verif.Observer.C50_count",
    "Verif.Observer.C50_at_most",
    "Verif.Observer.C50_outcome"
   ],
   "note": "all histories of subscribe, unsubscribe, destruction and broadcast; false: a root element without children counts as false and reaches everybody, and a handler that raises keeps the others from being called; C50_outcome gives when a broadcast succeeds and whom it then reaches"
  },
  {
   "property": "C51",
   "status": "partial",
   "theorems": [
    "Verif.Time.C51_roundtrip_partial",
    "Verif.Time.C51_negative_refuted"
   ],
   "note": "all durations that are not negative, resolution 100 microseconds; false for every negative duration: the written text is rejected"
  },
  {
   "property": "C52",
   "status": "partial",
   "theorems": [
    "Verif.Time.C52_date",
    "Verif.Time.C52_datetime",
    "Verif.Time.C52_reformat",
    "Verif.Time.C52_year_refuted",
    "Verif.Time.C52_unpadded_partial",
    "Verif.Time.C52_calendar",
    "Verif.Time.C52_kind",
    "Verif.Time.C52_object_partial",
    "Verif.Time.C52_str"
   ],
   "note": "all dates and date-times where strftime pads years to four digits; without padding (glibc) all from year 1000 on, and false for every earlier year"
  },
  {
   "property": "C53",
   "status": "partial",
   "theorems": [
    "Verif.Time.C53_accepts_partial",
    "Verif.Time.C53_sum",
    "Verif.Time.C53_sum_micros",
    "Verif.Time.C53_sum_partial",
    "Verif.Time.C53_newline_refuted",
    "Verif.Time.C53_digits_refuted",
    "Verif.Time.C53_overflow_refuted",
    "Verif.Time.C53_precision_refuted",
    "Verif.F64.round_nearest",
    "Verif.F64.round_overflow"
   ],
   "note": "all strings, with binary64 arithmetic; ValueError exactly outside the grammar, up to a final newline and non-ASCII digits (false there); exact sum without fraction or with up to six digits below 2**32 seconds, error bound otherwise; OverflowError from 10**9 days on"
  },
  {
   "property": "C54",
   "status": "partial",
   "theorems": [
    "Verif.Vars.C54_simple_set",
    "Verif.Vars.C54_simple_value",
    "Verif.Vars.C54_simple_read_partial",
    "Verif.Vars.C54_field_set_partial",
    "Verif.Vars.C54_history_partial",
    "Verif.Vars.C54_container",
    "Verif.Vars.C54_bool_refuted",
    "Verif.Vars.C54_uninstanced_refuted",
    "Verif.Vars.C54_falsy_refuted",
    "Verif.Vars.C54_field_instances_refuted",
    "Verif.Vars.C54_clash_refuted",
    "Verif.Vars.C54_parts_refuted",
    "Verif.Vars.C54_shown"
   ],
   "note": "false: True reads back False, variables without instance cannot be read, zero and empty text are refused by user fields, instances of user fields are never updated, same-named fields and variables interfere, other document parts are not updated; the rest proved for all documents and histories. Names with an apostrophe excluded"
  },
  {
   "property": "C55",
   "status": "partial",
   "theorems": [
    "Verif.Mixins.C55_limit",
    "Verif.Mixins.C55_integer",
    "Verif.Mixins.C55_start_value",
    "Verif.Mixins.C55_boolean",
    "Verif.Mixins.C55_visibility",
    "Verif.Mixins.C55_independent",
    "Verif.Mixins.C55_history",
    "Verif.Mixins.C55_number_frame",
    "Verif.Mixins.C55_start_value_refuted",
    "Verif.Mixins.C55_stored",
    "Verif.Mixins.C55_read",
    "Verif.Mixins.C55_limits",
    "Verif.Mixins.C55_float"
   ],
   "note": "all kinds of properties and all classes, histories of assignments and deletions; false only for start_value read from a stored document (the getter has no bound, witness)"
  },
  {
   "property": "C56",
   "status": "partial",
   "theorems": [
    "Verif.Styles.C56_get_partial",
    "Verif.Styles.C56_set_partial",
    "Verif.Styles.C56_history_partial",
    "Verif.Styles.C56_assigned_refuted",
    "Verif.Styles.C56_layout_refuted"
   ],
   "note": "false: after any assignment the name can neither be read (AttributeError) nor assigned again (TypeError), page layouts can never be read; names not assigned before and all histories proved"
  },
  {
   "property": "C57",
   "status": "partial",
   "theorems": [
    "Verif.Base.C57_len",
    "Verif.Base.C57_get",
    "Verif.Base.C57_index",
    "Verif.Base.C57_append",
    "Verif.Base.C57_insert_partial",
    "Verif.Base.C57_insert_own",
    "Verif.Base.C57_insert_refuted",
    "Verif.Base.C57_insert_before",
    "Verif.Base.C57_insert_before_self",
    "Verif.Base.C57_replace",
    "Verif.Base.C57_set",
    "Verif.Base.C57_remove",
    "Verif.Base.C57_delete",
    "Verif.Base.C57_clear",
    "Verif.Base.C57_cycle",
    "Verif.Base.C57_history",
    "Verif.Base.C57_root",
    "Verif.Base.C57_find",
    "Verif.Base.C57_insert_left",
    "Verif.Base.C57_insert_exact"
   ],
   "note": "all trees, indices and elements, all histories; false only for insert with an index below -len, which appends instead of inserting at the start; C57_insert_exact is the exact condition"
  },
  {
   "property": "C58",
   "status": "proved",
   "theorems": [
    "Verif.Txt.C58_ezlist",
    "Verif.Txt.C58_set_header",
    "Verif.Txt.C58_set_header_rejects"
   ],
   "note": ""
  },
  {
   "property": "C59",
   "status": "proved",
   "theorems": [
    "Verif.Tbl.C59_assign",
    "Verif.Tbl.C59_reject",
    "Verif.Tbl.C59_accept",
    "Verif.Tbl.C59_idempotent"
   ],
   "note": ""
  },
  {
   "property": "C60",
   "status": "partial",
   "theorems": [
    "Verif.Document.C60_saved",
    "Verif.Document.C60_bytes",
    "Verif.Document.C60_new",
    "Verif.Document.C60_twice",
    "Verif.Document.C60_refuted"
   ],
   "note": "all documents and histories whose opened manifest lists the root at most once, by file-entry elements; false otherwise (add edits the first entry, the check reads the last; witness)"
  },
  {
   "property": "C61",
   "status": "partial",
   "theorems": [
    "Verif.Styles.C61_read_partial",
    "Verif.Styles.C61_keys_partial",
    "Verif.Styles.C61_write_refuted",
    "Verif.Styles.C61_refuted"
   ],
   "note": "false: assigning is a no-op for every style, key and value; reading proved for all keys"
  },
  {
   "property": "C62",
   "status": "proved",
   "theorems": [
    "Verif.Tbl.C62_reread",
    "Verif.Tbl.C62_opened",
    "Verif.Tbl.C62_repeated_refuted"
   ],
   "note": "Life: creation, opening, all histories of successful calls, writing and reading, in any order; C62_repeated_refuted shows that the condition on given cells is needed; the histories include changes of cells, rows and columns in place (C76)"
  },
  {
   "property": "C63",
   "status": "proved",
   "theorems": [
    "Verif.Parts.C63_styles",
    "Verif.Parts.C63_content",
    "Verif.Parts.C63_body",
    "Verif.Parts.C63_document",
    "Verif.Parts.C63_complete",
    "Verif.Parts.C63_again",
    "Verif.Parts.C63_wrong_root",
    "Verif.Parts.C63_always",
    "Verif.Parts.C63_unknown_type",
    "Verif.Parts.C63_new"
   ],
   "note": "containers of declarations with other children raise AttributeError (hypothesis Declared; C63_always holds without it)"
  },
  {
   "property": "C64",
   "status": "partial",
   "theorems": [
    "Verif.Parts.C64_new_partial",
    "Verif.Parts.C64_stored_partial",
    "Verif.Parts.C64_refuted",
    "Verif.Parts.C64_exact"
   ],
   "note": "new parts and parts whose stored frame elements are a beginning of the frame are in order; false for other stored parts; C64_exact is the exact condition"
  },
  {
   "property": "C65",
   "status": "partial",
   "theorems": [
    "Verif.Parts.C65_added",
    "Verif.Parts.C65_document",
    "Verif.Parts.C65_read_partial",
    "Verif.Parts.C65_taken_refuted",
    "Verif.Parts.C65_layout_refuted",
    "Verif.Parts.C65_empty",
    "Verif.Parts.C65_flat_refuted"
   ],
   "note": "the tree part holds for all styles except page layouts; reading by name if the name is new; false for names in use, page layouts and flat documents"
  },
  {
   "property": "C66",
   "status": "partial",
   "theorems": [
    "Verif.Parts.C66_new_partial",
    "Verif.Parts.C66_open_partial",
    "Verif.Parts.C66_complete",
    "Verif.Parts.C66_reread_refuted",
    "Verif.Parts.C66_root_refuted",
    "Verif.Parts.C66_types_refuted"
   ],
   "note": "creating and opening proved for types with a body tag; no flat document created by the library can be opened again; wrong roots raise AttributeError; some known types cannot be created"
  },
  {
   "property": "C67",
   "status": "partial",
   "theorems": [
    "Verif.Protection.C67_reads",
    "Verif.Protection.C67_frame",
    "Verif.Protection.C67_table",
    "Verif.Protection.C67_section",
    "Verif.Protection.C67_key",
    "Verif.Protection.C67_key_refuted",
    "Verif.Protection.C67_unprotect_refuted"
   ],
   "note": "the flag reads back and nothing else changes; the stored key is the text of a Python list, not the 12 characters, and stays when protection is switched off"
  },
  {
   "property": "C68",
   "status": "partial",
   "theorems": [
    "Verif.Protection.C68_section",
    "Verif.Protection.C68_page_partial",
    "Verif.Protection.C68_page_refuted",
    "Verif.Protection.C68_rename"
   ],
   "note": "proved for sections and for pages with a name; a page with an empty name is refused"
  },
  {
   "property": "C69",
   "status": "proved",
   "theorems": [
    "Verif.Whole.C69_reopen",
    "Verif.Whole.C69_frame",
    "Verif.Whole.C69_metaData",
    "Verif.Whole.C69_members",
    "Verif.Whole.C69_sheets",
    "Verif.Whole.C69_sheetnames",
    "Verif.Whole.C69_grid",
    "Verif.Whole.C69_saves",
    "Verif.Whole.C69_new",
    "Verif.Whole.C69_empty_refuted",
    "Verif.Whole.xlib_exists",
    "Verif.Whole.C69_texts",
    "Verif.Whole.C69_names",
    "Verif.Whole.C69_name",
    "Verif.Whole.newIn_ok"
   ],
   "note": "relative to XML libraries that read again what they wrote (XLib.Lawful; such libraries exist, xlib_exists); an empty text is read as no text (C69_empty_refuted); comments, processing instructions and namespace declarations are not in the trees; the histories of a document include setting the name"
  },
  {
   "property": "C70",
   "status": "partial",
   "theorems": [
    "Verif.Protection.C70_text",
    "Verif.Protection.C70_int_partial",
    "Verif.Protection.C70_int_refuted",
    "Verif.Protection.C70_refused",
    "Verif.Protection.C70_default",
    "Verif.Protection.C70_bool",
    "Verif.Protection.C70_bool_exact",
    "Verif.Protection.C70_set_attr_bool_refuted",
    "Verif.Protection.C70_texts",
    "Verif.Protection.C70_history"
   ],
   "note": "all elements, names and histories; false for the number 0 and the truth value False, which set_attr refuses, and True, which set_attr stores as \"True\""
  },
  {
   "property": "C71",
   "status": "partial",
   "theorems": [
    "Verif.Tbl.C71_cell",
    "Verif.Tbl.C71_set_cell",
    "Verif.Tbl.C71_set_cell_refused",
    "Verif.Tbl.C71_row",
    "Verif.Tbl.C71_column",
    "Verif.Tbl.C71_column_info",
    "Verif.Tbl.C71_outside",
    "Verif.Tbl.C71_malformed",
    "Verif.Tbl.C71_other",
    "Verif.Tbl.C71_set_span",
    "Verif.Tbl.C71_span_calls",
    "Verif.Tbl.C71_row_zero_refuted",
    "Verif.Tbl.C71_child",
    "Verif.Tbl.C71_set_child"
   ],
   "note": "all tables, names and positions; false for row number 0 (accepted, denotes the last row) and for keys of other types (NameError instead of TypeError)"
  },
  {
   "property": "C72",
   "status": "partial",
   "theorems": [
    "Verif.Document.C72_unknown_mimetype",
    "Verif.Document.C72_no_body",
    "Verif.Document.C72_bad_part_partial",
    "Verif.Document.C72_foreign_styles_refuted",
    "Verif.Document.C72_bad_manifest",
    "Verif.Document.C72_no_zip_refuted",
    "Verif.Document.C72_bad_stream",
    "Verif.Document.C72_template_no_zip",
    "Verif.Document.C72_template_mimetype",
    "Verif.Document.C72_unknown_doctype",
    "Verif.Document.C72_stream_no_type"
   ],
   "note": "all packages, paths and streams; false for a foreign styles.xml (NameError) and for missing or other files given by name (KeyError instead of IOError)"
  },
  {
   "property": "C73",
   "status": "proved",
   "theorems": [
    "Verif.Tbl.C73_open",
    "Verif.Tbl.C73_default",
    "Verif.Tbl.C73_unknown",
    "Verif.Tbl.C73_new",
    "Verif.Tbl.C73_no_table"
   ],
   "note": "all histories of settings and all stored tables"
  },
  {
   "property": "C74",
   "status": "partial",
   "theorems": [
    "Verif.Tbl.C74_reset_rows",
    "Verif.Tbl.C74_reset_rows_refuted",
    "Verif.Tbl.C74_reset_columns",
    "Verif.Tbl.C74_reset_columns_refused",
    "Verif.Tbl.C74_column_get",
    "Verif.Tbl.C74_column_set",
    "Verif.Tbl.C74_column_set_refused"
   ],
   "note": "all tables with any children; false only for a refused reset of the rows, which has removed the rows before it raises"
  },
  {
   "property": "C75",
   "status": "partial",
   "theorems": [
    "Verif.Tbl.C75_rows",
    "Verif.Tbl.C75_columns",
    "Verif.Tbl.C75_cell_partial",
    "Verif.Tbl.C75_cell_refuted",
    "Verif.Tbl.C75_cell_column_refuted",
    "Verif.Tbl.C75_delete_partial",
    "Verif.Tbl.C75_delete_rows_refuted"
   ],
   "note": "false in every table for cells and for deleting with indices from -2*size to -size-1 (they are counted from the end twice); proved for all others"
  },
  {
   "property": "C76",
   "status": "proved",
   "theorems": [
    "Verif.Tbl.C76_cell",
    "Verif.Tbl.C76_value",
    "Verif.Tbl.C76_history",
    "Verif.Tbl.C76_hist",
    "Verif.Tbl.C76_row",
    "Verif.Tbl.C76_column"
   ],
   "note": "in-place edits of cells, rows and columns are also among the calls of the histories of C08, C09, C19 and C62; a paragraph given as value must not contain rows or columns (NoTable)"
  },
  {
   "property": "C77",
   "status": "proved",
   "theorems": [
    "Verif.Tbl.C77_move",
    "Verif.Tbl.C77_cells",
    "Verif.Tbl.C77_same",
    "Verif.Tbl.C77_rectangular_refuted",
    "Verif.Tbl.C77_type"
   ],
   "note": "the statement includes that the rows are no longer equally long, proved for all tables (C77_rectangular_refuted refutes preservation of C09 for this call)"
  },
  {
   "property": "C78",
   "status": "proved",
   "theorems": [
    "Verif.Program.C78_create",
    "Verif.Program.C78_method",
    "Verif.Program.C78_append",
    "Verif.Program.C78_insert",
    "Verif.Program.C78_access",
    "Verif.Program.C78_delete",
    "Verif.Program.C78_replace",
    "Verif.Program.C78_errors",
    "Verif.Program.C78_step",
    "Verif.Program.C78_runs",
    "Verif.Program.C78_new",
    "Verif.Program.C78_open",
    "Verif.Program.C78_reopen",
    "Verif.Program.C78_reopen_as",
    "Verif.Program.C78_values",
    "Verif.Program.C78_local"
   ],
   "note": "relative to lawful XML libraries as in C69; opened documents have to have sheets whose tables can be read (Legible, C62); elements given to cells are no tables and carry no repetition counts; the strings of the document have to be ones XML can write (Writable)"
  },
  {
   "property": "C79",
   "status": "proved",
   "theorems": [
    "Verif.Whole.C79_frame",
    "Verif.Whole.C79_bytes",
    "Verif.Whole.C79_again",
    "Verif.Whole.C79_file",
    "Verif.Whole.C79_succeeds",
    "Verif.Whole.C79_stream",
    "Verif.Whole.C79_stream_bytes",
    "Verif.Whole.C79_stream_succeeds"
   ],
   "note": "The libraries are the same parameters as in C69. tobytes and saving to a stream are also steps of the histories `Lives` of C69. A stream given to saveas is taken to be empty; it becomes the name of the document, which the model leaves as it was."
  },
  {
   "property": "C80",
   "status": "partial",
   "theorems": [
    "Verif.Package.C80_crash",
    "Verif.Package.C80_backup",
    "Verif.Package.C80_others",
    "Verif.Package.C80_report",
    "Verif.Package.C80_none",
    "Verif.Package.C80_flat_backup",
    "Verif.Package.C80_elsewhere",
    "Verif.Package.C80_unnamed",
    "Verif.Package.C80_later_partial",
    "Verif.Package.C80_later_refuted"
   ],
   "note": "The last clause is false: if the last rename is refused, the source file of the manager is gone and the next save silently loses all unregistered members (C80_later_refuted); it holds if each failed save leaves the source file as it was (C80_later_partial). The rest is proved for FileManager.save and for flat XML with backup; documents opened from a stream and flat XML without backup already violate C40. C80_unnamed: newdoc() without a name cannot be saved and leaves a temporary file."
  },
  {
   "property": "C81",
   "status": "proved",
   "theorems": [
    "Verif.TextProg.C81_step",
    "Verif.TextProg.C81_runs",
    "Verif.TextProg.C81_new",
    "Verif.TextProg.C81_open",
    "Verif.TextProg.C81_reopen",
    "Verif.TextProg.C81_reopen_as",
    "Verif.TextProg.C81_append_text",
    "Verif.TextProg.C81_blocks",
    "Verif.TextProg.C81_document",
    "Verif.TextProg.C81_made",
    "Verif.TextProg.C81_body_append",
    "Verif.TextProg.C81_set_header"
   ],
   "note": "Programs leave the two containers of declarations in the body alone and take no table, body or container by its number (Allowed); append_text is called on spans, header set on lists. For the file the trees must be writable (legal XML characters); C81_document derives this from the given strings."
  },
  {
   "property": "C82",
   "status": "proved",
   "theorems": [
    "Verif.VarProg.C82_unknown",
    "Verif.VarProg.C82_others",
    "Verif.VarProg.C82_writable",
    "Verif.VarProg.C82_field",
    "Verif.VarProg.C82_simple",
    "Verif.VarProg.C82_reopen",
    "Verif.VarProg.C82_document",
    "Verif.VarProg.C82_new",
    "Verif.VarProg.C82_open",
    "Verif.VarProg.C82_empty",
    "Verif.VarProg.C82_texts",
    "Verif.VarProg.C82_assign",
    "Verif.VarProg.C82_program",
    "Verif.VarProg.C82_program_document",
    "Verif.VarProg.C82_start"
   ],
   "note": "Values that C54 refutes (truth values of variables, values of user fields that count as false, variables without instance) are outside of the statement; F.parse [] = none: float(\"\") raises."
  },
  {
   "property": "C83",
   "status": "proved",
   "theorems": [
    "Verif.PageProg.C83_step",
    "Verif.PageProg.C83_runs",
    "Verif.PageProg.C83_pages",
    "Verif.PageProg.C83_append",
    "Verif.PageProg.C83_insert",
    "Verif.PageProg.C83_get",
    "Verif.PageProg.C83_delete",
    "Verif.PageProg.C83_set",
    "Verif.PageProg.C83_errors",
    "Verif.PageProg.C83_page",
    "Verif.PageProg.C83_start",
    "Verif.PageProg.C83_reopen",
    "Verif.PageProg.C83_reopen_as",
    "Verif.PageProg.C83_document"
   ],
   "note": "Programs with pages and text objects, the cache of wrapper objects included, with saving and opening."
  },
  {
   "property": "C84",
   "status": "partial",
   "theorems": [
    "Verif.Styles.C84_make_partial",
    "Verif.Styles.C84_again_partial",
    "Verif.Styles.C84_old_partial",
    "Verif.Styles.C84_odf_refuted",
    "Verif.Styles.C84_change_refuted",
    "Verif.Styles.C84_read_refuted"
   ],
   "note": "False of the code: it looks for style:header-style-properties and style:footer-style-properties, which OpenDocument does not have, and adds them to every layout; no attribute of them can be read. Proved for all trees: exactly these elements are found or added and nothing else changes, a second object is the same, and new=False raises KeyError for missing styles."
  },
  {
   "property": "C85",
   "status": "proved",
   "theorems": [
    "Verif.Whole.C85_life",
    "Verif.Whole.C85_tag",
    "Verif.Whole.C85_assigned",
    "Verif.Whole.C85_keywords",
    "Verif.Whole.C85_user",
    "Verif.Whole.C85_userSet",
    "Verif.Whole.C85_count",
    "Verif.Whole.C85_cycles",
    "Verif.Whole.C85_document"
   ],
   "note": "Histories `Career` of documents over the models of C69 and C79 with events for meta data; the specification is a fold over the events."
  },
  {
   "property": "C86",
   "status": "proved",
   "theorems": [
    "Verif.Desk.C86_step",
    "Verif.Desk.C86_runs",
    "Verif.Desk.C86_start",
    "Verif.Desk.C86_sound",
    "Verif.Desk.C86_files",
    "Verif.Desk.C86_bytes",
    "Verif.Desk.C86_alone",
    "Verif.Desk.C86_reopen",
    "Verif.Desk.C86_overwritten_refuted"
   ],
   "note": "For the statements of C83 (text objects and pages), meta data, other files, names and saving. Statements with tables and variables are not in this program language; for statements that put an object of one document into another one see C87. C86_overwritten_refuted: the condition on the files is needed."
  },
  {
   "property": "C87",
   "status": "proved",
   "theorems": [
    "Verif.Room.C87_step",
    "Verif.Room.C87_runs",
    "Verif.Room.C87_start",
    "Verif.Room.C87_sound",
    "Verif.Room.C87_away",
    "Verif.Room.C87_moved",
    "Verif.Room.C87_page",
    "Verif.Room.C87_files",
    "Verif.Room.C87_misses",
    "Verif.Room.C87_alone",
    "Verif.Room.C87_reopen",
    "Verif.Room.C87_isolation_refuted"
   ],
   "note": "For the statements of C83 (text objects and pages), meta data, other files, names and saving, with objects shared by all documents. Statements with tables and variables are not in this program language. C87_sound makes every statement theorem of C81 and C83 available with objects that are in other documents. C87_isolation_refuted: the condition that no object of the document is used is needed."
  },
  {
   "property": "C88",
   "status": "proved",
   "theorems": [
    "Verif.Mix.C88_step",
    "Verif.Mix.C88_runs",
    "Verif.Mix.C88_text",
    "Verif.Mix.C88_method",
    "Verif.Mix.C88_create",
    "Verif.Mix.C88_grab",
    "Verif.Mix.C88_new",
    "Verif.Mix.C88_open",
    "Verif.Mix.C88_reopen",
    "Verif.Mix.C88_reopen_as",
    "Verif.Mix.C88_cells",
    "Verif.Mix.C88_values"
   ],
   "note": "Programs with tables among the text of a document of any kind. Text statements do not reach into tables (they may move them); get_child is not called for a table that the program already has an object of; table calls are those of C78."
  },
  {
   "property": "C89",
   "status": "partial",
   "theorems": [
    "Verif.Views.C89_call",
    "Verif.Views.C89_again",
    "Verif.Views.C89_shared_partial",
    "Verif.Views.C89_cells",
    "Verif.Views.C89_rows_refuted"
   ],
   "note": "False of the code for calls that add, remove or exchange rows or columns: each object has its own lists (C89_rows_refuted). C89_call says for every allowed call exactly what another object of the table shows afterwards, and when it is the same; C89_shared_partial and C89_cells prove the property for all sequences of calls that leave the lists alone; C89_again: getting another object of a table in use changes nothing. What a call through an object with outdated lists does is not modelled, since it may reach elements that are no longer in the table."
  },
  {
   "property": "C90",
   "status": "proved",
   "theorems": [
    "Verif.Mix.C90_copy",
    "Verif.Mix.C90_step",
    "Verif.Mix.C90_program",
    "Verif.Mix.C90_cells",
    "Verif.Mix.C90_apart"
   ],
   "note": "Programs over one document with text, sheets, tables and copies; saving and opening such a document is C88_reopen."
  },
  {
   "property": "C91",
   "status": "proved",
   "theorems": [
    "Verif.Books.C91_sound",
    "Verif.Books.C91_step",
    "Verif.Books.C91_runs",
    "Verif.Books.C91_start",
    "Verif.Books.C91_new",
    "Verif.Books.C91_copyTo",
    "Verif.Books.C91_cells",
    "Verif.Books.C91_apart",
    "Verif.Books.C91_reopen"
   ],
   "note": "Objects belong to the document that they are made for (moving text objects between documents is C87); conditions on statements are those of C88 and C90."
  },
  {
   "property": "C92",
   "status": "proved",
   "theorems": [
    "Verif.Shelf.C92_sound",
    "Verif.Shelf.C92_step",
    "Verif.Shelf.C92_runs",
    "Verif.Shelf.C92_start",
    "Verif.Shelf.C92_new",
    "Verif.Shelf.C92_sheet",
    "Verif.Shelf.C92_moved",
    "Verif.Shelf.C92_cells",
    "Verif.Shelf.C92_reopen"
   ],
   "note": "Any number of documents in one memory, with the objects of the program common to all. Statements are those of C88 and C90 with any document, meta data, files, names, saving, opening and making documents. As in C88 a program fetches a table with get_child only once (C89 is about several objects of one table), and the tables of an opened document must be readable."
  }
 ]
}
