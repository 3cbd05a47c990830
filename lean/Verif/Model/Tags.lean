import Verif.Model.Py
/-! # Model of `ezodf/nodestructuretags.py`: the tag tables, complete. -/
namespace Verif.Tags

/-- nodestructuretags.py:12 -/
def OFFICE_FORMS := ["office:forms"]
/-- nodestructuretags.py:14 -/
def TABLE_TRACKED_CHANGES := ["table:tracked-changes"]
/-- nodestructuretags.py:16-22 -/
def TEXT_DECL := ["text:variable-decls", "text:sequence-decls", "text:user-field-decls",
  "text:dde-connection-decls", "text:alphabetical-index-auto-mark-file"]
/-- nodestructuretags.py:24-28 -/
def TABLE_DECL := ["table:calculation-settings", "table:content-validations", "table:label-ranges"]
/-- nodestructuretags.py:30-48 -/
def SHAPE := ["draw:rect", "draw:line", "draw:polyline", "draw:polygon", "draw:regular-polygon",
  "draw:path", "draw:circle", "draw:ellipse", "draw:g", "draw:page-thumbnail", "draw:frame",
  "draw:measure", "draw:caption", "draw:connector", "draw:control", "dr3d:scene",
  "draw:custom-shape"]
/-- nodestructuretags.py:50-54 -/
def CHANGE_MARKS := ["text:change", "text:change-start", "text:change-end"]
/-- nodestructuretags.py:56-59 -/
def PAGE_SEQUENCE := ["text:page-sequence", "draw:a"] ++ SHAPE
/-- nodestructuretags.py:61-67 -/
def TABLE_FUNCTIONS := ["table:named-expressions", "table:database-ranges",
  "table:data-pilot-tables", "table:consolidation", "table:dde-links"]
/-- nodestructuretags.py:69-85 -/
def TEXT_CONTENT_ELEMENTS := ["text:h", "text:p", "text:list", "text:numbered-paragraph",
  "table:table", "draw:a", "text:section", "text:soft-page-break", "text:table-of-content",
  "text:illustration-index", "text:table-index", "text:object-index", "text:user-index",
  "text:alphabetical-index", "text:bibliography"]
/-- nodestructuretags.py:88 -/
def TEXT_PRELUDE := OFFICE_FORMS ++ TABLE_TRACKED_CHANGES ++ TEXT_DECL ++ TABLE_DECL
/-- nodestructuretags.py:89 -/
def TEXT_CONTENT_STREAM := TEXT_CONTENT_ELEMENTS ++ SHAPE ++ CHANGE_MARKS
/-- nodestructuretags.py:90 -/
def TEXT_CONTENT_PAGED := PAGE_SEQUENCE
/-- nodestructuretags.py:91 -/
def TEXT_EPILOGUE := TABLE_FUNCTIONS
/-- nodestructuretags.py:93-98 -/
def TABLE_COLUMNS := ["table:table-column-group", "table:table-columns", "table:table-column",
  "table:table-header-columns"]
/-- nodestructuretags.py:100-106 -/
def TABLE_ROWS := ["table:table-row-group", "table:table-rows", "table:table-row",
  "table:table-header-rows", "text:soft-page-break"]
/-- nodestructuretags.py:109-114 -/
def TABLE_PRELUDE := ["table:table-source", "office:dde-source", "table:scenario",
  "office:forms", "table:shapes"]
/-- nodestructuretags.py:119 -/
def SPREADSHEET_PRELUDE := TABLE_TRACKED_CHANGES ++ TEXT_DECL ++ TABLE_DECL
/-- nodestructuretags.py:120 -/
def SPREADSHEET_CONTENT := ["table:table"]
/-- nodestructuretags.py:121 -/
def SPREADSHEET_EPILOGUE := TABLE_FUNCTIONS

end Verif.Tags
