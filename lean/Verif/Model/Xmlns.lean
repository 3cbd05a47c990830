import Verif.Model.Dict
/-! # Model of `xmlns.py` (namespaces) and the namespace tables of `const.py` -/
namespace Verif.Xmlns
open Verif

/-- `_XMLNamespaces`, xmlns.py:22-27 -/
structure NS where
  prefix2uri : Dict Str Str
  uri2prefix : Dict Str Str
  cache : Dict Str Str
  deriving DecidableEq

/-- `register_namespace`, xmlns.py:33-36 -/
def register (pfx uri : Str) : Py NS Unit := fun s =>
  ({ prefix2uri := s.prefix2uri.set pfx uri, uri2prefix := s.uri2prefix.set uri pfx, cache := [] },
    .ok ())

/-- `update`, xmlns.py:29-31 -/
def update (namespaces : Dict Str Str) : Py NS Unit := fun s =>
  match namespaces with
  | [] => (s, .ok ())
  | (p, u) :: r => update r (register p u s).1

/-- `tag.split(':')` for a tag with one colon -/
def splitColon : Str → Str × Str
  | [] => ([], [])
  | c :: r => if c = ':' then ([], r) else (c :: (splitColon r).1, (splitColon r).2)

/-- `_split_prefix`, xmlns.py:57-61 -/
def splitPrefix (tag : Str) : Except Exc (Str × Str) :=
  if tag.count ':' = 1 then .ok (splitColon tag) else .error .ValueError

/-- `_prefix2clark`, xmlns.py:51-55 -/
def prefix2clark (s : NS) (tag : Str) : Except Exc Str :=
  match splitPrefix tag with
  | .error e => .error e
  | .ok (pfx, loc) => match s.prefix2uri.get pfx with
    | none => .error .KeyError
    | some uri => .ok ('{' :: uri ++ '}' :: loc)

/-- `_prefix2clark_cached`, xmlns.py:38-49; `tag[0]` of the empty string is an IndexError. -/
def cn (tag : Str) : Py NS Str := fun s =>
  match s.cache.get tag with
  | some r => (s, .ok r)
  | none => match tag with
    | [] => (s, .error .IndexError)
    | c :: _ =>
      if c = '{' then (s, .ok tag)
      else match prefix2clark s tag with
        | .error e => (s, .error e)
        | .ok r => ({ s with cache := s.cache.set tag r }, .ok r)

/-- `_XMLNamespaces(namespaces)`, xmlns.py:23-27 -/
def create (namespaces : Dict Str Str) : NS :=
  (update namespaces { prefix2uri := [], uri2prefix := [], cache := [] }).1

/-! ## Tables, const.py:36-186 -/

/-- Namespace URIs, const.py:36-77, without the four that are not used in any table. -/
def ANIM_NS := "urn:oasis:names:tc:opendocument:xmlns:animation:1.0".toList
def CHART_NS := "urn:oasis:names:tc:opendocument:xmlns:chart:1.0".toList
def CONFIG_NS := "urn:oasis:names:tc:opendocument:xmlns:config:1.0".toList
def CSS3T_NS := "http://www.w3.org/TR/css3-text/".toList
def DC_NS := "http://purl.org/dc/elements/1.1/".toList
def DOM_NS := "http://www.w3.org/2001/xml-events".toList
def DR3D_NS := "urn:oasis:names:tc:opendocument:xmlns:dr3d:1.0".toList
def DRAW_NS := "urn:oasis:names:tc:opendocument:xmlns:drawing:1.0".toList
def DRAWOOO_NS := "http://openoffice.org/2010/draw".toList
def FIELD_NS := "urn:openoffice:names:experimental:ooo-ms-interop:xmlns:field:1.0".toList
def FO_NS := "urn:oasis:names:tc:opendocument:xmlns:xsl-fo-compatible:1.0".toList
def FORM_NS := "urn:oasis:names:tc:opendocument:xmlns:form:1.0".toList
def FORMX_NS := "urn:openoffice:names:experimental:ooxml-odf-interop:xmlns:form:1.0".toList
def GRDDL_NS := "http://www.w3.org/2003/g/data-view#".toList
def MANIFEST_NS := "urn:oasis:names:tc:opendocument:xmlns:manifest:1.0".toList
def MATH_NS := "http://www.w3.org/1998/Math/MathML".toList
def META_NS := "urn:oasis:names:tc:opendocument:xmlns:meta:1.0".toList
def NUMBERS_NS := "urn:oasis:names:tc:opendocument:xmlns:datastyle:1.0".toList
def OFFICE_NS := "urn:oasis:names:tc:opendocument:xmlns:office:1.0".toList
def OFFICEOOO_NS := "http://openoffice.org/2009/office".toList
def OF_NS := "urn:oasis:names:tc:opendocument:xmlns:of:1.2".toList
def OOO_NS := "http://openoffice.org/2004/office".toList
def OOOW_NS := "http://openoffice.org/2004/writer".toList
def OOOC_NS := "http://openoffice.org/2004/calc".toList
def PRESENTATION_NS := "urn:oasis:names:tc:opendocument:xmlns:presentation:1.0".toList
def RPT_NS := "http://openoffice.org/2005/report".toList
def SCRIPT_NS := "urn:oasis:names:tc:opendocument:xmlns:script:1.0".toList
def SMIL_NS := "urn:oasis:names:tc:opendocument:xmlns:smil-compatible:1.0".toList
def STYLE_NS := "urn:oasis:names:tc:opendocument:xmlns:style:1.0".toList
def SVG_NS := "urn:oasis:names:tc:opendocument:xmlns:svg-compatible:1.0".toList
def TABLE_NS := "urn:oasis:names:tc:opendocument:xmlns:table:1.0".toList
def TABLEOOO_NS := "http://openoffice.org/2009/table".toList
def TEXT_NS := "urn:oasis:names:tc:opendocument:xmlns:text:1.0".toList
def XFORMS_NS := "http://www.w3.org/2002/xforms".toList
def XHTML_NS := "http://www.w3.org/1999/xhtml".toList
def XLINKS_NS := "http://www.w3.org/1999/xlink".toList
def XSD_NS := "http://www.w3.org/2001/XMLSchema".toList
def XSI_NS := "http://www.w3.org/2001/XMLSchema-instance".toList

/-- `META_NSMAP`, const.py:79-86 -/
def META_NSMAP : Dict Str Str := [
  ("office".toList, OFFICE_NS),
  ("xlink".toList, XLINKS_NS),
  ("dc".toList, DC_NS),
  ("meta".toList, META_NS),
  ("ooo".toList, OOO_NS),
  ("grddl".toList, GRDDL_NS)
]

/-- `MANIFEST_NSMAP`, const.py:88-90 -/
def MANIFEST_NSMAP : Dict Str Str := [
  ("manifest".toList, MANIFEST_NS)
]

/-- `STYLES_NSMAP`, const.py:92-119 -/
def STYLES_NSMAP : Dict Str Str := [
  ("style".toList, STYLE_NS),
  ("text".toList, TEXT_NS),
  ("table".toList, TABLE_NS),
  ("draw".toList, DRAW_NS),
  ("fo".toList, FO_NS),
  ("xlink".toList, XLINKS_NS),
  ("dc".toList, DC_NS),
  ("meta".toList, META_NS),
  ("number".toList, NUMBERS_NS),
  ("svg".toList, SVG_NS),
  ("chart".toList, CHART_NS),
  ("dr3d".toList, DR3D_NS),
  ("math".toList, MATH_NS),
  ("form".toList, FORM_NS),
  ("script".toList, SCRIPT_NS),
  ("ooo".toList, OOO_NS),
  ("ooow".toList, OOOW_NS),
  ("oooc".toList, OOOC_NS),
  ("office".toList, OFFICE_NS),
  ("dom".toList, DOM_NS),
  ("rpt".toList, RPT_NS),
  ("of".toList, OF_NS),
  ("xhtml".toList, XHTML_NS),
  ("grddl".toList, GRDDL_NS),
  ("tableooo".toList, TABLEOOO_NS),
  ("css3t".toList, CSS3T_NS)
]

/-- `SETTINGS_NSMAP`, const.py:121-126 -/
def SETTINGS_NSMAP : Dict Str Str := [
  ("office".toList, OFFICE_NS),
  ("xlink".toList, XLINKS_NS),
  ("config".toList, CONFIG_NS),
  ("ooo".toList, OOO_NS)
]

/-- `TEXT_NSMAP`, const.py:128-161 -/
def TEXT_NSMAP : Dict Str Str := [
  ("office".toList, OFFICE_NS),
  ("style".toList, STYLE_NS),
  ("text".toList, TEXT_NS),
  ("table".toList, TABLE_NS),
  ("draw".toList, DRAW_NS),
  ("fo".toList, FO_NS),
  ("xlink".toList, XLINKS_NS),
  ("dc".toList, DC_NS),
  ("meta".toList, META_NS),
  ("number".toList, NUMBERS_NS),
  ("presentation".toList, PRESENTATION_NS),
  ("svg".toList, SVG_NS),
  ("chart".toList, CHART_NS),
  ("dr3d".toList, DR3D_NS),
  ("math".toList, MATH_NS),
  ("form".toList, FORM_NS),
  ("script".toList, SCRIPT_NS),
  ("ooo".toList, OOO_NS),
  ("ooow".toList, OOOW_NS),
  ("oooc".toList, OOOC_NS),
  ("dom".toList, DOM_NS),
  ("xforms".toList, XFORMS_NS),
  ("xsd".toList, XSD_NS),
  ("xsi".toList, XSI_NS),
  ("rpt".toList, RPT_NS),
  ("of".toList, OF_NS),
  ("xhtml".toList, XHTML_NS),
  ("grddl".toList, GRDDL_NS),
  ("field".toList, FIELD_NS),
  ("formx".toList, FORMX_NS),
  ("tableooo".toList, TABLEOOO_NS),
  ("css3t".toList, CSS3T_NS)
]

/-- `SPREADSHEET_NSMAP`, const.py:163-165, before its update -/
def SPREADSHEET_NSMAP0 : Dict Str Str := [
  ("presentation".toList, PRESENTATION_NS)
]

/-- const.py:163-166 -/
def SPREADSHEET_NSMAP := SPREADSHEET_NSMAP0.update TEXT_NSMAP

/-- `PRESENTATION_NSMAP`, const.py:168-173, before its update -/
def PRESENTATION_NSMAP0 : Dict Str Str := [
  ("smil".toList, SMIL_NS),
  ("anim".toList, ANIM_NS),
  ("officeooo".toList, OFFICEOOO_NS),
  ("drawooo".toList, DRAWOOO_NS)
]

/-- const.py:168-174 -/
def PRESENTATION_NSMAP := PRESENTATION_NSMAP0.update SPREADSHEET_NSMAP

/-- const.py:176 -/
def GRAPHICS_NSMAP := PRESENTATION_NSMAP

/-- `ALL_NSMAP`, const.py:178-186 -/
def ALL_NSMAP : Dict Str Str :=
  [META_NSMAP, MANIFEST_NSMAP, STYLES_NSMAP, SETTINGS_NSMAP, TEXT_NSMAP, SPREADSHEET_NSMAP,
    PRESENTATION_NSMAP, GRAPHICS_NSMAP].foldl Dict.update []

/-- The global `XML`, xmlns.py:64 -/
def XML : NS := create ALL_NSMAP

end Verif.Xmlns
