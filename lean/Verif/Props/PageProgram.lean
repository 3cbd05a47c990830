import Verif.Proofs.PageSlides
/-!
# C83: drawings and presentations that are made by programs

A program opens a document or makes a new one, makes pages, puts them into `doc.pages`, fetches, replaces and deletes pages,
does with them whatever can be done with the objects of C81, and saves the document.
-/
namespace Verif.PageProg
open Verif Verif.Lxml Forest Verif.Whole Verif.Document
open Verif.TextProg (OK Frame Fits Kept Loose Step Acts Does SameBelow)
set_option linter.unusedSimpArgs false

variable {pick : Nat → List Nat → Nat} {L : XLib}

/-! ## Whole programs -/

/-- **C83**, one statement: whether it raises or not, the program is in order, the frame of the document is unchanged and
the objects of the program remain. -/
theorem C83_step (hpick : ∀ k l, pick k l ∉ l) {p : Prog} (h : Sound L p) {a : Act} (ha : Allowed p a) :
    Sound L (exec pick a p).1 ∧ Frame p.text (exec pick a p).1.text ∧ p.text.objs <+: (exec pick a p).1.text.objs := by
  obtain ⟨h1, h2, h3⟩ := acts_ok h.ok fun F tag hfit => (exec_keeps hpick hfit h.inv ha).acts
  obtain ⟨F, tag, -, hfit⟩ := h.ok.fits
  exact ⟨⟨h1, (exec_keeps hpick hfit h.inv ha).inv⟩, h2, h3⟩

/-- Programs with a document: statements with pages, and whatever the programs of C81 do (statements with text objects,
changes of the meta data, other files of the package, its name, saving). -/
inductive Runs (L : XLib) (pick : Nat → List Nat → Nat) : Prog → Prog → Prop
  | done (p : Prog) : Runs L pick p p
  | act {p p' : Prog} (a : Act) (ha : Allowed p a) (h : Runs L pick (exec pick a p).1 p') : Runs L pick p p'
  | text {p p' : Prog} {q : TextProg.Prog} (hq : TextProg.Runs L p.text q) (h : Runs L pick { p with text := q } p') :
      Runs L pick p p'

/-- **C83**, whole programs: nothing but the content of the body and the objects of the program is changed in the trees of
the document. -/
theorem C83_runs (hpick : ∀ k l, pick k l ∉ l) {p p' : Prog} (h : Sound L p) (hr : Runs L pick p p') :
    Sound L p' ∧ Frame p.text p'.text := by
  induction hr with
  | done p => exact ⟨h, .refl _⟩
  | act a ha _ ih =>
    obtain ⟨h1, h2, -⟩ := C83_step hpick h ha
    exact ⟨(ih h1).1, h2.trans (ih h1).2⟩
  | text hq _ ih =>
    obtain ⟨h1, h2⟩ := TextProg.C81_runs h.ok hq
    obtain ⟨g1, g2⟩ := ih ⟨h1, h.inv⟩
    exact ⟨g1, h2.trans g2⟩

/-- **C83**, which documents have pages: drawings and presentations, templates included; the pages are those of the
body. -/
theorem C83_pages {p : Prog} (h : Sound L p) : ∃ tag, MIMETYPE_BODYTAG_MAP.get p.text.session.mimetype = some tag ∧
    p.text.session.tree.pages = if tag = "office:drawing" ∨ tag = "office:presentation" then
      some p.text.session.tree.body.node else none := by
  obtain ⟨F, tag, htag, hfit⟩ := h.ok.fits
  refine ⟨tag, htag, ?_⟩
  rw [hfit.kept.refs.pages, hfit.kept.refs.body.pages]
  simp

/-! ## The statements -/

/-- The program with other trees -/
def Prog.setWorld (p : Prog) (W : World) : Prog :=
  { p with text := { p.text with session := { p.text.session with world := W } } }

/-- **C83**, `doc.pages.append(page)` and `doc.pages += page`: the page becomes the last page, also when it has been a page
before; all else stays as it is.  Other objects are refused. -/
theorem C83_append {p : Prog} (h : Sound L p) {b i n : Nat} (hb : p.text.session.tree.pages = some b)
    (hi : p.text.objs[i]? = some n) {l : List Nat} (hl : children p.world b = some l) :
    (Parts.tagAt p.world n = some "draw:page" → ∃ W', exec pick (.append i) p = (p.setWorld W', .ok ()) ∧
      pageList (p.setWorld W') = less n (pageList p) ++ [n] ∧ Moved p.world W' n b (less n l ++ [n])) ∧
    (Parts.tagAt p.world n ≠ some "draw:page" → exec pick (.append i) p = (p, .error .TypeError)) := by
  obtain ⟨F, tag, -, hfit⟩ := h.ok.fits
  have hbn := pages_body hfit hb
  subst hbn
  have hn := (hfit.objs n (List.mem_of_getElem? hi)).mem
  have hno := TextProg.object_body hfit (List.mem_of_getElem? hi)
  have hg := good hfit h.inv
  have htag : Parts.tagAt p.world n = (p.world.find n).map fun t => t.1.tag := by
    unfold Parts.tagAt Lxml.content
    rw [Option.map_map]; rfl
  constructor
  · intro ht
    obtain ⟨s', e1, e2, e3, -, e5⟩ := Pages.C30_append hg hn ht hno hl
    rw [htag] at ht
    refine ⟨s'.world, ?_, e3, e5⟩
    show (do let c ← child i; let _ ← onPages fun pages => Pages.append pages c : Py Prog Unit) p = _
    rw [Py.bind_ok (child_ok hi), ht]
    have e1' : Pages.append (Pages.pages p.text.session.tree.body.node) ⟨some "draw:page", n⟩ ⟨p.world, p.heap⟩ = (s', .ok n) := e1
    rw [Py.bind_ok (onPages_ok hb e1'), e2]; rfl
  · intro ht
    rw [htag] at ht
    show (do let c ← child i; let _ ← onPages fun pages => Pages.append pages c : Py Prog Unit) p = _
    rw [Py.bind_ok (child_ok hi)]
    have e1 := (Pages.C30_refused (pick := pick) (c := Pages.pages p.text.session.tree.body.node) (s := ⟨p.world, p.heap⟩)
      ⟨(p.world.find n).map fun t => t.1.tag, n⟩ ht .other).1
    rw [Py.bind_error (onPages_ok hb e1)]; rfl

/-- **C83**, `doc.pages.insert(index, object)`: the index counts all children of the body, and the object need not be a
page. -/
theorem C83_insert {p : Prog} (h : Sound L p) {b i n : Nat} (hb : p.text.session.tree.pages = some b)
    (hi : p.text.objs[i]? = some n) {l : List Nat} (hl : children p.world b = some l) {k : Nat} (hk : k ≤ l.length) :
    ∃ W', exec pick (.insert k i) p = (p.setWorld W', .ok ()) ∧
      Moved p.world W' n b (less n (l.take k) ++ n :: less n (l.drop k)) := by
  obtain ⟨F, tag, -, hfit⟩ := h.ok.fits
  have hbn := pages_body hfit hb
  subst hbn
  have hn := (hfit.objs n (List.mem_of_getElem? hi)).mem
  have hno := TextProg.object_body hfit (List.mem_of_getElem? hi)
  obtain ⟨W', e, m⟩ := Base.insert_lemma hfit.kept.once hl hn hno (i := (k : Int))
  refine ⟨W', ?_, ?_⟩
  · show (do let c ← child i; let _ ← onPages fun pages => Pages.insert pages k c.xmlnode : Py Prog Unit) p = _
    rw [Py.bind_ok (child_ok hi)]
    have e1 : Pages.insert (Pages.pages p.text.session.tree.body.node) k n ⟨p.world, p.heap⟩ = (⟨W', p.heap⟩, .ok n) := by
      unfold Pages.insert
      rw [Py.bind_ok (Pages.onWorld_ok e)]; rfl
    rw [Py.bind_ok (onPages_ok hb e1)]; rfl
  · have hpy : pyIdx l.length (k : Int) = if k < l.length then some k else none := by
      unfold pyIdx; simp
    rw [hpy] at m
    by_cases hkk : k < l.length
    · simpa [hkk] using m
    · have : k = l.length := by omega
      subst this
      simpa [less] using m

/-- **C83**, `doc.pages[key]`: the page that the key means becomes an object of the program; nothing else changes.  Wrong
keys raise their exceptions. -/
theorem C83_get (hpick : ∀ k l, pick k l ∉ l) {p : Prog} (h : Sound L p) {b : Nat}
    (hb : p.text.session.tree.pages = some b) (key : Pages.Key) :
    (∀ e, Pages.lookup (pageList p) (pageName p) key = .error e → exec pick (.get key) p = (p, .error e)) ∧
    ∀ n, Pages.lookup (pageList p) (pageName p) key = .ok n → ∃ H,
      exec pick (.get key) p = (⟨{ p.text with objs := p.text.objs ++ [n] }, H⟩, .ok ()) := by
  obtain ⟨F, tag, -, hfit⟩ := h.ok.fits
  have hbn := pages_body hfit hb
  subst hbn
  have hg := Pages.getitem_ok hpick (Pages.pages p.text.session.tree.body.node) (s := ⟨p.world, p.heap⟩) hfit.kept.once h.inv
    (body_mem hfit) key
  constructor
  · intro e he
    have he' : Pages.lookup (Pages.chosen "draw:page" p.world p.text.session.tree.body.node)
      (Pages.attrOf p.world "draw:name") key = .error e := he
    simp only [Pages.pages] at hg
    rw [he'] at hg
    show (onPages (fun pages => Pages.getitem pick pages key) >>= take) p = _
    rw [Py.bind_error (onPages_ok hb hg)]; rfl
  · intro n he
    have he' : Pages.lookup (Pages.chosen "draw:page" p.world p.text.session.tree.body.node)
      (Pages.attrOf p.world "draw:name") key = .ok n := he
    simp only [Pages.pages] at hg
    rw [he'] at hg
    obtain ⟨s', o, e1, e2, e3⟩ := hg
    refine ⟨s'.heap, ?_⟩
    show (onPages (fun pages => Pages.getitem pick pages key) >>= take) p = _
    rw [Py.bind_ok (onPages_ok hb e1)]
    have hw : s'.world = p.text.session.world := e2.world
    unfold take
    rw [hw, e3.node e2.inv]

/-- **C83**, `del doc.pages[key]`: the page leaves the document, with all that is in it, and all else stays as it is. -/
theorem C83_delete (hpick : ∀ k l, pick k l ∉ l) {p : Prog} (h : Sound L p) {b : Nat}
    (hb : p.text.session.tree.pages = some b) (key : Pages.Key) :
    (∀ e, Pages.lookup (pageList p) (pageName p) key = .error e → exec pick (.delete key) p = (p, .error e)) ∧
    ∀ n, Pages.lookup (pageList p) (pageName p) key = .ok n → ∃ W' H,
      exec pick (.delete key) p = ({ p.setWorld W' with heap := H }, .ok ()) ∧
      pageList (p.setWorld W') = (pageList p).erase n ∧ Base.Removed p.world W' n ∧
      ∀ i, content W' i = content p.world i := by
  obtain ⟨F, tag, -, hfit⟩ := h.ok.fits
  have hbn := pages_body hfit hb
  subst hbn
  obtain ⟨h1, h2⟩ := Pages.C30_del hpick (good hfit h.inv) key
  constructor
  · intro e he
    have := h1 e he
    show onPages (fun pages => Pages.delitem pick pages key) p = _
    rw [onPages_ok hb this]; rfl
  · intro n he
    obtain ⟨s', e1, -, -, e4, -, e6, e7⟩ := h2 n he
    refine ⟨s'.world, s'.heap, ?_, e4, e6, e7⟩
    show onPages (fun pages => Pages.delitem pick pages key) p = _
    rw [onPages_ok hb e1]; rfl

/-- **C83**, `doc.pages[key] = page`: the page takes the place of the page that the key means (and leaves its former place);
all else stays as it is.  Other objects are refused, also with wrong keys. -/
theorem C83_set (hpick : ∀ k l, pick k l ∉ l) {p : Prog} (h : Sound L p) {b i n : Nat}
    (hb : p.text.session.tree.pages = some b) (hi : p.text.objs[i]? = some n) (key : Pages.Key) :
    (Parts.tagAt p.world n ≠ some "draw:page" → exec pick (.set key i) p = (p, .error .TypeError)) ∧
    (Parts.tagAt p.world n = some "draw:page" →
      (∀ e, Pages.lookup (pageList p) (pageName p) key = .error e → exec pick (.set key i) p = (p, .error e)) ∧
      ∀ old, Pages.lookup (pageList p) (pageName p) key = .ok old → ∃ W' H,
        exec pick (.set key i) p = ({ p.setWorld W' with heap := H }, .ok ()) ∧ (old = n → W' = p.world) ∧
        (old ≠ n → pageList (p.setWorld W') = Pages.swap old n (pageList p) ∧
          ∃ A B, children p.world b = some (A ++ old :: B) ∧
            Base.Replaced p.world W' old n b (less n A ++ n :: less n B))) := by
  obtain ⟨F, tag, -, hfit⟩ := h.ok.fits
  have hbn := pages_body hfit hb
  subst hbn
  have hn := (hfit.objs n (List.mem_of_getElem? hi)).mem
  have hno := TextProg.object_body hfit (List.mem_of_getElem? hi)
  have htag : Parts.tagAt p.world n = (p.world.find n).map fun t => t.1.tag := by
    unfold Parts.tagAt Lxml.content
    rw [Option.map_map]; rfl
  have hex : exec pick (.set key i) p = onPages (fun pages => Pages.setitem pick pages key
      ⟨Parts.tagAt p.world n, n⟩) p := by
    show (do let c ← child i; onPages fun pages => Pages.setitem pick pages key c : Py Prog Unit) p = _
    rw [Py.bind_ok (child_ok hi), htag]
  constructor
  · intro ht
    rw [hex, onPages_ok hb (Pages.C30_refused (pick := pick) (c := Pages.pages p.text.session.tree.body.node)
      (s := ⟨p.world, p.heap⟩) ⟨Parts.tagAt p.world n, n⟩ ht key).2]; rfl
  · intro ht
    obtain ⟨h1, h2⟩ := Pages.C30_set hpick (good hfit h.inv) key hn ht hno
    rw [hex, ht]
    constructor
    · intro e he
      rw [onPages_ok hb (h1 e he)]; rfl
    · intro old he
      obtain ⟨s', e1, -, -, e4, e5⟩ := h2 old he
      refine ⟨s'.world, s'.heap, ?_, e4, fun hne => ?_⟩
      · rw [onPages_ok hb e1]; rfl
      · obtain ⟨g1, -, g3⟩ := e5 hne
        exact ⟨g1, g3⟩

/-- **C83**, documents without pages and objects that do not exist: the statements raise and change nothing. -/
theorem C83_errors {p : Prog} :
    (p.text.session.tree.pages = none → (∀ key, exec pick (.get key) p = (p, .error .AttributeError) ∧
      exec pick (.delete key) p = (p, .error .AttributeError)) ∧ ∀ i n, p.text.objs[i]? = some n →
      exec pick (.append i) p = (p, .error .AttributeError) ∧
      (∀ k, exec pick (.insert k i) p = (p, .error .AttributeError)) ∧
      ∀ key, exec pick (.set key i) p = (p, .error .AttributeError)) ∧
    ∀ i, p.text.objs[i]? = none → exec pick (.append i) p = (p, .error .NameError) ∧
      (∀ k, exec pick (.insert k i) p = (p, .error .NameError)) ∧
      ∀ key, exec pick (.set key i) p = (p, .error .NameError) := by
  constructor
  · intro hb
    have hp : ∀ {α : Type} (m : Pages.Container → Py Pages.S α), onPages m p = (p, .error .AttributeError) := by
      intro α m
      unfold onPages; rw [hb]
    refine ⟨fun key => ⟨?_, hp (fun pages => Pages.delitem pick pages key)⟩, fun i n hi => ⟨?_, fun k => ?_, fun key => ?_⟩⟩
    · show (onPages (fun pages => Pages.getitem pick pages key) >>= take) p = _
      rw [Py.bind_error (hp _)]
    · show (do let c ← child i; let _ ← onPages fun pages => Pages.append pages c : Py Prog Unit) p = _
      rw [Py.bind_ok (child_ok hi), Py.bind_error (hp _)]
    · show (do let c ← child i; let _ ← onPages fun pages => Pages.insert pages k c.xmlnode : Py Prog Unit) p = _
      rw [Py.bind_ok (child_ok hi), Py.bind_error (hp _)]
    · show (do let c ← child i; onPages fun pages => Pages.setitem pick pages key c : Py Prog Unit) p = _
      rw [Py.bind_ok (child_ok hi), hp]
  · intro i hi
    refine ⟨?_, fun k => ?_, fun key => ?_⟩
    · show (do let c ← child i; let _ ← onPages fun pages => Pages.append pages c : Py Prog Unit) p = _
      rw [Py.bind_error (child_none hi)]
    · show (do let c ← child i; let _ ← onPages fun pages => Pages.insert pages k c.xmlnode : Py Prog Unit) p = _
      rw [Py.bind_error (child_none hi)]
    · show (do let c ← child i; onPages fun pages => Pages.setitem pick pages key c : Py Prog Unit) p = _
      rw [Py.bind_error (child_none hi)]

/-- **C83**, `DrawingPage(name)` and `PresentationPage(name)`: a new empty page with this name is an object of the program; no
document has it, and all else stays as it is.  The empty name is refused. -/
theorem C83_page {p : Prog} (h : Sound L p) (name : Str) :
    (name ≠ [] → ∃ W' n, n ∉ ids p.world ∧
      exec pick (.page name) p = (⟨{ p.text with session := { p.text.session with world := W' }, objs := p.text.objs ++ [n] }, p.heap⟩,
        .ok ()) ∧ W' = p.world ++ single ({ id := n, tag := "draw:page", attrs := [("draw:name", name)] }, .nil)) ∧
    (name = [] → (exec pick (.page name) p).2 = .error .ValueError ∧ (exec pick (.page name) p).1.text.objs = p.text.objs) := by
  obtain ⟨F, tag, -, hfit⟩ := h.ok.fits
  constructor
  · intro hs
    obtain ⟨W', e1, m1⟩ := newPage_made hfit.kept.once hs
    refine ⟨W', _, TextProg.new_not (Nat.le_refl _), ?_, m1.world⟩
    show onText (do let _ ← TextProg.keep (newPage name)) p = _
    rw [onText_ok (keep_ok e1)]
  · rintro rfl
    exact ⟨rfl, rfl⟩

/-! ## Saving and opening again -/

/-- A program that begins with the document -/
def start (s : Session) (H : WrapCache.Heap) : Prog := ⟨⟨s, []⟩, H⟩

/-- **C83**, new documents and opened ones -/
theorem C83_start {L : XLib} (hl : L.Lawful) {H : WrapCache.Heap} (hH : WrapCache.Inv H) :
    (∀ fs k mt s, newWhole L fs k mt = .ok s → mt ∈ MIMETYPE_BODYTAG_MAP.keys → Sound L (start s H)) ∧
    ∀ fs k src W s, (ids W).Nodup → openWhole L fs k src W = .ok s → Sound L (start s H) := by
  constructor
  · intro fs k mt s h hmt
    obtain ⟨s0, e1, e2, -⟩ := TextProg.C81_new hl fs k hmt
    rw [h] at e1
    cases e1
    exact ⟨e2, hH⟩
  · intro fs k src W s hn h
    exact ⟨TextProg.C81_open hl hn h, hH⟩

/-- The page of the one document and the page of the other have the same elements at the same places with the same tags,
attributes and texts. -/
def SamePage (p q : Prog) (n m : Nat) : Prop :=
  ∃ t u, find n p.world = some t ∧ find m q.world = some u ∧ t.1.tag = u.1.tag ∧ t.1.attrs = u.1.attrs ∧ SameBelow t u

/-- The same key means the same page, or raises the same exception. -/
def SameKey (p q : Prog) (key : Pages.Key) : Prop :=
  match Pages.lookup (pageList p) (pageName p) key, Pages.lookup (pageList q) (pageName q) key with
  | .ok n, .ok m => SamePage p q n m
  | .error e, .error e' => e = e'
  | _, _ => False

theorem list_file {p q : Prog} (hp : (ids p.world).Nodup) (hq : (ids q.world).Nodup) {b c : Tree}
    (hb : find p.text.session.tree.body.node p.world = some b) (hc : find q.text.session.tree.body.node q.world = some c)
    (h : data c = shape b) : List.Forall₂ (SamePage p q) (pageList p) (pageList q) := by
  have hk := TextProg.kids_file h
  have e1 : pageList p = (b.2.toList.filter fun u => u.1.tag = "draw:page").map fun u => u.1.id := Pages.chosen_eq hp hb _
  have e2 : pageList q = (c.2.toList.filter fun u => u.1.tag = "draw:page").map fun u => u.1.id := Pages.chosen_eq hq hc _
  rw [e1, e2]
  have k1 : ∀ u ∈ b.2.toList, find u.1.id p.world = some u := fun u hu => Pages.find_child hp hb hu
  have k2 : ∀ u ∈ c.2.toList, find u.1.id q.world = some u := fun u hu => Pages.find_child hq hc hu
  generalize b.2.toList = xs at *
  generalize c.2.toList = ys at *
  clear e1 e2
  induction hk with
  | nil => exact .nil
  | @cons x y xs ys hxy _ ih =>
    have ih := ih (fun u hu => k1 u (by simp [hu])) fun u hu => k2 u (by simp [hu])
    have hs := TextProg.same_file hxy
    simp only [List.filter_cons, hs.tag]
    split
    · refine .cons ⟨x, y, k1 x (by simp), k2 y (by simp), hs.tag.symm, hs.attrs.symm, TextProg.same_below hxy⟩ ih
    · exact ih

theorem page_name {p q : Prog} {n m : Nat} (h : SamePage p q n m) : pageName q m = pageName p n := by
  obtain ⟨t, u, h1, h2, -, h4, -⟩ := h
  unfold pageName content
  rw [h1, h2]
  simp only [Option.map_some, Option.bind_some, Elem.get, h4]

theorem lookup_file {p q : Prog} (h : List.Forall₂ (SamePage p q) (pageList p) (pageList q)) (key : Pages.Key) :
    SameKey p q key := by
  have hlen := h.length_eq
  have hget : ∀ {i : Nat} (h1 : i < (pageList p).length) (h2 : i < (pageList q).length),
      SamePage p q ((pageList p)[i]) ((pageList q)[i]) := fun h1 h2 => h.get h1 h2
  unfold SameKey
  cases key with
  | other => rfl
  | int i =>
    simp only [Pages.lookup, ← hlen]
    by_cases c1 : 0 ≤ i ∧ i < (pageList p).length
    · simp only [c1, and_self, dif_pos]
      exact hget _ _
    · simp only [dif_neg c1]
      by_cases c2 : i < 0 ∧ -((pageList p).length : Int) ≤ i
      · simp only [c2, and_self, dif_pos]
        exact hget _ _
      · simp only [dif_neg c2]
  | str s =>
    simp only [Pages.lookup]
    clear hlen hget
    generalize pageList p = a at h
    generalize pageList q = b at h
    induction h with
    | nil => rfl
    | @cons n m _ _ hnm _ ih =>
      simp only [List.find?_cons, page_name hnm]
      by_cases hs : pageName p n = some s
      · simp only [hs, decide_true]
        exact hnm
      · simp only [hs, decide_false]
        exact ih

/-- **C83**, saving and opening again: the pages are the same, in the same order, each with all that is on it; and every
key means the same page. -/
theorem C83_reopen {L : XLib} (hl : L.Lawful) {p p' : Prog} (h : Sound L p) {env : Package.Env} {k : Clock}
    {backup : Bool} (hs : save L env k backup p = (p', .ok ())) (hw : Writable p'.text.session) (k' : Clock) {W0 : World}
    (h0 : (ids W0).Nodup) {H : WrapCache.Heap} (hH : WrapCache.Inv H) :
    ∃ f s'', p.text.session.docname = some f ∧ openWhole L p'.text.session.w.fs k' (.file (some f)) W0 = .ok s'' ∧
      Sound L (start s'' H) ∧ s''.mimetype = p.text.session.mimetype ∧
      List.Forall₂ (SamePage p (start s'' H)) (pageList p) (pageList (start s'' H)) ∧
      ∀ key, SameKey p (start s'' H) key := by
  have hs1 : TextProg.save L env k backup p.text = (p'.text, .ok ()) := by
    unfold save onText at hs
    simp only [Prod.mk.injEq] at hs
    rw [← hs.1]
    exact Prod.ext rfl hs.2
  obtain ⟨f, s'', b, b'', e1, e2, e3, e4, e5, e6, e7, -⟩ := TextProg.C81_reopen hl h.ok hs1 hw k' h0
  obtain ⟨F, tag, -, hfit⟩ := h.ok.fits
  obtain ⟨F', tag', -, hfit'⟩ := e3.fits
  have hl := list_file (p := p) (q := start s'' H) hfit.kept.once hfit'.kept.once e5 e6 e7
  exact ⟨f, s'', e1, e2, ⟨e3, hH⟩, e4, hl, lookup_file hl⟩

/-- **C83** for `saveas` -/
theorem C83_reopen_as {L : XLib} (hl : L.Lawful) {p p' : Prog} (h : Sound L p) {env : Package.Env} {k : Clock}
    {backup : Bool} {f : Package.Path} (hs : saveas L env k backup f p = (p', .ok ())) (hw : Writable p'.text.session)
    (k' : Clock) {W0 : World} (h0 : (ids W0).Nodup) {H : WrapCache.Heap} (hH : WrapCache.Inv H) :
    ∃ s'', openWhole L p'.text.session.w.fs k' (.file (some f)) W0 = .ok s'' ∧
      Sound L (start s'' H) ∧ s''.mimetype = p.text.session.mimetype ∧
      List.Forall₂ (SamePage p (start s'' H)) (pageList p) (pageList (start s'' H)) ∧
      ∀ key, SameKey p (start s'' H) key := by
  have hs1 : TextProg.saveas L env k backup f p.text = (p'.text, .ok ()) := by
    unfold saveas onText at hs
    simp only [Prod.mk.injEq] at hs
    rw [← hs.1]
    exact Prod.ext rfl hs.2
  obtain ⟨s'', b, b'', e2, e3, e4, e5, e6, e7, -⟩ := TextProg.C81_reopen_as hl h.ok hs1 hw k' h0
  obtain ⟨F, tag, -, hfit⟩ := h.ok.fits
  obtain ⟨F', tag', -, hfit'⟩ := e3.fits
  have hl := list_file (p := p) (q := start s'' H) hfit.kept.once hfit'.kept.once e5 e6 e7
  exact ⟨s'', e2, ⟨e3, hH⟩, e4, hl, lookup_file hl⟩

/-! ## Whole documents -/

/-- The bodies of new drawings and presentations, from the table of templates -/
theorem new_pages : ∀ q ∈ MIMETYPE_BODYTAG_MAP, q.2 = "office:drawing" ∨ q.2 = "office:presentation" →
    ∀ W d, Parts.packagedTree q.1 none none .nil = (W, .ok d) →
    legal W = true ∧ d.pages = some d.body.node ∧ ∀ t, find d.body.node W = some t →
      t.2.toList.map (fun u => (u.1.tag, u.2.toList.length)) = [("text:variable-decls", 0), ("text:user-field-decls", 0)] := by
  have hb : (MIMETYPE_BODYTAG_MAP.all fun q => (q.2 != "office:drawing" && q.2 != "office:presentation") ||
      match Parts.packagedTree q.1 none none .nil with
      | (_, .error _) => false
      | (W, .ok d) => legal W && d.pages == some d.body.node && match find d.body.node W with
        | none => true
        | some t => t.2.toList.map (fun u => (u.1.tag, u.2.toList.length)) ==
            [("text:variable-decls", 0), ("text:user-field-decls", 0)]) = true := by decide +kernel
  intro q hq hm W d hW
  have := List.all_eq_true.mp hb q hq
  rw [hW] at this
  have hm' : (q.2 != "office:drawing" && q.2 != "office:presentation") = false := by
    rcases hm with h | h <;> simp [h]
  simp only [hm', Bool.false_or, Bool.and_eq_true, beq_iff_eq] at this
  refine ⟨this.1.1, this.1.2, fun t ht => ?_⟩
  have h2 := this.2
  rw [ht] at h2
  simpa using h2

theorem shows_page_file {s : Slide} {t u : Tree} (h : data u = shape t) (hs : ShowsPage s t) : ShowsPage s u := by
  have hf := TextProg.same_file h
  refine ⟨hf.tag.trans hs.1, ?_, ?_⟩
  · have := hs.2.1
    simpa [Elem.get, hf.attrs] using this
  · have hk := TextProg.kids_file h
    have hb := hs.2.2
    clear * - hk hb
    generalize t.2.toList = xs at *
    generalize u.2.toList = ys at *
    generalize s.blocks = l at *
    induction hb generalizing ys with
    | nil => cases hk; exact .nil
    | cons c1 _ ih =>
      cases hk with
      | cons d1 d2 => exact .cons ((TextProg.shows_file d1).mpr c1) (ih _ d2)

/-- **C83**, whole drawings and presentations.  A new document, any pages with any paragraphs, headings and lists on them
appended to `doc.pages`, saved under a name and opened again: the document has these pages and no others, in the same order,
with the same names and with elements that show the blocks, in the same order.  The strings must be ones that XML can hold
(`C69_texts` tells which). -/
theorem C83_document {L : XLib} (hl : L.Lawful) (hpick : ∀ k l, pick k l ∉ l) (fs : Package.FS) {k k1 : Clock} (k2 : Clock)
    (hk : legalStr k.time = true ∧ legalStr k.time2 = true ∧ legalStr k.generator = true)
    (hk1 : legalStr k1.time = true ∧ legalStr k1.generator = true) {mt : Str} {tag : String}
    (hmt : MIMETYPE_BODYTAG_MAP.get mt = some tag) (htag : tag = "office:drawing" ∨ tag = "office:presentation")
    {l : List Slide} (hname : ∀ s ∈ l, s.name ≠ []) (hlegal : ∀ s ∈ l, s.Legal)
    (f : Package.Path) (env : Package.Env) (backup : Bool) (hsink : ∀ m, env.sink m = none) {tmp : Package.Path}
    (htmp : Package.tmpfilename env.names f fs = some tmp) (hne : tmp ≠ f) {H : WrapCache.Heap} (hH : WrapCache.Inv H) :
    ∃ s p1 p' s'' t'' v u new, newWhole L fs k mt = .ok s ∧
      TextProg.forEach (exec pick) (program 0 l) (start s H) = (p1, .ok ()) ∧
      saveas L env k1 backup f p1 = (p', .ok ()) ∧
      openWhole L p'.text.session.w.fs k2 (.file (some f)) .nil = .ok s'' ∧ s''.mimetype = mt ∧ Sound L (start s'' H) ∧
      find s''.tree.body.node s''.world = some t'' ∧ t''.1.tag = tag ∧ t''.2.toList = v :: u :: new ∧
      v.1.tag = "text:variable-decls" ∧ v.2 = .nil ∧ u.1.tag = "text:user-field-decls" ∧ u.2 = .nil ∧
      List.Forall₂ ShowsPage l new ∧ pageList (start s'' H) = new.map fun t => t.1.id := by
  have hmem : mt ∈ MIMETYPE_BODYTAG_MAP.keys := by
    rw [← Dict.get_isSome, hmt]; rfl
  obtain ⟨s, h1, h2, h3, h4, h5, h6, h7, h8, h9⟩ := new_ok (L := L) fs k hmem
  have h0 : Sound L (start s H) := (C83_start hl hH).1 fs k mt s h1 hmem
  obtain ⟨w1, w2, w3⟩ := new_pages (mt, tag) (Dict.get_mem hmt) htag s.world s.tree h8
  obtain ⟨F, tag', ht1, hfit⟩ := h0.ok.fits
  obtain ⟨t, ht⟩ := find_some_of_mem (body_mem hfit)
  obtain ⟨p1, kk, us, e1, e2, e3, e4, e5, e6, e7⟩ := slides_put (pick := pick) l (p := start s H) hfit.kept.once w2 ht hname
  have hruns : ∀ (l : List Act) (p p' : Prog), (∀ a ∈ l, ∀ p, Allowed p a) →
      TextProg.forEach (exec pick) l p = (p', .ok ()) → Runs L pick p p' := by
    intro l
    induction l with
    | nil => intro p p' _ h; cases h; exact .done _
    | cons a l ih =>
      intro p p' ha h
      have h : (do exec pick a; TextProg.forEach (exec pick) l : Py Prog Unit) p = (p', .ok ()) := h
      cases hx : exec pick a p with
      | mk q r =>
        cases r with
        | error e => rw [Py.bind_error hx] at h; cases h
        | ok _ =>
          rw [Py.bind_ok hx] at h
          exact .act a (ha a (by simp) p) (by rw [hx]; exact ih q p' (fun b hb => ha b (by simp [hb])) h)
  have hallow : ∀ a ∈ program 0 l, ∀ p, Allowed p a := by
    have hfill : ∀ (bs : List TextProg.Block) i n, ∀ a ∈ fill i n bs, ∀ p, Allowed p a := by
      intro bs
      induction bs with
      | nil => intro i n a ha; cases ha
      | cons b bs ih =>
        intro i n a ha p
        simp only [fill, List.mem_cons] at ha
        rcases ha with rfl | rfl | ha
        · cases b <;> trivial
        · trivial
        · exact ih _ _ a ha p
    generalize 0 = n
    clear * - hfill
    induction l generalizing n with
    | nil => intro a ha; cases ha
    | cons s l ih =>
      intro a ha p
      simp only [program, List.mem_cons, List.mem_append] at ha
      rcases ha with rfl | ha | rfl | ha
      · trivial
      · exact hfill _ _ _ a ha p
      · trivial
      · exact ih _ a ha p
  obtain ⟨o1, o2⟩ := C83_runs hpick h0 (hruns _ _ _ hallow e1)
  obtain ⟨q', s'', b, t'', hsave, r1, r2, r3, r4, r5, r6⟩ := TextProg.fresh_saved hl k2 hk hk1 hmem h1 o1.ok o2 e5
    (e7 w1 hlegal) f env backup hsink htmp hne
  obtain ⟨-, g2, -⟩ := e2.find hfit.kept.once ht
  rw [show find s.tree.body.node p1.world = some (t.1, kk) from g2] at r4
  obtain rfl := Option.some.inj r4
  have hkids := w3 t ht
  obtain ⟨v0, u0, hbefore, hv1, hv2, hu1, hu2⟩ : ∃ v u, t.2.toList = [v, u] ∧ v.1.tag = "text:variable-decls" ∧
      v.2.toList = [] ∧ u.1.tag = "text:user-field-decls" ∧ u.2.toList = [] := by
    generalize t.2.toList = before at hkids
    rcases before with _ | ⟨v, _ | ⟨u, _ | ⟨w, r⟩⟩⟩
    · simp at hkids
    · simp at hkids
    · simp only [List.map_cons, List.map_nil, List.cons.injEq, Prod.mk.injEq, List.length_eq_zero_iff, and_true] at hkids
      exact ⟨v, u, rfl, hkids.1.1, hkids.1.2, hkids.2.1, hkids.2.2⟩
    · simp at hkids
  have hm := TextProg.kids_file r6
  rw [show (t.1, kk).2.toList = _ from e3, hbefore] at hm
  have ht2 : t.1.tag = tag := by
    have ht1 : MIMETYPE_BODYTAG_MAP.get s.mimetype = some tag' := ht1
    rw [h4, hmt] at ht1
    cases ht1
    obtain ⟨A, B, -, h12, -⟩ := hfit.kept.refs.body.node
    have h12 : Parts.tagAt s.world s.tree.body.node = some tag := h12
    rw [Whole.tagAt_find (show find s.tree.body.node s.world = some t from ht)] at h12
    exact Option.some.inj h12
  have hnil : ∀ {x x' : Tree}, data x' = shape x → x.2.toList = [] → x'.2 = .nil := by
    intro x x' hx hx2
    have := TextProg.kids_file hx
    rw [hx2] at this
    have hx' : x'.2.toList = [] := by
      generalize x'.2.toList = z at this
      cases this; rfl
    exact toList_injective hx'
  have hsound : Sound L (start s'' H) := ⟨r2, hH⟩
  obtain ⟨F'', tag'', -, hfit''⟩ := r2.fits
  have hpl : pageList (start s'' H) = (t''.2.toList.filter fun u => u.1.tag = "draw:page").map fun u => u.1.id :=
    Pages.chosen_eq hfit''.kept.once r5 _
  generalize hk'' : t''.2.toList = ks at hm
  match ks, hm with
  | v :: u :: new'', .cons a1 (.cons a2 a3) =>
    have hv : v.1.tag = "text:variable-decls" := by rw [(TextProg.same_file a1).tag]; exact hv1
    have hu : u.1.tag = "text:user-field-decls" := by rw [(TextProg.same_file a2).tag]; exact hu1
    have hnew : List.Forall₂ ShowsPage l new'' := by
      have key : ∀ {l : List Slide} {xs ys : List Tree}, List.Forall₂ ShowsPage l xs →
          List.Forall₂ (fun x x' => data x' = shape x) xs ys → List.Forall₂ ShowsPage l ys := by
        intro l xs ys h
        induction h generalizing ys with
        | nil => intro h; cases h; exact .nil
        | cons c1 _ ih =>
          intro h
          cases h with
          | cons d1 d2 => exact .cons (shows_page_file d1 c1) (ih d2)
      exact key e4 a3
    refine ⟨s, p1, ⟨q', p1.heap⟩, s'', t'', v, u, new'', h1, e1, ?_, r1, r3, hsound, r5, ?_, hk'', hv, hnil a1 hv2, hu,
      hnil a2 hu2, hnew, ?_⟩
    · unfold saveas
      rw [onText_ok hsave]
    · rw [(TextProg.same_file r6).tag]; exact ht2
    · rw [hpl, hk'']
      have hall : new''.filter (fun u => u.1.tag = "draw:page") = new'' := by
        clear * - hnew
        induction hnew with
        | nil => rfl
        | cons c _ ih => rw [List.filter_cons, if_pos (by simp [c.1]), ih]
      rw [List.filter_cons, if_neg (by simp [hv]), List.filter_cons, if_neg (by simp [hu]), hall]

/-! ## Cases -/

def demoSlides : List Slide :=
  [⟨"One".toList, [.heading "Title".toList 1 [], .list ["a".toList, "b".toList] [] []]⟩, ⟨"Two".toList, []⟩]

def presentationType : Str := "application/vnd.oasis.opendocument.presentation".toList

/-- A presentation with two pages, a heading and a list on the first of them: made, saved and opened. -/
example : ∃ L : XLib, L.Lawful ∧ ∃ s p1 p' s'' t'' v u a b, newWhole L (fun _ => none) demoClock presentationType = .ok s ∧
    TextProg.forEach (exec Pages.exPick) (program 0 demoSlides) (start s {}) = (p1, .ok ()) ∧
    saveas L demoEnv demoClock false demoFile p1 = (p', .ok ()) ∧
    openWhole L p'.text.session.w.fs demoClock (.file (some demoFile)) .nil = .ok s'' ∧
    find s''.tree.body.node s''.world = some t'' ∧ t''.2.toList = [v, u, a, b] ∧
    a.1.get "draw:name" = some "One".toList ∧ b.1.get "draw:name" = some "Two".toList ∧ b.2.toList = [] ∧
    (∃ x y, a.2.toList = [x, y] ∧ Txt.plaintext x = some "Title".toList ∧
      (Txt.listItems y).map Txt.plaintext = [some "a".toList, some "b".toList]) ∧
    pageList (start s'' {}) = [a.1.id, b.1.id] := by
  obtain ⟨L, hl⟩ := xlib_exists
  obtain ⟨s, p1, p', s'', t'', v, u, new, a1, a2, a3, a4, -, -, a7, -, a9, -, -, -, -, a14, a15⟩ :=
    C83_document hl (pick := Pages.exPick) Pages.exPick_ok (fun _ => none) (k := demoClock) (k1 := demoClock) demoClock
    (by decide +kernel) (by decide +kernel) (mt := presentationType) (tag := "office:presentation") (by decide +kernel) (.inr rfl)
    (l := demoSlides) (by decide +kernel) (by
      intro s hs
      simp only [demoSlides, List.mem_cons, List.not_mem_nil, or_false] at hs
      rcases hs with rfl | rfl
      · refine ⟨by decide +kernel, fun b hb => ?_⟩
        simp only [List.mem_cons, List.not_mem_nil, or_false] at hb
        rcases hb with rfl | rfl <;> simp only [TextProg.Block.Legal] <;> decide +kernel
      · exact ⟨by decide +kernel, fun b hb => by cases hb⟩)
    demoFile demoEnv false (fun _ => rfl) (tmp := "x.tmp".toList) (by decide +kernel) (by decide +kernel)
    WrapCache.Inv.empty
  unfold demoSlides at a14
  obtain ⟨a, r1, b1, c14, rfl⟩ := List.forall₂_cons_left_iff.mp a14
  obtain ⟨b, r2, b2, d14, rfl⟩ := List.forall₂_cons_left_iff.mp c14
  obtain rfl := List.forall₂_nil_left_iff.mp d14
  obtain ⟨x, r3, x1, f14, hax⟩ := List.forall₂_cons_left_iff.mp b1.2.2
  obtain ⟨y, r4, y1, g14, rfl⟩ := List.forall₂_cons_left_iff.mp f14
  obtain rfl := List.forall₂_nil_left_iff.mp g14
  exact ⟨L, hl, s, p1, p', s'', t'', v, u, a, b, a1, a2, a3, a4, a7, a9, b1.2.1, b2.2.1,
    List.forall₂_nil_left_iff.mp b2.2.2, ⟨x, y, hax, x1.2.2.1, y1.2.2.1⟩, a15⟩

/-- What the statements leave of the pages: their names and the plain texts of what is on them; with the results of the
statements -/
def pagesAfter (l : List Act) : Option (List (Except Exc Unit) × List (Option Str × List (Option Str))) :=
  match Parts.packagedTree presentationType none none .nil with
  | (_, .error _) => none
  | (W, .ok d) =>
    let r := l.foldl (fun r a => ((exec Pages.exPick a r.1).1, r.2 ++ [(exec Pages.exPick a r.1).2]))
      ((⟨TextProg.progOf W d, {}⟩ : Prog), [])
    some (r.2, (pageList r.1).map fun n =>
      (pageName r.1 n, ((find n r.1.world).map fun t => t.2.toList.map Txt.plaintext).getD []))

set_option synthInstance.maxSize 512 in
/-- Pages are put in, one of them is fetched and gets a paragraph, one takes the place of another, and one is deleted; wrong
names, wrong indices, the empty name and an object that is no page raise and change nothing. -/
example : pagesAfter [.page "A".toList, .append 0, .page "B".toList, .append 1, .page "C".toList, .append 2,
      .get (.str "B".toList), .text (.paragraph "x".toList []), .text (.append (some 3) 4), .append 4,
      .page "D".toList, .set (.int (-1)) 5, .delete (.int 0), .get (.str "A".toList), .delete (.int 2), .page [],
      .set (.int 0) 4, .append 9, .append 1] =
    some ([.ok (), .ok (), .ok (), .ok (), .ok (), .ok (), .ok (), .ok (), .ok (), .error .TypeError, .ok (), .ok (), .ok (),
        .error .KeyError, .error .IndexError, .error .ValueError, .error .TypeError, .error .NameError, .ok ()],
      [(some "D".toList, []), (some "B".toList, [some "x".toList])]) := by decide +kernel

end Verif.PageProg
