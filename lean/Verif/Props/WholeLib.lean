import Verif.Props.WholeMore
import Verif.Props.DocumentLib
/-! # C69: the assumptions can be met; new documents -/
namespace Verif.Whole
open Verif Verif.Lxml Forest Verif.Package Verif.Document
set_option linter.unusedSimpArgs false

/-! ## There are libraries as assumed -/

/-- A forest as a list -/
def enc : Forest → List (Option Elem)
  | .nil => [none]
  | .cons e k r => some e :: (enc k ++ enc r)

theorem enc_inj : ∀ (F G : Forest) (l l' : List (Option Elem)), enc F ++ l = enc G ++ l' → F = G ∧ l = l'
  | .nil, .nil, l, l', h => by simpa [enc] using h
  | .nil, .cons _ _ _, l, l', h => by simp [enc] at h
  | .cons _ _ _, .nil, l, l', h => by simp [enc] at h
  | .cons e k r, .cons e' k' r', l, l', h => by
    simp only [enc, List.cons_append, List.cons.injEq, Option.some.injEq, List.append_assoc] at h
    obtain ⟨rfl, h⟩ := h
    obtain ⟨rfl, h1⟩ := enc_inj k k' _ _ h
    obtain ⟨rfl, h2⟩ := enc_inj r r' _ _ h1
    exact ⟨rfl, h2⟩

instance : Countable Forest := Function.Injective.countable (f := enc) fun F G h =>
  (enc_inj F G [] [] (by rw [h])).1

/-- New identities from `n` on -/
def renew (n : Nat) (t : Tree) : Tree := ({ t.1 with id := n }, (Forest.clone (n + 1) t.2).1)

theorem renew_data (n : Nat) (t : Tree) : data (renew n t) = data t := by
  unfold data renew
  rw [(Tbl.clone_spec t.2 (n + 1)).2.1]

theorem data_shape (t : Tree) : data (shape t) = shape t := by
  unfold data shape
  rw [erase_eq_map, map_map']
  rfl

/-- There are libraries that satisfy the assumptions. -/
theorem xlib_exists : ∃ L : XLib, L.Lawful := by
  classical
  obtain ⟨d, hd, -⟩ := lawful_exists (fun _ => none) (fun _ _ _ => .ok [])
  obtain ⟨f, hf⟩ := exists_injective_nat Tree
  let ts (t : Tree) : Bytes := List.replicate (f (shape t) + 1) 0
  have hts : ∀ t u, ts t = ts u → shape t = shape u := fun t u h => hf (by
    have := congrArg List.length h
    simpa [ts] using this)
  let xm (n : Nat) (b : Bytes) : Option Tree :=
    if h : ∃ t : Tree, t.1.tail = none ∧ ts t = b then some (renew n (shape h.choose)) else none
  have hx : ∀ n b t, xm n b = some t → ∃ u : Tree, u.1.tail = none ∧ t = renew n (shape u) := by
    intro n b t h
    by_cases hb : ∃ t : Tree, t.1.tail = none ∧ ts t = b
    · have : xm n b = some (renew n (shape hb.choose)) := dif_pos hb
      rw [this] at h
      exact ⟨hb.choose, hb.choose_spec.1, (Option.some.inj h).symm⟩
    · have : xm n b = none := dif_neg hb
      rw [this] at h
      cases h
  refine ⟨⟨d.pkg, d.decode, xm, ts⟩, hd.pkg, hd.decode_utf8, ?_, ?_, ?_, ?_, ?_⟩
  · intro n b t h
    obtain ⟨u, -, rfl⟩ := hx n b t h
    obtain ⟨c1, -, c3, c4⟩ := Tbl.clone_spec (shape u).2 (n + 1)
    simp only [single, renew, ids, List.append_nil, List.nodup_cons, List.mem_cons]
    refine ⟨⟨fun h => ?_, c3⟩, ?_⟩
    · have := (c4 _ h).1; omega
    · rintro i (rfl | hi)
      · exact Nat.le_refl _
      · have := (c4 _ hi).1; omega
  · intro n b t h
    obtain ⟨u, hu, rfl⟩ := hx n b t h
    show noEmpty u.1.tail = none
    rw [hu]; rfl
  · intro n m b
    by_cases hb : ∃ t : Tree, t.1.tail = none ∧ ts t = b
    · have h1 : xm n b = some (renew n (shape hb.choose)) := dif_pos hb
      have h2 : xm m b = some (renew m (shape hb.choose)) := dif_pos hb
      show (xm n b).map data = (xm m b).map data
      rw [h1, h2, Option.map_some, Option.map_some, renew_data, renew_data]
    · have h1 : xm n b = none := dif_neg hb
      have h2 : xm m b = none := dif_neg hb
      show (xm n b).map data = (xm m b).map data
      rw [h1, h2]
  · intro n
    refine dif_neg ?_
    rintro ⟨t, -, h⟩
    simp [ts] at h
  · intro n t _ ht
    have hb : ∃ u : Tree, u.1.tail = none ∧ ts u = ts t := ⟨t, ht, rfl⟩
    refine ⟨renew n (shape hb.choose), dif_pos hb, ?_⟩
    rw [renew_data, data_shape]
    exact hts _ _ hb.choose_spec.2

/-! ## The meta data stay legal -/

theorem legal_append (F G : Forest) : legal (F ++ G) = (legal F && legal G) := by
  induction F with
  | nil => simp [legal]
  | cons e k r _ ihr => simp [legal, ihr, Bool.and_assoc]

theorem legal_ofList (l : List Tree) : legal (Forest.ofList l) = l.all fun t => legal (single t) := by
  induction l with
  | nil => rfl
  | cons t l ih => simp [Forest.ofList, legal, single, ih, Bool.and_assoc]

theorem legal_setitem {k : String} {v : Option Str} {m : Meta.Meta} (hv : legalOpt v = true)
    (h : legal (Forest.ofList m.kids) = true) : legal (Forest.ofList (Meta.setitem k v m).1.kids) = true := by
  unfold Meta.setitem
  cases hk : Meta.TAGS.get k with
  | none => exact h
  | some tag =>
    dsimp only
    have htag : legalName tag = true := by
      have : ∀ p ∈ Meta.TAGS, legalName p.2 = true := by decide +kernel
      exact this (k, tag) (Dict.get_mem hk)
    rw [legal_ofList, List.all_eq_true] at h
    cases hf : m.kids.find? fun t => decide (t.1.tag = tag) with
    | none =>
      dsimp only [Meta.append]
      rw [legal_ofList, List.all_append, Bool.and_eq_true, List.all_eq_true]
      refine ⟨h, ?_⟩
      simp [legal, single, legalElem, htag, hv, show legalOpt none = true from rfl]
    | some t =>
      dsimp only [Meta.editNode]
      rw [legal_ofList, List.all_eq_true]
      intro u hu
      obtain ⟨w, hw, rfl⟩ := List.mem_map.mp hu
      have := h w hw
      split
      · simp only [Meta.setText, single, legal, legalElem, Bool.and_eq_true] at this ⊢
        simp only [hv, this, and_self]
      · exact this

theorem legalStr_intStr (n : Int) : legalStr (intStr n) = true := by
  have hd : ∀ n, legalStr (natStr n) = true := by
    intro n
    unfold legalStr
    rw [List.all_eq_true]
    intro c hc
    have := natStr_digits n c hc
    simp only [isDigit, digitVal, xmlChar, Bool.or_eq_true, decide_eq_true_eq, Bool.and_eq_true] at this ⊢
    split at this
    · left; left; right; omega
    · cases this
  cases n with
  | ofNat n => exact hd n
  | negSucc n =>
    have := hd (n + 1)
    simp only [legalStr, intStr, List.all_cons, Bool.and_eq_true] at this ⊢
    exact ⟨by decide, this⟩

theorem legal_meta (p : MetaPart) : legal (single p.tree) = true ↔ legalElem p.root = true ∧
    legal (Forest.ofList p.before) = true ∧ legalElem p.m.node = true ∧ legal (Forest.ofList p.m.kids) = true ∧
    legal (Forest.ofList p.after) = true := by
  have ha : ∀ l l' : List Tree, Forest.ofList (l ++ l') = Forest.ofList l ++ Forest.ofList l' := by
    intro l l'
    induction l with
    | nil => simp [Forest.ofList]
    | cons t l ih => simp [Forest.ofList, ih]
  simp only [MetaPart.tree, single, legal, ha, legal_append, Forest.ofList, Bool.and_true, Bool.and_eq_true, and_assoc]

theorem save_node (now gen : Str) (r : Except Exc Unit) (m : Meta.Meta) : (Meta.save now gen r m).1.node = m.node := by
  have ht : (Meta.touch now gen m).1.node = m.node := by
    rw [Meta.touch_eq]
    dsimp only
    rw [Meta.setitem_node, Meta.setitem_node]
  rw [Meta.save_eq]
  dsimp only
  split
  · exact ht
  · rw [Meta.inc_eq]
    split
    · exact ht
    · rw [Meta.setitem_node, ht]

/-- The tree of the meta data can be written after `save` if it could before and the strings can. -/
theorem legal_save {k : Clock} (h1 : legalStr k.time = true) (h2 : legalStr k.generator = true) {m : Meta.Meta}
    (h : legal (Forest.ofList m.kids) = true) (r : Except Exc Unit) :
    legal (Forest.ofList (Meta.save k.time k.generator r m).1.kids) = true := by
  have ht : legal (Forest.ofList (Meta.touch k.time k.generator m).1.kids) = true := by
    rw [Meta.touch_eq]
    exact legal_setitem (v := some _) h2 (legal_setitem (v := some _) h1 h)
  rw [Meta.save_eq]
  dsimp only
  split
  · exact ht
  · rw [Meta.inc_eq]
    split
    · exact ht
    · exact legal_setitem (v := some _) (legalStr_intStr _) ht

/-- What can be written before saving can be written while saving. -/
theorem writable_save {L : XLib} {env : Env} {k : Clock} {backup : Bool} {s s' : Session} {r : Except Exc Unit}
    (h : saveWhole L env k backup s = (s', r)) (h1 : legalStr k.time = true) (h2 : legalStr k.generator = true)
    (hw : Writable s) : Writable s' := by
  rcases saveWhole_eq h with rfl | ⟨m, e1, e2, -, -, -, e6, e7, -⟩
  · exact hw
  · refine ⟨?_, ?_⟩
    · rw [e6]
      obtain ⟨a, b⟩ := hw.meta_
      refine ⟨?_, b⟩
      have hn : m.node = s.meta_.m.node := by
        rw [e7]
        exact save_node _ _ _ _
      rw [legal_meta] at a ⊢
      refine ⟨a.1, a.2.1, by dsimp only; rw [hn]; exact a.2.2.1, ?_, a.2.2.2.2⟩
      dsimp only
      rw [e7]
      exact legal_save h1 h2 a.2.2.2.1 _
    · rw [e1, e2]
      exact hw.roots

/-! ## New documents -/

/-- `PackagedDocument(None, mimetype)`, document.py:203-229: a new document -/
def newWhole (L : XLib) (fs : FS) (k : Clock) (mt : Str) : Except Exc Session :=
  match open_ L.pkg fs (.file none) k.now with
  | .error e => .error e
  | .ok fm => packagedWhole L fs k fm (some mt) .nil

/-- The trees of the new documents can be written (one check for each type of document). -/
theorem new_trees : ∀ mt ∈ MIMETYPE_BODYTAG_MAP.keys, ∃ W d, Parts.packagedTree mt none none .nil = (W, .ok d) ∧
    ∀ r ∈ [d.styles.root, d.content.root], ∀ t, find r W = some t → legal (single t) = true ∧ t.1.tail = none := by
  have hb : (MIMETYPE_BODYTAG_MAP.keys.all fun mt => match Parts.packagedTree mt none none .nil with
      | (_, .error _) => false
      | (W, .ok d) => [d.styles.root, d.content.root].all fun r => match find r W with
        | none => true
        | some t => legal (single t) && t.1.tail.isNone) = true := by decide +kernel
  intro mt hmt
  have := List.all_eq_true.mp hb mt hmt
  rcases h : Parts.packagedTree mt none none .nil with ⟨W, r⟩
  rw [h] at this
  cases r with
  | error e => cases this
  | ok d =>
    refine ⟨W, d, rfl, fun r hr t ht => ?_⟩
    have h2 := List.all_eq_true.mp this r hr
    rw [ht] at h2
    simpa using h2

theorem packaged_new (d : DLib) (fs : FS) (now : Nat) {fm : FM} (hs : fm.source = .file none) {mt ext : Str}
    {tag : String} (he : FILE_EXT_FOR_MIMETYPE.get mt = some ext) (ht : MIMETYPE_BODYTAG_MAP.get mt = some tag)
    (hm : mt ∈ MIMETYPE_NSMAP) :
    ∃ m s c, packaged d fs now fm (some mt) =
      .ok { fm := filled now mt m s c fm, docname := none, mimetype := mt, doctype := ext } := by
  have hx : ∀ (fm' : FM) (_ : fm'.source = .file none) (n : Str) (t : String) (e : Exc),
      xmlPart d fs fm' mt n t e (.ok ()) = .ok (.object (d.partBytes n mt none)) := by
    intro fm' h n t e
    have hg : getBytes fs fm' n = .ok none := by
      unfold getBytes srcZip
      rw [h]
    unfold xmlPart getXml
    rw [hg]
  refine ⟨.object (d.partBytes META mt none), .object (d.partBytes STYLES mt none),
    .object (d.partBytes CONTENT mt none), ?_⟩
  unfold packaged
  dsimp only
  rw [he]
  dsimp only
  rw [hx (register MIMETYPE (.text mt) [] now { fm with manifest := Manifest.add ROOT mt none fm.manifest }) hs]
  dsimp only
  rw [hx (register META _ XML now (register MIMETYPE (.text mt) [] now
    { fm with manifest := Manifest.add ROOT mt none fm.manifest })) hs]
  dsimp only
  rw [if_pos hm, hx (register STYLES _ XML now (register META _ XML now (register MIMETYPE (.text mt) [] now
    { fm with manifest := Manifest.add ROOT mt none fm.manifest }))) hs]
  dsimp only
  rw [ht]
  dsimp only
  have : zipname (filled now mt (.object (d.partBytes META mt none)) (.object (d.partBytes STYLES mt none))
      (.object (d.partBytes CONTENT mt none)) fm) = none := by
    unfold zipname
    rw [show (filled now mt (.object (d.partBytes META mt none)) (.object (d.partBytes STYLES mt none))
      (.object (d.partBytes CONTENT mt none)) fm).source = fm.source from rfl, hs]
  exact congrArg (fun x => (Except.ok { fm := _, docname := x, mimetype := mt, doctype := ext } : Except Exc Doc)) this

theorem new_tables : ∀ mt ∈ MIMETYPE_BODYTAG_MAP.keys, (FILE_EXT_FOR_MIMETYPE.get mt).isSome ∧
    (MIMETYPE_BODYTAG_MAP.get mt).isSome ∧ mt ∈ MIMETYPE_NSMAP := by decide +kernel

/-- A new document of every type lives, can be saved and can be written. -/
theorem new_ok {L : XLib} (fs : FS) (k : Clock) {mt : Str} (hmt : mt ∈ MIMETYPE_BODYTAG_MAP.keys) :
    ∃ s, newWhole L fs k mt = .ok s ∧ (∀ name, Lives L { s with docname := name }) ∧ s.w.fs = fs ∧
      s.mimetype = mt ∧ s.meta_ = metaInit k none ∧ MIMETYPE ∈ s.w.fm.dir.keys ∧
      (∀ n g, n ∉ [META, STYLES, CONTENT] → s.w.fm.dir.get n = some g →
        (currentBytes L.pkg s.w.fm.manifest.kids g.element).isSome) ∧
      Parts.packagedTree mt none none .nil = (s.world, .ok s.tree) ∧
      ∀ r ∈ [s.tree.styles.root, s.tree.content.root], ∀ t, find r s.world = some t →
        legal (single t) = true ∧ t.1.tail = none := by
  obtain ⟨t1, t2, t3⟩ := new_tables mt hmt
  obtain ⟨ext, he⟩ := Option.isSome_iff_exists.mp t1
  obtain ⟨tag, ht⟩ := Option.isSome_iff_exists.mp t2
  obtain ⟨W, tree, hp, hleg⟩ := new_trees mt hmt
  have ho : ∃ fm, open_ L.pkg fs (.file none) k.now = .ok fm := ⟨_, rfl⟩
  obtain ⟨fm, ho⟩ := ho
  obtain ⟨hsrc, hdir, -⟩ := open_ok ho
  obtain ⟨m, s, c, hpk⟩ := packaged_new (dlib L) fs k.now hsrc he ht t3
  have hst : ∀ n, storedBytes fs fm n = none := by
    intro n
    unfold storedBytes getBytes srcZip
    rw [hsrc]
  have hw := packagedWhole_fwd (L := L) (k := k) (W := .nil) (W1 := .nil) (W2 := .nil) (so := none) (co := none) hpk
    (by rw [hst]; rfl) (by rw [hst]; rfl) hp
  refine ⟨_, ?_, fun name => Lives.made name (by simp [ids]) ho hw, rfl, rfl, ?_, ?_, ?_, hp, hleg⟩
  · unfold newWhole
    rw [ho]
    exact hw
  · dsimp only
    rw [hst]
    rfl
  · dsimp only
    rw [← Dict.get_isSome]
    show ((((fm.dir.set MIMETYPE _).set META _).set STYLES _).set CONTENT _ |>.get MIMETYPE).isSome
    simp only [Dict.get_set]
    split
    · rfl
    · split
      · rfl
      · split
        · rfl
        · rfl
  · intro n g hn hg
    simp only [List.mem_cons, List.not_mem_nil, or_false, not_or] at hn
    have hg' : ((((fm.dir.set MIMETYPE { element := .text mt, mediaType := [], stored := false, info := k.now }).set META _).set STYLES _).set CONTENT _ |>.get n) = some g := hg
    simp only [Dict.get_set, hn, Ne.symm hn.1, Ne.symm hn.2.1, Ne.symm hn.2.2, if_false] at hg'
    split at hg'
    · cases hg'; rfl
    · rw [hdir, Dict.get_cons] at hg'
      split at hg'
      · cases hg'; rfl
      · cases hg'

theorem new_eq (now now2 gen : Str) : Meta.new now now2 gen =
    { node := { id := 0, tag := "office:meta" }
      kids := [({ id := 1, tag := "meta:creation-date", text := some now }, .nil),
        ({ id := 2, tag := "dc:date", text := some now2 }, .nil),
        ({ id := 3, tag := "meta:generator", text := some gen }, .nil),
        ({ id := 4, tag := "meta:document-statistic" }, .nil)]
      stats := 4
      fresh := 5 } := by
  unfold Meta.new
  dsimp only
  rw [Meta.touch_eq]
  simp [Meta.setitem, Meta.TAGS, Dict.get, Meta.append, Meta.load]

/-- **C69**, new documents: a new document of any type, saved under any name, is opened again as the same
document.  Only the disk has to take the file. -/
theorem C69_new {L : XLib} (hl : L.Lawful) (fs : FS) (k k1 : Clock) {mt : Str} (hmt : mt ∈ MIMETYPE_BODYTAG_MAP.keys)
    (hk : legalStr k.time = true ∧ legalStr k.time2 = true ∧ legalStr k.generator = true)
    (hk1 : legalStr k1.time = true ∧ legalStr k1.generator = true) (f : Path) (env : Env) (backup : Bool)
    (hsink : ∀ m, env.sink m = none) {tmp : Path} (htmp : tmpfilename env.names f fs = some tmp) (hne : tmp ≠ f) :
    ∃ s s', newWhole L fs k mt = .ok s ∧ saveasWhole L env k1 backup f s = (s', .ok ()) ∧ s'.mimetype = mt ∧
      ∀ k' W0, (ids W0).Nodup → ∃ s'', openWhole L s'.w.fs k' (.file (some f)) W0 = .ok s'' ∧ Reopened L s' s'' := by
  obtain ⟨s, h1, h2, h3, h4, h5, h6, h7, -, h8⟩ := new_ok (L := L) fs k hmt
  have hlive := h2 (some f)
  obtain ⟨s', hs'⟩ := C69_saves hl hlive (f := f) rfl env k1 backup (by
    dsimp only
    rw [h5]
    have : (Meta.abs (Meta.new k.time k.time2 k.generator)).tag "editing-cycles" = none := by
      rw [new_eq]
      rfl
    show (Meta.abs (Meta.new k.time k.time2 k.generator)).tag "editing-cycles" ≠ _
    rw [this]; simp) h6 h7 hsink (by rw [← h3] at htmp; exact htmp) hne
  have hw : Writable { s with docname := some f } := by
    refine ⟨?_, h8⟩
    dsimp only
    rw [h5]
    refine ⟨?_, rfl⟩
    rw [legal_meta]
    have e0 : legal (Forest.ofList (metaInit k none).m.kids) = true := by
      show legal (Forest.ofList (Meta.new k.time k.time2 k.generator).kids) = true
      rw [new_eq]
      have n1 : legalName "meta:creation-date" = true := by decide +kernel
      have n2 : legalName "dc:date" = true := by decide +kernel
      have n3 : legalName "meta:generator" = true := by decide +kernel
      have n4 : legalName "meta:document-statistic" = true := by decide +kernel
      simp [Forest.ofList, legal, legalElem, legalOpt, hk.1, hk.2.1, hk.2.2, n1, n2, n3, n4]
    have n5 : legalElem (grddl { id := 0, tag := "office:document-meta" }) = true := by decide +kernel
    have n6 : legalElem { id := 0, tag := "office:meta" } = true := by decide +kernel
    refine ⟨n5, rfl, ?_, e0, rfl⟩
    show legalElem (Meta.new k.time k.time2 k.generator).node = true
    rw [new_eq]
    exact n6
  refine ⟨s, s', h1, hs', ?_, fun k' W0 h0 => ?_⟩
  · rw [(C69_frame L env k1 backup hs').2.2.2.1]
    exact h4
  · obtain ⟨f', s'', e1, e2, e3, -⟩ := C69_reopen hl hlive hs' (writable_save hs' hk1.1 hk1.2 hw) k' h0
    have : f' = f := by
      rw [(C69_frame L env k1 backup hs').2.2.1] at e1
      exact (Option.some.inj e1).symm
    subst this
    exact ⟨s'', e2, e3⟩

/-- **C69** which texts can be written: those without control characters (other than tabulator, line feed and
carriage return) and without U+FFFE and U+FFFF. -/
theorem C69_texts (s : Str) : legalStr s = true ↔ ∀ c ∈ s, ¬ (c.toNat < 32 ∧ c.toNat ≠ 9 ∧ c.toNat ≠ 10 ∧
    c.toNat ≠ 13) ∧ c.toNat ≠ 0xFFFE ∧ c.toNat ≠ 0xFFFF := by
  unfold legalStr
  rw [List.all_eq_true]
  refine forall₂_congr fun c _ => ?_
  have hc : c.toNat < 0xD800 ∨ 0xDFFF < c.toNat ∧ c.toNat < 0x110000 := c.valid
  have key : ∀ d : Char, c = d ↔ c.toNat = d.toNat := fun d =>
    ⟨fun h => h ▸ rfl, fun h => Char.ext (UInt32.toNat_inj.mp h)⟩
  simp only [xmlChar, Bool.or_eq_true, Bool.and_eq_true, decide_eq_true_eq, key,
    show '\t'.toNat = 9 from rfl, show '\n'.toNat = 10 from rfl, show '\r'.toNat = 13 from rfl]
  omega

/-- A letter, a digit, `-`, `_` or `.` -/
def NameChar (c : Char) : Prop := (65 ≤ c.toNat ∧ c.toNat ≤ 90) ∨ (97 ≤ c.toNat ∧ c.toNat ≤ 122) ∨
  (48 ≤ c.toNat ∧ c.toNat ≤ 57) ∨ c.toNat = 45 ∨ c.toNat = 95 ∨ c.toNat = 46

/-- A name without prefix: begins with a letter. -/
def NCName (s : Str) : Prop := ∃ c r, s = c :: r ∧
  ((65 ≤ c.toNat ∧ c.toNat ≤ 90) ∨ (97 ≤ c.toNat ∧ c.toNat ≤ 122)) ∧ ∀ x ∈ r, NameChar x

theorem legalPart_iff (s : Str) : legalPart s = true ↔ NCName s := by
  have key : ∀ c d : Char, c = d ↔ c.toNat = d.toNat := fun c d =>
    ⟨fun h => h ▸ rfl, fun h => Char.ext (UInt32.toNat_inj.mp h)⟩
  have ha : ∀ c : Char, c.isAlpha = true ↔ ((65 ≤ c.toNat ∧ c.toNat ≤ 90) ∨ (97 ≤ c.toNat ∧ c.toNat ≤ 122)) := by
    intro c
    simp only [Char.isAlpha, Char.isUpper, Char.isLower, Bool.or_eq_true, Bool.and_eq_true, decide_eq_true_eq,
      UInt32.le_iff_toNat_le, ge_iff_le]
    rfl
  have hc : ∀ c : Char, (c.isAlphanum || c = '-' || c = '_' || c = '.') = true ↔ NameChar c := by
    intro c
    simp only [Char.isAlphanum, Bool.or_eq_true, ha, decide_eq_true_eq, key, NameChar, Char.isDigit,
      Bool.and_eq_true, UInt32.le_iff_toNat_le, ge_iff_le]
    show (((_ ∨ (48 ≤ c.toNat ∧ c.toNat ≤ 57)) ∨ c.toNat = 45) ∨ c.toNat = 95) ∨ c.toNat = 46 ↔ _
    tauto
  unfold legalPart NCName
  rw [Bool.and_eq_true, List.all_eq_true]
  cases s with
  | nil => simp
  | cons c r =>
    simp only [List.head?_cons, Option.any_some, ha, List.mem_cons, hc]
    constructor
    · rintro ⟨h1, h2⟩
      exact ⟨c, r, rfl, h2, fun x hx => h1 x (.inr hx)⟩
    · rintro ⟨c', r', h1, h2, h3⟩
      cases h1
      refine ⟨?_, h2⟩
      rintro x (rfl | hx)
      · unfold NameChar; tauto
      · exact h3 x hx

/-- **C69** which names can be written: a name without prefix, or a prefix, a colon and a name; the first
of them is not `xmlns`. -/
theorem C69_names (s : String) : legalName s = true ↔
    (NCName s.toList ∧ s.toList ≠ ['x', 'm', 'l', 'n', 's']) ∨
    ∃ p r, s.toList = p ++ ':' :: r ∧ NCName p ∧ NCName r ∧ p ≠ ['x', 'm', 'l', 'n', 's'] := by
  have nocolon : ∀ {p : Str}, NCName p → ∀ c ∈ p, c ≠ ':' := by
    rintro p ⟨c, r, rfl, h1, h2⟩ x hx rfl
    have e : ':'.toNat = 58 := rfl
    rcases List.mem_cons.mp hx with rfl | hx
    · rw [e] at h1; omega
    · have := h2 _ hx; unfold NameChar at this; rw [e] at this; omega
  unfold legalName
  simp only [Bool.and_eq_true, Bool.or_eq_true, legalPart_iff, decide_eq_true_eq, List.isEmpty_iff]
  show (NCName _ ∧ List.takeWhile _ s.toList ≠ ['x', 'm', 'l', 'n', 's']) ∧ _ ↔ _
  generalize s.toList = l
  have hsplit := List.takeWhile_append_dropWhile (p := fun c => decide (c ≠ ':')) (l := l)
  constructor
  · rintro ⟨⟨h1, h2⟩, h3⟩
    cases hd : l.dropWhile (fun c => decide (c ≠ ':')) with
    | nil =>
      rw [hd, List.append_nil] at hsplit
      rw [hsplit] at h1 h2
      exact .inl ⟨h1, h2⟩
    | cons c r =>
      have hcc : c = ':' := by
        have := List.head?_dropWhile_not (fun c => decide (c ≠ ':')) l
        rw [hd] at this
        simpa using this
      rw [hd] at hsplit h3
      subst hcc
      refine .inr ⟨_, r, hsplit.symm, h1, ?_, h2⟩
      rcases h3 with h3 | h3
      · cases h3
      · exact h3
  · rintro (⟨h1, h2⟩ | ⟨p, r, rfl, h1, h2, h3⟩)
    · have hp : ∀ c ∈ l, (fun c => decide (c ≠ ':')) c = true := by
        intro c hc
        simpa using nocolon h1 c hc
      have e1 := List.takeWhile_append_of_pos (l₂ := []) hp
      have e2 := List.dropWhile_append_of_pos (l₂ := []) hp
      simp only [List.append_nil, List.takeWhile_nil, List.dropWhile_nil] at e1 e2
      rw [e1, e2]
      exact ⟨⟨h1, h2⟩, .inl rfl⟩
    · have hp : ∀ c ∈ p, (fun c => decide (c ≠ ':')) c = true := by
        intro c hc
        simpa using nocolon h1 c hc
      rw [List.takeWhile_append_of_pos hp, List.dropWhile_append_of_pos hp]
      simp only [List.takeWhile_cons, List.dropWhile_cons]
      simp [h1, h2, h3]

example : legalName "text:style-name" = true ∧ legalName "xmlns:text" = false ∧ legalName "a b" = false := by
  decide +kernel

example : legalStr "a\tb".toList = true ∧ legalStr [Char.ofNat 0] = false := by decide

end Verif.Whole
