import Verif.Props.WholeBytes
import Verif.Props.WholeDemo
import Verif.Proofs.ContentBlocks
import Verif.Props.MetaUser
/-!
# C85: the meta data of a document over its whole life

A document is changed, saved, opened again, changed again, and so on.  The meta data are, at every moment, what the
statements on them, the saves and the openings of the history say; nothing else has an influence on them.
-/
namespace Verif.Whole
open Verif Verif.Lxml Forest Verif.Package Verif.Document
open Verif.Meta (Abs specStep keywords getitem userGet userTypeof statGet cycles KEYS COUNTS)
set_option linter.unusedSimpArgs false

/-- What happens to meta data -/
inductive Event
  | op (o : Meta.Op)
  | reopened

/-- Specification: an empty text is not written to a file, and is read as no text. -/
def noText (a : Abs) : Abs :=
  { tag := fun k => (a.tag k).map fun v => if v = some [] then none else v
    keywords := a.keywords.map fun v => if v = some [] then none else v
    user := a.user.map fun e => (e.1, if e.2.1 = some [] then none else e.2.1, e.2.2)
    count := a.count }

def evStep (a : Abs) : Event → Abs
  | .op o => specStep a o
  | .reopened => noText a

def evSpec (a : Abs) (ev : List Event) : Abs := ev.foldl evStep a

/-- The texts of a statement consist of characters of XML (lxml refuses others). -/
def LegalOp : Meta.Op → Prop
  | .set _ v => legalOpt v = true
  | .save now gen _ => legalStr now = true ∧ legalStr gen = true
  | .kwAdd k => legalStr k = true
  | .userSet n v ty => legalStr n = true ∧ legalStr v = true ∧ legalOpt ty = true
  | .userUpdate d => ∀ p ∈ d, legalStr p.1 = true ∧ legalStr p.2 = true
  | _ => True

/-- The life of a document with the events that concern its meta data.  As in `Lives`; here it can also be opened again: from
the file after a save, from the bytes of `tobytes`, and from a stream to which it was saved. -/
inductive Career (L : XLib) (s0 : Session) : List Event → Session → Prop
  | start : Career L s0 [] s0
  | data {ev : List Event} {s : Session} (h : Career L s0 ev s) (o : Meta.Op) (ho : LegalOp o) (hs : o.isSave = false) :
      Career L s0 (ev ++ [.op o]) { s with meta_ := { s.meta_ with m := Meta.step s.meta_.m o } }
  | trees {ev : List Event} {s : Session} (h : Career L s0 ev s) {W : World} {tag : String} {d : Parts.DocTree}
      (hn : (ids W).Nodup) (ht : MIMETYPE_BODYTAG_MAP.get s.mimetype = some tag) (hd : Parts.DocRefs W tag d)
      (hw : ∀ r ∈ [d.styles.root, d.content.root], ∀ t, find r W = some t → legal (single t) = true ∧ t.1.tail = none) :
      Career L s0 ev { s with world := W, tree := d }
  | file {ev : List Event} {s : Session} (h : Career L s0 ev s) (n : Str) (x : Element) (t : Str) (now : Nat)
      (hn : n ∉ [MIMETYPE, MANIFEST, ROOT, META, STYLES, CONTENT]) :
      Career L s0 ev { s with w := { s.w with fm := register n x t now s.w.fm } }
  | named {ev : List Event} {s : Session} (h : Career L s0 ev s) (name : Option Path) :
      Career L s0 ev { s with docname := name }
  | saved {ev : List Event} {s : Session} (h : Career L s0 ev s) (env : Env) (k : Clock) (backup : Bool)
      (hd : s.docname ≠ none) (hk : legalStr k.time = true ∧ legalStr k.generator = true) :
      Career L s0 (ev ++ [.op (.save k.time k.generator (saveWhole L env k backup s).2)]) (saveWhole L env k backup s).1
  | bytes {ev : List Event} {s : Session} (h : Career L s0 ev s) (sink : Member → Option Exc) :
      Career L s0 ev (tobytesWhole L sink s).1
  | reopened {ev : List Event} {s s' s'' : Session} (h : Career L s0 ev s) {env : Env} {k k' : Clock} {backup : Bool}
      {f : Path} {W0 : World} (hs : saveWhole L env k backup s = (s', .ok ()))
      (hk : legalStr k.time = true ∧ legalStr k.generator = true) (hf : s.docname = some f) (h0 : (ids W0).Nodup)
      (ho : openWhole L s'.w.fs k' (.file (some f)) W0 = .ok s'') :
      Career L s0 (ev ++ [.op (.save k.time k.generator (.ok ())), .reopened]) s''
  | copied {ev : List Event} {s s' s'' : Session} (h : Career L s0 ev s) {sink : Member → Option Exc} {z : Zip} {fs : FS}
      {k : Clock} {W0 : World} (hs : tobytesWhole L sink s = (s', .ok z)) (h0 : (ids W0).Nodup)
      (ho : openWhole L fs k (.stream (some (.zip z))) W0 = .ok s'') : Career L s0 (ev ++ [.reopened]) s''
  | sent {ev : List Event} {s s' s'' : Session} (h : Career L s0 ev s) {env : Env} {k k' : Clock} {z : Zip} {fs : FS}
      {W0 : World} (hs : saveStreamWhole L env k s = (s', .ok z))
      (hk : legalStr k.time = true ∧ legalStr k.generator = true) (h0 : (ids W0).Nodup)
      (ho : openWhole L fs k' (.stream (some (.zip z))) W0 = .ok s'') :
      Career L s0 (ev ++ [.op (.save k.time k.generator (.ok ())), .reopened]) s''

/-! ## The meta data stay legal -/

theorem legal_editNode {i : Nat} {f : Tree → Tree} (hf : ∀ t, legal (single t) = true → legal (single (f t)) = true)
    {l : List Tree} (h : legal (Forest.ofList l) = true) : legal (Forest.ofList (Meta.editNode i f l)) = true := by
  rw [legal_ofList, List.all_eq_true] at h ⊢
  intro u hu
  obtain ⟨w, hw, rfl⟩ := List.mem_map.mp hu
  split
  · exact hf _ (h w hw)
  · exact h w hw

theorem legal_sub {l l' : List Tree} (hs : ∀ t ∈ l', t ∈ l) (h : legal (Forest.ofList l) = true) :
    legal (Forest.ofList l') = true := by
  rw [legal_ofList, List.all_eq_true] at h ⊢
  exact fun t ht => h t (hs t ht)

theorem mem_fold_remove {t : Tree} : ∀ (r l : List Tree), t ∈ r.foldl (fun l u => Meta.removeNode u.1.id l) l → t ∈ l
  | [], _, h => h
  | _ :: r, _, h => List.mem_of_mem_eraseP (mem_fold_remove r _ h)

theorem legal_appendNode {tag : String} {a : Attrs} {v : Option Str} {m : Meta.Meta}
    (he : legalElem { id := m.fresh, tag := tag, attrs := a, text := v } = true)
    (h : legal (Forest.ofList m.kids) = true) : legal (Forest.ofList (Meta.append tag a v m).kids) = true := by
  unfold Meta.append
  dsimp only
  rw [legal_ofList] at h ⊢
  rw [List.all_append, h]
  simp [single, legal, he]

theorem legal_setText {v : Option Str} (hv : legalOpt v = true) (t : Tree) (h : legal (single t) = true) :
    legal (single (Meta.setText v t)) = true := by
  simp only [Meta.setText, single, legal, legalElem, Bool.and_eq_true] at h ⊢
  simp only [hv, h, and_self]

theorem legal_setAttr {k : String} {v : Str} (hk : legalName k = true) (hv : legalStr v = true) (t : Tree)
    (h : legal (single t) = true) : legal (single (Meta.setAttr k v t)) = true := by
  simp only [Meta.setAttr, single, legal, Bool.and_eq_true] at h ⊢
  exact ⟨⟨TextProg.legal_set h.1.1 hk hv, h.1.2⟩, h.2⟩

theorem legal_userSet {n v : Str} {ty : Option Str} {m : Meta.Meta} (hn : legalStr n = true) (hv : legalStr v = true)
    (ht : legalOpt ty = true) (h : legal (Forest.ofList m.kids) = true) :
    legal (Forest.ofList (Meta.userSet n v ty m).kids) = true := by
  have hst : ∀ t, legal (single t) = true → legal (single (Meta.userStore v ty t)) = true := by
    intro t h
    unfold Meta.userStore
    cases ty with
    | none => exact legal_setText (v := some v) hv t h
    | some y => exact legal_setAttr (by decide +kernel) ht _ (legal_setText (v := some v) hv t h)
  unfold Meta.userSet
  cases Meta.userFind n m with
  | none =>
    refine legal_editNode hst (legal_appendNode ?_ h)
    have h1 : legalName "meta:user-defined" = true := by decide +kernel
    have h2 : legalName "meta:name" = true := by decide +kernel
    simp [legalElem, h1, h2, hn, legalOpt]
  | some t => exact legal_editNode hst h

theorem legal_statSet {k : String} {n : Int} {m : Meta.Meta} (h : legal (Forest.ofList m.kids) = true) :
    legal (Forest.ofList (Meta.statSet k n m).1.kids) = true := by
  unfold Meta.statSet
  split
  · rename_i hk
    have : ∀ k ∈ Meta.TYPES, legalName (Meta.statKey k) = true := by decide +kernel
    exact legal_editNode (legal_setAttr (this k hk) (legalStr_intStr n)) h
  · exact h

theorem statSet_node (k : String) (n : Int) (m : Meta.Meta) : (Meta.statSet k n m).1.node = m.node := by
  unfold Meta.statSet; split <;> rfl

theorem statUpdate_legal : ∀ (d : Dict String Int) (m : Meta.Meta), legal (Forest.ofList m.kids) = true →
    legal (Forest.ofList (Meta.statUpdate d m).1.kids) = true ∧ (Meta.statUpdate d m).1.node = m.node
  | [], m, h => ⟨by unfold Meta.statUpdate; exact h, by unfold Meta.statUpdate; rfl⟩
  | (k, n) :: r, m, h => by
    have h1 := legal_statSet (k := k) (n := n) h
    have h2 := statSet_node k n m
    rcases hs : Meta.statSet k n m with ⟨m', q⟩
    rw [hs] at h1 h2
    unfold Meta.statUpdate
    rw [hs]
    cases q with
    | error e => exact ⟨h1, h2⟩
    | ok u =>
      obtain ⟨a, b⟩ := statUpdate_legal r m' h1
      exact ⟨a, b.trans h2⟩

theorem userSet_node (n v : Str) (ty : Option Str) (m : Meta.Meta) : (Meta.userSet n v ty m).node = m.node := by
  unfold Meta.userSet; split <;> rfl

theorem legal_step {o : Meta.Op} (ho : LegalOp o) {m : Meta.Meta} (h : legal (Forest.ofList m.kids) = true)
    (hn : legalElem m.node = true) : legal (Forest.ofList (Meta.step m o).kids) = true ∧ legalElem (Meta.step m o).node = true := by
  cases o with
  | set k v => exact ⟨legal_setitem ho h, by show legalElem (Meta.setitem k v m).1.node = true; rw [Meta.setitem_node]; exact hn⟩
  | clear =>
    have h1 : legalName "meta:document-statistic" = true := by decide +kernel
    refine ⟨by simp [Meta.step, Meta.clear, Forest.ofList, legal, legalElem, h1, legalOpt], ?_⟩
    simp only [legalElem, Bool.and_eq_true] at hn
    simp [Meta.step, Meta.clear, legalElem, hn.1.1.1.1, legalOpt]
  | save now gen r =>
    refine ⟨legal_save (k := ⟨0, now, now, gen⟩) ho.1 ho.2 h r, ?_⟩
    show legalElem (Meta.save now gen r m).1.node = true
    rw [save_node]; exact hn
  | kwAdd k =>
    show legal (Forest.ofList (Meta.kwAdd k m).kids) = true ∧ legalElem (Meta.kwAdd k m).node = true
    unfold Meta.kwAdd
    split
    · refine ⟨legal_appendNode ?_ h, hn⟩
      have h1 : legalName "meta:keyword" = true := by decide +kernel
      have h2 : legalStr k = true := ho
      simp [legalElem, h1, h2, legalOpt]
    · exact ⟨h, hn⟩
  | kwRemove k =>
    show legal (Forest.ofList (Meta.kwRemove k m).kids) = true ∧ legalElem (Meta.kwRemove k m).node = true
    unfold Meta.kwRemove
    split
    · exact ⟨h, hn⟩
    · exact ⟨legal_sub (fun t ht => List.mem_of_mem_eraseP ht) h, hn⟩
  | kwClear => exact ⟨legal_sub (fun t ht => mem_fold_remove _ _ ht) h, hn⟩
  | userSet n v ty =>
    exact ⟨legal_userSet ho.1 ho.2.1 ho.2.2 h, by show legalElem (Meta.userSet n v ty m).node = true; rw [userSet_node]; exact hn⟩
  | userDel n =>
    show legal (Forest.ofList (Meta.userDel n m).1.kids) = true ∧ legalElem (Meta.userDel n m).1.node = true
    unfold Meta.userDel
    split
    · exact ⟨legal_sub (fun t ht => List.mem_of_mem_eraseP ht) h, hn⟩
    · exact ⟨h, hn⟩
  | userUpdate d =>
    have ho : ∀ p ∈ d, legalStr p.1 = true ∧ legalStr p.2 = true := ho
    show legal (Forest.ofList (Meta.userUpdate d m).kids) = true ∧ legalElem (Meta.userUpdate d m).node = true
    unfold Meta.userUpdate
    induction d generalizing m with
    | nil => exact ⟨h, hn⟩
    | cons p d ih =>
      rw [List.foldl_cons]
      have hp := ho p (by simp)
      exact ih (m := Meta.userSet p.1 p.2 none m) (legal_userSet hp.1 hp.2 rfl h) (by rw [userSet_node]; exact hn)
        (fun q hq => ho q (by simp [hq])) (fun q hq => ho q (by simp [hq]))
  | userClear => exact ⟨legal_sub (fun t ht => mem_fold_remove _ _ ht) h, hn⟩
  | statSet k n => exact ⟨legal_statSet h, by show legalElem (Meta.statSet k n m).1.node = true; rw [statSet_node]; exact hn⟩
  | statUpdate d =>
    obtain ⟨a, b⟩ := statUpdate_legal d m h
    exact ⟨a, by show legalElem (Meta.statUpdate d m).1.node = true; rw [b]; exact hn⟩
  | statClear =>
    refine ⟨legal_editNode (fun t ht => ?_) h, hn⟩
    simp only [single, legal, legalElem, Bool.and_eq_true] at ht ⊢
    simp [ht.1.1.1.1.1.1, legalOpt]

theorem legal_part {p : MetaPart} {o : Meta.Op} (ho : LegalOp o) (h : legal (single p.tree) = true) :
    legal (single ({ p with m := Meta.step p.m o } : MetaPart).tree) = true := by
  rw [legal_meta] at h ⊢
  obtain ⟨a, b, c, d, e⟩ := h
  obtain ⟨x, y⟩ := legal_step ho d c
  exact ⟨a, b, y, x, e⟩

/-! ## Trees that were read -/

theorem legal_written {G : Forest} (h : legal G = true) : legal (G.map written) = true := by
  have hopt : ∀ x : Option Str, legalOpt x = true → legalOpt (noEmpty x) = true := by
    intro x hx
    unfold noEmpty
    split
    · rfl
    · exact hx
  induction G with
  | nil => rfl
  | cons e k r ihk ihr =>
    simp only [legal, Forest.map, Bool.and_eq_true] at h ⊢
    refine ⟨⟨?_, ihk h.1.2⟩, ihr h.2⟩
    have := h.1.1
    simp only [legalElem, written, Bool.and_eq_true] at this ⊢
    exact ⟨⟨this.1.1, hopt _ this.1.2⟩, hopt _ this.2⟩

theorem legal_told {t t' : Tree} (h : Whole.data t' = shape t) (hl : legal (single t) = true) : legal (single t') = true := by
  have h1 : legal (single (shape t)) = true := legal_written hl
  refine TextProg.legal_data (t' := shape t) ?_ h1
  rw [h, data_shape]

theorem tail_told {t t' : Tree} (h : Whole.data t' = shape t) (hl : t.1.tail = none) : t'.1.tail = none := by
  have : t'.1.tail = noEmpty t.1.tail := congrArg (fun x : Tree => x.1.tail) h
  rw [this, hl]; rfl

/-- A document that was opened from a file that could be written can be written. -/
theorem Reopened.writable {L : XLib} {s' s'' : Session} (h : Reopened L s' s'') (hw : Writable s') : Writable s'' := by
  refine ⟨⟨legal_told h.metaTree hw.meta_.1, tail_told h.metaTree hw.meta_.2⟩, fun r hr t ht => ?_⟩
  simp only [List.mem_cons, List.not_mem_nil, or_false] at hr
  have key : ∀ {i}, Told s' i s'' r → (∀ t, find i s'.world = some t → legal (single t) = true ∧ t.1.tail = none) →
      legal (single t) = true ∧ t.1.tail = none := by
    rintro i ⟨u, u', a, b, c⟩ hu
    rw [ht] at b
    cases b
    obtain ⟨x, y⟩ := hu u a
    exact ⟨legal_told c x, tail_told c y⟩
  rcases hr with rfl | rfl
  · exact key h.styles (hw.roots _ (by simp))
  · exact key h.content (hw.roots _ (by simp))

theorem noText_eq (a : Abs) : writtenAbs a = noText a := by
  have : ∀ v : Option Str, noEmpty v = if v = some [] then none else v := by
    intro v
    cases v with
    | none => rfl
    | some s => cases s <;> rfl
  unfold writtenAbs noText
  simp only [funext this]

/-! ## C85 -/

/-- **C85**: over the whole life of a document, with any number of openings, everything that can be read of the meta data is
what the statements on the meta data, the saves and the openings say; what is done with the trees of the content, the files
and the name has no influence.  The document can be written and opened again at every moment. -/
theorem C85_life {L : XLib} (hl : L.Lawful) {s0 s : Session} (h0 : Lives L s0) (hw : Writable s0) {ev : List Event}
    (h : Career L s0 ev s) : Lives L s ∧ Writable s ∧ Meta.abs s.meta_.m = evSpec (Meta.abs s0.meta_.m) ev := by
  have snoc : ∀ (a : Abs) (ev : List Event) (e : Event), evSpec a (ev ++ [e]) = evStep (evSpec a ev) e := by
    intro a ev e
    unfold evSpec
    rw [List.foldl_append]; rfl
  have snoc2 : ∀ (a : Abs) (ev : List Event) (e e' : Event),
      evSpec a (ev ++ [e, e']) = evStep (evStep (evSpec a ev) e) e' := by
    intro a ev e e'
    unfold evSpec
    rw [List.foldl_append]; rfl
  induction h with
  | start => exact ⟨h0, hw, rfl⟩
  | data h o ho hs ih =>
    obtain ⟨a, b, c⟩ := ih
    refine ⟨.data a [o], ⟨⟨legal_part ho b.meta_.1, b.meta_.2⟩, b.roots⟩, ?_⟩
    rw [snoc, ← c]
    exact (Meta.abs_step (a.good hl).meta_.wf o).2
  | trees h hn ht hd hw' ih =>
    obtain ⟨a, b, c⟩ := ih
    exact ⟨.trees a hn ht hd, ⟨b.meta_, hw'⟩, c⟩
  | file h n x t now hn ih =>
    obtain ⟨a, b, c⟩ := ih
    exact ⟨.file a n x t now hn, ⟨b.meta_, b.roots⟩, c⟩
  | named h name ih =>
    obtain ⟨a, b, c⟩ := ih
    exact ⟨.named a name, ⟨b.meta_, b.roots⟩, c⟩
  | @saved ev s h env k backup hd hk ih =>
    obtain ⟨a, b, c⟩ := ih
    refine ⟨.saved a env k backup, writable_save (r := (saveWhole L env k backup s).2) rfl hk.1 hk.2 b, ?_⟩
    rw [snoc, ← c]
    have hm : (saveWhole L env k backup s).1.meta_.m = (Meta.save k.time k.generator (.ok ()) s.meta_.m).1 := by
      cases hdn : s.docname with
      | none => exact absurd hdn hd
      | some f =>
        unfold saveWhole
        rw [hdn]
        dsimp only
        rw [touch_inc]
        rcases hms : Meta.save k.time k.generator (.ok ()) s.meta_.m with ⟨m, q⟩
        cases q <;> rfl
    rw [hm]
    exact (Meta.abs_step (a.good hl).meta_.wf (.save k.time k.generator (.ok ()))).2
  | @bytes ev s h sink ih =>
    obtain ⟨a, b, c⟩ := ih
    exact ⟨.bytes a sink, ⟨b.meta_, b.roots⟩, c⟩
  | @reopened ev s s' s'' h env k k' backup f W0 hs hk hf h0 ho ih =>
    obtain ⟨a, b, c⟩ := ih
    have hw' : Writable s' := writable_save hs hk.1 hk.2 b
    obtain ⟨f', s1, e1, e2, e3, -⟩ := C69_reopen hl a hs hw' k' h0
    have : f' = f := by
      rw [(C69_frame L env k backup hs).2.2.1, hf] at e1
      exact (Option.some.inj e1).symm
    subst this
    rw [ho] at e2
    cases e2
    refine ⟨e3.lives, e3.writable hw', ?_⟩
    rw [snoc2, ← c, e3.metaData, C69_metaData hl a hs, noText_eq]
    rfl
  | @copied ev s s' s'' h sink z fs k W0 hs h0 ho ih =>
    obtain ⟨a, b, c⟩ := ih
    obtain ⟨s1, e2, e3, -⟩ := C79_bytes hl a hs b fs k h0
    rw [ho] at e2
    cases e2
    refine ⟨e3.lives, e3.writable ⟨b.meta_, b.roots⟩, ?_⟩
    rw [snoc, ← c, e3.metaData, noText_eq]
    rfl
  | @sent ev s s' s'' h env k k' z fs W0 hs hk h0 ho ih =>
    obtain ⟨a, b, c⟩ := ih
    obtain ⟨m, fm', q1, q2, q3⟩ := saveStreamWhole_ok hs
    have hw' : Writable s' := by
      have hp := legal_part (p := s.meta_) (o := .save k.time k.generator (.ok ())) hk b.meta_.1
      rw [q3]
      refine ⟨⟨?_, b.meta_.2⟩, b.roots⟩
      have : Meta.step s.meta_.m (.save k.time k.generator (.ok ())) = m := by
        show (Meta.save k.time k.generator (.ok ()) s.meta_.m).1 = m
        rw [q1]
      rw [this] at hp
      exact hp
    obtain ⟨⟨s1, e2, e3, -⟩, -, -, -, -, -, -, e4⟩ := C79_stream hl a hs hw' fs k' h0
    rw [ho] at e2
    cases e2
    refine ⟨e3.lives, e3.writable ⟨hw'.meta_, hw'.roots⟩, ?_⟩
    rw [snoc2, ← c, e3.metaData, noText_eq]
    show noText (Meta.abs s'.meta_.m) = _
    rw [e4]
    rfl

/-! ## What is read -/

theorem getitem_abs (key : String) (m : Meta.Meta) : getitem key m =
    match (Meta.abs m).tag key with
    | none => .error .KeyError
    | some v => .ok v := by
  simp only [Meta.abs, Meta.getitem_eq]
  cases Meta.TAGS.get key with
  | none => rfl
  | some tag => dsimp only; cases (Meta.findall tag m.kids).head? <;> rfl

/-- The events that concern the tag `key` -/
def tagAfter (key : String) : Option (Option Str) → List Event → Option (Option Str)
  | x, [] => x
  | x, .op (.set k v) :: ev => tagAfter key (if k = key then some v else x) ev
  | _, .op .clear :: ev => tagAfter key none ev
  | x, .reopened :: ev => tagAfter key (if x = some (some []) then some none else x) ev
  | x, _ :: ev => tagAfter key x ev

theorem spec_tag {key : String} (hk : key ∈ KEYS) (hn : key ∉ ["date", "generator", "editing-cycles"]) :
    ∀ (ev : List Event) (a : Abs), (evSpec a ev).tag key = tagAfter key (a.tag key) ev
  | [], _ => rfl
  | e :: ev, a => by
    have ih := spec_tag hk hn ev (evStep a e)
    simp only [List.mem_cons, List.not_mem_nil, or_false, not_or] at hn
    show (evSpec (evStep a e) ev).tag key = _
    rw [ih]
    cases e with
    | reopened =>
      show tagAfter key ((a.tag key).map _) ev = tagAfter key (if a.tag key = some (some []) then some none else a.tag key) ev
      congr 1
      cases a.tag key with
      | none => rfl
      | some v =>
        by_cases h : v = some []
        · simp [h]
        · simp [h]
    | op o =>
      cases o with
      | set k v =>
        show tagAfter key (if key = k ∧ k ∈ KEYS then some v else a.tag key) ev = tagAfter key (if k = key then some v else a.tag key) ev
        congr 1
        by_cases h : k = key
        · subst h; simp [hk]
        · simp [h, Ne.symm h]
      | save now gen r =>
        show tagAfter key ((specStep a (.save now gen r)).tag key) ev = tagAfter key (a.tag key) ev
        congr 1
        simp only [specStep]
        split <;> simp [Meta.setTag, hn]
      | kwAdd k => show tagAfter key ((specStep a (.kwAdd k)).tag key) ev = _; simp only [specStep]; split <;> rfl
      | statSet k n => show tagAfter key ((specStep a (.statSet k n)).tag key) ev = _; simp only [specStep]; split <;> rfl
      | statUpdate d =>
        show tagAfter key ((Meta.updateCounts d a).tag key) ev = _
        rw [(Meta.updateCounts_tag d a).1]; rfl
      | _ => rfl

/-- **C85**, the tags (title, description, subject, creators, creation date, language): the value that was assigned last, over
all savings and openings; an empty text is read as None once the document was opened again, and KeyError is raised if there
was no assignment since the last `clear`. -/
theorem C85_tag {L : XLib} (hl : L.Lawful) {s0 s : Session} (h0 : Lives L s0) (hw : Writable s0) {ev : List Event}
    (h : Career L s0 ev s) {key : String} (hk : key ∈ KEYS) (hn : key ∉ ["date", "generator", "editing-cycles"]) :
    getitem key s.meta_.m = match tagAfter key (getitem key s0.meta_.m).toOption ev with
      | none => .error .KeyError
      | some v => .ok v := by
  have h1 : (getitem key s0.meta_.m).toOption = (Meta.abs s0.meta_.m).tag key := by
    rw [getitem_abs]; cases (Meta.abs s0.meta_.m).tag key <;> rfl
  rw [getitem_abs, (C85_life hl h0 hw h).2.2, spec_tag hk hn, h1]

/-- The event leaves the tag alone. -/
def Event.keepsTag (key : String) : Event → Prop
  | .op (.set k _) => k ≠ key
  | .op .clear => False
  | _ => True

theorem tagAfter_keeps {key : String} {v : Str} (hv : v ≠ []) : ∀ (ev : List Event), (∀ e ∈ ev, e.keepsTag key) →
    tagAfter key (some (some v)) ev = some (some v)
  | [], _ => rfl
  | e :: ev, h => by
    have ih := tagAfter_keeps hv ev fun e he => h e (by simp [he])
    have he := h e (by simp)
    cases e with
    | reopened => simp only [tagAfter, Option.some.injEq, hv, if_false]; exact ih
    | op o =>
      cases o with
      | set k w => simp only [Event.keepsTag] at he; simp only [tagAfter, he, if_false]; exact ih
      | clear => exact absurd he id
      | _ => exact ih

theorem tagAfter_append (key : String) : ∀ (ev ev' : List Event) (x : Option (Option Str)),
    tagAfter key x (ev ++ ev') = tagAfter key (tagAfter key x ev) ev'
  | [], _, _ => rfl
  | e :: ev, ev', x => by
    cases e with
    | reopened => simp only [List.cons_append, tagAfter]; exact tagAfter_append key ev ev' _
    | op o => cases o <;> (simp only [List.cons_append, tagAfter]; exact tagAfter_append key ev ev' _)

/-- **C85**: a text that was assigned to a tag is read until it is assigned again or cleared, however often the document is
saved and opened, and whatever else is done. -/
theorem C85_assigned {L : XLib} (hl : L.Lawful) {s0 s : Session} (h0 : Lives L s0) (hw : Writable s0) {ev ev' : List Event}
    {key : String} (hk : key ∈ KEYS) (hn : key ∉ ["date", "generator", "editing-cycles"]) {v : Str} (hv : v ≠ [])
    (h : Career L s0 (ev ++ .op (.set key (some v)) :: ev') s) (he : ∀ e ∈ ev', e.keepsTag key) :
    getitem key s.meta_.m = .ok (some v) := by
  rw [C85_tag hl h0 hw h hk hn, tagAfter_append]
  simp only [tagAfter, if_true, tagAfter_keeps hv ev' he]

/-- The events that concern the keywords -/
def keywordsAfter : List (Option Str) → List Event → List (Option Str)
  | l, [] => l
  | l, .op (.kwAdd k) :: ev => keywordsAfter (if some k ∈ l then l else l ++ [some k]) ev
  | l, .op (.kwRemove k) :: ev => keywordsAfter (l.erase (some k)) ev
  | _, .op .kwClear :: ev => keywordsAfter [] ev
  | _, .op .clear :: ev => keywordsAfter [] ev
  | l, .reopened :: ev => keywordsAfter (l.map fun v => if v = some [] then none else v) ev
  | l, _ :: ev => keywordsAfter l ev

theorem spec_keywords : ∀ (ev : List Event) (a : Abs), (evSpec a ev).keywords = keywordsAfter a.keywords ev
  | [], _ => rfl
  | e :: ev, a => by
    have ih := spec_keywords ev (evStep a e)
    show (evSpec (evStep a e) ev).keywords = _
    rw [ih]
    cases e with
    | reopened => rfl
    | op o =>
      cases o with
      | kwAdd k =>
        show keywordsAfter (specStep a (.kwAdd k)).keywords ev = keywordsAfter (if some k ∈ a.keywords then _ else _) ev
        simp only [specStep]; split <;> rfl
      | save now gen r => show keywordsAfter (specStep a (.save now gen r)).keywords ev = _; simp only [specStep]; split <;> rfl
      | statSet k n => show keywordsAfter (specStep a (.statSet k n)).keywords ev = _; simp only [specStep]; split <;> rfl
      | statUpdate d =>
        show keywordsAfter (Meta.updateCounts d a).keywords ev = _
        rw [(Meta.updateCounts_tag d a).2.1]; rfl
      | _ => rfl

/-- **C85**, the keywords: those that were added and not removed, in order, over all savings and openings. -/
theorem C85_keywords {L : XLib} (hl : L.Lawful) {s0 s : Session} (h0 : Lives L s0) (hw : Writable s0) {ev : List Event}
    (h : Career L s0 ev s) : keywords s.meta_.m = keywordsAfter (keywords s0.meta_.m) ev := by
  have := congrArg Abs.keywords (C85_life hl h0 hw h).2.2
  rw [spec_keywords] at this
  exact this

/-- The events that concern the count `key` -/
def countAfter (key : String) : Int → List Event → Int
  | n, [] => n
  | n, .op (.statSet k i) :: ev => countAfter key (if k = key then i else n) ev
  | n, .op (.statUpdate d) :: ev => countAfter key
      (((d.takeWhile fun p => decide (p.1 ∈ COUNTS)).filter fun p => p.1 = key).getLast?.elim n Prod.snd) ev
  | _, .op .statClear :: ev => countAfter key 0 ev
  | _, .op .clear :: ev => countAfter key 0 ev
  | n, _ :: ev => countAfter key n ev

theorem updateCounts_count (key : String) : ∀ (d : Dict String Int) (a : Abs), (Meta.updateCounts d a).count key =
    ((d.takeWhile fun p => decide (p.1 ∈ COUNTS)).filter fun p => p.1 = key).getLast?.elim (a.count key) Prod.snd
  | [], _ => rfl
  | (k, n) :: d, a => by
    unfold Meta.updateCounts
    split
    · rename_i hk
      rw [updateCounts_count key d, List.takeWhile_cons_of_pos (by simpa using hk)]
      by_cases h : k = key
      · subst h
        rw [List.filter_cons_of_pos (by simp)]
        cases hf : (d.takeWhile fun p => decide (p.1 ∈ COUNTS)).filter fun p => decide (p.1 = k) with
        | nil => simp [Meta.setCount]
        | cons p l => rw [List.getLast?_cons_cons]; rw [List.getLast?_cons]; rfl
      · rw [List.filter_cons_of_neg (by simpa using h)]
        simp [Meta.setCount, Ne.symm h]
    · rename_i hk
      rw [List.takeWhile_cons_of_neg (by simpa using hk)]; rfl

theorem spec_count {key : String} (hk : key ∈ COUNTS) : ∀ (ev : List Event) (a : Abs),
    (evSpec a ev).count key = countAfter key (a.count key) ev
  | [], _ => rfl
  | e :: ev, a => by
    have ih := spec_count hk ev (evStep a e)
    show (evSpec (evStep a e) ev).count key = _
    rw [ih]
    cases e with
    | reopened => rfl
    | op o =>
      cases o with
      | kwAdd k => show countAfter key ((specStep a (.kwAdd k)).count key) ev = _; simp only [specStep]; split <;> rfl
      | save now gen r => show countAfter key ((specStep a (.save now gen r)).count key) ev = _; simp only [specStep]; split <;> rfl
      | statSet k n =>
        show countAfter key ((specStep a (.statSet k n)).count key) ev = countAfter key (if k = key then n else a.count key) ev
        congr 1
        simp only [specStep]
        by_cases h : k = key
        · subst h; simp [hk, Meta.setCount]
        · split
          · simp [Meta.setCount, h, Ne.symm h]
          · simp [h]
      | statUpdate d =>
        show countAfter key ((Meta.updateCounts d a).count key) ev = _
        rw [updateCounts_count]; rfl
      | _ => rfl

/-- **C85**, the statistics: the number that was assigned last, over all savings and openings. -/
theorem C85_count {L : XLib} (hl : L.Lawful) {s0 s : Session} (h0 : Lives L s0) (hw : Writable s0) {ev : List Event}
    (h : Career L s0 ev s) {key : String} (hk : key ∈ COUNTS) :
    ∃ n, statGet key s0.meta_.m = .ok n ∧ statGet key s.meta_.m = .ok (countAfter key n ev) := by
  have hg : ∀ m : Meta.Meta, statGet key m = .ok ((Meta.abs m).count key) := by
    intro m
    have hk' : key ∈ Meta.TYPES := hk
    simp only [Meta.abs]
    unfold statGet
    rw [if_pos hk']
    split
    · rfl
    · split <;> rfl
  refine ⟨_, hg _, ?_⟩
  rw [hg, (C85_life hl h0 hw h).2.2, spec_count hk]

/-- The events that concern the user tags -/
def userAfter : List (Option Str × Option Str × Option Str) → List Event → List (Option Str × Option Str × Option Str)
  | l, [] => l
  | l, .op (.userSet n v ty) :: ev => userAfter (Meta.upsert n v ty l) ev
  | l, .op (.userDel n) :: ev => userAfter (l.eraseP fun e => some n = e.1) ev
  | l, .op (.userUpdate d) :: ev => userAfter (d.foldl (fun l p => Meta.upsert p.1 p.2 none l) l) ev
  | _, .op .userClear :: ev => userAfter [] ev
  | _, .op .clear :: ev => userAfter [] ev
  | l, .reopened :: ev => userAfter (l.map fun e => (e.1, if e.2.1 = some [] then none else e.2.1, e.2.2)) ev
  | l, _ :: ev => userAfter l ev

theorem spec_user : ∀ (ev : List Event) (a : Abs), (evSpec a ev).user = userAfter a.user ev
  | [], _ => rfl
  | e :: ev, a => by
    have ih := spec_user ev (evStep a e)
    show (evSpec (evStep a e) ev).user = _
    rw [ih]
    cases e with
    | reopened => rfl
    | op o =>
      cases o with
      | kwAdd k => show userAfter (specStep a (.kwAdd k)).user ev = _; simp only [specStep]; split <;> rfl
      | save now gen r => show userAfter (specStep a (.save now gen r)).user ev = _; simp only [specStep]; split <;> rfl
      | statSet k n => show userAfter (specStep a (.statSet k n)).user ev = _; simp only [specStep]; split <;> rfl
      | statUpdate d =>
        show userAfter (Meta.updateCounts d a).user ev = _
        rw [(Meta.updateCounts_tag d a).2.2]; rfl
      | _ => rfl

/-- **C85**, the user tags with their names, values and types: the entries that the statements on them leave, in order, over
all savings and openings. -/
theorem C85_user {L : XLib} (hl : L.Lawful) {s0 s : Session} (h0 : Lives L s0) (hw : Writable s0) {ev : List Event}
    (h : Career L s0 ev s) : Meta.entries s.meta_.m = userAfter (Meta.entries s0.meta_.m) ev := by
  have := congrArg Abs.user (C85_life hl h0 hw h).2.2
  rw [spec_user] at this
  exact this

/-- The event leaves the user tag `n` alone. -/
def Event.keepsUser (n : Str) : Event → Prop
  | .op (.userSet k _ _) => k ≠ n
  | .op (.userDel k) => k ≠ n
  | .op (.userUpdate d) => ∀ p ∈ d, p.1 ≠ n
  | .op .userClear => False
  | .op .clear => False
  | _ => True

theorem look_eraseP {n k : Str} (hne : k ≠ n) : ∀ l : List Meta.UEntry,
    Meta.look (l.eraseP fun e => some k = e.1) n = Meta.look l n
  | [] => rfl
  | e :: l => by
    by_cases h : some k = e.1
    · rw [List.eraseP_cons_of_pos (by simpa using h), Meta.look_cons, if_neg]
      rw [← h]; simp [hne, Ne.symm hne]
    · rw [List.eraseP_cons_of_neg (by simpa using h), Meta.look_cons, Meta.look_cons, look_eraseP hne l]

theorem look_keeps {n v : Str} (hv : v ≠ []) {ty : Option Str} : ∀ (ev : List Event) (l : List Meta.UEntry),
    (∀ e ∈ ev, e.keepsUser n) → Meta.look l n = some (some v, ty) → Meta.look (userAfter l ev) n = some (some v, ty)
  | [], _, _, h => h
  | e :: ev, l, hk, h => by
    have he := hk e (by simp)
    have ih := fun l => look_keeps (ty := ty) hv ev l fun e he => hk e (by simp [he])
    have hup : ∀ (k w : Str) (t : Option Str) (l : List Meta.UEntry), k ≠ n → Meta.look (Meta.upsert k w t l) n = Meta.look l n := by
      intro k w t l hne
      rw [Meta.look_upsert]
      unfold Meta.uset
      rw [if_neg (Ne.symm hne)]
    cases e with
    | reopened =>
      refine ih _ ?_
      unfold Meta.look at h ⊢
      rw [List.find?_map]
      have : (fun e : Meta.UEntry => decide (some n = e.1)) ∘
          (fun e : Meta.UEntry => (e.1, if e.2.1 = some [] then none else e.2.1, e.2.2)) = fun e => decide (some n = e.1) := rfl
      rw [this]
      cases hf : l.find? fun e => decide (some n = e.1) with
      | none => rw [hf] at h; cases h
      | some x =>
        rw [hf] at h
        obtain ⟨x1, x2, x3⟩ := x
        simp only [Option.map_some, Option.some.injEq, Prod.mk.injEq] at h ⊢
        rw [h.1]
        simp [hv, h.2]
    | op o =>
      cases o with
      | userSet k w t => exact ih _ (by rw [hup _ _ _ _ he]; exact h)
      | userDel k => exact ih _ (by rw [look_eraseP he]; exact h)
      | userUpdate d =>
        refine ih _ ?_
        have he : ∀ p ∈ d, p.1 ≠ n := he
        clear hk ih
        induction d generalizing l with
        | nil => exact h
        | cons p d ihd =>
          rw [List.foldl_cons]
          exact ihd _ (by rw [hup _ _ _ _ (he p (by simp))]; exact h) (fun q hq => he q (by simp [hq])) (fun q hq => he q (by simp [hq]))
      | userClear => exact absurd he id
      | clear => exact absurd he id
      | _ => exact ih _ h

theorem userAfter_append : ∀ (ev ev' : List Event) (l : List Meta.UEntry),
    userAfter l (ev ++ ev') = userAfter (userAfter l ev) ev'
  | [], _, _ => rfl
  | e :: ev, ev', l => by
    cases e with
    | reopened => simp only [List.cons_append, userAfter]; exact userAfter_append ev ev' _
    | op o => cases o <;> (simp only [List.cons_append, userAfter]; exact userAfter_append ev ev' _)

/-- **C85**: a user tag that was set, with its type, is read until it is set again, deleted or cleared, however often the
document is saved and opened. -/
theorem C85_userSet {L : XLib} (hl : L.Lawful) {s0 s : Session} (h0 : Lives L s0) (hw : Writable s0) {ev ev' : List Event}
    {n v ty : Str} (hv : v ≠ []) (h : Career L s0 (ev ++ .op (.userSet n v (some ty)) :: ev') s)
    (he : ∀ e ∈ ev', e.keepsUser n) : userGet n s.meta_.m = .ok (some v) ∧ userTypeof n s.meta_.m = .ok ty := by
  have h1 := C85_user hl h0 hw h
  rw [userAfter_append] at h1
  have h2 : Meta.look (Meta.entries s.meta_.m) n = some (some v, some ty) := by
    rw [h1]
    refine look_keeps hv ev' _ he ?_
    rw [Meta.look_upsert]
    unfold Meta.uset
    rw [if_pos rfl]; simp
  rw [← Meta.reads_eq] at h2
  unfold Meta.reads at h2
  unfold userGet userTypeof
  cases hf : Meta.userFind n s.meta_.m with
  | none => rw [hf] at h2; cases h2
  | some t =>
    rw [hf] at h2
    simp only [Option.map_some, Option.some.injEq, Prod.mk.injEq] at h2
    dsimp only
    rw [h2.1, h2.2]
    exact ⟨rfl, rfl⟩

/-- The event is a save. -/
def Event.isSave : Event → Bool
  | .op (.save _ _ _) => true
  | _ => false

/-- The number of saves among the events -/
def savesIn (ev : List Event) : Nat := ev.countP Event.isSave

/-- **C85**, the editing cycles: one more for every save (of a document whose entry has a text), whether it succeeds or not,
over all openings. -/
theorem C85_cycles {L : XLib} (hl : L.Lawful) {s0 s : Session} (h0 : Lives L s0) (hw : Writable s0) {ev : List Event}
    (h : Career L s0 ev s) (hc : getitem "editing-cycles" s0.meta_.m ≠ .ok none)
    (he : getitem "editing-cycles" s0.meta_.m ≠ .ok (some [])) (hk : ∀ e ∈ ev, e.keepsTag "editing-cycles") :
    cycles s.meta_.m = cycles s0.meta_.m + savesIn ev := by
  rw [Meta.cycles_abs, Meta.cycles_abs, (C85_life hl h0 hw h).2.2]
  have hc' : (Meta.abs s0.meta_.m).tag "editing-cycles" ≠ some none := by
    intro e; rw [getitem_abs, e] at hc; exact hc rfl
  have he' : (Meta.abs s0.meta_.m).tag "editing-cycles" ≠ some (some []) := by
    intro e; rw [getitem_abs, e] at he; exact he rfl
  generalize Meta.abs s0.meta_.m = a at hc' he'
  clear h hc he h0 hw
  induction ev generalizing a with
  | nil => simp [evSpec, savesIn]
  | cons e ev ih =>
    have ih := fun a => ih (fun e h => hk e (by simp [h])) a
    have hk := hk e (by simp)
    show Meta.cyclesOf ((evSpec (evStep a e) ev).tag _) = _
    have hs : savesIn (e :: ev) = savesIn ev + if e.isSave then 1 else 0 := List.countP_cons
    rw [hs]
    have other : (evStep a e).tag "editing-cycles" = a.tag "editing-cycles" → e.isSave = false →
        Meta.cyclesOf ((evSpec (evStep a e) ev).tag "editing-cycles") = Meta.cyclesOf (a.tag "editing-cycles") +
          ((savesIn ev + if e.isSave then 1 else 0 : Nat) : Int) := by
      intro h1 h2
      rw [ih _ (by rw [h1]; exact hc') (by rw [h1]; exact he'), h1, h2]; simp
    cases e with
    | reopened =>
      refine other ?_ rfl
      show (a.tag "editing-cycles").map _ = _
      cases ht : a.tag "editing-cycles" with
      | none => rfl
      | some v =>
        have : v ≠ some [] := by rintro rfl; exact he' ht
        simp [this]
    | op o =>
      cases hsv : o.isSave with
      | false =>
        refine other (Meta.cycles_other a o ?_ hsv) (by cases o <;> first | rfl | cases hsv)
        cases o with
        | set k v => exact hk
        | clear => exact hk
        | _ => trivial
      | true =>
        cases o with
        | save now gen r =>
          have h1 := Meta.cycles_save a now gen r
          rw [if_neg hc'] at h1
          show Meta.cyclesOf ((evSpec (specStep a (.save now gen r)) ev).tag "editing-cycles") = _
          have hne : intStr (Meta.cyclesOf (a.tag "editing-cycles") + 1) ≠ [] := by
            intro e
            have := pyInt_intStr (Meta.cyclesOf (a.tag "editing-cycles") + 1)
            rw [e] at this
            exact absurd this (by rw [show pyInt [] = none from by decide]; simp)
          rw [ih _ (by rw [h1]; simp) (by rw [h1]; simpa using hne), h1]
          simp [Meta.cyclesOf, pyInt_intStr, Event.isSave]
          omega
        | _ => cases hsv

/-! ## New documents -/

theorem career_ops {L : XLib} {s0 : Session} : ∀ (ops : List Meta.Op) {ev : List Event} {s : Session}, Career L s0 ev s →
    (∀ o ∈ ops, LegalOp o ∧ o.isSave = false) →
    Career L s0 (ev ++ ops.map .op) { s with meta_ := { s.meta_ with m := Meta.run s.meta_.m ops } }
  | [], ev, s, h, _ => by simpa [Meta.run] using h
  | o :: ops, ev, s, h, ho => by
    have := career_ops ops (h.data o (ho o (by simp)).1 (ho o (by simp)).2) fun o h => ho o (by simp [h])
    simpa [Meta.run] using this

theorem legal_new {k : Clock} (hk : legalStr k.time = true ∧ legalStr k.time2 = true ∧ legalStr k.generator = true) :
    legal (single (metaInit k none).tree) = true ∧ (metaInit k none).tree.1.tail = none := by
  refine ⟨?_, rfl⟩
  rw [legal_meta]
  have e0 : legal (Forest.ofList (metaInit k none).m.kids) = true := by
    show legal (Forest.ofList (Meta.new k.time k.time2 k.generator).kids) = true
    rw [new_eq]
    have n1 : legalName "meta:creation-date" = true := by decide +kernel
    have n2 : legalName "dc:date" = true := by decide +kernel
    have n3 : legalName "meta:generator" = true := by decide +kernel
    have n4 : legalName "meta:document-statistic" = true := by decide +kernel
    simp [Forest.ofList, legal, legalElem, legalOpt, hk.1, hk.2.1, hk.2.2, n1, n2, n3, n4]
  have n5 : legalElem (grddl { id := 0, tag := "office:document-meta" }) = true := by decide +kernel
  have n6 : legalElem { id := 0, tag := "office:meta" } = true := by decide +kernel
  refine ⟨n5, rfl, ?_, e0, rfl⟩
  show legalElem (Meta.new k.time k.time2 k.generator).node = true
  rw [new_eq]
  exact n6

theorem tag_spec {ops : List Meta.Op} (hc : ∀ o ∈ ops, o ≠ .set "editing-cycles" none ∧ o.isSave = false) {a : Abs}
    (h : a.tag "editing-cycles" ≠ some none) : (Meta.spec a ops).tag "editing-cycles" ≠ some none := by
  induction ops generalizing a with
  | nil => exact h
  | cons o ops ih =>
    refine ih (fun o h => hc o (by simp [h])) ?_
    have h1 := hc o (by simp)
    cases o with
    | set k v =>
      show (if "editing-cycles" = k ∧ k ∈ KEYS then some v else a.tag "editing-cycles") ≠ some none
      split
      · rename_i hk
        rintro e
        cases e
        rw [← hk.1] at h1
        exact h1.1 rfl
      · exact h
    | clear => exact nofun
    | save now gen r => cases h1.2
    | _ =>
      intro e
      refine h (Eq.trans (Eq.symm (Meta.cycles_other a _ ?_ ?_)) e)
      · trivial
      · rfl

/-- **C85**, new documents: whatever is assigned to the meta data of a new document, `saveas` succeeds (if there is a free
name for the temporary file, and `editing-cycles` was not set to None), and the document that is opened from the file has the
meta data that the statements say. -/
theorem C85_document {L : XLib} (hl : L.Lawful) (fs : FS) (k k1 : Clock) {mt : Str} (hmt : mt ∈ MIMETYPE_BODYTAG_MAP.keys)
    (hk : legalStr k.time = true ∧ legalStr k.time2 = true ∧ legalStr k.generator = true)
    (hk1 : legalStr k1.time = true ∧ legalStr k1.generator = true) (f : Path) (env : Env) (backup : Bool)
    (hsink : ∀ m, env.sink m = none) {tmp : Path} (htmp : tmpfilename env.names f fs = some tmp) (hne : tmp ≠ f)
    (ops : List Meta.Op) (ho : ∀ o ∈ ops, LegalOp o ∧ o.isSave = false)
    (hc : ∀ o ∈ ops, o ≠ .set "editing-cycles" none) :
    ∃ s s', newWhole L fs k mt = .ok s ∧
      saveasWhole L env k1 backup f { s with meta_ := { s.meta_ with m := Meta.run s.meta_.m ops } } = (s', .ok ()) ∧
      ∀ k' W0, (ids W0).Nodup → ∃ s'', openWhole L s'.w.fs k' (.file (some f)) W0 = .ok s'' ∧
        Career L s (ops.map .op ++ [.op (.save k1.time k1.generator (.ok ())), .reopened]) s'' ∧
        Meta.abs s''.meta_.m = noText (specStep (Meta.spec (Meta.abs s.meta_.m) ops) (.save k1.time k1.generator (.ok ()))) := by
  obtain ⟨s, h1, h2, h3, h4, h5, h6, h7, -, h8⟩ := new_ok (L := L) fs k hmt
  have hw : Writable s := by
    refine ⟨?_, h8⟩
    rw [h5]
    exact legal_new hk
  have hl0 : Lives L s := by simpa using h2 s.docname
  have hcar : Career L s (ops.map .op) { s with meta_ := { s.meta_ with m := Meta.run s.meta_.m ops } } := by
    simpa using career_ops ops (Career.start (L := L) (s0 := s)) ho
  have hcar' := hcar.named (some f)
  obtain ⟨g1, g2, g3⟩ := C85_life hl hl0 hw hcar'
  have hspec : ∀ (l : List Meta.Op) (a : Abs), evSpec a (l.map .op) = Meta.spec a l := by
    intro l
    induction l with
    | nil => intro a; rfl
    | cons o l ih => intro a; exact ih _
  rw [hspec] at g3
  have hcy : (Meta.abs (Meta.run s.meta_.m ops)).tag "editing-cycles" ≠ some none := by
    have : Meta.abs (Meta.run s.meta_.m ops) = Meta.spec (Meta.abs s.meta_.m) ops := g3
    rw [this]
    refine tag_spec (fun o h => ⟨hc o h, (ho o h).2⟩) ?_
    rw [h5]
    have : (Meta.abs (Meta.new k.time k.time2 k.generator)).tag "editing-cycles" = none := by
      rw [new_eq]
      rfl
    show (Meta.abs (Meta.new k.time k.time2 k.generator)).tag "editing-cycles" ≠ _
    rw [this]; simp
  obtain ⟨s', hs'⟩ := C69_saves hl g1 (f := f) rfl env k1 backup hcy h6 h7 hsink (by rw [← h3] at htmp; exact htmp) hne
  refine ⟨s, s', h1, hs', fun k' W0 h0 => ?_⟩
  have hw' : Writable s' := writable_save hs' hk1.1 hk1.2 g2
  obtain ⟨f', s'', e1, e2, -⟩ := C69_reopen hl g1 hs' hw' k' h0
  have : f' = f := by
    rw [(C69_frame L env k1 backup hs').2.2.1] at e1
    exact (Option.some.inj e1).symm
  subst this
  have hend := hcar'.reopened hs' hk1 rfl h0 e2
  refine ⟨s'', e2, hend, ?_⟩
  rw [(C85_life hl hl0 hw hend).2.2]
  unfold evSpec
  rw [List.foldl_append]
  have := hspec ops (Meta.abs s.meta_.m)
  unfold evSpec at this
  rw [this]
  rfl

/-! ## Concrete cases -/

def demoOps : List Meta.Op := [.set "title" (some "Report".toList), .set "subject" (some []), .kwAdd "a".toList,
  .kwAdd "b".toList, .userSet "n".toList "7".toList (some "float".toList), .statSet "page" 3, .kwRemove "a".toList]

/-- A new spreadsheet with a title, an empty subject, keywords, a user tag and a number of pages is saved and opened; then the
title is read, the subject is None, one keyword is left, the user tag has its value and type, and the number of editing cycles
is 1. -/
example : ∃ L : XLib, L.Lawful ∧ ∃ s s'' : Session, Lives L s ∧ Writable s ∧
    Career L s (demoOps.map .op ++ [.op (.save "2026-01-01".toList "g".toList (.ok ())), .reopened]) s'' ∧
    getitem "title" s''.meta_.m = .ok (some "Report".toList) ∧ getitem "subject" s''.meta_.m = .ok none ∧
    keywords s''.meta_.m = [some "b".toList] ∧
    userGet "n".toList s''.meta_.m = .ok (some "7".toList) ∧ userTypeof "n".toList s''.meta_.m = .ok "float".toList ∧
    statGet "page" s''.meta_.m = .ok 3 ∧ cycles s''.meta_.m = 1 := by
  obtain ⟨L, hl⟩ := xlib_exists
  have hmt : Parts.spreadsheet ∈ MIMETYPE_BODYTAG_MAP.keys := by decide +kernel
  obtain ⟨s, s', h1, h2, h3⟩ := C85_document hl (fun _ => none) demoClock demoClock hmt (by decide +kernel)
    (by decide +kernel) demoFile demoEnv false (fun _ => rfl) (tmp := "x.tmp".toList) (by decide +kernel) (by decide +kernel)
    demoOps (by
      intro o ho
      simp only [demoOps, List.mem_cons, List.not_mem_nil, or_false] at ho
      rcases ho with rfl | rfl | rfl | rfl | rfl | rfl | rfl <;> exact ⟨by simp only [LegalOp] <;> decide +kernel, rfl⟩) (by
      intro o ho
      simp only [demoOps, List.mem_cons, List.not_mem_nil, or_false] at ho
      rcases ho with rfl | rfl | rfl | rfl | rfl | rfl | rfl <;> simp)
  obtain ⟨s'', h4, h5, h6⟩ := h3 demoClock .nil (by simp [ids])
  obtain ⟨s0, n1, n2, n3, n4, n5, n6, n7, -, n8⟩ := new_ok (L := L) (fun _ => none) demoClock hmt
  rw [h1] at n1
  cases n1
  have hw : Writable s := ⟨by rw [n5]; exact legal_new (by decide +kernel), n8⟩
  have hl0 : Lives L s := by simpa using n2 s.docname
  have hm : s.meta_.m = Meta.new demoClock.time demoClock.time2 demoClock.generator := by rw [n5]; rfl
  have hu := C85_userSet hl hl0 hw (s := s'') (n := "n".toList) (v := "7".toList) (ty := "float".toList)
    (ev := (demoOps.take 4).map Event.op) (ev' := (demoOps.drop 5).map Event.op ++
      [Event.op (.save "2026-01-01".toList "g".toList (.ok ())), Event.reopened]) (by decide) h5 (by
      intro e he
      simp only [demoOps, List.map, List.drop, List.cons_append, List.nil_append, List.mem_cons, List.not_mem_nil, or_false] at he
      rcases he with rfl | rfl | rfl | rfl <;> simp [Event.keepsUser])
  refine ⟨L, hl, s, s'', hl0, hw, h5, ?_, ?_, ?_, ?_, ?_, ?_, ?_⟩
  · refine C85_assigned hl hl0 hw (ev := []) (ev' := (demoOps.drop 1).map Event.op ++
      [Event.op (.save "2026-01-01".toList "g".toList (.ok ())), Event.reopened]) (by decide +kernel) (by decide) (by decide) h5 ?_
    intro e he
    simp only [demoOps, List.drop, List.map, List.cons_append, List.nil_append, List.mem_cons, List.not_mem_nil, or_false] at he
    rcases he with rfl | rfl | rfl | rfl | rfl | rfl | rfl | rfl <;> simp [Event.keepsTag]
  · rw [C85_tag hl hl0 hw h5 (by decide +kernel) (by decide)]
    simp [tagAfter, demoOps]
  · rw [C85_keywords hl hl0 hw h5, hm]
    decide +kernel
  · exact hu.1
  · exact hu.2
  · obtain ⟨n, -, e⟩ := C85_count hl hl0 hw h5 (key := "page") (by decide +kernel)
    rw [e]
    simp [countAfter, demoOps]
  · rw [C85_cycles hl hl0 hw h5 (by rw [hm]; decide +kernel) (by rw [hm]; decide +kernel) (by
      intro e he
      simp only [demoOps, List.map, List.cons_append, List.nil_append, List.mem_cons, List.not_mem_nil, or_false] at he
      rcases he with rfl | rfl | rfl | rfl | rfl | rfl | rfl | rfl | rfl <;> simp [Event.keepsTag]), hm]
    decide +kernel

end Verif.Whole
