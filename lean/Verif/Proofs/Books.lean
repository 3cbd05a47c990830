import Verif.Model.Books
import Verif.Props.Desk
import Verif.Props.MixCopy
/-! Helper lemmas for C91: what a statement with one document leaves of the tables of the others. -/
namespace Verif.Books
open Verif Verif.Lxml Forest Verif.Whole Verif.Document Verif.Mix
open Verif.Desk (Quiet Held Apart Beside later kids_in node_ids quiet_firm held_firm)
open Verif.TextProg (Kept Loose Step Firm Fits node_some node_mem node_kids node_tagAt node_child declTags closed_tree)
open Verif.Program (TableObj tableState stateOf Config)
set_option linter.unusedSimpArgs false

variable {L : XLib} {F R T R' T' M : Nat → Prop} {W W' : World} {tag : String} {d : Parts.DocTree} {p : Mix.Prog}

/-- `R` on the nodes `M`, and `R'` elsewhere -/
def glue (M R R' : Nat → Prop) (x : Nat) : Prop := (M x ∧ R x) ∨ (¬ M x ∧ R' x)

theorem glue_in {x : Nat} (h : M x) : glue M R R' x ↔ R x := by unfold glue; tauto
theorem glue_out {x : Nat} (h : ¬ M x) : glue M R R' x ↔ R' x := by unfold glue; tauto

theorem glue_cover (h : Cover R T W) (h' : Cover R' T' W') (hsame : ∀ x, M x → node W' x = node W x) (hmem : ∀ x, M x → x ∈ ids W')
    (hdown : ∀ q e l x, node W' q = some (e, l) → x ∈ l → M q → M x)
    (hup : ∀ q e l x, node W' q = some (e, l) → x ∈ l → M x → M q) : Cover (glue M R R') (glue M T T') W' := by
  refine ⟨h'.once, ?_, ?_, ?_, ?_, ?_, ?_⟩
  · intro x
    by_cases hx : M x
    · rw [glue_in hx, glue_in hx]; exact h.apart x
    · rw [glue_out hx, glue_out hx]; exact h'.apart x
  · intro x
    by_cases hx : M x
    · exact fun _ => hmem x hx
    · rw [glue_out hx, glue_out hx]; exact h'.mem x
  · intro q e l x hq hx
    by_cases hM : M q
    · rw [glue_in hM, glue_in hM, glue_in (hdown q e l x hq hx hM)]
      exact h.down q e l x (by rw [← hsame q hM]; exact hq) hx
    · rw [glue_out hM, glue_out hM, glue_out fun g => hM (hup q e l x hq hx g)]
      exact h'.down q e l x hq hx
  · intro q e l x hq hx
    by_cases hM : M q
    · rw [glue_in hM, glue_in hM, glue_in (hdown q e l x hq hx hM)]
      exact h.top q e l x (by rw [← hsame q hM]; exact hq) hx
    · rw [glue_out hM, glue_out hM, glue_out fun g => hM (hup q e l x hq hx g)]
      exact h'.top q e l x hq hx
  · intro x
    by_cases hx : M x
    · rw [glue_in hx, node_tag (hsame x hx)]; exact h.table x
    · rw [glue_out hx]; exact h'.table x
  · intro x
    by_cases hx : M x
    · rw [glue_in hx, glue_in hx, node_tag (hsame x hx)]; exact h.tables x
    · rw [glue_out hx, glue_out hx]; exact h'.tables x

/-- The trees of a document and its free nodes -/
def mine (F : Nat → Prop) (W : World) (d : Parts.DocTree) (x : Nat) : Prop :=
  (x ∈ ids W ∧ ¬ F x) ∨ ∃ r ∈ [d.styles.root, d.content.root], ∃ t, find r W = some t ∧ x ∈ ids (single t)

theorem mine_same (hq : Quiet F W W' d) {x : Nat} (h : mine F W d x) : node W' x = node W x := by
  rcases h with ⟨h1, h2⟩ | ⟨r, hr, t, ht, hx⟩
  · exact hq.free x h1 h2
  · exact hq.trees r hr t ht x hx

theorem mine_mem (hq : Quiet F W W' d) {x : Nat} (h : mine F W d x) : x ∈ ids W' := by
  refine node_ids (mine_same hq h) ?_
  rcases h with ⟨h1, h2⟩ | ⟨r, hr, t, ht, hx⟩
  · exact h1
  · exact (find_sub ht).subset hx

theorem mine_down (hh : Held F W tag d) (hq : Quiet F W W' d) {q x : Nat} {e : Elem} {l : List Nat}
    (hn : node W' q = some (e, l)) (hx : x ∈ l) (h : mine F W d q) : mine F W d x := by
  rw [mine_same hq h] at hn
  rcases h with ⟨h1, h2⟩ | ⟨r, hr, t, ht, hqt⟩
  · exact .inl ⟨node_child hn hx, fun hf => h2 (hh.kept.up q e l x hn hx hf)⟩
  · exact .inr ⟨r, hr, t, ht, kids_in hh.kept.once ht hqt hn hx⟩

theorem mine_body (hh : Held F W tag d) : mine F W d d.body.node := by
  obtain ⟨c, hc⟩ := find_some_of_mem (hh.kept.mem _ (hh.kept.frame d.content.root (by simp)))
  exact .inr ⟨d.content.root, by simp, c, hc, Desk.body_in hh.kept hc⟩

theorem mine_up (hh : Held F W tag d) (hq : Quiet F W W' d) {q x : Nat} {e : Elem} {l : List Nat}
    (hn : node W' q = some (e, l)) (hx : x ∈ l) (h : mine F W d x) : mine F W d q := by
  rcases h with ⟨h1, h2⟩ | ⟨r, hr, t, ht, hxt⟩
  · obtain ⟨e0, l0, g1, g2⟩ := hq.up q e l x hn hx h1 h2
    by_cases hb : q = d.body.node
    · rw [hb]; exact mine_body hh
    · exact .inl ⟨node_mem g1, fun hf => h2 (hh.kept.down q e0 l0 x g1 g2 hf hb)⟩
  · have hroot := hh.roots r hr
    have hxW := (find_sub ht).subset hxt
    obtain ⟨k, hk, rfl⟩ := find_of_node hn
    by_cases hxr : x = r
    · subst hxr
      exact absurd (hq.roots x hr hroot) (child_not_root hq.once hk (roots_sub hx))
    · -- the parent of `x` in the old memory is in the same tree
      have hin : x ∈ ids t.2 := by
        simp only [ids_single, List.mem_cons, (find_mem_ids ht).1] at hxt
        exact hxt.resolve_left hxr
      have hno : x ∉ Lxml.roots W := child_not_root hh.kept.once ht hin
      obtain ⟨q0, u, hu, hm⟩ := exists_parent hh.kept.once hxW hno
      have hq0 : q0 ∈ ids (single t) := by
        have hxu : x ∈ ids (single u) := by simp [roots_sub hm]
        rcases laminar hh.kept.once ht hu hxt hxu with g | g
        · -- `r` is in the tree of `q0`
          simp only [ids_single, List.mem_cons, (find_mem_ids hu).1] at g
          rcases g with g | g
          · simp [(find_mem_ids ht).1, g]
          · exact absurd hroot (child_not_root hh.kept.once hu g)
        · exact g
      have h1 := mine_same hq (.inr ⟨r, hr, t, ht, hq0⟩ : mine F W d q0)
      rw [node_of_find hu] at h1
      obtain ⟨k', hk', hkk⟩ := find_of_node h1
      rw [parent_unique hq.once hk hk' hx (by rw [hkk]; exact hm)]
      exact .inr ⟨r, hr, t, ht, hq0⟩

/-- The memory and the files that the document is in -/
def put (p : Mix.Prog) (W : World) (fs : Package.FS) : Mix.Prog :=
  { p with text := { p.text with session := { p.text.session with world := W, w := { p.text.session.w with fs := fs } } } }

/-- A document is in order after a change that does not touch it. -/
theorem ready_quiet (h : Ready L F R T tag p) (hh : Held F p.world tag p.text.session.tree)
    (hq : Quiet F p.world W' p.text.session.tree) (fs : Package.FS) :
    ∃ R' T', Ready L (later F p.world W') R' T' tag (put p W' fs) := by
  have hM : ∀ x, mine F p.world p.text.session.tree x → node W' x = node p.world x := fun x => mine_same hq
  have hc := glue_cover h.cover (start_cover hq.once) hM (fun x => mine_mem hq)
    (fun q e l x hn hx => mine_down hh hq hn hx) (fun q e l x hn hx => mine_up hh hq hn hx)
  have hfree : ∀ {n}, Loose F p.world n → mine F p.world p.text.session.tree n := fun hl => .inl ⟨hl.mem, hl.free⟩
  have hout : ∀ {n}, mine F p.world p.text.session.tree n → Out R T n → Out (glue (mine F p.world p.text.session.tree) R (TopTable W'))
      (glue (mine F p.world p.text.session.tree) T (InTable W')) n := by
    intro n hm ho
    exact ⟨by rw [glue_in hm]; exact ho.1, by rw [glue_in hm]; exact ho.2⟩
  have hfind : ∀ {n}, n ∈ ids p.world → ¬ F n → find n W' = find n p.world := fun h1 h2 => hq.below hh.kept h1 h2
  have hmem : ∀ o ∈ p.tables, o.node ∈ ids p.world ∧ ¬ F o.node := fun o ho =>
    ⟨(h.tableLoose ho).mem, (h.tableLoose ho).free⟩
  refine ⟨_, _, ⟨?_, ?_, h.known, ⟨hq.kept hh.kept, fun n hn => hq.loose (h.fits.objs n hn)⟩, hc,
    hout (mine_body hh) h.body, ?_, ?_, h.distinct, ?_, ?_⟩⟩
  · exact (h.lives.trees (W := W') (d := p.text.session.tree) hq.once h.known (hq.refs hh.kept)).disk fs
  · intro t ht
    have ht : find p.text.session.tree.styles.root W' = some t := ht
    rw [hq.tree hh.kept.once (by simp) (roots_sub (hh.roots _ (by simp)))] at ht
    exact h.apart t ht
  · intro n hn
    rcases h.objs n hn with g | g
    · exact .inl g
    · exact .inr (hout (hfree (h.fits.objs n hn)) g)
  · intro o ho
    refine ⟨?_, (h.roots o ho).2⟩
    rw [glue_in (hfree (h.tableLoose ho))]
    exact (h.roots o ho).1
  · intro o ho t ht
    have ht : find o.node W' = some t := ht
    have ht' := ht
    rw [hfind (hmem o ho).1 (hmem o ho).2] at ht
    exact Program.sound_fresh (h.sound o ho t ht) ht'
  · intro n hR hF hno t ht
    have ht : find n W' = some t := ht
    have hn : n ∈ ids p.world ∧ ¬ F n := by
      by_contra hg
      exact hF ⟨(find_mem_ids ht).2, hg⟩
    rw [glue_in (.inl hn)] at hR
    rw [hfind hn.1 hn.2] at ht
    exact h.others n hR hn.2 hno t ht

/-- The tables of the document are as they were. -/
theorem shown_quiet (h : Ready L F R T tag p) (hh : Held F p.world tag p.text.session.tree)
    (hq : Quiet F p.world W' p.text.session.tree) (fs : Package.FS) (i : Nat) : shown (put p W' fs) i = shown p i := by
  refine shown_eq rfl fun o ho => ?_
  have hl := h.tableLoose (List.mem_of_getElem? ho)
  exact hq.below hh.kept hl.mem hl.free

/-! ## New documents have no tables. -/

/-- The new nodes below others are no tables. -/
def NoTable (A V : World) : Prop := ∀ x ∈ ids V, x ∉ ids A → x ∉ Lxml.roots V → Parts.tagAt V x ≠ some "table:table"

theorem NoTable.ext {A V V' : World} (h : NoTable A V) {q : Nat} {T : List String} (x : Parts.Ext V V' (Parts.only V q T))
    (hT : "table:table" ∉ T) : NoTable A V' := by
  intro y hy hA hr
  obtain ⟨m, hm, -⟩ := x.free
  have hm : Lxml.roots V' = Lxml.roots V ++ m := hm
  by_cases hV : y ∈ ids V
  · have hc := x.keep y hV
    have : Parts.tagAt V' y = Parts.tagAt V y := by
      obtain ⟨t, ht⟩ := find_some_of_mem hV
      obtain ⟨t', ht'⟩ := find_some_of_mem hy
      unfold content at hc
      rw [ht, ht'] at hc
      rw [tagAt_find ht, tagAt_find ht']
      simp only [Option.map_some, Option.some.injEq] at hc
      rw [hc]
    rw [this]
    exact h y hV hA fun g => hr (by rw [hm]; exact List.mem_append_left _ g)
  · obtain ⟨p, u, hu, hyu⟩ := exists_parent x.once hy hr
    obtain ⟨n, h1, -, h3⟩ := x.kids p (find_mem hu)
    rw [Whole.children_find hu] at h1
    rw [Option.some.inj h1] at hyu
    have hyn : y ∈ n := by
      rcases List.mem_append.mp hyu with g | g
      · exfalso
        refine hV ?_
        unfold Parts.kidsOf at g
        cases hc : children V p with
        | none => rw [hc] at g; simp at g
        | some l =>
          rw [hc] at g
          obtain ⟨t, ht⟩ := find_some_of_mem (Parts.mem_of_children hc)
          rw [Whole.children_find ht] at hc
          cases hc
          exact (find_sub ht).subset (by simp [roots_sub g])
      · exact g
    have := List.mem_map_of_mem (f := Parts.tagAt V') hyn
    rw [h3] at this
    obtain ⟨t, ht, e⟩ := List.mem_map.mp this
    rw [← e]
    unfold Parts.only at ht
    split at ht
    · intro he
      rw [Option.some.inj he] at ht
      exact hT (List.mem_filter.mp ht).1
    · cases ht

theorem tree_noTable {A W' : World} (hA : (ids A).Nodup) {mt : Str} {d : Parts.DocTree}
    (h : Parts.packagedTree mt none none A = (W', .ok d)) : NoTable A W' := by
  have b0 : NoTable A A := fun x hx hn _ => absurd hx hn
  unfold Parts.packagedTree at h
  obtain ⟨W1, s, h1, h⟩ := bind_inv h
  obtain ⟨W2, c, h2, h⟩ := bind_inv h
  obtain ⟨V1, s', g1, o1, x1, r1⟩ := Parts.C63_styles (o := none) hA (by simp)
  rw [g1] at h1
  simp only [Prod.mk.injEq, Except.ok.injEq] at h1
  obtain ⟨rfl, rfl⟩ := h1
  have b1 := b0.ext x1 (by decide)
  have hm : mt ∈ MIMETYPE_NSMAP := by
    unfold Parts.contentInit at h2
    by_cases hm : mt ∈ MIMETYPE_NSMAP
    · exact hm
    · simp [if_neg hm, Py.raise] at h2
  obtain ⟨V2, c', g2, o2, x2, r2⟩ := Parts.C63_content (o := none) x1.once (fun _ => hm) (by simp)
  rw [g2] at h2
  simp only [Prod.mk.injEq, Except.ok.injEq] at h2
  obtain ⟨rfl, rfl⟩ := h2
  have b2 := b1.ext x2 (by decide)
  cases ht : MIMETYPE_BODYTAG_MAP.get mt with
  | none => rw [ht] at h; simp [Py.raise] at h
  | some tag =>
    rw [ht] at h
    dsimp only at h
    obtain ⟨W3, b, h3, h⟩ := bind_inv h
    rw [Py.pure_def] at h
    simp only [Prod.mk.injEq, Except.ok.injEq] at h
    obtain ⟨rfl, rfl⟩ := h
    have htt : "table:table" ∉ [tag] := by
      have : ∀ e ∈ MIMETYPE_BODYTAG_MAP, e.2 ≠ "table:table" := by decide +kernel
      intro he
      exact this _ (Dict.get_mem ht) (List.mem_singleton.mp he).symm
    obtain ⟨U1, n, e1, y1, q1, _⟩ := Parts.sub_spec x2.once r2.body.mem tag
    have c1 := b2.ext y1 htt
    have hnt : Parts.tagAt U1 n = some tag := by
      obtain ⟨_, _, _, h, _⟩ := q1
      exact h
    obtain ⟨U2, v, e2, y2, q2, _⟩ := Parts.sub_spec y1.once q1.mem "text:variable-decls"
    have c2 := c1.ext y2 (by decide)
    obtain ⟨U3, u, e3, y3, q3, _⟩ := Parts.sub_spec y2.once (y2.mem q1.mem) "text:user-field-decls"
    have c3 := c2.ext y3 (by decide)
    unfold Parts.applicationBody Parts.bodyInit at h3
    rw [Py.bind_ok e1, Py.bind_ok (Parts.tagOf_eq hnt), Py.bind_ok e2] at h3
    rcases Parts.init_cases q2.mem with ⟨dv, hdv⟩ | hdv
    · rw [Py.bind_ok hdv, Py.bind_ok e3] at h3
      rcases Parts.init_cases q3.mem with ⟨du, hdu⟩ | hdu
      · rw [Py.bind_ok hdu, Py.pure_def] at h3
        simp only [Prod.mk.injEq, Except.ok.injEq] at h3
        obtain ⟨rfl, -⟩ := h3
        exact c3
      · rw [Py.bind_error hdu] at h3; simp at h3
    · rw [Py.bind_error hdv] at h3; simp at h3

/-- A new document can be read. -/
theorem new_readable (hlaw : L.Lawful) {fs : Package.FS} {k : Clock} {mt : Str} {A : World} {s : Session} (hn : (ids A).Nodup)
    (h : Desk.newIn L fs k mt A = .ok s) : Mix.Readable s := by
  unfold Desk.newIn at h
  cases ho : Package.open_ L.pkg fs (.file none) k.now with
  | error e => rw [ho] at h; cases h
  | ok fm =>
    rw [ho] at h
    dsimp only at h
    obtain ⟨hb, -, hcA⟩ := Desk.made_beside hlaw hn h
    obtain ⟨tag, -, hfr⟩ := Program.made_framed hlaw hn ho h
    have hk := TextProg.start_kept hfr
    obtain ⟨hsrc, -, -⟩ := open_ok ho
    have hst : ∀ n, storedBytes fs fm n = none := by
      intro n
      unfold storedBytes Package.getBytes Package.srcZip
      rw [hsrc]
    obtain ⟨doc, so, co, W1, W2, W3, tree, hdoc, h1, h2, h3, rfl⟩ := packagedWhole_inv h
    rw [hst] at h1 h2
    have e1 : W1 = A ∧ so = none := by
      have : readTree L none A = (A, .ok none) := rfl
      rw [this] at h1
      simp only [Prod.mk.injEq, Except.ok.injEq] at h1
      exact ⟨h1.1.symm, h1.2.symm⟩
    obtain ⟨rfl, rfl⟩ := e1
    have e2 : W2 = W1 ∧ co = none := by
      have : readTree L none W1 = (W1, .ok none) := rfl
      rw [this] at h2
      simp only [Prod.mk.injEq, Except.ok.injEq] at h2
      exact ⟨h2.1.symm, h2.2.symm⟩
    obtain ⟨rfl, rfl⟩ := e2
    have hno := tree_noTable hn h3
    intro b hbody t ht
    exfalso
    have hbody : find tree.body.node W3 = some b := hbody
    unfold bodyTables at ht
    obtain ⟨u, hu, ht⟩ := List.mem_flatMap.mp ht
    obtain ⟨hu, -⟩ := List.mem_filter.mp hu
    obtain ⟨t1, t2⟩ := topTables_nodes ht
    have hbA : tree.body.node ∉ ids W2 := hb.ref hn hfr.refs.body.node (hb.ref hn hfr.refs.content.body hcA)
    have hfu := child_find hb.once hbody hu
    have hft : find t.1.id W3 = some t := by
      rw [find_in hb.once hfu (nodes_ids t1)]
      exact nodes_find (nodup_tree hb.once hfu) t1
    have htb : t.1.id ∈ ids b.2 := by
      have := nodes_ids t1
      exact TextProg.tree_sub hu this
    have hall : ∀ x ∈ ids (single b), x ∉ ids W2 := by
      refine closed_tree hb.once (single b) ?_ ?_ ?_
      · intro v hv
        obtain rfl : v = b := by simpa [single] using hv
        rw [(find_mem_ids hbody).1]; exact hbody
      · intro q hq e' l x hl hx hqA hxA
        exact hqA (hb.parent hn hl hx hxA)
      · intro x hx
        obtain rfl : x = tree.body.node := by simpa [single, (find_mem_ids hbody).1] using hx
        exact hbA
    refine hno t.1.id (find_mem hft) (hall _ (by simp [htb])) (child_not_root hb.once hbody htb) ?_
    rw [tagAt_find hft, t2]

/-- A document that has been opened or made is in order. -/
theorem start_ready {s : Session} (hl : Lives L s) (h1 : MIMETYPE_BODYTAG_MAP.get s.mimetype = some tag)
    (h2 : Program.Framed s.world tag s.tree) (hr : Mix.Readable s) :
    Ready L (TextProg.outer s.world s.tree) (TopTable s.world) (InTable s.world) tag ⟨⟨s, []⟩, []⟩ := by
  have hap := (TextProg.ok_start hl ⟨tag, h1, h2⟩).apart
  refine ⟨hl, hap, h1, ⟨TextProg.start_kept h2, fun n hn => by simp at hn⟩, start_cover h2.once, start_body h2, by simp, by simp,
    by simp, by simp, ?_⟩
  rintro n hR hF - t ht
  obtain ⟨t', a1, rfl⟩ := hR
  have e := top_find h2.once a1
  have ht : find t'.1.id s.world = some t := ht
  rw [e] at ht
  rw [← Option.some.inj ht]
  have hmem := find_mem e
  unfold TextProg.outer at hF
  simp only [not_and, not_forall, not_not] at hF
  obtain ⟨b, u, hb, hu, htag, hin⟩ := hF hmem
  refine hr b hb t' ?_
  unfold bodyTables
  rw [List.mem_flatMap]
  exact ⟨u, List.mem_filter.mpr ⟨hu, by simpa using htag⟩, top_part h2.once (child_find h2.once hb hu) a1 hin⟩

/-! ## Statements with one document -/

theorem moves_refl (h : Ready L F R T tag p) (c : Option Nat) : Moves L F tag c p p := (Done.refl h).moves c

/-- A change of the document that leaves its trees alone -/
theorem ready_session (h : Ready L F R T tag p) {s : Session} (hl : Lives L s) (hw : s.world = p.text.session.world)
    (ht : s.tree = p.text.session.tree) (hm : s.mimetype = p.text.session.mimetype) (c : Option Nat) :
    Moves L F tag c p { p with text := { p.text with session := s } } := by
  have hf := (Mix.OK.session (p := p) ⟨F, R, T, tag, h⟩ hl hw ht hm).2.1
  have hW : ({ p with text := { p.text with session := s } } : Mix.Prog).world = p.world := hw
  have hW' : ({ p.text with session := s } : TextProg.Prog).world = p.text.world := hw
  refine ⟨⟨R, T, ⟨hl, ?_, ?_, ⟨?_, ?_⟩, ?_, ?_, h.objs, h.roots, h.distinct, ?_, ?_⟩⟩, hf, ?_, List.prefix_refl _,
    List.prefix_refl _, fun j _ _ => ?_⟩
  · rw [hW]; dsimp only; rw [ht]; exact h.apart
  · dsimp only; rw [hm]; exact h.known
  · rw [hW']; dsimp only; rw [ht]; exact h.fits.kept
  · rw [hW']; exact h.fits.objs
  · rw [hW]; exact h.cover
  · dsimp only; rw [ht]; exact h.body
  · rw [hW]; exact h.sound
  · rw [hW]; exact h.others
  · rw [hW]; exact ⟨h.fits.kept, fun _ _ _ => rfl, rfl⟩
  · unfold shown; rw [hW]

/-- What `copy` makes -/
theorem copyTable_ok {S C : Tbl.TState} (hs : Tbl.Sound S) {strategy : String} {mx : Int × Int} (hc : Config strategy mx)
    {newname : Option Str} (h : Tbl.copyTable strategy mx newname S = .ok C) :
    Tbl.Sound C ∧ C.node.id = S.fresh ∧ (∀ i ∈ ids C.kids, S.fresh < i) ∧ CopyOf S C ∧
      ∃ nm, nameFor newname S = some nm ∧ Tbl.normalizeName nm ≠ [] ∧ Tbl.name C = some (Tbl.normalizeName nm) := by
  have key : ∃ nm, nameFor newname S = some nm ∧ Tbl.normalizeName nm ≠ [] := by
    unfold Tbl.copyTable at h
    have hset : ∀ {c : Tbl.TState} {nm : Str}, Tbl.normalizeName nm = [] → Tbl.setName (some nm) c = (c, .error .ValueError) := by
      intro c nm hv
      unfold Tbl.setName
      simp only [hv, List.isEmpty_nil, ↓reduceIte]
    split at h
    · cases h
    · cases newname with
      | some n =>
        refine ⟨n, rfl, fun hv => ?_⟩
        simp only [hset hv] at h
        cases h
      | none =>
        cases h0 : Tbl.name S with
        | none => simp only [h0] at h; cases h
        | some m =>
          refine ⟨"CopyOf".toList ++ m, by unfold nameFor; simp only [h0, Option.map_some], fun hv => ?_⟩
          simp only [h0, hset hv] at h
          cases h
  obtain ⟨nm, hn, hv⟩ := key
  obtain ⟨C', e1, e2, e3, e4, e5, e6⟩ := copyOf_sound hs hc hn hv
  rw [e1] at h
  cases h
  exact ⟨e2, e3, e4, e5, nm, hn, hv, e6⟩

/-- Without a usable name a copy is refused. -/
theorem copyTable_refused {S : Tbl.TState} (hs : Tbl.Sound S) {strategy : String} {mx : Int × Int} (hc : Config strategy mx)
    (newname : Option Str) : match nameFor newname S with
      | none => Tbl.copyTable strategy mx newname S = .error .TypeError
      | some nm => Tbl.normalizeName nm = [] → Tbl.copyTable strategy mx newname S = .error .ValueError := by
  have hload : ∃ c, Tbl.load strategy mx (Tbl.cloneTable S) = (c, .ok ()) := by
    have hcore := Tbl.copy_core (newname := some "x".toList) hc.1 hc.2 hs.tag hs.inv hs.expanded rfl (by decide +kernel)
    unfold Tbl.copyTable at hcore
    rcases hl : Tbl.load strategy mx (Tbl.cloneTable S) with ⟨c, r⟩
    rw [hl] at hcore
    cases r with
    | error e => cases hcore
    | ok u => exact ⟨c, rfl⟩
  obtain ⟨c, hload⟩ := hload
  have hset : ∀ {nm : Str}, Tbl.normalizeName nm = [] → Tbl.setName (some nm) c = (c, .error .ValueError) := by
    intro nm hv
    unfold Tbl.setName
    simp only [hv, List.isEmpty_nil, ↓reduceIte]
  cases newname with
  | some n =>
    intro hv
    unfold Tbl.copyTable
    simp only [hload, hset hv]
  | none =>
    unfold nameFor
    cases h0 : Tbl.name S with
    | none =>
      simp only [Option.map_none]
      unfold Tbl.copyTable
      simp only [hload, h0]
    | some m =>
      simp only [Option.map_some]
      intro hv
      unfold Tbl.copyTable
      simp only [hload, h0, hset hv]

/-- A table that has been copied, for the document `p` -/
theorem ready_copied (h : Ready L F R T tag p) {S C : Tbl.TState} (hs : Tbl.Sound S) (hS : S.fresh = Parts.newId p.world)
    {strategy : String} {mx : Int × Int} (hc : Config strategy mx) {newname : Option Str}
    (hcp : Tbl.copyTable strategy mx newname S = .ok C) (c : Option Nat) : Moves L F tag c p (withTable p C) := by
  obtain ⟨e2, e3, e4, -, -⟩ := copyTable_ok hs hc hcp
  rw [hS] at e3 e4
  exact (h.made e2 e3 e4).1.moves c

theorem ready_copy {FL : Cells.FloatLib} (h : Ready L F R T tag p) {strategy : String} {mx : Int × Int} (hc : Config strategy mx)
    {a : CopyAct FL} (ha : AllowedC p a) : Moves L F tag (calleeOf a) p (execCopy strategy mx a p).1 := by
  cases a with
  | act a => exact ready_step h hc ha
  | copy i newname =>
    show Moves L F tag none p (Mix.copy strategy mx i newname p).1
    unfold Mix.copy
    split
    · exact moves_refl h _
    · rename_i o ho
      split
      · exact moves_refl h _
      · rename_i t ht
        split
        · exact moves_refl h _
        · rename_i C hC
          exact ready_copied h (h.sound o (List.mem_of_getElem? ho) t ht) rfl hc hC none

end Verif.Books
