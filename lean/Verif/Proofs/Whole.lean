import Verif.Model.Whole
import Verif.Proofs.Variables
import Verif.Props.Parts
import Verif.Props.Document
/-! Helper lemmas for C69: trees with the same written form, references, the package. -/
namespace Verif.Whole
open Verif Verif.Lxml Forest
set_option linter.unusedSimpArgs false

/-! ## Trees with the same written form -/

theorem shape_tag {t u : Tree} (h : shape t = shape u) : t.1.tag = u.1.tag := by
  have := congrArg (fun x : Tree => x.1.tag) h
  exact this

theorem shape_attrs {t u : Tree} (h : shape t = shape u) : t.1.attrs = u.1.attrs := by
  have := congrArg (fun x : Tree => x.1.attrs) h
  exact this

theorem shape_get {t u : Tree} (h : shape t = shape u) (k : String) : t.1.get k = u.1.get k := by
  unfold Elem.get; rw [shape_attrs h]

theorem toList_shape (F : Forest) : (F.map written).toList = F.toList.map shape := toList_map written F

theorem shape_kids {t u : Tree} (h : shape t = shape u) : t.2.toList.map shape = u.2.toList.map shape := by
  have := congrArg (fun x : Tree => x.2.toList) h
  simpa [shape, toList_shape] using this

/-- The first child with the tag. -/
def kid (tag : String) (t : Tree) : Option Tree := t.2.toList.find? fun u => u.1.tag = tag

theorem find_shape (tag : String) : ∀ {l l' : List Tree}, l.map shape = l'.map shape →
    ∀ {u}, l.find? (fun u => u.1.tag = tag) = some u →
      ∃ u', l'.find? (fun u => u.1.tag = tag) = some u' ∧ shape u = shape u'
  | [], _, _, u, h => by simp at h
  | a :: l, [], e, _, _ => by simp at e
  | a :: l, b :: l', e, u, h => by
    simp only [List.map_cons, List.cons.injEq] at e
    have ht := shape_tag e.1
    rw [List.find?_cons] at h
    rw [List.find?_cons]
    by_cases ha : a.1.tag = tag
    · rw [decide_eq_true (by exact ha)] at h
      rw [decide_eq_true (by rw [← ht]; exact ha)]
      simp only [Option.some.injEq] at h
      subst h
      exact ⟨b, rfl, e.1⟩
    · rw [decide_eq_false (by exact ha)] at h
      rw [decide_eq_false (by rw [← ht]; exact ha)]
      exact find_shape tag e.2 h

theorem kid_shape {tag : String} {t t' u : Tree} (h : shape t = shape t') (hu : kid tag t = some u) :
    ∃ u', kid tag t' = some u' ∧ shape u = shape u' := find_shape tag (shape_kids h) hu

/-! ## References -/

theorem child_find {W : World} (hn : (ids W).Nodup) {p : Nat} {t : Tree} (hp : find p W = some t)
    {u : Tree} (hu : u ∈ t.2.toList) : find u.1.id W = some u := by
  have h1 := nodup_tree hn hp
  have hin : find u.1.id t.2 = some u := by
    have hk : (ids t.2).Nodup := by simp at h1; exact h1.2
    clear hp h1
    generalize t.2 = F at hu hk
    induction F with
    | nil => cases hu
    | cons e k r _ ih =>
      simp only [ids, List.nodup_cons, List.nodup_append, List.mem_append, not_or] at hk
      rcases List.mem_cons.mp hu with hu | hu
      · rw [hu]; simp [find]
      · have hmem := find_mem (ih hu hk.2.2.1)
        have hne : e.id ≠ u.1.id := fun h => hk.1.2 (h ▸ hmem)
        rw [find_cons_ne hne, find_none.mpr (fun h => hk.2.2.2 _ h _ hmem rfl)]
        exact ih hu hk.2.2.1
  have hmem : u.1.id ∈ ids (single t) := by simp [find_mem hin]
  have hne : t.1.id ≠ u.1.id := fun h => by
    simp at h1; exact h1.1 (h ▸ find_mem hin)
  have := find_in hn hp hmem
  rw [find_single_ne hne, hin] at this
  exact this

/-- A reference is about the first child with the tag. -/
theorem ref_kid {W : World} (hn : (ids W).Nodup) {p c : Nat} {tag : String} (h : Parts.Ref W p tag c)
    {t : Tree} (ht : find p W = some t) : ∃ u, kid tag t = some u ∧ find c W = some u := by
  obtain ⟨A, B, h1, h2, h3⟩ := h
  have hk : t.2.toList.map (fun u => u.1.id) = A ++ c :: B := by
    have := h1
    unfold children at this
    rw [ht] at this
    simpa using this
  obtain ⟨la, lb, e, ea, eb⟩ := List.map_eq_append_iff.mp hk
  obtain ⟨u, lb', e', eu, eb'⟩ := List.map_eq_cons_iff.mp eb
  subst e'
  have mem : ∀ x ∈ t.2.toList, Parts.tagAt W x.1.id = some x.1.tag := fun x hx => Parts.child_data hn ht hx
  have hu : u ∈ t.2.toList := by rw [e]; simp
  refine ⟨u, ?_, by rw [← eu]; exact child_find hn ht hu⟩
  unfold kid
  rw [e, List.find?_append]
  have hnone : la.find? (fun u => u.1.tag = tag) = none := by
    rw [List.find?_eq_none]
    intro x hx
    have h4 := h3 x.1.id (by rw [← ea]; exact List.mem_map_of_mem hx)
    rw [mem x (by rw [e]; simp [hx])] at h4
    simpa using h4
  rw [hnone, List.find?_cons, decide_eq_true]
  · rfl
  · have := mem u hu
    rw [eu, h2] at this
    exact (Option.some.inj this).symm

theorem kid_ref {W : World} (hn : (ids W).Nodup) {p : Nat} {tag : String} {t u : Tree}
    (ht : find p W = some t) (hu : kid tag t = some u) :
    Parts.Ref W p tag u.1.id ∧ find u.1.id W = some u := by
  unfold kid at hu
  obtain ⟨hp, la, lb, e, hno⟩ := List.find?_eq_some_iff_append.mp hu
  have mem : ∀ x ∈ t.2.toList, Parts.tagAt W x.1.id = some x.1.tag := fun x hx => Parts.child_data hn ht hx
  have hm : u ∈ t.2.toList := by rw [e]; simp
  refine ⟨⟨la.map fun x => x.1.id, lb.map fun x => x.1.id, ?_, ?_, ?_⟩, child_find hn ht hm⟩
  · unfold children
    rw [ht]
    simp [e]
  · rw [mem u hm]; simpa using hp
  · intro a ha
    obtain ⟨x, hx, rfl⟩ := List.mem_map.mp ha
    rw [mem x (by rw [e]; simp [hx])]
    simpa using hno x hx

/-- The same reference in a tree with the same written form. -/
theorem ref_shape {W V : World} (hn : (ids W).Nodup) (hv : (ids V).Nodup) {p q c : Nat} {tag : String}
    (h : Parts.Ref W p tag c) {t t' : Tree} (ht : find p W = some t) (ht' : find q V = some t')
    (hs : shape t = shape t') :
    ∃ d u u', Parts.Ref V q tag d ∧ find c W = some u ∧ find d V = some u' ∧ shape u = shape u' := by
  obtain ⟨u, h1, h2⟩ := ref_kid hn h ht
  obtain ⟨u', h3, h4⟩ := kid_shape hs h1
  obtain ⟨h5, h6⟩ := kid_ref hv ht' h3
  exact ⟨u'.1.id, u, u', h5, h2, h6, h4⟩

theorem tagAt_find {W : World} {i : Nat} {t : Tree} (h : find i W = some t) :
    Parts.tagAt W i = some t.1.tag := by simp [Parts.tagAt, Lxml.content, h]

/-- The names of declarations are read again. -/
theorem collect_shape : ∀ {l l' : List Tree}, l.map shape = l'.map shape → ∀ {d},
    Vars.collect l = .ok d → ∃ d', Vars.collect l' = .ok d' ∧ d'.map Prod.fst = d.map Prod.fst
  | [], [], _, d, h => ⟨d, h, rfl⟩
  | [], _ :: _, e, _, _ => by simp at e
  | _ :: _, [], e, _, _ => by simp at e
  | a :: l, b :: l', e, d, h => by
    simp only [List.map_cons, List.cons.injEq] at e
    have ht := shape_tag e.1
    have hg := shape_get e.1 "text:name"
    unfold Vars.collect at h ⊢
    split at h
    · rename_i hc
      rw [if_pos (by rw [← ht]; exact hc)]
      cases hl : Vars.collect l with
      | error x => rw [hl] at h; cases h
      | ok d0 =>
        obtain ⟨d0', h1, h2⟩ := collect_shape e.2 hl
        rw [hl] at h
        rw [h1]
        simp only [Except.ok.injEq] at h ⊢
        refine ⟨_, rfl, ?_⟩
        subst h
        rw [← hg]
        have hk : (d0'.get (a.1.get "text:name")).isSome = (d0.get (a.1.get "text:name")).isSome := by
          rw [Bool.eq_iff_iff, Dict.get_isSome, Dict.get_isSome]
          unfold Dict.keys
          rw [h2]
        cases h3 : d0.get (a.1.get "text:name") <;> cases h4 : d0'.get (a.1.get "text:name") <;>
          simp [h3, h4] at hk ⊢ <;> exact h2
    · cases h

/-- The attributes of a document in trees with the same written form. -/
theorem docrefs_shape {W V : World} (hn : (ids W).Nodup) (hv : (ids V).Nodup) {tag : String}
    {d : Parts.DocTree} (h : Parts.DocRefs W tag d) {s s' c c' : Tree} {rs rc : Nat}
    (hs : find d.styles.root W = some s) (hs' : find rs V = some s') (es : shape s = shape s')
    (hc : find d.content.root W = some c) (hc' : find rc V = some c') (ec : shape c = shape c') :
    ∃ d' b b', Parts.DocRefs V tag d' ∧ d'.styles.root = rs ∧ d'.content.root = rc ∧
      d'.body.vars.map Prod.fst = d.body.vars.map Prod.fst ∧
      d'.body.fields.map Prod.fst = d.body.fields.map Prod.fst ∧
      find d.body.node W = some b ∧ find d'.body.node V = some b' ∧ shape b = shape b' := by
  obtain ⟨s1, _, _, a1, _⟩ := ref_shape hn hv h.styles.fonts hs hs' es
  obtain ⟨s2, _, _, a2, _⟩ := ref_shape hn hv h.styles.styles hs hs' es
  obtain ⟨s3, _, _, a3, _⟩ := ref_shape hn hv h.styles.automatic hs hs' es
  obtain ⟨s4, _, _, a4, _⟩ := ref_shape hn hv h.styles.master hs hs' es
  obtain ⟨c1, _, _, b1, _⟩ := ref_shape hn hv h.content.scripts hc hc' ec
  obtain ⟨c2, _, _, b2, _⟩ := ref_shape hn hv h.content.fonts hc hc' ec
  obtain ⟨c3, _, _, b3, _⟩ := ref_shape hn hv h.content.automatic hc hc' ec
  obtain ⟨c4, f, f', b4, g1, g2, g3⟩ := ref_shape hn hv h.content.body hc hc' ec
  obtain ⟨n, b, b', r, k1, k2, k3⟩ := ref_shape hn hv h.body.node g1 g2 g3
  obtain ⟨v, rv, iv⟩ := h.body.vars
  obtain ⟨u, ru, iu⟩ := h.body.fields
  obtain ⟨v', x, x', rv', v1, v2, v3⟩ := ref_shape hn hv rv k1 k2 k3
  obtain ⟨u', y, y', ru', u1, u2, u3⟩ := ref_shape hn hv ru k1 k2 k3
  simp only [Vars.init, v1, u1, Prod.mk.injEq, true_and] at iv iu
  obtain ⟨dv, e1, e2⟩ := collect_shape (shape_kids v3) iv
  obtain ⟨du, e3, e4⟩ := collect_shape (shape_kids u3) iu
  refine ⟨⟨⟨rs, s1, s2, s3, s4⟩, ⟨rc, c1, c2, c3, c4⟩, ⟨n, dv, du,
      if tag = "office:spreadsheet" then some n else none,
      if tag ∈ ["office:drawing", "office:presentation"] then some n else none⟩,
      if tag = "office:spreadsheet" then some n else none,
      if tag ∈ ["office:drawing", "office:presentation"] then some n else none⟩, b, b', ?_, rfl, rfl, e2, e4, k1,
      k2, k3⟩
  refine ⟨?_, ?_, ⟨a1, a2, a3, a4⟩, ⟨b1, b2, b3, b4⟩, ⟨r, ⟨v', rv', ?_⟩, ⟨u', ru', ?_⟩, rfl, rfl⟩, rfl, rfl⟩
  · have := h.stylesRoot
    rw [tagAt_find hs] at this
    show Parts.tagAt V rs = _
    rw [tagAt_find hs', ← shape_tag es, this]
  · have := h.contentRoot
    rw [tagAt_find hc] at this
    show Parts.tagAt V rc = _
    rw [tagAt_find hc', ← shape_tag ec, this]
  · simp [Vars.init, v2, e1]
  · simp [Vars.init, u2, e3]

/-! ## New trees -/

theorem lt_newId {W : World} {i : Nat} (h : i ∈ ids W) : i < Parts.newId W := by
  have := Parts.le_foldr_max h
  unfold Parts.newId
  omega

theorem ids_app (F G : Forest) : ids (F ++ G) = ids F ++ ids G := by simp

theorem nodup_add {W : World} (hn : (ids W).Nodup) {t : Tree} (h1 : (ids (single t)).Nodup)
    (h2 : ∀ i ∈ ids (single t), Parts.newId W ≤ i) :
    (ids (W ++ single t)).Nodup ∧ find t.1.id (W ++ single t) = some t ∧
    ∀ i u, find i W = some u → find i (W ++ single t) = some u := by
  have hd : ∀ i ∈ ids W, i ∉ ids (single t) := fun i hi hi' => by
    have := lt_newId hi
    have := h2 i hi'
    omega
  refine ⟨?_, ?_, ?_⟩
  · rw [ids_app, List.nodup_append]
    exact ⟨hn, h1, fun a ha b hb e => hd a ha (e ▸ hb)⟩
  · rw [find_append, find_none.mpr (fun h => hd _ h (by simp)), find_single_self]
    rfl
  · intro i u hu
    rw [find_append, hu]
    rfl

/-! ## The package -/

open Verif.Package Verif.Document

/-- The five registered files of a document. -/
structure Regs (mt : Str) (fm : FM) : Prop where
  nodup : fm.dir.keys.Nodup
  mime : ∀ f, fm.dir.get MIMETYPE = some f → f.element = .text mt
  manifest : ∃ f, fm.dir.get MANIFEST = some f ∧ f.element = .manifest
  parts : ∀ n ∈ [CONTENT, META, STYLES], n ∈ fm.dir.keys

/-- The package of a document at any time. -/
structure Pack (mt : Str) (w : Package.W) : Prop where
  regs : Regs mt w.fm
  keeps : ∃ orig, Keeps orig w

theorem pack_made {d : DLib} {fs : FS} {now : Nat} {m0 : Manifest.M} {doc : Doc}
    (h : Made d fs now m0 doc) : Pack doc.mimetype (start fs doc) := by
  obtain ⟨src, fm, mt, doc0, h1, rfl, h2, h3, h4⟩ := h
  obtain ⟨-, -, -, m, s, c, h5⟩ := packaged_ok h2
  obtain ⟨g1, g2, orig, g3⟩ := open_ok h1
  rw [← h4] at h5
  obtain ⟨⟨r1, r2, r3, r4⟩, ⟨i1, i2, i3, i4, i5⟩, ⟨n1, n2, n3, n4⟩, ⟨k1, k2, k3⟩⟩ := ne_parts
  have hfm : (start fs doc).fm = filled now doc.mimetype m s c fm := by rw [← h5, ← h3]; rfl
  have hdir : (filled now doc.mimetype m s c fm).dir =
    ((((fm.dir.set MIMETYPE _).set META _).set STYLES _).set CONTENT _) := rfl
  have hnd : (filled now doc.mimetype m s c fm).dir.keys.Nodup := by
    rw [hdir]
    refine Dict.nodup_set (Dict.nodup_set (Dict.nodup_set (Dict.nodup_set ?_ _ _) _ _) _ _) _ _
    rw [g2]; simp [Dict.keys]
  have hop : Opened (start fs doc).fs (start fs doc).fm orig := by
    rw [hfm]
    exact opened_congr (fs := fs) (fm := fm) rfl (fun _ _ => rfl) g3
  refine ⟨?_, orig, ⟨by rw [hfm]; exact hnd, ⟨orig, hop⟩, by rw [members_eq hop]⟩⟩
  rw [hfm]
  refine ⟨hnd, ?_, ?_, ?_⟩
  · intro f hf
    rw [hdir] at hf
    simp only [Dict.get_set, k1, k2, k3, if_false, if_true] at hf
    cases hf; rfl
  · rw [hdir]
    simp only [Dict.get_set, n1.symm, n2.symm, n3.symm, n4.symm, if_false]
    rw [g2]
    exact ⟨_, by rw [Dict.get_cons, if_pos rfl], rfl⟩
  · intro n hn
    rw [← Dict.get_isSome, hdir]
    simp only [Dict.get_set]
    simp only [List.mem_cons, List.not_mem_nil, or_false] at hn
    split
    · rfl
    · split
      · rfl
      · split
        · rfl
        · rename_i a b c
          rcases hn with rfl | rfl | rfl
          · exact absurd rfl a
          · exact absurd rfl c
          · exact absurd rfl b

theorem pack_run {lib : Lib} {mt : Str} {w : Package.W} (hp : Pack mt w) (h : List Package.Op)
    (ha : ∀ o ∈ h, Allowed o) : Pack mt (run lib w h) := by
  obtain ⟨hr, orig, hk⟩ := hp
  have hk' : Keeps orig (run lib w h) := run_keeps h hk
  have hpa := fun n => partAfter_run (lib := lib) n h w _ (.inl rfl)
  refine ⟨⟨hk'.nodup, ?_, ?_, ?_⟩, orig, hk'⟩
  · intro f hf
    rcases hpa MIMETYPE with h1 | ⟨-, h1⟩
    · rw [partAfter_same (by simp) h ha, hf] at h1
      cases hg : w.fm.dir.get MIMETYPE with
      | none => rw [hg] at h1; cases h1
      | some g =>
        rw [hg] at h1
        simp only [Option.map_some, Option.some.injEq] at h1
        rw [h1]; exact hr.mime g hg
    · rw [h1] at hf; cases hf
  · obtain ⟨f, hf, hfe⟩ := hr.manifest
    rcases hpa MANIFEST with h1 | ⟨h1, -⟩
    · rw [partAfter_same (by simp) h ha, hf] at h1
      cases hg : (run lib w h).fm.dir.get MANIFEST with
      | none => rw [hg] at h1; cases h1
      | some g =>
        rw [hg] at h1
        simp only [Option.map_some, Option.some.injEq] at h1
        exact ⟨g, rfl, h1.trans hfe⟩
    · exact absurd h1 ne_parts.2.2.1.1
  · intro n hn
    have hne : n ≠ MIMETYPE := by
      obtain ⟨-, -, -, k1, k2, k3⟩ := ne_parts
      simp only [List.mem_cons, List.not_mem_nil, or_false] at hn
      rcases hn with rfl | rfl | rfl
      · exact k3
      · exact k1
      · exact k2
    rcases hpa n with h1 | ⟨h1, -⟩
    · rw [← Dict.get_isSome]
      have := partAfter_isSome (n := n) h ((w.fm.dir.get n).map FileObject.element)
        (by rw [Option.isSome_map]; exact Dict.get_isSome.2 (hr.parts n hn))
      rw [← h1, Option.isSome_map] at this
      exact this
    · exact absurd h1 hne

theorem sync_run (lib : Lib) : ∀ (l : List (Str × Element)) (w : Package.W),
    sync w l = run lib w (l.map fun p => .edit p.1 p.2)
  | [], _ => rfl
  | (n, x) :: r, w => by
    show sync _ r = run lib (step lib w (.edit n x)) (r.map _)
    rw [sync_run lib r]
    rfl

/-- The current bytes of the three parts are those of the trees. -/
theorem sync_get {mt : Str} {w : Package.W} (hp : Pack mt w) (x y z : Element) :
    let w' := sync w [(META, x), (STYLES, y), (CONTENT, z)]
    Pack mt w' ∧ (w'.fm.dir.get META).map FileObject.element = some x ∧
      (w'.fm.dir.get STYLES).map FileObject.element = some y ∧
      (w'.fm.dir.get CONTENT).map FileObject.element = some z := by
  intro w'
  let lib : Lib := ⟨fun _ => [], fun _ => none, fun _ => [], id, fun _ => []⟩
  have ha : ∀ o ∈ ([(META, x), (STYLES, y), (CONTENT, z)].map fun p => Package.Op.edit p.1 p.2), Allowed o := by
    intro o ho
    simp only [List.map_cons, List.map_nil, List.mem_cons, List.not_mem_nil, or_false] at ho
    have h1 : META ∉ [MIMETYPE, MANIFEST] := by decide +kernel
    have h2 : STYLES ∉ [MIMETYPE, MANIFEST] := by decide +kernel
    have h3 : CONTENT ∉ [MIMETYPE, MANIFEST] := by decide +kernel
    rcases ho with rfl | rfl | rfl
    · exact h1
    · exact h2
    · exact h3
  have hw : w' = run lib w ([(META, x), (STYLES, y), (CONTENT, z)].map fun p => .edit p.1 p.2) := sync_run lib _ w
  have hpa := fun n => partAfter_run (lib := lib) n
    ([(META, x), (STYLES, y), (CONTENT, z)].map fun p => .edit p.1 p.2) w _ (.inl rfl)
  obtain ⟨-, -, -, k1, k2, k3⟩ := ne_parts
  have e1 : META ≠ STYLES := by decide +kernel
  have e2 : META ≠ CONTENT := by decide +kernel
  have e3 : STYLES ≠ CONTENT := by decide +kernel
  have some_ : ∀ n ∈ [CONTENT, META, STYLES], ∃ g, w.fm.dir.get n = some g := fun n hn =>
    Option.isSome_iff_exists.mp (Dict.get_isSome.mpr (hp.regs.parts n hn))
  rw [hw]
  refine ⟨pack_run hp _ ha, ?_, ?_, ?_⟩
  · obtain ⟨g, hg⟩ := some_ META (by simp)
    rcases hpa META with h | ⟨h, -⟩
    · rw [h]; simp [partAfter, hg, e1.symm, e2.symm]
    · exact absurd h k1
  · obtain ⟨g, hg⟩ := some_ STYLES (by simp)
    rcases hpa STYLES with h | ⟨h, -⟩
    · rw [h]; simp [partAfter, hg, e1, e3.symm]
    · exact absurd h k2
  · obtain ⟨g, hg⟩ := some_ CONTENT (by simp)
    rcases hpa CONTENT with h | ⟨h, -⟩
    · rw [h]; simp [partAfter, hg, e2, e3]
    · exact absurd h k3

theorem read_of_filter {z : Zip} {n : Str} {m : Member} (h : z.filter (fun m => m.name = n) = [m]) :
    z.read n = some m.data := by
  rw [read_eq, h]; rfl

/-- What the written package contains. -/
theorem bytes_parts {lib : Lib} {mt : Str} {w : Package.W} (hp : Pack mt w) {sink : Member → Option Exc} {fm' : FM} {z : Zip}
    (htb : tobytes lib sink w.fs w.fm = (fm', .ok z)) :
    z.read MIMETYPE = some (utf8 mt) ∧ z.read MANIFEST = some (lib.tostring w.fm.manifest.kids) ∧
      ∀ n b, (w.fm.dir.get n).map FileObject.element = some (.object (.ok b)) → z.read n = some b := by
  obtain ⟨hr, orig, hk⟩ := hp
  have hread : ∀ n g, w.fm.dir.get n = some g →
      ∃ b, z.read n = some b ∧ currentBytes lib w.fm.manifest.kids g.element = some b := by
    intro n g hg
    obtain ⟨m, h1, h2, -⟩ := C39_parts lib sink w.fs w.fm fm' z hr.nodup htb n g hg
    exact ⟨m.data, read_of_filter h1, h2⟩
  obtain ⟨f0, hf0, -⟩ := tobytes_ok htb
  refine ⟨?_, ?_, ?_⟩
  · obtain ⟨b, h1, h2⟩ := hread _ _ hf0
    rw [hr.mime f0 hf0] at h2
    rw [h1, ← h2]; rfl
  · obtain ⟨g, hg, hge⟩ := hr.manifest
    obtain ⟨b, h1, h2⟩ := hread _ _ hg
    rw [hge] at h2
    rw [h1, ← h2]; rfl
  · intro n b hb
    cases hg : w.fm.dir.get n with
    | none => rw [hg] at hb; cases hb
    | some g =>
      rw [hg] at hb
      simp only [Option.map_some, Option.some.injEq] at hb
      obtain ⟨b', h1, h2⟩ := hread _ _ hg
      rw [hb] at h2
      rw [h1, ← h2]; rfl

/-- What the saved file contains. -/
theorem saved_parts {lib : Lib} {mt : Str} {w : Package.W} (hp : Pack mt w) {env : Env} {f : Path}
    {backup : Bool} (hok : (saveDoc lib env f backup w).2 = .ok ()) :
    ∃ z, (saveDoc lib env f backup w).1.fs f = some (.zip z) ∧
      z.read MIMETYPE = some (utf8 mt) ∧ z.read MANIFEST = some (lib.tostring w.fm.manifest.kids) ∧
      ∀ n b, (w.fm.dir.get n).map FileObject.element = some (.object (.ok b)) → z.read n = some b := by
  obtain ⟨orig, hk⟩ := hp.keeps
  obtain ⟨z, fm', htb, hfs⟩ := (keeps_saveDoc hk).2 hok
  exact ⟨z, hfs, bytes_parts hp htb⟩

end Verif.Whole
