import Verif.Props.ShelfMoved
/-! # C92: saving a document and opening it again while the others are open -/
namespace Verif.Shelf
open Verif Verif.Lxml Forest Verif.Whole Verif.Document Verif.Mix
open Verif.Program (TableObj tableState stateOf Config)
open Verif.Tbl (Legible legible_file legible_mapT mapT data_mapT shape_mapT)
open Verif.Desk (Beside body_in made_beside)
set_option linter.unusedSimpArgs false

variable {L : XLib} {FL : Cells.FloatLib} {strategy : String} {mx : Int × Int}

/-! ## The trees of a document that is opened -/

theorem readTree_roots {b : Option Package.Bytes} {W W' : World} {o : Option Nat} (h : readTree L b W = (W', .ok o)) :
    ∃ l, Lxml.roots W' = Lxml.roots W ++ l ∧ l.length = if o.isSome then 1 else 0 := by
  cases b with
  | none =>
    have : readTree L none W = (W, .ok none) := rfl
    rw [this] at h
    simp only [Prod.mk.injEq, Except.ok.injEq] at h
    obtain ⟨rfl, rfl⟩ := h
    exact ⟨[], by simp, rfl⟩
  | some b =>
    simp only [readTree] at h
    split at h
    · simp at h
    · simp only [Prod.mk.injEq, Except.ok.injEq] at h
      obtain ⟨rfl, rfl⟩ := h
      exact ⟨[_], by rw [roots_append]; simp [Forest.single]; rfl, rfl⟩

theorem stylesInit_roots {o : Option Nat} {W W' : World} {s : Parts.StylesPart} (h : Parts.stylesInit o W = (W', .ok s)) :
    ∃ l, Lxml.roots W' = Lxml.roots W ++ l ∧ l.length = if o.isSome then 0 else 1 := by
  cases o with
  | none =>
    unfold Parts.stylesInit at h
    dsimp only at h
    obtain ⟨V, r, g1, g2⟩ := bind_inv h
    have k1 := newRoot_roots "office:document-styles" W
    have k2 := styles_rooted r V
    rw [g1] at k1
    rw [g2] at k2
    exact ⟨_, k2.trans k1, rfl⟩
  | some n =>
    unfold Parts.stylesInit at h
    dsimp only at h
    obtain ⟨V, r, g1, g2⟩ := bind_inv h
    have k1 := tagOf_rooted n W
    rw [g1] at k1
    split at g2
    · have k2 := styles_rooted n V
      rw [g2] at k2
      exact ⟨[], by rw [k2, k1]; simp, rfl⟩
    · simp [Py.raise] at g2

theorem contentInit_roots {mt : Str} {o : Option Nat} {W W' : World} {s : Parts.ContentPart}
    (h : Parts.contentInit mt o W = (W', .ok s)) : ∃ l, Lxml.roots W' = Lxml.roots W ++ l ∧ l.length = if o.isSome then 0 else 1 := by
  cases o with
  | none =>
    unfold Parts.contentInit at h
    dsimp only at h
    split at h
    · obtain ⟨V, r, g1, g2⟩ := bind_inv h
      have k1 := newRoot_roots "office:document-content" W
      have k2 := content_rooted r V
      rw [g1] at k1
      rw [g2] at k2
      exact ⟨_, k2.trans k1, rfl⟩
    · simp [Py.raise] at h
  | some n =>
    unfold Parts.contentInit at h
    dsimp only at h
    obtain ⟨V, r, g1, g2⟩ := bind_inv h
    have k1 := tagOf_rooted n W
    rw [g1] at k1
    split at g2
    · have k2 := content_rooted n V
      rw [g2] at k2
      exact ⟨[], by rw [k2, k1]; simp, rfl⟩
    · simp [Py.raise] at g2

/-- A document has two trees: those of its styles and of its content. -/
theorem made_roots (hlaw : L.Lawful) {fs : Package.FS} {src : Package.Source} {k : Clock} {fm : Package.FM} {mt : Option Str} {A : World}
    (hn : (ids A).Nodup) {s : Session} (ho : Package.open_ L.pkg fs src k.now = .ok fm)
    (h : packagedWhole L fs k fm mt A = .ok s) :
    ∀ y ∈ Lxml.roots s.world, y ∉ ids A → y = s.tree.styles.root ∨ y = s.tree.content.root := by
  obtain ⟨hb, hsA, hcA⟩ := made_beside hlaw hn h
  obtain ⟨tag, -, hfr⟩ := Program.made_framed hlaw hn ho h
  have hk := TextProg.start_kept hfr
  obtain ⟨doc, so, co, W1, W2, W3, tree, hdoc, h1, h2, h3, rfl⟩ := packagedWhole_inv h
  have hr : ∃ l, Lxml.roots W3 = Lxml.roots A ++ l ∧ l.length = 2 := by
    obtain ⟨l1, a1, a2⟩ := readTree_roots h1
    obtain ⟨l2, b1, b2⟩ := readTree_roots h2
    unfold Parts.packagedTree at h3
    obtain ⟨V1, st, g1, h3⟩ := bind_inv h3
    obtain ⟨V2, ct, g2, h3⟩ := bind_inv h3
    obtain ⟨l3, c1, c2⟩ := stylesInit_roots g1
    obtain ⟨l4, d1, d2⟩ := contentInit_roots g2
    cases ht : MIMETYPE_BODYTAG_MAP.get doc.mimetype with
    | none => rw [ht] at h3; simp [Py.raise] at h3
    | some tg =>
      rw [ht] at h3
      dsimp only at h3
      obtain ⟨V3, bo, h4, h5⟩ := bind_inv h3
      rw [Py.pure_def] at h5
      simp only [Prod.mk.injEq, Except.ok.injEq] at h5
      obtain ⟨rfl, -⟩ := h5
      have k := body_rooted ct.body tg V2
      rw [h4] at k
      refine ⟨l1 ++ l2 ++ l3 ++ l4, by rw [k, d1, c1, b1, a1]; simp, ?_⟩
      simp only [List.length_append]
      rw [a2, b2, c2, d2]
      cases so <;> cases co <;> rfl
  obtain ⟨l, hr, hl⟩ := hr
  obtain ⟨a, b, rfl⟩ := List.length_eq_two.mp hl
  have m1 : tree.styles.root ∈ Lxml.roots W3 := hfr.styles
  have m2 : tree.content.root ∈ Lxml.roots W3 := hfr.content
  have hne : tree.styles.root ≠ tree.content.root := by
    intro e
    have t1 : Parts.tagAt W3 tree.styles.root = _ := hk.refs.stylesRoot
    have t2 : Parts.tagAt W3 tree.content.root = _ := hk.refs.contentRoot
    rw [e, t2] at t1
    simp at t1
  have key : ∀ y ∈ Lxml.roots W3, y ∉ ids A → y = a ∨ y = b := by
    intro y hy hyA
    rw [hr] at hy
    simp only [List.mem_append, List.mem_cons, List.not_mem_nil, or_false] at hy
    rcases hy with hy | hy | hy
    · exact absurd (roots_sub hy) hyA
    · exact .inl hy
    · exact .inr hy
  intro y hy hA
  rcases key y hy hA with e | e <;> rcases key _ m1 hsA with e1 | e1 <;> rcases key _ m2 hcA with e2 | e2 <;>
    first
      | exact .inl (e.trans e1.symm)
      | exact .inr (e.trans e2.symm)
      | exact absurd (e1.trans e2.symm) hne

/-! ## Their tables -/

theorem topTables_roots (W : Forest) : ∀ t ∈ topTables W, ∃ u ∈ W.toList, t ∈ topTables (single u) := by
  induction W with
  | nil => intro t ht; simp [topTables] at ht
  | cons e k r _ ih =>
    intro t ht
    have h1 : topTables (.cons e k r) = topTables (single (e, k)) ++ topTables r := by
      simp only [topTables, single]
      split <;> simp
    rw [h1, List.mem_append] at ht
    rcases ht with ht | ht
    · exact ⟨(e, k), by simp, ht⟩
    · obtain ⟨u, hu, h⟩ := ih t ht
      exact ⟨u, by simp [hu], h⟩

theorem toList_nodes {W : Forest} {u : Tree} (h : u ∈ W.toList) : u ∈ TSpec.nodes W := by
  induction W with
  | nil => simp at h
  | cons e k r _ ih =>
    simp only [toList_cons, List.mem_cons] at h
    simp only [TSpec.nodes, List.mem_cons, List.mem_append]
    rcases h with rfl | h
    · exact .inl rfl
    · exact .inr (.inr (ih h))

/-- The tables in a tree that is read from a file can be read if those in the tree that was written can. -/
theorem legible_tree {b b' : Tree} (h : data b' = shape b) (hb : ∀ t ∈ topTables (single b), Legible t) :
    ∀ t ∈ topTables (single b'), Legible t := by
  intro t ht
  have h1 : topTables (single (data b')) = (topTables (single b')).map (mapT fun e => { e with id := 0 }) := by
    rw [data_mapT]; exact topTables_mapT (g := fun e => { e with id := 0 }) (fun _ => rfl) (single b')
  have h2 : topTables (single (shape b)) = (topTables (single b)).map (mapT written) := by
    rw [shape_mapT]; exact topTables_mapT (g := written) (fun _ => rfl) (single b)
  have h3 : mapT (fun e => { e with id := 0 }) t ∈ topTables (single (shape b)) := by
    rw [← h, h1]; exact List.mem_map_of_mem ht
  rw [h2] at h3
  obtain ⟨u, hu, e⟩ := List.mem_map.mp h3
  exact (legible_mapT (g := fun e => { e with id := 0 }) (fun _ => rfl) (fun _ => rfl) t).mp
    (e ▸ (legible_mapT (g := written) (fun _ => rfl) (fun _ => rfl) u).mpr (hb u hu))

/-- All tables in the two trees of a document can be read. -/
theorem trees_legible {S : Shelf} (h : OK L S) {i : Nat} {s : Session} (hi : S.docs[i]? = some s) {r : Nat}
    (hr : r ∈ [s.tree.styles.root, s.tree.content.root]) {u : Tree} (hu : find r S.world = some u) :
    ∀ t ∈ topTables (single u), Legible t := by
  obtain ⟨F, R, T, hst, hF, -⟩ := h
  obtain ⟨tag, d⟩ := hF i s hi
  have hid := (find_mem_ids hu).1
  have hT : ¬ T r := by
    simp only [List.mem_cons, List.not_mem_nil, or_false] at hr
    rcases hr with rfl | rfl
    · exact d.styles.2
    · intro hT
      have hb := body_in d.held.kept hu
      simp only [ids_single, List.mem_cons] at hb
      rcases hb with hb | hb
      · exact d.body.2 (by rw [hb, hid]; exact hT)
      · exact d.body.2 (hst.cover.below (.inr hT) hu _ hb)
  intro t ht
  obtain ⟨a1, a2, -⟩ := cover_top hst.cover (single u) (by simpa [single, toList, hid] using hu)
    (by simpa [single, Lxml.roots, toList, hid] using hT) t ht
  by_cases ho : ∃ o ∈ S.tables, o.node = t.1.id
  · obtain ⟨o, ho, e⟩ := ho
    exact (hst.sound o ho t (by rw [e]; exact a2)).legible
  · exact hst.legible _ a1 (fun o ho' e => ho ⟨o, ho', e⟩) t a2

/-- **C92**, `docs[i].save()` and then opening the file while all documents are still open, with tables that may come from
other documents: the opened document is one more document; its body has the same elements at the same places, and each table
in it that the program had an object of shows the size, the name and the cells of the table of that object. -/
theorem C92_reopen (FL : Cells.FloatLib) (hlaw : L.Lawful) (hc : Config strategy mx) {S : Shelf} (h : OK L S) {i : Nat}
    {s : Session} (hi : S.docs[i]? = some s) {env : Package.Env} {k : Clock} {backup : Bool} {S1 : Shelf} {s1 : Session}
    (hs : exec L strategy mx (.save (F := FL) i env k backup) S = (S1, .ok ())) (hi1 : S1.docs[i]? = some s1)
    (hw : Writable (put S1 s1)) (k' : Clock) :
    ∃ f S2 s'' b b'', s.docname = some f ∧
      exec L strategy mx (.open_ (F := FL) k' (.file (some f))) S1 = (S2, .ok ()) ∧ OK L S2 ∧
      S2.docs = S1.docs ++ [s''] ∧ S2.objs = S.objs ∧ S2.tables = S.tables ∧ s''.mimetype = s.mimetype ∧
      find s.tree.body.node S.world = some b ∧ find s''.tree.body.node S2.world = some b'' ∧
      TextProg.SameBelow b b'' ∧ TablesAgain FL L (seen S s) b s'' b'' ∧
      ∀ k, look S2 k = look S k := by
  have g := C92_step (strategy := strategy) (mx := mx) hlaw hc h (a := .save (F := FL) i env k backup) trivial
  have hs' : onDoc i (Mix.save L env k backup) S = (S1, .ok ()) := hs
  rw [onDoc_some hi] at hs'
  simp only [Prod.mk.injEq] at hs'
  obtain ⟨rfl, hs2⟩ := hs'
  rw [hs] at g
  have hsw : saveWhole L env k backup (put S s) = ((Mix.save L env k backup (seen S s)).1.text.session, .ok ()) :=
    Prod.ext rfl hs2
  generalize hq : (Mix.save L env k backup (seen S s)).1 = q at *
  have hqo : q.text.objs = S.objs := by rw [← hq]; rfl
  have hqt : q.tables = S.tables := by rw [← hq]; rfl
  have hs1 : s1 = q.text.session := by
    have hi1 : (S.docs.set i q.text.session)[i]? = some s1 := hi1
    rw [List.getElem?_set_self (List.getElem?_eq_some_iff.mp hi).1] at hi1
    exact (Option.some.inj hi1).symm
  subst hs1
  have hw : Writable q.text.session := hw
  obtain ⟨f1, f2, f3, f4, -⟩ := C69_frame L env k backup hsw
  obtain ⟨F1, R1, T1, hst1, -, -⟩ := id g.ok
  have honce : (ids q.text.session.world).Nodup := hst1.cover.once
  have hlv : Lives L (put S s) := by
    obtain ⟨F, R, T, -, hF, -⟩ := id h
    obtain ⟨tag, d⟩ := hF i s hi
    exact d.lives
  obtain ⟨f, s'', b, b'', e1, e2, e3, e4, e5, e6, e7, e8⟩ := C88_reopen FL hlaw (C92_sound h hi)
    (p' := q) (Prod.ext hq hs2) hw k' (W0 := q.text.session.world) honce
  obtain ⟨f', s2, r1, r2, r3, -⟩ := C69_reopen hlaw hlv hsw hw k' honce
  have : f' = f := by
    rw [f3] at r1
    exact Option.some.inj (r1.symm.trans e1)
  subst this
  rw [e2] at r2
  cases r2
  have hallow : Allowed L (⟨q.text.session.world, q.text.session.w.fs, S.docs.set i q.text.session, q.text.objs, q.tables⟩ : Shelf)
      (.open_ (F := FL) k' (.file (some f'))) := by
    intro s0 h0 t ht hnew
    have h0 : openWhole L q.text.session.w.fs k' (.file (some f')) q.text.session.world = .ok s0 := h0
    have hnew : t.1.id ∉ ids q.text.session.world := hnew
    rw [e2] at h0
    cases h0
    have e2' := e2
    unfold openWhole at e2'
    cases ho : Package.open_ L.pkg q.text.session.w.fs (.file (some f')) k'.now with
    | error e => rw [ho] at e2'; cases e2'
    | ok fm =>
      rw [ho] at e2'
      dsimp only at e2'
      cases hd : detect (dlib L) q.text.session.w.fs fm with
      | error e => rw [hd] at e2'; cases e2'
      | ok mt =>
        rw [hd] at e2'
        dsimp only at e2'
        obtain ⟨bs, -, -⟩ := made_beside hlaw honce e2'
        obtain ⟨u, hu, htu⟩ := topTables_roots _ t ht
        have hur : u.1.id ∈ Lxml.roots s''.world := List.mem_map_of_mem hu
        have hfu : find u.1.id s''.world = some u := nodes_find bs.once (toList_nodes hu)
        have hnu : u.1.id ∉ ids q.text.session.world := by
          intro hin
          rw [beside_find honce bs hin] at hfu
          exact hnew ((find_sub hfu).subset (nodes_ids (topTables_nodes htu).1))
        have hlg : ∀ {r : Nat}, r ∈ [s.tree.styles.root, s.tree.content.root] → ∀ {v : Tree},
            find r q.text.session.world = some v → ∀ t ∈ topTables (single v), Legible t := by
          intro r hr v hv
          refine trees_legible g.ok (i := i) (s := q.text.session) hi1 (r := r) ?_ hv
          rw [f2]; exact hr
        rcases made_roots hlaw honce ho e2' _ hur hnu with e | e
        · obtain ⟨v, v', a1, a2, a3⟩ := r3.styles
          rw [← e, hfu] at a2
          cases a2
          refine legible_tree a3 (hlg (r := s.tree.styles.root) (by simp) ?_) t htu
          rw [f2] at a1
          exact a1
        · obtain ⟨v, v', a1, a2, a3⟩ := r3.content
          rw [← e, hfu] at a2
          cases a2
          refine legible_tree a3 (hlg (r := s.tree.content.root) (by simp) ?_) t htu
          rw [f2] at a1
          exact a1
  have hopen := C92_step (strategy := strategy) (mx := mx) hlaw hc g.ok hallow
  have hex : exec L strategy mx (.open_ (F := FL) k' (.file (some f')))
      ⟨q.text.session.world, q.text.session.w.fs, S.docs.set i q.text.session, q.text.objs, q.tables⟩ =
      (⟨s''.world, s''.w.fs, S.docs.set i q.text.session ++ [s''], q.text.objs, q.tables⟩, .ok ()) := by
    show add (openWhole L _ k' _ _) _ = _
    rw [e2]; rfl
  rw [hex] at hopen
  refine ⟨f', _, s'', b, b'', e1, hex, hopen.ok, rfl, hqo, hqt, e4, e5, e6, e7, e8, fun n => ?_⟩
  by_cases hn : n < S.tables.length
  · exact (hopen.same n (by show n < q.tables.length; rw [hqt]; exact hn) (by simp [Act.callee])).trans
      (g.same n hn (by simp [Act.callee]))
  · have h1 : S.tables[n]? = none := List.getElem?_eq_none (by omega)
    show (q.tables[n]?.bind _) = S.tables[n]?.bind _
    rw [hqt, h1]
    rfl

end Verif.Shelf
