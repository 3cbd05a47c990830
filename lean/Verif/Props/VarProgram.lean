import Verif.Proofs.VarProgram
import Verif.Proofs.ContentBlocks
import Verif.Props.WholeDemo
/-! # C82: variables and user fields of documents that are saved and opened -/
namespace Verif.VarProg
open Verif Verif.Lxml Forest Verif.Whole Verif.Vars Verif.Document Verif.Program
set_option linter.unusedSimpArgs false

variable {F : Cells.FloatLib}

/-- A document of a program (C69) whose trees of styles and content are no parts of other trees. -/
structure Sound (L : XLib) (s : Session) : Prop where
  lives : Lives L s
  frame : ∃ tag, MIMETYPE_BODYTAG_MAP.get s.mimetype = some tag ∧ Framed s.world tag s.tree

/-! ## Changes of elements in place -/

theorem tagAt_map {g : Elem → Elem} (hg : Keeps g) (W : World) (i : Nat) : Parts.tagAt (W.map g) i = Parts.tagAt W i := by
  unfold Parts.tagAt
  rw [content_map fun e => (hg e).1, Option.map_map]
  congr 1
  funext e
  exact (hg e).2.1

theorem ref_map {g : Elem → Elem} (hg : Keeps g) {W : World} {p c : Nat} {tag : String} (h : Parts.Ref W p tag c) :
    Parts.Ref (W.map g) p tag c := by
  obtain ⟨A, B, h1, h2, h3⟩ := h
  refine ⟨A, B, by rw [children_map fun e => (hg e).1]; exact h1, by rw [tagAt_map hg]; exact h2, fun a ha => ?_⟩
  rw [tagAt_map hg]; exact h3 a ha

theorem collect_map {g : Elem → Elem} (hg : Keeps g) (l : List Tree) :
    collect (l.map fun t => (g t.1, t.2.map g)) = collect l := by
  induction l with
  | nil => rfl
  | cons t l ih =>
    rw [List.map_cons]
    unfold collect
    simp only [ih, (hg t.1).1, (hg t.1).2.1, (hg t.1).2.2]

theorem init_map {g : Elem → Elem} (hg : Keeps g) {W : World} {v : Nat} {d : Dict (Option Str) Variable}
    (h : Vars.init v W = (W, .ok d)) : Vars.init v (W.map g) = (W.map g, .ok d) := by
  unfold Vars.init at h ⊢
  rw [find_map fun e => (hg e).1]
  cases hf : find v W with
  | none => rw [hf] at h; simp at h
  | some t =>
    rw [hf] at h
    simp only [Option.map_some, toList_map, collect_map hg]
    simpa using h

theorem framed_map {g : Elem → Elem} (hg : Keeps g) {W : World} {tag : String} {d : Parts.DocTree} (h : Framed W tag d) :
    Framed (W.map g) tag d := by
  have hid := fun e => (hg e).1
  obtain ⟨a1, a2, a3, a4, a5⟩ := h
  refine ⟨by rw [ids_map hid]; exact a1, a2, ?_, by rw [roots_map hid]; exact a4, by rw [roots_map hid]; exact a5⟩
  obtain ⟨b1, b2, ⟨c1, c2, c3, c4⟩, ⟨d1, d2, d3, d4⟩, ⟨e1, ⟨v, e2, e3⟩, ⟨u, e4, e5⟩, e6, e7⟩, f1, f2⟩ := a3
  exact ⟨by rw [tagAt_map hg]; exact b1, by rw [tagAt_map hg]; exact b2,
    ⟨ref_map hg c1, ref_map hg c2, ref_map hg c3, ref_map hg c4⟩, ⟨ref_map hg d1, ref_map hg d2, ref_map hg d3, ref_map hg d4⟩,
    ⟨ref_map hg e1, ⟨v, ref_map hg e2, init_map hg e3⟩, ⟨u, ref_map hg e4, init_map hg e5⟩, e6, e7⟩, f1, f2⟩

theorem Sound.map {L : XLib} {s : Session} (h : Sound L s) {g : Elem → Elem} (hg : Keeps g) :
    Sound L { s with world := s.world.map g } := by
  obtain ⟨tag, ht, hf⟩ := h.frame
  have hf' := framed_map hg hf
  exact ⟨.trees h.lives (d := s.tree) hf'.once ht hf'.refs, tag, ht, hf'⟩

/-! ## Assignments -/

/-- The object under a name is about a declaration of this name. -/
theorem entry {W : World} {tag : String} {d : Parts.DocTree} (h : Framed W tag d) {w : Which} {k : Str} {v : Variable}
    (hv : (w.dict d.body).get (some k) = some v) : ∃ t b u x, find d.content.root W = some t ∧ find d.body.node W = some b ∧
      kid w.tag b = some u ∧ pick k u = .ok x ∧ find x.1.id W = some x ∧ x.1.get "text:name" = some k ∧
      v = ⟨x.1.id, some k⟩ ∧ (x.1.tag = "text:variable-decl" ∨ x.1.tag = "text:user-field-decl") := by
  obtain ⟨t, b, u, a1, a2, a3, a4, a5, a6, a7⟩ := trees_of h w
  have hg := collect_get a7 (some k)
  rw [hv] at hg
  cases hl : (u.2.toList.filter fun x => x.1.get "text:name" = some k).getLast? with
  | none => rw [hl] at hg; simp at hg
  | some x =>
    rw [hl] at hg
    have hm := List.mem_filter.mp (List.mem_of_getLast? hl)
    refine ⟨t, b, u, x, a1, a2, a3, by unfold pick; rw [hl], child_find h.once a4 hm.1, by simpa using hm.2, by simpa using hg, ?_⟩
    have : ∀ (l : List Tree) {d}, collect l = .ok d → ∀ x ∈ l,
        x.1.tag = "text:variable-decl" ∨ x.1.tag = "text:user-field-decl" := by
      intro l
      induction l with
      | nil => intro d _ x hx; cases hx
      | cons y l ih =>
        intro d hd x hx
        unfold collect at hd
        split at hd
        · rename_i hy
          cases hc : collect l with
          | error e => rw [hc] at hd; cases hd
          | ok d0 =>
            rcases List.mem_cons.mp hx with rfl | hx
            · exact hy
            · exact ih hc x hx
        · cases hd
    exact this _ a7 x hm.1

theorem container_eq {W : World} {tag : String} {d : Parts.DocTree} (h : Framed W tag d) (w : Which) :
    ∃ c l, container w d.body W = (W, .ok c) ∧ children W c = some l := by
  obtain ⟨t, b, u, a1, a2, a3, a4, a5, a6, a7⟩ := trees_of h w
  refine ⟨u.1.id, _, ?_, by unfold children; rw [a4]; rfl⟩
  have hk := a3
  unfold kid at hk
  unfold container Base.find Lxml.findall
  simp only [Py.bind_def, a2, Py.pure_def]
  have : ((b.2.toList.filter fun u => u.1.tag = w.tag).map fun u => u.1.id).head? = some u.1.id := by
    rw [List.head?_map, List.head?_filter, hk]; rfl
  rw [this]; rfl

/-- The class of an entry -/
def Field (s : Session) (w : Which) (k : Str) : Prop :=
  ∃ v, (w.dict s.tree.body).get (some k) = some v ∧ Parts.tagAt s.world v.node = some "text:user-field-decl"

/-- An instance of the variable of an entry -/
def HasInstance (s : Session) (w : Which) (k : Str) : Prop :=
  ∃ v i, (w.dict s.tree.body).get (some k) = some v ∧ IsInstance s.world v.node k i

theorem assign_entry {s : Session} {tag : String} (h : Framed s.world tag s.tree) {w : Which} {k : Str} {v : Variable}
    (hv : (w.dict s.tree.body).get (some k) = some v) (x : Val F) : assign w k x s =
      ({ s with world := ((if isField s.world v then fieldSet v x else simpleSet v x) s.world).1 },
        ((if isField s.world v then fieldSet v x else simpleSet v x) s.world).2) := by
  obtain ⟨c, l, hc, -⟩ := container_eq h w
  unfold assign
  simp only [Py.bind_def, hc]
  unfold setitem
  simp only [hv]

theorem isField_eq {W : World} {v : Variable} {x : Tree} (hx : find v.node W = some x) :
    isField W v = decide (x.1.tag = "text:user-field-decl") := by
  unfold isField; rw [hx]

theorem legal_map {g : Elem → Elem} (hg : ∀ e, legalElem e = true → legalElem (g e) = true) :
    ∀ {G : Forest}, legal G = true → legal (G.map g) = true
  | .nil, _ => rfl
  | .cons e k r, h => by
    simp only [legal, Forest.map, Bool.and_eq_true] at h ⊢
    exact ⟨⟨hg e h.1.1, legal_map hg h.1.2⟩, legal_map hg h.2⟩

theorem legal_typeName (x : Val F) : legalStr (typeName x) = true := by
  have : legalStr "boolean".toList = true ∧ legalStr "float".toList = true ∧ legalStr "string".toList = true := by decide +kernel
  cases x
  · exact this.1
  · exact this.2.1
  · exact this.2.1
  · exact this.2.2

theorem written_legal {x : Val F} (hx : legalStr (tostr x) = true) {e : Elem} (he : legalElem e = true) :
    legalElem (Vars.written x e) = true := by
  have := TextProg.legal_set he (k := "office:value-type") (by decide +kernel) (legal_typeName x)
  simp only [legalElem, Bool.and_eq_true] at this ⊢
  exact ⟨⟨⟨⟨this.1.1.1.1, this.1.1.1.2⟩, this.1.1.2⟩, hx⟩, this.2⟩

theorem fieldWritten_legal {x : Val F} (hx : legalStr (tostr x) = true) {e : Elem} (he : legalElem e = true) :
    legalElem (fieldWritten x e) = true := by
  cases x with
  | bool b => cases b <;> exact TextProg.legal_set (TextProg.legal_set he (by decide +kernel) (by decide +kernel)) (by decide +kernel) (by decide +kernel)
  | int i => exact TextProg.legal_set (TextProg.legal_set he (by decide +kernel) hx) (by decide +kernel) (by decide +kernel)
  | float y => exact TextProg.legal_set (TextProg.legal_set he (by decide +kernel) hx) (by decide +kernel) (by decide +kernel)
  | str z => exact TextProg.legal_set (TextProg.legal_set he (by decide +kernel) hx) (by decide +kernel) (by decide +kernel)

/-- The change that an assignment makes -/
theorem assign_change {s : Session} {tag : String} (h : Framed s.world tag s.tree) {w : Which} {k : Str} {v : Variable}
    (hv : (w.dict s.tree.body).get (some k) = some v) (x : Val F) : ∃ g r, Keeps g ∧
      assign w k x s = ({ s with world := s.world.map g }, r) ∧
      Only s.world (s.world.map g) (fun i => i = v.node ∨ IsInstance s.world v.node k i) ∧
      (∀ i e, Lxml.content s.world i = some e → e.get "text:name" ≠ some k → g e = e) ∧
      ∀ e, (g e).tail = e.tail ∧ (legalStr (tostr x) = true → legalElem e = true → legalElem (g e) = true) := by
  have hn := h.once
  obtain ⟨t, b, u, y, a1, a2, a3, a4, a5, a6, rfl, a8⟩ := entry h hv
  rw [assign_entry h hv]
  have hcy : Lxml.content s.world y.1.id = some y.1 := by simp [Lxml.content, a5]
  by_cases hq : '\'' ∈ k
  · refine ⟨id, .error .XMLSyntaxError, keeps_id, ?_, by rw [map_id_eq]; exact ⟨rfl, rfl, fun _ => rfl, fun _ _ => rfl⟩, fun _ _ _ _ => rfl, fun _ => ⟨rfl, fun _ h => h⟩⟩
    have hi : instances ⟨y.1.id, some k⟩ s.world = (s.world, .error .XMLSyntaxError) := by
      unfold instances
      simp only [Option.getD_some]
      rw [if_pos (by simpa using hq)]; rfl
    have : (if isField s.world ⟨y.1.id, some k⟩ then fieldSet ⟨y.1.id, some k⟩ x else simpleSet ⟨y.1.id, some k⟩ x) s.world =
        (s.world, .error .XMLSyntaxError) := by
      split
      · unfold fieldSet; rw [Py.bind_error hi]
      · unfold simpleSet; rw [Py.bind_error hi]
    rw [this, map_id_eq]
  · have hdecl : ∀ {tg}, y.1.tag = tg → Declared s.world tg ⟨y.1.id, some k⟩ := fun ht => ⟨k, rfl, hq, y.1, hcy, ht, a6⟩
    have hinst : ∀ i e, Lxml.content s.world i = some e → e.get "text:name" ≠ some k → i ∉ insts s.world ⟨y.1.id, some k⟩ ∧ i ≠ y.1.id := by
      intro i e he hne
      constructor
      · intro hm
        obtain ⟨k', hk', ⟨e', c1, -, c3⟩, -⟩ := ((declared_insts hn (hdecl rfl)).1 i).mp hm
        cases hk'
        rw [he] at c1; cases c1
        exact hne c3
      · intro hi
        subst hi
        rw [hcy] at he; cases he
        exact hne a6
    have hmem : ∀ i, i ∈ insts s.world ⟨y.1.id, some k⟩ → IsInstance s.world y.1.id k i := by
      intro i hm
      obtain ⟨k', hk', hi⟩ := ((declared_insts hn (hdecl rfl)).1 i).mp hm
      cases hk'; exact hi
    by_cases hf : y.1.tag = "text:user-field-decl"
    · have hs := fieldSet_eq hn (hdecl hf) keeps_id x
      rw [map_id_eq] at hs
      refine ⟨fieldG s.world ⟨y.1.id, some k⟩ x, if accepted x then .ok () else .error .ValueError, keeps_fieldG _ _ x, ?_, only_map (keeps_fieldG _ _ x) ?_, ?_, ?_⟩
      · rw [isField_eq (v := ⟨y.1.id, some k⟩) a5, decide_eq_true hf, if_pos rfl, hs]; rfl
      · intro e he
        unfold fieldG
        rw [if_neg (fun hm => he (.inr (hmem _ hm))), if_neg (fun hm => he (.inl hm.1))]
      · intro i e he hne
        have hid := id_of_content he
        obtain ⟨h1, h2⟩ := hinst i e he hne
        unfold fieldG
        rw [if_neg (by rw [hid]; exact h1), if_neg (fun hm => h2 (hid ▸ hm.1))]
      · intro e
        unfold fieldG
        split
        · exact ⟨rfl, fun hx he => written_legal hx he⟩
        · split
          · exact ⟨by cases x <;> rfl, fun hx he => fieldWritten_legal hx he⟩
          · exact ⟨rfl, fun _ h => h⟩
    · have hs := simpleSet_eq hn (hdecl (a8.resolve_right hf)) keeps_id x
      rw [map_id_eq] at hs
      refine ⟨simpleG s.world ⟨y.1.id, some k⟩ x, .ok (), keeps_simpleG _ _ x, ?_, only_map (keeps_simpleG _ _ x) ?_, ?_, ?_⟩
      · rw [isField_eq (v := ⟨y.1.id, some k⟩) a5, decide_eq_false hf, if_neg (by simp), hs]; rfl
      · intro e he
        unfold simpleG
        rw [if_neg (fun hm => he (.inr (hmem _ hm))), if_neg (fun hm => he (.inl hm))]
      · intro i e he hne
        have hid := id_of_content he
        obtain ⟨h1, h2⟩ := hinst i e he hne
        unfold simpleG
        rw [if_neg (by rw [hid]; exact h1), if_neg (fun hm => h2 (hid ▸ hm))]
      · intro e
        unfold simpleG
        split
        · exact ⟨rfl, fun hx he => written_legal hx he⟩
        · split
          · exact ⟨rfl, fun _ he => TextProg.legal_set he (by decide +kernel) (legal_typeName x)⟩
          · exact ⟨rfl, fun _ h => h⟩

theorem kid_map {g : Elem → Elem} (hg : Keeps g) (tag : String) (t : Tree) :
    kid tag (Tbl.mapT g t) = (kid tag t).map (Tbl.mapT g) := by
  unfold kid
  show ((t.2.map g).toList).find? _ = _
  rw [toList_map, List.find?_map]
  congr 1
  refine congrArg (fun p => List.find? p t.2.toList) ?_
  funext u
  simp [(hg u.1).2.1]

theorem pick_map {g : Elem → Elem} (hg : Keeps g) {k : Str} {u y : Tree} (h : pick k u = .ok y) :
    pick k (Tbl.mapT g u) = .ok (Tbl.mapT g y) := by
  unfold pick at h ⊢
  have h1 : (Tbl.mapT g u).2.toList = u.2.toList.map (Tbl.mapT g) := toList_map g u.2
  have h2 : (u.2.toList.map (Tbl.mapT g)).filter (fun x => x.1.get "text:name" = some k) =
      (u.2.toList.filter fun x => x.1.get "text:name" = some k).map (Tbl.mapT g) := by
    rw [List.filter_map]
    congr 1
    refine List.filter_congr fun x _ => ?_
    simp [Tbl.mapT, (hg x.1).2.2]
  rw [h1, h2, List.getLast?_map]
  cases hl : (u.2.toList.filter fun x => x.1.get "text:name" = some k).getLast? with
  | some z => rw [hl] at h; cases h; rfl
  | none =>
    rw [hl] at h
    simp only [Option.map_none] at h ⊢
    cases hi : pyInt k with
    | none => rw [hi] at h; cases h
    | some i =>
      rw [hi] at h
      simp only [List.length_map] at h ⊢
      cases hp : pyIdx u.2.toList.length i with
      | none => rw [hp] at h; simp at h
      | some n =>
        rw [hp] at h
        simp only [Option.bind_some, List.getElem?_map] at h ⊢
        cases hn : u.2.toList[n]? with
        | none => rw [hn] at h; simp at h
        | some z => rw [hn] at h; cases h; rfl

theorem insts_map {g : Elem → Elem} (hg : Keeps g) (k : Str) (t : Tree) :
    instTrees k (Tbl.mapT g t) = (instTrees k t).map (Tbl.mapT g) := by
  unfold instTrees
  have : ∀ tag, (Tbl.mapT g t).2.sel (fun e => e.tag = tag ∧ e.get "text:name" = some k) =
      (t.2.sel fun e => e.tag = tag ∧ e.get "text:name" = some k).map (Tbl.mapT g) := by
    intro tag
    exact sel_map (fun e => by simp only [(hg e).2.1, (hg e).2.2]) t.2
  rw [this, this, this, List.map_append, List.map_append]

/-- What is read of an entry after a change of elements in place -/
theorem read_map {s : Session} {tag : String} (h : Framed s.world tag s.tree) {w : Which} {k : Str} {v : Variable}
    (hv : (w.dict s.tree.body).get (some k) = some v) {g : Elem → Elem} (hg : Keeps g) : ∃ t y,
      find s.tree.content.root s.world = some t ∧ find v.node s.world = some y ∧ y.1.get "text:name" = some k ∧
      read F w k s = (s, seen F t y) ∧
      read F w k { s with world := s.world.map g } = ({ s with world := s.world.map g }, seen F (Tbl.mapT g t) (Tbl.mapT g y)) := by
  obtain ⟨t, b, u, y, a1, a2, a3, a4, a5, a6, a7, -⟩ := entry h hv
  have hid := fun e => (hg e).1
  refine ⟨t, y, a1, by rw [a7]; exact a5, a6, by rw [read_eq h w k a1 a2 a3, a4], ?_⟩
  have hf' : Framed ({ s with world := s.world.map g } : Session).world tag s.tree := framed_map hg h
  rw [read_eq (s := { s with world := s.world.map g }) hf' w k (t := Tbl.mapT g t) (b := Tbl.mapT g b) (u := Tbl.mapT g u)
    (by show find _ (s.world.map g) = _; rw [find_map hid, a1]; rfl)
    (by show find _ (s.world.map g) = _; rw [find_map hid, a2]; rfl) (by rw [kid_map hg, a3]; rfl), pick_map hg a4]

/-- **C82**, assigning under a name that is not in the container raises and changes nothing. -/
theorem C82_unknown {L : XLib} {s : Session} (h : Sound L s) {w : Which} {k : Str}
    (hv : (w.dict s.tree.body).get (some k) = none) (x : Val F) : ∃ e, assign w k x s = (s, .error e) := by
  obtain ⟨tag, -, hf⟩ := h.frame
  obtain ⟨c, l, hc, hl⟩ := container_eq hf w
  unfold assign
  simp only [Py.bind_def, hc]
  unfold setitem
  simp only [hv]
  cases pyInt k with
  | none => exact ⟨_, rfl⟩
  | some i =>
    simp only [Py.bind_def, getitem_eq hl]
    cases pyIdx l.length i with
    | none => exact ⟨_, rfl⟩
    | some n => cases hln : l[n]? <;> simp only [hln] <;> exact ⟨_, rfl⟩

/-- **C82**, any assignment leaves the document in order and changes nothing but the declaration and the instances of the
name; the values under all other names are read as before, in both containers. -/
theorem C82_others {L : XLib} {s : Session} (h : Sound L s) (w : Which) (k : Str) (x : Val F) :
    Sound L (assign w k x s).1 ∧ (assign w k x s).1 = { s with world := (assign w k x s).1.world } ∧
    (∀ v, (w.dict s.tree.body).get (some k) = some v →
      Only s.world (assign w k x s).1.world fun i => i = v.node ∨ IsInstance s.world v.node k i) ∧
    ∀ (w' : Which) (k' : Str), k' ≠ k → ((w'.dict s.tree.body).get (some k')).isSome →
      (read F w' k' (assign w k x s).1).2 = (read F w' k' s).2 := by
  cases hv : (w.dict s.tree.body).get (some k) with
  | none =>
    obtain ⟨e, he⟩ := C82_unknown h hv x
    rw [he]
    exact ⟨h, rfl, by simp, fun _ _ _ _ => rfl⟩
  | some v =>
    obtain ⟨tag, ht, hf⟩ := h.frame
    obtain ⟨g, r, hg, e1, e2, e3, -⟩ := assign_change hf hv x
    rw [e1]
    refine ⟨h.map hg, rfl, fun v' hv' => by cases hv'; exact e2, fun w' k' hne hs => ?_⟩
    obtain ⟨v', hv'⟩ := Option.isSome_iff_exists.mp hs
    obtain ⟨t, y, a1, a2, a3, a4, a5⟩ := read_map (F := F) hf hv' hg
    rw [a4, a5]
    show seen F _ _ = seen F _ _
    have hy : g y.1 = y.1 := e3 v'.node y.1 (by simp [Lxml.content, a2]) (by rw [a3]; simpa using hne)
    have hi : (instTrees k' (Tbl.mapT g t)).map (fun u => u.1) = (instTrees k' t).map fun u => u.1 := by
      rw [insts_map hg, List.map_map]
      refine List.map_congr_left fun z hz => ?_
      show g z.1 = z.1
      unfold instTrees at hz
      rw [List.mem_append, List.mem_append] at hz
      have hc : Lxml.content s.world z.1.id = some z.1 := by
        rcases hz with (hz | hz) | hz <;> exact inst_content hf.once a1 hz
      refine e3 _ _ hc ?_
      have : z.1.get "text:name" = some k' := by
        rcases hz with (hz | hz) | hz <;> have := (mem_sel_ids hz).1 <;> simp at this <;> exact this.2
      rw [this]; simpa using hne
    unfold seen
    have h1 : (Tbl.mapT g y).1 = y.1 := hy
    rw [h1, a3]
    simp only [Option.getD_some]
    split
    · rfl
    · split
      · rfl
      · cases hl : instTrees k' t with
        | nil => rw [hl] at hi; rw [List.map_eq_nil_iff.mp hi]
        | cons z l =>
          rw [hl] at hi
          obtain ⟨z', l', e, f1, -⟩ := List.map_eq_cons_iff.mp hi
          rw [e]
          show shown F z'.1 = shown F z.1
          rw [f1]

/-- **C82**, a document that can be saved can be saved after any assignment of a text that can be written (every character
is one of XML). -/
theorem C82_writable {L : XLib} {s : Session} (h : Sound L s) (hw : Writable s) (w : Which) (k : Str) {x : Val F}
    (hx : legalStr (tostr x) = true) : Writable (assign w k x s).1 := by
  cases hv : (w.dict s.tree.body).get (some k) with
  | none =>
    obtain ⟨e, he⟩ := C82_unknown h hv x
    rw [he]
    exact hw
  | some v =>
    obtain ⟨tag, ht, hf⟩ := h.frame
    obtain ⟨g, r, hg, e1, -, -, e4⟩ := assign_change hf hv x
    rw [e1]
    refine ⟨hw.meta_, fun r hr t ht => ?_⟩
    have ht : find r (s.world.map g) = some t := ht
    rw [find_map fun e => (hg e).1] at ht
    cases hfr : find r s.world with
    | none => rw [hfr] at ht; cases ht
    | some t0 =>
      rw [hfr] at ht
      cases ht
      obtain ⟨a, b⟩ := hw.roots r hr t0 hfr
      rw [TextProg.legal_single, Bool.and_eq_true] at a ⊢
      exact ⟨⟨(e4 _).2 hx a.1, legal_map (fun e he => (e4 e).2 hx he) a.2⟩, by rw [(e4 _).1]; exact b⟩

/-! ## The assigned value -/

theorem read_entry {s : Session} {tag : String} (_ : Framed s.world tag s.tree) {w : Which} {k : Str} {v : Variable}
    (hv : (w.dict s.tree.body).get (some k) = some v) {r : Except Exc (Out F)}
    (hr : valueOf F v s.world = (s.world, r)) : read F w k s = (s, r) := by
  unfold read
  simp only [hv, hr]

/-- **C82**, a user field reads as the value that was assigned to it: a truth value, a number other than zero or a text
that is not empty (with other values the call raises, C54). -/
theorem C82_field {L : XLib} (H : F.Lawful) {s : Session} (h : Sound L s) {w : Which} {k : Str} (hk : Field s w k)
    (hq : '\'' ∉ k) {x : Val F} (hx : x.isBool = true ∨ truth x = true) : ∃ s1, assign w k x s = (s1, .ok ()) ∧
      Sound L s1 ∧ read F w k s1 = (s1, .ok (back H x)) ∧ Field s1 w k := by
  obtain ⟨v, hv, htag⟩ := hk
  obtain ⟨tag, ht, hf⟩ := h.frame
  obtain ⟨t, b, u, y, a1, a2, a3, a4, a5, a6, rfl, a8⟩ := entry hf hv
  have hy : y.1.tag = "text:user-field-decl" := by
    simpa [Parts.tagAt, Lxml.content, a5] using htag
  obtain ⟨g, r, hg, e1, -, -⟩ := assign_change hf hv x
  have e2 := assign_entry hf hv x
  obtain ⟨W', f1, -, -, -, f2⟩ := C54_field_set_partial H hf.once (v := ⟨y.1.id, some k⟩)
    ⟨k, rfl, hq, y.1, by simp [Lxml.content, a5], hy, a6⟩ rfl hx
  rw [isField_eq (v := ⟨y.1.id, some k⟩) a5, decide_eq_true hy, if_pos rfl, f1] at e2
  rw [e1] at e2
  have hW : s.world.map g = W' := congrArg (fun p => p.1.world) e2
  have hr : r = .ok () := congrArg Prod.snd e2
  subst hW hr
  have htag' : Parts.tagAt (s.world.map g) y.1.id = some "text:user-field-decl" := by rw [tagAt_map hg]; exact htag
  refine ⟨_, e1, h.map hg, read_entry (s := { s with world := s.world.map g }) (framed_map hg hf) hv ?_, _, hv, htag'⟩
  unfold valueOf
  have : isField (s.world.map g) ⟨y.1.id, some k⟩ = true := by
    unfold isField
    rw [find_map fun e => (hg e).1, a5]
    simp [(hg y.1).2.1, hy]
  simp only [this, if_true]
  exact f2

/-- **C82**, a variable with an instance reads as the value that was assigned to it, if it is no truth value (those are
read as `False`, C54). -/
theorem C82_simple {L : XLib} (H : F.Lawful) {s : Session} (h : Sound L s) {w : Which} {k : Str} (hk : ¬ Field s w k)
    (hi : HasInstance s w k) (hq : '\'' ∉ k) {x : Val F} (hx : x.isBool = false) : ∃ s1, assign w k x s = (s1, .ok ()) ∧
      Sound L s1 ∧ read F w k s1 = (s1, .ok (back H x)) ∧ ¬ Field s1 w k := by
  obtain ⟨v, i, hv, hi⟩ := hi
  obtain ⟨tag, ht, hf⟩ := h.frame
  obtain ⟨t, b, u, y, a1, a2, a3, a4, a5, a6, rfl, a8⟩ := entry hf hv
  have hy : y.1.tag ≠ "text:user-field-decl" := fun hy => hk ⟨_, hv, by simp [Parts.tagAt, Lxml.content, a5, hy]⟩
  obtain ⟨g, r, hg, e1, -, -⟩ := assign_change hf hv x
  have e2 := assign_entry hf hv x
  obtain ⟨W', f1, f2⟩ := C54_simple_read_partial H hf.once (v := ⟨y.1.id, some k⟩)
    ⟨k, rfl, hq, y.1, by simp [Lxml.content, a5], a8.resolve_right hy, a6⟩ rfl ⟨i, hi⟩ hx
  rw [isField_eq (v := ⟨y.1.id, some k⟩) a5, decide_eq_false hy, if_neg (by simp), f1] at e2
  rw [e1] at e2
  have hW : s.world.map g = W' := congrArg (fun p => p.1.world) e2
  have hr : r = .ok () := congrArg Prod.snd e2
  subst hW hr
  refine ⟨_, e1, h.map hg, read_entry (s := { s with world := s.world.map g }) (framed_map hg hf) hv ?_, ?_⟩
  · unfold valueOf
    have : isField (s.world.map g) ⟨y.1.id, some k⟩ = false := by
      unfold isField
      rw [find_map fun e => (hg e).1, a5]
      simp [(hg y.1).2.1, hy]
    simp only [this, Bool.false_eq_true, if_false]
    exact f2
  · rintro ⟨v', hv', h'⟩
    refine hk ⟨v', hv', ?_⟩
    rw [← h']
    exact (tagAt_map hg _ _).symm

/-! ## Saving and opening -/

/-- The same keys have variables. -/
def SameKeys (s s'' : Session) : Prop :=
  ∀ (w : Which), (w.dict s''.tree.body).map Prod.fst = (w.dict s.tree.body).map Prod.fst

/-- **C82**, for every document that is saved and opened and every key: what was read is read again.  An empty text of an
instance is no text in a file: it is read as `None`. -/
theorem C82_reopen {L : XLib} (hl : L.Lawful) (hp : F.parse [] = none) {s s' : Session} (hs : Sound L s) {env : Package.Env}
    {c : Clock} {backup : Bool} (h : saveWhole L env c backup s = (s', .ok ())) (hw : Writable s') (c' : Clock) {W0 : World}
    (h0 : (ids W0).Nodup) : ∃ f s'', s.docname = some f ∧ openWhole L s'.w.fs c' (.file (some f)) W0 = .ok s'' ∧
      Reopened L s' s'' ∧ Sound L s'' ∧ SameKeys s s'' ∧ ∀ w k, (read F w k s').2 = (read F w k s).2 ∧
        Again (read F w k s).2 (read F w k s'').2 ∧
        (Field s w k → Field s'' w k ∧ (read F w k s'').2 = (read F w k s).2) ∧
        (((w.dict s.tree.body).get (some k)).isSome → ¬ Field s w k → (read F w k s).2 = .ok (.str []) →
          (read F w k s'').2 = .ok .none) := by
  obtain ⟨f1, f2, f3, f4, -⟩ := C69_frame L env c backup h
  obtain ⟨f, s'', e1, e2, e3, -⟩ := C69_reopen hl hs.lives h hw c' h0
  obtain ⟨tag, ht, hf⟩ := hs.frame
  obtain ⟨tag'', ht'', hf''⟩ := open_framed hl h0 e2
  have hf' : Framed s'.world tag s'.tree := by rw [f1, f2]; exact hf
  refine ⟨f, s'', by rw [← f3]; exact e1, e2, e3, ⟨e3.lives, tag'', ht'', hf''⟩, ?_, fun w k => ?_⟩
  · intro w
    rw [← f2]
    cases w
    · exact e3.vars
    · exact e3.fields
  obtain ⟨t, b, u, a1, a2, a3, -, -, -, -⟩ := trees_of hf w
  obtain ⟨t0, t'', c1, c2, c3⟩ := e3.content
  obtain ⟨b0, b'', d1, d2, d3⟩ := e3.body
  rw [f1, f2] at c1 d1
  rw [a1] at c1; cases c1
  rw [a2] at d1; cases d1
  obtain ⟨u'', k1, k2⟩ := tells_kid (t'' := b'') d3 a3
  rw [read_eq hf w k a1 a2 a3, read_eq hf' w k (by rw [f1, f2]; exact a1) (by rw [f1, f2]; exact a2) a3,
    read_eq hf'' w k c2 d2 k1]
  refine ⟨rfl, ?_, ?_, ?_⟩
  · rcases tells_pick k2 k with ⟨e, p1, p2⟩ | ⟨x, x'', p1, p2, p3⟩
    · rw [p1, p2]; exact again_refl _
    · rw [p1, p2]; exact again_seen hp c3 p3
  · rintro ⟨v, hv, htag⟩
    obtain ⟨t1, b1, u1, y, g1, g2, g3, g4, g5, g6, rfl, -⟩ := entry hf hv
    rw [a2] at g2; cases g2
    rw [a3] at g3; cases g3
    have hy : y.1.tag = "text:user-field-decl" := by simpa [Parts.tagAt, Lxml.content, g5] using htag
    rcases tells_pick k2 k with ⟨e, p1, p2⟩ | ⟨x, x'', p1, p2, p3⟩
    · rw [g4] at p1; cases p1
    rw [g4] at p1; cases p1
    obtain ⟨q1, q2, -⟩ := tells_elem p3
    constructor
    · have hget := Dict.get_isSome (d := w.dict s''.tree.body) (k := some k)
      have : (w.dict s''.tree.body).keys = (w.dict s.tree.body).keys := by
        have : SameKeys s s'' := by
          intro w
          rw [← f2]
          cases w
          · exact e3.vars
          · exact e3.fields
        exact this w
      rw [this, ← Dict.get_isSome, hv] at hget
      obtain ⟨v'', hv''⟩ := Option.isSome_iff_exists.mp (hget.mpr rfl)
      obtain ⟨t2, b2, u2, z, r1, r2, r3, r4, r5, r6, rfl, -⟩ := entry hf'' hv''
      rw [d2] at r2; cases r2
      rw [k1] at r3; cases r3
      rw [p2] at r4; cases r4
      exact ⟨_, hv'', by simp [Parts.tagAt, Lxml.content, r5, q1, hy]⟩
    · rw [g4, p2]
      simp only
      unfold seen declared
      simp only [q1, q2, hy, if_true]
  · intro hv hnf hr
    obtain ⟨v, hv⟩ := Option.isSome_iff_exists.mp hv
    obtain ⟨t1, b1, u1, y, g1, g2, g3, g4, g5, g6, rfl, -⟩ := entry hf hv
    rw [a2] at g2; cases g2
    rw [a3] at g3; cases g3
    have hy : y.1.tag ≠ "text:user-field-decl" := fun hy => hnf ⟨_, hv, by simp [Parts.tagAt, Lxml.content, g5, hy]⟩
    rcases tells_pick k2 k with ⟨e, p1, p2⟩ | ⟨x, x'', p1, p2, p3⟩
    · rw [g4] at p1; cases p1
    rw [g4] at p1; cases p1
    obtain ⟨q1, q2, -⟩ := tells_elem p3
    rw [g4] at hr
    rw [p2]
    simp only [seen, q1, q2, hy, if_false] at hr ⊢
    split at hr
    · cases hr
    · rename_i hq
      rw [if_neg hq]
      have hi := tells_insts (t'' := t'') c3 ((y.1.get "text:name").getD "None".toList)
      generalize instTrees ((y.1.get "text:name").getD "None".toList) t = l at hi hr
      generalize instTrees ((y.1.get "text:name").getD "None".toList) t'' = l'' at hi
      cases hi with
      | nil => cases hr
      | @cons a _ _ _ h1 _ =>
        obtain ⟨-, m2, m3⟩ := tells_elem h1
        simp only [shown, m2, m3] at hr ⊢
        split at hr
        · cases hr
        · rename_i n1
          rw [if_neg n1]
          split at hr
          · split at hr
            · cases hr
            · split at hr <;> cases hr
          · rename_i n2
            rw [if_neg n2]
            cases ha : a.1.text with
            | none => rw [ha] at hr; cases hr
            | some z =>
              rw [ha] at hr
              injection hr with hr
              injection hr with hr
              subst hr
              rfl

/-- The values that an entry takes (C54): a user field takes truth values and values that count as true, a variable with
an instance takes all but truth values. -/
def Takes (s : Session) (w : Which) (k : Str) (x : Val F) : Prop :=
  '\'' ∉ k ∧ ((Field s w k ∧ (x.isBool = true ∨ truth x = true)) ∨ (¬ Field s w k ∧ HasInstance s w k ∧ x.isBool = false))

/-- **C82**, for every document of a program: an assigned value is read after the assignment and after saving and opening
the document, where an empty text is read as `None`; the values under all other names are read as before, in both
containers. -/
theorem C82_document {L : XLib} (hl : L.Lawful) (H : F.Lawful) (hp : F.parse [] = none) {s : Session} (hs : Sound L s)
    {w : Which} {k : Str} {x : Val F} (hx : Takes s w k x) : ∃ s1, assign w k x s = (s1, .ok ()) ∧ Sound L s1 ∧
      (read F w k s1).2 = .ok (back H x) ∧
      ∀ {env : Package.Env} {c : Clock} {backup : Bool} {s' : Session}, saveWhole L env c backup s1 = (s', .ok ()) →
        Writable s' → ∀ (c' : Clock) {W0 : World}, (ids W0).Nodup →
      ∃ f s'', s1.docname = some f ∧ openWhole L s'.w.fs c' (.file (some f)) W0 = .ok s'' ∧ Sound L s'' ∧ SameKeys s s'' ∧
        ((x = .str [] → (read F w k s'').2 = .ok .none) ∧ (x ≠ .str [] → (read F w k s'').2 = .ok (back H x))) ∧
        ∀ (w' : Which) (k' : Str), k' ≠ k → ((w'.dict s.tree.body).get (some k')).isSome →
          Again (read F w' k' s).2 (read F w' k' s'').2 := by
  obtain ⟨o1, o2, -, o4⟩ := C82_others hs w k x
  have hdict : ((w.dict s.tree.body).get (some k)).isSome := by
    rcases hx.2 with ⟨⟨v, hv, -⟩, -⟩ | ⟨-, ⟨v, i, hv, -⟩, -⟩ <;> rw [hv] <;> rfl
  have key : ∃ s1, assign w k x s = (s1, .ok ()) ∧ read F w k s1 = (s1, .ok (back H x)) ∧
      (x = .str [] → ¬ Field s1 w k) := by
    rcases hx.2 with ⟨hf, h1⟩ | ⟨hf, hi, h1⟩
    · obtain ⟨s1, a1, -, a3, -⟩ := C82_field H hs hf hx.1 h1
      exact ⟨s1, a1, a3, fun h => by subst h; simp [Val.isBool, truth] at h1⟩
    · obtain ⟨s1, a1, -, a3, a4⟩ := C82_simple H hs hf hi hx.1 h1
      exact ⟨s1, a1, a3, fun _ => a4⟩
  obtain ⟨s1, a1, a3, a4⟩ := key
  rw [a1] at o1 o2 o4
  have htree : s1.tree = s.tree := by have := congrArg (fun s : Session => s.tree) o2; exact this
  refine ⟨s1, a1, o1, by rw [a3], fun {env c backup s'} hsave hw c' {W0} h0 => ?_⟩
  obtain ⟨f, s'', e1, e2, -, e4, e5, e6⟩ := C82_reopen (F := F) hl hp o1 hsave hw c' h0
  refine ⟨f, s'', e1, e2, e4, fun w => by rw [e5 w, htree], ⟨fun hx0 => ?_, fun hx0 => ?_⟩, fun w' k' hne hk' => ?_⟩
  · obtain ⟨-, -, -, r⟩ := e6 w k
    refine r (by rw [htree]; exact hdict) (a4 hx0) ?_
    rw [a3]; subst hx0; rfl
  · obtain ⟨-, r, -⟩ := e6 w k
    rw [a3] at r
    cases x with
    | str z =>
      cases z with
      | nil => exact absurd rfl hx0
      | cons c z => exact r
    | bool b => exact r
    | int i => exact r
    | float y => exact r
  · obtain ⟨-, r, -⟩ := e6 w' k'
    rwa [o4 w' k' hne hk'] at r

/-! ## Where the documents come from -/

/-- **C82**, all new documents -/
theorem C82_new {L : XLib} (hl : L.Lawful) (fs : Package.FS) (c : Clock) {mt : Str} (hmt : mt ∈ MIMETYPE_BODYTAG_MAP.keys) :
    ∃ s, newWhole L fs c mt = .ok s ∧ Sound L s ∧ s.mimetype = mt := by
  obtain ⟨s, h1, h2, -, h4, -⟩ := new_ok (L := L) fs c hmt
  refine ⟨s, h1, ⟨h2 s.docname, ?_⟩, h4⟩
  have h := h1
  unfold newWhole at h
  split at h
  · cases h
  · rename_i fm ho
    exact made_framed hl (by simp [ids]) ho h

/-- **C82**, all opened documents -/
theorem C82_open {L : XLib} (hl : L.Lawful) {fs : Package.FS} {c : Clock} {src : Package.Source} {W : World} {s : Session}
    (hn : (ids W).Nodup) (h : openWhole L fs c src W = .ok s) : Sound L s := by
  refine ⟨?_, open_framed hl hn h⟩
  unfold openWhole at h
  split at h
  · cases h
  · rename_i fm ho
    split at h
    · cases h
    · exact Lives.made s.docname hn ho h

/-! ## A concrete case -/

/-- A document with a variable `a`, that has an instance, a variable `b` without instances and a user field `f` -/
def varDemo : World := demo none
  (.cons { id := 5, tag := "text:variable-decls" }
    (.cons { id := 6, tag := "text:variable-decl", attrs := [("text:name", "a".toList)] } .nil
    (.cons { id := 7, tag := "text:variable-decl", attrs := [("text:name", "b".toList)] } .nil .nil))
  (.cons { id := 8, tag := "text:user-field-decls" }
    (.cons { id := 9, tag := "text:user-field-decl", attrs := [("text:name", "f".toList), ("office:value-type", "string".toList),
      ("office:string-value", "old".toList)] } .nil .nil)
  (.cons { id := 10, tag := "text:p" }
    (.cons { id := 11, tag := "text:variable-get", attrs := [("text:name", "a".toList)], text := some "1".toList } .nil .nil) .nil)))

/-- The document, in the form of a session: its world and trees are those of `varDemo`. -/
def Starts (W : World) (d : Parts.DocTree) : Prop := Parts.packagedTree Parts.spreadsheet (some 1) (some 2) varDemo = (W, .ok d)

/-- A document with variables and fields, that can be saved -/
theorem varDemo_ok {L : XLib} : ∃ s, Sound L s ∧ Writable s ∧ s.docname = some demoFile ∧ Starts s.world s.tree ∧
    (Meta.abs s.meta_.m).tag "editing-cycles" ≠ some none ∧ Package.MIMETYPE ∈ s.w.fm.dir.keys ∧
    (∀ n g, n ∉ [META, STYLES, CONTENT] → s.w.fm.dir.get n = some g →
      (Package.currentBytes L.pkg s.w.fm.manifest.kids g.element).isSome) ∧ s.w.fs = fun _ => none := by
  have hmt : Parts.spreadsheet ∈ MIMETYPE_BODYTAG_MAP.keys := by decide +kernel
  obtain ⟨s, h1, h2, h3, h4, h5, h6, h7, -, -⟩ := new_ok (L := L) (fun _ => none) demoClock hmt
  have hc : (match Parts.packagedTree Parts.spreadsheet (some 1) (some 2) varDemo with
      | (_, .error _) => false
      | (W, .ok d) => (d.styles.root ∈ roots W ∧ d.content.root ∈ roots W) &&
        [d.styles.root, d.content.root].all fun r => match find r W with
          | none => false
          | some t => legal (single t) && t.1.tail.isNone) = true := by decide +kernel
  rcases hp : Parts.packagedTree Parts.spreadsheet (some 1) (some 2) varDemo with ⟨W, r⟩
  rw [hp] at hc
  cases r with
  | error e => cases hc
  | ok d =>
    simp only [Bool.and_eq_true, List.all_eq_true, decide_eq_true_eq] at hc
    obtain ⟨tag, t1, t2, t3⟩ := tree_refs (W := varDemo) (by decide +kernel) hp
    have htag : tag = "office:spreadsheet" := by
      have : MIMETYPE_BODYTAG_MAP.get Parts.spreadsheet = some "office:spreadsheet" := by decide +kernel
      rw [this] at t1; cases t1; rfl
    have hlive := (h2 (some demoFile)).trees (W := W) (tag := tag) (d := d) t3 (by dsimp only; rw [h4]; exact t1) t2
    refine ⟨_, ⟨hlive, tag, by dsimp only; rw [h4]; exact t1, t3, by rw [htag]; decide, t2, hc.1.1, hc.1.2⟩, ⟨?_, ?_⟩, rfl, hp, ?_,
      h6, h7, h3⟩
    · dsimp only
      rw [h5]
      have hb : (legal (single (metaInit demoClock none).tree) && (metaInit demoClock none).tree.1.tail.isNone) = true := by
        decide +kernel
      simpa using hb
    · intro r hr t ht
      have := hc.2 r hr
      have ht : find r W = some t := ht
      rw [ht] at this
      simpa using this
    · dsimp only
      rw [h5]
      show (Meta.abs (Meta.new demoClock.time demoClock.time2 demoClock.generator)).tag "editing-cycles" ≠ _
      rw [new_eq]
      decide +kernel

def pathOk (W : World) : Nat → List Nat → Bool
  | _, [] => true
  | a, b :: l => (match children W a with | some c => c.contains b | none => false) && pathOk W b l

theorem below_of_path {W : World} {r : Nat} : ∀ (l : List Nat) (a : Nat), Below W r a → pathOk W a l = true →
    Below W r ((a :: l).getLast (by simp))
  | [], _, h, _ => h
  | b :: l, a, h, hp => by
    simp only [pathOk, Bool.and_eq_true] at hp
    obtain ⟨h1, h2⟩ := hp
    cases hc : children W a with
    | none => rw [hc] at h1; cases h1
    | some c =>
      rw [hc] at h1
      rw [List.getLast_cons (by simp)]
      exact below_of_path l b (.step h hc (by simpa using h1)) h2

/-- The variable `a` of the document takes all values but truth values, the user field `f` those that count as true. -/
theorem varDemo_takes {s : Session} (h : Starts s.world s.tree) {x : Val F} :
    (x.isBool = false → Takes s .variables "a".toList x) ∧ (truth x = true → Takes s .userfields "f".toList x) ∧
      (s.tree.body.vars.get (some "b".toList)).isSome := by
  have hc : (match Parts.packagedTree Parts.spreadsheet (some 1) (some 2) varDemo with
      | (_, .error _) => false
      | (W, .ok d) => decide (d.body.vars.get (some "a".toList) = some ⟨6, some "a".toList⟩) &&
        decide (d.body.fields.get (some "f".toList) = some ⟨9, some "f".toList⟩) &&
        decide (Parts.tagAt W 6 = some "text:variable-decl") && decide (Parts.tagAt W 9 = some "text:user-field-decl") &&
        decide ((Lxml.content W 11).map (fun e => (e.tag, e.get "text:name")) = some ("text:variable-get", some "a".toList)) &&
        (tops W).contains 2 && pathOk W 2 [3, 4, 5, 6] && pathOk W 2 [3, 4, 10, 11] &&
        (d.body.vars.get (some "b".toList)).isSome) = true := by decide +kernel
  unfold Starts at h
  rw [h] at hc
  simp only [Bool.and_eq_true, decide_eq_true_eq] at hc
  obtain ⟨⟨⟨⟨⟨⟨⟨⟨c1, c2⟩, c3⟩, c4⟩, c5⟩, c6⟩, c7⟩, c8⟩, c9⟩ := hc
  refine ⟨fun hx => ⟨by decide, .inr ⟨?_, ⟨_, 11, c1, ?_⟩, hx⟩⟩, fun hx => ⟨by decide, .inl ⟨⟨_, c2, c4⟩, .inr hx⟩⟩, c9⟩
  · rintro ⟨v, hv, ht⟩
    have hv : s.tree.body.vars.get (some "a".toList) = some v := hv
    rw [c1] at hv
    cases hv
    rw [c3] at ht
    revert ht; decide
  · cases he : Lxml.content s.world 11 with
    | none => rw [he] at c5; cases c5
    | some e =>
      rw [he] at c5
      simp only [Option.map_some, Option.some.injEq, Prod.mk.injEq] at c5
      exact ⟨⟨e, he, by rw [c5.1]; decide, c5.2⟩, 2, by simpa using c6, below_of_path [3, 4, 5, 6] 2 .self c7,
        below_of_path [3, 4, 10, 11] 2 .self c8, by decide⟩

/-- A value is assigned to an entry of the document, which is saved and opened. -/
theorem varDemo_run {L : XLib} (hl : L.Lawful) {s : Session} (h1 : Sound L s) (h2 : Writable s) (h3 : s.docname = some demoFile)
    (h5 : (Meta.abs s.meta_.m).tag "editing-cycles" ≠ some none) (h6 : Package.MIMETYPE ∈ s.w.fm.dir.keys)
    (h7 : ∀ n g, n ∉ [META, STYLES, CONTENT] → s.w.fm.dir.get n = some g →
      (Package.currentBytes L.pkg s.w.fm.manifest.kids g.element).isSome) (h8 : s.w.fs = fun _ => none) {w : Which} {k : Str}
    {x : Val F} (hx : legalStr (tostr x) = true) :
    ∃ s', saveWhole L demoEnv demoClock false (assign w k x s).1 = (s', .ok ()) ∧ Writable s' := by
  obtain ⟨o1, o2, -, -⟩ := C82_others h1 w k x
  have hw := C82_writable h1 h2 w k hx
  have htmp : Package.tmpfilename demoEnv.names demoFile (fun _ => none) = some "x.tmp".toList := by decide +kernel
  obtain ⟨s', hs'⟩ := C69_saves hl o1.lives (f := demoFile) (by rw [o2]; exact h3) demoEnv demoClock false (by rw [o2]; exact h5)
    (by rw [o2]; exact h6) (by rw [o2]; exact h7) (fun _ => rfl) (tmp := "x.tmp".toList) (by rw [o2]; dsimp only; rw [h8]; exact htmp)
    (by decide +kernel)
  exact ⟨s', hs', writable_save hs' (by decide +kernel) (by decide +kernel) hw⟩

/-- **C82**, the exception occurs: an empty text is assigned to a variable and read; when the document has been saved and
opened `None` is read. -/
theorem C82_empty {L : XLib} (hl : L.Lawful) (H : F.Lawful) (hp : F.parse [] = none) : ∃ s s1 s' s'', Sound L s ∧
    assign .variables "a".toList (.str [] : Val F) s = (s1, .ok ()) ∧ (read F .variables "a".toList s1).2 = .ok (.str []) ∧
    saveWhole L demoEnv demoClock false s1 = (s', .ok ()) ∧ Writable s' ∧
    openWhole L s'.w.fs demoClock (.file (some demoFile)) .nil = .ok s'' ∧ (read F .variables "a".toList s'').2 = .ok .none := by
  obtain ⟨s, h1, h2, h3, h4, h5, h6, h7, h8⟩ := varDemo_ok (L := L)
  obtain ⟨s', r1, r2⟩ := varDemo_run hl h1 h2 h3 h5 h6 h7 h8 (w := .variables) (k := "a".toList) (x := (.str [] : Val F)) rfl
  obtain ⟨s1, e1, -, e3, e4⟩ := C82_document hl H hp h1 ((varDemo_takes h4 (x := (.str [] : Val F))).1 rfl)
  rw [e1] at r1
  obtain ⟨f, s'', g1, g2, -, -, g3, -⟩ := e4 r1 r2 demoClock (W0 := .nil) (by simp [ids])
  have hd : s1.docname = some demoFile := by
    have := (C82_others h1 .variables "a".toList (.str [] : Val F)).2.1
    rw [e1] at this
    have := congrArg (fun s : Session => s.docname) this
    exact this.trans h3
  rw [hd] at g1
  cases g1
  exact ⟨s, s1, s', s'', h1, e1, e3, r1, r2, g2, g3.1 rfl⟩

/-- The hypotheses of all theorems are met: 7 is assigned to the variable `a` and is read as the number 7, also in the
document that is opened; the user field `f` is read there as before. -/
example : ∃ L : XLib, L.Lawful ∧ ∃ s s1 s' s'', Sound L s ∧
    assign .variables "a".toList (.int 7 : Val Cells.intLib) s = (s1, .ok ()) ∧
    saveWhole L demoEnv demoClock false s1 = (s', .ok ()) ∧
    openWhole L s'.w.fs demoClock (.file (some demoFile)) .nil = .ok s'' ∧
    (read Cells.intLib .variables "a".toList s'').2 = .ok (.float (7 : Int)) ∧
    Again (read Cells.intLib .variables "b".toList s).2 (read Cells.intLib .variables "b".toList s'').2 := by
  obtain ⟨L, hl⟩ := xlib_exists
  obtain ⟨s, h1, h2, h3, h4, h5, h6, h7, h8⟩ := varDemo_ok (L := L)
  obtain ⟨s', r1, r2⟩ := varDemo_run hl h1 h2 h3 h5 h6 h7 h8 (w := .variables) (k := "a".toList) (x := (.int 7 : Val Cells.intLib))
    (by decide +kernel)
  obtain ⟨s1, e1, -, e3, e4⟩ := C82_document hl Cells.intLawful (by decide +kernel) h1
    ((varDemo_takes h4 (x := (.int 7 : Val Cells.intLib))).1 rfl)
  rw [e1] at r1
  obtain ⟨f, s'', g1, g2, -, -, g3, g4⟩ := e4 r1 r2 demoClock (W0 := .nil) (by simp [ids])
  have hd : s1.docname = some demoFile := by
    have := (C82_others h1 .variables "a".toList (.int 7 : Val Cells.intLib)).2.1
    rw [e1] at this
    have := congrArg (fun s : Session => s.docname) this
    exact this.trans h3
  rw [hd] at g1
  cases g1
  exact ⟨L, hl, s, s1, s', s'', h1, e1, r1, g2, g3.2 (by simp), g4 _ _ (by decide)
    ((varDemo_takes h4 (x := (.int 7 : Val Cells.intLib))).2.2)⟩

end Verif.VarProg
