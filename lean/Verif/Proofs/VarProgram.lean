import Verif.Model.VarProgram
import Verif.Props.Variables
import Verif.Props.Whole
import Verif.Proofs.ContentText
import Verif.Proofs.ProgDoc
/-! Helper lemmas for C82: what is read of variables as a function of the tree, and documents of the same written form. -/
namespace Verif.VarProg
open Verif Verif.Lxml Forest Verif.Whole Verif.Vars Verif.Document Verif.Program
set_option linter.unusedSimpArgs false

variable {F : Cells.FloatLib}

/-! ## Trees -/

/-- The instances of a variable in a tree: those that set it, those that show it, those that ask for it. -/
def instTrees (k : Str) (t : Tree) : List Tree :=
  (t.2.sel fun e => e.tag = "text:variable-set" ∧ e.get "text:name" = some k) ++
  (t.2.sel fun e => e.tag = "text:variable-get" ∧ e.get "text:name" = some k) ++
  (t.2.sel fun e => e.tag = "text:variable-input" ∧ e.get "text:name" = some k)

/-- The value of the declaration `x` in the tree `root` -/
def seen (F : Cells.FloatLib) (root x : Tree) : Except Exc (Out F) :=
  if x.1.tag = "text:user-field-decl" then declared F x.1
  else if ((x.1.get "text:name").getD "None".toList).contains '\'' then .error .XMLSyntaxError
  else match instTrees ((x.1.get "text:name").getD "None".toList) root with
    | [] => .error .IndexError
    | u :: _ => shown F u.1

/-- The declaration under a key -/
def pick (k : Str) (u : Tree) : Except Exc Tree :=
  match (u.2.toList.filter fun x => x.1.get "text:name" = some k).getLast? with
  | some x => .ok x
  | none =>
    match pyInt k with
    | none => .error .ValueError
    | some i =>
      match (pyIdx u.2.toList.length i).bind fun n => u.2.toList[n]? with
      | some x => .ok x
      | none => .error .IndexError

/-! ## Reading -/

theorem instances_root {W : World} {r n : Nat} {t : Tree} (hr : Base.getXmlroot n W = (W, .ok r)) (ht : find r W = some t)
    (name : Option Str) : instances ⟨n, name⟩ W = (W, if (name.getD "None".toList).contains '\'' then .error .XMLSyntaxError
      else .ok ((instTrees (name.getD "None".toList) t).map fun u => u.1.id)) := by
  unfold instances
  simp only
  split
  · rfl
  · have h : ∀ tag, findInst r tag (name.getD "None".toList) W = (W, .ok ((t.2.sel fun e => e.tag = tag ∧
        e.get "text:name" = some (name.getD "None".toList)).map fun v => v.1.id)) := by
      intro tag; unfold findInst; rw [ht]
    rw [Py.bind_ok hr, Py.bind_ok (h _), Py.bind_ok (h _), Py.bind_ok (h _)]
    simp only [instTrees, List.map_append]; rfl

theorem inst_content {W : World} (hn : (ids W).Nodup) {r : Nat} {t : Tree} (ht : find r W = some t) {p : Elem → Bool} {u : Tree}
    (hu : u ∈ t.2.sel p) : Lxml.content W u.1.id = some u.1 := by
  have hnt := nodup_tree hn ht
  have hru : t.1.id = r := (find_mem_ids ht).1
  have hnu : (ids t.2).Nodup := by simp at hnt; exact hnt.2
  have hru2 : r ∉ ids t.2 := by simp [hru] at hnt; exact hnt.1
  obtain ⟨-, p2⟩ := mem_sel_ids hu
  have hir : u.1.id ≠ r := fun e => hru2 (e ▸ p2)
  rw [Lxml.content, find_in hn ht (by simp [p2]), find_single_ne (by rw [hru]; exact fun e => hir e.symm), find_of_mem_sel hnu hu]
  rfl

theorem value_eq {W : World} (hn : (ids W).Nodup) {r : Nat} {t x : Tree} (hr : Base.getXmlroot x.1.id W = (W, .ok r))
    (ht : find r W = some t) (hx : find x.1.id W = some x) :
    valueOf F ⟨x.1.id, x.1.get "text:name"⟩ W = (W, seen F t x) := by
  have hf : isField W ⟨x.1.id, x.1.get "text:name"⟩ = decide (x.1.tag = "text:user-field-decl") := by
    unfold isField; simp only [hx]
  unfold valueOf seen
  rw [hf]
  by_cases h1 : x.1.tag = "text:user-field-decl"
  · simp only [h1, decide_true, if_true]
    exact fieldValue_eq (by simp [Lxml.content, hx])
  · simp only [h1, decide_false, Bool.false_eq_true, if_false]
    unfold simpleValue
    have := instances_root hr ht (x.1.get "text:name")
    by_cases h2 : ((x.1.get "text:name").getD "None".toList).contains '\'' = true
    · rw [if_pos h2] at this
      rw [if_pos h2, Py.bind_error this]
    · rw [if_neg h2] at this
      rw [if_neg h2, Py.bind_ok this]
      cases hi : instTrees ((x.1.get "text:name").getD "None".toList) t with
      | nil => rfl
      | cons u l =>
        simp only [List.map_cons]
        have hu : u ∈ instTrees ((x.1.get "text:name").getD "None".toList) t := by rw [hi]; simp
        unfold instTrees at hu
        rw [List.mem_append, List.mem_append] at hu
        have : Lxml.content W u.1.id = some u.1 := by
          rcases hu with (hu | hu) | hu <;> exact inst_content hn ht hu
        exact instValue_eq this

theorem below_root {W : World} {a b c : Nat} {tag : String} (h : Below W a b) (hr : Parts.Ref W b tag c) : Below W a c := by
  obtain ⟨A, B, h1, -, -⟩ := hr
  exact .step h h1 (by simp)

/-- The trees at which a document is read -/
theorem trees_of {W : World} {tag : String} {d : Parts.DocTree} (h : Framed W tag d) (w : Which) : ∃ t b u,
    find d.content.root W = some t ∧ find d.body.node W = some b ∧ kid w.tag b = some u ∧ find u.1.id W = some u ∧
      Parts.Ref W d.body.node w.tag u.1.id ∧ Below W d.content.root u.1.id ∧ collect u.2.toList = .ok (w.dict d.body) := by
  have hn := h.once
  have hbr := h.refs.body
  have hb0 : Below W d.content.root d.body.node := below_root (below_root .self h.refs.content.body) hbr.node
  have : ∃ v, Parts.Ref W d.body.node w.tag v ∧ Vars.init v W = (W, .ok (w.dict d.body)) := by
    cases w
    · exact hbr.vars
    · exact hbr.fields
  obtain ⟨v, hv, hi⟩ := this
  obtain ⟨_, _, h1, _, _⟩ := id hv
  obtain ⟨b, hb, -⟩ := children_find h1
  obtain ⟨_, _, h2, _, _⟩ := id h.refs.content.body
  obtain ⟨t, ht, -⟩ := children_find h2
  obtain ⟨u, k1, k2⟩ := ref_kid hn hv hb
  have hid : u.1.id = v := (find_mem_ids k2).1
  subst hid
  refine ⟨t, b, u, ht, hb, k1, k2, hv, below_root hb0 hv, ?_⟩
  unfold Vars.init at hi
  rw [k2] at hi
  simpa using hi

/-- What is read, from the trees -/
theorem read_eq {s : Session} {tag : String} (h : Framed s.world tag s.tree) (w : Which) (k : Str) {t b u : Tree}
    (ht : find s.tree.content.root s.world = some t) (hb : find s.tree.body.node s.world = some b)
    (hu : kid w.tag b = some u) : read F w k s = (s, match pick k u with
      | .error e => .error e
      | .ok x => seen F t x) := by
  obtain ⟨t', b', u', a1, a2, a3, a4, a5, a6, a7⟩ := trees_of h w
  rw [ht] at a1; cases a1
  rw [hb] at a2; cases a2
  rw [hu] at a3; cases a3
  have hn := h.once
  have hroot : ∀ x ∈ u.2.toList, Base.getXmlroot x.1.id s.world = (s.world, .ok s.tree.content.root) := by
    intro x hx
    have hfx := child_find hn a4 hx
    obtain ⟨r, r1, r2, r3⟩ := Base.C57_root hn (find_mem hfx)
    have hbelow : Below s.world s.tree.content.root x.1.id := by
      refine .step a6 (l := u.2.toList.map fun u => u.1.id) ?_ (List.mem_map_of_mem hx)
      unfold children; rw [a4]; rfl
    have : s.tree.content.root ∈ tops s.world := h.content
    rw [r1, top_unique hn r2 this r3 hbelow]
  have hval : ∀ x ∈ u.2.toList, valueOf F ⟨x.1.id, x.1.get "text:name"⟩ s.world = (s.world, seen F t x) := fun x hx =>
    value_eq hn (hroot x hx) ht (child_find hn a4 hx)
  have hget := collect_get a7 (some k)
  unfold read pick
  cases hl : (u.2.toList.filter fun x => x.1.get "text:name" = some k).getLast? with
  | some x =>
    rw [hl] at hget
    have hm := List.mem_filter.mp (List.mem_of_getLast? hl)
    have hname : x.1.get "text:name" = some k := by simpa using hm.2
    have := hval x hm.1
    rw [hname] at this
    simp only [hget, Option.map_some, this]
  | none =>
    rw [hl] at hget
    simp only [hget, Option.map_none]
    have hc : container w s.tree.body s.world = (s.world, .ok u.1.id) := by
      have hk := hu
      unfold kid at hk
      unfold container Base.find Lxml.findall
      simp only [Py.bind_def, hb, Py.pure_def]
      have : ((b.2.toList.filter fun u => u.1.tag = w.tag).map fun u => u.1.id).head? = some u.1.id := by
        rw [List.head?_map, List.head?_filter, hk]; rfl
      rw [this]; rfl
    simp only [Py.bind_def, hc]
    cases hi : pyInt k with
    | none =>
      simp only [Vars.getitem, hget, Option.map_none, hi]; rfl
    | some i =>
      have hch : children s.world u.1.id = some (u.2.toList.map fun x => x.1.id) := by unfold children; rw [a4]; rfl
      simp only [Vars.getitem, hget, Option.map_none, hi]
      have hg := getitem_eq hch i
      rw [List.length_map] at hg
      unfold Base.getChild
      cases hp : pyIdx u.2.toList.length i with
      | none =>
        rw [hp] at hg
        simp [hg]
      | some n =>
        have hlt := pyIdx_lt hp
        rw [hp] at hg
        have hm : u.2.toList[n] ∈ u.2.toList := List.getElem_mem hlt
        have he : elem u.2.toList[n].1.id s.world = (s.world, .ok u.2.toList[n].1) :=
          elem_eq (by simp [Lxml.content, child_find hn a4 hm])
        have hn' : u.2.toList[n]? = some u.2.toList[n] := List.getElem?_eq_getElem hlt
        simp only [List.getElem?_map, hn', Option.map_some] at hg
        simp only [hg, hn', Option.bind_some, he, hval _ hm]

/-! ## Documents of the same written form -/

/-- An element of an opened document and the one that was saved -/
def Tells (t t'' : Tree) : Prop := data t'' = shape t

theorem tells_mapT {t t'' : Tree} : Tells t t'' ↔ Tbl.mapT TextProg.anon t'' = Tbl.mapT Whole.written t := by
  unfold Tells
  rw [TextProg.data_anon]; rfl

theorem tells_elem {t t'' : Tree} (h : Tells t t'') : t''.1.tag = t.1.tag ∧ (∀ k, t''.1.get k = t.1.get k) ∧
    t''.1.text = noEmpty t.1.text := by
  have h1 : ({ t''.1 with id := 0 } : Elem) = Whole.written t.1 := congrArg Prod.fst h
  have a := congrArg (fun e : Elem => e.tag) h1
  have b := congrArg (fun e : Elem => e.text) h1
  refine ⟨a, fun k => ?_, b⟩
  have := congrArg (fun e : Elem => e.attrs) h1
  unfold Elem.get
  exact congrArg (fun a => Attrs.get a k) this

theorem tells_kids {t t'' : Tree} (h : Tells t t'') : List.Forall₂ Tells t.2.toList t''.2.toList := by
  have h1 : t''.2.map TextProg.anon = t.2.map Whole.written := by
    have := tells_mapT.mp h
    exact congrArg Prod.snd this
  have h2 := congrArg Forest.toList h1
  rw [toList_map, toList_map] at h2
  rw [List.forall₂_iff_get]
  have hlen : t''.2.toList.length = t.2.toList.length := by
    have := congrArg List.length h2
    simpa using this
  refine ⟨hlen.symm, fun i hi hi' => ?_⟩
  have := congrArg (fun l => l[i]?) h2
  simp only [List.getElem?_map] at this
  rw [List.getElem?_eq_getElem hi', List.getElem?_eq_getElem (by omega)] at this
  simp only [Option.map_some, Option.some.injEq] at this
  rw [List.get_eq_getElem, List.get_eq_getElem]
  exact tells_mapT.mpr this

theorem tells_sel {p : Elem → Bool} (h1 : ∀ e, p (TextProg.anon e) = p e) (h2 : ∀ e, p (Whole.written e) = p e) {t t'' : Tree}
    (h : Tells t t'') : List.Forall₂ Tells (t.2.sel p) (t''.2.sel p) := by
  have h3 : t''.2.map TextProg.anon = t.2.map Whole.written := congrArg Prod.snd (tells_mapT.mp h)
  have h4 := congrArg (Forest.sel p) h3
  rw [sel_map h1, sel_map h2] at h4
  have hlen : (t''.2.sel p).length = (t.2.sel p).length := by
    have := congrArg List.length h4
    simpa using this
  rw [List.forall₂_iff_get]
  refine ⟨hlen.symm, fun i hi hi' => ?_⟩
  have := congrArg (fun l => l[i]?) h4
  simp only [List.getElem?_map] at this
  rw [List.getElem?_eq_getElem hi', List.getElem?_eq_getElem (by omega)] at this
  simp only [Option.map_some, Option.some.injEq] at this
  rw [List.get_eq_getElem, List.get_eq_getElem]
  exact tells_mapT.mpr this

theorem tells_insts {t t'' : Tree} (h : Tells t t'') (k : Str) : List.Forall₂ Tells (instTrees k t) (instTrees k t'') := by
  unfold instTrees
  exact List.rel_append (List.rel_append (tells_sel (fun _ => rfl) (fun _ => rfl) h) (tells_sel (fun _ => rfl) (fun _ => rfl) h))
    (tells_sel (fun _ => rfl) (fun _ => rfl) h)

theorem tells_kid {t t'' u : Tree} (h : Tells t t'') {tag : String} (hu : kid tag t = some u) :
    ∃ u'', kid tag t'' = some u'' ∧ Tells u u'' := by
  have hk := tells_kids h
  unfold kid at hu ⊢
  generalize t.2.toList = l at hu hk
  generalize t''.2.toList = l'' at hk
  induction hk with
  | nil => simp at hu
  | cons h1 _ ih =>
    rw [List.find?_cons] at hu ⊢
    rw [(tells_elem h1).1]
    split at hu
    · cases hu; exact ⟨_, rfl, h1⟩
    · exact ih hu

theorem tells_pick {u u'' : Tree} (h : Tells u u'') (k : Str) :
    (∃ e, pick k u = .error e ∧ pick k u'' = .error e) ∨ ∃ x x'', pick k u = .ok x ∧ pick k u'' = .ok x'' ∧ Tells x x'' := by
  have hk := tells_kids h
  have hlen := hk.length_eq
  have hf : List.Forall₂ Tells (u.2.toList.filter fun x => x.1.get "text:name" = some k)
      (u''.2.toList.filter fun x => x.1.get "text:name" = some k) := by
    refine List.rel_filter (R := Tells) ?_ hk
    intro a b hab
    simp [(tells_elem hab).2.1]
  have hl : List.Forall₂ Tells (u.2.toList.filter fun x => x.1.get "text:name" = some k).reverse
      (u''.2.toList.filter fun x => x.1.get "text:name" = some k).reverse := List.rel_reverse hf
  unfold pick
  rw [← List.head?_reverse, ← List.head?_reverse]
  generalize (u.2.toList.filter fun x => x.1.get "text:name" = some k).reverse = l at hl
  generalize (u''.2.toList.filter fun x => x.1.get "text:name" = some k).reverse = l'' at hl
  cases hl with
  | cons h1 _ => exact .inr ⟨_, _, rfl, rfl, h1⟩
  | nil =>
    simp only [List.head?_nil]
    cases pyInt k with
    | none => exact .inl ⟨_, rfl, rfl⟩
    | some i =>
      simp only
      rw [← hlen]
      cases hp : pyIdx u.2.toList.length i with
      | none => exact .inl ⟨_, rfl, rfl⟩
      | some n =>
        have h1 := pyIdx_lt hp
        simp only [Option.bind_some]
        rw [List.getElem?_eq_getElem h1, List.getElem?_eq_getElem (by omega)]
        exact .inr ⟨_, _, rfl, rfl, (List.forall₂_iff_get.mp hk).2 n h1 (by omega)⟩

/-- What is read again of a value that was read before saving: an empty text of an instance is no text in a file. -/
def Again (r r'' : Except Exc (Out F)) : Prop :=
  match r with
  | .ok (.str []) => r'' = .ok (.str []) ∨ r'' = .ok .none
  | .ok y => r'' = .ok y
  | .error _ => ∃ e, r'' = .error e

theorem again_refl (r : Except Exc (Out F)) : Again r r := by
  unfold Again
  split
  · exact .inl rfl
  · rfl
  · exact ⟨_, rfl⟩

theorem again_shown (hp : F.parse [] = none) {t t'' : Tree} (h : Tells t t'') : Again (shown F t.1) (shown F t''.1) := by
  obtain ⟨-, h1, h2⟩ := tells_elem h
  cases ht : t.1.text with
  | none =>
    have : t''.1.text = t.1.text := by rw [h2, ht]; rfl
    have : shown F t''.1 = shown F t.1 := by unfold shown; rw [h1, this]
    rw [this]; exact again_refl _
  | some a =>
    cases a with
    | cons c a =>
      have : t''.1.text = t.1.text := by rw [h2, ht]; rfl
      have : shown F t''.1 = shown F t.1 := by unfold shown; rw [h1, this]
      rw [this]; exact again_refl _
    | nil =>
      have ht'' : t''.1.text = none := by rw [h2, ht]; rfl
      unfold shown
      rw [h1, ht, ht'']
      simp only
      split
      · simp [Again]
      · split
        · simp [Again, hp]
        · simp [Again, outText]

theorem again_seen (hp : F.parse [] = none) {t t'' x x'' : Tree} (h : Tells t t'') (hx : Tells x x'') :
    Again (seen F t x) (seen F t'' x'') := by
  obtain ⟨h1, h2, -⟩ := tells_elem hx
  unfold seen
  rw [h1, h2]
  split
  · have : declared F x''.1 = declared F x.1 := by unfold declared; simp only [h2]
    rw [this]; exact again_refl _
  · split
    · exact ⟨_, rfl⟩
    · have hi := tells_insts h ((x.1.get "text:name").getD "None".toList)
      generalize instTrees ((x.1.get "text:name").getD "None".toList) t = l at hi
      generalize instTrees ((x.1.get "text:name").getD "None".toList) t'' = l'' at hi
      cases hi with
      | nil => exact ⟨_, rfl⟩
      | cons h1 _ => exact again_shown hp h1

end Verif.VarProg
