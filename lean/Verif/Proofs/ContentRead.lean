import Verif.Proofs.ContentText
/-! Helper lemmas for C81: what is read from the elements of a document, and documents but for the content of their bodies. -/
namespace Verif.TextProg
open Verif Verif.Lxml Forest Verif.Whole Verif.Tbl
set_option linter.unusedSimpArgs false

/-! ## Reading -/

/-- The change leaves what is read -/
structure Mild (g : Elem → Elem) : Prop where
  tag : ∀ e, (g e).tag = e.tag
  attrs : ∀ e, (g e).attrs = e.attrs
  text : ∀ e, Txt.ostr (g e).text = Txt.ostr e.text
  tail : ∀ e, Txt.ostr (g e).tail = Txt.ostr e.tail

theorem mild_anon : Mild anon := ⟨fun _ => rfl, fun _ => rfl, fun _ => rfl, fun _ => rfl⟩
theorem mild_written : Mild Whole.written :=
  ⟨fun _ => rfl, fun _ => rfl, fun _ => ostr_noEmpty _, fun _ => ostr_noEmpty _⟩

theorem Mild.ws {g : Elem → Elem} (h : Mild g) (e : Elem) : Ws.plaintext (g e) = Ws.plaintext e := by
  have h6 : (g e).text.getD [] = e.text.getD [] := by
    have h1 := h.text e
    have h2 : ∀ x : Option Str, Txt.ostr x = x.getD [] := by intro x; cases x <;> rfl
    rw [h2, h2] at h1
    exact h1
  unfold Ws.plaintext Ws.spacesCount Elem.get
  rw [h6, h.tag, h.attrs]

theorem Mild.elemText {g : Elem → Elem} (h : Mild g) (e : Elem) (l : List Txt.Part) :
    Txt.elemText (g e) l = Txt.elemText e l := by
  unfold Txt.elemText
  rw [h.tag, h.text, h.ws]

theorem Mild.parts {g : Elem → Elem} (h : Mild g) (F : Forest) : Txt.parts (F.map g) = Txt.parts F := by
  induction F with
  | nil => rfl
  | cons e k r ihk ihr => simp only [Forest.map, Txt.parts, ihk, ihr, h.tag, h.tail, h.elemText]

theorem Mild.plaintext {g : Elem → Elem} (h : Mild g) (t : Tree) : Txt.plaintext (mapT g t) = Txt.plaintext t := by
  unfold Txt.plaintext mapT
  rw [h.elemText, h.parts]

theorem Mild.elemLen {g : Elem → Elem} (h : Mild g) (e : Elem) (l : List Txt.LPart) :
    Txt.elemLen (g e) l = Txt.elemLen e l := by
  unfold Txt.elemLen Txt.safelen Ws.spacesCount Elem.get
  rw [h.tag, h.text, h.attrs]

theorem Mild.lparts {g : Elem → Elem} (h : Mild g) (F : Forest) : Txt.lparts (F.map g) = Txt.lparts F := by
  induction F with
  | nil => rfl
  | cons e k r ihk ihr => simp only [Forest.map, Txt.lparts, ihk, ihr, Txt.safelen, h.tail, h.elemLen]

theorem Mild.textlen {g : Elem → Elem} (h : Mild g) (t : Tree) : Txt.textlen (mapT g t) = Txt.textlen t := by
  unfold Txt.textlen mapT
  rw [h.elemLen, h.lparts]

/-- The two elements have the same tag and attributes and read the same. -/
structure Same (t t' : Tree) : Prop where
  tag : t'.1.tag = t.1.tag
  attrs : t'.1.attrs = t.1.attrs
  plaintext : Txt.plaintext t' = Txt.plaintext t
  textlen : Txt.textlen t' = Txt.textlen t

theorem same_of {g g' : Elem → Elem} (h : Mild g) (h' : Mild g') {t t' : Tree} (he : mapT g' t' = mapT g t) : Same t t' :=
  ⟨by rw [← h.tag t.1, ← h'.tag t'.1]; exact congrArg (fun u : Tree => u.1.tag) he,
   by rw [← h.attrs t.1, ← h'.attrs t'.1]; exact congrArg (fun u : Tree => u.1.attrs) he,
   by rw [← h.plaintext t, ← h'.plaintext t', he], by rw [← h.textlen t, ← h'.textlen t', he]⟩

theorem same_file {t t' : Tree} (h : data t' = shape t) : Same t t' :=
  same_of mild_written mild_anon (by rw [← data_anon, h]; rfl)

theorem same_data {t t' : Tree} (h : data t' = data t) : Same t t' :=
  same_of mild_anon mild_anon (by rw [← data_anon, h, data_anon])

/-- The element at the end of a path of child numbers -/
def at_ (t : Tree) : List Nat → Option Tree
  | [] => some t
  | i :: path => t.2.toList[i]?.bind fun u => at_ u path

theorem at_mapT (g : Elem → Elem) (path : List Nat) (t : Tree) : at_ (mapT g t) path = (at_ t path).map (mapT g) := by
  induction path generalizing t with
  | nil => rfl
  | cons i path ih =>
    unfold at_
    show ((t.2.map g).toList)[i]?.bind _ = _
    rw [toList_map, List.getElem?_map]
    cases t.2.toList[i]? with
    | none => rfl
    | some u => exact ih u

theorem at_file {t t' : Tree} (h : data t' = shape t) (path : List Nat) :
    (at_ t path = none → at_ t' path = none) ∧
    ∀ u, at_ t path = some u → ∃ u', at_ t' path = some u' ∧ data u' = shape u := by
  have h1 : (at_ t' path).map (mapT anon) = (at_ t path).map (mapT Whole.written) := by
    rw [← at_mapT, ← at_mapT, ← data_anon, h]; rfl
  refine ⟨fun hn => ?_, fun u hu => ?_⟩
  · rw [hn] at h1
    simpa using h1
  · rw [hu] at h1
    obtain ⟨u', h2, h3⟩ := Option.map_eq_some_iff.mp h1
    exact ⟨u', h2, by rw [data_anon, h3]; rfl⟩

/-! ## The document but for the content of the body -/

/-- The forest without what is in the element `b` -/
def hole (b : Nat) (G : Forest) : Forest := G.subst b fun e _ => single (e, .nil)

theorem hole_nodes {W W' : World} (hn : (ids W).Nodup) (hn' : (ids W').Nodup) {P : Nat → Prop} {b : Nat}
    (hd : ∀ q e l x, node W q = some (e, l) → x ∈ l → P q → q ≠ b → P x)
    (hs : ∀ q, P q → q ≠ b → node W' q = node W q)
    (hb : (node W' b).map Prod.fst = (node W b).map Prod.fst) : ∀ {k k' : Forest},
    roots k' = roots k → (∀ u ∈ k.toList, find u.1.id W = some u) → (∀ u ∈ k'.toList, find u.1.id W' = some u) →
    (ids k).Nodup → (ids k').Nodup → (∀ x ∈ roots k, P x) → hole b k' = hole b k
  | .nil, .nil, _, _, _, _, _, _ => rfl
  | .nil, .cons _ _ _, h, _, _, _, _, _ => by simp at h
  | .cons _ _ _, .nil, h, _, _, _, _, _ => by simp at h
  | .cons e k r, .cons e' k' r', h, h1, h2, h3, h4, h5 => by
    simp only [roots_cons, List.cons.injEq] at h
    have f1 : find e.id W = some (e, k) := h1 (e, k) (by simp)
    have f2 : find e'.id W' = some (e', k') := h2 (e', k') (by simp)
    simp only [ids, List.nodup_cons, List.nodup_append, List.mem_append, not_or] at h3 h4
    have hr : hole b r' = hole b r := hole_nodes hn hn' hd hs hb h.2 (fun u hu => h1 u (by simp [hu]))
      (fun u hu => h2 u (by simp [hu])) h3.2.2.1 h4.2.2.1 (fun x hx => h5 x (by simp [hx]))
    by_cases he : e.id = b
    · have hr0 : ∀ {G : Forest}, b ∉ ids G → hole b G = G := fun hg => subst_not_mem _ hg
      have e1 : hole b (.cons e k r) = .cons e .nil r := by
        unfold hole; simp only [subst, if_pos he]; rfl
      have e2 : hole b (.cons e' k' r') = .cons e' .nil r' := by
        unfold hole; simp only [subst, if_pos (h.1.trans he)]; rfl
      rw [hr0 (G := r) (by rw [← he]; exact h3.1.2), hr0 (G := r') (by rw [← he, ← h.1]; exact h4.1.2)] at hr
      rw [← he, node_of_find f1, ← h.1, node_of_find f2] at hb
      simp only [Option.map_some, Option.some.injEq] at hb
      rw [e1, e2, hr, hb]
    · have hP := h5 e.id (by simp)
      have h6 := hs e.id hP he
      rw [node_of_find f1, ← h.1, node_of_find f2] at h6
      simp only [Option.some.injEq, Prod.mk.injEq] at h6
      have hk : hole b k' = hole b k := hole_nodes hn hn' hd hs hb h6.2 (fun u hu => child_find hn f1 hu)
        (fun u hu => child_find hn' f2 hu) h3.2.1 h4.2.1 (fun x hx => hd e.id e _ x (node_of_find f1) hx hP he)
      have e1 : hole b (.cons e k r) = .cons e (hole b k) (hole b r) := by
        unfold hole; simp only [subst, if_neg he]
      have e2 : hole b (.cons e' k' r') = .cons e' (hole b k') (hole b r') := by
        unfold hole; simp only [subst, if_neg (show ¬ e'.id = b by rw [h.1]; exact he)]
      rw [e1, e2, hr, hk, h6.1]

/-- What holds of a change that does not touch the document but for the content of its body -/
structure Firm (F : Nat → Prop) (W W' : World) (tag : String) (d : Parts.DocTree) : Prop where
  kept : Kept F W' tag d
  same : ∀ q, F q → q ≠ d.body.node → node W' q = node W q
  body : open Classical in (node W' d.body.node).map (fun u => (u.1, u.2.filter fun x => decide (F x))) =
    (node W d.body.node).map fun u => (u.1, u.2.filter fun x => decide (F x))

theorem Step.firm {F : Nat → Prop} {W W' : World} {tag : String} {d : Parts.DocTree} (h : Step F W W' tag d) :
    Firm F W W' tag d := ⟨h.kept, h.same, h.body⟩

theorem Firm.content {F : Nat → Prop} {W W' : World} {tag : String} {d : Parts.DocTree} (h : Kept F W tag d)
    (g : Firm F W W' tag d) {p : Nat} (hp : F p) {t : Tree} (ht : find p W = some t) : ∃ t', find p W' = some t' ∧
      hole d.body.node (single t') = hole d.body.node (single t) := by
  obtain ⟨t', ht'⟩ := find_some_of_mem (g.kept.mem p hp)
  have i1 := (find_mem_ids ht).1
  have i2 := (find_mem_ids ht').1
  refine ⟨t', ht', hole_nodes h.once g.kept.once (P := F) h.down g.same ?_ ?_ ?_ ?_ (nodup_tree h.once ht)
    (nodup_tree g.kept.once ht') ?_⟩
  · have := congrArg (Option.map Prod.fst) g.body
    simpa [Option.map_map, Function.comp_def] using this
  · simp [single, i1, i2]
  · intro u hu
    obtain rfl : u = t := by simpa [single] using hu
    rw [i1]; exact ht
  · intro u hu
    obtain rfl : u = t' := by simpa [single] using hu
    rw [i2]; exact ht'
  · intro x hx
    obtain rfl : x = p := by simpa [single, i1] using hx
    exact hp

/-- A tree of the frame beside the body is the same. -/
theorem Firm.tree {F : Nat → Prop} {W W' : World} {tag : String} {d : Parts.DocTree} (h : Kept F W tag d)
    (g : Firm F W W' tag d) {p : Nat} (hp : F p) {t : Tree} (ht : find p W = some t) (hb : d.body.node ∉ ids (single t)) :
    find p W' = some t := by
  refine tree_of_nodes h.once g.kept.once ht fun q hq => ?_
  have key : ∀ q ∈ ids (single t), F q := by
    refine closed_tree h.once (single t) (fun u hu => ?_) (fun q hq e l x hl hx hf => ?_) (fun x hx => ?_)
    · obtain rfl : u = t := by simpa [single] using hu
      rw [(find_mem_ids ht).1]; exact ht
    · refine h.down q e l x hl hx hf ?_
      rintro rfl
      exact hb hq
    · obtain rfl : x = p := by simpa [single, (find_mem_ids ht).1] using hx
      exact hp
  exact g.same q (key q hq) fun he => hb (he ▸ hq)

/-- The containers of declarations in the body, in their order -/
def decls (W : World) (b : Nat) : List Tree :=
  match find b W with
  | none => []
  | some t => t.2.toList.filter fun u => decide (u.1.tag ∈ declTags)

open Classical in
theorem decls_eq {F : Nat → Prop} {W : World} {tag : String} {d : Parts.DocTree} (h : Kept F W tag d) {b : Tree}
    (hb : find d.body.node W = some b) : (decls W d.body.node).map (fun u => u.1.id) =
      (roots b.2).filter fun x => decide (F x) := by
  unfold decls
  rw [hb]
  simp only [roots]
  rw [List.filter_map]
  congr 1
  refine List.filter_congr fun u hu => ?_
  have hx : u.1.id ∈ roots b.2 := List.mem_map_of_mem hu
  have h1 := h.free _ _ _ (node_of_find hb) hx
  have h2 : Parts.tagAt W u.1.id = some u.1.tag := tagAt_find (child_find h.once hb hu)
  simp only [Function.comp_apply, decide_eq_decide]
  rw [← not_iff_not, h1, h2]
  simp only [ne_eq, Option.some.injEq]
  exact ⟨fun h t ht he => h (he ▸ ht), fun h ht => h _ ht rfl⟩

open Classical in
theorem Firm.decls {F : Nat → Prop} {W W' : World} {tag : String} {d : Parts.DocTree} (h : Kept F W tag d)
    (g : Firm F W W' tag d) : decls W' d.body.node = decls W d.body.node := by
  have hF := h.frame d.body.node (by simp)
  obtain ⟨b, hb⟩ := find_some_of_mem (h.mem _ hF)
  obtain ⟨b', hb'⟩ := find_some_of_mem (g.kept.mem _ hF)
  have h1 := decls_eq h hb
  have h2 := decls_eq g.kept hb'
  have h3 := g.body
  rw [node_of_find hb, node_of_find hb'] at h3
  simp only [Option.map_some, Option.some.injEq, Prod.mk.injEq] at h3
  have h4 : (TextProg.decls W' d.body.node).map (fun u => u.1.id) = (TextProg.decls W d.body.node).map fun u => u.1.id := by
    rw [h1, h2]
    have := h3.2
    convert this
  have hmem : ∀ {W : World}, Kept F W tag d → ∀ u ∈ TextProg.decls W d.body.node, find u.1.id W = some u ∧ F u.1.id := by
    intro W h u hu
    obtain ⟨b, hb⟩ := find_some_of_mem (h.mem _ hF)
    have h1 := decls_eq h hb
    have : u.1.id ∈ (roots b.2).filter fun x => decide (F x) := by rw [← h1]; exact List.mem_map_of_mem hu
    refine ⟨?_, by simpa using (List.mem_filter.mp this).2⟩
    unfold TextProg.decls at hu
    rw [hb] at hu
    exact child_find h.once hb (List.mem_filter.mp hu).1
  have hroot : ∀ u ∈ TextProg.decls W d.body.node, d.body.node ∉ ids (single u) := by
    intro u hu hin
    unfold TextProg.decls at hu
    rw [hb] at hu
    have := (kids_nodup h.once hb).1
    exact this (tree_sub (List.mem_filter.mp hu).1 hin)
  have e1 : (TextProg.decls W' d.body.node).map some =
      ((TextProg.decls W' d.body.node).map fun u => u.1.id).map fun x => find x W' := by
    rw [List.map_map]
    exact List.map_congr_left fun u hu => (hmem g.kept u hu).1.symm
  have e2 : (TextProg.decls W d.body.node).map some =
      ((TextProg.decls W d.body.node).map fun u => u.1.id).map fun x => find x W' := by
    rw [List.map_map]
    exact List.map_congr_left fun u hu => (Firm.tree h g (hmem h u hu).2 (hmem h u hu).1 (hroot u hu)).symm
  rw [h4, ← e2] at e1
  exact List.map_injective_iff.mpr (fun _ _ h => Option.some.inj h) e1

theorem Step.content {F : Nat → Prop} {W W' : World} {tag : String} {d : Parts.DocTree} (h : Kept F W tag d)
    (g : Step F W W' tag d) {p : Nat} (hp : F p) {t : Tree} (ht : find p W = some t) : ∃ t', find p W' = some t' ∧
      hole d.body.node (single t') = hole d.body.node (single t) := Firm.content h g.firm hp ht

theorem Step.tree {F : Nat → Prop} {W W' : World} {tag : String} {d : Parts.DocTree} (h : Kept F W tag d)
    (g : Step F W W' tag d) {p : Nat} (hp : F p) {t : Tree} (ht : find p W = some t) (hb : d.body.node ∉ ids (single t)) :
    find p W' = some t := Firm.tree h g.firm hp ht hb

theorem Step.decls {F : Nat → Prop} {W W' : World} {tag : String} {d : Parts.DocTree} (h : Kept F W tag d)
    (g : Step F W W' tag d) : TextProg.decls W' d.body.node = TextProg.decls W d.body.node := Firm.decls h g.firm

end Verif.TextProg
