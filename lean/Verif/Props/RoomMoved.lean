import Verif.Props.Room
/-! # C87: what is moved, and what is left as it was -/
namespace Verif.Room
open Verif Verif.Lxml Forest Verif.Whole Verif.Document
open Verif.TextProg (Kept Loose Step Fits Place)
open Verif.Desk (Act Held Beside newIn kids_in roots_apart body_in made_beside)
set_option linter.unusedSimpArgs false

variable {L : XLib} {pick : Nat → List Nat → Nat}

/-! ## Trees that a statement does not work on -/

/-- The numbers of the objects that a statement uses -/
def objsOf : Act → List Nat
  | .act _ a => View.pageUses a
  | _ => []

/-- The statement does not work on the tree `r` of the memory: it is no tree of the document of the statement, and no object
that the statement uses is in it. -/
def Away (R : Room) (r : Nat) (a : Act) : Prop :=
  (∀ (i : Nat) s, a.doc = some i → R.docs[i]? = some s → r ∉ [s.tree.styles.root, s.tree.content.root]) ∧
  ∀ k ∈ objsOf a, ∀ n, R.objs[k]? = some n → ∀ t, find r R.world = some t → n ∉ ids (single t)

theorem tree_up {W : World} (hn : (ids W).Nodup) {r : Nat} {t : Tree} (hr : r ∈ Lxml.roots W) (ht : find r W = some t) {q x : Nat}
    {e : Elem} {l : List Nat} (hq : node W q = some (e, l)) (hx : x ∈ l) (h : x ∈ ids (single t)) : q ∈ ids (single t) := by
  obtain ⟨k, hk, rfl⟩ := find_of_node hq
  have hid := (find_mem_ids ht).1
  refine TextProg.parent_in hn hk hx (by rw [hid]; exact ht) h ?_
  rw [hid]
  rintro rfl
  exact child_not_root hn hk (roots_sub hx) hr

/-- A root that belongs to the frame stays a root. -/
theorem root_stays {F : Nat → Prop} {W W' : World} {tag : String} {d : Parts.DocTree} (hk : Kept F W tag d)
    (hs : Step F W W' tag d) {r : Nat} (hF : F r) (hr : r ∈ Lxml.roots W) : r ∈ Lxml.roots W' := by
  by_contra hno
  obtain ⟨q, u, hu, hm⟩ := exists_parent hs.kept.once (hs.kept.mem r hF) hno
  have hnode := node_of_find hu
  have key : ∃ e l, node W q = some (e, l) ∧ r ∈ l := by
    by_cases hb : q = d.body.node
    · subst hb
      have h1 := hs.body
      rw [hnode] at h1
      cases hq0 : node W d.body.node with
      | none => rw [hq0] at h1; cases h1
      | some v =>
        rw [hq0] at h1
        simp only [Option.map_some, Option.some.injEq, Prod.mk.injEq] at h1
        have hx : r ∈ (Lxml.roots u.2).filter (fun x => @decide (F x) (Classical.propDecidable _)) :=
          List.mem_filter.mpr ⟨hm, by simpa using hF⟩
        rw [h1.2] at hx
        exact ⟨v.1, v.2, rfl, (List.mem_filter.mp hx).1⟩
    · exact ⟨_, _, (hs.same q (hs.kept.up _ _ _ _ hnode hm hF) hb).symm.trans hnode, hm⟩
  obtain ⟨e, l, hl, hx⟩ := key
  obtain ⟨k, hk', rfl⟩ := find_of_node hl
  exact child_not_root hk.once hk' (roots_sub hx) hr

/-- **C87**, one statement: a tree of the memory that the statement does not work on, in a document or not, is as it was. -/
theorem C87_away (hlaw : L.Lawful) (hpick : ∀ k l, pick k l ∉ l) {R : Room} (h : OK L R) {a : Act} (ha : Allowed R a) {r : Nat}
    (hr : r ∈ Lxml.roots R.world) (hw : Away R r a) :
    find r (exec L pick a R).1.world = find r R.world ∧ r ∈ Lxml.roots (exec L pick a R).1.world := by
  obtain ⟨t, ht⟩ := find_some_of_mem (roots_sub hr)
  have hdoc : ∀ {i : Nat} {m : Py PageProg.Prog Unit},
      (∀ s, R.docs[i]? = some s → (m (seen R s)).1.text.session.world = R.world) →
      find r (onDoc i m R).1.world = find r R.world ∧ r ∈ Lxml.roots (onDoc i m R).1.world := by
    intro i m hm
    cases hi : R.docs[i]? with
    | none => rw [onDoc_none hi]; exact ⟨rfl, hr⟩
    | some s =>
      rw [onDoc_some hi]
      show find r (m (seen R s)).1.text.session.world = _ ∧ r ∈ Lxml.roots (m (seen R s)).1.text.session.world
      rw [hm s hi]
      exact ⟨rfl, hr⟩
  have hadd : ∀ {k : Clock} {fm : Package.FM} {mt : Option Str} {s : Session}, packagedWhole L R.fs k fm mt R.world = .ok s →
      find r s.world = find r R.world ∧ r ∈ Lxml.roots s.world := by
    intro k fm mt s hs
    obtain ⟨b, -, -⟩ := made_beside hlaw h.once hs
    refine ⟨?_, b.roots r hr⟩
    rw [ht]
    exact tree_of_nodes h.once b.once ht fun q hq => b.same q ((find_sub ht).subset hq)
  cases a with
  | act i a =>
    show find r (onDoc i (PageProg.exec pick a) R).1.world = _ ∧ r ∈ Lxml.roots (onDoc i (PageProg.exec pick a) R).1.world
    cases hi : R.docs[i]? with
    | none => rw [onDoc_none hi]; exact ⟨rfl, hr⟩
    | some s =>
      rw [onDoc_some hi]
      show find r (PageProg.exec pick a (seen R s)).1.text.session.world = _ ∧
        r ∈ Lxml.roots (PageProg.exec pick a (seen R s)).1.text.session.world
      obtain ⟨F, hF, -⟩ := h.docs
      obtain ⟨tag, h1, h2, h3⟩ := hF i s hi
      have hroot : r ∉ [s.tree.styles.root, s.tree.content.root] := hw.1 i s rfl hi
      have hb : s.tree.body.node ∉ ids (single t) := by
        intro hin
        obtain ⟨c, hc⟩ := find_some_of_mem (h2.kept.mem _ (h2.kept.frame s.tree.content.root (by simp)))
        refine roots_apart h.once (h2.roots s.tree.content.root (by simp)) hr ?_ hc ht (body_in h2.kept hc) hin
        rintro rfl
        exact hroot (by simp)
      have hk := kept_union h2.kept (T := fun x => x ∈ ids (single t)) (fun x hx => (find_sub ht).subset hx)
        (fun q e l x hq hx hT => tree_up h.once hr ht hq hx hT) (fun q e l x hq hx hT => kids_in h.once ht hT hq hx) hb
      have hs := View.page_sent hpick (P := seen R s) (a := a) ⟨hk, fun k hk' n hn => ?_, .inl rfl⟩ h.inv
        (fun b hb => PageProg.pages_body (F := F i) (tag := tag) (p := seen R s) ⟨h2.kept, h3⟩ hb) (ha s hi)
      · have hsame : ∀ q ∈ ids (single t), node (PageProg.exec pick a (seen R s)).1.text.session.world q = node R.world q :=
          fun q hq => hs.step.same q (.inr hq) fun e => hb (e ▸ hq)
        refine ⟨?_, ?_⟩
        · rw [ht]
          exact tree_of_nodes h.once hs.step.kept.once ht hsame
        · exact root_stays hk hs.step (.inr (by simp [(find_mem_ids ht).1])) hr
      · have hl := h3 n (List.mem_of_getElem? hn)
        exact ⟨hl.mem, fun hf => hf.elim hl.free (hw.2 k hk' n hn t ht), hl.tag⟩
  | data i o => exact hdoc fun s hi => rfl
  | file i n x ty now => exact hdoc fun s hi => rfl
  | name i f => exact hdoc fun s hi => rfl
  | save i env k backup => exact hdoc fun s hi => (C69_frame L env k backup (s := put R s) rfl).1
  | saveas i env k backup f =>
    exact hdoc fun s hi => (C69_frame L env k backup (s := { put R s with docname := some f }) rfl).1
  | open_ k src =>
    simp only [exec]
    cases hs : openWhole L R.fs k src R.world with
    | error e => exact ⟨rfl, hr⟩
    | ok s =>
      unfold openWhole at hs
      split at hs
      · cases hs
      · split at hs
        · cases hs
        · exact hadd hs
  | new k mt =>
    simp only [exec]
    cases hs : newIn L R.fs k mt R.world with
    | error e => exact ⟨rfl, hr⟩
    | ok s =>
      unfold newIn at hs
      split at hs
      · cases hs
      · exact hadd hs

/-! ## The tree that an object is taken from -/

/-- A tree without the element `c` and all that is in it -/
def cut (c : Nat) : Forest → Forest
  | .nil => .nil
  | .cons e k r => if e.id = c then cut c r else .cons e (cut c k) (cut c r)

theorem cut_none {c : Nat} {f : Forest} (h : c ∉ ids f) : cut c f = f := by
  induction f with
  | nil => rfl
  | cons e k r ihk ihr =>
    simp only [ids, List.mem_cons, List.mem_append, not_or] at h
    unfold cut
    rw [if_neg (Ne.symm h.1), ihk h.2.1, ihr h.2.2]

theorem detach_cut {c : Nat} {f : Forest} (hn : (ids f).Nodup) : detach c f = cut c f := by
  unfold detach
  induction f with
  | nil => rfl
  | cons e k r ihk ihr =>
    simp only [ids, List.nodup_cons, List.nodup_append, List.mem_append, not_or] at hn
    unfold subst cut
    by_cases he : e.id = c
    · simp only [if_pos he]
      rw [cut_none (by rw [← he]; exact hn.1.2)]
      rfl
    · simp only [if_neg he]
      rw [ihk hn.2.1, ihr hn.2.2.1]

theorem find_cut {c r : Nat} {f : Forest} (hn : (ids f).Nodup) (h : ∀ u, find c f = some u → r ∉ ids (single u)) (hne : r ≠ c) :
    find r (cut c f) = (find r f).map fun t => (t.1, cut c t.2) := by
  induction f with
  | nil => rfl
  | cons e k g ihk ihg =>
    simp only [ids, List.nodup_cons, List.nodup_append, List.mem_append, not_or] at hn
    obtain ⟨⟨n1, n2⟩, n3, n4, n5⟩ := hn
    rw [show cut c (.cons e k g) = if e.id = c then cut c g else .cons e (cut c k) (cut c g) from rfl]
    by_cases he : e.id = c
    · rw [if_pos he]
      have hk : r ∉ ids k := by
        have := h (e, k) (by unfold find; rw [if_pos he])
        simp only [ids_single, List.mem_cons, not_or] at this
        exact this.2
      have hcg : c ∉ ids g := by rw [← he]; exact n2
      rw [cut_none hcg]
      have : find r (.cons e k g) = find r g := by
        rw [find, if_neg (by rw [he]; exact Ne.symm hne), find_none.mpr hk]
      rw [this]
      cases hg : find r g with
      | none => rfl
      | some t =>
        have hct : c ∉ ids t.2 := fun hc => hcg ((find_sub hg).subset (by simp [hc]))
        simp only [Option.map_some]
        rw [cut_none hct]
    · rw [if_neg he]
      by_cases hr : e.id = r
      · rw [find, find, if_pos hr, if_pos hr]; rfl
      · rw [find, find, if_neg hr, if_neg hr]
        have hk := ihk n3 fun u hu => h u (by rw [find, if_neg he, hu])
        rw [hk]
        cases hfk : find r k with
        | some t => rfl
        | none =>
          simp only [Option.map_none]
          refine ihg n4 fun u hu => h u ?_
          rw [find, if_neg he]
          have : c ∉ ids k := fun hc => n5 c hc c (find_mem_ids hu).2 rfl
          rw [find_none.mpr this]
          exact hu

/-- A tree that does not have the new parent and is not in the object is what it was, without the object. -/
theorem moved_cut {W W' : World} (hn : (ids W).Nodup) {c p r : Nat} {l : List Nat} (hm : Moved W W' c p l) {t u : Tree}
    (hc : find c W = some u) (ht : find r W = some t) (hr : r ∉ ids (single u)) (hp : p ∉ ids (single t)) :
    find r W' = some (t.1, cut c t.2) := by
  have hid := (find_mem_ids hc).1
  have hne : r ≠ c := by rintro rfl; exact hr (by simp [hid])
  have hfc : find r (detach c W) = some (t.1, cut c t.2) := by
    rw [detach_cut hn, find_cut hn (fun v hv => by rw [hc] at hv; cases hv; exact hr) hne, ht]; rfl
  obtain ⟨d1, d2, d3, d4⟩ := detach_all hn hc
  have dn : (ids (detach c W)).Nodup := (List.nodup_append.mp d2).2.1
  have hcut : ∀ f, ∀ x ∈ ids (cut c f), x ∈ ids f := by
    intro f
    induction f with
    | nil => exact fun x hx => hx
    | cons e k g ihk ihg =>
      intro x hx
      unfold cut at hx
      split at hx
      · simp [ids, ihg x hx]
      · simp only [ids, List.mem_cons, List.mem_append] at hx ⊢
        exact hx.imp_right (Or.imp (ihk x) (ihg x))
  refine tree_of_nodes dn hm.once hfc fun q hq => ?_
  have hqt : q ∈ ids (single t) := by
    simp only [ids_single, List.mem_cons] at hq ⊢
    exact hq.imp_right (hcut _ q)
  have hqd : q ∈ ids (detach c W) := (find_sub hfc).subset hq
  have hqu : q ∉ ids (single u) := fun h => (List.nodup_append.mp d2).2.2 q h q hqd rfl
  have hqp : q ≠ p := by rintro rfl; exact hp hqt
  rw [d4 q hqu]
  have h1 := hm.others q hqp
  have h2 := hm.data q
  rw [children_node, children_node] at h1
  rw [content_node, content_node] at h2
  revert h1 h2
  rcases node W' q with _ | ⟨e', l'⟩ <;> rcases node W q with _ | ⟨e, l⟩ <;>
    simp only [Option.map_none, Option.map_some, reduceCtorEq, false_implies, implies_true, Option.some.injEq, Prod.mk.injEq]
  intro e1 e2
  exact ⟨e2, e1⟩

/-- The object itself is what it was. -/
theorem moved_self {W W' : World} (hn : (ids W).Nodup) {c p : Nat} {l : List Nat} (hm : Moved W W' c p l) {u : Tree}
    (hc : find c W = some u) (hp : p ∉ ids (single u)) : find c W' = some u := by
  have hid := (find_mem_ids hc).1
  have hnu := (find_sub hc).nodup hn
  refine tree_of_nodes hn hm.once hc fun q hq => ?_
  have hqp : q ≠ p := by rintro rfl; exact hp hq
  obtain ⟨e, k, hk⟩ := TextProg.node_some ((find_sub hc).subset hq)
  have hck : c ∉ k := by
    intro hin
    obtain ⟨g, hg, rfl⟩ := find_of_node hk
    rw [find_in hn hc hq] at hg
    have h1 : c ∈ ids u.2 := by
      by_cases hqc : q = c
      · subst hqc
        rw [single, find, if_pos hid] at hg
        cases hg
        exact roots_sub hin
      · have hg' : find q u.2 = some (e, g) := by
          rw [single, find, if_neg (by rw [hid]; exact Ne.symm hqc)] at hg
          cases hf : find q u.2 with
          | none => rw [hf] at hg; simp [find] at hg
          | some v => rw [hf] at hg; exact hg
        exact (find_sub hg').subset (by simp [roots_sub hin])
    simp only [ids_single, hid, List.nodup_cons] at hnu
    exact hnu.1 h1
  have h1 := hm.others q hqp
  have h2 := hm.data q
  rw [children_node, children_node, hk] at h1
  rw [content_node, content_node, hk] at h2
  have hless : less c k = k := by
    unfold less
    rw [List.filter_eq_self]
    intro a ha
    simp only [ne_eq, decide_eq_true_eq]
    rintro rfl
    exact hck ha
  revert h1 h2
  rw [hk]
  rcases node W' q with _ | ⟨e', l'⟩ <;>
    simp only [Option.map_none, Option.map_some, reduceCtorEq, false_implies, implies_true, Option.some.injEq, Prod.mk.injEq]
  intro e1 e2
  exact ⟨e2, e1.trans hless⟩

/-- What moving an object into the body of a document does to it and to all other trees: the object is what it was, and it
has been taken out of the tree that it was in. -/
structure Taken (W W' : World) (n : Nat) (d : Parts.DocTree) : Prop where
  object : find n W' = find n W
  others : ∀ r ∈ Lxml.roots W, r ≠ n → r ≠ d.content.root → find r W' = (find r W).map fun t => (t.1, cut n t.2)

theorem moved_taken {R : Room} (h : OK L R) {i : Nat} {s : Session} (hi : R.docs[i]? = some s) {n : Nat} (ho : n ∈ R.objs)
    {W' : World} {l : List Nat} (hm : Moved R.world W' n s.tree.body.node l) : Taken R.world W' n s.tree := by
  obtain ⟨F, hF, -⟩ := h.docs
  obtain ⟨tag, h1, h2, h3⟩ := hF i s hi
  have hl := h3 n ho
  obtain ⟨u, hu⟩ := find_some_of_mem hl.mem
  have hid := (find_mem_ids hu).1
  refine ⟨?_, fun r hr hne hnc => ?_⟩
  · rw [hu]
    refine moved_self h.once hm hu fun hin => ?_
    exact h2.kept.outside hl.free hu _ hin (h2.kept.frame _ (by simp))
  · obtain ⟨t, ht⟩ := find_some_of_mem (roots_sub hr)
    rw [ht]
    refine moved_cut h.once hm hu ht ?_ fun hin => ?_
    · simp only [ids_single, List.mem_cons, not_or]
      exact ⟨by rw [hid]; exact hne, fun hin => child_not_root h.once hu hin hr⟩
    · obtain ⟨c, hc⟩ := find_some_of_mem (h2.kept.mem _ (h2.kept.frame s.tree.content.root (by simp)))
      exact roots_apart h.once (h2.roots s.tree.content.root (by simp)) hr (Ne.symm hnc) hc ht (body_in h2.kept hc) hin

/-- **C87**, `docs[i].body.append(object)` with any object of the program, which may be in another document: the object, with
all that is in it, is put into the body before the elements at its end, and it is gone from where it was; all other trees
are as they were. -/
theorem C87_moved {R : Room} (h : OK L R) {i : Nat} {s : Session} (hi : R.docs[i]? = some s)
    (hb : MIMETYPE_BODYTAG_MAP.get s.mimetype = some "office:text") {k n : Nat} (hk : R.objs[k]? = some n) {l : List Nat}
    (hl : children R.world s.tree.body.node = some l) : ∃ W' before after,
      exec L pick (.act i (.text (.append none k))) R =
        ({ R with world := W', docs := R.docs.set i (put { R with world := W' } s) }, .ok ()) ∧
      l = before ++ after ∧ children W' s.tree.body.node = some (less n before ++ n :: less n after) ∧
      Block.OrderedBlock (fun x => (Parts.tagAt R.world x).getD "") Tags.TEXT_EPILOGUE after ∧
      (∀ a b, l = a ++ b → Block.OrderedBlock (fun x => (Parts.tagAt R.world x).getD "") Tags.TEXT_EPILOGUE b →
        b.length ≤ after.length) ∧
      Taken R.world W' n s.tree := by
  obtain ⟨p', before, after, e1, e2, e3, e4, e5, e6, e7⟩ :=
    TextProg.C81_body_append (p := (seen R s).text) (C87_sound h hi).ok hb hk hl
  refine ⟨p'.world, before, after, ?_, e2, e3.there, e4, e5, moved_taken h hi (List.mem_of_getElem? hk) e3⟩
  have e8 : PageProg.exec pick (.text (.append none k)) (seen R s) = (⟨p', R.heap⟩, .ok ()) := by
    show PageProg.onText _ _ = _
    unfold PageProg.onText
    rw [e1]; rfl
  show onDoc i _ R = _
  unfold onDoc
  rw [hi]
  dsimp only
  rw [e8]
  dsimp only
  rw [e7, e6]
  rfl

/-- **C87**, `docs[i].pages.append(page)` with any page of the program, which may be a page of another document: it becomes
the last page, with all that is in it, and it is gone from where it was; all other trees are as they were. -/
theorem C87_page {R : Room} (h : OK L R) {i : Nat} {s : Session} (hi : R.docs[i]? = some s) {b : Nat}
    (hb : s.tree.pages = some b) {k n : Nat} (hk : R.objs[k]? = some n) (ht : Parts.tagAt R.world n = some "draw:page")
    {l : List Nat} (hl : children R.world b = some l) : ∃ W',
      exec L pick (.act i (.append k)) R =
        ({ R with world := W', docs := R.docs.set i (put { R with world := W' } s) }, .ok ()) ∧
      children W' b = some (less n l ++ [n]) ∧ Taken R.world W' n s.tree := by
  obtain ⟨W', e1, -, e3⟩ := (PageProg.C83_append (pick := pick) (p := seen R s) (C87_sound h hi) hb hk hl).1 ht
  have hbn : b = s.tree.body.node := by
    obtain ⟨F, tag, -, hfit⟩ := (C87_sound h hi).ok.fits
    exact PageProg.pages_body hfit hb
  refine ⟨W', ?_, e3.there, moved_taken h hi (List.mem_of_getElem? hk) (hbn ▸ e3)⟩
  show onDoc i _ R = _
  unfold onDoc
  rw [hi]
  dsimp only
  rw [e1]
  rfl

end Verif.Room
