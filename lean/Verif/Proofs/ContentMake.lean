import Verif.Proofs.ContentText
import Verif.Proofs.TableMove
/-! Helper lemmas for C81: the trees that the constructors of `text.py` and `ezlist` make, and where they are put. -/
namespace Verif.TextProg
open Verif Verif.Lxml Forest Verif.Whole Verif.Tbl
set_option linter.unusedSimpArgs false

variable {n : Nat} {t t' t1 t2 u : Tree} {W W' W1 W2 : World}

/-! ## Inserting -/

theorem ids_flat (G : Forest) : ids G = G.toList.flatMap fun u => ids (single u) := by
  induction G with
  | nil => rfl
  | cons e k r _ ih =>
    rw [toList, List.flatMap_cons, ← ih, ids_single]; rfl

theorem lxmlInsert_perm {α : Type} (l : List α) (i : Int) (x : α) : (Org.lxmlInsert l i x).Perm (x :: l) := by
  unfold Org.lxmlInsert
  cases pyIdx l.length i with
  | none => exact List.perm_append_singleton x l
  | some m =>
    refine List.perm_middle.trans ?_
    rw [List.take_append_drop]

/-- Trees that are put among the children of a node -/
theorem put_kids (hn : (ids W).Nodup) (h : find n W = some t) (h1 : (ids (single u)).Nodup)
    (h2 : ∀ i ∈ ids (single u), Parts.newId W ≤ i) {k : Forest} (hk : k.toList.Perm (u :: t.2.toList)) :
    Put n t (t.1, k) W (W.subst n fun _ _ => single (t.1, k)) := by
  have hp : (ids k).Perm (ids (single u) ++ ids t.2) := by
    rw [ids_flat k, ids_flat t.2]
    exact hk.flatMap_right _
  have hmem : ∀ x, x ∈ ids k ↔ x ∈ ids (single u) ∨ x ∈ ids t.2 := fun x => by
    rw [hp.mem_iff, List.mem_append]
  refine ⟨rfl, (find_mem_ids h).1, ?_, fun x hx => (hmem x).mpr (.inr hx), fun x hx => ?_⟩
  · show (ids k).Nodup
    rw [hp.nodup_iff, List.nodup_append]
    refine ⟨h1, (kids_nodup hn h).2, fun a ha b hb e => ?_⟩
    exact new_not (h2 a ha) (e ▸ (find_sub h).subset (by simp [hb]))
  · exact ((hmem x).mp hx).symm.imp_right (h2 x)

/-- A new tree that is in no other is inserted. -/
theorem insert_put (hn : (ids W).Nodup) (h : find n W = some t) (h1 : (ids (single u)).Nodup)
    (h2 : ∀ i ∈ ids (single u), Parts.newId W ≤ i) (i : Int) : ∃ W' k,
      Lxml.insert n i u.1.id (W ++ single u) = (W', .ok ()) ∧ Put n t (t.1, k) W W' ∧
      k.toList = Org.lxmlInsert t.2.toList i u := by
  obtain ⟨a1, a2, a3⟩ := nodup_add hn h1 h2
  have hnew : ∀ x ∈ ids (single u), x ∉ ids W := fun x hx hw => new_not (h2 x hx) hw
  have hlen : (roots t.2).length = t.2.toList.length := by simp [roots]
  have hget : Lxml.getitem n i (W ++ single u) = match pyIdx t.2.toList.length i with
      | none => (W ++ single u, .error .IndexError)
      | some m => match (roots t.2)[m]? with
        | none => (W ++ single u, .error .IndexError)
        | some s => (W ++ single u, .ok s) := by
    unfold Lxml.getitem
    rw [a3 n t h]
    simp only [hlen]
    cases pyIdx t.2.toList.length i <;> rfl
  cases hi : pyIdx t.2.toList.length i with
  | none =>
    obtain ⟨W', e1, e2⟩ := append_put hn h h1 h2
    rw [hi] at hget
    refine ⟨W', _, ?_, e2, ?_⟩
    · unfold Lxml.insert; rw [hget]; exact e1
    · unfold Org.lxmlInsert; rw [hi, toList_append]; rfl
  | some m =>
    have hm : m < t.2.toList.length := Tbl.pyIdx_lt hi
    rw [hi] at hget
    have hs : (roots t.2)[m]? = some (t.2.toList[m].1.id) := by
      unfold roots
      rw [List.getElem?_map, List.getElem?_eq_getElem hm]; rfl
    simp only [hs] at hget
    have hsp : t.2.toList = t.2.toList.take m ++ t.2.toList[m] :: t.2.toList.drop (m + 1) := by
      rw [← List.drop_eq_getElem_cons hm, List.take_append_drop]
    generalize hv : t.2.toList[m] = v at *
    have hvm : v ∈ t.2.toList := by rw [hsp]; simp
    have hvin : v.1.id ∈ ids t.2 := tree_sub hvm (by simp)
    have hno : Lxml.inTree u n = false := by
      unfold Lxml.inTree
      simpa using fun hm => hnew n hm (find_mem h)
    have hdet : detach u.1.id (W ++ single u) = W := by
      unfold detach
      rw [subst_app _ _ (hnew _ (by simp))]
      have : subst u.1.id (fun _ _ => Forest.nil) (single u) = .nil := by
        show subst u.1.id _ (.cons u.1 u.2 .nil) = _
        rw [subst, if_pos rfl]; rfl
      rw [this, app_nil]
    have hne : v.1.id ≠ u.1.id := fun he => hnew u.1.id (by simp) (he ▸ (find_sub h).subset (by simp [hvin]))
    have hk : (subst v.1.id (fun e k => single u ++ single (e, k)) t.2).toList = Org.lxmlInsert t.2.toList i u := by
      rw [subst_child (kids_nodup hn h).2 hsp]
      unfold Org.lxmlInsert
      rw [hi]
      simp only
      rw [List.drop_eq_getElem_cons hm, hv]
      rfl
    refine ⟨_, _, ?_, put_kids hn h h1 h2 (k := subst v.1.id (fun e k => single u ++ single (e, k)) t.2) ?_, hk⟩
    · unfold Lxml.insert
      rw [hget]
      simp only [a2, hno, hne, if_false, hdet]
      refine Prod.ext ?_ rfl
      show subst v.1.id _ W = _
      rw [subst_in hn h hvin]
      unfold mapKids
      exact subst_congr hn h _ _ rfl
    · rw [hk]; exact lxmlInsert_perm _ _ _

/-! ## Constructors -/

/-- A new tree beside the others -/
structure Made (W W' : World) (t : Tree) : Prop where
  world : W' = W ++ single t
  once : (ids (single t)).Nodup
  new : ∀ i ∈ ids (single t), Parts.newId W ≤ i

theorem Made.all (hn : (ids W).Nodup) (h : Made W W' t) : (ids W').Nodup ∧ find t.1.id W' = some t ∧
    (∀ q v, find q W = some v → find q W' = some v) ∧ ∀ x ∈ ids W, x ∈ ids W' := by
  obtain ⟨a1, a2, a3⟩ := nodup_add hn h.once h.new
  rw [h.world]
  exact ⟨a1, a2, a3, fun x hx => by rw [ids_app]; exact List.mem_append_left _ hx⟩

theorem Made.put (hn : (ids W).Nodup) (h : Made W W1 t) (hp : Put t.1.id t t' W1 W2) : Made W W2 t' ∧ t'.1.id = t.1.id := by
  obtain ⟨a1, a2, a3, a4⟩ := h.all hn
  obtain ⟨b1, b2, -⟩ := hp.find a1 a2
  have hid := hp.id
  refine ⟨⟨?_, ?_, ?_⟩, hid⟩
  · rw [hp.world, h.world, subst_app _ _ (new_not (h.new _ (by simp)))]
    have : subst t.1.id (fun _ _ => single t') (single t) = single t' := by
      show subst t.1.id _ (.cons t.1 t.2 .nil) = _
      rw [subst, if_pos rfl, app_nil]
    rw [this]
  · have := nodup_tree b1 b2; exact this
  · intro i hi
    simp only [ids_single, List.mem_cons] at hi
    rcases hi with rfl | hi
    · rw [hid]; exact h.new _ (by simp)
    · rcases hp.new i hi with h1 | h1
      · exact h.new i (by simp [h1])
      · exact Nat.le_trans (newId_mono a4) h1

/-- The trees of the action: the new tree has the given content. -/
def Makes (W : World) (m : Py World Nat) (e : Tree) : Prop :=
  ∃ W' t, m W = (W', .ok t.1.id) ∧ Made W W' t ∧ data t = data e

theorem newNode_makes (e : Elem) (W : World) : Makes W (newNode e) (e, .nil) :=
  ⟨_, ({ e with id := Parts.newId W }, .nil), rfl, ⟨rfl, by simp [ids], fun i hi => by simp [ids] at hi; omega⟩, rfl⟩

theorem Makes.bind (hn : (ids W).Nodup) {m : Py World Nat} {e : Tree} (h : Makes W m e) {f : Nat → Py World Nat} {e' : Tree}
    (hf : ∀ W1 t, Made W W1 t → (ids W1).Nodup → find t.1.id W1 = some t → data t = data e →
      ∃ W2 t', f t.1.id W1 = (W2, .ok t.1.id) ∧ Put t.1.id t t' W1 W2 ∧ data t' = data e') : Makes W (m >>= f) e' := by
  obtain ⟨W1, t, e1, m1, d1⟩ := h
  obtain ⟨b1, b2, -⟩ := m1.all hn
  obtain ⟨W2, t', f1, f2, f3⟩ := hf W1 t m1 b1 b2 d1
  obtain ⟨g1, g2⟩ := m1.put hn f2
  exact ⟨W2, t', by rw [Py.bind_ok e1, f1, g2], g1, f3⟩

/-- A change of the element of a tree -/
theorem amend_root (hn : (ids W).Nodup) (h : find n W = some t) {f : Elem → Elem} (hid : ∀ e, (f e).id = e.id) :
    ∃ W', Vars.amend n f W = (W', .ok ()) ∧ Put n t (f t.1, t.2) W W' := by
  obtain ⟨W', e1, e2⟩ := amend_put hn h (x := n) (by simp [(find_mem_ids h).1]) hid
  have : mapT (fun e => if e.id = n then f e else e) t = (f t.1, t.2) := by
    unfold mapT
    simp only [if_pos (find_mem_ids h).1]
    congr 1
    refine map_same _ fun e he => if_neg ?_
    rintro rfl
    exact (kids_nodup hn h).1 he
  rw [this] at e2
  exact ⟨W', e1, e2⟩

theorem data_root {t e : Tree} (h : data t = data e) {f : Elem → Elem} (hf : ∀ e, anon (f e) = f (anon e)) :
    data (f t.1, t.2) = data (f e.1, e.2) := by
  rw [data_anon, data_anon] at h ⊢
  unfold mapT at h ⊢
  simp only [Prod.mk.injEq] at h
  simp only [hf, h.1, h.2]

/-- The attribute that is given if the string is not empty -/
def giveAttr (k : String) (s : Str) (e : Elem) : Elem := if s.isEmpty then e else e.set k s

theorem set_anon (k : String) (s : Str) (e : Elem) : anon (e.set k s) = (anon e).set k s := rfl

theorem give_put (hn : (ids W).Nodup) (h : find n W = some t) (k : String) (s : Str) {e : Tree} (hd : data t = data e) :
    ∃ W' t', given s (setString n k s) W = (W', .ok ()) ∧ Put n t t' W W' ∧ data t' = data (giveAttr k s e.1, e.2) := by
  unfold given giveAttr
  split
  · exact ⟨W, t, rfl, .refl hn h, hd⟩
  · obtain ⟨W', e1, e2⟩ := amend_root hn h (f := fun e => e.set k s) fun _ => rfl
    exact ⟨W', _, e1, e2, data_root hd (f := fun e => e.set k s) (set_anon k s)⟩

theorem given_text_put (hn : (ids W).Nodup) (h : find n W = some t) (s : Str) {e : Tree} (hd : data t = data e) :
    ∃ W' t', given s (appendText n s) W = (W', .ok ()) ∧ Put n t t' W W' ∧ data t' = data (Txt.appendText e s) := by
  unfold given
  split
  · rename_i hs
    obtain rfl : s = [] := by simpa using hs
    exact ⟨W, t, rfl, .refl hn h, hd⟩
  · obtain ⟨W', t', e1, e2, e3⟩ := appendText_put hn h s
    exact ⟨W', t', e1, e2, e3.trans (appendText_congr hd s)⟩

/-- The element of a new object with a style name -/
def styled (tag : String) (style : Str) : Elem := giveAttr "text:style-name" style { id := 0, tag := tag }

theorem newSpan_makes (hn : (ids W).Nodup) (tag : String) (text style : Str) :
    Makes W (newSpan tag text style) (Txt.appendText (styled tag style, .nil) text) := by
  unfold newSpan
  refine .bind hn (newNode_makes _ W) fun W1 t m1 n1 f1 d1 => ?_
  obtain ⟨W2, t2, e2, p2, d2⟩ := give_put n1 f1 "text:style-name" style d1
  obtain ⟨n2, f2, -⟩ := p2.find n1 f1
  obtain ⟨W3, t3, e3, p3, d3⟩ := given_text_put n2 f2 text d2
  refine ⟨W3, t3, ?_, p2.trans n1 f1 p3, d3⟩
  rw [Py.bind_ok e2, Py.bind_ok e3]; rfl

theorem newHeading_makes (hn : (ids W).Nodup) (text : Str) (level : Int) (style : Str) :
    Makes W (newHeading text level style) (((Txt.appendText (styled "text:h" style, .nil) text).1.set "text:outline-level"
      (intStr (max 1 level))), (Txt.appendText (styled "text:h" style, .nil) text).2) := by
  unfold newHeading
  refine .bind hn (newSpan_makes hn _ _ _) fun W1 t m1 n1 f1 d1 => ?_
  obtain ⟨W2, e2, p2⟩ := amend_root n1 f1 (f := fun e => e.set "text:outline-level" (intStr (max 1 level))) fun _ => rfl
  refine ⟨W2, _, ?_, p2, data_root d1 (f := fun e => e.set "text:outline-level" (intStr (max 1 level))) (set_anon _ _)⟩
  unfold setLevel setString
  rw [Py.bind_ok e2]; rfl

theorem data_append {t u e v : Tree} (h1 : data t = data e) (h2 : data u = data v) :
    data (t.1, t.2 ++ single u) = data (e.1, e.2 ++ single v) := by
  rw [data_anon, data_anon] at *
  unfold mapT at *
  simp only [Prod.mk.injEq] at h1 h2
  simp only [map_append, h1.1, h1.2, single, Forest.map, h2.1, h2.2]

/-- A new object is made and appended. -/
theorem append_makes (hn : (ids W).Nodup) (h : find n W = some t) {m : Py World Nat} {v e : Tree} (hm : Makes W m v)
    (hd : data t = data e) : ∃ W' t', (do let p ← m; let _ ← Base.append n p; pure () : Py World Unit) W = (W', .ok ()) ∧
      Put n t t' W W' ∧ data t' = data (e.1, e.2 ++ single v) := by
  obtain ⟨W1, u, e1, m1, d1⟩ := hm
  obtain ⟨W2, e2, p2⟩ := append_put hn h m1.once m1.new
  refine ⟨W2, _, ?_, p2, data_append hd d1⟩
  rw [Py.bind_ok e1, m1.world]
  unfold Base.append
  rw [Py.bind_def, Py.bind_ok e2]; rfl

/-- The item or header of a list: a paragraph with the text if there is one -/
def lister (tag : String) (text : Str) : Tree :=
  ({ id := 0, tag := tag }, if text.isEmpty then .nil else single (Txt.appendText ({ id := 0, tag := "text:p" }, .nil) text))

theorem newLister_makes (hn : (ids W).Nodup) (tag : String) (text : Str) : Makes W (newLister tag text) (lister tag text) := by
  unfold newLister
  refine .bind hn (newNode_makes _ W) fun W1 t m1 n1 f1 d1 => ?_
  unfold given lister
  split
  · exact ⟨W1, t, by rw [Py.bind_def]; rfl, .refl n1 f1, d1⟩
  · obtain ⟨W2, t2, e2, p2, d2⟩ := append_makes n1 f1 (newSpan_makes n1 "text:p" text []) d1
    exact ⟨W2, t2, by rw [Py.bind_ok e2]; rfl, p2, d2⟩

theorem newList_makes (hn : (ids W).Nodup) (style : Str) : Makes W (newList style) (styled "text:list" style, .nil) := by
  unfold newList
  refine .bind hn (newNode_makes _ W) fun W1 t m1 n1 f1 d1 => ?_
  obtain ⟨W2, t2, e2, p2, d2⟩ := give_put n1 f1 "text:style-name" style d1
  exact ⟨W2, t2, by rw [Py.bind_ok e2]; rfl, p2, d2⟩

theorem app_assoc (G H K : Forest) : G ++ H ++ K = G ++ (H ++ K) := by
  induction G with
  | nil => rfl
  | cons e k r _ ih => show Forest.cons e k (r ++ H ++ K) = .cons e k (r ++ (H ++ K)); rw [ih]

theorem items_put (hn : (ids W).Nodup) (h : find n W = some t) (items : List Str) {e : Tree} (hd : data t = data e) :
    ∃ W' t', forEach (fun item => do
      let li ← newLister "text:list-item" item
      let _ ← Base.append n li) items W = (W', .ok ()) ∧ Put n t t' W W' ∧
      data t' = data (e.1, e.2 ++ ofList (items.map (lister "text:list-item"))) := by
  induction items generalizing W t e with
  | nil => exact ⟨W, t, rfl, .refl hn h, by rw [hd]; show _ = data (e.1, e.2 ++ Forest.nil); rw [app_nil]⟩
  | cons s l ih =>
    obtain ⟨W1, t1, e1, p1, d1⟩ := append_makes hn h (newLister_makes hn "text:list-item" s) hd
    obtain ⟨n1, f1, -⟩ := p1.find hn h
    obtain ⟨W2, t2, e2, p2, d2⟩ := ih n1 f1 d1
    refine ⟨W2, t2, ?_, p1.trans hn h p2, ?_⟩
    · unfold forEach
      rw [Py.bind_ok e1]; exact e2
    · rw [d2]
      simp only [app_assoc]
      rfl

/-- What `ezlist` makes -/
def listOf (items : List Str) (header style : Str) : Tree :=
  (styled "text:list" style, (if header.isEmpty then .nil else single (lister "text:list-header" header)) ++
    ofList (items.map (lister "text:list-item")))

theorem ezlist_makes (hn : (ids W).Nodup) (items : List Str) (header style : Str) :
    Makes W (ezlist items header style) (listOf items header style) := by
  unfold ezlist
  refine .bind hn (newList_makes hn style) fun W1 t m1 n1 f1 d1 => ?_
  have hh : ∃ W2 t2, given header (do
      let h ← newLister "text:list-header" header
      setHeader t.1.id h) W1 = (W2, .ok ()) ∧ Put t.1.id t t2 W1 W2 ∧ data t2 = data ((styled "text:list" style,
        (if header.isEmpty then .nil else single (lister "text:list-header" header))) : Tree) := by
    unfold given
    split
    · exact ⟨W1, t, rfl, .refl n1 f1, d1⟩
    · obtain ⟨W2, u, e2, m2, d2⟩ := newLister_makes n1 "text:list-header" header
      obtain ⟨n2, f2, g2, -⟩ := m2.all n1
      have hk : t.2 = .nil := by
        have := congrArg Prod.snd d1
        cases ht : t.2 with
        | nil => rfl
        | cons e k r => rw [data, ht] at this; simp [erase, data] at this
      obtain ⟨W3, k, e3, p3, k3⟩ := insert_put n1 f1 m2.once m2.new 0
      have hk3 : k = single u := by
        rw [hk] at k3
        have : k.toList = (single u).toList := k3
        exact toList_injective this
      refine ⟨W3, (t.1, k), ?_, p3, ?_⟩
      · rw [Py.bind_ok e2]
        unfold setHeader
        have h1 : Vars.elem u.1.id W2 = (W2, .ok u.1) := by unfold Vars.elem; rw [f2]
        rw [Py.bind_ok h1]
        have htag : u.1.tag = "text:list-header" := by
          have := congrArg (fun v : Tree => v.1.tag) d2
          exact this
        rw [if_neg (by rw [htag]; simp)]
        have h2 : Base.find t.1.id "text:list-header" W2 = (W2, .ok none) := by
          unfold Base.find Lxml.findall
          rw [Py.bind_def]
          simp only [g2 _ _ f1, hk]
          rfl
        rw [Py.bind_ok h2]
        have h3 : ((none : Option Nat).elim (pure ()) (Lxml.remove t.1.id) : Py World Unit) W2 = (W2, .ok ()) := rfl
        rw [Py.bind_ok h3]
        unfold Base.insert
        rw [m2.world, Py.bind_def, Py.bind_ok e3]; rfl
      · rw [hk3]
        have := data_append d1 d2
        rw [hk] at this
        exact this
  obtain ⟨W2, t2, e2, p2, d2⟩ := hh
  obtain ⟨n2, f2, -⟩ := p2.find n1 f1
  obtain ⟨W3, t3, e3, p3, d3⟩ := items_put n2 f2 items d2
  refine ⟨W3, t3, ?_, p2.trans n1 f1 p3, d3⟩
  rw [Py.bind_ok e2, Py.bind_ok e3]; rfl

end Verif.TextProg
