import Verif.Proofs.ContentProg
import Verif.Proofs.ProgText
/-! Helper lemmas for C81: what the calls of `text.py` make of the trees of their objects. -/
namespace Verif.TextProg
open Verif Verif.Lxml Forest Verif.Whole Verif.Tbl
set_option linter.unusedSimpArgs false

/-! ## Changes of the tree at a node -/

/-- `W'` is `W` with the tree `t` at node `n` changed to `t'`. -/
structure Put (n : Nat) (t t' : Tree) (W W' : World) : Prop where
  world : W' = W.subst n fun _ _ => single t'
  id : t'.1.id = n
  once : (ids t'.2).Nodup
  old : ∀ x ∈ ids t.2, x ∈ ids t'.2
  new : ∀ x ∈ ids t'.2, x ∈ ids t.2 ∨ Parts.newId W ≤ x

variable {n : Nat} {t t' t1 t2 : Tree} {W W' W1 W2 : World}

theorem kids_nodup (hn : (ids W).Nodup) (h : find n W = some t) : n ∉ ids t.2 ∧ (ids t.2).Nodup := by
  have := nodup_tree hn h
  simpa [(find_mem_ids h).1] using this

theorem Put.refl (hn : (ids W).Nodup) (h : find n W = some t) : Put n t t W W :=
  ⟨(subst_same hn h _ rfl).symm, (find_mem_ids h).1, (kids_nodup hn h).2, fun _ h => h, fun _ h => .inl h⟩

theorem newId_mono (h : ∀ x ∈ ids W, x ∈ ids W') : Parts.newId W ≤ Parts.newId W' := by
  have key : ∀ (l : List Nat) (m : Nat), (∀ x ∈ l, x < m) → 0 < m → l.foldr max 0 + 1 ≤ m := by
    intro l m
    induction l with
    | nil => intro _ h; simp only [List.foldr_nil]; omega
    | cons a l ih =>
      intro h1 h2
      have := ih (fun x hx => h1 x (by simp [hx])) h2
      have := h1 a (by simp)
      simp only [List.foldr_cons]
      omega
  exact key _ _ (fun x hx => lt_newId (h x hx)) (by unfold Parts.newId; omega)

theorem new_not {x : Nat} (h : Parts.newId W ≤ x) : x ∉ ids W := fun hx => by
  have := lt_newId hx
  omega

theorem subst_twice (hid : t1.1.id = n) (f : Forest) :
    (f.subst n fun _ _ => single t1).subst n (fun _ _ => single t2) = f.subst n fun _ _ => single t2 := by
  induction f with
  | nil => rfl
  | cons e k r ihk ihr =>
    by_cases he : e.id = n
    · simp only [subst, he, if_true]
      show subst n _ (.cons t1.1 t1.2 r) = _
      simp only [subst, hid, if_true]
    · simp only [subst, he, if_false, ihk, ihr]

theorem Put.find (hn : (ids W).Nodup) (h : Forest.find n W = some t) (hp : Put n t t' W W') :
    (ids W').Nodup ∧ Forest.find n W' = some t' ∧ (∀ x ∈ ids W, x ∈ ids W') ∧ roots W' = roots W ∧
      ∀ q, q ∉ ids (single t) → q ∉ ids (single t') → node W' q = node W q := by
  obtain ⟨a1, a2, a3, a4, a5, a6⟩ := Program.put_all hn h hp.id hp.once fun x hx => (hp.new x hx).imp_right new_not
  rw [hp.world]
  refine ⟨a1, a3, fun x hx => ?_, a2, a4⟩
  by_cases hx' : x ∈ ids (single t)
  · have h3 := (find_sub a3).subset
    simp only [ids_single, List.mem_cons] at hx'
    rcases hx' with rfl | hx'
    · rw [(find_mem_ids h).1]; exact find_mem a3
    · exact h3 (by simp [hp.old x hx'])
  · exact a6 x hx hx'

theorem Put.trans (hn : (ids W).Nodup) (h : Forest.find n W = some t) (h1 : Put n t t1 W W1) (h2 : Put n t1 t2 W1 W2) :
    Put n t t2 W W2 := by
  obtain ⟨-, -, hm, -, -⟩ := h1.find hn h
  refine ⟨?_, h2.id, h2.once, fun x hx => h2.old x (h1.old x hx), fun x hx => ?_⟩
  · rw [h2.world, h1.world, subst_twice h1.id]
  · rcases h2.new x hx with h3 | h3
    · exact h1.new x h3
    · exact .inr (Nat.le_trans (newId_mono hm) h3)

theorem map_same {g : Elem → Elem} (F : Forest) (h : ∀ e : Elem, e.id ∈ ids F → g e = e) : F.map g = F := by
  induction F with
  | nil => rfl
  | cons e k r ihk ihr =>
    simp only [Forest.map]
    rw [h e (by simp [ids]), ihk fun e he => h e (by simp [ids, he]), ihr fun e he => h e (by simp [ids, he])]

theorem map_put {g : Elem → Elem} (hn : (ids W).Nodup) (h : find n W = some t)
    (hg : ∀ e : Elem, e.id ∉ ids (single t) → g e = e) : W.map g = W.subst n fun _ _ => single (mapT g t) := by
  induction W with
  | nil => simp [find] at h
  | cons e k r ihk ihr =>
    simp only [ids, List.nodup_cons, List.nodup_append, List.mem_append, not_or] at hn
    by_cases he : e.id = n
    · simp only [find, he, if_true, Option.some.injEq] at h
      subst h
      simp only [Forest.map, subst, he, if_true]
      show _ = Forest.cons (g e) (k.map g) r
      rw [map_same r fun e' he' => hg e' ?_]
      simp only [ids_single, List.mem_cons, not_or]
      exact ⟨fun e2 => hn.1.2 (e2 ▸ he'), fun h2 => hn.2.2.2 _ h2 _ he' rfl⟩
    · simp only [find, he, if_false] at h
      simp only [Forest.map, subst, he, if_false]
      cases hk : find n k with
      | some u =>
        rw [hk] at h
        simp only [Option.some.injEq] at h
        subst h
        have hs := (find_sub hk).subset
        rw [ihk hn.2.1 hk, hg e fun h2 => hn.1.1 (hs h2), map_same r fun e' he' => hg e' fun h2 =>
          hn.2.2.2 _ (hs h2) _ he' rfl, subst_not_mem _ fun h2 => hn.2.2.2 _ (find_mem hk) _ h2 rfl]
      | none =>
        rw [hk] at h
        dsimp only at h
        have hs := (find_sub h).subset
        rw [ihr hn.2.2.1 h, hg e fun h2 => hn.1.2 (hs h2), map_same k fun e' he' => hg e' fun h2 =>
          hn.2.2.2 _ he' _ (hs h2) rfl, subst_not_mem _ fun h2 => hn.2.2.2 _ h2 _ (find_mem h) rfl]

/-- A change of an element in the tree -/
theorem amend_put (hn : (ids W).Nodup) (h : find n W = some t) {x : Nat} (hx : x ∈ ids (single t)) {f : Elem → Elem}
    (hid : ∀ e, (f e).id = e.id) : ∃ W', Vars.amend x f W = (W', .ok ()) ∧
      Put n t (mapT (fun e => if e.id = x then f e else e) t) W W' := by
  have hg : ∀ e : Elem, (if e.id = x then f e else e).id = e.id := fun e => by split <;> simp [hid]
  refine ⟨_, rfl, map_put hn h ?_, ?_, ?_, ?_, ?_⟩
  · intro e he
    rw [if_neg]
    intro h2
    exact he (h2 ▸ hx)
  · show (if t.1.id = x then f t.1 else t.1).id = n
    rw [hg, (find_mem_ids h).1]
  · show (ids (t.2.map _)).Nodup
    rw [ids_map hg]; exact (kids_nodup hn h).2
  · intro y hy
    show y ∈ ids (t.2.map _)
    rw [ids_map hg]; exact hy
  · intro y hy
    change y ∈ ids (t.2.map _) at hy
    rw [ids_map hg] at hy
    exact .inl hy

theorem subst_app {i : Nat} {f : Elem → Forest → Forest} (G H : Forest) (hi : i ∉ ids G) :
    subst i f (G ++ H) = G ++ subst i f H := by
  induction G with
  | nil => rfl
  | cons e k r _ ihr =>
    simp only [ids, List.mem_cons, List.mem_append, not_or] at hi
    show subst i f (.cons e k (r ++ H)) = .cons e k (r ++ subst i f H)
    rw [subst, if_neg fun h => hi.1 h.symm, subst_not_mem _ hi.2.1, ihr hi.2.2]

theorem app_nil (G : Forest) : G ++ Forest.nil = G := by
  induction G with
  | nil => rfl
  | cons e k r _ ihr => show Forest.cons e k (r ++ Forest.nil) = _; rw [ihr]

/-- A new tree that is in no other is appended. -/
theorem append_put (hn : (ids W).Nodup) (h : find n W = some t) {u : Tree} (h1 : (ids (single u)).Nodup)
    (h2 : ∀ i ∈ ids (single u), Parts.newId W ≤ i) : ∃ W', Lxml.append n u.1.id (W ++ single u) = (W', .ok ()) ∧
      Put n t (t.1, t.2 ++ single u) W W' := by
  obtain ⟨a1, a2, a3⟩ := nodup_add hn h1 h2
  have hnew : ∀ x ∈ ids (single u), x ∉ ids W := fun x hx hw => by
    have := lt_newId hw
    have := h2 x hx
    omega
  have hno : Lxml.inTree u n = false := by
    unfold Lxml.inTree
    simpa using fun hm => hnew n hm (find_mem h)
  have hdet : detach u.1.id (W ++ single u) = W := by
    unfold detach
    rw [subst_app _ _ (hnew _ (by simp))]
    have : subst u.1.id (fun _ _ => Forest.nil) (single u) = .nil := by
      show subst u.1.id _ (.cons u.1 u.2 .nil) = _
      rw [subst, if_pos rfl]; rfl
    rw [this, app_nil]
  refine ⟨W.subst n fun _ _ => single (t.1, t.2 ++ single u), ?_, ?_, (find_mem_ids h).1, ?_, ?_, ?_⟩
  · unfold Lxml.append
    rw [a3 n t h, a2]
    simp only [hno, hdet]
    refine Prod.ext ?_ rfl
    exact subst_congr hn h _ _ rfl
  · rfl
  · show (ids (t.2 ++ single u)).Nodup
    rw [ids_append, List.nodup_append]
    refine ⟨(kids_nodup hn h).2, h1, fun a ha b hb e => hnew b hb (e ▸ (find_sub h).subset (by simp [ha]))⟩
  · intro x hx; show x ∈ ids (t.2 ++ single u); rw [ids_append]; simp [hx]
  · intro x hx
    change x ∈ ids (t.2 ++ single u) at hx
    rw [ids_append, List.mem_append] at hx
    exact hx.imp_right (h2 x)

/-! ## `append_text` -/

/-- The tree without identities -/
def anon (e : Elem) : Elem := { e with id := 0 }

theorem data_anon (t : Tree) : data t = mapT anon t := data_mapT t

theorem map_append (g : Elem → Elem) (G H : Forest) : (G ++ H).map g = G.map g ++ H.map g := by
  induction G with
  | nil => rfl
  | cons e k r _ ih => show Forest.cons _ _ ((r ++ H).map g) = Forest.cons _ _ (r.map g ++ H.map g); rw [ih]

theorem lastTail_anon (k : Forest) (s : Str) : (Txt.appendLastTail k s).map anon = Txt.appendLastTail (k.map anon) s := by
  induction k with
  | nil => rfl
  | cons e k r _ ih =>
    cases r with
    | nil => rfl
    | cons e' k' r' =>
      simp only [Txt.appendLastTail, Forest.map] at ih ⊢
      rw [ih]

/-- What `append_text` makes does not depend on identities. -/
theorem appendItem_data (t : Tree) (x : Ws.Item) : data (Txt.appendItem t x) =
    Txt.appendItem (data t) (match x with | .text s => .text s | .elem e => .elem (anon e)) := by
  rw [data_anon, data_anon]
  cases x with
  | text s =>
    obtain ⟨e, k⟩ := t
    cases k with
    | nil => rfl
    | cons e' k' r' =>
      show (anon e, (Txt.appendLastTail (.cons e' k' r') s).map anon) = (anon e, Txt.appendLastTail (.cons (anon e') (k'.map anon) (r'.map anon)) s)
      rw [lastTail_anon]; rfl
  | elem e => exact Prod.ext rfl (map_append _ _ _)

theorem appendItem_congr {t u : Tree} (h : data t = data u) (x : Ws.Item) :
    data (Txt.appendItem t x) = data (Txt.appendItem u x) := by
  rw [appendItem_data, appendItem_data, h]

theorem foldl_congr {t u : Tree} (h : data t = data u) (l : List Ws.Item) :
    data (l.foldl Txt.appendItem t) = data (l.foldl Txt.appendItem u) := by
  induction l generalizing t u with
  | nil => exact h
  | cons x l ih => exact ih (appendItem_congr h x)

theorem appendText_congr {t u : Tree} (h : data t = data u) (s : Str) :
    data (Txt.appendText t s) = data (Txt.appendText u s) := foldl_congr h _

/-- The last child -/
theorem last_tail {k : Forest} (hn : (ids k).Nodup) {l : List Tree} {u : Tree} (hk : k.toList = l ++ [u]) (s : Str) :
    k.map (fun e => if e.id = u.1.id then { e with tail := Txt.appendStr u.1.tail s } else e) = Txt.appendLastTail k s := by
  induction k generalizing l with
  | nil => simp at hk
  | cons e k r _ ih =>
    simp only [ids, List.nodup_cons, List.nodup_append, List.mem_append, not_or] at hn
    simp only [Forest.toList_cons] at hk
    cases l with
    | nil =>
      simp only [List.nil_append, List.cons.injEq] at hk
      obtain ⟨rfl, hr⟩ := hk
      have hr : r = .nil := by cases r with
        | nil => rfl
        | cons _ _ _ => simp at hr
      subst hr
      simp only [Forest.map, if_true, Txt.appendLastTail]
      rw [map_same k]
      intro e' he'
      rw [if_neg]
      intro h
      exact hn.1.1 (h ▸ he')
    | cons a l =>
      simp only [List.cons_append, List.cons.injEq] at hk
      obtain ⟨rfl, hr⟩ := hk
      have hu : u.1.id ∈ ids r := roots_sub (List.mem_map.mpr ⟨u, by rw [hr]; simp, rfl⟩)
      cases r with
      | nil => simp at hr
      | cons e1 k1 r1 =>
        have := ih hn.2.2.1 hr
        rw [Forest.map, this, if_neg (fun h : e.id = u.1.id => hn.1.2 (h ▸ hu)), map_same k]
        · rfl
        · intro e' he'
          rw [if_neg]
          intro h
          exact hn.2.2.2 _ he' _ hu h

theorem appendPiece_put (hn : (ids W).Nodup) (h : find n W = some t) (x : Ws.Item) : ∃ W' t',
    appendPiece n x W = (W', .ok ()) ∧ Put n t t' W W' ∧ data t' = data (Txt.appendItem t x) := by
  cases x with
  | text s =>
    obtain ⟨e, k⟩ := t
    have hid := (find_mem_ids h).1
    have hkn := (kids_nodup hn h)
    have hlen : Base.len n W = (W, .ok k.length) := by unfold Base.len; rw [h]
    rcases List.eq_nil_or_concat k.toList with hk | ⟨l, u, hk⟩
    · have hk : k = .nil := by cases k with
        | nil => rfl
        | cons _ _ _ => simp at hk
      subst hk
      have he : Vars.elem n W = (W, .ok e) := by unfold Vars.elem; rw [h]
      obtain ⟨W', e1, e2⟩ := amend_put hn h (x := n) (by rw [ids_single, hid]; simp) (f := fun e' => { e' with text := Txt.appendStr e.text s })
        (fun _ => rfl)
      refine ⟨W', _, ?_, e2, ?_⟩
      · unfold appendPiece
        dsimp only
        rw [Py.bind_ok hlen, if_neg (by simp [Forest.length]), Py.bind_ok he]
        exact e1
      · congr 1
        exact Prod.ext (if_pos hid) rfl
    · rw [List.concat_eq_append] at hk
      have hlast : Base.getChild n (-1) W = (W, .ok u.1.id) := by
        have hl : (roots k).length = l.length + 1 := by simp [roots, hk]
        have : Lxml.getitem n (-1) W = (W, .ok u.1.id) := by
          unfold Lxml.getitem
          rw [h]
          dsimp only
          rw [hl]
          have : pyIdx (l.length + 1) (-1) = some l.length := by unfold pyIdx; simp; omega
          rw [this]
          dsimp only
          have : (roots k)[l.length]? = some u.1.id := by simp [roots, hk]
          rw [this]
        exact this
      have hu : u ∈ k.toList := by rw [hk]; simp
      have hfu := child_find hn h hu
      have he : Vars.elem u.1.id W = (W, .ok u.1) := by unfold Vars.elem; rw [hfu]
      have hin : u.1.id ∈ ids k := roots_sub (List.mem_map.mpr ⟨u, hu, rfl⟩)
      obtain ⟨W', e1, e2⟩ := amend_put hn h (x := u.1.id) (by simp [hin])
        (f := fun e' => { e' with tail := Txt.appendStr u.1.tail s }) (fun _ => rfl)
      refine ⟨W', _, ?_, e2, ?_⟩
      · unfold appendPiece
        dsimp only
        rw [Py.bind_ok hlen, if_pos, Py.bind_ok hlast, Py.bind_ok he]
        · exact e1
        · cases k with
          | nil => simp at hk
          | cons _ _ _ => simp [Forest.length]
      · congr 1
        have : Txt.appendItem (e, k) (.text s) = (e, Txt.appendLastTail k s) := by
          cases k with
          | nil => simp at hk
          | cons _ _ _ => rfl
        rw [this]
        refine Prod.ext (if_neg ?_) (last_tail hkn.2 hk s)
        intro h2
        exact hkn.1 (hid ▸ h2 ▸ hin)
  | elem e =>
    obtain ⟨W', e1, e2⟩ := append_put hn h (u := ({ e with id := Parts.newId W }, .nil)) (by simp [ids]) (by simp [ids])
    refine ⟨W', _, ?_, e2, ?_⟩
    · unfold appendPiece newNode Base.append
      simp only [Py.bind_def, Py.pure_def]
      rw [e1]
    · rw [data_anon, data_anon]
      refine Prod.ext rfl ?_
      show (t.2 ++ single _).map anon = (t.2 ++ _).map anon
      rw [map_append, map_append]
      rfl

theorem forEach_put (hn : (ids W).Nodup) (h : find n W = some t) (l : List Ws.Item) : ∃ W' t',
    forEach (appendPiece n) l W = (W', .ok ()) ∧ Put n t t' W W' ∧ data t' = data (l.foldl Txt.appendItem t) := by
  induction l generalizing W t with
  | nil => exact ⟨W, t, rfl, .refl hn h, rfl⟩
  | cons x l ih =>
    obtain ⟨W1, t1, e1, p1, d1⟩ := appendPiece_put hn h x
    obtain ⟨n1, f1, -⟩ := p1.find hn h
    obtain ⟨W2, t2, e2, p2, d2⟩ := ih n1 f1
    refine ⟨W2, t2, ?_, p1.trans hn h p2, ?_⟩
    · unfold forEach; rw [Py.bind_ok e1]; exact e2
    · rw [d2, List.foldl_cons]; exact foldl_congr d1 l

/-- `append_text` does with the tree of the object what it does with a tree of its own. -/
theorem appendText_put (hn : (ids W).Nodup) (h : find n W = some t) (s : Str) : ∃ W' t',
    appendText n s W = (W', .ok ()) ∧ Put n t t' W W' ∧ data t' = data (Txt.appendText t s) :=
  forEach_put hn h _

end Verif.TextProg
