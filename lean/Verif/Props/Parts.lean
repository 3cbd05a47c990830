import Verif.Proofs.Parts
import Verif.Proofs.Dict
/-!
# C63: opening a document adds missing frame elements and changes nothing else
-/
namespace Verif.Parts
open Verif Verif.Lxml Forest
set_option linter.unusedSimpArgs false

/-! ## Specification -/

/-- The frame elements of styles.xml in the order of the schema. -/
def stylesFrame : List String :=
  ["office:font-face-decls", "office:styles", "office:automatic-styles", "office:master-styles"]

/-- The frame elements of content.xml in the order of the schema. -/
def contentFrame : List String :=
  ["office:scripts", "office:font-face-decls", "office:automatic-styles", "office:body"]

/-- The declarations of a body. -/
def bodyFrame : List String := ["text:variable-decls", "text:user-field-decls"]

/-- The attributes of the styles object are the frame elements. -/
structure StylesRefs (W : World) (s : StylesPart) : Prop where
  fonts : Ref W s.root "office:font-face-decls" s.fonts
  styles : Ref W s.root "office:styles" s.styles
  automatic : Ref W s.root "office:automatic-styles" s.automatic
  master : Ref W s.root "office:master-styles" s.master

/-- The attributes of the content object are the frame elements. -/
structure ContentRefs (W : World) (c : ContentPart) : Prop where
  scripts : Ref W c.root "office:scripts" c.scripts
  fonts : Ref W c.root "office:font-face-decls" c.fonts
  automatic : Ref W c.root "office:automatic-styles" c.automatic
  body : Ref W c.root "office:body" c.body

/-- The body object of the frame element `f` is about its first child with the tag, and its
dictionaries are about the declarations there; spreadsheets have sheets, drawings and presentations
have pages. -/
structure BodyRefs (W : World) (f : Nat) (tag : String) (b : BodyObj) : Prop where
  node : Ref W f tag b.node
  vars : ∃ v, Ref W b.node "text:variable-decls" v ∧ Vars.init v W = (W, .ok b.vars)
  fields : ∃ v, Ref W b.node "text:user-field-decls" v ∧ Vars.init v W = (W, .ok b.fields)
  sheets : b.sheets = if tag = "office:spreadsheet" then some b.node else none
  pages : b.pages = if tag ∈ ["office:drawing", "office:presentation"] then some b.node else none

/-- Containers of declarations contain declarations only. -/
def Declared (W : World) : Prop :=
  ∀ v ∈ ids W, ∀ t ∈ bodyFrame, tagAt W v = some t →
    ∀ x ∈ kidTags W v, x = some "text:variable-decl" ∨ x = some "text:user-field-decl"

/-- The root of a part: the given node with its tag, or a new node. -/
def RootOf (W W' : World) (tag : String) (given : Option Nat) (r : Nat) : Prop :=
  tagAt W' r = some tag ∧
  match given with
  | some g => r = g
  | none => r ∉ ids W ∧ r ∈ tops W'

/-! ## Lemmas -/

theorem StylesRefs.ext {W W' : World} {a} (h : Ext W W' a) {s} (r : StylesRefs W s) :
    StylesRefs W' s := ⟨r.1.ext h, r.2.ext h, r.3.ext h, r.4.ext h⟩

theorem ContentRefs.ext {W W' : World} {a} (h : Ext W W' a) {s} (r : ContentRefs W s) :
    ContentRefs W' s := ⟨r.1.ext h, r.2.ext h, r.3.ext h, r.4.ext h⟩

/-- Four elements of one parent. -/
theorem four {W : World} (hn : (ids W).Nodup) {r : Nat} (hr : r ∈ ids W) {t1 t2 t3 t4 : String}
    (hd : [t1, t2, t3, t4].Nodup) {α : Type} (k : Nat → Nat → Nat → Nat → α) :
    ∃ W' a b c d, (do
      let a ← sub r t1
      let b ← sub r t2
      let c ← sub r t3
      let d ← sub r t4
      return k a b c d : Py World α) W = (W', .ok (k a b c d)) ∧
      Ext W W' (only W r [t1, t2, t3, t4]) ∧ Ref W' r t1 a ∧ Ref W' r t2 b ∧ Ref W' r t3 c ∧
      Ref W' r t4 d := by
  obtain ⟨W1, a, e1, x1, r1, _⟩ := sub_spec hn hr t1
  obtain ⟨W2, b, e2, x2, r2, _⟩ := sub_spec x1.once (x1.mem hr) t2
  obtain ⟨W3, c, e3, x3, r3, _⟩ := sub_spec x2.once (x2.mem (x1.mem hr)) t3
  obtain ⟨W4, d, e4, x4, r4, _⟩ := sub_spec x3.once (x3.mem (x2.mem (x1.mem hr))) t4
  simp only [List.nodup_cons, List.mem_cons, List.not_mem_nil, or_false, not_or] at hd
  refine ⟨W4, a, b, c, d, ?_, ?_, ((r1.ext x2).ext x3).ext x4, (r2.ext x3).ext x4, r3.ext x4, r4⟩
  · rw [Py.bind_ok e1, Py.bind_ok e2, Py.bind_ok e3, Py.bind_ok e4, Py.pure_def]
  · refine sub_step hr x1 (sub_step (x1.mem hr) x2 (sub_step (x2.mem (x1.mem hr)) x3 x4 ?_) ?_) ?_
    · simp [hd]
    · simp [hd]
    · simp [hd]

theorem newRoot_spec {W : World} (hn : (ids W).Nodup) (tag : String) :
    ∃ W1 r, newRoot tag W = (W1, .ok r) ∧ Ext W W1 (fun _ => []) ∧ r ∉ ids W ∧ r ∈ ids W1 ∧
      tagAt W1 r = some tag ∧ r ∈ tops W1 ∧ children W1 r = some [] := by
  have hnew := newId_not W
  generalize hN : newId W = n at hnew
  generalize hs : (single (⟨n, tag, [], none, none⟩, .nil) : Forest) = S
  have hSi : ids S = [n] := by rw [← hs]; simp [ids]
  have hSr : roots S = [n] := by rw [← hs]; simp
  have hSf : find n S = some (⟨n, tag, [], none, none⟩, .nil) := by
    rw [← hs]; exact find_single_self (⟨n, tag, [], none, none⟩, .nil)
  have hfo : ∀ q ∈ ids W, find q (W ++ S) = find q W := by
    intro q hq
    obtain ⟨u, hu⟩ := find_some_of_mem hq
    rw [find_append, hu]; rfl
  have hfn : find n (W ++ S) = some (⟨n, tag, [], none, none⟩, .nil) := by
    rw [find_append, find_none.mpr hnew, hSf]; rfl
  have hids : ids (W ++ S) = ids W ++ [n] := by rw [ids_append, hSi]
  have htops : tops (W ++ S) = tops W ++ [n] := by
    have := roots_append W S
    rw [hSr] at this
    exact this
  refine ⟨W ++ S, n, by simp only [newRoot, hN, hs], ⟨?_, ?_, ?_, ?_, [n], htops, by simpa using hnew⟩,
    hnew, by rw [hids]; simp, by simp [tagAt, content, hfn], by rw [htops]; simp,
    by simp [children, hfn, Forest.toList]⟩
  · rw [hids, List.nodup_append]
    refine ⟨hn, by simp, ?_⟩
    intro a ha b hb
    simp only [List.mem_singleton] at hb
    exact fun e => hnew (hb ▸ e ▸ ha)
  · intro i hi; simp [content, hfo i hi]
  · intro i hi hni
    rw [hids] at hi
    simp only [List.mem_append, List.mem_singleton] at hi
    rcases hi with hi | hi
    · exact absurd hi hni
    · exact ⟨tag, by rw [hi]; simp [content, hfn, bare]⟩
  · intro q hq
    refine ⟨[], ?_, by simp, by simp⟩
    rw [hids] at hq
    simp only [List.mem_append, List.mem_singleton] at hq
    rcases hq with hq | hq
    · obtain ⟨l, hl⟩ := children_some hq
      rw [kidsOf_some hl, List.append_nil, ← hl]
      simp [children, hfo q hq]
    · rw [hq, kidsOf_none hnew]
      simp [children, hfn, Forest.toList]

theorem missing_congr {W W1 : World} {p : Nat} (h : kidTags W1 p = kidTags W p) (T : List String) :
    missing W1 p T = missing W p T := by simp [missing, h]

theorem only_congr {W W1 : World} {p : Nat} (h : kidTags W1 p = kidTags W p) (T : List String) :
    only W1 p T = only W p T := by
  funext q
  unfold only
  rw [missing_congr h]

/-- Nothing has been added to `p`. -/
theorem Ext.untouched {W W1 : World} {a} (h : Ext W W1 a) {p : Nat} (hz : a p = []) :
    Parts.kidTags W1 p = Parts.kidTags W p := by
  by_cases hp : p ∈ ids W1
  · rw [h.kidTags hp, hz]; simp
  · simp [Parts.kidTags, kidsOf_none hp, kidsOf_none fun hw => hp (h.mem hw)]

theorem newRoot_step {W W1 W2 : World} {r : Nat} (h : Ext W W1 fun _ => [])
    {T} (g : Ext W1 W2 (only W1 r T)) : Ext W W2 (only W r T) := by
  refine (h.trans g fun _ _ => rfl).congr fun q _ => ?_
  rw [only_congr (h.untouched (p := r) rfl)]; rfl

theorem tagOf_eq {W : World} {r : Nat} {t : String} (h : tagAt W r = some t) :
    tagOf r W = (W, .ok t) := by
  unfold tagAt content at h
  unfold tagOf
  cases hf : find r W with
  | none => simp [hf] at h
  | some u => simp [hf] at h; simp [h]

/-- The root is in the new world as it was. -/
theorem rootOf_new {W W1 W2 : World} {a b} {r : Nat} {tag : String} (_h : Ext W W1 a) (g : Ext W1 W2 b)
    (h1 : r ∉ ids W) (h2 : r ∈ ids W1) (h3 : tagAt W1 r = some tag) (h4 : r ∈ tops W1) :
    RootOf W W2 tag none r := by
  refine ⟨by rw [g.tag h2, h3], h1, ?_⟩
  obtain ⟨m, hm, _⟩ := g.free
  rw [hm]; simp [h4]

theorem RootOf.ext {W W1 W2 : World} {b} {r : Nat} {tag : String} {o : Option Nat} (g : Ext W1 W2 b)
    (h : RootOf W W1 tag o r) : RootOf W W2 tag o r := by
  refine ⟨by rw [g.tag (mem_of_tagAt h.1), h.1], ?_⟩
  cases o with
  | some x => exact h.2
  | none =>
    obtain ⟨a1, a2, a3⟩ := h
    obtain ⟨m, hm, _⟩ := g.free
    exact ⟨a2, by rw [hm]; simp [a3]⟩

/-! ## The theorems -/

/-- C63: the styles part.  With a stored root or without one, exactly the missing frame elements are
added at the end of the root, in the order of the frame; everything else stays as it is, and the
attributes denote the frame elements. -/
theorem C63_styles {W : World} (hn : (ids W).Nodup) {o : Option Nat}
    (ho : ∀ r, o = some r → tagAt W r = some "office:document-styles") :
    ∃ W' s, stylesInit o W = (W', .ok s) ∧ RootOf W W' "office:document-styles" o s.root ∧
      Ext W W' (only W s.root stylesFrame) ∧ StylesRefs W' s := by
  have setup : ∀ {V : World} (_ : (ids V).Nodup) {r : Nat} (_ : r ∈ ids V), ∃ V' s,
      stylesSetup r V = (V', .ok s) ∧ s.root = r ∧ Ext V V' (only V r stylesFrame) ∧
      StylesRefs V' s := by
    intro V hV r hr
    obtain ⟨V', a, b, c, d, e, x, r1, r2, r3, r4⟩ := four hV hr
      (t1 := "office:font-face-decls") (t2 := "office:styles") (t3 := "office:automatic-styles")
      (t4 := "office:master-styles") (by decide) (fun a b c d => StylesPart.mk r a b c d)
    exact ⟨V', ⟨r, a, b, c, d⟩, e, rfl, x, ⟨r1, r2, r3, r4⟩⟩
  cases o with
  | none =>
    obtain ⟨W1, r, e1, x1, f1, f2, f3, f4, _⟩ := newRoot_spec hn "office:document-styles"
    obtain ⟨W', s, e2, e3, x2, h2⟩ := setup x1.once f2
    subst e3
    refine ⟨W', s, ?_, rootOf_new x1 x2 f1 f2 f3 f4, newRoot_step x1 x2, h2⟩
    unfold stylesInit
    dsimp only
    rw [Py.bind_ok e1, e2]
  | some r =>
    have ht := ho r rfl
    obtain ⟨W', s, e2, e3, x2, h2⟩ := setup hn (mem_of_tagAt ht)
    subst e3
    refine ⟨W', s, ?_, ⟨by rw [x2.tag (mem_of_tagAt ht), ht], rfl⟩, x2, h2⟩
    unfold stylesInit
    dsimp only
    rw [Py.bind_ok (tagOf_eq ht)]
    simp [e2]

/-- C63: the content part. -/
theorem C63_content {W : World} (hn : (ids W).Nodup) {o : Option Nat} {mt : Str}
    (hm : o = none → mt ∈ Document.MIMETYPE_NSMAP)
    (ho : ∀ r, o = some r → tagAt W r = some "office:document-content") :
    ∃ W' s, contentInit mt o W = (W', .ok s) ∧ RootOf W W' "office:document-content" o s.root ∧
      Ext W W' (only W s.root contentFrame) ∧ ContentRefs W' s := by
  have setup : ∀ {V : World} (_ : (ids V).Nodup) {r : Nat} (_ : r ∈ ids V), ∃ V' s,
      contentSetup r V = (V', .ok s) ∧ s.root = r ∧ Ext V V' (only V r contentFrame) ∧
      ContentRefs V' s := by
    intro V hV r hr
    obtain ⟨V', a, b, c, d, e, x, r1, r2, r3, r4⟩ := four hV hr
      (t1 := "office:scripts") (t2 := "office:font-face-decls") (t3 := "office:automatic-styles")
      (t4 := "office:body") (by decide) (fun a b c d => ContentPart.mk r a b c d)
    exact ⟨V', ⟨r, a, b, c, d⟩, e, rfl, x, ⟨r1, r2, r3, r4⟩⟩
  cases o with
  | none =>
    obtain ⟨W1, r, e1, x1, f1, f2, f3, f4, _⟩ := newRoot_spec hn "office:document-content"
    obtain ⟨W', s, e2, e3, x2, h2⟩ := setup x1.once f2
    subst e3
    refine ⟨W', s, ?_, rootOf_new x1 x2 f1 f2 f3 f4, newRoot_step x1 x2, h2⟩
    unfold contentInit
    simp only [if_pos (hm rfl)]
    rw [Py.bind_ok e1, e2]
  | some r =>
    have ht := ho r rfl
    obtain ⟨W', s, e2, e3, x2, h2⟩ := setup hn (mem_of_tagAt ht)
    subst e3
    refine ⟨W', s, ?_, ⟨by rw [x2.tag (mem_of_tagAt ht), ht], rfl⟩, x2, h2⟩
    unfold contentInit
    dsimp only
    rw [Py.bind_ok (tagOf_eq ht)]
    simp [e2]

/-! ### Bodies -/

theorem Ref.ne {W : World} (hn : (ids W).Nodup) {p c : Nat} {tag : String} (h : Ref W p tag c) :
    c ≠ p := by
  obtain ⟨A, B, h1, _⟩ := h
  obtain ⟨t, ht, hr⟩ := children_find h1
  have h2 := nodup_tree hn ht
  have h3 := (find_mem_ids ht).1
  simp only [ids_single, List.nodup_cons] at h2
  intro e
  refine h2.1 (roots_sub ?_)
  rw [hr, h3, e]; simp

theorem collect_ok (ts : List Tree)
    (h : ∀ t ∈ ts, t.1.tag = "text:variable-decl" ∨ t.1.tag = "text:user-field-decl") :
    ∃ d, Vars.collect ts = .ok d := by
  induction ts with
  | nil => exact ⟨_, rfl⟩
  | cons t ts ih =>
    obtain ⟨d, hd⟩ := ih fun u hu => h u (by simp [hu])
    simp only [Vars.collect, if_pos (h t (by simp)), hd]
    exact ⟨_, rfl⟩

theorem collect_bad (ts : List Tree)
    (h : ∃ t ∈ ts, ¬ (t.1.tag = "text:variable-decl" ∨ t.1.tag = "text:user-field-decl")) :
    Vars.collect ts = .error .AttributeError := by
  induction ts with
  | nil => simp at h
  | cons t ts ih =>
    unfold Vars.collect
    by_cases ht : t.1.tag = "text:variable-decl" ∨ t.1.tag = "text:user-field-decl"
    · rw [if_pos ht, ih ?_]
      obtain ⟨u, hu, hb⟩ := h
      rcases List.mem_cons.mp hu with e | e
      · exact absurd (e ▸ ht) hb
      · exact ⟨u, e, hb⟩
    · rw [if_neg ht]

theorem init_ok {W : World} (hn : (ids W).Nodup) {v : Nat} (hv : v ∈ ids W)
    (h : ∀ x ∈ kidTags W v, x = some "text:variable-decl" ∨ x = some "text:user-field-decl") :
    ∃ d, Vars.init v W = (W, .ok d) := by
  obtain ⟨t, ht⟩ := find_some_of_mem hv
  rw [kidTags_find hn ht] at h
  obtain ⟨d, hd⟩ := collect_ok t.2.toList fun u hu => by
    have := h _ (List.mem_map.mpr ⟨u, hu, rfl⟩)
    simpa using this
  exact ⟨d, by simp [Vars.init, ht, hd]⟩

theorem init_cases {W : World} {v : Nat} (hv : v ∈ ids W) :
    (∃ d, Vars.init v W = (W, .ok d)) ∨ Vars.init v W = (W, .error .AttributeError) := by
  obtain ⟨t, ht⟩ := find_some_of_mem hv
  by_cases h : ∃ u ∈ t.2.toList, ¬ (u.1.tag = "text:variable-decl" ∨ u.1.tag = "text:user-field-decl")
  · exact Or.inr (by simp [Vars.init, ht, collect_bad _ h])
  · obtain ⟨d, hd⟩ := collect_ok t.2.toList fun u hu => by
      by_cases hc : u.1.tag = "text:variable-decl" ∨ u.1.tag = "text:user-field-decl"
      · exact hc
      · exact absurd ⟨u, hu, hc⟩ h
    exact Or.inl ⟨d, by simp [Vars.init, ht, hd]⟩

/-- The container is read again in the same way after an addition elsewhere. -/
theorem init_ext {W W' : World} {a} (hn : (ids W).Nodup) (h : Ext W W' a) {v : Nat} (hv : v ∈ ids W)
    (hz : a v = []) {d} (hi : Vars.init v W = (W, .ok d)) : Vars.init v W' = (W', .ok d) := by
  obtain ⟨t, ht⟩ := find_some_of_mem hv
  obtain ⟨t', ht'⟩ := find_some_of_mem (h.mem hv)
  simp only [Vars.init, ht, Prod.mk.injEq, true_and] at hi
  simp only [Vars.init, ht', Prod.mk.injEq, true_and]
  -- the children have the same identities and contents
  have hk : ∀ {V : World} {u : Tree}, (ids V).Nodup → find v V = some u →
      (kidsOf V v).map (content V) = u.2.toList.map fun x => some x.1 := by
    intro V u hV hu
    unfold kidsOf children
    rw [hu]
    simp only [Option.map_some, Option.getD_some, List.map_map]
    refine List.map_congr_left fun x hx => ?_
    exact child_content hV hu hx
  have h1 := hk hn ht
  have h2 := hk h.once ht'
  obtain ⟨m, k1, k2, k3⟩ := h.kidsOf (h.mem hv)
  rw [hz] at k3
  have hm : m = [] := by simpa using k3
  rw [hm, List.append_nil] at k1
  rw [k1] at h2
  have h3 : (kidsOf W v).map (content W') = (kidsOf W v).map (content W) :=
    List.map_congr_left fun x hx => h.keep x (kidsOf_mem hx)
  rw [h3, h1] at h2
  rw [← hi]
  have hcol : ∀ (l l' : List Tree), (l.map fun x => some x.1) = (l'.map fun x => some x.1) →
      Vars.collect l' = Vars.collect l := by
    intro l
    induction l with
    | nil =>
      intro l' e
      cases l' with
      | nil => rfl
      | cons y ys => cases e
    | cons x xs ih =>
      intro l' e
      cases l' with
      | nil => cases e
      | cons y ys =>
        simp only [List.map_cons, List.cons.injEq, Option.some.injEq] at e
        unfold Vars.collect
        rw [ih ys e.2, e.1]
  exact hcol _ _ h2

/-- Containers of declarations are not changed by an addition to other elements. -/
theorem Declared.ext {W W' : World} {a} (h : Ext W W' a) (hd : Declared W)
    (ha : ∀ v ∈ ids W', a v ≠ [] → ∀ t ∈ bodyFrame, tagAt W' v ≠ some t) : Declared W' := by
  intro v hv t ht hvt x hx
  have hz : a v = [] := by
    by_cases hz : a v = []
    · exact hz
    · exact absurd hvt (ha v hv hz t ht)
  rw [h.untouched hz] at hx
  by_cases hw : v ∈ ids W
  · exact hd v hw t ht (by rw [← h.tag hw, hvt]) x hx
  · simp [kidTags, kidsOf_none hw] at hx

theorem only_ne {W : World} {p q : Nat} {T : List String} (h : only W p T q ≠ []) : q = p := by
  by_cases e : q = p
  · exact e
  · exact absurd (only_absent e) h

/-- C63: the constructor of a body adds the missing containers of declarations only. -/
theorem C63_body {W : World} (hn : (ids W).Nodup) {f : Nat} (hf : f ∈ ids W) {tag : String}
    (htag : tag ∉ bodyFrame) (hft : ∀ t ∈ bodyFrame, tagAt W f ≠ some t) (hd : Declared W) :
    ∃ W' b, applicationBody f tag W = (W', .ok b) ∧ BodyRefs W' f tag b ∧
      Ext W W' (fun q => only W f [tag] q ++ only W b.node bodyFrame q) := by
  obtain ⟨W1, n, e1, x1, r1, _⟩ := sub_spec hn hf tag
  have hnt : tagAt W1 n = some tag := by
    obtain ⟨_, _, _, h, _⟩ := r1
    exact h
  have hnf : n ≠ f := r1.ne x1.once
  have hd1 : Declared W1 := hd.ext x1 fun v _ ha t ht => by
    rw [only_ne ha, x1.tag hf]; exact hft t ht
  have hnb : ∀ t ∈ bodyFrame, tagAt W1 n ≠ some t := fun t ht => by
    rw [hnt]
    exact fun e => htag (Option.some.inj e ▸ ht)
  obtain ⟨W2, v, e2, x2, r2, _⟩ := sub_spec x1.once r1.mem "text:variable-decls"
  have hd2 : Declared W2 := hd1.ext x2 fun v _ ha t ht => by
    rw [only_ne ha, x2.tag r1.mem]; exact hnb t ht
  have hvt : tagAt W2 v = some "text:variable-decls" := by
    obtain ⟨_, _, _, h, _⟩ := r2
    exact h
  obtain ⟨dv, hdv⟩ := init_ok x2.once r2.mem (hd2 v r2.mem _ (by simp [bodyFrame]) hvt)
  obtain ⟨W3, u, e3, x3, r3, _⟩ := sub_spec x2.once (x2.mem r1.mem) "text:user-field-decls"
  have hd3 : Declared W3 := hd2.ext x3 fun v _ ha t ht => by
    rw [only_ne ha, x3.tag (x2.mem r1.mem), x2.tag r1.mem]; exact hnb t ht
  have hut : tagAt W3 u = some "text:user-field-decls" := by
    obtain ⟨_, _, _, h, _⟩ := r3
    exact h
  obtain ⟨du, hdu⟩ := init_ok x3.once r3.mem (hd3 u r3.mem _ (by simp [bodyFrame]) hut)
  have hvn : v ≠ n := r2.ne x2.once
  refine ⟨W3, ⟨n, dv, du, if tag = "office:spreadsheet" then some n else none,
    if tag = "office:drawing" ∨ tag = "office:presentation" then some n else none⟩, ?_, ?_, ?_⟩
  · unfold applicationBody bodyInit
    rw [Py.bind_ok e1, Py.bind_ok (tagOf_eq hnt), Py.bind_ok e2, Py.bind_ok hdv, Py.bind_ok e3,
      Py.bind_ok hdu, Py.pure_def]
  · refine ⟨(r1.ext x2).ext x3, ⟨v, r2.ext x3, ?_⟩, ⟨u, r3, hdu⟩, rfl, ?_⟩
    · exact init_ext x2.once x3 r2.mem (only_absent hvn) hdv
    · simp
  · have x23 := sub_step r1.mem x2 x3 (by decide)
    refine (x1.trans x23 fun q hq => only_absent fun e => hq (e ▸ x1.mem hf)).congr fun q _ => ?_
    rw [only_congr (x1.untouched (only_absent hnf))]
    rfl

/-- The tags of bodies. -/
theorem bodytag_mem {mt : Str} {tag : String} (h : Document.MIMETYPE_BODYTAG_MAP.get mt = some tag) :
    tag ∈ ["office:text", "office:drawing", "office:presentation", "office:spreadsheet",
      "office:chart", "office:image"] := by
  have h1 := List.mem_map_of_mem (f := Prod.snd) (Dict.get_mem h)
  simpa [Document.MIMETYPE_BODYTAG_MAP] using h1

/-- The four attributes of a document and its shortcuts. -/
structure DocRefs (W : World) (tag : String) (d : DocTree) : Prop where
  stylesRoot : tagAt W d.styles.root = some "office:document-styles"
  contentRoot : tagAt W d.content.root = some "office:document-content"
  styles : StylesRefs W d.styles
  content : ContentRefs W d.content
  body : BodyRefs W d.content.body tag d.body
  sheets : d.sheets = d.body.sheets
  pages : d.pages = d.body.pages

/-- C63: a packaged document of a known type.  Stored parts keep all their nodes, contents and orders;
exactly the missing frame elements are added, each as the last child of its parent.  Parts that are
not stored are new trees of frame elements.  The attributes of the document denote the frame elements. -/
theorem C63_document {W : World} (hn : (ids W).Nodup) {so co : Option Nat} {mt : Str} {tag : String}
    (hmt : Document.MIMETYPE_BODYTAG_MAP.get mt = some tag)
    (hso : ∀ r, so = some r → tagAt W r = some "office:document-styles")
    (hco : ∀ r, co = some r → tagAt W r = some "office:document-content")
    (hm : co = none → mt ∈ Document.MIMETYPE_NSMAP) (hd : Declared W) :
    ∃ W' d, packagedTree mt so co W = (W', .ok d) ∧ DocRefs W' tag d ∧
      RootOf W W' "office:document-styles" so d.styles.root ∧
      RootOf W W' "office:document-content" co d.content.root ∧
      Ext W W' fun q => only W d.styles.root stylesFrame q ++ only W d.content.root contentFrame q ++
        only W d.content.body [tag] q ++ only W d.body.node bodyFrame q := by
  obtain ⟨W1, s, e1, o1, x1, r1⟩ := C63_styles hn hso
  have hs := mem_of_tagAt o1.1
  have hb := bodytag_mem hmt
  have hco1 : ∀ r, co = some r → tagAt W1 r = some "office:document-content" := fun r h => by
    rw [x1.tag (mem_of_tagAt (hco r h)), hco r h]
  obtain ⟨W2, c, e2, o2, x2, r2⟩ := C63_content x1.once hm hco1
  have hc := mem_of_tagAt o2.1
  have hst2 : tagAt W2 s.root = some "office:document-styles" := by rw [x2.tag hs, o1.1]
  have hcs : c.root ≠ s.root := fun e => by
    have h := o2.1
    rw [e, hst2] at h
    simp at h
  have hbt : tagAt W2 c.body = some "office:body" := by
    obtain ⟨_, _, _, h, _⟩ := r2.body
    exact h
  have hd1 : Declared W1 := hd.ext x1 fun v _ ha t ht => by
    rw [only_ne ha, o1.1]
    intro e
    have := Option.some.inj e
    subst this
    simp [bodyFrame] at ht
  have hd2 : Declared W2 := hd1.ext x2 fun v _ ha t ht => by
    rw [only_ne ha, o2.1]
    intro e
    have := Option.some.inj e
    subst this
    simp [bodyFrame] at ht
  obtain ⟨W3, b, e3, r3, x3⟩ := C63_body x2.once r2.body.mem (tag := tag)
    (fun h => by
      simp only [bodyFrame, List.mem_cons, List.not_mem_nil, or_false] at h hb
      rcases h with rfl | rfl <;> simp at hb)
    (fun t ht e => by
      rw [hbt] at e
      have := Option.some.inj e
      subst this
      simp [bodyFrame] at ht) hd2
  have hnt : tagAt W3 b.node = some tag := by
    obtain ⟨_, _, _, h, _⟩ := r3.node
    exact h
  have hst3 : tagAt W3 s.root = some "office:document-styles" := by rw [x3.tag (x2.mem hs), hst2]
  have hct3 : tagAt W3 c.root = some "office:document-content" := by rw [x3.tag hc, o2.1]
  have hbt3 : tagAt W3 c.body = some "office:body" := by rw [x3.tag r2.body.mem, hbt]
  have hne : ∀ {x y : Nat} {a b : String}, tagAt W3 x = some a → tagAt W3 y = some b → a ≠ b → x ≠ y :=
    fun hx hy h e => h (Option.some.inj (by rw [← hx, ← hy, e]))
  have tagne : ∀ a ∈ ["office:document-styles", "office:document-content", "office:body"], tag ≠ a := by
    intro a ha e
    subst e
    simp only [List.mem_cons, List.not_mem_nil, or_false] at ha hb
    rcases ha with rfl | rfl | rfl <;> simp at hb
  refine ⟨W3, ⟨s, c, b, b.sheets, b.pages⟩, ?_, ?_, (o1.ext x2).ext x3, ?_, ?_⟩
  · unfold packagedTree
    rw [Py.bind_ok e1, Py.bind_ok e2]
    simp only [hmt]
    rw [Py.bind_ok e3, Py.pure_def]
  · exact ⟨hst3, hct3, (r1.ext x2).ext x3, r2.ext x3, r3, rfl, rfl⟩
  · have o3 := o2.ext x3
    refine ⟨o3.1, ?_⟩
    cases co with
    | some g => exact o3.2
    | none => exact ⟨fun h => o3.2.1 (x1.mem h), o3.2.2⟩
  · have x12 := x1.trans x2 fun q hq => only_absent fun e => hq (e ▸ hs)
    have x123 := x12.trans x3 fun q hq => by
      have g1 : only W s.root stylesFrame q = [] := only_absent fun e => hq (e ▸ x2.mem hs)
      have g2 : only W1 c.root contentFrame q = [] := only_absent fun e => hq (e ▸ hc)
      rw [g1, g2]
      rfl
    refine x123.congr fun q _ => ?_
    dsimp only
    rw [only_congr (x1.untouched (p := c.root) (only_absent hcs)) contentFrame,
      only_congr (x12.untouched (p := c.body) ?_) [tag],
      only_congr (x12.untouched (p := b.node) ?_) bodyFrame, List.append_assoc, List.append_assoc,
      List.append_assoc]
    · rw [only_absent (hne hnt hst3 (tagne _ (by simp))), only_absent (hne hnt hct3 (tagne _ (by simp)))]
      rfl
    · rw [only_absent (hne hbt3 hst3 (by decide)), only_absent (hne hbt3 hct3 (by decide))]
      rfl

/-- C63: setting up a document that has all its frame elements changes nothing and gives the same
attributes. -/
theorem C63_complete {W : World} (hn : (ids W).Nodup) {mt : Str} {tag : String}
    (hmt : Document.MIMETYPE_BODYTAG_MAP.get mt = some tag) {d : DocTree} (h : DocRefs W tag d) :
    packagedTree mt (some d.styles.root) (some d.content.root) W = (W, .ok d) := by
  obtain ⟨s, c, b, sh, pg⟩ := d
  obtain ⟨h1, h2, h3, h4, h5, h6, h7⟩ := h
  dsimp only at h1 h2 h3 h4 h5 h6 h7
  obtain ⟨v, hv1, hv2⟩ := h5.vars
  obtain ⟨u, hu1, hu2⟩ := h5.fields
  have hs : stylesInit (some s.root) W = (W, .ok s) := by
    unfold stylesInit stylesSetup
    dsimp only
    rw [Py.bind_ok (tagOf_eq h1), if_pos rfl, Py.bind_ok (sub_ref hn h3.fonts),
      Py.bind_ok (sub_ref hn h3.styles), Py.bind_ok (sub_ref hn h3.automatic),
      Py.bind_ok (sub_ref hn h3.master), Py.pure_def]
  have hc : contentInit mt (some c.root) W = (W, .ok c) := by
    unfold contentInit contentSetup
    dsimp only
    rw [Py.bind_ok (tagOf_eq h2), if_pos rfl, Py.bind_ok (sub_ref hn h4.scripts),
      Py.bind_ok (sub_ref hn h4.fonts), Py.bind_ok (sub_ref hn h4.automatic),
      Py.bind_ok (sub_ref hn h4.body), Py.pure_def]
  have hnt : tagAt W b.node = some tag := by
    obtain ⟨_, _, _, h, _⟩ := h5.node
    exact h
  have hb : applicationBody c.body tag W = (W, .ok b) := by
    unfold applicationBody bodyInit
    rw [Py.bind_ok (sub_ref hn h5.node), Py.bind_ok (tagOf_eq hnt), Py.bind_ok (sub_ref hn hv1),
      Py.bind_ok hv2, Py.bind_ok (sub_ref hn hu1), Py.bind_ok hu2, Py.pure_def]
    have e1 := h5.sheets
    have e2 := h5.pages
    simp only [List.mem_cons, List.not_mem_nil, or_false] at e2
    rw [← e1, ← e2]
  unfold packagedTree
  rw [Py.bind_ok hs, Py.bind_ok hc]
  simp only [hmt]
  rw [Py.bind_ok hb, Py.pure_def, h6, h7]

/-- C63: opening the same trees a second time changes nothing. -/
theorem C63_again {W : World} (hn : (ids W).Nodup) {so co : Option Nat} {mt : Str} {tag : String}
    (hmt : Document.MIMETYPE_BODYTAG_MAP.get mt = some tag)
    (hso : ∀ r, so = some r → tagAt W r = some "office:document-styles")
    (hco : ∀ r, co = some r → tagAt W r = some "office:document-content")
    (hm : co = none → mt ∈ Document.MIMETYPE_NSMAP) (hd : Declared W) :
    ∃ W' d, packagedTree mt so co W = (W', .ok d) ∧
      packagedTree mt (some d.styles.root) (some d.content.root) W' = (W', .ok d) := by
  obtain ⟨W', d, h1, h2, _, _, h3⟩ := C63_document hn hmt hso hco hm hd
  exact ⟨W', d, h1, C63_complete h3.once hmt h2⟩

/-! ### Every outcome -/

/-- All tags of frame elements. -/
def frames : List String := stylesFrame ++ contentFrame ++ bodyFrame ++
  ["office:text", "office:drawing", "office:presentation", "office:spreadsheet", "office:chart",
    "office:image"]

/-- Only bare frame elements are added. -/
def Framed (W W' : World) : Prop :=
  ∃ add, Ext W W' add ∧ ∀ q, ∀ t ∈ add q, t ∈ frames

theorem Framed.refl {W : World} (hn : (ids W).Nodup) : Framed W W := ⟨_, Ext.refl hn, by simp⟩

theorem Framed.nodup {W W' : World} (h : Framed W W') : (ids W').Nodup := by
  obtain ⟨a, x, _⟩ := h
  exact x.once

theorem Framed.mem {W W' : World} (h : Framed W W') {i : Nat} (hi : i ∈ ids W) : i ∈ ids W' := by
  obtain ⟨a, x, _⟩ := h
  exact x.mem hi

theorem Framed.trans {W W1 W2 : World} (h : Framed W W1) (g : Framed W1 W2) : Framed W W2 := by
  obtain ⟨a, x, ha⟩ := h
  obtain ⟨b, y, hb⟩ := g
  have x' : Ext W W1 fun q => if q ∈ ids W1 then a q else [] := x.congr fun q hq => by simp [hq]
  refine ⟨_, x'.trans y fun q hq => by simp [hq], ?_⟩
  intro q t ht
  rcases List.mem_append.mp ht with ht | ht
  · split at ht
    · exact ha q t ht
    · cases ht
  · exact hb q t ht

theorem framed_only {W W' : World} {p : Nat} {T : List String} (h : Ext W W' (only W p T))
    (hT : ∀ t ∈ T, t ∈ frames) : Framed W W' := by
  refine ⟨_, h, fun q t ht => ?_⟩
  unfold only at ht
  split at ht
  · exact hT t (List.mem_of_mem_filter ht)
  · cases ht

theorem tagOf_mem {W : World} {r : Nat} (h : r ∈ ids W) : ∃ t, tagAt W r = some t := by
  obtain ⟨e, he⟩ := content_some h
  exact ⟨e.tag, by simp [tagAt, he]⟩

/-- C63: roots with other tags are refused and nothing changes; the styles part raises `NameError`,
because its message uses a name that does not exist. -/
theorem C63_wrong_root {W : World} {r : Nat} {t : String} (ht : tagAt W r = some t) (mt : Str) :
    (t ≠ "office:document-styles" → stylesInit (some r) W = (W, .error .NameError)) ∧
    (t ≠ "office:document-content" → contentInit mt (some r) W = (W, .error .ValueError)) := by
  constructor
  · intro h
    unfold stylesInit
    dsimp only
    rw [Py.bind_ok (tagOf_eq ht), if_neg h]
    rfl
  · intro h
    unfold contentInit
    dsimp only
    rw [Py.bind_ok (tagOf_eq ht), if_neg h]
    rfl

theorem styles_framed {W : World} (hn : (ids W).Nodup) {o : Option Nat}
    (ho : ∀ r, o = some r → r ∈ ids W) :
    (∃ W' s, stylesInit o W = (W', .ok s) ∧ Framed W W') ∨ ∃ e, stylesInit o W = (W, .error e) := by
  have good : (∀ r, o = some r → tagAt W r = some "office:document-styles") →
      ∃ W' s, stylesInit o W = (W', .ok s) ∧ Framed W W' := fun h => by
    obtain ⟨W', s, e, _, x, _⟩ := C63_styles hn h
    exact ⟨W', s, e, framed_only x (by decide)⟩
  cases o with
  | none => exact Or.inl (good (by simp))
  | some r =>
    obtain ⟨t, ht⟩ := tagOf_mem (ho r rfl)
    by_cases h : t = "office:document-styles"
    · exact Or.inl (good fun q hq => by rw [← Option.some.inj hq, ht, h])
    · exact Or.inr ⟨_, (C63_wrong_root ht []).1 h⟩

theorem content_framed {W : World} (hn : (ids W).Nodup) {o : Option Nat} (mt : Str)
    (ho : ∀ r, o = some r → r ∈ ids W) :
    (∃ W' s, contentInit mt o W = (W', .ok s) ∧ Framed W W' ∧ s.body ∈ ids W') ∨
      ∃ e, contentInit mt o W = (W, .error e) := by
  have good : (o = none → mt ∈ Document.MIMETYPE_NSMAP) →
      (∀ r, o = some r → tagAt W r = some "office:document-content") →
      ∃ W' s, contentInit mt o W = (W', .ok s) ∧ Framed W W' ∧ s.body ∈ ids W' := fun hm h => by
    obtain ⟨W', s, e, _, x, r⟩ := C63_content hn hm h
    exact ⟨W', s, e, framed_only x (by decide), r.body.mem⟩
  cases o with
  | none =>
    by_cases hm : mt ∈ Document.MIMETYPE_NSMAP
    · exact Or.inl (good (fun _ => hm) (by simp))
    · exact Or.inr ⟨.KeyError, by simp [contentInit, hm, Py.raise]⟩
  | some r =>
    obtain ⟨t, ht⟩ := tagOf_mem (ho r rfl)
    by_cases h : t = "office:document-content"
    · exact Or.inl (good (by simp) fun q hq => by rw [← Option.some.inj hq, ht, h])
    · exact Or.inr ⟨_, (C63_wrong_root ht mt).2 h⟩

theorem body_framed {W : World} (hn : (ids W).Nodup) {f : Nat} (hf : f ∈ ids W) {tag : String}
    (htag : tag ∈ frames) : Framed W (applicationBody f tag W).1 := by
  obtain ⟨W1, n, e1, x1, r1, _⟩ := sub_spec hn hf tag
  obtain ⟨W2, v, e2, x2, r2, _⟩ := sub_spec x1.once r1.mem "text:variable-decls"
  obtain ⟨W3, u, e3, x3, r3, _⟩ := sub_spec x2.once (x2.mem r1.mem) "text:user-field-decls"
  obtain ⟨t, ht⟩ := tagOf_mem r1.mem
  have f12 : Framed W W2 := (framed_only x1 (by simpa using htag)).trans (framed_only x2 (by decide))
  have f13 : Framed W W3 := f12.trans (framed_only x3 (by decide))
  unfold applicationBody bodyInit
  rw [Py.bind_ok e1, Py.bind_ok (tagOf_eq ht), Py.bind_ok e2]
  rcases init_cases r2.mem with ⟨d, h⟩ | h
  · rw [Py.bind_ok h, Py.bind_ok e3]
    rcases init_cases r3.mem with ⟨d', h'⟩ | h'
    · rw [Py.bind_ok h', Py.pure_def]; exact f13
    · rw [Py.bind_error h']; exact f13
  · rw [Py.bind_error h]; exact f12

/-- **C63** a mimetype without a body: KeyError, if the roots are as they should be. -/
theorem C63_unknown_type {W : World} (hn : (ids W).Nodup) {so co : Option Nat} {mt : Str}
    (hmt : Document.MIMETYPE_BODYTAG_MAP.get mt = none)
    (hso : ∀ r, so = some r → tagAt W r = some "office:document-styles")
    (hco : ∀ r, co = some r → tagAt W r = some "office:document-content") :
    (packagedTree mt so co W).2 = .error .KeyError := by
  obtain ⟨W1, s, e1, o1, x1, r1⟩ := C63_styles hn hso
  have hco1 : ∀ r, co = some r → tagAt W1 r = some "office:document-content" := fun r h => by
    rw [x1.tag (mem_of_tagAt (hco r h)), hco r h]
  unfold packagedTree
  rw [Py.bind_ok e1]
  by_cases hm : co = none → mt ∈ Document.MIMETYPE_NSMAP
  · obtain ⟨W2, c, e2, -⟩ := C63_content x1.once hm hco1
    rw [Py.bind_ok e2, hmt]
    rfl
  · obtain ⟨rfl, hm2⟩ := Classical.not_imp.mp hm
    have : contentInit mt none W1 = (W1, .error .KeyError) := by
      unfold contentInit
      rw [if_neg hm2]
      rfl
    rw [Py.bind_error this]

example : Document.MIMETYPE_BODYTAG_MAP.get "text/plain".toList = none := by decide +kernel

/-- C63: whatever the stored trees are and whether the constructor returns or raises, the trees have
got bare frame elements at most. -/
theorem C63_always {W : World} (hn : (ids W).Nodup) {so co : Option Nat} (mt : Str)
    (hso : ∀ r, so = some r → r ∈ ids W) (hco : ∀ r, co = some r → r ∈ ids W) :
    Framed W (packagedTree mt so co W).1 := by
  unfold packagedTree
  rcases styles_framed hn hso with ⟨W1, s, e1, f1⟩ | ⟨e, e1⟩
  · rw [Py.bind_ok e1]
    rcases content_framed f1.nodup mt (fun r h => f1.mem (hco r h)) with ⟨W2, c, e2, f2, hb⟩ | ⟨e, e2⟩
    · rw [Py.bind_ok e2]
      cases hg : Document.MIMETYPE_BODYTAG_MAP.get mt with
      | none => exact f1.trans f2
      | some tag =>
        have ht : tag ∈ frames := List.mem_append_right _ (bodytag_mem hg)
        have f3 := body_framed f2.nodup hb ht
        dsimp only
        cases he : applicationBody c.body tag W2 with
        | mk W3 res =>
          rw [he] at f3
          cases res with
          | ok b => rw [Py.bind_ok he, Py.pure_def]; exact f1.trans (f2.trans f3)
          | error x => rw [Py.bind_error he]; exact f1.trans (f2.trans f3)
    · rw [Py.bind_error e2]; exact f1
  · rw [Py.bind_error e1]; exact Framed.refl hn

/-! ### A concrete document -/

/-- A stored content.xml with a body, two tables and a foreign element, and no other frame elements. -/
def stored : World :=
  .cons ⟨0, "office:document-content", [("office:version", ['1'])], none, none⟩
    (.cons ⟨1, "office:body", [], none, none⟩
      (.cons ⟨2, "office:spreadsheet", [], none, none⟩
        (.cons ⟨3, "table:table", [("table:name", ['A'])], none, none⟩ .nil
          (.cons ⟨4, "table:table", [("table:name", ['B'])], none, none⟩ .nil .nil)) .nil)
      (.cons ⟨5, "x:other", [], some ['t'], none⟩ .nil .nil)) .nil

def spreadsheet : Str := "application/vnd.oasis.opendocument.spreadsheet".toList

theorem stored_declared : Declared stored := by
  intro v hv t ht h
  have : ∀ v ∈ ids stored, ∀ t ∈ bodyFrame, tagAt stored v ≠ some t := by decide +kernel
  exact absurd h (this v hv t ht)

/-- The hypotheses of the theorems hold for a stored content.xml and no styles.xml. -/
example : ∃ W' d, packagedTree spreadsheet none (some 0) stored = (W', .ok d) ∧
    DocRefs W' "office:spreadsheet" d ∧ d.content.root = 0 ∧ d.sheets = some d.body.node := by
  obtain ⟨W', d, h1, h2, _, h3, _⟩ := C63_document (W := stored) (by decide) (so := none) (co := some 0)
    (mt := spreadsheet) (tag := "office:spreadsheet") (by decide +kernel) (by simp)
    (fun r h => by rw [← Option.some.inj h]; decide +kernel) (by simp) stored_declared
  exact ⟨W', d, h1, h2, h3.2, by rw [h2.sheets, h2.body.sheets]; simp⟩

/-- What happens to it. -/
example :
    let W' := (packagedTree spreadsheet none (some 0) stored).1
    kidTags W' 0 = ["office:body", "x:other", "office:scripts", "office:font-face-decls",
      "office:automatic-styles"].map some ∧
    kidTags W' 1 = [some "office:spreadsheet"] ∧
    kidTags W' 2 = ["table:table", "table:table", "text:variable-decls",
      "text:user-field-decls"].map some := by decide +kernel

/-! # C64: frame elements are in the order of the schema -/

/-- The children of `r` that are frame elements `T` stand in the order of `T`. -/
def Ordered (W : World) (r : Nat) (T : List String) : Prop :=
  ((kidTags W r).filter fun t => t ∈ T.map some).Sublist (T.map some)

theorem missing_new {W : World} {r : Nat} (h : r ∉ ids W) (T : List String) : missing W r T = T := by
  unfold missing kidTags
  rw [kidsOf_none h]
  simp

/-- C64, partial: parts that are not stored get all frame elements in the order of the schema, and
nothing else.  Missing: stored parts without some of the elements (`C64_refuted`). -/
theorem C64_new_partial {W : World} (hn : (ids W).Nodup) {mt : Str} {tag : String}
    (hmt : Document.MIMETYPE_BODYTAG_MAP.get mt = some tag) (hm : mt ∈ Document.MIMETYPE_NSMAP)
    (hd : Declared W) :
    ∃ W' d, packagedTree mt none none W = (W', .ok d) ∧
      kidTags W' d.styles.root = stylesFrame.map some ∧
      kidTags W' d.content.root = contentFrame.map some ∧
      kidTags W' d.content.body = [some tag] ∧
      kidTags W' d.body.node = bodyFrame.map some := by
  obtain ⟨W', d, h1, h2, h3, h4, h5⟩ := C63_document hn hmt (so := none) (co := none) (by simp)
    (by simp) (fun _ => hm) hd
  have hb := bodytag_mem hmt
  have newer : ∀ {p c : Nat} {t : String}, Ref W' p t c → p ∉ ids W → c ∉ ids W := by
    intro p c t ⟨A, B, k1, _⟩ hp
    obtain ⟨m, k2, k3, _⟩ := h5.kids p (mem_of_children k1)
    rw [kidsOf_none hp, List.nil_append, k1] at k2
    exact k3 c (by rw [← Option.some.inj k2]; simp)
  have n3 := newer h2.content.body h4.2.1
  have n4 := newer h2.body.node n3
  have hbt : tagAt W' d.content.body = some "office:body" := by
    obtain ⟨_, _, _, h, _⟩ := h2.content.body
    exact h
  have hnt : tagAt W' d.body.node = some tag := by
    obtain ⟨_, _, _, h, _⟩ := h2.body.node
    exact h
  have hne : ∀ {x y : Nat} {a b : String}, tagAt W' x = some a → tagAt W' y = some b → a ≠ b → x ≠ y :=
    fun hx hy h e => h (Option.some.inj (by rw [← hx, ← hy, e]))
  have tagne : ∀ a ∈ ["office:document-styles", "office:document-content", "office:body"], tag ≠ a := by
    intro a ha e
    subst e
    simp only [List.mem_cons, List.not_mem_nil, or_false] at ha hb
    rcases ha with rfl | rfl | rfl <;> simp at hb
  have hs := h2.stylesRoot
  have hc := h2.contentRoot
  have k12 := hne hs hc (by decide)
  have k13 := hne hs hbt (by decide)
  have k23 := hne hc hbt (by decide)
  have k14 := hne hs hnt (tagne _ (by simp)).symm
  have k24 := hne hc hnt (tagne _ (by simp)).symm
  have k34 := hne hbt hnt (tagne _ (by simp)).symm
  have old : ∀ {p : Nat}, p ∉ ids W → kidTags W p = [] := fun h => by simp [kidTags, kidsOf_none h]
  refine ⟨W', d, h1, ?_, ?_, ?_, ?_⟩
  · rw [h5.kidTags (mem_of_tagAt hs), old h3.2.1]
    simp [only, k12, k13, k14, missing_new h3.2.1]
  · rw [h5.kidTags (mem_of_tagAt hc), old h4.2.1]
    simp [only, k12.symm, k23, k24, missing_new h4.2.1]
  · rw [h5.kidTags (mem_of_tagAt hbt), old n3]
    simp [only, k13.symm, k23.symm, k34, missing_new n3]
  · rw [h5.kidTags (mem_of_tagAt hnt), old n4]
    simp [only, k14.symm, k24.symm, k34.symm, missing_new n4]

example : ∃ W' d, packagedTree spreadsheet none none .nil = (W', .ok d) ∧
    kidTags W' d.content.root = contentFrame.map some ∧ Ordered W' d.content.root contentFrame := by
  obtain ⟨W', d, h1, _, h3, _⟩ := C64_new_partial (W := .nil) (by decide) (mt := spreadsheet)
    (tag := "office:spreadsheet") (by decide +kernel) (by decide +kernel) (by intro v hv; cases hv)
  refine ⟨W', d, h1, h3, ?_⟩
  unfold Ordered
  rw [h3]
  exact List.filter_sublist

/-- C64, partial: a stored part whose frame elements are a beginning of the frame stays in order. -/
theorem C64_stored_partial {W W' : World} {r : Nat} {T A B : List String} (hr : r ∈ ids W)
    (hT : T = A ++ B) (hTn : T.Nodup) (h : Ext W W' (only W r T))
    (hk : (kidTags W r).filter (fun t => t ∈ T.map some) = A.map some) :
    Ordered W' r T := by
  unfold Ordered
  rw [h.kidTags (h.mem hr), List.filter_append, hk]
  have h1 : only W r T r = B := by
    unfold only missing
    rw [if_pos rfl, hT, List.filter_append]
    have hmem : ∀ t, t ∈ T → (some t ∈ kidTags W r ↔ t ∈ A) := by
      intro t ht
      have : some t ∈ (kidTags W r).filter (fun t => t ∈ T.map some) ↔ some t ∈ kidTags W r := by
        simp [List.mem_filter, ht]
      rw [← this, hk]
      simp
    rw [hT] at hTn
    have hdis := (List.nodup_append.mp hTn).2.2
    have e1 : A.filter (fun t => some t ∉ kidTags W r) = [] := by
      rw [List.filter_eq_nil_iff]
      intro t ht
      have := (hmem t (by rw [hT]; simp [ht])).mpr ht
      simp [this]
    have e2 : B.filter (fun t => some t ∉ kidTags W r) = B := by
      rw [List.filter_eq_self]
      intro t ht
      have : some t ∉ kidTags W r := fun h =>
        hdis t ((hmem t (by rw [hT]; simp [ht])).mp h) t ht rfl
      simp [this]
    rw [e1, e2]
    rfl
  rw [h1]
  have h2 : (B.map some).filter (fun t => t ∈ T.map some) = B.map some := by
    rw [List.filter_eq_self]
    intro t ht
    obtain ⟨b, hb, rfl⟩ := List.mem_map.mp ht
    simp [hT, hb]
  rw [h2, hT, List.map_append]

/-- A content.xml with scripts, a foreign element and font declarations: the hypotheses are met. -/
example : ∃ W W' s, contentInit spreadsheet (some 0) W = (W', .ok s) ∧ s.root = 0 ∧
    kidTags W 0 = [some "office:scripts", some "x:other", some "office:font-face-decls"] ∧ Ordered W' 0 contentFrame := by
  let W : World := .cons ⟨0, "office:document-content", [], none, none⟩
    (.cons ⟨1, "office:scripts", [], none, none⟩ .nil (.cons ⟨2, "x:other", [], none, none⟩ .nil
      (.cons ⟨3, "office:font-face-decls", [], none, none⟩ .nil .nil))) .nil
  have hk : kidTags W 0 = [some "office:scripts", some "x:other", some "office:font-face-decls"] := by decide +kernel
  obtain ⟨W', s, h1, h2, h3, -⟩ := C63_content (W := W) (by decide) (o := some 0) (mt := spreadsheet) (by simp)
    (fun r h => by rw [← Option.some.inj h]; decide +kernel)
  have hr : s.root = 0 := h2.2
  refine ⟨W, W', s, h1, hr, hk, ?_⟩
  rw [hr] at h3
  refine C64_stored_partial (A := ["office:scripts", "office:font-face-decls"])
    (B := ["office:automatic-styles", "office:body"]) (by decide) (by decide +kernel) (by decide +kernel) h3 ?_
  rw [hk]
  decide +kernel

/-- C64 is false: a stored content.xml with a body only gets the other frame elements after the body,
and a spreadsheet gets its declarations after the tables. -/
theorem C64_refuted : ¬ ∀ (W W' : World) (r : Nat) (c : ContentPart), (ids W).Nodup →
    Ordered W r contentFrame → contentInit spreadsheet (some r) W = (W', .ok c) →
    Ordered W' r contentFrame := by
  intro h
  have h1 := C63_content (W := stored) (by decide) (o := some 0) (mt := spreadsheet) (by simp)
    (fun r h => by rw [← Option.some.inj h]; decide +kernel)
  obtain ⟨W', c, e, _⟩ := h1
  have h2 := h stored W' 0 c (by decide) (by unfold Ordered; decide +kernel) e
  have h3 : W' = (contentInit spreadsheet (some 0) stored).1 := by rw [e]
  rw [h3] at h2
  revert h2
  unfold Ordered
  decide +kernel

end Verif.Parts
