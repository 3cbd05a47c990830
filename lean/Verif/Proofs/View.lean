import Verif.Props.PageProgram
/-!
Helper lemmas for C87: what a statement with one document does to another one.  The other document is `d`; for it, the body
that the statement works on is an element like any other.
-/
namespace Verif.View
open Verif Verif.Lxml Forest Verif.Whole Verif.Document Verif.TextProg
set_option linter.unusedSimpArgs false

variable {F : Nat → Prop} {tag : String} {d : Parts.DocTree} {α β : Type} {U : List Nat} {p : Prog}

/-- The numbers of the objects that a statement uses -/
def uses : TextProg.Act → List Nat
  | .paragraph .. | .span .. | .heading .. | .link .. | .list .. | .item .. | .header .. | .section_ .. | .ezlist .. => []
  | .numbered i | .appendText i _ | .setText i _ | .setTail i _ | .setString i .. | .setAttr i .. | .clear i => [i]
  | .setHeader i j => [i, j]
  | .append t i | .insert t _ i | .remove t i | .set t _ i => t.toList ++ [i]
  | .insertBefore t j i | .replace t j i => t.toList ++ [j, i]
  | .get t _ | .delete t _ => t.toList

/-- The numbers of the objects that a statement with pages uses -/
def pageUses : PageProg.Act → List Nat
  | .text a => uses a
  | .append i | .insert _ i | .set _ i => [i]
  | .page _ | .get _ | .delete _ => []

/-- The document `d` is in order; the objects in use and the body in use are free nodes for it (or the body is its own). -/
structure Sees (F : Nat → Prop) (tag : String) (d : Parts.DocTree) (U : List Nat) (p : Prog) : Prop where
  kept : Kept F p.world tag d
  objs : ∀ k ∈ U, ∀ n, p.objs[k]? = some n → Loose F p.world n
  body : Place F p.world d p.session.tree.body.node

/-- The document `d` is in order after the statement, and new objects are free nodes for it. -/
structure Sent (F : Nat → Prop) (tag : String) (d : Parts.DocTree) (p q : Prog) : Prop where
  step : Step F p.world q.world tag d
  objs : ∀ n ∈ q.objs, n ∈ p.objs ∨ Loose F q.world n

theorem Sent.refl (h : Sees F tag d U p) : Sent F tag d p p := ⟨.refl h.kept, fun _ hn => .inl hn⟩

theorem onWorld_sent {m : Py World α} {Q : World → α → Prop} (hm : Does F tag d p.world (m p.world) Q) :
    Sent F tag d p (onWorld m p).1 := ⟨hm.1, fun _ hn => .inl hn⟩

theorem void_sent {q : Prog} {m : Py Prog α} (h : Sent F tag d q (m p).1) :
    Sent F tag d q ((do let _ ← m; pure () : Py Prog Unit) p).1 := by
  cases hm : m p with
  | mk p' r =>
    rw [hm] at h
    cases r with
    | error e => rw [Py.bind_error hm]; exact h
    | ok a => rw [Py.bind_ok hm]; exact h

theorem keep_sent {m : Py World Nat} (hm : Does F tag d p.world (m p.world) (Loose F)) :
    Sent F tag d p (keep m p).1 := by
  unfold keep
  cases hr : m p.session.world with
  | mk W r =>
    have hr' : m p.world = (W, r) := hr
    have ho : onWorld m p = ({ p with session := { p.session with world := W } }, r) := by unfold onWorld; rw [hr]
    rw [hr'] at hm
    cases r with
    | error e => rw [Py.bind_error ho]; exact ⟨hm.1, fun _ hn => .inl hn⟩
    | ok n =>
      rw [Py.bind_ok ho]
      refine ⟨hm.1, fun x hx => ?_⟩
      rcases List.mem_append.mp hx with h1 | h1
      · exact .inl h1
      · rw [List.mem_singleton.mp h1]; exact .inr (hm.2 n rfl)

theorem one_sent (h : Sees F tag d U p) {i : Nat} (hi : i ∈ U) {f : Nat → Py Prog α}
    (hf : ∀ c, Loose F p.world c → Sent F tag d p (f c p).1) : Sent F tag d p ((obj i >>= f) p).1 := by
  cases ho : p.objs[i]? with
  | none =>
    have : obj i p = (p, .error .NameError) := by unfold obj; rw [ho]
    rw [Py.bind_error this]; exact .refl h
  | some n =>
    rw [Py.bind_ok (obj_ok ho)]
    exact hf n (h.objs i hi n ho)

theorem place_sent (h : Sees F tag d U p) {t : Option Nat} (hU : t.toList ⊆ U) {f : Nat → Py Prog α}
    (hf : ∀ n, (target t p).2 = .ok n → Place F p.world d n → (t ≠ none → n ≠ d.body.node) →
      Sent F tag d p (f n p).1) : Sent F tag d p ((target t >>= f) p).1 := by
  cases t with
  | none =>
    have e : target none p = (p, .ok p.session.tree.body.node) := rfl
    rw [Py.bind_ok e]
    exact hf _ rfl h.body fun hn => absurd rfl hn
  | some i =>
    cases ho : p.objs[i]? with
    | none =>
      have : target (some i) p = (p, .error .NameError) := by show obj i p = _; unfold obj; rw [ho]
      rw [Py.bind_error this]; exact .refl h
    | some n =>
      have e : target (some i) p = (p, .ok n) := obj_ok ho
      have hl := h.objs i (hU (by simp)) n ho
      rw [Py.bind_ok e]
      refine hf n (by rw [e]) (.inr hl) fun _ hb => hl.free ?_
      rw [hb]; exact h.kept.frame _ (by simp)

theorem elem_sent {c : Nat} (h : Sees F tag d U p) {f : Elem → Py Prog α}
    (hf : ∀ e, Sent F tag d p (f e p).1) : Sent F tag d p ((onWorld (Vars.elem c) >>= f) p).1 := by
  cases hr : Vars.elem c p.session.world with
  | mk W r =>
    have e := elem_read (W := p.session.world) c
    rw [hr] at e
    dsimp only at e
    subst e
    have ho : onWorld (Vars.elem c) p = (p, r) := by unfold onWorld; rw [hr]
    cases r with
    | error e => rw [Py.bind_error ho]; exact .refl h
    | ok x => rw [Py.bind_ok ho]; exact hf x

/-- A statement with text objects, seen from the document `d` -/
theorem exec_sent {a : TextProg.Act} (h : Sees F tag d (uses a) p) (ha : TextProg.Allowed p a) :
    Sent F tag d p (TextProg.exec a p).1 := by
  have hk := h.kept
  cases a with
  | paragraph text style => exact void_sent (keep_sent (newSpan_does (t := "text:p") hk (by decide) text style))
  | span text style => exact void_sent (keep_sent (newSpan_does (t := "text:span") hk (by decide) text style))
  | heading text level style => exact void_sent (keep_sent (newHeading_does hk text level style))
  | link href text style => exact void_sent (keep_sent (newLink_does hk href text style))
  | list style => exact void_sent (keep_sent (newList_does hk style))
  | item text => exact void_sent (keep_sent (newLister_does (t := "text:list-item") hk (by decide) text))
  | header text => exact void_sent (keep_sent (newLister_does (t := "text:list-header") hk (by decide) text))
  | section_ name style => exact void_sent (keep_sent (newSection_does hk name style))
  | numbered i => exact one_sent h (by simp [uses]) fun c hc => void_sent (keep_sent (newNumbered_does hk hc))
  | ezlist items header style => exact void_sent (keep_sent (ezlist_does hk items header style))
  | appendText i s =>
    refine one_sent h (by simp [uses]) fun c hc => elem_sent h fun e => ?_
    split
    · exact onWorld_sent (appendText_does hk hc s)
    · exact .refl h
  | setHeader i j =>
    refine one_sent h (by simp [uses]) fun c hc => one_sent h (by simp [uses]) fun c' hc' => elem_sent h fun e => ?_
    split
    · exact onWorld_sent (setHeader_does hk hc hc')
    · exact .refl h
  | setText i s => exact one_sent h (by simp [uses]) fun c hc => onWorld_sent (setText_does hk hc.free s)
  | setTail i s => exact one_sent h (by simp [uses]) fun c hc => onWorld_sent (setTail_does hk hc.free s)
  | setString i k s => exact one_sent h (by simp [uses]) fun c hc => onWorld_sent (setString_does hk hc.free k s)
  | setAttr i k s => exact one_sent h (by simp [uses]) fun c hc => onWorld_sent (setAttr_does hk hc.free k s)
  | append t i =>
    refine place_sent h (by simp [uses]) fun n _ hn _ => one_sent h (by simp [uses]) fun c hc =>
      void_sent (onWorld_sent (Q := fun _ _ => True) ?_)
    cases t with
    | none => exact bodyAppend_does hk hn hc
    | some _ => exact (append_does hk hn hc).imp fun _ _ _ => trivial
  | insert t index i =>
    exact place_sent h (by simp [uses]) fun n _ hn _ => one_sent h (by simp [uses]) fun c hc =>
      void_sent (onWorld_sent (insert_does hk index hn hc))
  | insertBefore t j i =>
    refine place_sent h (by simp [uses]) fun n _ hn _ => one_sent h (by simp [uses]) fun c' hc' =>
      one_sent h (by simp [uses]) fun c hc => void_sent (onWorld_sent (Q := fun _ _ => True) ?_)
    unfold Base.insertBefore
    refine .bind (.read hk (index_read n c') (Q := fun _ _ => True) fun _ _ => trivial) fun W1 k h1 _ => ?_
    refine .bind (insert_does h1.1 k (h1.place hn) (h1.2 c hc)) fun W2 _ h2 _ => ?_
    exact .pure h2.1 trivial
  | remove t i =>
    exact place_sent h (by simp [uses]) fun n _ hn _ => one_sent h (by simp [uses]) fun c hc =>
      onWorld_sent (.of (remove_step hk n hc.free))
  | replace t i j =>
    exact place_sent h (by simp [uses]) fun n _ hn _ => one_sent h (by simp [uses]) fun c hc =>
      one_sent h (by simp [uses]) fun c' hc' => onWorld_sent (.of (replace_step hk hn hc.free hc'))
  | get t index =>
    refine place_sent h (by simp [uses]) fun n hn0 hn _ => void_sent (keep_sent (.read hk ?_ fun c hc => ?_))
    · exact getitem_read n index
    · have hc : (Lxml.getitem n index p.world).2 = .ok c := hc
      have hall := ha c ⟨n, hn0, hc⟩
      obtain ⟨h1, h2⟩ := found_free hk hn hc fun _ tg htg => hall tg (List.mem_append_left _ htg)
      exact ⟨h1, h2, fun tg htg => hall tg (List.mem_append_left _ htg)⟩
  | set t index i =>
    refine place_sent h (by simp [uses]) fun n hn0 hn hb => one_sent h (by simp [uses]) fun c hc =>
      onWorld_sent (Q := fun _ _ => True) ?_
    unfold Base.setChild
    rcases getitem_spec (W := p.world) (p := n) (i := index) with ⟨e, he⟩ | ⟨s, u, he, -, -⟩
    · rw [Py.bind_error he]; exact Does.raise (e := e) hk
    · rw [Py.bind_ok he]
      refine .of (replace_step hk hn (found_free hk hn (by rw [he]) fun hb' tg htg => ?_).2 hc)
      cases t with
      | none => exact ha s ⟨n, hn0, by rw [he]⟩ tg htg
      | some j => exact absurd hb' (hb (by simp))
  | delete t index =>
    refine place_sent h (by simp [uses]) fun n hn0 hn hb =>
      onWorld_sent (Q := fun _ _ => True) (.of (delitem_step hk fun s hs => ?_))
    refine (found_free hk hn (by rw [hs]) fun hb' tg htg => ?_).2
    cases t with
    | none => exact ha s ⟨n, hn0, by rw [hs]⟩ tg htg
    | some j => exact absurd hb' (hb (by simp))
  | clear i => exact one_sent h (by simp [uses]) fun c hc => onWorld_sent (.of (clear_step hk hc.free))

/-! ## Statements with pages -/

open Verif.PageProg (onPages onText child take pageList child_ok child_none)

variable {pick : Nat → List Nat → Nat} {P : PageProg.Prog}

theorem place_mem {W : World} (h : Kept F W tag d) {n : Nat} (hn : Place F W d n) : n ∈ ids W := by
  rcases hn with rfl | hn
  · exact h.mem _ (h.frame _ (by simp))
  · exact hn.mem

theorem page_loose (h : Sees F tag d U P.text) {n : Nat} (hn : n ∈ pageList P) : Loose F P.world n := by
  obtain ⟨l, hl, hm, ht⟩ := Pages.chosen_mem hn
  rw [children_node] at hl
  obtain ⟨⟨e, l'⟩, hnode, rfl⟩ := Option.map_eq_some_iff.mp hl
  have htag : ∀ t ∈ TextProg.declTags, Parts.tagAt P.world n ≠ some t := by
    intro t hd he
    have he : Pages.tagOf P.world n = some t := he
    rw [ht] at he
    simp only [TextProg.declTags, List.mem_cons, List.not_mem_nil, or_false, Option.some.injEq] at hd he
    rcases hd with rfl | rfl <;> exact absurd he (by decide)
  refine ⟨node_child hnode hm, ?_, htag⟩
  rcases h.body with hb | hb
  · rw [hb] at hnode
    exact (h.kept.free _ _ _ hnode hm).mpr htag
  · exact fun hf => hb.free (h.kept.up _ _ _ n hnode hm hf)

theorem onPages_sent {m : Pages.Container → Py Pages.S α} (h : Sees F tag d U P.text)
    (hp : ∀ b, P.text.session.tree.pages = some b → b = P.text.session.tree.body.node)
    (hm : Step F P.world (m (Pages.pages P.text.session.tree.body.node) ⟨P.world, P.heap⟩).1.world tag d) :
    Sent F tag d P.text (onPages m P).1.text := by
  unfold onPages
  split
  · exact .refl h
  · rename_i b hb
    rw [hp b hb]
    exact ⟨hm, fun _ hn => .inl hn⟩

theorem child_sent (h : Sees F tag d U P.text) {i : Nat} (hi : i ∈ U) {f : Pages.Child → Py PageProg.Prog β}
    (hf : ∀ c, Loose F P.world c.xmlnode → Sent F tag d P.text (f c P).1.text) :
    Sent F tag d P.text ((child i >>= f) P).1.text := by
  cases ho : P.text.objs[i]? with
  | none => rw [Py.bind_error (child_none ho)]; exact .refl h
  | some n =>
    rw [Py.bind_ok (child_ok ho)]
    exact hf _ (h.objs i hi n ho)

theorem void_page {q : Prog} {m : Py PageProg.Prog β} (h : Sent F tag d q (m P).1.text) :
    Sent F tag d q ((do let _ ← m; pure () : Py PageProg.Prog Unit) P).1.text := by
  cases hm : m P with
  | mk q r =>
    rw [hm] at h
    cases r with
    | error e => rw [Py.bind_error hm]; exact h
    | ok a => rw [Py.bind_ok hm]; exact h

/-- A statement, seen from the document `d` -/
theorem page_sent (hpick : ∀ k l, pick k l ∉ l) {a : PageProg.Act} (h : Sees F tag d (pageUses a) P.text)
    (hi : WrapCache.Inv P.heap) (hp : ∀ b, P.text.session.tree.pages = some b → b = P.text.session.tree.body.node)
    (ha : PageProg.Allowed P a) : Sent F tag d P.text (PageProg.exec pick a P).1.text := by
  have hk := h.kept
  have hget := Pages.getitem_ok hpick (Pages.pages P.text.session.tree.body.node) (s := ⟨P.world, P.heap⟩) hk.once hi
    (place_mem hk h.body)
  cases a with
  | text a => exact exec_sent h ha
  | page name =>
    refine void_sent (p := P.text) (keep_sent ?_)
    unfold PageProg.newPage
    refine .bind (newNode_does hk _ (by decide)) fun W1 n h1 hn => ?_
    refine .bind (setAttr_does h1.1 hn.free _ _) fun W2 _ h2 _ => ?_
    exact .pure h2.1 (h2.2 n hn)
  | append i =>
    refine child_sent h (by simp [pageUses]) fun c hc => void_page (onPages_sent h hp ?_)
    unfold Pages.append
    split
    · have := append_step hk h.body hc
      cases hx : Lxml.append P.text.session.tree.body.node c.xmlnode P.world with
      | mk W r =>
        have h1 := hx
        have this : Step F P.world (Lxml.append P.text.session.tree.body.node c.xmlnode P.world).1 tag d := this
        rw [h1] at this
        have h2 : Pages.onWorld (Lxml.append (Pages.pages P.text.session.tree.body.node).xmlnode c.xmlnode)
            ⟨P.world, P.heap⟩ = (⟨W, P.heap⟩, r) := Pages.onWorld_ok hx
        cases r with
        | error e => rw [Py.bind_error h2]; exact this
        | ok u => rw [Py.bind_ok h2]; exact this
    · exact .refl hk
  | insert index i =>
    refine child_sent h (by simp [pageUses]) fun c hc => void_page (onPages_sent h hp ?_)
    unfold Pages.insert
    have : Step F P.world (Lxml.insert P.text.session.tree.body.node index c.xmlnode P.world).1 tag d :=
      insert_step hk index h.body hc
    cases hx : Lxml.insert P.text.session.tree.body.node index c.xmlnode P.world with
    | mk W r =>
      rw [hx] at this
      have h2 : Pages.onWorld (Lxml.insert (Pages.pages P.text.session.tree.body.node).xmlnode index c.xmlnode)
          ⟨P.world, P.heap⟩ = (⟨W, P.heap⟩, r) := Pages.onWorld_ok hx
      cases r with
      | error e => rw [Py.bind_error h2]; exact this
      | ok u => rw [Py.bind_ok h2]; exact this
  | get key =>
    show Sent F tag d P.text ((onPages (fun pages => Pages.getitem pick pages key) >>= take) P).1.text
    unfold onPages
    rw [Py.bind_def]
    cases hb : P.text.session.tree.pages with
    | none => exact .refl h
    | some b =>
      dsimp only
      rw [hp b hb]
      specialize hget key
      split at hget
      · rename_i n hl
        obtain ⟨s', o, e1, e2, e3⟩ := hget
        have e1' : Pages.getitem pick (Pages.pages P.text.session.tree.body.node) key ⟨P.text.session.world, P.heap⟩ =
          (s', .ok o) := e1
        rw [e1']
        have hw : s'.world = P.world := e2.world
        have hno : o.node = n := e3.node e2.inv
        have hl := page_loose h (Pages.lookup_mem hl)
        refine ⟨?_, ?_⟩
        · show Step F P.world s'.world tag _
          rw [hw]; exact .refl hk
        · intro x hx
          show x ∈ P.text.objs ∨ Loose F s'.world x
          rw [hw]
          rcases List.mem_append.mp hx with h1 | h1
          · exact .inl h1
          · rw [List.mem_singleton.mp h1, hno]; exact .inr hl
      · rename_i e hl
        have e1' : Pages.getitem pick (Pages.pages P.text.session.tree.body.node) key ⟨P.text.session.world, P.heap⟩ =
          (⟨P.world, P.heap⟩, .error e) := hget
        rw [e1']
        exact .refl h
  | set key i =>
    refine child_sent h (by simp [pageUses]) fun c hc => onPages_sent h hp ?_
    by_cases hv : c.TAG = some "draw:page"
    · rw [Pages.setitem_eq _ key c hv]
      specialize hget key
      split at hget
      · rename_i n hl
        obtain ⟨s', o, e1, e2, e3⟩ := hget
        have hno : o.node = n := e3.node e2.inv
        have hl := page_loose h (Pages.lookup_mem hl)
        have hs := replace_step hk h.body hl.free hc
        rw [Py.bind_ok e1]
        unfold Pages.onWorld
        rw [hno, e2.world]
        exact hs
      · rw [Py.bind_error hget]; exact .refl hk
    · rw [(Pages.C30_refused (pick := pick) c hv key).2]
      exact .refl hk
  | delete key =>
    refine onPages_sent h hp ?_
    rw [Pages.delitem_eq _ key]
    specialize hget key
    split at hget
    · rename_i n hl
      obtain ⟨s', o, e1, e2, e3⟩ := hget
      have hno : o.node = n := e3.node e2.inv
      have hl := page_loose h (Pages.lookup_mem hl)
      have hs := remove_step hk P.text.session.tree.body.node hl.free
      rw [Py.bind_ok e1]
      unfold Pages.onWorld
      rw [hno, e2.world]
      exact hs
    · rw [Py.bind_error hget]; exact .refl hk

end Verif.View
