import Verif.Model.PageProgram
import Verif.Props.TextMade
import Verif.Props.SheetsMore
/-! Helper lemmas for C83: statements with pages leave the document in order. -/
namespace Verif.PageProg
open Verif Verif.Lxml Forest Verif.Whole Verif.Document
open Verif.TextProg (OK Frame Fits Kept Loose Step Acts Does Allowed)
set_option linter.unusedSimpArgs false

variable {pick : Nat → List Nat → Nat} {L : XLib}

/-- A program between two statements: the document and the objects are as in C81, and the cache is sound. -/
structure Sound (L : XLib) (p : Prog) : Prop where
  ok : OK L p.text
  inv : WrapCache.Inv p.heap

/-- The statements of a program; those of C81 as there. -/
def Allowed (p : Prog) : Act → Prop
  | .text a => TextProg.Allowed p.text a
  | _ => True

/-- The pages of the document, in their order: the `draw:page` children of its body -/
def pageList (p : Prog) : List Nat := Pages.tagged p.world p.text.session.tree.body.node "draw:page"

/-- The name of a page -/
def pageName (p : Prog) (n : Nat) : Option Str := (content p.world n).bind fun e => e.get "draw:name"

/-! ## One statement -/

variable {F : Nat → Prop} {tag : String}

theorem pages_body {p : Prog} (h : Fits F tag p.text) {b : Nat} (hb : p.text.session.tree.pages = some b) :
    b = p.text.session.tree.body.node := by
  have e1 := h.kept.refs.pages
  have e2 := h.kept.refs.body.pages
  rw [hb] at e1
  rw [← e1] at e2
  split at e2
  · exact Option.some.inj e2
  · cases e2

theorem body_mem {p : Prog} (h : Fits F tag p.text) : p.text.session.tree.body.node ∈ ids p.world :=
  h.kept.mem _ (h.kept.frame _ (by simp))

theorem good {p : Prog} (h : Fits F tag p.text) (hi : WrapCache.Inv p.heap) :
    Pages.Good (Pages.pages p.text.session.tree.body.node) ⟨p.world, p.heap⟩ :=
  ⟨h.kept.once, hi, body_mem h⟩

/-- What a statement leaves: C81's `Acts` and a sound cache -/
structure Keeps (F : Nat → Prop) (tag : String) (p : Prog) (q : Prog) : Prop where
  acts : Acts F tag p.text (q.text, (.ok () : Except Exc Unit)) fun _ _ => True
  inv : WrapCache.Inv q.heap

theorem Keeps.refl {p : Prog} (h : Fits F tag p.text) (hi : WrapCache.Inv p.heap) : Keeps F tag p p :=
  ⟨.pure (a := ()) h trivial, hi⟩

theorem onText_keeps {α : Type} {p : Prog} (hi : WrapCache.Inv p.heap) {m : Py TextProg.Prog α}
    {Q : TextProg.Prog → α → Prop} (h : Acts F tag p.text (m p.text) Q) : Keeps F tag p (onText m p).1 :=
  ⟨⟨h.session, h.step, h.objs, h.more, fun _ _ => trivial⟩, hi⟩

theorem onPages_keeps {α : Type} {p : Prog} (h : Fits F tag p.text) (hi : WrapCache.Inv p.heap)
    {m : Pages.Container → Py Pages.S α}
    (hm : let r := (m (Pages.pages p.text.session.tree.body.node) ⟨p.world, p.heap⟩).1
      Step F p.world r.world tag p.text.session.tree ∧ WrapCache.Inv r.heap) : Keeps F tag p (onPages m p).1 := by
  unfold onPages
  split
  · exact .refl h hi
  · rename_i b hb
    rw [pages_body h hb]
    obtain ⟨h1, h2⟩ := hm
    exact ⟨⟨rfl, h1, fun n hn => h1.2 n (h.objs n hn), List.prefix_refl _, fun _ _ => trivial⟩, h2⟩

theorem child_state (i : Nat) (p : Prog) : (child i p).1 = p := by
  unfold child
  cases ho : TextProg.obj i p.text with
  | mk q r =>
    have e := TextProg.obj_state i p.text
    rw [ho] at e
    dsimp only at e
    subst e
    cases r with
    | error e =>
      have : onText (TextProg.obj i) p = (p, .error e) := by unfold onText; rw [ho]
      rw [Py.bind_error this]
    | ok n =>
      have : onText (TextProg.obj i) p = (p, .ok n) := by unfold onText; rw [ho]
      rw [Py.bind_ok this]

theorem child_ok {i n : Nat} {p : Prog} (h : p.text.objs[i]? = some n) :
    child i p = (p, .ok ⟨(p.world.find n).map fun t => t.1.tag, n⟩) := by
  unfold child
  have : onText (TextProg.obj i) p = (p, .ok n) := by unfold onText; rw [TextProg.obj_ok h]
  rw [Py.bind_ok this]

theorem child_none {i : Nat} {p : Prog} (h : p.text.objs[i]? = none) : child i p = (p, .error .NameError) := by
  unfold child
  have : onText (TextProg.obj i) p = (p, .error .NameError) := by unfold onText TextProg.obj; rw [h]
  rw [Py.bind_error this]

theorem child_keeps {β : Type} {p : Prog} (h : Fits F tag p.text) (hi : WrapCache.Inv p.heap) (i : Nat)
    {f : Pages.Child → Py Prog β}
    (hf : ∀ c, Loose F p.world c.xmlnode → Keeps F tag p (f c p).1) : Keeps F tag p ((child i >>= f) p).1 := by
  cases ho : p.text.objs[i]? with
  | none => rw [Py.bind_error (child_none ho)]; exact .refl h hi
  | some n =>
    rw [Py.bind_ok (child_ok ho)]
    exact hf _ (h.objs n (List.mem_of_getElem? ho))

theorem void_keeps {β : Type} {p q : Prog} {m : Py Prog β} (h : Keeps F tag q (m p).1) :
    Keeps F tag q ((do let _ ← m; pure () : Py Prog Unit) p).1 := by
  cases hm : m p with
  | mk q r =>
    rw [hm] at h
    cases r with
    | error e => rw [Py.bind_error hm]; exact h
    | ok a => rw [Py.bind_ok hm]; exact h

/-- A page of the document is a free node. -/
theorem page_loose {p : Prog} (h : Fits F tag p.text) {n : Nat} (hn : n ∈ pageList p) : Loose F p.world n := by
  obtain ⟨l, hl, hm, ht⟩ := Pages.chosen_mem hn
  rw [children_node] at hl
  obtain ⟨⟨e, l'⟩, hnode, rfl⟩ := Option.map_eq_some_iff.mp hl
  have htag : ∀ t ∈ TextProg.declTags, Parts.tagAt p.world n ≠ some t := by
    intro t hd he
    have he : Pages.tagOf p.world n = some t := he
    rw [ht] at he
    simp only [TextProg.declTags, List.mem_cons, List.not_mem_nil, or_false, Option.some.injEq] at hd he
    rcases hd with rfl | rfl <;> exact absurd he (by decide)
  refine ⟨?_, (h.kept.free _ _ _ hnode hm).mpr htag, htag⟩
  exact TextProg.node_child hnode hm

theorem exec_keeps (hpick : ∀ k l, pick k l ∉ l) {p : Prog} (h : Fits F tag p.text) (hi : WrapCache.Inv p.heap) {a : Act}
    (ha : Allowed p a) : Keeps F tag p (exec pick a p).1 := by
  have hg := good h hi
  have hget := Pages.getitem_ok hpick (Pages.pages p.text.session.tree.body.node) (s := ⟨p.world, p.heap⟩) h.kept.once hi
    (body_mem h)
  cases a with
  | text a => exact onText_keeps hi (TextProg.exec_acts h ha)
  | page name =>
    refine onText_keeps hi (TextProg.void_acts (TextProg.keep_acts h ?_))
    unfold newPage
    refine .bind (TextProg.newNode_does h.kept _ (by decide)) fun W1 n h1 hn => ?_
    refine .bind (TextProg.setAttr_does h1.1 hn.free _ _) fun W2 _ h2 _ => ?_
    exact .pure h2.1 (h2.2 n hn)
  | append i =>
    refine child_keeps h hi i fun c hc => void_keeps (onPages_keeps h hi ?_)
    dsimp only
    unfold Pages.append
    split
    · have := TextProg.append_step h.kept (p := p.text.session.tree.body.node) (.inl rfl) hc
      cases hx : Lxml.append p.text.session.tree.body.node c.xmlnode p.world with
      | mk W r =>
        have h1 := hx
        rw [h1] at this
        have h2 : Pages.onWorld (Lxml.append (Pages.pages p.text.session.tree.body.node).xmlnode c.xmlnode)
            ⟨p.world, p.heap⟩ = (⟨W, p.heap⟩, r) := Pages.onWorld_ok hx
        cases r with
        | error e => rw [Py.bind_error h2]; exact ⟨this, hi⟩
        | ok u => rw [Py.bind_ok h2]; exact ⟨this, hi⟩
    · exact ⟨.refl h.kept, hi⟩
  | insert index i =>
    refine child_keeps h hi i fun c hc => void_keeps (onPages_keeps h hi ?_)
    dsimp only
    unfold Pages.insert
    have := TextProg.insert_step h.kept (p := p.text.session.tree.body.node) index (.inl rfl) hc
    cases hx : Lxml.insert p.text.session.tree.body.node index c.xmlnode p.world with
    | mk W r =>
      rw [hx] at this
      have h2 : Pages.onWorld (Lxml.insert (Pages.pages p.text.session.tree.body.node).xmlnode index c.xmlnode)
          ⟨p.world, p.heap⟩ = (⟨W, p.heap⟩, r) := Pages.onWorld_ok hx
      cases r with
      | error e => rw [Py.bind_error h2]; exact ⟨this, hi⟩
      | ok u => rw [Py.bind_ok h2]; exact ⟨this, hi⟩
  | get key =>
    show Keeps F tag p ((onPages (fun pages => Pages.getitem pick pages key) >>= take) p).1
    unfold onPages
    rw [Py.bind_def]
    cases hb : p.text.session.tree.pages with
    | none => exact .refl h hi
    | some b =>
      dsimp only
      rw [pages_body h hb]
      specialize hget key
      split at hget
      · rename_i n hl
        obtain ⟨s', o, e1, e2, e3⟩ := hget
        have e1' : Pages.getitem pick (Pages.pages p.text.session.tree.body.node) key ⟨p.text.session.world, p.heap⟩ =
          (s', .ok o) := e1
        rw [e1']
        have hw : s'.world = p.world := e2.world
        have hno : o.node = n := e3.node e2.inv
        have hl := page_loose h (Pages.lookup_mem hl)
        refine ⟨⟨?_, ?_, ?_, List.prefix_append _ _, fun _ _ => trivial⟩, e2.inv⟩
        · rfl
        · show Step F p.world s'.world tag _
          rw [hw]; exact .refl h.kept
        · intro x hx
          show Loose F s'.world x
          rw [hw]
          rcases List.mem_append.mp hx with h1 | h1
          · exact h.objs x h1
          · rw [List.mem_singleton.mp h1, hno]; exact hl
      · rename_i e hl
        have e1' : Pages.getitem pick (Pages.pages p.text.session.tree.body.node) key ⟨p.text.session.world, p.heap⟩ =
          (⟨p.world, p.heap⟩, .error e) := hget
        rw [e1']
        exact .refl h hi
  | set key i =>
    refine child_keeps h hi i fun c hc => onPages_keeps h hi ?_
    dsimp only
    by_cases hv : c.TAG = some "draw:page"
    · rw [Pages.setitem_eq _ key c hv]
      specialize hget key
      split at hget
      · rename_i n hl
        obtain ⟨s', o, e1, e2, e3⟩ := hget
        have hno : o.node = n := e3.node e2.inv
        have hl := page_loose h (Pages.lookup_mem hl)
        have hs := TextProg.replace_step h.kept (p := p.text.session.tree.body.node) (.inl rfl) hl.free hc
        rw [Py.bind_ok e1]
        unfold Pages.onWorld
        rw [hno, e2.world]
        exact ⟨hs, e2.inv⟩
      · rw [Py.bind_error hget]; exact ⟨.refl h.kept, hi⟩
    · rw [(Pages.C30_refused (pick := pick) c hv key).2]
      exact ⟨.refl h.kept, hi⟩
  | delete key =>
    refine onPages_keeps h hi ?_
    dsimp only
    rw [Pages.delitem_eq _ key]
    specialize hget key
    split at hget
    · rename_i n hl
      obtain ⟨s', o, e1, e2, e3⟩ := hget
      have hno : o.node = n := e3.node e2.inv
      have hl := page_loose h (Pages.lookup_mem hl)
      have hs := TextProg.remove_step h.kept p.text.session.tree.body.node hl.free
      rw [Py.bind_ok e1]
      unfold Pages.onWorld
      rw [hno, e2.world]
      exact ⟨hs, e2.inv⟩
    · rw [Py.bind_error hget]; exact ⟨.refl h.kept, hi⟩

/-- `C81_step` for other statements -/
theorem acts_ok {α : Type} {p : TextProg.Prog} (h : OK L p) {r : TextProg.Prog × Except Exc α}
    {Q : TextProg.Prog → α → Prop} (hr : ∀ F tag, Fits F tag p → Acts F tag p r Q) :
    OK L r.1 ∧ Frame p r.1 ∧ p.objs <+: r.1.objs := by
  obtain ⟨F, tag, htag, hfit⟩ := h.fits
  have hacts := hr F tag hfit
  have hfit' := hacts.fits
  obtain ⟨h1, h2, h3, h4, -⟩ := hacts
  have hd : r.1.session.tree = p.session.tree := by rw [h1]
  have hm : r.1.session.mimetype = p.session.mimetype := by rw [h1]
  have hst : find p.session.tree.styles.root r.1.world = find p.session.tree.styles.root p.world := by
    have hF := hfit.kept.frame p.session.tree.styles.root (by simp)
    obtain ⟨t, ht⟩ := find_some_of_mem (hfit.kept.mem _ hF)
    rw [ht]
    exact Step.tree hfit.kept h2 hF ht (h.apart t ht)
  refine ⟨⟨?_, ⟨F, tag, by rw [hm]; exact htag, hfit'⟩, ?_⟩, ⟨hd, hm, hst, ?_, Step.decls hfit.kept h2⟩, h4⟩
  · rw [h1]
    have := h2.kept
    exact h.lives.trees this.once htag this.refs
  · rw [hd, hst]; exact h.apart
  · have hF := hfit.kept.frame p.session.tree.content.root (by simp)
    obtain ⟨t, ht⟩ := find_some_of_mem (hfit.kept.mem _ hF)
    obtain ⟨t', e1, e2⟩ := Step.content hfit.kept h2 hF ht
    rw [ht, e1]
    simp only [Option.map_some]
    rw [e2]

end Verif.PageProg
