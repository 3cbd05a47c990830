import Verif.Proofs.ContentOps
/-! Helper lemmas for C81: statements of programs with text objects. -/
namespace Verif.TextProg
open Verif Verif.Lxml Forest Verif.Whole Verif.Document
set_option linter.unusedSimpArgs false

variable {F : Nat → Prop} {tag : String} {α β : Type}

/-- The document is in order, and the objects of the program are nodes outside its frame. -/
structure Fits (F : Nat → Prop) (tag : String) (p : Prog) : Prop where
  kept : Kept F p.world tag p.session.tree
  objs : ∀ n ∈ p.objs, Loose F p.world n

/-- A statement changes nothing of the session but the trees, leaves the document in order, and its result is as told. -/
structure Acts (F : Nat → Prop) (tag : String) (p : Prog) (r : Prog × Except Exc α) (Q : Prog → α → Prop) : Prop where
  session : r.1.session = { p.session with world := r.1.world }
  step : Step F p.world r.1.world tag p.session.tree
  objs : ∀ n ∈ r.1.objs, Loose F r.1.world n
  more : p.objs <+: r.1.objs
  result : ∀ a, r.2 = .ok a → Q r.1 a

theorem Acts.fits {p : Prog} {r : Prog × Except Exc α} {Q : Prog → α → Prop} (h : Acts F tag p r Q) :
    Fits F tag r.1 := by
  refine ⟨?_, h.objs⟩
  have : r.1.session.tree = p.session.tree := by rw [h.session]
  rw [this]; exact h.step.1

theorem Acts.bind {p : Prog} {m : Py Prog α} {f : α → Py Prog β} {Q : Prog → α → Prop} {R : Prog → β → Prop}
    (h : Acts F tag p (m p) Q) (hf : ∀ p' a, p'.session.tree = p.session.tree → Fits F tag p' →
      (∀ n, Loose F p.world n → Loose F p'.world n) → Q p' a →
      Acts F tag p' (f a p') R) : Acts F tag p ((m >>= f) p) R := by
  have hfit := h.fits
  obtain ⟨h1, h2, h3, h4, h5⟩ := h
  cases hm : m p with
  | mk p' r =>
    rw [hm] at h1 h2 h3 h4 h5 hfit
    have ht : p'.session.tree = p.session.tree := by dsimp only at h1; rw [h1]
    cases r with
    | error e =>
      rw [Py.bind_error hm]
      exact ⟨h1, h2, h3, h4, fun a ha => by simp at ha⟩
    | ok a =>
      rw [Py.bind_ok hm]
      obtain ⟨g1, g2, g3, g4, g5⟩ := hf p' a ht hfit h2.2 (h5 a rfl)
      rw [ht] at g2
      refine ⟨?_, h2.trans g2, g3, h4.trans g4, g5⟩
      rw [g1]
      dsimp only at h1 ⊢
      rw [h1]

theorem Acts.pure {p : Prog} (h : Fits F tag p) {a : α} {Q : Prog → α → Prop} (hq : Q p a) :
    Acts F tag p ((pure a : Py Prog α) p) Q :=
  ⟨rfl, .refl h.1, h.2, List.prefix_refl _, fun b hb => by cases hb; exact hq⟩

theorem Acts.raise {p : Prog} (h : Fits F tag p) {e : Exc} {Q : Prog → α → Prop} :
    Acts F tag p ((Py.raise e : Py Prog α) p) Q :=
  ⟨rfl, .refl h.1, h.2, List.prefix_refl _, fun b hb => by cases hb⟩

theorem onWorld_acts {p : Prog} (h : Fits F tag p) {m : Py World α} {Q : World → α → Prop}
    (hm : Does F tag p.session.tree p.world (m p.world) Q) : Acts F tag p (onWorld m p) (fun p a => Q p.world a) :=
  ⟨rfl, hm.1, fun n hn => hm.1.2 n (h.2 n hn), List.prefix_refl _, hm.2⟩

theorem keep_acts {p : Prog} (h : Fits F tag p) {m : Py World Nat}
    (hm : Does F tag p.session.tree p.world (m p.world) (Loose F)) : Acts F tag p (keep m p) (fun _ _ => True) := by
  unfold keep
  refine .bind (onWorld_acts h hm) fun p' n _ hf _ hn => ?_
  refine ⟨rfl, .refl hf.1, ?_, List.prefix_append _ _, fun _ _ => trivial⟩
  intro x hx
  rcases List.mem_append.mp hx with h1 | h1
  · exact hf.2 x h1
  · rw [List.mem_singleton.mp h1]; exact hn

theorem obj_acts {p : Prog} (h : Fits F tag p) (i : Nat) : Acts F tag p (obj i p) (fun p n => Loose F p.world n) := by
  unfold obj
  cases hi : p.objs[i]? with
  | none => exact ⟨rfl, .refl h.1, h.2, List.prefix_refl _, fun _ h => by cases h⟩
  | some n =>
    refine ⟨rfl, .refl h.1, h.2, List.prefix_refl _, fun a ha => ?_⟩
    cases ha
    exact h.2 _ (List.mem_of_getElem? hi)

theorem obj_state (i : Nat) (p : Prog) : (obj i p).1 = p := by unfold obj; split <;> rfl
theorem target_state (t : Option Nat) (p : Prog) : (target t p).1 = p := by
  cases t with
  | none => rfl
  | some i => exact obj_state i p

theorem target_acts {p : Prog} (h : Fits F tag p) (t : Option Nat) : Acts F tag p (target t p)
    (fun p n => Place F p.world p.session.tree n) := by
  cases t with
  | none => exact ⟨rfl, .refl h.1, h.2, List.prefix_refl _, fun a ha => by cases ha; exact .inl rfl⟩
  | some i =>
    obtain ⟨h1, h2, h3, h4, h5⟩ := obj_acts h i
    exact ⟨h1, h2, h3, h4, fun a ha => .inr (h5 a ha)⟩

theorem Acts.imp {p : Prog} {r : Prog × Except Exc α} {Q R : Prog → α → Prop} (h : Acts F tag p r Q)
    (hq : ∀ p a, Q p a → R p a) : Acts F tag p r R := ⟨h.1, h.2, h.3, h.4, fun a ha => hq _ a (h.5 a ha)⟩

/-- The child that an index of the target stands for -/
def Found (p : Prog) (t : Option Nat) (index : Int) (c : Nat) : Prop :=
  ∃ n, (target t p).2 = .ok n ∧ (Lxml.getitem n index p.world).2 = .ok c

/-- The tags of elements that are changed by being wrapped: tables and bodies -/
def wrapTags : List String := "table:table" :: MIMETYPE_BODYTAG_MAP.map Prod.snd

/-- The statements of a program: of the children of the body, the containers of declarations are left alone; no table,
body or container of declarations is taken by its number. -/
def Allowed (p : Prog) : Act → Prop
  | .get t index => ∀ c, Found p t index c → ∀ tg ∈ declTags ++ wrapTags, Parts.tagAt p.world c ≠ some tg
  | .set none index _ => ∀ c, Found p none index c → ∀ tg ∈ declTags, Parts.tagAt p.world c ≠ some tg
  | .delete none index => ∀ c, Found p none index c → ∀ tg ∈ declTags, Parts.tagAt p.world c ≠ some tg
  | _ => True

/-- A child of an object, or a child of the body that is no container of declarations, is free. -/
theorem found_free {W : World} {d : Parts.DocTree} (h : Kept F W tag d) {n c : Nat} (hn : Place F W d n) {index : Int}
    (hc : (Lxml.getitem n index W).2 = .ok c) (ht : n = d.body.node → ∀ tg ∈ declTags, Parts.tagAt W c ≠ some tg) :
    c ∈ ids W ∧ ¬ F c := by
  rcases getitem_spec (W := W) (p := n) (i := index) with ⟨e, he⟩ | ⟨s, t, he, h1, h2⟩
  · rw [he] at hc; cases hc
  · rw [he] at hc; cases hc
    refine ⟨(find_sub h1).subset (by simp [roots_sub h2]), ?_⟩
    rcases hn with rfl | hn
    · exact (h.free _ _ _ (node_of_find h1) h2).mpr (ht rfl)
    · exact h.child hn.free h1 h2

/-- A statement that needs one object -/
theorem one_acts {p : Prog} (h : Fits F tag p) (i : Nat) {f : Nat → Py Prog α} {Q : Prog → α → Prop}
    (hf : ∀ c, Loose F p.world c → Acts F tag p (f c p) Q) : Acts F tag p ((obj i >>= f) p) Q := by
  cases hi : obj i p with
  | mk p2 r2 =>
    have e2 := obj_state i p
    rw [hi] at e2
    dsimp only at e2
    subst e2
    cases r2 with
    | error e => rw [Py.bind_error hi]; exact Acts.raise (e := e) h
    | ok c =>
      rw [Py.bind_ok hi]
      have hc := (obj_acts h i).5 c (by rw [hi])
      rw [hi] at hc
      exact hf c hc

theorem place_acts {p : Prog} (h : Fits F tag p) (t : Option Nat) {f : Nat → Py Prog α} {Q : Prog → α → Prop}
    (hf : ∀ n, (target t p).2 = .ok n → Place F p.world p.session.tree n → Acts F tag p (f n p) Q) :
    Acts F tag p ((target t >>= f) p) Q := by
  cases ht : target t p with
  | mk p1 r1 =>
    have e1 := target_state t p
    rw [ht] at e1
    dsimp only at e1
    subst e1
    cases r1 with
    | error e => rw [Py.bind_error ht]; exact Acts.raise (e := e) h
    | ok n =>
      rw [Py.bind_ok ht]
      have hn := (target_acts h t).5 n (by rw [ht])
      rw [ht] at hn
      exact hf n (by rw [ht]) hn

/-- The result does not matter. -/
theorem void_acts {p : Prog} {m : Py Prog α} {Q : Prog → α → Prop} (h : Acts F tag p (m p) Q) :
    Acts F tag p ((do let _ ← m; pure () : Py Prog Unit) p) fun _ _ => True :=
  .bind h fun _ _ _ hf _ _ => .pure hf trivial

theorem obj_body {p : Prog} (h : Fits F tag p) {j n : Nat} (hn : (target (some j) p).2 = .ok n) :
    n ≠ p.session.tree.body.node := by
  rintro rfl
  have hl := (obj_acts h j).5 _ hn
  exact hl.free (h.1.frame _ (by simp))

theorem exec_acts {p : Prog} (h : Fits F tag p) {a : Act} (ha : Allowed p a) :
    Acts F tag p (exec a p) fun _ _ => True := by
  cases a with
  | paragraph text style => exact void_acts (keep_acts h (newSpan_does (t := "text:p") h.1 (by decide) text style))
  | span text style => exact void_acts (keep_acts h (newSpan_does (t := "text:span") h.1 (by decide) text style))
  | heading text level style => exact void_acts (keep_acts h (newHeading_does h.1 text level style))
  | link href text style => exact void_acts (keep_acts h (newLink_does h.1 href text style))
  | list style => exact void_acts (keep_acts h (newList_does h.1 style))
  | item text => exact void_acts (keep_acts h (newLister_does (t := "text:list-item") h.1 (by decide) text))
  | header text => exact void_acts (keep_acts h (newLister_does (t := "text:list-header") h.1 (by decide) text))
  | section_ name style => exact void_acts (keep_acts h (newSection_does h.1 name style))
  | numbered i => exact one_acts h i fun c hc => void_acts (keep_acts h (newNumbered_does h.1 hc))
  | ezlist items header style => exact void_acts (keep_acts h (ezlist_does h.1 items header style))
  | appendText i s =>
    refine one_acts h i fun c hc => ?_
    refine .bind (onWorld_acts h (.read h.1 (elem_read c) (Q := fun _ _ => True) fun _ _ => trivial))
      fun p' e ht hf hl _ => ?_
    split
    · exact onWorld_acts hf (appendText_does hf.1 (hl c hc) s)
    · exact .raise hf
  | setHeader i j =>
    refine one_acts h i fun c hc => one_acts h j fun c' hc' => ?_
    refine .bind (onWorld_acts h (.read h.1 (elem_read c) (Q := fun _ _ => True) fun _ _ => trivial))
      fun p' e ht hf hl _ => ?_
    split
    · exact onWorld_acts hf (setHeader_does hf.1 (hl c hc) (hl c' hc'))
    · exact .raise hf
  | setText i s => exact one_acts h i fun c hc => onWorld_acts h (setText_does h.1 hc.free s)
  | setTail i s => exact one_acts h i fun c hc => onWorld_acts h (setTail_does h.1 hc.free s)
  | setString i k s => exact one_acts h i fun c hc => onWorld_acts h (setString_does h.1 hc.free k s)
  | setAttr i k s => exact one_acts h i fun c hc => onWorld_acts h (setAttr_does h.1 hc.free k s)
  | append t i =>
    refine place_acts h t fun n _ hn => one_acts h i fun c hc => void_acts (onWorld_acts h (Q := fun _ _ => True) ?_)
    cases t with
    | none => exact bodyAppend_does h.1 hn hc
    | some _ => exact (append_does h.1 hn hc).imp fun _ _ _ => trivial
  | insert t index i =>
    exact place_acts h t fun n _ hn => one_acts h i fun c hc => void_acts (onWorld_acts h (insert_does h.1 index hn hc))
  | insertBefore t j i =>
    refine place_acts h t fun n _ hn => one_acts h j fun c' hc' => one_acts h i fun c hc =>
      void_acts (onWorld_acts h (Q := fun _ _ => True) ?_)
    unfold Base.insertBefore
    refine .bind (.read h.1 (index_read n c') (Q := fun _ _ => True) fun _ _ => trivial) fun W1 k h1 _ => ?_
    refine .bind (insert_does h1.1 k (h1.place hn) (h1.2 c hc)) fun W2 _ h2 _ => ?_
    exact .pure h2.1 trivial
  | remove t i => exact place_acts h t fun n _ hn => one_acts h i fun c hc => onWorld_acts h (.of (remove_step h.1 n hc.free))
  | replace t i j =>
    exact place_acts h t fun n _ hn => one_acts h i fun c hc => one_acts h j fun c' hc' =>
      onWorld_acts h (.of (replace_step h.1 hn hc.free hc'))
  | get t index =>
    refine place_acts h t fun n hn0 hn => void_acts (keep_acts h (.read h.1 ?_ fun c hc => ?_))
    · exact getitem_read n index
    · have hc : (Lxml.getitem n index p.world).2 = .ok c := hc
      have hall := ha c ⟨n, hn0, hc⟩
      obtain ⟨h1, h2⟩ := found_free h.1 hn hc fun _ tg htg => hall tg (List.mem_append_left _ htg)
      exact ⟨h1, h2, fun tg htg => hall tg (List.mem_append_left _ htg)⟩
  | set t index i =>
    refine place_acts h t fun n hn0 hn => one_acts h i fun c hc => onWorld_acts h (Q := fun _ _ => True) ?_
    unfold Base.setChild
    rcases getitem_spec (W := p.world) (p := n) (i := index) with ⟨e, he⟩ | ⟨s, u, he, -, -⟩
    · rw [Py.bind_error he]; exact Does.raise (e := e) h.1
    · rw [Py.bind_ok he]
      refine .of (replace_step h.1 hn (found_free h.1 hn (by rw [he]) fun hb tg htg => ?_).2 hc)
      cases t with
      | none => exact ha s ⟨n, hn0, by rw [he]⟩ tg htg
      | some j => exact absurd hb (obj_body h hn0)
  | delete t index =>
    refine place_acts h t fun n hn0 hn => onWorld_acts h (Q := fun _ _ => True) (.of (delitem_step h.1 fun s hs => ?_))
    refine (found_free h.1 hn (by rw [hs]) fun hb tg htg => ?_).2
    cases t with
    | none => exact ha s ⟨n, hn0, by rw [hs]⟩ tg htg
    | some j => exact absurd hb (obj_body h hn0)
  | clear i => exact one_acts h i fun c hc => onWorld_acts h (.of (clear_step h.1 hc.free))

end Verif.TextProg
