import Verif.Proofs.PageProgram
/-! Helper lemmas for C83: pages with paragraphs, headings and lists that are appended to `doc.pages`. -/
namespace Verif.PageProg
open Verif Verif.Lxml Forest Verif.Whole Verif.Document
open Verif.TextProg (Block Shows Put Made Makes forEach keep onWorld obj)
set_option linter.unusedSimpArgs false

variable {pick : Nat → List Nat → Nat} {L : XLib}

/-- A page with a name and with paragraphs, headings and lists on it -/
structure Slide where
  name : Str
  blocks : List Block

/-- The blocks are made and appended to the object `page`; the program has `n` objects before. -/
def fill (page : Nat) (n : Nat) : List Block → List Act
  | [] => []
  | b :: l => .text b.make :: .text (.append (some page) n) :: fill page (n + 1) l

/-- The pages are made, filled and appended to `doc.pages`; the program has `n` objects before. -/
def program (n : Nat) : List Slide → List Act
  | [] => []
  | s :: l => .page s.name :: (fill n (n + 1) s.blocks ++ .append n :: program (n + 1 + s.blocks.length) l)

/-- The element shows the page. -/
def ShowsPage (s : Slide) (t : Tree) : Prop :=
  t.1.tag = "draw:page" ∧ t.1.get "draw:name" = some s.name ∧ List.Forall₂ Shows s.blocks t.2.toList

/-- The strings of the page are ones that XML can hold. -/
def Slide.Legal (s : Slide) : Prop := legalStr s.name = true ∧ ∀ b ∈ s.blocks, b.Legal

/-- The element of a new page -/
def pageElem (id : Nat) (name : Str) : Elem := ({ id := id, tag := "draw:page" } : Elem).set "draw:name" name

variable {n : Nat} {t u : Tree} {W W' : World}

theorem newPage_made (hn : (ids W).Nodup) {name : Str} (h : name ≠ []) :
    ∃ W', newPage name W = (W', .ok (Parts.newId W)) ∧ Made W W' (pageElem (Parts.newId W) name, .nil) := by
  let u0 : Tree := ({ id := Parts.newId W, tag := "draw:page" }, .nil)
  have h1 : TextProg.newNode { id := 0, tag := "draw:page" } W = (W ++ single u0, .ok (Parts.newId W)) := rfl
  have m1 : Made W (W ++ single u0) u0 := ⟨rfl, by simp [u0, ids], fun i hi => by simp [u0, ids] at hi; omega⟩
  obtain ⟨b1, b2, -⟩ := m1.all hn
  obtain ⟨W2, e1, e2⟩ := TextProg.amend_root b1 b2 (f := fun e => e.set "draw:name" name) fun _ => rfl
  have e1 : Vars.amend (Parts.newId W) (fun e => e.set "draw:name" name) (W ++ single u0) = (W2, .ok ()) := e1
  refine ⟨W2, ?_, (m1.put hn e2).1⟩
  unfold newPage
  rw [Py.bind_ok h1]
  have h2 : TextProg.setAttr (Parts.newId W) "draw:name" name (W ++ single u0) = (W2, .ok ()) := by
    unfold TextProg.setAttr TextProg.setString
    rw [if_neg (by simpa using h)]
    exact e1
  rw [Py.bind_ok h2]; rfl

theorem keep_ok {m : Py World Nat} {p : TextProg.Prog} {W1 : World} {x : Nat} (h : m p.world = (W1, .ok x)) :
    (do let _ ← keep m : Py TextProg.Prog Unit) p =
      (⟨{ p.session with world := W1 }, p.objs ++ [x]⟩, .ok ()) := by
  have h1 : onWorld m p = ({ p with session := { p.session with world := W1 } }, .ok x) := by
    unfold onWorld
    have : m p.session.world = (W1, .ok x) := h
    simp only [this]
  have h2 : keep m p = (⟨{ p.session with world := W1 }, p.objs ++ [x]⟩, .ok p.objs.length) := by
    unfold keep
    rw [Py.bind_ok h1]
  rw [Py.bind_ok h2]; rfl

theorem onText_ok {α : Type} {m : Py TextProg.Prog α} {p : Prog} {q : TextProg.Prog} {r : Except Exc α}
    (h : m p.text = (q, r)) : onText m p = ({ p with text := q }, r) := by
  unfold onText; simp only [h]

theorem base_append {x : Nat} (h : Lxml.append n x W = (W', .ok ())) : Base.append n x W = (W', .ok x) := by
  unfold Base.append
  rw [Py.bind_ok h]; rfl

/-- A block is made and appended to a new page. -/
theorem block_fill (hn : (ids W).Nodup) {p : Prog} (hm : Made W p.world u) {i : Nat} (hi : p.text.objs[i]? = some u.1.id)
    (b : Block) : ∃ p' v, forEach (exec pick) [.text b.make, .text (.append (some i) p.text.objs.length)] p = (p', .ok ()) ∧
      Made W p'.world (u.1, u.2 ++ single v) ∧ data v = data b.tree ∧
      p'.text.session = { p.text.session with world := p'.world } ∧ p'.text.objs = p.text.objs ++ [v.1.id] ∧
      p'.heap = p.heap := by
  obtain ⟨a1, a2, -⟩ := hm.all hn
  obtain ⟨W1, v, e1, m1, d1⟩ := TextProg.block_makes a1 b
  obtain ⟨W2, e2, p2⟩ := TextProg.append_put a1 a2 m1.once m1.new
  rw [← m1.world] at e2
  let q : Prog := ⟨⟨{ p.text.session with world := W1 }, p.text.objs ++ [v.1.id]⟩, p.heap⟩
  let r : Prog := ⟨⟨{ p.text.session with world := W2 }, p.text.objs ++ [v.1.id]⟩, p.heap⟩
  have g1 : exec pick (.text b.make) p = (q, .ok ()) := by
    show onText (TextProg.exec b.make) p = _
    rw [TextProg.exec_make, onText_ok (keep_ok e1)]
  have g2 : exec pick (.text (.append (some i) p.text.objs.length)) q = (r, .ok ()) := by
    have hlt : i < p.text.objs.length := (List.getElem?_eq_some_iff.mp hi).1
    have h1 : TextProg.target (some i) q.text = (q.text, .ok u.1.id) :=
      TextProg.obj_ok (by show (p.text.objs ++ [v.1.id])[i]? = _; rw [List.getElem?_append_left hlt]; exact hi)
    have h2 : obj p.text.objs.length q.text = (q.text, .ok v.1.id) := TextProg.obj_ok (by simp [q])
    have h3 : onWorld (TextProg.appendTo (some i) u.1.id v.1.id) q.text = (r.text, .ok v.1.id) := by
      unfold onWorld TextProg.appendTo
      have : Base.append u.1.id v.1.id q.text.session.world = (W2, .ok v.1.id) := base_append e2
      simp only [this]
      rfl
    have h4 : TextProg.exec (.append (some i) p.text.objs.length) q.text = (r.text, .ok ()) := by
      show (do let t ← TextProg.target (some i); let n ← obj p.text.objs.length
               let _ ← onWorld (TextProg.appendTo (some i) t n) : Py TextProg.Prog Unit) q.text = _
      rw [Py.bind_ok h1, Py.bind_ok h2, Py.bind_ok h3]; rfl
    show onText _ q = _
    rw [onText_ok h4]
  refine ⟨r, v, ?_, (hm.put hn p2).1, d1, rfl, rfl, rfl⟩
  unfold forEach
  rw [Py.bind_ok g1]
  unfold forEach
  rw [Py.bind_ok g2]; rfl

theorem blocks_fill (l : List Block) (hn : (ids W).Nodup) {p : Prog} (hm : Made W p.world u) {i : Nat}
    (hi : p.text.objs[i]? = some u.1.id) : ∃ p' k vs, forEach (exec pick) (fill i p.text.objs.length l) p = (p', .ok ()) ∧
      Made W p'.world (u.1, k) ∧ k.toList = u.2.toList ++ vs ∧ List.Forall₂ (fun b v => data v = data b.tree) l vs ∧
      p'.text.session = { p.text.session with world := p'.world } ∧ p'.text.objs = p.text.objs ++ vs.map (·.1.id) ∧
      p'.heap = p.heap := by
  induction l generalizing p u with
  | nil => exact ⟨p, u.2, [], rfl, hm, by simp, .nil, rfl, by simp, rfl⟩
  | cons b l ih =>
    obtain ⟨p1, v, e1, m1, d1, s1, o1, y1⟩ := block_fill (pick := pick) hn hm hi b
    have hlt : i < p.text.objs.length := (List.getElem?_eq_some_iff.mp hi).1
    obtain ⟨p2, k, vs, e2, m2, k2, d2, s2, o2, y2⟩ := ih m1 (by rw [o1, List.getElem?_append_left hlt]; exact hi)
    refine ⟨p2, k, v :: vs, ?_, m2, ?_, .cons d1 d2, ?_, ?_, y2.trans y1⟩
    · have : fill i p.text.objs.length (b :: l) =
          [.text b.make, .text (.append (some i) p.text.objs.length)] ++ fill i p1.text.objs.length l := by
        rw [o1]; simp [fill]
      rw [this, TextProg.forEach_append, Py.bind_ok e1]
      exact e2
    · rw [k2]
      show (u.2 ++ single v).toList ++ vs = _
      rw [toList_append]; simp [single, toList]
    · rw [s2, s1]
    · rw [o2, o1]; simp

theorem onPages_ok {α : Type} {p : Prog} {b : Nat} (hb : p.text.session.tree.pages = some b)
    {m : Pages.Container → Py Pages.S α} {s : Pages.S} {r : Except Exc α}
    (hm : m (Pages.pages b) ⟨p.world, p.heap⟩ = (s, r)) :
    onPages m p = ({ text := { p.text with session := { p.text.session with world := s.world } }, heap := s.heap }, r) := by
  unfold onPages
  rw [hb]
  have hm : m (Pages.pages b) ⟨p.text.session.world, p.heap⟩ = (s, r) := hm
  simp only [hm]

/-- A page is made, filled and appended to `doc.pages`. -/
theorem slide_put {p : Prog} (hn : (ids p.world).Nodup) {b : Nat} (hb : p.text.session.tree.pages = some b)
    (h : find b p.world = some t) (s : Slide) (hs : s.name ≠ []) : ∃ p' u,
      forEach (exec pick) (.page s.name :: (fill p.text.objs.length (p.text.objs.length + 1) s.blocks ++
        [.append p.text.objs.length])) p = (p', .ok ()) ∧
      Put b t (t.1, t.2 ++ single u) p.world p'.world ∧ u.1 = pageElem u.1.id s.name ∧
      List.Forall₂ (fun b v => data v = data b.tree) s.blocks u.2.toList ∧
      p'.text.session = { p.text.session with world := p'.world } ∧
      p'.text.objs = p.text.objs ++ u.1.id :: u.2.toList.map (·.1.id) ∧ p'.heap = p.heap := by
  obtain ⟨W1, e1, m1⟩ := newPage_made hn hs
  let p1 : Prog := ⟨⟨{ p.text.session with world := W1 }, p.text.objs ++ [Parts.newId p.world]⟩, p.heap⟩
  have g1 : exec pick (.page s.name) p = (p1, .ok ()) := by
    show onText (do let _ ← keep (newPage s.name)) p = _
    rw [onText_ok (keep_ok e1)]
  have hi : p1.text.objs[p.text.objs.length]? = some (Parts.newId p.world) := by simp [p1]
  obtain ⟨p2, k, vs, e2, m2, k2, d2, s2, o2, y2⟩ := blocks_fill (pick := pick) s.blocks hn (p := p1) m1 hi
  have k2 : k.toList = vs := by simpa using k2
  subst k2
  let u : Tree := (pageElem (Parts.newId p.world) s.name, k)
  obtain ⟨a1, a2, a3, -⟩ := m2.all hn
  obtain ⟨W3, e3, p3⟩ := TextProg.append_put hn h (u := u) m2.once m2.new
  rw [show p.world ++ single u = p2.world from m2.world.symm] at e3
  let r : Prog := ⟨⟨{ p2.text.session with world := W3 }, p2.text.objs⟩, p2.heap⟩
  have hi2 : p2.text.objs[p.text.objs.length]? = some u.1.id := by
    rw [o2]; simp [p1, u, pageElem, Elem.set]
  have hb2 : p2.text.session.tree.pages = some b := by rw [s2]; exact hb
  have g3 : exec pick (.append p.text.objs.length) p2 = (r, .ok ()) := by
    show (do let c ← child p.text.objs.length; let _ ← onPages fun pages => Pages.append pages c : Py Prog Unit) p2 = _
    rw [Py.bind_ok (child_ok hi2)]
    have hf : find u.1.id p2.world = some u := a2
    have e4 : Pages.append (Pages.pages b) ⟨(p2.world.find u.1.id).map fun t => t.1.tag, u.1.id⟩ ⟨p2.world, p2.heap⟩ =
        (⟨W3, p2.heap⟩, .ok u.1.id) := by
      rw [hf]
      unfold Pages.append
      rw [if_pos (by simp [Pages.isValidChild, Pages.pages, u, pageElem, Elem.set])]
      have e5 : Pages.onWorld (Lxml.append b u.1.id) ⟨p2.world, p2.heap⟩ = (⟨W3, p2.heap⟩, .ok ()) :=
        Pages.onWorld_ok (s := ⟨p2.world, p2.heap⟩) e3
      show (do Pages.onWorld (Lxml.append b u.1.id); pure u.1.id : Py Pages.S Nat) _ = _
      rw [Py.bind_ok e5]; rfl
    rw [Py.bind_ok (onPages_ok hb2 e4)]; rfl
  refine ⟨r, u, ?_, p3, rfl, d2, ?_, ?_, y2⟩
  · show (do exec pick (.page s.name); forEach (exec pick) _ : Py Prog Unit) p = _
    rw [Py.bind_ok g1, TextProg.forEach_append]
    have : p.text.objs.length + 1 = p1.text.objs.length := by simp [p1]
    rw [this, Py.bind_ok e2]
    show (do exec pick (.append p.text.objs.length); forEach (exec pick) [] : Py Prog Unit) p2 = _
    rw [Py.bind_ok g3]; rfl
  · show ({ p2.text.session with world := W3 } : Session) = _
    rw [s2]; rfl
  · show p2.text.objs = _
    rw [o2]; simp [p1, u, pageElem, Elem.set]

theorem pageElem_legal {id : Nat} {name : Str} (h : legalStr name = true) : legalElem (pageElem id name) = true :=
  TextProg.legal_set (by simp [legalElem, legalOpt]; decide +kernel) (by decide +kernel) h

theorem slides_put (l : List Slide) {p : Prog} (hn : (ids p.world).Nodup) {b : Nat}
    (hb : p.text.session.tree.pages = some b) (h : find b p.world = some t) (hl : ∀ s ∈ l, s.name ≠ []) : ∃ p' k us,
      forEach (exec pick) (program p.text.objs.length l) p = (p', .ok ()) ∧
      Put b t (t.1, k) p.world p'.world ∧ k.toList = t.2.toList ++ us ∧ List.Forall₂ ShowsPage l us ∧
      p'.text.session = { p.text.session with world := p'.world } ∧ p'.heap = p.heap ∧
      (legal p.world = true → (∀ s ∈ l, s.Legal) → legal p'.world = true) := by
  induction l generalizing p t with
  | nil => exact ⟨p, t.2, [], rfl, .refl hn h, by simp, .nil, rfl, rfl, fun h _ => h⟩
  | cons s l ih =>
    obtain ⟨p1, u, e1, q1, d1, f1, s1, o1, y1⟩ := slide_put (pick := pick) hn hb h s (hl s (by simp))
    obtain ⟨n1, g1, -⟩ := q1.find hn h
    have hb1 : p1.text.session.tree.pages = some b := by rw [s1]; exact hb
    obtain ⟨p2, k, us, e2, q2, k2, d2, s2, y2, l2⟩ := ih n1 hb1 g1 fun s' hs' => hl s' (by simp [hs'])
    refine ⟨p2, k, u :: us, ?_, q1.trans hn h q2, ?_, .cons ⟨?_, ?_, ?_⟩ d2, ?_, y2.trans y1, ?_⟩
    · have hlen : u.2.toList.length = s.blocks.length := f1.length_eq.symm
      have : program p.text.objs.length (s :: l) = (.page s.name :: (fill p.text.objs.length (p.text.objs.length + 1) s.blocks ++
          [.append p.text.objs.length])) ++ program p1.text.objs.length l := by
        rw [o1]
        simp only [program, List.length_append, List.length_cons, List.length_map, hlen, List.cons_append, List.append_assoc,
          List.nil_append]
        congr 4
        omega
      rw [this, TextProg.forEach_append, Py.bind_ok e1]
      exact e2
    · rw [k2]
      show (t.2 ++ single u).toList ++ us = _
      rw [toList_append]; simp [single, toList]
    · rw [d1]; rfl
    · rw [d1]; simp [pageElem, Elem.get, Elem.set, Attrs.get_set]
    · refine f1.imp fun b v hv => (TextProg.shows_data hv).mpr (TextProg.tree_shows b)
    · rw [s2, s1]
    · intro hw hall
      refine l2 (TextProg.put_legal q1 hw ?_) fun s' hs' => hall s' (by simp [hs'])
      have ht := TextProg.legal_find hw h
      rw [TextProg.legal_single, Bool.and_eq_true] at ht ⊢
      refine ⟨ht.1, ?_⟩
      show legal (t.2 ++ single u) = true
      rw [Whole.legal_append, Bool.and_eq_true, TextProg.legal_single, Bool.and_eq_true]
      refine ⟨ht.2, ?_, ?_⟩
      · rw [d1]; exact pageElem_legal (hall s (by simp)).1
      · rw [TextProg.legal_list]
        have hb := (hall s (by simp)).2
        clear * - f1 hb
        generalize u.2.toList = vs at f1
        generalize s.blocks = bs at f1 hb
        induction f1 with
        | nil => simp
        | cons hv _ ih =>
          intro x hx
          rcases List.mem_cons.mp hx with rfl | hx
          · exact TextProg.legal_data hv (TextProg.tree_legal (hb _ (by simp)))
          · exact ih (fun b' h' => hb b' (by simp [h'])) x hx

end Verif.PageProg
