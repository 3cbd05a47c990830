import Verif.Props.RoomFiles
import Verif.Props.DeskDemo
/-! # C87: a paragraph is moved from one document to another -/
namespace Verif.Room
open Verif Verif.Lxml Forest Verif.Whole Verif.Document Verif.Package
open Verif.Desk (Act demoFs textType demo_open world1 kids_in roots_apart body_in packaged_fs)
set_option linter.unusedSimpArgs false

variable {L : XLib} {pick : Nat → List Nat → Nat}

/-- A new text document and one that has been opened from a file -/
theorem demo_room (hl : L.Lawful) : ∃ R s0 s1, OK L R ∧ R.docs = [s0, s1] ∧ R.objs = [] ∧ s0.mimetype = textType ∧
    s1.mimetype = textType := by
  have hmt : textType ∈ MIMETYPE_BODYTAG_MAP.keys := by decide +kernel
  obtain ⟨s0, h1, -, h3, h4, h5, -, -, h8, -⟩ := new_ok (L := L) demoFs demoClock hmt
  have hW : s0.world = world1 := by unfold world1; rw [h8]
  unfold newWhole at h1
  obtain ⟨fm0, ho0⟩ : ∃ fm, open_ L.pkg demoFs (.file none) demoClock.now = .ok fm := ⟨_, rfl⟩
  rw [ho0] at h1
  dsimp only at h1
  obtain ⟨fm, s, hop, hpk, -⟩ := demo_open (L := L) hl
  have a1 := add_step hl (C87_start L demoFs) (k := demoClock) ho0 h1
  have a2 := add_step hl a1.1 (k := demoClock) (src := .file (some demoFile)) (fm := fm) (mt := some textType) (s := s)
    (by dsimp only; rw [h3]; exact hop) (by dsimp only; rw [h3, hW]; exact hpk)
  refine ⟨_, s0, s, a2.1, rfl, rfl, h4, ?_⟩
  obtain ⟨doc, so, co, W1, W2, W3, tree, hd, -, -, -, rfl⟩ := packagedWhole_inv hpk
  exact (Option.some.inj (packaged_ok hd).1).symm

/-- The body of a document has children. -/
theorem body_kids {R : Room} (h : OK L R) {i : Nat} {s : Session} (hi : R.docs[i]? = some s) :
    ∃ l, children R.world s.tree.body.node = some l := by
  obtain ⟨F, hF, -⟩ := h.docs
  obtain ⟨tag, -, h2, -⟩ := hF i s hi
  obtain ⟨e, l, hl⟩ := TextProg.node_some (h2.kept.mem _ (h2.kept.frame s.tree.body.node (by simp)))
  exact ⟨l, by rw [children_node, hl]; rfl⟩

/-- A paragraph is made and put into the first document, and then into the second. -/
theorem demo_moves (hl : L.Lawful) : ∃ R R' s0 s1 n, OK L R ∧ R.docs[0]? = some s0 ∧ R.docs[1]? = some s1 ∧ R.objs = [n] ∧
    (∃ l, children R.world s0.tree.body.node = some l ∧ n ∈ l) ∧
    exec L pick (.act 1 (.text (.append none 0))) R = (R', .ok ()) ∧
    (∃ l, children R'.world s1.tree.body.node = some l ∧ n ∈ l) ∧ Taken R.world R'.world n s1.tree := by
  obtain ⟨R0, s0, s1, hR, hd, ho, m0, m1⟩ := demo_room hl
  have hb : MIMETYPE_BODYTAG_MAP.get textType = some "office:text" := by decide +kernel
  have d0 : R0.docs[0]? = some s0 := by rw [hd]; rfl
  have d1 : R0.docs[1]? = some s1 := by rw [hd]; rfl
  -- the paragraph
  obtain ⟨p', t, e1, -, -, e4, e5, -⟩ := TextProg.C81_made (p := (seen R0 s0).text) (C87_sound hR d0).ok
    (a := .paragraph "hello".toList []) trivial
  have hpk : ∀ k l, Pages.exPick k l ∉ l := Pages.exPick_ok
  obtain ⟨g1, g2, g3⟩ := C87_step (pick := Pages.exPick) hl hpk hR (a := .act 0 (.text (.paragraph "hello".toList [])))
    (fun _ _ => trivial)
  have hx : (exec L Pages.exPick (.act 0 (.text (.paragraph "hello".toList []))) R0).1.objs = [t.1.id] := by
    show (onDoc 0 _ R0).1.objs = _
    rw [onDoc_some d0]
    show (TextProg.exec (.paragraph "hello".toList []) (seen R0 s0).text).1.objs = _
    rw [e1]
    show p'.objs = _
    rw [e4]
    show R0.objs ++ _ = _
    rw [ho]; rfl
  generalize (exec L Pages.exPick (.act 0 (.text (.paragraph "hello".toList []))) R0).1 = R1 at g1 g2 g3 hx
  obtain ⟨s0', f1, f2, f3, -⟩ := g3 0 s0 d0
  have f4 := g2 1 s1 d1 (by simp [Desk.Act.doc])
  -- into the first document
  obtain ⟨l0, hl0⟩ := body_kids g1 f1
  obtain ⟨W2, b, a, c1, c2, c3, -, -, c6⟩ := C87_moved (pick := Pages.exPick) g1 f1 (by rw [f3, m0]; exact hb) (k := 0)
    (n := t.1.id) (by rw [hx]; rfl) hl0
  obtain ⟨k1, k2, k3⟩ := C87_step (pick := Pages.exPick) hl hpk g1 (a := .act 0 (.text (.append none 0))) (fun _ _ => trivial)
  rw [c1] at k1 k2 k3
  dsimp only at k1 k2 k3
  obtain ⟨s0'', q1, q2, q3, -⟩ := k3 0 s0' f1
  have q4 := k2 1 s1 f4 (by simp [Desk.Act.doc])
  -- into the second document
  obtain ⟨l1, hl1⟩ := body_kids k1 q4
  obtain ⟨W3, b', a', r1, r2, r3, -, -, r6⟩ := C87_moved (pick := pick) k1 q4 (by rw [m1]; exact hb) (k := 0) (n := t.1.id)
    (by dsimp only; rw [hx]; rfl) hl1
  refine ⟨_, _, s0'', s1, t.1.id, k1, q1, q4, hx, ⟨_, by rw [q2]; exact c3, by simp⟩, r1, ⟨_, r3, by simp⟩, r6⟩

/-- Here a statement can change a document that it is not about: it takes an object out of it.  (With any lawful libraries;
there are such, `xlib_exists`.) -/
theorem C87_isolation_refuted (hl : L.Lawful) : ∃ R a R' s, OK L R ∧ Allowed R a ∧ R.docs[0]? = some s ∧ a.doc ≠ some 0 ∧
    exec L pick a R = (R', .ok ()) ∧ find s.tree.content.root R'.world ≠ find s.tree.content.root R.world := by
  obtain ⟨R, R', s0, s1, n, h, d0, d1, ho, ⟨l, hl0, hm⟩, hx, ⟨l', hl1, hm'⟩, ht⟩ := demo_moves (pick := pick) hl
  refine ⟨R, .act 1 (.text (.append none 0)), R', s0, h, fun _ _ => trivial, d0, by simp [Desk.Act.doc], hx, fun he => ?_⟩
  obtain ⟨F, hF, hA⟩ := h.docs
  obtain ⟨tag, g1, g2, g3⟩ := hF 0 s0 d0
  obtain ⟨-, hne⟩ := hA 0 1 s0 s1 (by decide) d0 d1
  obtain ⟨c, hc⟩ := find_some_of_mem (g2.kept.mem _ (g2.kept.frame s0.tree.content.root (by simp)))
  have hin : n ∈ ids (single c) := by
    obtain ⟨e, k, hk⟩ := TextProg.node_some (g2.kept.mem _ (g2.kept.frame s0.tree.body.node (by simp)))
    rw [children_node, hk] at hl0
    cases hl0
    exact kids_in h.once hc (body_in g2.kept hc) hk hm
  have hlo := g3 n (by rw [ho]; simp)
  have hnr : s0.tree.content.root ≠ n := by
    rintro rfl
    exact hlo.free (g2.kept.frame s0.tree.content.root (by simp))
  have := ht.others _ (g2.roots s0.tree.content.root (by simp)) hnr (fun e => hne s0.tree.content.root (by simp) (by simp [e]))
  rw [he, hc] at this
  have hcut : ∀ f, n ∉ ids (cut n f) := by
    intro f
    induction f with
    | nil => simp [cut, ids]
    | cons e k g ihk ihg =>
      unfold cut
      split
      · exact ihg
      · rename_i hne
        simp only [ids, List.mem_cons, List.mem_append, not_or]
        exact ⟨Ne.symm hne, ihk, ihg⟩
  simp only [Option.map_some, Option.some.injEq] at this
  rw [this] at hin
  simp only [ids_single, List.mem_cons] at hin
  rcases hin with hin | hin
  · exact hnr (by rw [hin]; exact ((find_mem_ids hc).1).symm)
  · exact hcut _ hin

/-- The hypotheses of C87 are met by a program that makes a paragraph, puts it into the one document and then into the
other. -/
example : ∃ L : XLib, L.Lawful ∧ ∃ R R' s0 s1 n, OK L R ∧ R.docs[0]? = some s0 ∧ R.docs[1]? = some s1 ∧ R.objs = [n] ∧
    (∃ l, children R.world s0.tree.body.node = some l ∧ n ∈ l) ∧
    Runs L Pages.exPick R [.act 1 (.text (.append none 0))] R' ∧
    (∃ l, children R'.world s1.tree.body.node = some l ∧ n ∈ l) ∧ Taken R.world R'.world n s1.tree := by
  obtain ⟨L, hl⟩ := xlib_exists
  obtain ⟨R, R', s0, s1, n, h, d0, d1, ho, h0, hx, h1, ht⟩ := demo_moves (pick := Pages.exPick) hl
  refine ⟨L, hl, R, R', s0, s1, n, h, d0, d1, ho, h0, ?_, h1, ht⟩
  have : Runs L Pages.exPick R [.act 1 (.text (.append none 0))] (exec L Pages.exPick (.act 1 (.text (.append none 0))) R).1 :=
    .act _ (fun _ _ => trivial) (.done _)
  rw [hx] at this
  exact this

end Verif.Room
