import Verif.Model.Whitespace
import Verif.Spec.Collapse
import Verif.Proofs.Py
/-! Helper lemmas for the white-space encoder. -/
set_option linter.unusedSimpArgs false
namespace Verif.Ws
open Verif Verif.Collapse

theorem decode_append (a b : List Item) :
    decode (a ++ b) = match decode a, decode b with
      | some x, some y => some (x ++ y)
      | _, _ => none := by
  induction a with
  | nil => simp [decode]; cases decode b <;> rfl
  | cons i a ih =>
    simp only [List.cons_append, decode, ih]
    cases itemStr i <;> cases decode a <;> cases decode b <;> simp

theorem decode_snoc {a : List Item} {x y : Str} {i : Item} (h : decode a = some x)
    (hi : itemStr i = some y) : decode (a ++ [i]) = some (x ++ y) := by
  rw [decode_append, h]; simp [decode, hi]

theorem plaintext_spaces (n : Nat) (hn : 1 ≤ n) :
    plaintext (spaces n) = some (List.replicate n ' ') := by
  unfold spaces
  split
  · simp [plaintext, spacesCount, Elem.get, Attrs.get, pyInt_natStr]
  · have : n = 1 := by omega
    subst this
    rfl

theorem elemText_spaces (n : Nat) (hn : 1 ≤ n) : elemText (spaces n) = List.replicate n ' ' := by
  unfold spaces
  split
  · simp [elemText, Elem.get, Attrs.get, digitsVal_natStr]
  · have : n = 1 := by omega
    subst this
    rfl

/-- Invariant for losslessness. -/
structure Inv (t : Str) (s : Enc) : Prop where
  dec : ∃ d, decode s.result = some d ∧ d ++ s.stack = t
  run : ∃ pre, s.stack = pre ++ List.replicate s.spaceCounter ' '

theorem Inv.init : Inv [] {} := ⟨⟨[], rfl, rfl⟩, ⟨[], rfl⟩⟩

theorem Inv.appendStack {t : Str} {s : Enc} (h : Inv t s) :
    decode s.appendStack.result = some t ∧ s.appendStack.stack = [] := by
  obtain ⟨d, hd, ht⟩ := h.dec
  unfold Enc.appendStack
  split
  · rename_i he
    simp at he
    simp [he] at ht
    exact ⟨by rw [hd, ht], he⟩
  · refine ⟨?_, rfl⟩
    simp only
    rw [decode_snoc hd (y := s.stack) rfl, ht]

theorem Inv.appendSpace {t : Str} {s : Enc} (h : Inv t s) (hk : 1 < s.spaceCounter) :
    decode s.appendSpace.result = some t ∧ s.appendSpace.stack = [] ∧
      s.appendSpace.spaceCounter = 0 := by
  obtain ⟨d, hd, ht⟩ := h.dec
  obtain ⟨pre, hp⟩ := h.run
  have hsplit : s.stack = (pre ++ [' ']) ++ List.replicate (s.spaceCounter - 1) ' ' := by
    rw [hp]
    conv => lhs; rw [show s.spaceCounter = 1 + (s.spaceCounter - 1) by omega, ← List.replicate_append_replicate]
    simp
  have htake : s.stack.take (s.stack.length - (s.spaceCounter - 1)) = pre ++ [' '] := by
    rw [hsplit, List.length_append, List.length_replicate, Nat.add_sub_cancel, List.take_left]
  unfold Enc.appendSpace
  simp only [htake]
  unfold Enc.appendStack
  simp only [List.isEmpty_iff, List.append_eq_nil_iff, List.cons_ne_self, and_false, if_false]
  refine ⟨?_, trivial, trivial⟩
  rw [decode_snoc (x := d ++ (pre ++ [' '])) (y := List.replicate (s.spaceCounter - 1) ' ')]
  · rw [← ht, hsplit]; simp
  · exact decode_snoc hd rfl
  · exact plaintext_spaces _ (by omega)

theorem Inv.flush {t : Str} {s : Enc} (h : Inv t s) :
    decode s.flush.result = some t ∧ s.flush.stack = [] := by
  unfold Enc.flush
  split
  · exact ⟨(h.appendSpace (by assumption)).1, (h.appendSpace (by assumption)).2.1⟩
  · exact h.appendStack

theorem Inv.step {t : Str} {s : Enc} (h : Inv t s) (c : Char) : Inv (t ++ [c]) (s.step c) := by
  unfold Enc.step
  split
  · rename_i hc; subst hc
    obtain ⟨h1, h2⟩ := h.flush
    refine ⟨⟨t ++ ['\n'], decode_snoc h1 rfl, ?_⟩, ⟨[], ?_⟩⟩ <;> simp [Enc.addBrk, h2]
  split
  · rename_i hc; subst hc
    obtain ⟨h1, h2⟩ := h.flush
    refine ⟨⟨t ++ ['\t'], decode_snoc h1 rfl, ?_⟩, ⟨[], ?_⟩⟩ <;> simp [Enc.addTab, h2]
  split
  · rename_i hc; subst hc
    obtain ⟨d, hd, ht⟩ := h.dec
    obtain ⟨pre, hp⟩ := h.run
    refine ⟨⟨d, ?_, ?_⟩, ⟨pre, ?_⟩⟩
    · simpa [Enc.addSpc, Enc.addChar] using hd
    · simp [Enc.addSpc, Enc.addChar, ← ht]
    · simp [Enc.addSpc, Enc.addChar, hp, List.replicate_succ']
  · rename_i hc
    unfold Enc.addChar
    simp only [ne_eq, hc, not_false_eq_true, if_true]
    split
    · obtain ⟨h1, h2, h3⟩ := h.appendSpace (by assumption)
      refine ⟨⟨t, h1, ?_⟩, ⟨[c], ?_⟩⟩ <;> simp [h2, h3]
    · obtain ⟨d, hd, ht⟩ := h.dec
      refine ⟨⟨d, hd, ?_⟩, ⟨s.stack ++ [c], ?_⟩⟩ <;> simp [← ht]

theorem Inv.foldl {t : Str} {s : Enc} (h : Inv t s) (u : Str) : Inv (t ++ u) (u.foldl Enc.step s) := by
  induction u generalizing t s with
  | nil => simpa using h
  | cons c u ih => simpa using ih (h.step c)

/-! ### Reading with collapsing -/

/-- Text that collapsing leaves alone: no tab, newline, carriage return, double blank. -/
def Good : Str → Prop
  | [] => True
  | c :: w => (c ≠ '\t' ∧ c ≠ '\n' ∧ c ≠ '\r') ∧ (c = ' ' → w.head? ≠ some ' ') ∧ Good w

theorem good_append_char {w : Str} {c : Char} (h : Good w) (hc : c ≠ '\t' ∧ c ≠ '\n' ∧ c ≠ '\r')
    (hs : c = ' ' → w.getLast? ≠ some ' ') : Good (w ++ [c]) := by
  induction w with
  | nil => simp [Good, hc]
  | cons d w ih =>
    obtain ⟨h1, h2, h3⟩ := h
    refine ⟨h1, ?_, ih h3 ?_⟩
    · intro hd
      cases w with
      | nil =>
        simp
        intro hc'; have := hs hc'; simp [hd] at this
      | cons e w => simpa using h2 hd
    · intro hc'
      have := hs hc'
      cases w with
      | nil => simp
      | cons e w => simpa using this

theorem isWs_false {c : Char} (h1 : c ≠ '\t') (h2 : c ≠ '\n') (h3 : c ≠ '\r') (h4 : c ≠ ' ') :
    isWs c = false := by simp [isWs, *]

/-- Reading a good fragment after a non-blank character or an element. -/
theorem readText_other {w : Str} (h : Good w) (out : Str) :
    readText (out, .other) w = (out ++ w, if w.getLast? = some ' ' then .raw else .other) := by
  suffices H : ∀ (w : Str), Good w → ∀ out p, p ≠ Prev.start → (p = .raw → w.head? ≠ some ' ') →
      readText (out, p) w = (out ++ w,
        if w = [] then p else if w.getLast? = some ' ' then .raw else .other) by
    rw [H w h out .other (by simp) (by simp)]
    cases w <;> simp
  intro w
  induction w with
  | nil => intro _ out p _ _; simp [readText]
  | cons c w ih =>
    intro hg out p hp hh
    obtain ⟨⟨h1, h1', h1''⟩, h2, h3⟩ := hg
    by_cases hc : c = ' '
    · subst hc
      have hpo : p = .other := by
        cases p with
        | start => exact absurd rfl hp
        | raw => exact absurd rfl (hh rfl)
        | other => rfl
      subst hpo
      have := ih h3 (out ++ [' ']) .raw (by simp) (fun _ => h2 rfl)
      simp only [readText, List.foldl_cons] at this ⊢
      rw [show readChar (out, .other) ' ' = (out ++ [' '], .raw) by simp [readChar, isWs]]
      rw [this]
      cases w <;> simp
    · have := ih h3 (out ++ [c]) .other (by simp) (by simp)
      simp only [readText, List.foldl_cons] at this ⊢
      rw [show readChar (out, p) c = (out ++ [c], .other) by
        simp [readChar, isWs_false h1 h1' h1'' hc]]
      rw [this]
      cases w <;> simp [hc]

/-- Drop one leading blank. -/
def dropLead (t : Str) : Str := if t.head? = some ' ' then t.tail else t

theorem dropLead_append {a b : Str} (h : a ≠ []) : dropLead (a ++ b) = dropLead a ++ b := by
  cases a with
  | nil => exact absurd rfl h
  | cons c a => simp [dropLead]; split <;> simp

/-- Reading a good non-empty fragment at the start of the paragraph. -/
theorem readText_start {w : Str} (h : Good w) :
    readText ([], .start) w = (dropLead w,
      if w = [] ∨ w = [' '] then .start
      else if w.getLast? = some ' ' then .raw else .other) := by
  cases w with
  | nil => simp [readText, dropLead]
  | cons c w =>
    obtain ⟨⟨h1, h1', h1''⟩, h2, h3⟩ := h
    by_cases hc : c = ' '
    · subst hc
      cases w with
      | nil => simp [readText, dropLead, readChar, isWs]
      | cons d w =>
        have hd : d ≠ ' ' := by simpa using h2 rfl
        obtain ⟨⟨g1, g1', g1''⟩, g2, g3⟩ := h3
        have := readText_other g3 [d]
        simp only [readText, List.foldl_cons] at this ⊢
        rw [show readChar ([], .start) ' ' = ([], .start) by simp [readChar, isWs]]
        rw [show readChar ([], .start) d = ([d], .other) by
          simp [readChar, isWs_false g1 g1' g1'' hd]]
        rw [this]
        cases w <;> simp [dropLead, hd]
    · have := readText_other h3 [c]
      simp only [readText, List.foldl_cons] at this ⊢
      rw [show readChar ([], .start) c = ([c], .other) by
        simp [readChar, isWs_false h1 h1' h1'' hc]]
      rw [this]
      cases w <;> simp [dropLead, hc]

/-- What a consumer has read after `items`. -/
abbrev rd (items : List Item) : Str × Prev := items.foldl readItem ([], .start)

theorem read_of_rd {items : List Item} {o : Str} {p : Prev} (h : rd items = (o, p)) :
    Collapse.read items = if p = .raw then o.dropLast else o := by
  unfold Collapse.read
  simp only [show List.foldl Collapse.readItem ([], Prev.start) items = _ from h]

/-- The consumer has read `t`, up to one ignored leading blank. -/
def ReadUpTo (items : List Item) (t : Str) : Prop :=
  if items = [] then t = [] else (t ≠ [] ∧ rd items = (dropLead t, .other))

/-- Invariant for collapsing: `t` has been consumed. -/
structure CInv (t : Str) (s : Enc) : Prop where
  run : ∃ pre, s.stack = pre ++ List.replicate s.spaceCounter ' ' ∧ Good pre ∧
    pre.getLast? ≠ some ' '
  tail : ∃ t0, t = t0 ++ List.replicate s.spaceCounter ' ' ∧ t0.getLast? ≠ some ' '
  rd : ∃ d, ReadUpTo s.result d ∧ d ++ s.stack = t

theorem CInv.init : CInv [] {} :=
  ⟨⟨[], by simp, trivial, by simp⟩, ⟨[], by simp, by simp⟩, ⟨[], by simp [ReadUpTo], rfl⟩⟩

/-- Reading one more good fragment followed by an element. -/
theorem readUpTo_frag_elem {items : List Item} {d w : Str} (hd : ReadUpTo items d) (hg : Good w)
    {e : Elem} (he : elemText e ≠ []) (hsp : w = [] → (elemText e).head? ≠ some ' ') :
    ReadUpTo ((if w = [] then items else items ++ [.text w]) ++ [.elem e]) (d ++ w ++ elemText e) := by
  unfold ReadUpTo at *
  simp only [List.append_eq_nil_iff, List.cons_ne_self, and_false, if_false]
  refine ⟨by simp [he], ?_⟩
  by_cases hi : items = []
  · simp only [hi, if_true] at hd
    subst hd
    subst hi
    split
    · rename_i hw; subst hw
      simp [Collapse.readItem, dropLead, hsp]
    · rename_i hw
      simp only [List.nil_append, List.foldl_cons, List.foldl_nil, rd, List.cons_append]
      rw [show Collapse.readItem ([], .start) (.text w) = readText ([], .start) w from rfl,
        readText_start hg]
      simp [Collapse.readItem, dropLead_append hw]
  · simp only [hi, if_false] at hd
    obtain ⟨hd0, hd⟩ := hd
    have key : rd (if w = [] then items else items ++ [.text w]) =
        (dropLead d ++ w, if w.getLast? = some ' ' then .raw else .other) := by
      split
      · rename_i hw; subst hw; simp [hd]
      · rw [rd, List.foldl_append]
        rw [show List.foldl Collapse.readItem ([], Prev.start) items = _ from hd]
        exact readText_other hg _
    rw [rd, List.foldl_append]
    rw [show List.foldl Collapse.readItem ([], Prev.start) _ = _ from key]
    simp [Collapse.readItem, dropLead_append hd0]

theorem good_run_one {pre : Str} {k : Nat} (hg : Good pre) (hl : pre.getLast? ≠ some ' ')
    (hk : ¬ 1 < k) : Good (pre ++ List.replicate k ' ') := by
  have : k = 0 ∨ k = 1 := by omega
  rcases this with h | h <;> subst h
  · simpa using hg
  · simpa using good_append_char hg (c := ' ') (by decide) (fun _ => hl)

theorem appendStack_result (s : Enc) :
    s.appendStack.result = (if s.stack = [] then s.result else s.result ++ [.text s.stack]) ∧
      s.appendStack.stack = [] ∧ s.appendStack.spaceCounter = s.spaceCounter := by
  unfold Enc.appendStack
  by_cases h : s.stack = [] <;> simp [h]

theorem take_run {pre : Str} {k : Nat} (hk : 1 < k) :
    (pre ++ List.replicate k ' ').take ((pre ++ List.replicate k ' ').length - (k - 1)) =
      pre ++ [' '] := by
  have : pre ++ List.replicate k ' ' = (pre ++ [' ']) ++ List.replicate (k - 1) ' ' := by
    conv => lhs; rw [show k = 1 + (k - 1) by omega, ← List.replicate_append_replicate]
    simp
  rw [this, List.length_append, List.length_replicate, Nat.add_sub_cancel, List.take_left]

theorem appendSpace_result {s : Enc} {pre : Str} (hp : s.stack = pre ++ List.replicate s.spaceCounter ' ')
    (hk : 1 < s.spaceCounter) :
    s.appendSpace.result = s.result ++ [.text (pre ++ [' ']), .elem (spaces (s.spaceCounter - 1))] ∧
      s.appendSpace.stack = [] ∧ s.appendSpace.spaceCounter = 0 := by
  unfold Enc.appendSpace
  rw [hp]
  simp only [take_run hk]
  unfold Enc.appendStack
  simp

theorem CInv.appendSpace {t : Str} {s : Enc} (h : CInv t s) (hk : 1 < s.spaceCounter) :
    ReadUpTo s.appendSpace.result t := by
  obtain ⟨pre, hp, hg, hl⟩ := h.run
  obtain ⟨d, hd, ht⟩ := h.rd
  rw [(appendSpace_result hp hk).1]
  have hg' : Good (pre ++ [' ']) := good_append_char hg (by decide) (fun _ => hl)
  have hsp := elemText_spaces (s.spaceCounter - 1) (by omega)
  have := readUpTo_frag_elem hd hg' (e := spaces (s.spaceCounter - 1))
    (by rw [hsp]; simp; omega) (by simp)
  simp only [List.append_eq_nil_iff, List.cons_ne_self, and_false, if_false] at this
  rw [hsp] at this
  have e1 : d ++ (pre ++ [' ']) ++ List.replicate (s.spaceCounter - 1) ' ' = t := by
    rw [← ht, hp]
    conv => rhs; rw [show s.spaceCounter = 1 + (s.spaceCounter - 1) by omega,
      ← List.replicate_append_replicate]
    simp
  rw [e1] at this
  simpa using this

/-- `flush` followed by a tab or line break element. -/
theorem CInv.flush_elem {t : Str} {s : Enc} (h : CInv t s) {e : Elem} (he : elemText e ≠ [])
    (hsp : (elemText e).head? ≠ some ' ') :
    ReadUpTo (s.flush.result ++ [.elem e]) (t ++ elemText e) ∧ s.flush.stack = [] := by
  obtain ⟨pre, hp, hg, hl⟩ := h.run
  unfold Enc.flush
  split
  · rename_i hk
    refine ⟨?_, (appendSpace_result hp hk).2.1⟩
    have := readUpTo_frag_elem (h.appendSpace hk) (w := []) trivial he (fun _ => hsp)
    simpa using this
  · rename_i hk
    obtain ⟨h1, h2, _⟩ := appendStack_result s
    refine ⟨?_, h2⟩
    obtain ⟨d, hd, ht⟩ := h.rd
    rw [h1]
    have := readUpTo_frag_elem hd (w := s.stack) (by rw [hp]; exact good_run_one hg hl hk) he
      (fun _ => hsp)
    rwa [ht] at this

theorem CInv.step {t : Str} {s : Enc} (h : CInv t s) {c : Char} (hr : c ≠ '\r') :
    CInv (t ++ [c]) (s.step c) := by
  unfold Enc.step
  split
  · rename_i hc; subst hc
    obtain ⟨h1, h2⟩ := h.flush_elem (e := lineBreak) (by decide) (by decide)
    refine ⟨⟨[], ?_, trivial, by simp⟩, ⟨t ++ ['\n'], ?_, by simp⟩, ⟨t ++ ['\n'], h1, ?_⟩⟩ <;>
      simp [Enc.addBrk, h2]
  split
  · rename_i hc; subst hc
    obtain ⟨h1, h2⟩ := h.flush_elem (e := tabulator) (by decide) (by decide)
    refine ⟨⟨[], ?_, trivial, by simp⟩, ⟨t ++ ['\t'], ?_, by simp⟩, ⟨t ++ ['\t'], h1, ?_⟩⟩ <;>
      simp [Enc.addTab, h2]
  split
  · rename_i hc; subst hc
    obtain ⟨pre, hp, hg, hl⟩ := h.run
    obtain ⟨t0, ht0, hl0⟩ := h.tail
    obtain ⟨d, hd, ht⟩ := h.rd
    refine ⟨⟨pre, ?_, hg, hl⟩, ⟨t0, ?_, hl0⟩, ⟨d, ?_, ?_⟩⟩
    · simp [Enc.addSpc, Enc.addChar, hp, List.replicate_succ']
    · simp [Enc.addSpc, Enc.addChar, List.replicate_succ']
      rw [← List.append_assoc, ← ht0]
    · simpa [Enc.addSpc, Enc.addChar] using hd
    · simp [Enc.addSpc, Enc.addChar, ← ht]
  · rename_i hn htab hc
    obtain ⟨pre, hp, hg, hl⟩ := h.run
    unfold Enc.addChar
    simp only [ne_eq, hc, not_false_eq_true, if_true]
    split
    · rename_i hk
      obtain ⟨h1, h2, h3⟩ := appendSpace_result hp hk
      have h4 := h.appendSpace hk
      refine ⟨⟨[c], ?_, ?_, ?_⟩, ⟨t ++ [c], ?_, ?_⟩, ⟨t, h4, ?_⟩⟩ <;>
        simp [h2, h3, hc, Good, hn, htab, hr]
    · rename_i hk
      obtain ⟨d, hd, ht⟩ := h.rd
      refine ⟨⟨s.stack ++ [c], ?_, ?_, ?_⟩, ⟨t ++ [c], ?_, ?_⟩, ⟨d, hd, ?_⟩⟩
      · simp
      · apply good_append_char
        · rw [hp]; exact good_run_one hg hl hk
        · exact ⟨htab, hn, hr⟩
        · exact fun h => absurd h hc
      · simp [hc]
      · simp
      · simp [hc]
      · simp [← ht]

theorem CInv.foldl {t : Str} {s : Enc} (h : CInv t s) (u : Str) (hu : '\r' ∉ u) :
    CInv (t ++ u) (u.foldl Enc.step s) := by
  induction u generalizing t s with
  | nil => simpa using h
  | cons c u ih =>
    simp at hu
    simpa using ih (h.step (c := c) (fun h => hu.1 h.symm)) hu.2

/-- A run of `k` trailing blanks ends in a single blank iff `k = 1`. -/
theorem endsSingle_run {t t0 : Str} {k : Nat} (ht : t = t0 ++ List.replicate k ' ')
    (h0 : t0.getLast? ≠ some ' ') : EndsSingle t ↔ k = 1 := by
  constructor
  · rintro ⟨u, hu, hul⟩
    match k with
    | 0 =>
      simp at ht; rw [ht] at hu
      rw [hu] at h0; simp at h0
    | 1 => rfl
    | k + 2 =>
      rw [List.replicate_succ', ← List.append_assoc] at ht
      rw [ht] at hu
      have := List.append_inj_left' hu rfl
      rw [← this, List.replicate_succ', ← List.append_assoc] at hul
      simp at hul
  · intro hk; subst hk
    exact ⟨t0, by simpa using ht, h0⟩

/-- What a consumer reads from the encoded form of a text without carriage returns: one leading
blank and a single trailing blank are lost, everything else is kept. -/
theorem read_encode {t : Str} (hr : '\r' ∉ t) :
    (EndsSingle t → Collapse.read (encode t) = (dropLead t).dropLast) ∧
    (¬ EndsSingle t → Collapse.read (encode t) = dropLead t) := by
  have h := CInv.init.foldl t hr
  simp only [List.nil_append] at h
  unfold encode
  generalize List.foldl Enc.step {} t = s at h
  obtain ⟨pre, hp, hg, hl⟩ := h.run
  obtain ⟨t0, ht0, hl0⟩ := h.tail
  obtain ⟨d, hd, ht⟩ := h.rd
  rw [endsSingle_run ht0 hl0]
  unfold Enc.flush
  split
  · rename_i hk
    have h1 := h.appendSpace hk
    refine ⟨fun h => by omega, fun _ => ?_⟩
    unfold ReadUpTo at h1
    rw [(appendSpace_result hp hk).1] at h1 ⊢
    simp only [List.append_eq_nil_iff, List.cons_ne_self, and_false, if_false, reduceCtorEq] at h1
    rw [read_of_rd h1.2]
    simp
  · rename_i hk
    have hgs : Good s.stack := by rw [hp]; exact good_run_one hg hl hk
    rw [(appendStack_result s).1]
    have hlast : s.stack.getLast? = some ' ' ↔ s.spaceCounter = 1 := by
      have : s.spaceCounter = 0 ∨ s.spaceCounter = 1 := by omega
      rcases this with h | h <;> rw [hp, h]
      · simpa using hl
      · simp
    by_cases hi : s.result = []
    · simp only [ReadUpTo, hi, if_true] at hd
      subst hd
      simp only [List.nil_append] at ht
      subst ht
      simp only [hi, List.nil_append]
      by_cases hs : s.stack = []
      · simp [hs, Collapse.read, dropLead]
      · simp only [hs, if_false]
        rw [read_of_rd (items := [.text s.stack]) (readText_start hgs)]
        simp only [hs, false_or]
        by_cases h1 : s.stack = [' ']
        · simp [h1, dropLead]
        · simp only [h1, if_false, hlast]
          split <;> simp_all
    · simp only [ReadUpTo, hi, if_false] at hd
      obtain ⟨hd0, hd⟩ := hd
      have key : rd (if s.stack = [] then s.result else s.result ++ [.text s.stack]) =
          (dropLead d ++ s.stack, if s.stack.getLast? = some ' ' then .raw else .other) := by
        split
        · rename_i hw; simp [hd, hw]
        · rw [rd, List.foldl_append]
          rw [show List.foldl Collapse.readItem ([], Prev.start) s.result = _ from hd]
          exact readText_other hgs _
      rw [read_of_rd key]
      simp only [hlast]
      rw [← dropLead_append hd0, ht]
      split <;> simp_all

/-! ### Shape of the encoded items (any text, also with carriage returns) -/

/-- No raw tab, newline or two adjacent blanks. -/
def NoRaw (w : Str) : Prop :=
  '\t' ∉ w ∧ '\n' ∉ w ∧ ∀ l1 l2, w ≠ l1 ++ ' ' :: ' ' :: l2

theorem noRaw_snoc {w : Str} {c : Char} (h : NoRaw w) (h1 : c ≠ '\t') (h2 : c ≠ '\n')
    (h3 : c = ' ' → w.getLast? ≠ some ' ') : NoRaw (w ++ [c]) := by
  refine ⟨by simp [h.1, Ne.symm h1], by simp [h.2.1, Ne.symm h2], ?_⟩
  intro l1 l2 he
  rcases List.eq_nil_or_concat l2 with hl | ⟨l2', x, hl⟩
  · subst hl
    have he' : w ++ [c] = (l1 ++ [' ']) ++ [' '] := by simpa using he
    obtain ⟨ha, hb⟩ := List.append_inj' he' rfl
    simp at hb
    exact h3 hb (by simp [ha])
  · subst hl
    have he' : w ++ [c] = (l1 ++ ' ' :: ' ' :: l2') ++ [x] := by simpa using he
    exact h.2.2 l1 l2' (List.append_inj' he' rfl).1

/-- Shape of the items produced by the encoder: fragments are non-empty and need no
collapsing, elements are the three white-space elements, and `text:s` stands for at least one
blank and directly follows a fragment ending in a blank. -/
structure Shape (r : List Item) : Prop where
  frag : ∀ w, Item.text w ∈ r → w ≠ [] ∧ NoRaw w
  elems : ∀ e, Item.elem e ∈ r → e = tabulator ∨ e = lineBreak ∨ ∃ n, 1 ≤ n ∧ e = spaces n
  sep : ∀ l1 e l2, r = l1 ++ Item.elem e :: l2 → e.tag = "text:s" →
    ∃ l0 w, l1 = l0 ++ [Item.text (w ++ [' '])]

theorem Shape.nil : Shape [] := ⟨by simp, by simp, by simp⟩

theorem Shape.snoc_text {r : List Item} (h : Shape r) {w : Str} (h1 : w ≠ []) (h2 : NoRaw w) :
    Shape (r ++ [.text w]) := by
  refine ⟨?_, ?_, ?_⟩
  · intro v hv
    simp at hv
    rcases hv with hv | hv
    · exact h.frag v hv
    · subst hv; exact ⟨h1, h2⟩
  · intro e he; exact h.elems e (by simpa using he)
  · intro l1 e l2 he ht
    rcases List.eq_nil_or_concat l2 with hl | ⟨l2', x, hl⟩
    · subst hl
      have := (List.append_inj' he rfl).2
      simp at this
    · subst hl
      have he' : r ++ [.text w] = (l1 ++ .elem e :: l2') ++ [x] := by simpa using he
      exact h.sep l1 e l2' (List.append_inj' he' rfl).1 ht

theorem Shape.snoc_elem {r : List Item} (h : Shape r) {e : Elem}
    (he : e = tabulator ∨ e = lineBreak ∨ ∃ n, 1 ≤ n ∧ e = spaces n)
    (hs : e.tag = "text:s" → ∃ l0 w, r = l0 ++ [Item.text (w ++ [' '])]) :
    Shape (r ++ [.elem e]) := by
  refine ⟨?_, ?_, ?_⟩
  · intro v hv; exact h.frag v (by simpa using hv)
  · intro e' he'
    simp at he'
    rcases he' with he' | he'
    · exact h.elems e' he'
    · subst he'; exact he
  · intro l1 e' l2 he' ht
    rcases List.eq_nil_or_concat l2 with hl | ⟨l2', x, hl⟩
    · subst hl
      obtain ⟨ha, hb⟩ := List.append_inj' he' rfl
      simp at hb; subst hb
      rw [← ha]; exact hs ht
    · subst hl
      have he'' : r ++ [.elem e] = (l1 ++ .elem e' :: l2') ++ [x] := by simpa using he'
      exact h.sep l1 e' l2' (List.append_inj' he'' rfl).1 ht

structure SInv (s : Enc) : Prop where
  shape : Shape s.result
  run : ∃ pre, s.stack = pre ++ List.replicate s.spaceCounter ' ' ∧ NoRaw pre ∧
    pre.getLast? ≠ some ' '

theorem SInv.flush {s : Enc} (h : SInv s) : Shape s.flush.result ∧ s.flush.stack = [] := by
  obtain ⟨pre, hp, hg, hl⟩ := h.run
  unfold Enc.flush
  split
  · rename_i hk
    obtain ⟨h1, h2, h3⟩ := appendSpace_result hp hk
    refine ⟨?_, h2⟩
    rw [h1]
    have : s.result ++ [Item.text (pre ++ [' ']), Item.elem (spaces (s.spaceCounter - 1))] =
        (s.result ++ [Item.text (pre ++ [' '])]) ++ [Item.elem (spaces (s.spaceCounter - 1))] := by simp
    rw [this]
    apply Shape.snoc_elem
    · apply h.shape.snoc_text (by simp)
      exact noRaw_snoc hg (by decide) (by decide) (fun _ => hl)
    · exact Or.inr (Or.inr ⟨_, by omega, rfl⟩)
    · intro _; exact ⟨_, _, rfl⟩
  · rename_i hk
    obtain ⟨h1, h2, _⟩ := appendStack_result s
    refine ⟨?_, h2⟩
    rw [h1]
    split
    · exact h.shape
    · apply h.shape.snoc_text (by assumption)
      rw [hp]
      have : s.spaceCounter = 0 ∨ s.spaceCounter = 1 := by omega
      rcases this with h | h <;> rw [h]
      · simpa using hg
      · simpa using noRaw_snoc hg (c := ' ') (by decide) (by decide) (fun _ => hl)

theorem SInv.step {s : Enc} (h : SInv s) (c : Char) : SInv (s.step c) := by
  unfold Enc.step
  have hnil : NoRaw [] := ⟨by simp, by simp, by simp⟩
  split
  · obtain ⟨h1, h2⟩ := h.flush
    refine ⟨h1.snoc_elem (by simp) (fun h => absurd h (by decide)), ⟨[], ?_, hnil, by simp⟩⟩
    simp [Enc.addBrk, h2]
  split
  · obtain ⟨h1, h2⟩ := h.flush
    refine ⟨h1.snoc_elem (by simp) (fun h => absurd h (by decide)), ⟨[], ?_, hnil, by simp⟩⟩
    simp [Enc.addTab, h2]
  split
  · rename_i hc; subst hc
    obtain ⟨pre, hp, hg, hl⟩ := h.run
    refine ⟨?_, ⟨pre, ?_, hg, hl⟩⟩
    · simpa [Enc.addSpc, Enc.addChar] using h.shape
    · simp [Enc.addSpc, Enc.addChar, hp, List.replicate_succ']
  · rename_i hn htab hc
    obtain ⟨pre, hp, hg, hl⟩ := h.run
    unfold Enc.addChar
    simp only [ne_eq, hc, not_false_eq_true, if_true]
    split
    · rename_i hk
      obtain ⟨h1, h2, h3⟩ := appendSpace_result hp hk
      have h4 := h.flush.1
      simp only [Enc.flush, hk, if_true] at h4
      refine ⟨h4, ⟨[c], by simp [h2, h3], ?_, by simp [hc]⟩⟩
      simpa using noRaw_snoc (w := []) hnil htab hn (by simp)
    · rename_i hk
      refine ⟨h.shape, ⟨s.stack ++ [c], by simp, ?_, by simp [hc]⟩⟩
      apply noRaw_snoc _ htab hn (fun h => absurd h hc)
      rw [hp]
      have : s.spaceCounter = 0 ∨ s.spaceCounter = 1 := by omega
      rcases this with h | h <;> rw [h]
      · simpa using hg
      · simpa using noRaw_snoc hg (c := ' ') (by decide) (by decide) (fun _ => hl)

theorem encode_shape (t : Str) : Shape (encode t) := by
  have : SInv (t.foldl Enc.step {}) := by
    suffices H : ∀ s, SInv s → SInv (t.foldl Enc.step s) by
      exact H {} ⟨Shape.nil, ⟨[], by simp, ⟨by simp, by simp, by simp⟩, by simp⟩⟩
    induction t with
    | nil => intro s h; exact h
    | cons c t ih => intro s h; exact ih _ (h.step c)
  exact this.flush.1

/-- A consumer never sees a carriage return. -/
theorem read_no_cr (t : Str) : '\r' ∉ Collapse.read (encode t) := by
  have hs := encode_shape t
  have key : ∀ items : List Item,
      (∀ e, Item.elem e ∈ items → e = tabulator ∨ e = lineBreak ∨ ∃ n, 1 ≤ n ∧ e = spaces n) →
      ∀ st : Str × Prev, '\r' ∉ st.1 → '\r' ∉ (items.foldl Collapse.readItem st).1 := by
    intro items
    induction items with
    | nil => intro _ st h; exact h
    | cons i items ih =>
      intro he st h
      apply ih (fun e h => he e (by simp [h]))
      cases i with
      | text w =>
        show '\r' ∉ (readText st w).1
        clear he ih hs
        induction w generalizing st with
        | nil => exact h
        | cons c w ihw =>
          apply ihw
          unfold readChar
          split
          · split
            · simpa using h
            · exact h
          · rename_i hc
            have : '\r' ≠ c := by
              intro h; subst h; revert hc; decide
            simp [h, this]
      | elem e =>
        show '\r' ∉ st.1 ++ elemText e
        rcases he e (by simp) with h' | h' | ⟨n, hn, h'⟩
        · subst h'; simp [h, show elemText tabulator = ['\t'] from rfl]
        · subst h'; simp [h, show elemText lineBreak = ['\n'] from rfl]
        · subst h'; simp [h, elemText_spaces n hn]
  have := key (encode t) hs.elems ([], .start) (by simp)
  unfold Collapse.read
  simp only
  split
  · exact fun h => this (List.dropLast_subset _ h)
  · exact this

end Verif.Ws
