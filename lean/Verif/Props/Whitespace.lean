import Verif.Proofs.Whitespace
/-! # C01, C02: white-space encoding -/
namespace Verif.Ws
open Verif Verif.Collapse

/-- **C01.** Decoding the encoded form of any text gives the text back. -/
theorem C01_decode_encode (t : Str) : decode (encode t) = some t := by
  have h := Inv.init.foldl t
  simp only [List.nil_append] at h
  exact h.flush.1

/-- Encoding loses nothing: different texts have different encodings. -/
theorem C01_encode_injective {t u : Str} (h : encode t = encode u) : t = u := by
  have := C01_decode_encode t
  rw [h, C01_decode_encode u] at this
  simpa using this.symm

example : encode "a   b\t\n c".toList =
    [.text "a ".toList, .elem (spaces 2), .text "b".toList, .elem tabulator, .elem lineBreak,
     .text " c".toList] := by decide +kernel

/-- **C02** (shape). Every text fragment of the encoded form is non-empty, has no raw tab or
newline and no two adjacent blanks; the elements are tabs, line breaks and blanks; every
`text:s` stands for at least one blank and directly follows a fragment that ends in a blank. -/
theorem C02_fragments (t : Str) :
    (∀ w, Item.text w ∈ encode t →
      w ≠ [] ∧ '\t' ∉ w ∧ '\n' ∉ w ∧ ∀ l1 l2, w ≠ l1 ++ ' ' :: ' ' :: l2) ∧
    (∀ e, Item.elem e ∈ encode t → e.tag = "text:tab" ∨ e.tag = "text:line-break" ∨
      (e.tag = "text:s" ∧ ∃ n, 1 ≤ n ∧ plaintext e = some (List.replicate n ' '))) ∧
    (∀ l1 e l2, encode t = l1 ++ Item.elem e :: l2 → e.tag = "text:s" →
      ∃ l0 w, l1 = l0 ++ [Item.text (w ++ [' '])]) := by
  have h := encode_shape t
  refine ⟨fun w hw => h.frag w hw, ?_, h.sep⟩
  intro e he
  rcases h.elems e he with h | h | ⟨n, hn, h⟩
  · left; rw [h]; rfl
  · right; left; rw [h]; rfl
  · right; right
    refine ⟨?_, n, hn, ?_⟩
    · rw [h]; unfold spaces; split <;> rfl
    · rw [h]; exact plaintext_spaces n hn

/-- **C02** (meaning). A consumer that collapses white space reads exactly the original text
if, and only if, the text does not start with a blank, does not end in a single blank and
contains no carriage return. -/
theorem C02_collapse_safe (t : Str) :
    Collapse.read (encode t) = t ↔
      (t.head? ≠ some ' ' ∧ ¬ EndsSingle t ∧ '\r' ∉ t) := by
  constructor
  · intro h
    have hr : '\r' ∉ t := by
      rw [← h]; exact read_no_cr t
    obtain ⟨h1, h2⟩ := read_encode hr
    have hlen : (dropLead t).length ≤ t.length := by
      unfold dropLead; split <;> simp
    by_cases he : EndsSingle t
    · exfalso
      have h3 := h1 he
      rw [h] at h3
      have h4 := congrArg List.length h3
      obtain ⟨u, hu, _⟩ := he
      have : t.length ≠ 0 := by rw [hu]; simp
      simp at h4
      omega
    · refine ⟨?_, he, hr⟩
      have h3 := h2 he
      rw [h] at h3
      intro hh
      unfold dropLead at h3
      rw [if_pos hh] at h3
      have h4 := congrArg List.length h3
      have : t.length ≠ 0 := by cases t <;> simp at hh ⊢
      simp at h4
      omega
  · rintro ⟨h1, h2, h3⟩
    rw [(read_encode h3).2 h2]
    simp [dropLead, h1]

/-- The three exclusions are real: such texts are altered by a collapsing consumer. -/
theorem C02_unprotected_refuted :
    Collapse.read (encode " a".toList) ≠ " a".toList ∧
    Collapse.read (encode "a ".toList) ≠ "a ".toList ∧
    Collapse.read (encode "a\rb".toList) ≠ "a\rb".toList := by decide +kernel

example : Collapse.read (encode "a  b \n c\t  ".toList) = "a  b \n c\t  ".toList := by
  decide +kernel

end Verif.Ws
