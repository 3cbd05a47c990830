import Verif.Model.TableUtils
import Verif.Spec.Address
import Verif.Proofs.Py
/-! Helper lemmas for addresses. -/
set_option linter.unusedSimpArgs false
namespace Verif.Address
open Verif Verif.TU

theorem letter_toNat {n : Nat} (h : n < 26) : (letter n).toNat = 65 + n := by
  unfold letter
  exact char_toNat_ofNat (by omega)

theorem isAZ_iff {c : Char} : isAZ c = true ↔ 65 ≤ c.toNat ∧ c.toNat ≤ 90 := by
  simp [isAZ]

theorem isDigit_iff {c : Char} : isDigit c = true ↔ 48 ≤ c.toNat ∧ c.toNat ≤ 57 := by
  unfold isDigit digitVal
  split <;> simp_all

theorem char_le_iff {a b : Char} : a ≤ b ↔ a.toNat ≤ b.toNat := by
  rw [Char.le_def]; exact UInt32.le_iff_toNat_le

theorem AZ_iff {c : Char} : ('A' ≤ c ∧ c ≤ 'Z') ↔ isAZ c = true := by
  rw [isAZ_iff, char_le_iff, char_le_iff]
  exact Iff.rfl

theorem digit_iff {c : Char} : ('0' ≤ c ∧ c ≤ '9') ↔ isDigit c = true := by
  rw [isDigit_iff, char_le_iff, char_le_iff]
  exact Iff.rfl

theorem letter_isAZ {n : Nat} (h : n < 26) : isAZ (letter n) = true := by
  rw [isAZ_iff, letter_toNat h]; omega

theorem letter_of_isAZ {c : Char} (h : isAZ c = true) :
    c = letter (c.toNat - 65) ∧ c.toNat - 65 < 26 := by
  rw [isAZ_iff] at h
  refine ⟨?_, by omega⟩
  unfold letter
  rw [show 65 + (c.toNat - 65) = c.toNat by omega]
  exact (Char.ofNat_toNat c).symm

theorem colNameF_succ (f n : Nat) (hf : n < f) : colNameF (f + 1) n = colNameF f n := by
  induction f generalizing n with
  | zero => omega
  | succ f ih =>
    conv => lhs; rw [colNameF]
    conv => rhs; rw [colNameF]
    split
    · rfl
    · rw [ih (n / 26 - 1) (by omega)]

theorem colNameF_eq (f n : Nat) (hf : n < f) : colNameF f n = colName n := by
  induction f with
  | zero => omega
  | succ f ih =>
    by_cases h : n < f
    · rw [colNameF_succ f n h, ih h]
    · have : n = f := by omega
      subst this; rfl

theorem colName_eq (n : Nat) :
    colName n = if n < 26 then [letter n] else colName (n / 26 - 1) ++ [letter (n % 26)] := by
  conv => lhs; unfold colName
  rw [colNameF]
  split
  · rfl
  · rw [colNameF_eq n (n / 26 - 1) (by omega)]

theorem colName_ne_nil (n : Nat) : colName n ≠ [] := by
  rw [colName_eq]; split <;> simp

theorem colName_isAZ (n : Nat) : ∀ c ∈ colName n, isAZ c = true := by
  induction n using Nat.strongRecOn with
  | ind n ih =>
    intro c hc
    rw [colName_eq] at hc
    split at hc
    · simp at hc; subst hc; exact letter_isAZ (by assumption)
    · simp only [List.mem_append, List.mem_singleton] at hc
      rcases hc with hc | hc
      · exact ih _ (by omega) c hc
      · subst hc; exact letter_isAZ (by omega)

/-- The column loop is linear in its accumulator. -/
theorem columnLoop_eq (cs : Str) (index power : Int) :
    columnLoop index power cs = index + power * columnLoop 0 1 cs := by
  induction cs generalizing index power with
  | nil => simp [columnLoop]
  | cons c cs ih =>
    simp only [columnLoop]
    rw [ih, ih (index := 0 + _)]
    generalize columnLoop 0 1 cs = x
    generalize (c.toNat : Int) - 64 = y
    rw [Int.mul_assoc]
    simp only [Int.zero_add, Int.mul_one, Int.one_mul, Int.mul_add]
    rw [Int.mul_comm y power]
    omega

theorem columnNameToIndex_snoc (L : Str) (c : Char) :
    columnNameToIndex (L ++ [c]) = (columnNameToIndex L + 1) * 26 + ((c.toNat : Int) - 65) := by
  unfold columnNameToIndex
  rw [List.reverse_append]
  simp only [List.reverse_cons, List.reverse_nil, List.nil_append, List.cons_append, columnLoop]
  rw [columnLoop_eq]
  omega

theorem columnNameToIndex_colName (n : Nat) : columnNameToIndex (colName n) = n := by
  induction n using Nat.strongRecOn with
  | ind n ih =>
    rw [colName_eq]
    split
    · rename_i h
      rw [show [letter n] = [] ++ [letter n] from rfl, columnNameToIndex_snoc, letter_toNat h]
      simp [columnNameToIndex, columnLoop]
      omega
    · rename_i h
      rw [columnNameToIndex_snoc, ih _ (by omega), letter_toNat (by omega)]
      omega

/-- Every non-empty word of upper-case letters is the name of its column. -/
theorem colName_surj (L : Str) (hne : L ≠ []) (hL : ∀ c ∈ L, isAZ c = true) :
    ∃ n : Nat, L = colName n ∧ columnNameToIndex L = n := by
  suffices H : ∃ n, L = colName n by
    obtain ⟨n, hn⟩ := H
    exact ⟨n, hn, by rw [hn]; exact columnNameToIndex_colName n⟩
  revert hne hL
  induction h : L.length generalizing L with
  | zero => intro hne; simp at h; exact absurd h hne
  | succ m ih =>
    intro hne hL
    rcases List.eq_nil_or_concat L with h0 | ⟨l, c, h0⟩
    · exact absurd h0 hne
    · subst h0
      simp only [List.concat_eq_append, List.length_append, List.length_singleton] at h hL ⊢
      have hc := letter_of_isAZ (hL c (by simp))
      by_cases hl : l = []
      · subst hl
        refine ⟨c.toNat - 65, ?_⟩
        rw [colName_eq, if_pos hc.2]
        simp [← hc.1]
      · obtain ⟨n, hn⟩ := ih l (by omega) hl (fun d hd => hL d (by simp [hd]))
        refine ⟨(n + 1) * 26 + (c.toNat - 65), ?_⟩
        rw [colName_eq, if_neg (by omega)]
        rw [show ((n + 1) * 26 + (c.toNat - 65)) / 26 - 1 = n by omega]
        rw [show ((n + 1) * 26 + (c.toNat - 65)) % 26 = c.toNat - 65 by omega]
        rw [← hc.1, ← hn]

/-- Every digit string without leading zero is printed by `natStr`. -/
theorem natStr_surj (D : Str) (hne : D ≠ []) (hD : ∀ c ∈ D, isDigit c = true)
    (h0 : D.head? ≠ some '0') : ∃ n, D = natStr (n + 1) := by
  suffices H : ∃ n, 1 ≤ n ∧ D = natStr n by
    obtain ⟨n, h1, h2⟩ := H
    exact ⟨n - 1, by rw [h2]; congr 1; omega⟩
  revert hne hD h0
  induction h : D.length generalizing D with
  | zero => intro hne; simp at h; exact absurd h hne
  | succ m ih =>
    intro hne hD h0
    rcases List.eq_nil_or_concat D with h1 | ⟨l, c, h1⟩
    · exact absurd h1 hne
    · subst h1
      simp only [List.concat_eq_append, List.length_append, List.length_singleton] at h hD h0 ⊢
      have hc := hD c (by simp)
      obtain ⟨d, hd⟩ : ∃ d, digitVal c = some d := Option.isSome_iff_exists.mp hc
      have hd9 := digitVal_lt hd
      have hcd := digitChar_of_digitVal hd
      by_cases hl : l = []
      · subst hl
        refine ⟨d, ?_, ?_⟩
        · rcases Nat.eq_zero_or_pos d with h | h
          · subst h; subst hcd; exact absurd rfl h0
          · exact h
        · rw [natStr_eq, if_pos hd9, hcd]; rfl
      · obtain ⟨n, hn1, hn⟩ := ih l (by omega) hl (fun e he => hD e (by simp [he])) (by
          cases l with
          | nil => exact absurd rfl hl
          | cons a l => simpa using h0)
        refine ⟨n * 10 + d, by omega, ?_⟩
        rw [natStr_eq, if_neg (by omega)]
        rw [show (n * 10 + d) / 10 = n by omega, show (n * 10 + d) % 10 = d by omega, ← hn, ← hcd]

theorem takeWhile_append_of {p : Char → Bool} {L R : Str} (h1 : ∀ c ∈ L, p c = true)
    (h2 : ∀ c, R.head? = some c → p c = false) :
    (L ++ R).takeWhile p = L ∧ (L ++ R).dropWhile p = R := by
  induction L with
  | nil =>
    cases R with
    | nil => simp
    | cons c R => simp [List.takeWhile, List.dropWhile, h2 c rfl]
  | cons a L ih =>
    have ha := h1 a (by simp)
    have := ih (fun c hc => h1 c (by simp [hc]))
    simp [List.takeWhile, List.dropWhile, ha, this]

theorem isAZ_not_digit {c : Char} (h : isDigit c = true) : isAZ c = false := by
  rw [isDigit_iff] at h
  cases h2 : isAZ c with
  | false => rfl
  | true => rw [isAZ_iff] at h2; omega

/-- The regular expression splits letters and digits. -/
theorem matchAddress_append {L D R : Str} (hL : ∀ c ∈ L, isAZ c = true) (hD : ∀ c ∈ D, isDigit c = true)
    (h1 : L ≠ []) (h2 : D ≠ []) (hR : R = [] ∨ R = ['\n']) :
    matchAddress (L ++ D ++ R) = some (L, D) := by
  have a1 := takeWhile_append_of (p := isAZ) (L := L) (R := D ++ R) hL (by
    intro c hc
    cases D with
    | nil => exact absurd rfl h2
    | cons d D => simp at hc; subst hc; exact isAZ_not_digit (hD _ (by simp)))
  have a2 := takeWhile_append_of (p := isDigit) (L := D) (R := R) hD (by
    intro c hc
    rcases hR with h | h <;> subst h
    · simp at hc
    · simp at hc; subst hc; decide)
  unfold matchAddress
  rw [List.append_assoc]
  simp only [a1, a2]
  simp [h1, h2, hR]

theorem matchAddress_some {s L D : Str} (h : matchAddress s = some (L, D)) :
    (∀ c ∈ L, isAZ c = true) ∧ (∀ c ∈ D, isDigit c = true) ∧ L ≠ [] ∧ D ≠ [] ∧
      (s = L ++ D ∨ s = L ++ D ++ ['\n']) := by
  unfold matchAddress at h
  simp only at h
  split at h
  · rename_i hc
    simp only [Option.some.injEq, Prod.mk.injEq] at h
    obtain ⟨h1, h2⟩ := h
    refine ⟨?_, ?_, h1 ▸ hc.1, h2 ▸ hc.2.1, ?_⟩
    · intro c hcm; rw [← h1] at hcm
      exact mem_takeWhile_imp hcm
    · intro c hcm; rw [← h2] at hcm
      exact mem_takeWhile_imp hcm
    · have e1 := List.takeWhile_append_dropWhile (p := isAZ) (l := s)
      have e2 := List.takeWhile_append_dropWhile (p := isDigit) (l := s.dropWhile isAZ)
      rw [h1] at e1
      rw [h2] at e2
      rcases hc.2.2 with h | h
      · left; rw [← e1, ← e2, h]; simp
      · right; rw [← e1, ← e2, h]; simp
  · simp at h

theorem upper_append (a b : Str) : upper (a ++ b) = upper a ++ upper b := by simp [upper]

theorem upperChar_isAZ {c : Char} (h : isAZ c = true) : upperChar c = c := by
  rw [isAZ_iff] at h
  unfold upperChar; rw [if_neg (by omega)]

theorem upperChar_digit {c : Char} (h : isDigit c = true) : upperChar c = c := by
  rw [isDigit_iff] at h
  unfold upperChar; rw [if_neg (by omega)]

theorem upper_of {s : Str} (h : ∀ c ∈ s, upperChar c = c) : upper s = s := by
  unfold upper
  conv => rhs; rw [← List.map_id s]
  exact List.map_congr_left h

theorem lower_iff {c : Char} : ('a' ≤ c ∧ c ≤ 'z') ↔ (97 ≤ c.toNat ∧ c.toNat ≤ 122) := by
  rw [char_le_iff, char_le_iff]
  exact Iff.rfl

theorem upperChar_toNat (c : Char) :
    (upperChar c).toNat = if 97 ≤ c.toNat ∧ c.toNat ≤ 122 then c.toNat - 32 else c.toNat := by
  unfold upperChar
  split
  · exact char_toNat_ofNat (by omega)
  · rfl

theorem upperChar_isAZ_iff {c : Char} :
    isAZ (upperChar c) = true ↔ (('A' ≤ c ∧ c ≤ 'Z') ∨ ('a' ≤ c ∧ c ≤ 'z')) := by
  rw [isAZ_iff, upperChar_toNat, AZ_iff, isAZ_iff, lower_iff]
  split <;> omega

theorem upperChar_isDigit_iff {c : Char} : isDigit (upperChar c) = true ↔ ('0' ≤ c ∧ c ≤ '9') := by
  rw [isDigit_iff, upperChar_toNat, digit_iff, isDigit_iff]
  split <;> omega

theorem upperChar_eq_nl {c : Char} : upperChar c = '\n' ↔ c = '\n' := by
  constructor
  · intro h
    have := upperChar_toNat c
    rw [h] at this
    have h10 : ('\n' : Char).toNat = 10 := rfl
    rw [h10] at this
    apply Char.toNat_inj.mp
    rw [h10]
    split at this <;> omega
  · intro h; subst h; decide

/-- Value of the parsed parts. -/
theorem addressToIndex_of_match {s L D : Str} (h : matchAddress (upper s) = some (L, D)) :
    ∃ n : Nat, digitsVal 0 D = some n ∧
      addressToIndex s = .ok ((n : Int) - 1, columnNameToIndex L) := by
  obtain ⟨_, hD, _, hD', _⟩ := matchAddress_some h
  have hv : ∀ (D : Str) acc, (∀ c ∈ D, isDigit c = true) → ∃ n, digitsVal acc D = some n := by
    intro D
    induction D with
    | nil => intro acc _; exact ⟨acc, rfl⟩
    | cons c D ih =>
      intro acc h
      obtain ⟨d, hd⟩ := Option.isSome_iff_exists.mp (h c (by simp))
      simp only [digitsVal, hd]
      exact ih _ (fun c hc => h c (by simp [hc]))
  obtain ⟨n, hn⟩ := hv D 0 hD
  refine ⟨n, hn, ?_⟩
  unfold addressToIndex
  rw [h]
  simp only [pyInt_digits hD hD', hn, Option.map_some]

end Verif.Address
