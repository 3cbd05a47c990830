import Verif.Proofs.Address
/-! # C05, C06, C07: cell addresses and cell ranges -/
set_option linter.unusedSimpArgs false
namespace Verif.Address
open Verif Verif.TU

/-- **C05.** The canonical address of every cell denotes that cell. -/
theorem C05_address_roundtrip (r c : Nat) :
    addressToIndex (address r c) = .ok ((r : Int), (c : Int)) := by
  have h1 : upper (address r c) = address r c := by
    apply upper_of
    intro d hd
    unfold address at hd
    rcases List.mem_append.mp hd with h | h
    · exact upperChar_isAZ (colName_isAZ c d h)
    · exact upperChar_digit (natStr_digits (r + 1) d h)
  have h2 : matchAddress (upper (address r c)) = some (colName c, natStr (r + 1)) := by
    rw [h1]
    have := matchAddress_append (R := []) (colName_isAZ c) (natStr_digits (r + 1)) (colName_ne_nil c)
      (natStr_ne_nil _) (Or.inl rfl)
    simpa [address] using this
  obtain ⟨n, hn, h3⟩ := addressToIndex_of_match h2
  rw [digitsVal_natStr] at hn
  simp at hn
  rw [h3, columnNameToIndex_colName, ← hn]
  congr 2
  omega

/-- **C05** (uniqueness). Every canonical address is the address of exactly one cell, and it is the
only canonical address of that cell. -/
theorem C05_canonical_unique (s : Str) (hs : Canonical s) :
    ∃ r c : Nat, s = address r c ∧ addressToIndex s = .ok ((r : Int), (c : Int)) ∧
      ∀ t, Canonical t → addressToIndex t = addressToIndex s → t = s := by
  have key : ∀ s, Canonical s → ∃ r c : Nat, s = address r c := by
    rintro s ⟨L, D, h1, h2, h3, h4, h5, h6⟩
    obtain ⟨c, hc, _⟩ := colName_surj L h2 (fun x hx => AZ_iff.mp (h3 x hx))
    obtain ⟨r, hr⟩ := natStr_surj D h4 (fun x hx => digit_iff.mp (h5 x hx)) h6
    exact ⟨r, c, by rw [h1, hc, hr]; rfl⟩
  obtain ⟨r, c, hrc⟩ := key s hs
  refine ⟨r, c, hrc, by rw [hrc]; exact C05_address_roundtrip r c, ?_⟩
  intro t ht he
  obtain ⟨r', c', hrc'⟩ := key t ht
  rw [hrc, hrc', C05_address_roundtrip, C05_address_roundtrip] at he
  simp only [Except.ok.injEq, Prod.mk.injEq] at he
  rw [hrc, hrc', show r' = r by omega, show c' = c by omega]

/-- The canonical address is canonical, so C05 covers every cell. -/
theorem C05_address_canonical (r c : Nat) : Canonical (address r c) := by
  refine ⟨colName c, natStr (r + 1), rfl, colName_ne_nil c, ?_, natStr_ne_nil _, ?_, ?_⟩
  · intro d hd; exact AZ_iff.mpr (colName_isAZ c d hd)
  · intro d hd; exact digit_iff.mpr (natStr_digits _ d hd)
  · have : ∀ n, 1 ≤ n → (natStr n).head? ≠ some '0' := by
      intro n
      induction n using Nat.strongRecOn with
      | ind n ih =>
        intro hn
        rw [natStr_eq]
        split
        · rename_i h
          simp
          intro h0
          have := digitChar_toNat h
          rw [h0] at this
          have h48 : ('0' : Char).toNat = 48 := rfl
          omega
        · have := ih (n / 10) (by omega) (by omega)
          have hne := natStr_ne_nil (n / 10)
          cases h : natStr (n / 10) with
          | nil => exact absurd h hne
          | cons a l => rw [h] at this; simpa using this
    exact this _ (by omega)

example : address 99 701 = "ZZ100".toList ∧ address 0 702 = "AAA1".toList := by decide +kernel

/-- **C06.** An ASCII string is accepted exactly if it is letters followed by digits, up to one
trailing newline; everything else raises ValueError. -/
theorem C06_accepted (s : Str) (_ha : Ascii s) :
    ((∃ i, addressToIndex s = .ok i) ↔ (WellFormed s ∨ ∃ u, WellFormed u ∧ s = u ++ ['\n'])) ∧
    ((¬ ∃ i, addressToIndex s = .ok i) → addressToIndex s = .error .ValueError) := by
  have wf : ∀ u : Str, WellFormed u → ∀ R : Str, (R = [] ∨ R = ['\n']) →
      ∃ i, addressToIndex (u ++ R) = .ok i := by
    rintro u ⟨L, D, h1, h2, h3, h4, h5⟩ R hR
    have : matchAddress (upper (u ++ R)) = some (upper L, upper D) := by
      have hRu : upper R = R := by rcases hR with h | h <;> subst h <;> decide
      rw [h1, upper_append, upper_append, hRu]
      apply matchAddress_append _ _ _ _ hR
      · intro c hc
        obtain ⟨d, hd, hdc⟩ := List.mem_map.mp hc
        rw [← hdc]; exact upperChar_isAZ_iff.mpr (h3 d hd)
      · intro c hc
        obtain ⟨d, hd, hdc⟩ := List.mem_map.mp hc
        rw [← hdc]; exact upperChar_isDigit_iff.mpr (h5 d hd)
      · simpa [upper] using h2
      · simpa [upper] using h4
    obtain ⟨n, _, h⟩ := addressToIndex_of_match this
    exact ⟨_, h⟩
  refine ⟨⟨?_, ?_⟩, ?_⟩
  · rintro ⟨i, hi⟩
    unfold addressToIndex at hi
    cases hm : matchAddress (upper s) with
    | none => simp [hm] at hi
    | some p =>
      obtain ⟨L, D⟩ := p
      obtain ⟨h1, h2, h3, h4, h5⟩ := matchAddress_some hm
      -- pull the split back through `upper`
      have back : ∀ X R : Str, upper s = X ++ R → ∃ x r, s = x ++ r ∧ upper x = X ∧ upper r = R := by
        intro X R h
        refine ⟨s.take X.length, s.drop X.length, by simp, ?_, ?_⟩
        · unfold upper at h ⊢; rw [List.map_take, h]; simp
        · unfold upper at h ⊢; rw [List.map_drop, h]; simp
      have mk : ∀ L' D' : Str, upper L' = L → upper D' = D → WellFormed (L' ++ D') := by
        intro L' D' hL hD
        refine ⟨L', D', rfl, ?_, ?_, ?_, ?_⟩
        · intro h; subst h; exact h3 hL.symm
        · intro c hc
          apply upperChar_isAZ_iff.mp
          exact h1 _ (hL ▸ List.mem_map_of_mem hc)
        · intro h; subst h; exact h4 hD.symm
        · intro c hc
          apply upperChar_isDigit_iff.mp
          exact h2 _ (hD ▸ List.mem_map_of_mem hc)
      rcases h5 with h5 | h5
      · obtain ⟨x, r, hs, hx, hr⟩ := back L D h5
        left; rw [hs]; exact mk x r hx hr
      · right
        obtain ⟨x, r, hs, hx, hr⟩ := back (L ++ D) ['\n'] h5
        have hr' : r = ['\n'] := by
          unfold upper at hr
          cases r with
          | nil => simp at hr
          | cons c r =>
            cases r with
            | nil => simp at hr; rw [upperChar_eq_nl.mp hr]
            | cons d r => simp at hr
        refine ⟨x, ?_, by rw [hs, hr']⟩
        have h6 : upper x = L ++ D := hx
        have : x = x.take L.length ++ x.drop L.length := by simp
        rw [this]
        apply mk
        · unfold upper at h6 ⊢; rw [List.map_take, h6]; simp
        · unfold upper at h6 ⊢; rw [List.map_drop, h6]; simp
  · rintro (h | ⟨u, hu, h⟩)
    · simpa using wf s h [] (Or.inl rfl)
    · rw [h]; exact wf u hu _ (Or.inr rfl)
  · intro h
    unfold addressToIndex at h ⊢
    cases hm : matchAddress (upper s) with
    | none => rfl
    | some p =>
      obtain ⟨L, D⟩ := p
      obtain ⟨n, _, h'⟩ := addressToIndex_of_match hm
      exact absurd ⟨_, h'⟩ h

/-- **C06** (case). Letter case does not matter. -/
theorem C06_case_insensitive (s t : Str) (h : upper s = upper t) :
    addressToIndex s = addressToIndex t := by
  unfold addressToIndex; rw [h]

/-- **C06** (value). An accepted address denotes the row given by its number minus one and the
column given by its letters. -/
theorem C06_value (L : Str) (r c : Nat) (hL : upper L = colName c) (zeros : Nat) :
    addressToIndex (L ++ List.replicate zeros '0' ++ natStr (r + 1)) = .ok ((r : Int), (c : Int)) := by
  have hz : ∀ d ∈ List.replicate zeros '0' ++ natStr (r + 1), isDigit d = true := by
    intro d hd
    rcases List.mem_append.mp hd with h | h
    · rw [List.eq_of_mem_replicate h]; decide
    · exact natStr_digits _ d h
  have h2 : matchAddress (upper (L ++ List.replicate zeros '0' ++ natStr (r + 1))) =
      some (colName c, List.replicate zeros '0' ++ natStr (r + 1)) := by
    rw [List.append_assoc, upper_append, hL, upper_of (fun d hd => upperChar_digit (hz d hd))]
    have := matchAddress_append (R := []) (colName_isAZ c) hz (colName_ne_nil c)
      (by simp [natStr_ne_nil]) (Or.inl rfl)
    simpa using this
  obtain ⟨n, hn, h3⟩ := addressToIndex_of_match h2
  have h0 : ∀ z, digitsVal 0 (List.replicate z '0') = some 0 := by
    intro z
    induction z with
    | zero => rfl
    | succ z ih =>
      simp only [List.replicate_succ, digitsVal, show digitVal '0' = some 0 by decide]
      simpa using ih
  rw [digitsVal_append, h0] at hn
  simp only [Option.bind_some, digitsVal_natStr, Option.some.injEq] at hn
  rw [h3, columnNameToIndex_colName, ← hn]
  congr 2
  omega

example : addressToIndex "bc012".toList = .ok (11, 54) := by decide +kernel
example : WellFormed "bc012".toList :=
  ⟨"bc".toList, "012".toList, rfl, by decide, by decide, by decide, by decide⟩

/-- Two accepted strings that no spreadsheet user would expect: row number 0 is accepted and
denotes row index -1 (which the table then resolves to the last row), and a trailing newline is
accepted. -/
theorem C06_row_zero_refuted :
    addressToIndex "A0".toList = .ok (-1, 0) ∧ addressToIndex "A1\n".toList = .ok (0, 0) := by
  decide +kernel

/-- A reference that is neither a tuple nor a string raises NameError, not the intended
TypeError. -/
theorem C06_other_reference : getCellIndex .other = .error .NameError := rfl

/-! ## C07 -/

theorem mem_pyRange {a b i : Int} : i ∈ pyRange a b ↔ a ≤ i ∧ i < b := by
  unfold pyRange
  simp only [List.mem_map, List.mem_range]
  constructor
  · rintro ⟨k, hk, h⟩; omega
  · intro h; exact ⟨(i - a).toNat, by omega, by omega⟩

theorem pyRange_sorted (a b : Int) : (pyRange a b).Pairwise (· < ·) := by
  unfold pyRange
  rw [List.pairwise_map]
  have : (List.range (b - a).toNat).Pairwise (· < ·) := List.pairwise_lt_range
  exact this.imp (by intro x y h; omega)

/-- Row-major order of cell indices. -/
def Before (p q : Int × Int) : Prop := p.1 < q.1 ∨ (p.1 = q.1 ∧ p.2 < q.2)

/-- **C07.** The range is enumerated in row-major order without repetition, and contains exactly the
cells of the rectangle. -/
theorem C07_range (pos size : Int × Int) (h1 : 0 ≤ pos.1) (h2 : 0 ≤ pos.2) (h3 : 1 ≤ size.1)
    (h4 : 1 ≤ size.2) :
    ∃ l, iterCellRange pos size = .ok l ∧ l.Pairwise Before ∧
      (∀ p, p ∈ l ↔ (pos.1 ≤ p.1 ∧ p.1 < pos.1 + size.1 ∧ pos.2 ≤ p.2 ∧ p.2 < pos.2 + size.2)) ∧
      l.head? = some pos ∧
      iterCellRangeWithoutStartPos pos size = .ok l.tail ∧
      l = pos :: l.tail := by
  have hok : iterCellRange pos size = .ok ((pyRange pos.1 (pos.1 + size.1)).flatMap fun row =>
      (pyRange pos.2 (pos.2 + size.2)).map fun column => (row, column)) := by
    unfold iterCellRange
    rw [if_neg (by omega), if_neg (by omega)]
  refine ⟨_, hok, ?_, ?_, ?_⟩
  · rw [List.pairwise_flatMap]
    refine ⟨?_, ?_⟩
    · intro r _
      rw [List.pairwise_map]
      exact (pyRange_sorted _ _).imp (fun h => Or.inr ⟨rfl, h⟩)
    · refine (pyRange_sorted _ _).imp ?_
      intro a b hab x hx y hy
      obtain ⟨_, _, rfl⟩ := List.mem_map.mp hx
      obtain ⟨_, _, rfl⟩ := List.mem_map.mp hy
      exact Or.inl hab
  · intro p
    simp only [List.mem_flatMap, List.mem_map, mem_pyRange]
    constructor
    · rintro ⟨r, hr, c, hc, rfl⟩; exact ⟨hr.1, hr.2, hc.1, hc.2⟩
    · rintro ⟨a, b, c, d⟩; exact ⟨p.1, ⟨a, b⟩, p.2, ⟨c, d⟩, rfl⟩
  · have hcons : ∀ a n : Int, 1 ≤ n → ∃ l, pyRange a (a + n) = a :: l := by
      intro a n hn
      unfold pyRange
      obtain ⟨k, hk⟩ : ∃ k, (a + n - a).toNat = k + 1 := ⟨(n - 1).toNat, by omega⟩
      rw [hk, List.range_succ_eq_map]
      exact ⟨List.map ((fun i : Nat => a + (i : Int)) ∘ Nat.succ) (List.range k), by simp⟩
    obtain ⟨l1, e1⟩ := hcons pos.1 size.1 h3
    obtain ⟨l2, e2⟩ := hcons pos.2 size.2 h4
    have hh : (List.flatMap (fun row => (pyRange pos.2 (pos.2 + size.2)).map fun column => (row, column))
        (pyRange pos.1 (pos.1 + size.1))).head? = some pos := by
      rw [e1, e2]; simp
    refine ⟨hh, ?_, ?_⟩
    · unfold iterCellRangeWithoutStartPos; rw [hok]
    · rw [e1, e2]; simp

/-- **C07** (errors). Negative start positions and sizes below one are rejected. -/
theorem C07_rejects (pos size : Int × Int) (h : pos.1 < 0 ∨ pos.2 < 0 ∨ size.1 < 1 ∨ size.2 < 1) :
    iterCellRange pos size = .error .ValueError ∧
    iterCellRangeWithoutStartPos pos size = .error .ValueError := by
  have : iterCellRange pos size = .error .ValueError := by
    unfold iterCellRange
    split
    · rfl
    · rw [if_pos (by omega)]
  exact ⟨this, by unfold iterCellRangeWithoutStartPos; rw [this]⟩

example : iterCellRange (2, 3) (2, 2) = .ok [(2, 3), (2, 4), (3, 3), (3, 4)] := by decide

end Verif.Address
