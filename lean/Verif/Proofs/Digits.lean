import Verif.Proofs.Duration
/-! Digit strings: values and padding. -/
namespace Verif.Time
open Verif
set_option linter.unusedSimpArgs false

variable (U : Nd)

theorem number_foldl (ds : Str) (a : Nat) :
    ds.foldl (fun a c => a * 10 + (U.val c).getD 0) a = a * 10 ^ ds.length + number U ds := by
  unfold number
  induction ds generalizing a with
  | nil => simp
  | cons c r ih =>
    rw [List.foldl_cons, ih, List.foldl_cons, ih (0 * 10 + (U.val c).getD 0), List.length_cons]
    ring

theorem number_append (a b : Str) : number U (a ++ b) = number U a * 10 ^ b.length + number U b := by
  conv_lhs => unfold number
  rw [List.foldl_append, number_foldl]
  rfl

theorem val_getD_lt (c : Char) : (U.val c).getD 0 < 10 := by
  cases h : U.val c with
  | none => simp
  | some d => simpa using U.small c d h

theorem number_single (c : Char) : number U [c] = (U.val c).getD 0 := by simp [number]

theorem number_lt (ds : Str) : number U ds < 10 ^ ds.length := by
  induction ds with
  | nil => simp [number]
  | cons c r ih =>
    have h := number_append U [c] r
    rw [List.singleton_append] at h
    rw [h, number_single, List.length_cons, Nat.pow_succ]
    have := val_getD_lt U c
    nlinarith [Nat.pow_pos (n := r.length) (show 0 < 10 by omega)]

theorem val_digitChar {n : Nat} (h : n < 10) : U.val (digitChar n) = some n := by
  rw [U.ascii _ (by rw [digitChar_toNat h]; omega), digitVal_digitChar h]

theorem number_natStr (n : Nat) : number U (natStr n) = n := by
  induction n using Nat.strong_induction_on with
  | _ n ih =>
    rw [natStr_eq]
    split
    · rename_i h; rw [number_single, val_digitChar U h]; rfl
    · rename_i h
      rw [number_append, ih _ (by omega), number_single, val_digitChar U (by omega)]
      simp
      omega

theorem natStr_isSome (n : Nat) : ∀ c ∈ natStr n, (U.val c).isSome = true := by
  intro c hc
  have h := natStr_digits n c hc
  unfold isDigit at h
  rw [U.ascii]
  · exact h
  · unfold digitVal at h
    split at h
    · omega
    · cases h

theorem natStr_length {n w : Nat} (hw : 0 < w) (h : n < 10 ^ w) : (natStr n).length ≤ w := by
  induction w generalizing n with
  | zero => omega
  | succ w ih =>
    rw [natStr_eq]
    split
    · simp
    · rename_i hn
      rw [List.length_append, List.length_singleton]
      rw [Nat.pow_succ] at h
      have hw : 0 < w := by
        rcases Nat.eq_zero_or_pos w with rfl | hw
        · simp at h; omega
        · exact hw
      have := ih (n := n / 10) hw (by omega)
      omega

theorem zeros_isSome (k : Nat) : ∀ c ∈ List.replicate k '0', (U.val c).isSome = true := by
  intro c hc
  rw [List.eq_of_mem_replicate hc, U.ascii _ (by decide)]
  decide

theorem number_zeros (k : Nat) : number U (List.replicate k '0') = 0 := by
  induction k with
  | zero => rfl
  | succ k ih =>
    rw [List.replicate_succ]
    have h := number_append U ['0'] (List.replicate k '0')
    rw [List.singleton_append] at h
    rw [h, ih, number_single, U.ascii _ (by decide)]
    simp [show digitVal '0' = some 0 from by decide]

theorem pad_digs (w n : Nat) : Digs U (pad w n) := by
  refine ⟨?_, ?_⟩
  · unfold pad
    intro h
    exact natStr_ne_nil n (List.append_eq_nil_iff.1 h).2
  · intro c hc
    rcases List.mem_append.1 hc with h | h
    · exact zeros_isSome U _ c h
    · exact natStr_isSome U n c h

theorem natStr_digs (n : Nat) : Digs U (natStr n) := ⟨natStr_ne_nil n, natStr_isSome U n⟩

theorem number_pad (w n : Nat) : number U (pad w n) = n := by
  unfold pad
  rw [number_append, number_zeros, number_natStr]
  simp

theorem pad_length {w n : Nat} (hw : 0 < w) (h : n < 10 ^ w) : (pad w n).length = w := by
  unfold pad
  have := natStr_length hw h
  simp
  omega

/-- The leading digits. -/
theorem number_take {w k n : Nat} (hw : 0 < w) (hk : k ≤ w) (h : n < 10 ^ w) :
    number U ((pad w n).take k) = n / 10 ^ (w - k) ∧ ((pad w n).take k).length = k := by
  have hl := pad_length hw h
  refine ⟨?_, by rw [List.length_take]; omega⟩
  have h1 := number_append U ((pad w n).take k) ((pad w n).drop k)
  rw [List.take_append_drop, number_pad, List.length_drop, hl] at h1
  have h2 := number_lt U ((pad w n).drop k)
  rw [List.length_drop, hl] at h2
  generalize number U ((pad w n).take k) = a at *
  generalize number U ((pad w n).drop k) = b at *
  rw [h1, Nat.add_comm, Nat.add_mul_div_right _ _ (Nat.pow_pos (by omega)), Nat.div_eq_of_lt h2, Nat.zero_add]

/-- A float division of small numbers rounds down to the quotient. -/
theorem fdiv_eq {n k : Nat} (hk : 0 < k) (hk2 : k ≤ 10000) (hn : n ≤ 1000000) : fdiv n k = n / k := by
  have hkq : (0 : Rat) < k := by exact_mod_cast hk
  have hn' : (n : Rat) = k * (n / k : Nat) + (n % k : Nat) := by
    exact_mod_cast (Nat.div_add_mod n k).symm
  have hq : (n : Rat) / k = (n / k : Nat) + ((n % k : Nat) : Rat) / k := by
    rw [hn']; field_simp
  have hr := Nat.mod_lt n hk
  have hf : n / k ≤ 1000000 := le_trans (Nat.div_le_self n k) hn
  unfold fdiv
  by_cases h0 : n % k = 0
  · rw [h0] at hq
    simp only [Nat.cast_zero, zero_div, add_zero] at hq
    rw [hq, F64.round_nat (by omega)]
    simp only [floor_nat]
    rfl
  · have hq0 : (0 : Rat) ≤ (n : Rat) / k := by positivity
    have hqle : (n : Rat) / k ≤ 1000000 := by
      rw [div_le_iff₀ hkq]
      have h1 : (n : Rat) ≤ 1000000 := by exact_mod_cast hn
      have h2 : (1 : Rat) ≤ k := by exact_mod_cast hk
      nlinarith
    obtain ⟨y, hy⟩ := F64.round_finite hq0 (by
      have : (1000000 : Rat) ≤ F64.pow2 53 * F64.pow2 53 := by decide +kernel
      linarith)
    obtain ⟨hy0, hyc⟩ := F64.round_close hq0 hy
    rw [hy]
    simp only
    have e1 := eps.1
    have e0 := F64.pow2_pos (-53)
    have et := tiny
    have hb : (n : Rat) / k * F64.pow2 (-53) ≤ 1000000 * (1 / 9000000000000000) :=
      mul_le_mul hqle e1.le e0.le (by norm_num)
    have hinv : (1 : Rat) / 10000 ≤ 1 / k := by
      rw [div_le_div_iff₀ (by norm_num) hkq]
      have : (k : Rat) ≤ 10000 := by exact_mod_cast hk2
      linarith
    have hr1 : (1 : Rat) / k ≤ ((n % k : Nat) : Rat) / k := by
      rw [div_le_div_iff_of_pos_right hkq]
      exact_mod_cast Nat.one_le_iff_ne_zero.2 h0
    have hr2 : ((n % k : Nat) : Rat) / k ≤ 1 - 1 / k := by
      have : ((n % k : Nat) : Rat) + 1 ≤ k := by exact_mod_cast hr
      have h3 : (1 : Rat) - 1 / k = (k - 1) / k := by field_simp
      rw [h3, div_le_div_iff_of_pos_right hkq]
      linarith
    rw [abs_le, hq] at hyc
    rw [hq] at hb
    generalize ((n % k : Nat) : Rat) / k = z at *
    generalize (1 : Rat) / k = i at *
    generalize (((n / k : Nat) : Rat) + z) * F64.pow2 (-53) = u at *
    have l1 : ((n / k : Nat) : Rat) ≤ y := by
      have := hyc.1
      linarith
    have l2 : y < ((n / k : Nat) : Rat) + 1 := by
      have := hyc.2
      linarith
    have : y.floor = (n / k : Nat) := by
      have a1 : ((n / k : Nat) : Int) ≤ y.floor := by
        rw [Rat.le_floor_iff]; exact_mod_cast l1
      have a2 : y.floor < ((n / k : Nat) : Int) + 1 := by
        rw [Rat.floor_lt_iff]; push_cast; exact_mod_cast l2
      omega
    rw [this]
    rfl

end Verif.Time
