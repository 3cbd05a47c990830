import Verif.Proofs.Float64
/-!
# The model of Python's floats is binary64 with rounding to nearest, ties to even

The definitions of `Model/Float64.lean` compute the rounded number.  Here it is shown that they do what IEEE 754
says: of all binary64 numbers a nearest one, of two the even one, and infinity from half a last place behind the
greatest number on.
-/
namespace Verif.F64

/-- The non-negative finite binary64 numbers: a significand of 53 bits and an exponent. -/
def Binary64 (y : Rat) : Prop :=
  ∃ (m : Nat) (k : Int), m < 2 ^ 53 ∧ -1074 ≤ k ∧ k ≤ 971 ∧ y = m * pow2 k

theorem nearest_tie {x : Rat} (h : |(nearest x : Rat) - x| = 1 / 2) : nearest x % 2 = 0 := by
  have h1 := Rat.floor_le x
  have h2 := Rat.lt_floor_add_one x
  push_cast at h2
  unfold nearest at h ⊢
  simp only at h ⊢
  split at h
  · rename_i hr
    exfalso
    rw [abs_of_nonpos (by linarith)] at h
    linarith
  · split at h
    · rename_i hr
      exfalso
      push_cast at h
      rw [abs_of_nonneg (by linarith)] at h
      linarith
    · rename_i hr hr2
      rw [if_neg hr, if_neg hr2]
      split
      · assumption
      · rename_i ho
        omega

/-- No integer is nearer, and none as near but for a tie. -/
theorem nearest_best (x : Rat) (m : Int) : |(nearest x : Rat) - x| ≤ |(m : Rat) - x| ∧
    (|(nearest x : Rat) - x| = |(m : Rat) - x| → m ≠ nearest x → nearest x % 2 = 0) := by
  have hc := nearest_close x
  by_cases hm : |(m : Rat) - x| < 1 / 2
  · have : nearest x = m := nearest_unique (by rw [abs_sub_comm]; exact hm)
    rw [this]
    exact ⟨le_refl _, fun _ hne => absurd rfl hne⟩
  · have hm' := not_lt.1 hm
    refine ⟨hc.trans hm', fun he _ => nearest_tie ?_⟩
    exact le_antisymm hc (he ▸ hm')

theorem two52 : ((2 ^ 52 : Int) : Rat) = pow2 52 := by decide +kernel
theorem two53 : ((2 ^ 53 : Int) : Rat) = pow2 53 := by decide +kernel

theorem scaled_lt {x : Rat} (hx : 0 < x) : x / pow2 (place x) < ((2 ^ 53 : Int) : Rat) := by
  rw [div_lt_iff₀ (pow2_pos _), two53, ← pow2_add]
  exact lt_of_lt_of_le (expo_spec hx).2 (pow2_mono (by unfold place; omega))

theorem scaled_le {x : Rat} (hx : 0 < x) (hp : -1074 < place x) : ((2 ^ 52 : Int) : Rat) ≤ x / pow2 (place x) := by
  have : place x = expo x - 52 := by unfold place at hp ⊢; omega
  rw [le_div_iff₀ (pow2_pos _), two52, ← pow2_add, this]
  have : (52 : Int) + (expo x - 52) = expo x := by omega
  rw [this]; exact (expo_spec hx).1

theorem val_zero : val 0 = 0 := by
  unfold val
  rw [zero_div]
  have : nearest 0 = 0 := by exact_mod_cast nearest_int 0
  rw [this]; simp

theorem val_binary {x : Rat} (hx : 0 ≤ x) (h : val x < pow2 1024) : Binary64 (val x) := by
  rcases hx.eq_or_lt with rfl | hx
  · exact ⟨0, 0, by norm_num, by norm_num, by norm_num, by rw [val_zero]; simp⟩
  · have h0 : (0 : Int) ≤ nearest (x / pow2 (place x)) :=
      le_nearest (by rw [Int.cast_zero]; exact div_nonneg hx.le (pow2_pos _).le)
    have h1 : nearest (x / pow2 (place x)) ≤ 2 ^ 53 := nearest_le (scaled_lt hx).le
    have hp : -1074 ≤ place x := by unfold place; omega
    obtain ⟨n, hn⟩ := Int.eq_ofNat_of_zero_le h0
    have hv : val x = (n : Rat) * pow2 (place x) := by unfold val; rw [hn]; simp
    rcases Int.lt_or_eq_of_le h1 with h2 | h2
    · refine ⟨n, place x, by omega, hp, ?_, hv⟩
      by_contra hc
      have h3 := le_nearest (scaled_le hx (by omega))
      rw [hn] at h3
      have h4 : ((2 ^ 52 : Int) : Rat) ≤ (n : Rat) := by exact_mod_cast h3
      rw [two52] at h4
      have h5 : pow2 52 * pow2 (place x) ≤ val x := by
        rw [hv]; exact mul_le_mul_of_nonneg_right h4 (pow2_pos _).le
      rw [← pow2_add] at h5
      have := pow2_lt (lt_of_le_of_lt h5 h)
      omega
    · have h3 : val x = pow2 (53 + place x) := by
        unfold val; rw [h2, two53, pow2_add]
      have h4 := pow2_lt (h3 ▸ h)
      refine ⟨2 ^ 52, place x + 1, by norm_num, by omega, by omega, ?_⟩
      have h5 : ((2 ^ 52 : Nat) : Rat) = pow2 52 := by decide +kernel
      rw [h3, h5, ← pow2_add]
      congr 1; omega

/-- The result of `round`, if finite, is a binary64 number, no binary64 number is nearer to the exact result, and of
two that are as near it is the one whose significand is even. -/
theorem round_nearest {x y : Rat} (hx : 0 ≤ x) (h : round x = some y) :
    Binary64 y ∧ ∀ z, Binary64 z → |y - x| ≤ |z - x| ∧
      (|y - x| = |z - x| → z ≠ y → ∃ n : Int, y = 2 * n * pow2 (place x)) := by
  obtain ⟨rfl, hlt⟩ := round_some h
  refine ⟨val_binary hx hlt, ?_⟩
  rintro z ⟨m, k, hm, hk, -, rfl⟩
  rcases hx.eq_or_lt with rfl | hx
  · rw [val_zero]
    refine ⟨by rw [sub_zero, abs_zero]; exact abs_nonneg _, fun he hne => ⟨0, by simp⟩⟩
  · have hp := pow2_pos (place x)
    have hv : ∀ j : Int, |(j : Rat) * pow2 (place x) - x| = |(j : Rat) - x / pow2 (place x)| * pow2 (place x) := by
      intro j
      rw [← abs_of_pos hp, ← abs_mul, abs_of_pos hp]
      congr 1
      field_simp
    have hval : |val x - x| = |(nearest (x / pow2 (place x)) : Rat) - x / pow2 (place x)| * pow2 (place x) := hv _
    have hbest := nearest_best (x / pow2 (place x))
    by_cases hkp : place x ≤ k
    · -- a multiple of the last place
      obtain ⟨j, hj⟩ := Int.eq_ofNat_of_zero_le (show 0 ≤ k - place x by omega)
      have hz : (m : Rat) * pow2 k = ((m * 2 ^ j : Nat) : Int) * pow2 (place x) := by
        have : k = (j : Int) + place x := by omega
        rw [this, pow2_add, pow2_nat]
        push_cast
        ring
      rw [hz, hv, hval]
      obtain ⟨b1, b2⟩ := hbest ((m * 2 ^ j : Nat) : Int)
      refine ⟨mul_le_mul_of_nonneg_right b1 hp.le, fun he hne => ?_⟩
      have he' := mul_right_cancel₀ hp.ne' he
      have := b2 he' (by rintro hq; apply hne; unfold val; rw [hq])
      obtain ⟨n, hn⟩ := Int.dvd_of_emod_eq_zero this
      refine ⟨n, ?_⟩
      unfold val
      rw [hn]
      push_cast
      ring
    · -- a finer number: less than the power of two below the exact result
      have hpe : place x = expo x - 52 := by unfold place at hkp ⊢; omega
      have hzlt : (m : Rat) * pow2 k < pow2 (expo x) := by
        have h1 : (m : Rat) < pow2 53 := by rw [← two53]; exact_mod_cast hm
        calc (m : Rat) * pow2 k < pow2 53 * pow2 k := mul_lt_mul_of_pos_right h1 (pow2_pos _)
          _ = pow2 (53 + k) := (pow2_add _ _).symm
          _ ≤ pow2 (expo x) := pow2_mono (by omega)
      have he1 := (expo_spec hx).1
      have hb := (hbest (2 ^ 52)).1
      have hq : |val x - x| ≤ x - pow2 (expo x) := by
        rw [hval]
        refine (mul_le_mul_of_nonneg_right hb hp.le).trans ?_
        rw [← hv, two52, ← pow2_add, hpe]
        have : (52 : Int) + (expo x - 52) = expo x := by omega
        rw [this, abs_of_nonpos (by linarith)]
        linarith
      have hz : |(m : Rat) * pow2 k - x| = x - m * pow2 k := by
        rw [abs_of_nonpos (by linarith)]; ring
      rw [hz]
      exact ⟨by linarith, fun he => by linarith⟩

/-- The result is infinity exactly from `2 ** 1024 - 2 ** 970` on. -/
theorem round_overflow {x : Rat} (hx : 0 ≤ x) : round x = none ↔ pow2 1024 - pow2 970 ≤ x := by
  have h970 : pow2 970 < pow2 1024 := by
    have := pow2_add 970 54
    have h54 : (1 : Rat) < pow2 54 := by decide +kernel
    have hp := pow2_pos 970
    have : pow2 1024 = pow2 970 * pow2 54 := by rw [← pow2_add]; rfl
    rw [this]
    nlinarith
  rw [round_eq]
  have hiff : (if val x < pow2 1024 then some (val x) else none) = none ↔ pow2 1024 ≤ val x := by
    split
    · rename_i h; simp; linarith
    · rename_i h; simp; linarith
  rw [hiff]
  rcases hx.eq_or_lt with rfl | hx
  · rw [val_zero]
    constructor
    · intro h; linarith [pow2_pos 1024]
    · intro h; linarith
  have hp := pow2_pos (place x)
  by_cases hbig : pow2 1024 ≤ x
  · have he : 1024 ≤ expo x := by
      have := pow2_lt (lt_of_le_of_lt hbig (expo_spec hx).2); omega
    have hpl : place x = expo x - 52 := by unfold place; omega
    have h1 := le_nearest (scaled_le hx (by omega))
    have h2 : ((2 ^ 52 : Int) : Rat) ≤ (nearest (x / pow2 (place x)) : Rat) := by exact_mod_cast h1
    rw [two52] at h2
    have h3 : pow2 (52 + place x) ≤ val x := by
      rw [pow2_add]; exact mul_le_mul_of_nonneg_right h2 hp.le
    have h4 : pow2 1024 ≤ pow2 (52 + place x) := pow2_mono (by omega)
    constructor
    · intro _; linarith [pow2_pos 970]
    · intro _; linarith
  · have hlt := not_le.1 hbig
    by_cases he : expo x = 1023
    · have hpl : place x = 971 := by unfold place; omega
      have e1 : pow2 1024 = ((2 ^ 53 : Int) : Rat) * pow2 971 := by rw [two53, ← pow2_add]; rfl
      have e2 : pow2 970 = 1 / 2 * pow2 971 := by
        have : (1 : Rat) / 2 = pow2 (-1) := by rw [pow2_eq]; norm_num
        rw [this, ← pow2_add]; rfl
      have hval : val x = (nearest (x / pow2 971) : Rat) * pow2 971 := by unfold val; rw [hpl]
      have hp' := pow2_pos 971
      have hc := nearest_close (x / pow2 971)
      have hs : x / pow2 971 < ((2 ^ 53 : Int) : Rat) := by have := scaled_lt hx; rwa [hpl] at this
      constructor
      · intro h
        rw [hval, e1] at h
        have h1 := le_of_mul_le_mul_right h hp'
        rw [abs_le] at hc
        have h2 : ((2 ^ 53 : Int) : Rat) - 1 / 2 ≤ x / pow2 971 := by linarith [hc.2]
        rw [le_div_iff₀ hp'] at h2
        rw [e1, e2]; linarith
      · intro h
        have h2 : ((2 ^ 53 : Int) : Rat) - 1 / 2 ≤ x / pow2 971 := by
          rw [le_div_iff₀ hp']; rw [e1, e2] at h; linarith
        have h3 : (2 : Int) ^ 53 ≤ nearest (x / pow2 971) := by
          by_contra hcon
          have h4 : nearest (x / pow2 971) ≤ 2 ^ 53 - 1 := by omega
          have h5 : (nearest (x / pow2 971) : Rat) ≤ ((2 ^ 53 : Int) : Rat) - 1 := by exact_mod_cast h4
          rw [abs_le] at hc
          have h6 : (nearest (x / pow2 971) : Rat) = ((2 ^ 53 : Int) : Rat) - 1 := by
            have h7 : (2 : Int) ^ 53 - 2 < nearest (x / pow2 971) := by
              have : ((2 ^ 53 : Int) : Rat) - 2 < (nearest (x / pow2 971) : Rat) := by linarith [hc.1]
              exact_mod_cast this
            have : nearest (x / pow2 971) = 2 ^ 53 - 1 := by omega
            rw [this]; norm_num
          have h8 := nearest_tie (x := x / pow2 971) (by
            rw [h6, abs_of_nonpos (by linarith)]; linarith [hc.1])
          have h9 : nearest (x / pow2 971) = 2 ^ 53 - 1 := by
            have : (nearest (x / pow2 971) : Rat) = ((2 ^ 53 - 1 : Int) : Rat) := by rw [h6]; norm_num
            exact_mod_cast this
          rw [h9] at h8
          norm_num at h8
        rw [hval, e1]
        exact mul_le_mul_of_nonneg_right (by exact_mod_cast h3) hp'.le
    · have he' : expo x ≤ 1022 := by
        have := pow2_lt (lt_of_le_of_lt (expo_spec hx).1 hlt); omega
      have hx' : x < pow2 1023 := lt_of_lt_of_le (expo_spec hx).2 (pow2_mono (by omega))
      have e3 : pow2 1024 = 2 * pow2 1023 := by
        have : (2 : Rat) = pow2 1 := by rw [pow2_eq]; norm_num
        rw [this, ← pow2_add]; rfl
      have h1 : pow2 970 < pow2 1023 := by
        have h53 : (1 : Rat) < pow2 53 := by decide +kernel
        have h970p := pow2_pos 970
        have : pow2 1023 = pow2 970 * pow2 53 := by rw [← pow2_add]; rfl
        rw [this]
        nlinarith
      constructor
      · intro h
        have h2 : nearest (x / pow2 (place x)) ≤ 2 ^ 53 := nearest_le (scaled_lt hx).le
        have h3 : val x ≤ pow2 (53 + place x) := by
          rw [pow2_add, ← two53]
          exact mul_le_mul_of_nonneg_right (by exact_mod_cast h2) hp.le
        have h4 : pow2 (53 + place x) ≤ pow2 1023 := pow2_mono (by unfold place; omega)
        linarith [pow2_pos 1023]
      · intro h; linarith

/-- Instances: a tie below and one above an even significand, and the least number that becomes infinity. -/
example : round (2 ^ 53 + 1) = some (2 ^ 53) ∧ round (2 ^ 53 + 3) = some (2 ^ 53 + 4) ∧
    round (1 / 10) = some (3602879701896397 / 36028797018963968) := by decide +kernel

end Verif.F64
