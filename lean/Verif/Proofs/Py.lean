import Verif.Model.Py
/-! Helper lemmas about decimal numbers and Python indexing. -/
namespace Verif

theorem char_toNat_ofNat {n : Nat} (h : n < 0xd800) : (Char.ofNat n).toNat = n := by
  have hv : n.isValidChar := Or.inl h
  unfold Char.ofNat
  rw [dif_pos hv]
  rfl

theorem mem_takeWhile_imp {α : Type} {p : α → Bool} {l : List α} {x : α} (h : x ∈ l.takeWhile p) :
    p x = true := by
  induction l with
  | nil => simp at h
  | cons a l ih =>
    by_cases ha : p a = true
    · simp [List.takeWhile, ha] at h
      rcases h with h | h
      · rw [h]; exact ha
      · exact ih h
    · simp [List.takeWhile, ha] at h

theorem digitChar_toNat {n : Nat} (h : n < 10) : (digitChar n).toNat = 48 + n := by
  have : n = 0 ∨ n = 1 ∨ n = 2 ∨ n = 3 ∨ n = 4 ∨ n = 5 ∨ n = 6 ∨ n = 7 ∨ n = 8 ∨ n = 9 := by omega
  rcases this with h|h|h|h|h|h|h|h|h|h <;> subst h <;> decide

theorem digitVal_digitChar {n : Nat} (h : n < 10) : digitVal (digitChar n) = some n := by
  unfold digitVal
  rw [digitChar_toNat h]
  rw [if_pos (by omega)]
  congr 1; omega

theorem digitVal_lt {c : Char} {d : Nat} (h : digitVal c = some d) : d < 10 := by
  unfold digitVal at h
  split at h
  · simp at h; omega
  · simp at h

theorem digitChar_of_digitVal {c : Char} {d : Nat} (h : digitVal c = some d) : c = digitChar d := by
  unfold digitVal at h
  split at h
  · rename_i hc
    simp at h
    have h2 : c.toNat = 48 + d := by omega
    unfold digitChar
    rw [← h2]
    exact (Char.ofNat_toNat c).symm
  · simp at h

theorem natStrF_succ (f n : Nat) (hf : n < f) : natStrF (f + 1) n = natStrF f n := by
  induction f generalizing n with
  | zero => omega
  | succ f ih =>
    conv => lhs; rw [natStrF]
    conv => rhs; rw [natStrF]
    split
    · rfl
    · rw [ih (n / 10) (by omega)]

theorem natStrF_eq (f n : Nat) (hf : n < f) : natStrF f n = natStr n := by
  induction f with
  | zero => omega
  | succ f ih =>
    by_cases h : n < f
    · rw [natStrF_succ f n h, ih h]
    · have : n = f := by omega
      subst this; rfl

/-- Defining equation of the decimal printer. -/
theorem natStr_eq (n : Nat) :
    natStr n = if n < 10 then [digitChar n] else natStr (n / 10) ++ [digitChar (n % 10)] := by
  conv => lhs; unfold natStr
  rw [natStrF]
  split
  · rfl
  · rw [natStrF_eq n (n / 10) (by omega)]

theorem natStr_ne_nil (n : Nat) : natStr n ≠ [] := by
  rw [natStr_eq]; split <;> simp

/-- All characters of `natStr` are digits. -/
theorem natStr_digits (n : Nat) : ∀ c ∈ natStr n, isDigit c = true := by
  induction n using Nat.strongRecOn with
  | ind n ih =>
    intro c hc
    rw [natStr_eq] at hc
    split at hc
    · simp at hc; subst hc
      simp [isDigit, digitVal_digitChar (by assumption)]
    · simp only [List.mem_append, List.mem_singleton] at hc
      rcases hc with hc | hc
      · exact ih _ (by omega) c hc
      · subst hc; simp [isDigit, digitVal_digitChar (Nat.mod_lt n (by omega : 10 > 0))]

theorem digitsVal_append (acc : Nat) (s t : Str) :
    digitsVal acc (s ++ t) = (digitsVal acc s).bind fun a => digitsVal a t := by
  induction s generalizing acc with
  | nil => simp [digitsVal]
  | cons c s ih =>
    simp only [List.cons_append, digitsVal]
    cases digitVal c <;> simp [ih]

theorem digitsVal_natStr (n : Nat) : digitsVal 0 (natStr n) = some n := by
  induction n using Nat.strongRecOn with
  | ind n ih =>
    rw [natStr_eq]
    split
    · simp [digitsVal, digitVal_digitChar (by assumption)]
    · rw [digitsVal_append, ih _ (by omega)]
      simp [digitsVal, digitVal_digitChar (Nat.mod_lt n (by omega : 10 > 0))]
      omega

theorem digitsUnderscore_digits (acc : Nat) (prev : Bool) (s : Str) (hs : ∀ c ∈ s, isDigit c = true)
    (hne : s ≠ [] ∨ prev = true) : digitsUnderscore acc prev s = digitsVal acc s := by
  induction s generalizing acc prev with
  | nil => simp at hne; simp [digitsUnderscore, digitsVal, hne]
  | cons c s ih =>
    have hc := hs c (by simp)
    have hcu : c ≠ '_' := by
      intro h; subst h; revert hc; decide
    simp only [digitsUnderscore, digitsVal, hcu, if_false]
    cases h : digitVal c with
    | none => rfl
    | some d => exact ih _ _ (fun c hc => hs c (by simp [hc])) (Or.inr rfl)

theorem isDigit_not_space {c : Char} (h : isDigit c = true) : isPySpace c = false := by
  unfold isDigit digitVal at h
  split at h
  · rename_i hc
    unfold isPySpace
    simp
    omega
  · simp at h

theorem dropWhile_of_head {p : Char → Bool} {s : Str} (h : ∀ c, s.head? = some c → p c = false) :
    s.dropWhile p = s := by
  cases s with
  | nil => rfl
  | cons c s => simp [List.dropWhile, h c rfl]

theorem pyStrip_eq_self {s : Str} (h1 : ∀ c, s.head? = some c → isPySpace c = false)
    (h2 : ∀ c, s.getLast? = some c → isPySpace c = false) : pyStrip s = s := by
  unfold pyStrip
  rw [dropWhile_of_head h1, dropWhile_of_head (by simpa using h2), List.reverse_reverse]

theorem pyStrip_digits {s : Str} (hs : ∀ c ∈ s, isDigit c = true) : pyStrip s = s := by
  apply pyStrip_eq_self
  · intro c hc; exact isDigit_not_space (hs c (List.mem_of_mem_head? hc))
  · intro c hc; exact isDigit_not_space (hs c (List.mem_of_getLast? hc))

/-- `int()` on a non-empty digit string. -/
theorem pyInt_digits {s : Str} (hs : ∀ c ∈ s, isDigit c = true) (hne : s ≠ []) :
    pyInt s = (digitsVal 0 s).map fun n : Nat => (n : Int) := by
  have hd : digitsUnderscore 0 false s = digitsVal 0 s := digitsUnderscore_digits 0 false s hs (Or.inl hne)
  unfold pyInt
  rw [pyStrip_digits hs]
  split
  · exact absurd (hs '-' (by simp)) (by decide)
  · exact absurd (hs '+' (by simp)) (by decide)
  · rw [hd]

theorem pyInt_natStr (n : Nat) : pyInt (natStr n) = some (n : Int) := by
  rw [pyInt_digits (natStr_digits n) (natStr_ne_nil n), digitsVal_natStr]; rfl

/-- `int(str(i)) == i` -/
theorem pyInt_intStr (i : Int) : pyInt (intStr i) = some i := by
  cases i with
  | ofNat n => exact pyInt_natStr n
  | negSucc n =>
    have hs := natStr_digits (n + 1)
    have hstrip : pyStrip ('-' :: natStr (n + 1)) = '-' :: natStr (n + 1) := by
      apply pyStrip_eq_self
      · intro c hc; simp at hc; subst hc; decide
      · intro c hc
        rw [List.getLast?_cons] at hc
        cases h : (natStr (n+1)).getLast? with
        | none => simp [natStr_ne_nil] at h
        | some d =>
          rw [h] at hc; simp at hc; subst hc
          exact isDigit_not_space (hs d (List.mem_of_getLast? h))
    simp only [intStr, pyInt, hstrip]
    rw [digitsUnderscore_digits 0 false _ hs (Or.inl (natStr_ne_nil _)), digitsVal_natStr]
    simp [Int.negSucc_eq]

theorem intStr_injective {i j : Int} (h : intStr i = intStr j) : i = j := by
  have := pyInt_intStr i
  rw [h, pyInt_intStr] at this
  simpa using this.symm

theorem intStr_ne_nil (i : Int) : intStr i ≠ [] := by
  cases i with
  | ofNat n => exact natStr_ne_nil n
  | negSucc n => simp [intStr]

theorem natStr_injective {m n : Nat} (h : natStr m = natStr n) : m = n := by
  have := digitsVal_natStr m
  rw [h, digitsVal_natStr] at this
  simpa using this.symm

end Verif
