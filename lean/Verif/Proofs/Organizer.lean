import Verif.Model.Organizer
import Verif.Spec.Block
import Mathlib.Data.List.Nodup
/-! Helper lemmas for tag blocks. -/
set_option linter.unusedSimpArgs false
set_option linter.unusedSectionVars false
namespace Verif.Org
open Verif Verif.Block

variable {α τ : Type} [DecidableEq τ] (tag : α → τ)

theorem OrderedBlock.sublist {tags : List τ} {xs ys : List α} (h : OrderedBlock tag tags ys)
    (hs : xs.Sublist ys) : OrderedBlock tag tags xs :=
  ⟨fun x hx => h.1 x (hs.mem hx), h.2.sublist hs⟩

/-- Splitting a tag list at a tag. -/
theorem split_at {tags : List τ} {t : τ} (h : t ∈ tags) :
    ∃ A B, tags = A ++ t :: B ∧ t ∉ A ∧ tags.dropWhile (fun u => decide (u ≠ t)) = t :: B := by
  induction tags with
  | nil => simp at h
  | cons a tags ih =>
    by_cases ha : a = t
    · subst ha
      exact ⟨[], tags, rfl, by simp, by simp [List.dropWhile]⟩
    · have : t ∈ tags := by
        rcases List.mem_cons.mp h with h | h
        · exact absurd h.symm ha
        · exact h
      obtain ⟨A, B, h1, h2, h3⟩ := ih this
      refine ⟨a :: A, B, by simp [h1], by simp [h2, Ne.symm ha], ?_⟩
      simp only [List.dropWhile, ha, ne_eq, not_false_eq_true, decide_true]
      exact h3

theorem idxOf_append_left {A B : List τ} {y : τ} (h : y ∈ A) : (A ++ B).idxOf y < A.length := by
  rw [List.idxOf_append, if_pos h]; exact List.idxOf_lt_length_of_mem h

theorem idxOf_append_right {A B : List τ} {y : τ} (h : y ∉ A) :
    (A ++ B).idxOf y = A.length + B.idxOf y := by
  rw [List.idxOf_append, if_neg h]; omega

theorem orderedBlock_cons {tags : List τ} (hn : tags.Nodup) (c : α) (rest : List α) :
    OrderedBlock tag tags (c :: rest) ↔
      tag c ∈ tags ∧ OrderedBlock tag (tags.dropWhile fun u => decide (u ≠ tag c)) rest := by
  constructor
  · rintro ⟨h1, h2⟩
    have hc := h1 c (by simp)
    refine ⟨hc, ?_⟩
    obtain ⟨A, B, e, hA, hd⟩ := split_at hc
    rw [hd]
    rw [List.pairwise_cons] at h2
    have hmem : ∀ x ∈ rest, tag x ∈ tag c :: B ∧ tag x ∉ A := by
      intro x hx
      have hle := h2.1 x hx
      have hxA : tag x ∉ A := by
        intro hxA
        rw [e, idxOf_append_right hA] at hle
        have := idxOf_append_left (B := tag c :: B) hxA
        omega
      have := h1 x (by simp [hx])
      rw [e, List.mem_append] at this
      exact ⟨this.resolve_left hxA, hxA⟩
    refine ⟨fun x hx => (hmem x hx).1, ?_⟩
    refine h2.2.imp_of_mem ?_
    intro x y hx hy hxy
    rw [e, idxOf_append_right (hmem x hx).2, idxOf_append_right (hmem y hy).2] at hxy
    omega
  · rintro ⟨hc, h1, h2⟩
    obtain ⟨A, B, e, hA, hd⟩ := split_at hc
    rw [hd] at h1 h2
    have hnA : ∀ x ∈ rest, tag x ∉ A := by
      intro x hx hxA
      have := h1 x hx
      rw [e] at hn
      exact (List.nodup_append.mp hn).2.2 _ hxA _ this rfl
    refine ⟨?_, ?_⟩
    · intro x hx
      rcases List.mem_cons.mp hx with h | h
      · rw [h]; exact hc
      · rw [e]; exact List.mem_append_right _ (h1 x h)
    · rw [List.pairwise_cons]
      refine ⟨?_, ?_⟩
      · intro x hx
        rw [e, idxOf_append_right hA, idxOf_append_right (hnA x hx)]
        simp
      · refine h2.imp_of_mem ?_
        intro x y hx hy hxy
        rw [e, idxOf_append_right (hnA x hx), idxOf_append_right (hnA y hy)]
        omega

theorem countLoop_cons (tags : List τ) (c : α) (cs : List α) :
    countLoop tag tags (c :: cs) = if tag c ∈ tags then
      countLoop tag (tags.dropWhile fun u => decide (u ≠ tag c)) cs + 1 else 0 := by
  rw [countLoop]
  split
  · rename_i h
    cases tags with
    | nil => simp at h
    | cons a tags =>
      simp at h; subst h
      simp [List.dropWhile]
  · rfl

theorem nodup_dropWhile {tags : List τ} (h : tags.Nodup) (p : τ → Bool) : (tags.dropWhile p).Nodup :=
  h.sublist (List.dropWhile_sublist p)

theorem countLoop_spec {tags : List τ} (hn : tags.Nodup) (l : List α) :
    countLoop tag tags l ≤ l.length ∧ OrderedBlock tag tags (l.take (countLoop tag tags l)) ∧
    ∀ n, n ≤ l.length → OrderedBlock tag tags (l.take n) → n ≤ countLoop tag tags l := by
  induction l generalizing tags with
  | nil => simp [countLoop, OrderedBlock]
  | cons c cs ih =>
    rw [countLoop_cons]
    split
    · rename_i hc
      obtain ⟨h0, h1, h2⟩ := ih (nodup_dropWhile hn (fun u => decide (u ≠ tag c)))
      refine ⟨by rw [List.length_cons]; omega, ?_, ?_⟩
      · rw [List.take_succ_cons]
        exact (orderedBlock_cons tag hn c _).mpr ⟨hc, h1⟩
      · intro n hn' hb
        cases n with
        | zero => omega
        | succ n =>
          rw [List.take_succ_cons] at hb
          have := h2 n (by simpa using hn') ((orderedBlock_cons tag hn c _).mp hb).2
          omega
    · rename_i hc
      refine ⟨by omega, by simp [OrderedBlock], ?_⟩
      intro n hn' hb
      cases n with
      | zero => omega
      | succ n =>
        rw [List.take_succ_cons] at hb
        exact absurd ((orderedBlock_cons tag hn c _).mp hb).1 hc

theorem blockLen_spec {tags : List τ} (hn : tags.Nodup) (l : List α) :
    blockLen tag tags l ≤ l.length ∧ OrderedBlock tag tags (l.take (blockLen tag tags l)) ∧
    ∀ n, n ≤ l.length → OrderedBlock tag tags (l.take n) → n ≤ blockLen tag tags l := by
  unfold blockLen
  split
  · rename_i h
    refine ⟨by omega, by simp [OrderedBlock], ?_⟩
    intro n hn' hb
    rcases h with h | h
    · omega
    · simp at h; subst h
      cases l with
      | nil => simpa using hn'
      | cons c l =>
        cases n with
        | zero => omega
        | succ n =>
          have := hb.1 c (by simp)
          simp at this
  · exact countLoop_spec tag hn l

/-! ### tag positions -/

theorem posAndCount_no (t : τ) (xs : List α) (ys : List α) (h : ∀ x ∈ xs, tag x ≠ t) (pos : Nat)
    (last : Int) (count : Nat) :
    posAndCount tag t (xs ++ ys) pos last count = posAndCount tag t ys (pos + xs.length) last count := by
  induction xs generalizing pos with
  | nil => rfl
  | cons x xs ih =>
    simp only [List.cons_append, posAndCount, h x (by simp), if_false]
    rw [ih (fun y hy => h y (by simp [hy]))]
    rw [List.length_cons, show pos + 1 + xs.length = pos + (xs.length + 1) by omega]

theorem posAndCount_all (t : τ) (xs : List α) (ys : List α) (h : ∀ x ∈ xs, tag x = t) (pos : Nat)
    (last : Int) (count : Nat) :
    posAndCount tag t (xs ++ ys) pos last count =
      posAndCount tag t ys (pos + xs.length) (if xs = [] then last else (pos + xs.length - 1 : Int))
        (count + xs.length) := by
  induction xs generalizing pos last count with
  | nil => rfl
  | cons x xs ih =>
    simp only [List.cons_append, posAndCount, h x (by simp), if_true]
    rw [ih (fun y hy => h y (by simp [hy]))]
    simp only [List.length_cons, reduceCtorEq, if_false]
    congr 1
    · omega
    · split
      · rename_i hx; subst hx; simp
      · omega
    · omega

/-- A sorted list splits at an upward closed predicate. -/
theorem filter_split {R : α → α → Prop} {xs : List α} (h : xs.Pairwise R) (p : α → Bool)
    (hup : ∀ x ∈ xs, ∀ y ∈ xs, R x y → p x = true → p y = true) :
    xs = xs.filter (fun x => !p x) ++ xs.filter p := by
  induction xs with
  | nil => rfl
  | cons x xs ih =>
    rw [List.pairwise_cons] at h
    have ih' := ih h.2 (fun a ha b hb => hup a (by simp [ha]) b (by simp [hb]))
    by_cases hp : p x = true
    · have hall : ∀ y ∈ xs, p y = true := fun y hy => hup x (by simp) y (by simp [hy]) (h.1 y hy) hp
      have h1 : xs.filter (fun x => !p x) = [] := by
        rw [List.filter_eq_nil_iff]; intro y hy; simp [hall y hy]
      have h2 : xs.filter p = xs := List.filter_eq_self.mpr hall
      simp [List.filter_cons, hp, h1, h2]
    · simp only [List.filter_cons, hp, Bool.not_false, Bool.not_true, if_true, Bool.not_eq_true] at *
      simp only [hp, Bool.not_false, if_true, Bool.false_eq_true, if_false, List.cons_append]
      rw [← ih']

/-- In an ordered block, the elements with tags before a suffix `S` of the tags come first. -/
theorem block_split {A S : List τ} {xs : List α} (hb : OrderedBlock tag (A ++ S) xs)
    (hn : (A ++ S).Nodup) :
    xs = xs.filter (fun x => !decide (tag x ∈ S)) ++ xs.filter (fun x => decide (tag x ∈ S)) := by
  refine filter_split hb.2 (fun x => decide (tag x ∈ S)) ?_
  intro x hx y hy hxy hp
  simp only [decide_eq_true_eq] at hp ⊢
  have hxA : tag x ∉ A := fun h => (List.nodup_append.mp hn).2.2 _ h _ hp rfl
  rcases List.mem_append.mp (hb.1 y hy) with h | h
  · have := idxOf_append_left (B := S) h
    rw [idxOf_append_right hxA] at hxy
    omega
  · exact h

/-- An ordered block is: earlier tags, the tag, later tags. -/
theorem block_three {A B : List τ} {t : τ} {xs : List α} (hb : OrderedBlock tag (A ++ t :: B) xs)
    (hn : (A ++ t :: B).Nodup) :
    xs = xs.filter (fun x => !decide (tag x ∈ t :: B)) ++
      (xs.filter (fun x => decide (tag x = t)) ++ xs.filter (fun x => decide (tag x ∈ B))) ∧
    (∀ x ∈ xs.filter (fun x => !decide (tag x ∈ t :: B)), tag x ≠ t) ∧ t ∉ B := by
  have hs := block_split tag hb hn
  have htB : t ∉ B := by
    have := (List.nodup_append.mp hn).2.1
    exact (List.nodup_cons.mp this).1
  -- split the upper part again
  have hb2 : OrderedBlock tag ((A ++ [t]) ++ B) xs := by simpa using hb
  have hn2 : ((A ++ [t]) ++ B).Nodup := by simpa using hn
  have hb3 : OrderedBlock tag ((A ++ [t]) ++ B) (xs.filter (fun x => decide (tag x ∈ t :: B))) :=
    OrderedBlock.sublist tag hb2 List.filter_sublist
  have hs2 := block_split tag hb3 hn2
  have hlo : ∀ x ∈ xs.filter (fun x => !decide (tag x ∈ t :: B)), tag x ≠ t := by
    intro x hx h
    have := (List.mem_filter.mp hx).2
    simp [h] at this
  have heq : (xs.filter (fun x => decide (tag x ∈ t :: B))).filter (fun x => !decide (tag x ∈ B)) =
      xs.filter (fun x => decide (tag x = t)) := by
    rw [List.filter_filter]
    apply List.filter_congr
    intro x _
    by_cases h1 : tag x = t
    · simp [h1, htB]
    · simp [h1]
  have hhi : (xs.filter (fun x => decide (tag x ∈ t :: B))).filter (fun x => decide (tag x ∈ B)) =
      xs.filter (fun x => decide (tag x ∈ B)) := by
    rw [List.filter_filter]
    apply List.filter_congr
    intro x _
    by_cases h1 : tag x ∈ B <;> simp [h1]
  rw [heq, hhi] at hs2
  have hx : xs = xs.filter (fun x => !decide (tag x ∈ t :: B)) ++
      (xs.filter (fun x => decide (tag x = t)) ++ xs.filter (fun x => decide (tag x ∈ B))) := by
    rw [← hs2]; exact hs
  exact ⟨hx, hlo, htB⟩

/-- `posAndCount` on an ordered block. -/
theorem posAndCount_block {A B : List τ} {t : τ} {xs : List α} (hb : OrderedBlock tag (A ++ t :: B) xs)
    (hn : (A ++ t :: B).Nodup) :
    posAndCount tag t xs 0 (-1) 0 =
      if (∃ x ∈ xs, tag x = t) then
        (((xs.filter (fun x => !decide (tag x ∈ t :: B))).length : Int),
          (xs.filter (fun x => decide (tag x = t))).length)
      else (-1, 0) := by
  obtain ⟨hx, hlo, htB⟩ := block_three tag hb hn
  conv => lhs; rw [hx]
  rw [posAndCount_no tag t _ _ hlo, posAndCount_all tag t _ _ (by
    intro x hx; simpa using (List.mem_filter.mp hx).2)]
  rw [show xs.filter (fun x => decide (tag x ∈ B)) = xs.filter (fun x => decide (tag x ∈ B)) ++ [] by simp]
  rw [posAndCount_no tag t _ _ (by
    intro x hx h
    have := (List.mem_filter.mp hx).2
    simp [h, htB] at this)]
  by_cases he : ∃ x ∈ xs, tag x = t
  · have hne : xs.filter (fun x => decide (tag x = t)) ≠ [] := by
      obtain ⟨x, hx, hxt⟩ := he
      intro h0
      have : x ∈ xs.filter (fun x => decide (tag x = t)) := List.mem_filter.mpr ⟨hx, by simp [hxt]⟩
      rw [h0] at this; simp at this
    have hpos : 0 < (xs.filter (fun x => decide (tag x = t))).length := List.length_pos_iff.mpr hne
    rw [if_pos he]
    simp only [posAndCount, hne, if_false]
    rw [if_pos (by omega)]
    ext
    · simp; omega
    · simp
  · have hne : xs.filter (fun x => decide (tag x = t)) = [] := by
      rw [List.filter_eq_nil_iff]
      intro x hx h
      exact he ⟨x, hx, by simpa using h⟩
    rw [if_neg he]
    simp [posAndCount, hne]

/-- The loop of `insert_position_before` over a suffix `S` of the tags. -/
theorem firstPresent_spec (A S : List τ) (hn : (A ++ S).Nodup) (l : List α) :
    let xs := l.take (blockLen tag (A ++ S) l)
    firstPresent tag (A ++ S) l S = .ok (if ∃ x ∈ xs, tag x ∈ S then
      ((xs.filter (fun x => !decide (tag x ∈ S))).length : Int) else 0) := by
  intro xs
  have hb : OrderedBlock tag (A ++ S) xs := (blockLen_spec tag hn l).2.1
  suffices H : ∀ (A' S' : List τ), A' ++ S' = A ++ S →
      firstPresent tag (A ++ S) l S' = .ok (if ∃ x ∈ xs, tag x ∈ S' then
        ((xs.filter (fun x => !decide (tag x ∈ S'))).length : Int) else 0) from H A S rfl
  intro A' S'
  induction S' generalizing A' with
  | nil => intro _; simp [firstPresent]
  | cons t B ih =>
    intro hAS
    have hmem : t ∈ A ++ S := by rw [← hAS]; simp
    have hb' := hb
    rw [← hAS] at hb'
    have hn' := hn
    rw [← hAS] at hn'
    rw [firstPresent]
    simp only [tagInfo, hmem, not_true_eq_false, if_false]
    rw [show List.take (blockLen tag (A ++ S) l) l = xs from rfl, posAndCount_block tag hb' hn']
    by_cases he : ∃ x ∈ xs, tag x = t
    · simp only [he, if_true]
      obtain ⟨x, hx, hxt⟩ := he
      have hpos : 0 < (xs.filter (fun x => decide (tag x = t))).length :=
        List.length_pos_iff.mpr (List.ne_nil_of_mem (List.mem_filter.mpr ⟨hx, by simp [hxt]⟩))
      rw [if_pos hpos, if_pos ⟨x, hx, by simp [hxt]⟩]
    · simp only [he, if_false, Nat.lt_irrefl]
      rw [ih (A' ++ [t]) (by simpa using hAS)]
      have h1 : (∃ x ∈ xs, tag x ∈ t :: B) ↔ ∃ x ∈ xs, tag x ∈ B := by
        constructor
        · rintro ⟨x, hx, h⟩
          rcases List.mem_cons.mp h with h | h
          · exact absurd ⟨x, hx, h⟩ he
          · exact ⟨x, hx, h⟩
        · rintro ⟨x, hx, h⟩; exact ⟨x, hx, by simp [h]⟩
      have h2 : xs.filter (fun x => !decide (tag x ∈ t :: B)) =
          xs.filter (fun x => !decide (tag x ∈ B)) := by
        apply List.filter_congr
        intro x hx
        have : tag x ≠ t := fun h => he ⟨x, hx, h⟩
        simp [this]
      simp only [h1, h2]

/-- Inserting inside the block makes it longer by at most one; by exactly one if the extended
block is ordered. -/
theorem blockLen_insert {tags : List τ} (hn : tags.Nodup) (l : List α) (p : Nat)
    (hp : p ≤ blockLen tag tags l) (x : α) :
    let xs := l.take (blockLen tag tags l)
    (blockLen tag tags (l.take p ++ x :: l.drop p) ≤ blockLen tag tags l + 1) ∧
    (OrderedBlock tag tags (xs.take p ++ x :: xs.drop p) →
      blockLen tag tags (l.take p ++ x :: l.drop p) = blockLen tag tags l + 1) := by
  intro xs
  obtain ⟨h0, h1, h2⟩ := blockLen_spec tag hn l
  obtain ⟨g0, g1, g2⟩ := blockLen_spec tag hn (l.take p ++ x :: l.drop p)
  have hxs : xs = l.take (blockLen tag tags l) := rfl
  clear_value xs
  generalize hm : blockLen tag tags l = m at *
  have hlen : (l.take p ++ x :: l.drop p).length = l.length + 1 := by simp; omega
  have htake : ∀ k, m ≤ k → k ≤ l.length → (l.take p ++ x :: l.drop p).take (k + 1) =
      l.take p ++ x :: (l.take k).drop p := by
    intro k hk hkl
    rw [List.take_append]
    have : (List.take p l).length = p := by simp; omega
    rw [this, List.take_take, show min (k + 1) p = p by omega, show k + 1 - p = (k - p) + 1 by omega,
      List.take_succ_cons, List.drop_take]
  have hle : blockLen tag tags (l.take p ++ x :: l.drop p) ≤ m + 1 := by
    by_cases hc : blockLen tag tags (l.take p ++ x :: l.drop p) ≤ m + 1
    · exact hc
    · exfalso
      have hml : m + 1 ≤ l.length := by omega
      have hb : OrderedBlock tag tags ((l.take p ++ x :: l.drop p).take (m + 1 + 1)) := by
        apply OrderedBlock.sublist tag g1
        have : (l.take p ++ x :: l.drop p).take (m + 1 + 1) =
            ((l.take p ++ x :: l.drop p).take (blockLen tag tags (l.take p ++ x :: l.drop p))).take
              (m + 1 + 1) := by
          rw [List.take_take]; congr 1; omega
        rw [this]; exact List.take_sublist _ _
      rw [htake (m + 1) (by omega) hml] at hb
      have hb' : OrderedBlock tag tags (l.take (m + 1)) := by
        apply OrderedBlock.sublist tag hb
        have : l.take (m + 1) = l.take p ++ (l.take (m + 1)).drop p := by
          have := (List.take_append_drop p (l.take (m + 1))).symm
          rw [List.take_take, show min p (m + 1) = p by omega] at this
          exact this
        conv => lhs; rw [this]
        exact List.Sublist.append (List.Sublist.refl _) (List.sublist_cons_self _ _)
      have := h2 (m + 1) hml hb'
      omega
  refine ⟨hle, ?_⟩
  intro hb
  have := g2 (m + 1) (by omega) (by
    rw [htake m (by omega) h0]
    have e1 : xs.take p = l.take p := by rw [hxs, List.take_take, show min p m = p by omega]
    rw [e1, hxs] at hb
    exact hb)
  omega

/-- An element whose tag lies at the border between `A` and `S` fits between the two parts. -/
theorem orderedBlock_insert {A S : List τ} {xs : List α} (hn : (A ++ S).Nodup)
    (hb : OrderedBlock tag (A ++ S) xs) {x : α} (hx : tag x ∈ A ++ S)
    (hA : ∀ a ∈ A, (A ++ S).idxOf a ≤ (A ++ S).idxOf (tag x))
    (hS : ∀ a ∈ S, (A ++ S).idxOf (tag x) ≤ (A ++ S).idxOf a) :
    OrderedBlock tag (A ++ S)
      (xs.filter (fun x => !decide (tag x ∈ S)) ++ x :: xs.filter (fun x => decide (tag x ∈ S))) := by
  have hsplit := block_split tag hb hn
  refine ⟨?_, ?_⟩
  · intro y hy
    rcases List.mem_append.mp hy with h | h
    · exact hb.1 y (List.mem_filter.mp h).1
    · rcases List.mem_cons.mp h with h | h
      · rw [h]; exact hx
      · exact hb.1 y (List.mem_filter.mp h).1
  · have hp := hb.2
    rw [hsplit] at hp
    rw [List.pairwise_append] at hp ⊢
    refine ⟨hp.1, ?_, ?_⟩
    · rw [List.pairwise_cons]
      refine ⟨?_, hp.2.1⟩
      intro y hy
      exact hS _ (by simpa using (List.mem_filter.mp hy).2)
    · intro a ha b hbm
      rcases List.mem_cons.mp hbm with h | h
      · subst h
        have haS := (List.mem_filter.mp ha).2
        have haA : tag a ∈ A := by
          have := hb.1 a (List.mem_filter.mp ha).1
          rcases List.mem_append.mp this with h | h
          · exact h
          · simp only [h, decide_true, Bool.not_true, Bool.false_eq_true] at haS
        exact hA _ haA
      · exact hp.2.2 a ha b h

theorem filter_take_drop {p : α → Bool} {xs : List α}
    (h : xs = xs.filter (fun x => !p x) ++ xs.filter p) :
    xs.take (xs.filter (fun x => !p x)).length = xs.filter (fun x => !p x) ∧
    xs.drop (xs.filter (fun x => !p x)).length = xs.filter p := by
  generalize xs.filter (fun x => !p x) = a at *
  generalize xs.filter p = b at *
  subst h
  simp

theorem lxmlInsert_nat (l : List α) (n : Nat) (h : n ≤ l.length) (x : α) :
    lxmlInsert l (n : Int) x = l.take n ++ x :: l.drop n := by
  unfold lxmlInsert pyIdx
  by_cases hn : n < l.length
  · simp [hn]
  · have : n = l.length := by omega
    subst this
    simp

/-- Inserting in front: one longer iff the tag is not after the tags of the block. -/
theorem blockLen_insert_front {tags : List τ} (hn : tags.Nodup) (l : List α) (x : α)
    (hx : tag x ∈ tags) :
    blockLen tag tags (x :: l) = blockLen tag tags l + 1 ↔
      ∀ y ∈ l.take (blockLen tag tags l), tags.idxOf (tag x) ≤ tags.idxOf (tag y) := by
  constructor
  · intro h
    have hb := (blockLen_spec tag hn (x :: l)).2.1
    rw [h, List.take_succ_cons] at hb
    exact (List.pairwise_cons.mp hb.2).1
  · intro h
    have := (blockLen_insert tag hn l 0 (by omega) x).2
    simp only [List.take_zero, List.nil_append, List.drop_zero] at this
    apply this
    have hb := (blockLen_spec tag hn l).2.1
    refine ⟨?_, List.pairwise_cons.mpr ⟨h, hb.2⟩⟩
    intro y hy
    rcases List.mem_cons.mp hy with h | h
    · rw [h]; exact hx
    · exact hb.1 y h

/-- Inserting at the border between `A` and `S`. -/
theorem blockLen_insert_border {A S : List τ} (hn : (A ++ S).Nodup) (l : List α) {x : α}
    (hx : tag x ∈ A ++ S)
    (hA : ∀ a ∈ A, (A ++ S).idxOf a ≤ (A ++ S).idxOf (tag x))
    (hS : ∀ a ∈ S, (A ++ S).idxOf (tag x) ≤ (A ++ S).idxOf a) :
    let m := blockLen tag (A ++ S) l
    let n := ((l.take m).filter (fun x => !decide (tag x ∈ S))).length
    n ≤ m ∧ blockLen tag (A ++ S) (lxmlInsert l n x) = m + 1 := by
  intro m n
  have hb := blockLen_spec tag hn l
  have hnm : n ≤ m := by
    have := List.length_filter_le (fun x => !decide (tag x ∈ S)) (l.take m)
    have h2 : (l.take m).length ≤ m := by simp; omega
    omega
  refine ⟨hnm, ?_⟩
  rw [lxmlInsert_nat l n (Nat.le_trans hnm hb.1)]
  apply (blockLen_insert tag hn l n hnm x).2
  have hs := filter_take_drop (block_split tag hb.2.1 hn)
  rw [show ((l.take m).take n) = _ from hs.1, show ((l.take m).drop n) = _ from hs.2]
  exact orderedBlock_insert tag hn hb.2.1 hx hA hS

theorem idxOf_inj' {tags : List τ} {a b : τ} (ha : a ∈ tags) (h : tags.idxOf a = tags.idxOf b) :
    a = b := (List.idxOf_inj ha).mp h

/-! ### reversal -/

theorem idxOf_reverse' {tags : List τ} (hn : tags.Nodup) {t : τ} (h : t ∈ tags) :
    tags.reverse.idxOf t = tags.length - 1 - tags.idxOf t := by
  obtain ⟨A, B, e, hA, -⟩ := split_at h
  have hB : t ∉ B := by
    rw [e] at hn
    exact (List.nodup_cons.mp (List.nodup_append.mp hn).2.1).1
  rw [e]
  simp only [List.reverse_append, List.reverse_cons, List.append_assoc, List.singleton_append]
  rw [idxOf_append_right (by simpa using hB), idxOf_append_right hA]
  simp

theorem orderedBlock_reverse {tags : List τ} (hn : tags.Nodup) (xs : List α) :
    OrderedBlock tag tags.reverse xs.reverse ↔ OrderedBlock tag tags xs := by
  unfold OrderedBlock
  simp only [List.mem_reverse, List.pairwise_reverse]
  constructor
  · rintro ⟨h1, h2⟩
    refine ⟨h1, h2.imp_of_mem ?_⟩
    intro x y hx hy h
    have a := List.idxOf_lt_length_of_mem (h1 x hx)
    have b := List.idxOf_lt_length_of_mem (h1 y hy)
    rw [idxOf_reverse' hn (h1 x hx), idxOf_reverse' hn (h1 y hy)] at h
    omega
  · rintro ⟨h1, h2⟩
    refine ⟨h1, h2.imp_of_mem ?_⟩
    intro x y hx hy h
    rw [idxOf_reverse' hn (h1 x hx), idxOf_reverse' hn (h1 y hy)]
    omega

theorem epilogueLen_spec {tags : List τ} (hn : tags.Nodup) (l : List α) :
    epilogueLen tag tags l ≤ l.length ∧
    OrderedBlock tag tags (l.drop (l.length - epilogueLen tag tags l)) ∧
    ∀ n, n ≤ l.length → OrderedBlock tag tags (l.drop (l.length - n)) → n ≤ epilogueLen tag tags l := by
  obtain ⟨h0, h1, h2⟩ := blockLen_spec tag (List.nodup_reverse.mpr hn) l.reverse
  rw [List.length_reverse] at h0
  refine ⟨h0, ?_, ?_⟩
  · rw [← orderedBlock_reverse tag hn, List.reverse_drop]
    have e : l.length - (l.length - epilogueLen tag tags l) = epilogueLen tag tags l := by
      have : epilogueLen tag tags l ≤ l.length := h0
      omega
    rw [e]; exact h1
  · intro n hn' hb
    rw [← orderedBlock_reverse tag hn, List.reverse_drop,
      show l.length - (l.length - n) = n by omega] at hb
    exact h2 n (by simpa using hn') hb

/-! ### reordering -/

theorem removeAll_eq [DecidableEq α] {l : List α} (hl : l.Nodup) (cs : List α) :
    removeAll l cs = l.filter (fun x => decide (x ∉ cs)) := by
  unfold removeAll
  rw [← List.diff_eq_foldl, hl.sdiff_eq_filter]

theorem mem_collect {tags : List τ} {l : List α} {x : α} :
    x ∈ collect tag tags l ↔ x ∈ l ∧ tag x ∈ tags := by
  unfold collect
  simp only [List.mem_flatMap, List.mem_filter, decide_eq_true_eq]
  constructor
  · rintro ⟨t, ht, hx, e⟩; exact ⟨hx, e ▸ ht⟩
  · rintro ⟨hx, ht⟩; exact ⟨_, ht, hx, rfl⟩

theorem foldl_cons_reverse (xs l : List α) : xs.reverse.foldl (fun l n => n :: l) l = xs ++ l := by
  induction xs generalizing l with
  | nil => rfl
  | cons x xs ih => simp [List.foldl_append]

theorem collect_congr {tags : List τ} {l l' : List α}
    (h : ∀ t ∈ tags, l.filter (fun x => decide (tag x = t)) = l'.filter (fun x => decide (tag x = t))) :
    collect tag tags l = collect tag tags l' := by
  unfold collect
  induction tags with
  | nil => rfl
  | cons t ts ih =>
    simp only [List.flatMap_cons]
    rw [h t (by simp), ih (fun u hu => h u (by simp [hu]))]

theorem collect_filter_tag {tags : List τ} (hn : tags.Nodup) (l : List α) (t : τ) :
    (collect tag tags l).filter (fun x => decide (tag x = t)) =
      if t ∈ tags then l.filter (fun x => decide (tag x = t)) else [] := by
  unfold collect
  induction tags with
  | nil => simp
  | cons u ts ih =>
    rw [List.nodup_cons] at hn
    simp only [List.flatMap_cons, List.filter_append, List.filter_filter]
    rw [ih hn.2]
    by_cases hu : u = t
    · subst hu
      simp [hn.1]
    · have h1 : l.filter (fun a => decide (tag a = t) && decide (tag a = u)) = [] := by
        rw [List.filter_eq_nil_iff]
        intro x _ h
        simp only [Bool.and_eq_true, decide_eq_true_eq] at h
        exact hu (h.2.symm.trans h.1)
      rw [h1]
      simp [Ne.symm hu]

theorem collect_filter_none {tags : List τ} (l : List α) (p : α → Bool)
    (h : ∀ x ∈ l, tag x ∈ tags → p x = false) : (collect tag tags l).filter p = [] := by
  rw [List.filter_eq_nil_iff]
  intro x hx
  rw [mem_collect] at hx
  simp [h x hx.1 hx.2]

theorem collect_singleton {tags : List τ} (hn : tags.Nodup) (x : α) :
    collect tag tags [x] = if tag x ∈ tags then [x] else [] := by
  unfold collect
  induction tags with
  | nil => simp
  | cons u ts ih =>
    rw [List.nodup_cons] at hn
    simp only [List.flatMap_cons]
    rw [ih hn.2]
    by_cases hu : tag x = u
    · subst hu; simp [hn.1]
    · simp [hu]

/-- The result of `reorder`, explicitly. -/
theorem reorder_eq [DecidableEq α] {pre epi : List τ} (hp : pre.Nodup) (he : epi.Nodup)
    (hd : ∀ t ∈ pre, t ∉ epi) {l : List α} (hl : l.Nodup) :
    reorder tag pre epi l = collect tag pre l ++
      (l.filter (fun x => decide (tag x ∉ pre ∧ tag x ∉ epi)) ++ collect tag epi l) := by
  unfold reorder
  split
  · rename_i h
    match l, h with
    | [], _ => simp [collect]
    | [x], _ =>
      rw [collect_singleton tag hp, collect_singleton tag he]
      by_cases h1 : tag x ∈ pre
      · simp [h1, hd _ h1]
      · by_cases h2 : tag x ∈ epi <;> simp [h1, h2]
  · simp only [foldl_cons_reverse]
    rw [removeAll_eq hl]
    have h1 : l.filter (fun x => decide (x ∉ collect tag pre l)) =
        l.filter (fun x => decide (tag x ∉ pre)) := by
      apply List.filter_congr
      intro x hx
      simp [mem_collect, hx]
    have h2 : collect tag epi (l.filter (fun x => decide (tag x ∉ pre))) = collect tag epi l := by
      apply collect_congr
      intro t ht
      rw [List.filter_filter]
      apply List.filter_congr
      intro x _
      by_cases hx : tag x = t
      · have : t ∉ pre := fun h => hd t h ht
        simp [hx, this]
      · simp [hx]
    rw [h1, h2, removeAll_eq (hl.filter _), List.filter_filter]
    rw [List.append_assoc]
    congr 2
    apply List.filter_congr
    intro x hx
    by_cases h3 : tag x ∈ pre <;> simp [mem_collect, hx, h3]

theorem orderedBlock_collect {tags : List τ} (hn : tags.Nodup) (l : List α) :
    OrderedBlock tag tags (collect tag tags l) := by
  refine ⟨fun x hx => ((mem_collect tag).mp hx).2, ?_⟩
  unfold collect
  induction tags with
  | nil => simp
  | cons t ts ih =>
    rw [List.flatMap_cons, List.pairwise_append]
    have hz : ∀ x ∈ l.filter (fun x => decide (tag x = t)), (t :: ts).idxOf (tag x) = 0 := by
      intro x hx
      have : tag x = t := by simpa using (List.mem_filter.mp hx).2
      rw [this]; simp
    refine ⟨?_, ?_, ?_⟩
    · rw [List.pairwise_iff_forall_sublist]
      intro x y hxy
      rw [hz x (hxy.subset (by simp))]
      omega
    · rw [List.nodup_cons] at hn
      refine (ih hn.2).imp_of_mem ?_
      have hne : ∀ x ∈ collect tag ts l, (t :: ts).idxOf (tag x) = ts.idxOf (tag x) + 1 := by
        intro x hx
        have := ((mem_collect tag).mp hx).2
        have hx' : t ≠ tag x := fun h => hn.1 (h ▸ this)
        rw [List.idxOf_cons_ne _ hx']
      intro x y hx hy h
      rw [hne x hx, hne y hy]
      omega
    · intro x hx y _
      rw [hz x hx]; omega

end Verif.Org
