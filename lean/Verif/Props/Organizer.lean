import Verif.Proofs.Organizer
import Verif.Model.Tags
/-!
# Properties of the node organizer, the structure checker and `TextBody.append` (C33 – C37)
-/
set_option linter.unusedSimpArgs false
namespace Verif.Org
open Verif Verif.Block

variable {α τ : Type} [DecidableEq τ] (tag : α → τ)

/-! ## C33 reorder -/

/-- Rank of a tag: declared position in the prelude, then everything else, then the declared
position in the epilogue. -/
def rank (pre epi : List τ) (t : τ) : Nat :=
  if t ∈ pre then pre.idxOf t
  else if t ∈ epi then pre.length + 1 + epi.idxOf t
  else pre.length

/-- C33: the result is a permutation, sorted by rank, elements of equal tag and the elements of
no listed tag keep their order, and a second call changes nothing. -/
theorem C33_reorder [DecidableEq α] {pre epi : List τ} (hp : pre.Nodup) (he : epi.Nodup)
    (hd : ∀ t ∈ pre, t ∉ epi) {l : List α} (hl : l.Nodup) :
    (reorder tag pre epi l).Perm l ∧
    (reorder tag pre epi l).Pairwise (fun x y => rank pre epi (tag x) ≤ rank pre epi (tag y)) ∧
    (∀ t, (reorder tag pre epi l).filter (fun x => tag x = t) = l.filter (fun x => tag x = t)) ∧
    (reorder tag pre epi l).filter (fun x => tag x ∉ pre ∧ tag x ∉ epi) =
      l.filter (fun x => tag x ∉ pre ∧ tag x ∉ epi) ∧
    reorder tag pre epi (reorder tag pre epi l) = reorder tag pre epi l := by
  have hR := reorder_eq tag hp he hd hl
  have htag : ∀ t, (reorder tag pre epi l).filter (fun x => decide (tag x = t)) =
      l.filter (fun x => decide (tag x = t)) := by
    intro t
    rw [hR, List.filter_append, List.filter_append, collect_filter_tag tag hp,
      collect_filter_tag tag he, List.filter_filter]
    by_cases h1 : t ∈ pre
    · have h2 := hd t h1
      have h3 : l.filter (fun a => decide (tag a = t) && decide (tag a ∉ pre ∧ tag a ∉ epi)) = [] := by
        rw [List.filter_eq_nil_iff]
        intro x _ h
        simp only [Bool.and_eq_true, decide_eq_true_eq] at h
        exact h.2.1 (h.1 ▸ h1)
      rw [h3]; simp [h1, h2]
    · by_cases h2 : t ∈ epi
      · have h3 : l.filter (fun a => decide (tag a = t) && decide (tag a ∉ pre ∧ tag a ∉ epi)) = [] := by
          rw [List.filter_eq_nil_iff]
          intro x _ h
          simp only [Bool.and_eq_true, decide_eq_true_eq] at h
          exact h.2.2 (h.1 ▸ h2)
        rw [h3]; simp [h1, h2]
      · simp only [h1, h2, if_false, List.nil_append, List.append_nil]
        apply List.filter_congr
        intro x _
        by_cases hx : tag x = t
        · simp [hx, h1, h2]
        · simp [hx]
  have hmid : (reorder tag pre epi l).filter (fun x => decide (tag x ∉ pre ∧ tag x ∉ epi)) =
      l.filter (fun x => decide (tag x ∉ pre ∧ tag x ∉ epi)) := by
    rw [hR, List.filter_append, List.filter_append,
      collect_filter_none tag l _ (by intro x _ h; simp [h]),
      collect_filter_none tag l _ (by intro x _ h; simp [h]), List.filter_filter]
    simp
  have hperm : (reorder tag pre epi l).Perm l := by
    rw [List.perm_iff_count]
    intro a
    have h1 : ∀ xs : List α, xs.count a = (xs.filter (fun x => decide (tag x = tag a))).count a := by
      intro xs
      rw [List.count_filter (by simp)]
    rw [h1, htag, ← h1]
  refine ⟨hperm, ?_, htag, hmid, ?_⟩
  · rw [hR, List.pairwise_append]
    have hpre : ∀ x ∈ collect tag pre l, rank pre epi (tag x) = pre.idxOf (tag x) ∧
        pre.idxOf (tag x) < pre.length := by
      intro x hx
      have := ((mem_collect tag).mp hx).2
      exact ⟨by simp [rank, this], List.idxOf_lt_length_of_mem this⟩
    have hepi : ∀ x ∈ collect tag epi l, rank pre epi (tag x) = pre.length + 1 + epi.idxOf (tag x) := by
      intro x hx
      have := ((mem_collect tag).mp hx).2
      have hnp : tag x ∉ pre := fun h => hd _ h this
      simp [rank, this, hnp]
    have hm : ∀ x ∈ l.filter (fun x => decide (tag x ∉ pre ∧ tag x ∉ epi)),
        rank pre epi (tag x) = pre.length := by
      intro x hx
      have := (List.mem_filter.mp hx).2
      simp only [decide_eq_true_eq] at this
      simp [rank, this.1, this.2]
    refine ⟨?_, ?_, ?_⟩
    · refine (orderedBlock_collect tag hp l).2.imp_of_mem ?_
      intro x y hx hy h
      rw [(hpre x hx).1, (hpre y hy).1]; exact h
    · rw [List.pairwise_append]
      refine ⟨?_, ?_, ?_⟩
      · rw [List.pairwise_iff_forall_sublist]
        intro x y hxy
        rw [hm x (hxy.subset (by simp)), hm y (hxy.subset (by simp))]
        exact Nat.le_refl _
      · refine (orderedBlock_collect tag he l).2.imp_of_mem ?_
        intro x y hx hy h
        rw [hepi x hx, hepi y hy]; omega
      · intro x hx y hy
        rw [hm x hx, hepi y hy]; omega
    · intro x hx y hy
      have := (hpre x hx)
      rcases List.mem_append.mp hy with h | h
      · rw [this.1, hm y h]; omega
      · rw [this.1, hepi y h]; omega
  · rw [reorder_eq tag hp he hd (hperm.nodup_iff.mpr hl), hmid,
      collect_congr tag (fun t _ => htag t), collect_congr tag (fun t _ => htag t), ← hR]

/-- Prelude `[d, s]`, epilogue `[n]`: a body with eight children is really permuted. -/
example : reorder (fun x : Char × Nat => x.1) ['d', 's'] ['n']
    [('p', 0), ('n', 1), ('s', 2), ('h', 3), ('d', 4), ('n', 5), ('s', 6), ('p', 7)] =
    [('d', 4), ('s', 2), ('s', 6), ('p', 0), ('h', 3), ('p', 7), ('n', 1), ('n', 5)] := by
  decide +kernel

/-- The tag tables of text documents meet the hypotheses of C33. -/
theorem C33_text_tables : Tags.TEXT_PRELUDE.Nodup ∧ Tags.TEXT_EPILOGUE.Nodup ∧
    (∀ t ∈ Tags.TEXT_PRELUDE, t ∉ Tags.TEXT_EPILOGUE) ∧
    (∀ t ∈ Tags.TEXT_PRELUDE, t ∉ Tags.TEXT_CONTENT_STREAM) ∧
    (∀ t ∈ Tags.TEXT_EPILOGUE, t ∉ Tags.TEXT_CONTENT_STREAM) := by decide +kernel

/-! ## C34 blocks are maximal -/

/-- C34: `len(PreludeTagBlock)` is the length of the longest prefix that is an ordered block. -/
theorem C34_prelude {tags : List τ} (hn : tags.Nodup) (l : List α) (n : Nat) (hnl : n ≤ l.length) :
    OrderedBlock tag tags (l.take n) ↔ n ≤ blockLen tag tags l := by
  obtain ⟨_, h1, h2⟩ := blockLen_spec tag hn l
  refine ⟨h2 n hnl, fun h => OrderedBlock.sublist tag h1 ?_⟩
  exact List.take_sublist_take_left h

/-- C34: `len(EpilogueTagBlock)` is the length of the longest suffix that is an ordered block. -/
theorem C34_epilogue {tags : List τ} (hn : tags.Nodup) (l : List α) (n : Nat) (hnl : n ≤ l.length) :
    OrderedBlock tag tags (l.drop (l.length - n)) ↔ n ≤ epilogueLen tag tags l := by
  obtain ⟨_, h1, h2⟩ := epilogueLen_spec tag hn l
  refine ⟨h2 n hnl, fun h => OrderedBlock.sublist tag h1 ?_⟩
  exact List.drop_sublist_drop_left l (by omega)

/-- C34: the borders.  `insert_position_after()` is the end of the longest ordered prefix and
`insert_position_before()` of an epilogue block the start of the longest ordered suffix. -/
theorem C34_borders {tags : List τ} (hn : tags.Nodup) (hne : tags ≠ []) (l : List α) :
    (∃ p : Nat, insertPositionAfter tag tags l none = .ok (p : Int) ∧ p ≤ l.length ∧
      ∀ n, n ≤ l.length → (OrderedBlock tag tags (l.take n) ↔ n ≤ p)) ∧
    (∃ p : Nat, epilogueInsertPositionBefore tag tags l none = .ok (p : Int) ∧ p ≤ l.length ∧
      ∀ n, n ≤ l.length → (OrderedBlock tag tags (l.drop n) ↔ p ≤ n)) := by
  constructor
  · refine ⟨blockLen tag tags l, ?_, (blockLen_spec tag hn l).1, fun n h => C34_prelude tag hn l n h⟩
    unfold insertPositionAfter
    simp only [List.getLast?_eq_some_getLast hne, List.getLast_mem, not_true_eq_false, if_false, if_true]
  · have hle := (epilogueLen_spec tag hn l).1
    refine ⟨l.length - epilogueLen tag tags l, ?_, by omega, ?_⟩
    · unfold epilogueInsertPositionBefore
      have hne' : tags.reverse ≠ [] := by simpa using hne
      simp only [List.getLast?_eq_some_getLast hne', List.getLast_mem, not_true_eq_false, if_false, if_true]
      congr 1
      omega
    · intro n h
      have := C34_epilogue tag hn l (l.length - n) (by omega)
      rw [show l.length - (l.length - n) = n by omega] at this
      rw [this]
      omega

example : blockLen (fun x : Char => x) ['a', 'b', 'c'] ['a', 'a', 'c', 'c', 'b'] = 4 ∧
    epilogueLen (fun x : Char => x) ['a', 'b', 'c'] ['b', 'a', 'a', 'c', 'c'] = 4 := by decide +kernel

/-! ## C35 appending to a text body -/

/-- C35: `append` inserts directly before the longest trailing ordered epilogue block. -/
theorem C35_append {epi : List τ} (hn : epi.Nodup) (hne : epi ≠ []) (l : List α) (x : α) :
    ∃ body tail, l = body ++ tail ∧ textBodyAppend tag epi l x = (body ++ x :: tail, .ok ()) ∧
      OrderedBlock tag epi tail ∧
      ∀ a b, l = a ++ b → OrderedBlock tag epi b → b.length ≤ tail.length := by
  obtain ⟨p, hp, hpl, hborder⟩ := (C34_borders tag hn hne l).2
  refine ⟨l.take p, l.drop p, (List.take_append_drop p l).symm, ?_, (hborder p hpl).mpr (Nat.le_refl _), ?_⟩
  · unfold textBodyAppend
    rw [hp]
    simp only [lxmlInsert_nat l p hpl]
  · intro a b hab hb
    have hl : l.length = a.length + b.length := by rw [hab]; simp
    have := (hborder a.length (by omega)).mp (by rw [hab, List.drop_left]; exact hb)
    rw [List.length_drop]; omega

/-- A sequence of appends. -/
def appends (epi : List τ) (l : List α) (xs : List α) : List α :=
  xs.foldl (fun l x => (textBodyAppend tag epi l x).1) l

/-- C35: any sequence of appends of content elements: content in call order, then the epilogue. -/
theorem C35_append_history {epi : List τ} (hn : epi.Nodup) (hne : epi ≠ []) (l : List α)
    (xs : List α) (hxs : ∀ x ∈ xs, tag x ∉ epi) :
    ∃ body tail, l = body ++ tail ∧ appends tag epi l xs = body ++ xs ++ tail ∧
      OrderedBlock tag epi tail ∧
      ∀ a b, l = a ++ b → OrderedBlock tag epi b → b.length ≤ tail.length := by
  induction xs generalizing l with
  | nil =>
    obtain ⟨body, tail, h1, _, h3, h4⟩ := epilogueLen_spec tag hn l |> fun h =>
      (⟨l.take (l.length - epilogueLen tag epi l), l.drop (l.length - epilogueLen tag epi l),
        (List.take_append_drop _ _).symm, trivial, h.2.1, fun a b hab hb => by
          have hl : l.length = a.length + b.length := by rw [hab]; simp
          have := h.2.2 b.length (by omega) (by
            rw [show l.length - b.length = a.length by omega]
            conv => arg 3; rw [hab]
            rw [List.drop_left]; exact hb)
          rw [List.length_drop]; have := h.1; omega⟩ :
        ∃ body tail, l = body ++ tail ∧ True ∧ OrderedBlock tag epi tail ∧
          ∀ a b, l = a ++ b → OrderedBlock tag epi b → b.length ≤ tail.length)
    exact ⟨body, tail, h1, by simpa [appends] using h1, h3, h4⟩
  | cons x xs ih =>
    obtain ⟨body, tail, h1, h2, h3, h4⟩ := C35_append tag hn hne l x
    obtain ⟨body', tail', g1, g2, g3, g4⟩ := ih (textBodyAppend tag epi l x).1
      (fun y hy => hxs y (by simp [hy]))
    rw [h2] at g1 g4
    simp only at g1 g4
    have htl : tail'.length = tail.length := by
      have hge : tail.length ≤ tail'.length := g4 (body ++ [x]) tail (by simp) h3
      by_cases hlt : tail.length < tail'.length
      · exfalso
        -- then `x` is in `tail'`
        have : x ∈ tail' := by
          have hd : (body ++ x :: tail).drop body'.length = tail' := by rw [g1]; simp
          have hlen : (body ++ x :: tail).length = body'.length + tail'.length := by
            rw [g1]; simp
          simp only [List.length_append, List.length_cons] at hlen
          rw [← hd, List.drop_append]
          apply List.mem_append_right
          rw [show body'.length - body.length = 0 by omega]
          simp
        exact hxs x (by simp) (g3.1 x this)
      · omega
    have hsplit : body' = body ++ [x] ∧ tail' = tail := by
      have : body' ++ tail' = (body ++ [x]) ++ tail := by rw [← g1]; simp
      exact List.append_inj' this htl
    refine ⟨body, tail, h1, ?_, h3, h4⟩
    rw [appends, List.foldl_cons, ← appends, g2, hsplit.1, hsplit.2]
    simp

example : appends (fun x : Char × Nat => x.1) ['n', 'd'] [('p', 0), ('n', 1), ('d', 2)]
    [('p', 3), ('h', 4)] = [('p', 0), ('p', 3), ('h', 4), ('n', 1), ('d', 2)] := by decide +kernel

/-- C35, finding: opening a text document that has an epilogue but no variable or user-field
declarations puts the declarations behind the epilogue; the epilogue block is then empty, an
appended paragraph lands behind `table:named-expressions`, and the formerly valid body fails
the structure check. -/
theorem C35_open_then_append_refuted :
    let tag := fun x : String × Nat => x.1
    let l := [("text:p", 0), ("table:named-expressions", 1)]
    isValid tag Tags.TEXT_PRELUDE Tags.TEXT_CONTENT_STREAM Tags.TEXT_EPILOGUE l = .ok true ∧
    (let l' := openBody tag (fun t => (t, 9)) "text:variable-decls" "text:user-field-decls" l
     isValid tag Tags.TEXT_PRELUDE Tags.TEXT_CONTENT_STREAM Tags.TEXT_EPILOGUE l' = .ok false ∧
     textBodyAppend tag Tags.TEXT_EPILOGUE l' ("text:p", 2) =
       ([("text:p", 0), ("table:named-expressions", 1), ("text:variable-decls", 9),
         ("text:user-field-decls", 9), ("text:p", 2)], .ok ())) := by decide +kernel

/-- C35: with both declarations present, opening changes nothing, so appends stay before the
epilogue. -/
theorem C35_open_unchanged (mk : τ → α) (v u : τ) (l : List α) (hv : ∃ x ∈ l, tag x = v)
    (hu : ∃ x ∈ l, tag x = u) : openBody tag mk v u l = l := by
  have h1 : l.any (fun x => decide (tag x = v)) = true := by simpa using hv
  have h2 : l.any (fun x => decide (tag x = u)) = true := by simpa using hu
  simp [openBody, subelement, h1, h2]

/-! ## C36 structure check -/

/-- C36: `is_valid` holds exactly for "ordered prelude, midrange elements, ordered epilogue". -/
theorem C36_is_valid {pre mid epi : List τ} (hp : pre.Nodup) (hpn : pre ≠ []) (he : epi.Nodup)
    (hen : epi ≠ []) (l : List α) :
    ∃ b, isValid tag pre mid epi l = .ok b ∧ (b = true ↔ ∃ p m e, l = p ++ m ++ e ∧
      OrderedBlock tag pre p ∧ (∀ x ∈ m, tag x ∈ mid) ∧ OrderedBlock tag epi e) := by
  obtain ⟨p0, p1, p2⟩ := blockLen_spec tag hp l
  obtain ⟨e0, e1, e2⟩ := epilogueLen_spec tag he l
  have hc : ∀ ts : List τ, ts.Nodup → ts ≠ [] → checkTags ts = .ok () := by
    intro ts h1 h2
    have : ts.length ≠ 0 := by simpa using h2
    unfold checkTags
    rw [if_neg this, if_neg (by simpa using h1)]
  unfold isValid
  rw [hc pre hp hpn, hc epi he hen]
  refine ⟨_, rfl, ?_⟩
  generalize blockLen tag pre l = pn at *
  generalize epilogueLen tag epi l = en at *
  have hm : (if en ≠ 0 then (l.take (l.length - en)).drop pn else l.drop pn) =
      (l.take (l.length - en)).drop pn := by
    split
    · rfl
    · rename_i h
      have : en = 0 := by omega
      subst this; simp
  rw [hm, List.all_eq_true]
  simp only [decide_eq_true_eq]
  constructor
  · intro h
    by_cases hlt : pn ≤ l.length - en
    · refine ⟨l.take pn, (l.take (l.length - en)).drop pn, l.drop (l.length - en), ?_, p1, h, e1⟩
      have : l.take pn ++ (l.take (l.length - en)).drop pn = l.take (l.length - en) := by
        have := List.take_append_drop pn (l.take (l.length - en))
        rwa [List.take_take, Nat.min_eq_left hlt] at this
      rw [this, List.take_append_drop]
    · refine ⟨l.take pn, [], l.drop pn, by simp, p1, by simp, ?_⟩
      exact OrderedBlock.sublist tag e1 (List.drop_sublist_drop_left l (by omega))
  · rintro ⟨p, m, e, hl, hpb, hmm, heb⟩ x hx
    have hlen : l.length = p.length + m.length + e.length := by rw [hl]; simp [Nat.add_assoc]
    have h1 := p2 p.length (by omega) (by rw [hl]; simpa using hpb)
    have h2 := e2 e.length (by omega) (by
      rw [show l.length - e.length = (p ++ m).length by simp; omega]
      rw [hl, List.drop_left]; exact heb)
    -- the slice is a part of `m`
    have hsub : ((l.take (l.length - en)).drop pn).Sublist ((l.take (p.length + m.length)).drop p.length) :=
      (List.drop_sublist_drop_left _ h1).trans
        ((List.take_sublist_take_left (by omega)).drop _)
    have hmeq : (l.take (p.length + m.length)).drop p.length = m := by
      rw [hl, show p.length + m.length = (p ++ m).length by simp, List.take_left, List.drop_left]
    rw [hmeq] at hsub
    exact hmm x (hsub.mem hx)

/-- C36 for text bodies with the tag tables of the library. -/
theorem C36_text_body (l : List (String × Nat)) :
    let tag := fun x : String × Nat => x.1
    ∃ b, isValid tag Tags.TEXT_PRELUDE Tags.TEXT_CONTENT_STREAM Tags.TEXT_EPILOGUE l = .ok b ∧
      (b = true ↔ ∃ p m e, l = p ++ m ++ e ∧ OrderedBlock tag Tags.TEXT_PRELUDE p ∧
        (∀ x ∈ m, tag x ∈ Tags.TEXT_CONTENT_STREAM) ∧ OrderedBlock tag Tags.TEXT_EPILOGUE e) :=
  C36_is_valid _ (by decide +kernel) (by decide +kernel) (by decide +kernel) (by decide +kernel) l

example : isValid (fun x : String => x) Tags.TEXT_PRELUDE Tags.TEXT_CONTENT_STREAM Tags.TEXT_EPILOGUE
    ["office:forms", "text:sequence-decls", "text:h", "text:p", "table:dde-links"] = .ok true ∧
  isValid (fun x : String => x) Tags.TEXT_PRELUDE Tags.TEXT_CONTENT_STREAM Tags.TEXT_EPILOGUE
    ["text:p", "office:forms"] = .ok false := by decide +kernel

/-! ## tag_info: positions and counts of one tag -/

theorem posAndCount_range {tags : List τ} (hn : tags.Nodup) {t : τ} (ht : t ∈ tags) {xs : List α}
    (hb : OrderedBlock tag tags xs) :
    ∃ (p : Int) (c : Nat), posAndCount tag t xs 0 (-1) 0 = (p, c) ∧ (c = 0 → p = -1) ∧ -1 ≤ p ∧
      (0 < c → 0 ≤ p) ∧ p + c ≤ xs.length ∧
      ∀ (n : Nat) x, xs[n]? = some x → (tag x = t ↔ p ≤ n ∧ (n : Int) < p + c) := by
  obtain ⟨A, B, e, hA, hd⟩ := split_at ht
  subst e
  obtain ⟨hx, hlo, htB⟩ := block_three tag hb hn
  have hpc := posAndCount_block tag hb hn
  generalize hL : xs.filter (fun x => !decide (tag x ∈ t :: B)) = L at hx hlo hpc
  generalize hM : xs.filter (fun x => decide (tag x = t)) = M at hx hpc
  generalize hR : xs.filter (fun x => decide (tag x ∈ B)) = R at hx
  have hMt : ∀ x ∈ M, tag x = t := by
    intro x hm; rw [← hM] at hm; simpa using (List.mem_filter.mp hm).2
  have hRt : ∀ x ∈ R, tag x ≠ t := by
    intro x hm he; rw [← hR] at hm
    have := (List.mem_filter.mp hm).2
    rw [he] at this; simp [htB] at this
  have hlen : xs.length = L.length + (M.length + R.length) := by
    rw [hx, List.length_append, List.length_append]
  by_cases hex : ∃ x ∈ xs, tag x = t
  · rw [if_pos hex] at hpc
    refine ⟨_, _, hpc, ?_, by omega, by omega, by omega, ?_⟩
    · intro h0
      exfalso
      obtain ⟨x, h1, h2⟩ := hex
      have : x ∈ M := by rw [← hM]; exact List.mem_filter.mpr ⟨h1, by simpa using h2⟩
      have := List.length_pos_of_mem this
      omega
    · intro n x hnx
      rw [hx] at hnx
      by_cases h1 : n < L.length
      · rw [List.getElem?_append_left h1] at hnx
        exact ⟨fun he => absurd he (hlo x (List.mem_of_getElem? hnx)), fun h => by omega⟩
      · rw [List.getElem?_append_right (by omega)] at hnx
        by_cases h2 : n - L.length < M.length
        · rw [List.getElem?_append_left h2] at hnx
          exact ⟨fun _ => by omega, fun _ => hMt x (List.mem_of_getElem? hnx)⟩
        · rw [List.getElem?_append_right (by omega)] at hnx
          exact ⟨fun he => absurd he (hRt x (List.mem_of_getElem? hnx)), fun h => by omega⟩
  · rw [if_neg hex] at hpc
    refine ⟨_, _, hpc, fun _ => rfl, by omega, by omega, by simp, ?_⟩
    intro n x hnx
    exact ⟨fun he => absurd ⟨x, List.mem_of_getElem? hnx, he⟩ hex, fun h => by simp at h; omega⟩

/-- `tag_info(tag)` of a prelude block gives exactly the positions of the tag in the block. -/
theorem C37_tag_info {tags : List τ} (hn : tags.Nodup) (l : List α) {t : τ} (ht : t ∈ tags) :
    ∃ (p : Int) (c : Nat), tagInfo tag tags l t = .ok (p, c) ∧ (c = 0 → p = -1) ∧
      (0 < c → 0 ≤ p ∧ p + c ≤ blockLen tag tags l) ∧
      ∀ (n : Nat) x, n < blockLen tag tags l → l[n]? = some x →
        (tag x = t ↔ p ≤ n ∧ (n : Int) < p + c) := by
  obtain ⟨h0, hb, _⟩ := blockLen_spec tag hn l
  obtain ⟨p, c, e, h1, h2, h3, h4, h5⟩ := posAndCount_range tag hn ht hb
  refine ⟨p, c, ?_, h1, fun hc => ⟨h3 hc, ?_⟩, ?_⟩
  · unfold tagInfo
    simp only [ht, not_true_eq_false, if_false, e]
  · rw [List.length_take] at h4; omega
  · intro n x hnl hx
    refine h5 n x ?_
    rw [List.getElem?_take, if_pos hnl]; exact hx

/-- `tag_info(tag)` of an epilogue block: positions counted from the front. -/
theorem C37_epilogue_tag_info {tags : List τ} (hn : tags.Nodup) (l : List α) {t : τ} (ht : t ∈ tags) :
    ∃ (p : Int) (c : Nat), epilogueTagInfo tag tags l t = .ok (p, c) ∧ (c = 0 → p = -1) ∧
      (0 < c → (l.length : Int) - epilogueLen tag tags l ≤ p ∧ p + c ≤ l.length) ∧
      ∀ (n : Nat) x, l.length - epilogueLen tag tags l ≤ n → l[n]? = some x →
        (tag x = t ↔ p ≤ n ∧ (n : Int) < p + c) := by
  have hnr : tags.reverse.Nodup := List.nodup_reverse.mpr hn
  obtain ⟨p, c, e, h1, h2, h3⟩ := C37_tag_info tag hnr l.reverse (t := t) (by simpa using ht)
  have hel : blockLen tag tags.reverse l.reverse = epilogueLen tag tags l := rfl
  have hle := (epilogueLen_spec tag hn l).1
  rw [hel] at h2 h3
  refine ⟨if 0 < c then (l.length : Int) - p - c else p, c, ?_, ?_, ?_, ?_⟩
  · unfold epilogueTagInfo; rw [e]
  · intro hc; rw [if_neg (by omega)]; exact h1 hc
  · intro hc; rw [if_pos hc]; have := h2 hc; omega
  · intro n x hn' hx
    have hnl := (List.getElem?_eq_some_iff.mp hx).1
    have hrev : l.reverse[l.length - 1 - n]? = some x := by
      rw [List.getElem?_reverse (by omega)]
      rw [show l.length - 1 - (l.length - 1 - n) = n by omega]; exact hx
    have := h3 (l.length - 1 - n) x (by omega) hrev
    rw [this]
    by_cases hc : 0 < c
    · rw [if_pos hc]; omega
    · have hc0 : c = 0 := by omega
      have := h1 hc0
      rw [if_neg hc]; omega

example : tagInfo (fun x : Char => x) ['a', 'b', 'c'] ['a', 'b', 'b', 'x', 'b'] 'b' = .ok (1, 2) ∧
    epilogueTagInfo (fun x : Char => x) ['a', 'b', 'c'] ['b', 'x', 'a', 'b', 'b', 'c'] 'b' = .ok (3, 2) ∧
    epilogueTagInfo (fun x : Char => x) ['a', 'b', 'c'] ['b', 'x', 'a'] 'b' = .ok (-1, 0) := by
  decide +kernel

/-! ## C37 tag-relative positions -/

/-- C37, `insert_position_before(tag)`: the block becomes one longer exactly when it is empty or
already contains the tag or a successor of it. -/
theorem C37_before_partial {tags : List τ} (hn : tags.Nodup) (l : List α) (x : α) (hx : tag x ∈ tags) :
    ∃ p : Nat, insertPositionBefore tag tags l (tag x) = .ok (p : Int) ∧ p ≤ blockLen tag tags l ∧
      (blockLen tag tags (lxmlInsert l p x) = blockLen tag tags l + 1 ↔
        blockLen tag tags l = 0 ∨
        ∃ y ∈ l.take (blockLen tag tags l), tags.idxOf (tag x) ≤ tags.idxOf (tag y)) := by
  obtain ⟨A, B, e, hA, hd⟩ := split_at hx
  have hn' : (A ++ tag x :: B).Nodup := e ▸ hn
  have hidx : ∀ t ∈ A ++ tag x :: B, ((A ++ tag x :: B).idxOf (tag x) ≤ (A ++ tag x :: B).idxOf t ↔
      t ∈ tag x :: B) := by
    intro t ht
    rw [idxOf_append_right hA]
    by_cases h : t ∈ A
    · have h2 : t ∉ tag x :: B := fun hB => (List.nodup_append.mp hn').2.2 _ h _ hB rfl
      have := idxOf_append_left (B := tag x :: B) h
      simp only [h2, iff_false]; omega
    · rw [idxOf_append_right h]
      have : t ∈ tag x :: B := (List.mem_append.mp ht).resolve_left h
      simp only [this, iff_true, List.idxOf_cons_self]; omega
  have hfp := firstPresent_spec tag A (tag x :: B) hn' l
  simp only at hfp
  have hblock := (blockLen_spec tag hn' l)
  unfold insertPositionBefore tagAndSuccessors
  rw [hd]
  simp only [hx, not_true_eq_false, if_false]
  subst e
  rw [hfp]
  by_cases hex : ∃ y ∈ l.take (blockLen tag (A ++ tag x :: B) l), tag y ∈ tag x :: B
  · simp only [hex, if_true]
    have := blockLen_insert_border tag hn' l (x := x) (by simp) (by
        intro a ha
        have := idxOf_append_left (B := tag x :: B) ha
        rw [idxOf_append_right hA]; omega) (by
        intro a ha
        exact (hidx a (by simp at ha ⊢; tauto)).mpr ha)
    refine ⟨_, rfl, this.1, ?_⟩
    simp only [this.2, true_iff]
    right
    obtain ⟨y, hy, hyS⟩ := hex
    exact ⟨y, hy, (hidx _ (by simp at hyS ⊢; tauto)).mpr hyS⟩
  · simp only [hex, if_false]
    refine ⟨0, rfl, by omega, ?_⟩
    rw [lxmlInsert_nat l 0 (by omega)]
    simp only [List.take_zero, List.nil_append, List.drop_zero]
    rw [blockLen_insert_front tag hn' l x (by simp)]
    constructor
    · intro h
      left
      by_contra hne
      have hl : l.take (blockLen tag (A ++ tag x :: B) l) ≠ [] := by
        intro h0
        have := congrArg List.length h0
        rw [List.length_take, List.length_nil] at this
        have := hblock.1
        omega
      obtain ⟨y, hy⟩ := List.exists_mem_of_ne_nil _ hl
      exact hex ⟨y, hy, (hidx _ (hblock.2.1.1 y hy)).mp (h y hy)⟩
    · rintro (h | ⟨y, hy, h⟩)
      · intro y hy
        rw [h] at hy; simp at hy
      · exact absurd ⟨y, hy, (hidx _ (hblock.2.1.1 y hy)).mp h⟩ hex

/-- C37, `insert_position_after(tag)`: the block becomes one longer exactly when the tag is the
last one, or the block contains a later tag, or it contains nothing but the tag itself. -/
theorem C37_after_partial {tags : List τ} (hn : tags.Nodup) (l : List α) (x : α) (hx : tag x ∈ tags) :
    ∃ p : Nat, insertPositionAfter tag tags l (some (tag x)) = .ok (p : Int) ∧
      p ≤ blockLen tag tags l ∧
      (blockLen tag tags (lxmlInsert l p x) = blockLen tag tags l + 1 ↔
        tags.getLast? = some (tag x) ∨
        (∃ y ∈ l.take (blockLen tag tags l), tags.idxOf (tag x) < tags.idxOf (tag y)) ∨
        ∀ y ∈ l.take (blockLen tag tags l), tag y = tag x) := by
  obtain ⟨A, B, e, hA, hd⟩ := split_at hx
  have hn' : (A ++ tag x :: B).Nodup := e ▸ hn
  have hblock := (blockLen_spec tag hn l)
  unfold insertPositionAfter
  simp only [hx, not_true_eq_false, if_false]
  by_cases hlast : tags.getLast? = some (tag x)
  · simp only [hlast, if_true, true_or, iff_true]
    refine ⟨blockLen tag tags l, rfl, Nat.le_refl _, ?_⟩
    rw [lxmlInsert_nat l _ hblock.1]
    apply (blockLen_insert tag hn l _ (Nat.le_refl _) x).2
    have h1 : (l.take (blockLen tag tags l)).take (blockLen tag tags l) = l.take (blockLen tag tags l) := by
      rw [List.take_take, Nat.min_self]
    have h2 : (l.take (blockLen tag tags l)).drop (blockLen tag tags l) = [] := by
      apply List.drop_eq_nil_of_le; simp; omega
    rw [h1, h2]
    refine ⟨?_, ?_⟩
    · intro y hy
      rcases List.mem_append.mp hy with h | h
      · exact hblock.2.1.1 y h
      · simp at h; rw [h]; exact hx
    · rw [List.pairwise_append]
      refine ⟨hblock.2.1.2, by simp, ?_⟩
      intro a ha b hb
      simp at hb; subst hb
      -- the last tag has the largest index
      have hB : B = [] := by
        by_contra hB
        rw [e] at hlast
        rw [List.getLast?_append, List.getLast?_cons] at hlast
        simp at hlast
        have hm : tag b ∈ B := by
          cases hB' : B.getLast? with
          | none => simp at hB'; exact absurd hB' hB
          | some z => rw [hB'] at hlast; simp at hlast; subst hlast; exact List.mem_of_getLast? hB'
        exact (List.nodup_cons.mp (List.nodup_append.mp hn').2.1).1 hm
      subst hB
      have := List.idxOf_lt_length_of_mem (hblock.2.1.1 a ha)
      rw [e] at this ⊢
      rw [idxOf_append_right hA]
      simp at this ⊢
      omega
  · simp only [hlast, if_false, false_or]
    cases hB : B with
    | nil =>
      exfalso; apply hlast
      rw [e, hB]; simp
    | cons s B' =>
      subst hB
      have hsucc : successorTag tags (tag x) = some s := by
        unfold successorTag tagAndSuccessors; rw [hd]; rfl
      rw [hsucc]
      have hsplit : tags = (A ++ [tag x]) ++ (s :: B') := by rw [e]; simp
      have hn2 : ((A ++ [tag x]) ++ (s :: B')).Nodup := hsplit ▸ hn
      have hsA : s ∉ A ++ [tag x] := fun h => (List.nodup_append.mp hn2).2.2 _ h _ (by simp) rfl
      have hsin : s ∈ tags := by rw [hsplit]; simp
      have hd2 : tags.dropWhile (fun u => decide (u ≠ s)) = s :: B' := by
        obtain ⟨A2, B2, e2, hA2, hd2⟩ := split_at hsin
        rw [hd2]
        have : (A ++ [tag x]) ++ s :: B' = A2 ++ s :: B2 := by rw [← hsplit, e2]
        have hlen : (A ++ [tag x]).length = A2.length := by
          have i1 := idxOf_append_right (B := s :: B') hsA
          have i2 := idxOf_append_right (B := s :: B2) hA2
          rw [this, i2] at i1
          simpa using i1.symm
        exact (List.append_inj this hlen).2.symm
      have hfp := firstPresent_spec tag (A ++ [tag x]) (s :: B') hn2 l
      simp only at hfp
      unfold insertPositionBefore tagAndSuccessors
      simp only [hsin, not_true_eq_false, if_false]
      rw [hd2]
      rw [← hsplit] at hfp
      rw [hfp]
      have hxA : (tags.idxOf (tag x)) = A.length := by
        rw [e, idxOf_append_right hA]; simp
      have hidx : ∀ t ∈ tags, (tags.idxOf (tag x) < tags.idxOf t ↔ t ∈ s :: B') := by
        intro t ht
        rw [hxA]
        rw [hsplit] at ht ⊢
        by_cases h : t ∈ A ++ [tag x]
        · have h2 : t ∉ s :: B' := fun hB => (List.nodup_append.mp hn2).2.2 _ h _ hB rfl
          have := idxOf_append_left (B := s :: B') h
          simp only [h2, iff_false]
          simp only [List.length_append, List.length_singleton] at this
          omega
        · rw [idxOf_append_right h]
          have : t ∈ s :: B' := (List.mem_append.mp ht).resolve_left h
          simp only [this, iff_true, List.length_append, List.length_singleton]; omega
      by_cases hex : ∃ y ∈ l.take (blockLen tag tags l), tag y ∈ s :: B'
      · simp only [hex, if_true]
        have hborder := blockLen_insert_border tag hn2 l (x := x) (by simp) (by
            intro a ha
            have := idxOf_append_left (B := s :: B') ha
            rw [← hsplit] at this ⊢
            rw [hxA]
            simp only [List.length_append, List.length_singleton] at this
            omega) (by
            intro a ha
            rw [← hsplit]
            exact Nat.le_of_lt ((hidx a (by rw [hsplit]; simp at ha ⊢; tauto)).mpr ha))
        simp only [← hsplit] at hborder
        refine ⟨_, rfl, hborder.1, ?_⟩
        simp only [hborder.2, true_iff]
        left
        obtain ⟨y, hy, hyS⟩ := hex
        exact ⟨y, hy, (hidx _ (hblock.2.1.1 y hy)).mpr hyS⟩
      · simp only [hex, if_false]
        refine ⟨0, rfl, by omega, ?_⟩
        rw [lxmlInsert_nat l 0 (by omega)]
        simp only [List.take_zero, List.nil_append, List.drop_zero]
        rw [blockLen_insert_front tag hn l x hx]
        constructor
        · intro h
          right
          intro y hy
          have hym := hblock.2.1.1 y hy
          have h1 := h y hy
          have h2 : ¬ tags.idxOf (tag x) < tags.idxOf (tag y) := fun hlt =>
            hex ⟨y, hy, (hidx _ hym).mp hlt⟩
          exact idxOf_inj' hym (by omega)
        · rintro (⟨y, hy, h⟩ | h)
          · exact absurd ⟨y, hy, (hidx _ (hblock.2.1.1 y hy)).mp h⟩ hex
          · intro y hy
            rw [h y hy]
            exact Nat.le_refl _

/-- The epilogue block works on the reversed lists. -/
theorem epilogueFirstPresent_eq (rtags : List τ) (l : List α) (ts : List τ) :
    epilogueFirstPresent tag rtags l ts =
      (firstPresent tag rtags l.reverse ts).map (fun p => (l.length : Int) - p) := by
  induction ts with
  | nil => simp [epilogueFirstPresent, firstPresent, Except.map]
  | cons t ts ih =>
    rw [epilogueFirstPresent, firstPresent]
    cases h : tagInfo tag rtags l.reverse t with
    | error e => rfl
    | ok pc =>
      obtain ⟨pos, count⟩ := pc
      by_cases hc : 0 < count
      · simp [hc, Except.map]
      · simp only [hc, if_false]; exact ih

theorem lxmlInsert_reverse (l : List α) (p : Nat) (hp : p ≤ l.length) (x : α) :
    (lxmlInsert l ((l.length : Int) - p) x).reverse = lxmlInsert l.reverse (p : Int) x := by
  rw [lxmlInsert_nat l.reverse p (by simpa using hp),
    show (l.length : Int) - p = ((l.length - p : Nat) : Int) by omega,
    lxmlInsert_nat l (l.length - p) (by omega)]
  rw [List.reverse_append, List.reverse_cons, List.reverse_take, List.reverse_drop,
    show l.length - (l.length - p) = p by omega]
  simp

/-- C37 for the epilogue block, `insert_position_after(tag)`: exactly one longer iff the block is
empty or contains the tag or a predecessor of it. -/
theorem C37_epilogue_after_partial {tags : List τ} (hn : tags.Nodup) (l : List α) (x : α)
    (hx : tag x ∈ tags) :
    ∃ p : Nat, epilogueInsertPositionAfter tag tags l (tag x) = .ok (p : Int) ∧ p ≤ l.length ∧
      l.length - epilogueLen tag tags l ≤ p ∧
      (epilogueLen tag tags (lxmlInsert l p x) = epilogueLen tag tags l + 1 ↔
        epilogueLen tag tags l = 0 ∨
        ∃ y ∈ l.drop (l.length - epilogueLen tag tags l), tags.idxOf (tag y) ≤ tags.idxOf (tag x)) := by
  have hnr : tags.reverse.Nodup := List.nodup_reverse.mpr hn
  obtain ⟨q, h1, h2, h3⟩ := C37_before_partial tag hnr l.reverse x (by simpa using hx)
  have hq : q ≤ l.length := by
    have := (blockLen_spec tag hnr l.reverse).1
    rw [List.length_reverse] at this; omega
  refine ⟨l.length - q, ?_, by omega, ?_, ?_⟩
  · unfold insertPositionBefore at h1
    unfold epilogueInsertPositionAfter
    have hx' : tag x ∈ tags.reverse := by simpa using hx
    simp only [hx', not_true_eq_false, if_false] at h1 ⊢
    rw [epilogueFirstPresent_eq, h1]
    simp only [Except.map]
    congr 1; omega
  · have : blockLen tag tags.reverse l.reverse = epilogueLen tag tags l := rfl
    omega
  · have e1 : epilogueLen tag tags (lxmlInsert l ((l.length - q : Nat) : Int) x) =
        blockLen tag tags.reverse (lxmlInsert l.reverse (q : Int) x) := by
      rw [show ((l.length - q : Nat) : Int) = (l.length : Int) - q by omega]
      unfold epilogueLen
      rw [lxmlInsert_reverse l q hq]
    rw [e1]
    change _ = blockLen tag tags.reverse l.reverse + 1 ↔ _
    rw [h3]
    have hblk := (epilogueLen_spec tag hn l)
    apply or_congr Iff.rfl
    have hrev : l.reverse.take (blockLen tag tags.reverse l.reverse) =
        (l.drop (l.length - epilogueLen tag tags l)).reverse := by
      rw [List.reverse_drop]
      congr 1
      have := hblk.1
      change epilogueLen tag tags l = _
      omega
    rw [hrev]
    constructor
    · rintro ⟨y, hy, h⟩
      rw [List.mem_reverse] at hy
      have hym := hblk.2.1.1 y hy
      refine ⟨y, hy, ?_⟩
      rw [idxOf_reverse' hn hx, idxOf_reverse' hn hym] at h
      have a := List.idxOf_lt_length_of_mem hym
      have b := List.idxOf_lt_length_of_mem hx
      omega
    · rintro ⟨y, hy, h⟩
      have hym := hblk.2.1.1 y hy
      refine ⟨y, by simpa using hy, ?_⟩
      rw [idxOf_reverse' hn hx, idxOf_reverse' hn hym]
      omega

/-- C37 is false in general: with only predecessors present, position 0 is returned and the
inserted element cuts the block. -/
theorem C37_before_refuted :
    insertPositionBefore (fun x : Char => x) ['a', 'b'] ['a'] 'b' = .ok 0 ∧
    blockLen (fun x : Char => x) ['a', 'b'] ['a'] = 1 ∧
    blockLen (fun x : Char => x) ['a', 'b'] (lxmlInsert ['a'] 0 'b') = 1 := by decide +kernel

/-- C37 is false in general for `insert_position_after` too. -/
theorem C37_after_refuted :
    insertPositionAfter (fun x : Char => x) ['a', 'b', 'c'] ['a'] (some 'b') = .ok 0 ∧
    blockLen (fun x : Char => x) ['a', 'b', 'c'] (lxmlInsert ['a'] 0 'b') = 1 := by decide +kernel

example : insertPositionBefore (fun x : Char => x) ['a', 'b', 'c'] ['a', 'a', 'c'] 'b' = .ok 2 ∧
    blockLen (fun x : Char => x) ['a', 'b', 'c'] (lxmlInsert ['a', 'a', 'c'] 2 'b') = 4 := by decide +kernel

end Verif.Org
