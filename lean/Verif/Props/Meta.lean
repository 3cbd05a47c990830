import Verif.Proofs.MetaAbs
/-! # C43-C47: meta data -/
namespace Verif.Meta
open Verif
set_option linter.unusedSimpArgs false

/-! ## C43: editing cycles -/

/-- The stored number of editing cycles; a missing or non-numeric entry counts as 0. -/
def cycles (m : Meta) : Int :=
  match getitem "editing-cycles" m with
  | .ok (some s) => (pyInt s).getD 0
  | _ => 0

theorem cycles_abs (m : Meta) : cycles m = cyclesOf ((abs m).tag "editing-cycles") := by
  unfold cycles
  cases h : getitem "editing-cycles" m with
  | error e =>
    have : (abs m).tag "editing-cycles" = none := by simp only [abs, h]
    rw [this]; rfl
  | ok v =>
    have : (abs m).tag "editing-cycles" = some v := by simp only [abs, h]
    rw [this]
    cases v <;> rfl

/-- What a program may do with the meta data without assigning the editing cycles itself. -/
def Op.leavesCycles : Op → Prop
  | .set k _ => k ≠ "editing-cycles"
  | .clear => False
  | _ => True

/-- Every save of the history succeeds. -/
def AllSaved (m : Meta) : List Op → Prop
  | [] => True
  | .save now gen r :: h => (save now gen r m).2 = .ok () ∧ AllSaved (save now gen r m).1 h
  | o :: h => AllSaved (step m o) h

def Op.isSave : Op → Bool
  | .save _ _ _ => true
  | _ => false

theorem updateCounts_tag (d : Dict String Int) (a : Abs) : (updateCounts d a).tag = a.tag ∧
    (updateCounts d a).keywords = a.keywords ∧ (updateCounts d a).user = a.user := by
  induction d generalizing a with
  | nil => exact ⟨rfl, rfl, rfl⟩
  | cons p d ih =>
    obtain ⟨k, n⟩ := p
    unfold updateCounts
    split
    · exact ih _
    · exact ⟨rfl, rfl, rfl⟩

theorem cycles_other (a : Abs) (o : Op) (h : o.leavesCycles) (hs : o.isSave = false) :
    (specStep a o).tag "editing-cycles" = a.tag "editing-cycles" := by
  cases o with
  | set k v =>
    simp only [Op.leavesCycles] at h
    simp [specStep, setTag, Ne.symm h]
  | clear => exact absurd h id
  | save _ _ _ => cases hs
  | kwAdd k => simp only [specStep]; split <;> rfl
  | statSet k n => simp only [specStep]; split <;> rfl
  | statUpdate d => simp only [specStep]; rw [(updateCounts_tag d a).1]
  | _ => rfl

theorem cycles_touched (a : Abs) (now gen : Str) :
    (setTag "generator" (some gen) (setTag "date" (some now) a)).tag "editing-cycles" =
      a.tag "editing-cycles" := by
  simp [setTag]

theorem cycles_save (a : Abs) (now gen : Str) (r : Except Exc Unit) :
    (specStep a (.save now gen r)).tag "editing-cycles" =
      if a.tag "editing-cycles" = some none then some none
      else some (some (intStr (cyclesOf (a.tag "editing-cycles") + 1))) := by
  simp only [specStep, cycles_touched]
  split
  · rename_i h; rw [cycles_touched, h]
  · have : "editing-cycles" ∈ KEYS := by decide
    simp [setTag, this]

theorem save_ok_iff {m : Meta} (hm : WF m) (now gen : Str) (r : Except Exc Unit) :
    (save now gen r m).2 =
      if (abs m).tag "editing-cycles" = some none then .error .TypeError else r := by
  have h1 := abs_set hm "date" (some now)
  have h2 := abs_set h1.1 "generator" (some gen)
  have ht : (abs (touch now gen m).1).tag "editing-cycles" = (abs m).tag "editing-cycles" := by
    rw [touch_eq]; simp only; rw [h2.2, h1.2, cycles_touched]
  rw [save_eq]
  simp only [ht]
  split <;> rfl

/-- C43: a successful save raises the stored number by one, whatever was stored. -/
theorem C43_save (m : Meta) (hm : WF m) (now gen : Str) (r : Except Exc Unit)
    (h : (save now gen r m).2 = .ok ()) : cycles (save now gen r m).1 = cycles m + 1 := by
  rw [cycles_abs, cycles_abs, (abs_save hm now gen r).2, cycles_save]
  rw [save_ok_iff hm] at h
  split
  · rename_i hc; rw [if_pos hc] at h; cases h
  · simp [cyclesOf, pyInt_intStr]

/-- C43: n successful saves raise the stored number by n, also with any other use of the meta data in
between that does not assign the number itself. -/
theorem C43_saves (m : Meta) (hm : WF m) (h : List Op) (hl : ∀ o ∈ h, o.leavesCycles)
    (hs : AllSaved m h) : cycles (run m h) = cycles m + (h.countP Op.isSave : Nat) := by
  induction h generalizing m with
  | nil => simp [run]
  | cons o h ih =>
    have hl' : ∀ o ∈ h, o.leavesCycles := fun o ho => hl o (List.mem_cons_of_mem _ ho)
    have ho := hl o List.mem_cons_self
    have hw := abs_step hm o
    show cycles (run (step m o) h) = _
    rw [List.countP_cons]
    cases hsv : o.isSave with
    | true =>
      cases o with
      | save now gen r =>
        simp only [AllSaved] at hs
        rw [ih _ hw.1 hl' hs.2]
        show cycles (save now gen r m).1 + _ = _
        rw [C43_save m hm now gen r hs.1]
        simp; omega
      | _ => cases hsv
    | false =>
      have hs' : AllSaved (step m o) h := by
        cases o <;> first | exact hs | cases hsv
      rw [ih _ hw.1 hl' hs', cycles_abs (step m o), hw.2, cycles_other _ _ ho hsv, ← cycles_abs]
      simp

/-- C43, exactly when saving is impossible: an entry without text (not merely missing or
non-numeric) makes every save raise TypeError. -/
theorem C43_empty (m : Meta) (hm : WF m) (now gen : Str) (r : Except Exc Unit) :
    (save now gen r m).2 =
      if getitem "editing-cycles" m = .ok none then .error .TypeError else r := by
  rw [save_ok_iff hm]
  have : ((abs m).tag "editing-cycles" = some none) ↔ getitem "editing-cycles" m = .ok none := by
    simp only [abs]
    cases getitem "editing-cycles" m <;> simp
  by_cases h : getitem "editing-cycles" m = .ok none
  · rw [if_pos h, if_pos (this.2 h)]
  · rw [if_neg h, if_neg (fun h' => h (this.1 h'))]

/-! ## C44: metatags -/

/-- C44: assigning a metatag makes it read the value and leaves all other entries unchanged. -/
theorem C44_set (m : Meta) (hm : WF m) (key : String) (hk : key ∈ KEYS) (v : Option Str) :
    (setitem key v m).2 = .ok () ∧
    getitem key (setitem key v m).1 = .ok v ∧
    (∀ key', key' ≠ key → getitem key' (setitem key v m).1 = getitem key' m) ∧
    keywords (setitem key v m).1 = keywords m ∧
    userIter (setitem key v m).1 = userIter m ∧
    (∀ n, userTypeof n (setitem key v m).1 = userTypeof n m) ∧
    (∀ k, statGet k (setitem key v m).1 = statGet k m) ∧
    statIter (setitem key v m).1 = statIter m := by
  rw [mem_KEYS] at hk
  obtain ⟨tag, hk⟩ := Option.isSome_iff_exists.1 hk
  have hs := setitem_spec hm hk v
  have hf := frame_setitem hm hk v
  have hne := TAGS_ne' hk
  have hu := hf.other _ (Ne.symm hne.2.1)
  have hst := stat_frame hm hf (Ne.symm hne.2.2)
  refine ⟨hs.1, ?_, ?_, kw_frame hf (Ne.symm hne.1), ?_, ?_, fun k => statGet_congr hst k, ?_⟩
  · obtain ⟨t, r, h1, h2⟩ := hs.2.2.2.2
    rw [getitem_eq, hk]
    simp only [h1, List.head?_cons, h2]
  · intro key' hne'
    cases hg : TAGS.get key' with
    | none => rw [getitem_none hg, getitem_none hg]
    | some t =>
      refine getitem_congr hg (hf.other t fun e => hne' ?_)
      subst e; exact TAGS_inj' hg hk
  · unfold userIter; rw [hu]
  · intro n; unfold userTypeof userFind; rw [hu]
  · unfold statIter; rw [hst]

/-- C44: reading raises KeyError exactly if no entry of that tag is stored, and unknown keys can be
neither read nor assigned. -/
theorem C44_unset (m : Meta) (key : String) :
    (getitem key m = .error .KeyError ↔
      ∀ tag, TAGS.get key = some tag → ∀ t ∈ m.kids, t.1.tag ≠ tag) ∧
    (key ∉ KEYS → getitem key m = .error .KeyError ∧ ∀ v, setitem key v m = (m, .error .KeyError)) := by
  constructor
  · rw [getitem_eq]
    cases hg : TAGS.get key with
    | none => simp
    | some tag =>
      simp only [Option.some.injEq]
      cases hf : findall tag m.kids with
      | nil =>
        simp only [List.head?_nil, true_iff]
        rintro _ rfl t ht htag
        have : t ∈ findall tag m.kids := mem_findall.2 ⟨ht, htag⟩
        rw [hf] at this; cases this
      | cons t r =>
        have := mem_findall.1 (show t ∈ findall tag m.kids by rw [hf]; exact List.mem_cons_self)
        simp only [List.head?_cons]
        constructor
        · intro h; cases h
        · intro h; exact absurd this.2 (h tag rfl t this.1)
  · intro hk
    rw [mem_KEYS] at hk
    have : TAGS.get key = none := by
      cases h : TAGS.get key with
      | none => rfl
      | some t => rw [h] at hk; exact absurd rfl hk
    exact ⟨getitem_none this m, fun v => setitem_unknown this v m⟩

/-- C44: `clear` removes everything. -/
theorem C44_clear (m : Meta) :
    (∀ key, getitem key (clear m) = .error .KeyError) ∧ keywords (clear m) = [] ∧
    userIter (clear m) = [] ∧ statIter (clear m) = .ok [] ∧
    (∀ k ∈ COUNTS, statGet k (clear m) = .ok 0) ∧ (clear m).node.attrs = [] := by
  have hfa : ∀ tag, tag ≠ "meta:document-statistic" → findall tag (clear m).kids = [] := by
    intro tag h
    simp [findall, clear, Ne.symm h]
  have hs : statAttrs (clear m) = [] := by simp [statAttrs, clear]
  refine ⟨fun key => ?_, ?_, ?_, ?_, fun k hk => ?_, rfl⟩
  · rw [getitem_eq]
    cases hg : TAGS.get key with
    | none => rfl
    | some tag => simp only [hfa tag (TAGS_ne' hg).2.2]; rfl
  · unfold keywords; rw [hfa _ (by decide)]; rfl
  · unfold userIter; rw [hfa _ (by decide)]; rfl
  · unfold statIter; rw [hs]; rfl
  · unfold statGet; rw [hs, if_pos (show k ∈ TYPES from hk)]; rfl

/-- C44: after any history of operations on the meta data everything that can be read is what four
independent variables hold. -/
theorem C44_history (m : Meta) (hm : WF m) (h : List Op) : abs (run m h) = spec (abs m) h :=
  abs_run hm h

/-! ## C45: keywords -/

/-- Specification: the keywords in order of addition -/
def kwSpec (l : List (Option Str)) : List Op → List (Option Str)
  | [] => l
  | .kwAdd k :: h => kwSpec (if some k ∈ l then l else l ++ [some k]) h
  | .kwRemove k :: h => kwSpec (l.filter (· ≠ some k)) h
  | .kwClear :: h => kwSpec [] h
  | .clear :: h => kwSpec [] h
  | _ :: h => kwSpec l h

/-- Specification: was `k` added after the last removal? -/
def kwHolds (k : Str) (b : Bool) : List Op → Bool
  | [] => b
  | .kwAdd k' :: h => kwHolds k (b || k' = k) h
  | .kwRemove k' :: h => kwHolds k (b && k' ≠ k) h
  | .kwClear :: h => kwHolds k false h
  | .clear :: h => kwHolds k false h
  | _ :: h => kwHolds k b h

theorem erase_eq_filter {l : List (Option Str)} (h : l.Nodup) (x : Option Str) :
    l.erase x = l.filter (· ≠ x) := by
  rw [List.Nodup.erase_eq_filter h]
  apply List.filter_congr
  intro a _
  rw [Bool.eq_iff_iff]; simp

theorem nodup_snoc {l : List (Option Str)} (h : l.Nodup) {x : Option Str} (hx : x ∉ l) :
    (l ++ [x]).Nodup := by
  rw [List.nodup_append]
  refine ⟨h, by simp, ?_⟩
  intro a ha b hb e
  simp at hb
  subst hb; subst e; exact hx ha

theorem kw_step (a : Abs) (o : Op) (h : List Op) (hn : a.keywords.Nodup) :
    (specStep a o).keywords.Nodup ∧ kwSpec (specStep a o).keywords h = kwSpec a.keywords (o :: h) := by
  cases o with
  | kwAdd k =>
    simp only [specStep, kwSpec]
    by_cases hk : some k ∈ a.keywords
    · simp [hk, hn]
    · simp only [hk, if_false]; exact ⟨nodup_snoc hn hk, trivial⟩
  | kwRemove k =>
    simp only [specStep, kwSpec]
    rw [erase_eq_filter hn]
    exact ⟨hn.filter _, rfl⟩
  | kwClear => exact ⟨List.nodup_nil, rfl⟩
  | clear => exact ⟨List.nodup_nil, rfl⟩
  | statSet k n => simp only [specStep, kwSpec]; split <;> exact ⟨hn, rfl⟩
  | statUpdate d => simp only [specStep, kwSpec]; rw [(updateCounts_tag d a).2.1]; exact ⟨hn, rfl⟩
  | save now gen r =>
    have : (specStep a (.save now gen r)).keywords = a.keywords := by
      simp only [specStep]; split <;> rfl
    rw [this]; exact ⟨hn, rfl⟩
  | _ => exact ⟨hn, rfl⟩

theorem kw_run (a : Abs) (h : List Op) (hn : a.keywords.Nodup) :
    (spec a h).keywords.Nodup ∧ (spec a h).keywords = kwSpec a.keywords h := by
  induction h generalizing a with
  | nil => exact ⟨hn, rfl⟩
  | cons o h ih =>
    have h1 := kw_step a o h hn
    have h2 := ih (specStep a o) h1.1
    exact ⟨h2.1, h2.2.trans h1.2⟩

/-- C45: iteration yields each keyword once, in order of addition. -/
theorem C45_iter (m : Meta) (hm : WF m) (hn : (keywords m).Nodup) (h : List Op) :
    (keywords (run m h)).Nodup ∧ keywords (run m h) = kwSpec (keywords m) h := by
  have := kw_run (abs m) h hn
  rw [← abs_run hm h] at this
  exact this

theorem kwSpec_mem (l : List (Option Str)) (h : List Op) (k : Str) :
    decide (some k ∈ kwSpec l h) = kwHolds k (decide (some k ∈ l)) h := by
  induction h generalizing l with
  | nil => rfl
  | cons o h ih =>
    cases o with
    | kwAdd k' =>
      refine (ih _).trans ?_
      simp only [kwHolds]
      congr 1
      by_cases hk : some k' ∈ l
      · by_cases he : k' = k
        · subst he; simp [hk]
        · simp [hk, he]
      · by_cases he : k' = k
        · subst he; simp [hk]
        · simp [hk, he, Ne.symm he]
    | kwRemove k' =>
      refine (ih _).trans ?_
      simp only [kwHolds]
      congr 1
      rw [Bool.eq_iff_iff]
      simp only [decide_eq_true_eq, List.mem_filter, Bool.and_eq_true]
      constructor
      · rintro ⟨h1, h2⟩; exact ⟨h1, fun e => by subst e; exact h2 rfl⟩
      · rintro ⟨h1, h2⟩; exact ⟨h1, fun e => h2 (by injection e with e; exact e.symm)⟩
    | _ => exact ih _

/-- C45: a keyword is contained exactly if it was added after the last removal or clearing (or was
there at first and never removed). -/
theorem C45_contains (m : Meta) (hm : WF m) (hn : (keywords m).Nodup) (h : List Op) (k : Str) :
    kwContains k (run m h) = kwHolds k (kwContains k m) h := by
  have hc : ∀ m, kwContains k m = decide (some k ∈ keywords m) := by
    intro m
    unfold kwContains
    rw [Bool.eq_iff_iff, kwFind_isSome]; simp
  rw [hc, hc, (C45_iter m hm hn h).2, kwSpec_mem]

/-- C45: the operations on keywords change nothing else. -/
theorem C45_frame (m : Meta) (hm : WF m) (k : Str) (m' : Meta)
    (h : m' = kwAdd k m ∨ m' = kwRemove k m ∨ m' = kwClear m) :
    m'.node = m.node ∧ m'.stats = m.stats ∧
    m'.kids.filter (fun t => t.1.tag ≠ "meta:keyword") =
      m.kids.filter (fun t => t.1.tag ≠ "meta:keyword") := by
  rcases h with rfl | rfl | rfl
  · unfold kwAdd
    split
    · refine ⟨rfl, rfl, ?_⟩
      simp [append]
    · exact ⟨rfl, rfl, rfl⟩
  · unfold kwRemove
    split
    · exact ⟨rfl, rfl, rfl⟩
    · rename_i t hf
      have ht := kwFind_mem hf
      refine ⟨rfl, rfl, ?_⟩
      simp only
      rw [removeNode_eq hm.nodup, List.filter_filter]
      apply List.filter_congr
      intro a ha
      by_cases h1 : a.1.tag = "meta:keyword"
      · simp [h1]
      · have : a.1.id ≠ t.1.id := fun e => h1 (by rw [eq_of_id hm.nodup ha ht.1 e]; exact ht.2)
        simp [h1, this]
  · refine ⟨rfl, rfl, ?_⟩
    unfold kwClear
    simp only
    rw [clearTag _ _ hm.nodup, List.filter_filter]
    apply List.filter_congr
    intro a _
    simp

end Verif.Meta
