import Verif.Props.Meta
/-! # C46: user tags, C47: statistics -/
namespace Verif.Meta
open Verif
set_option linter.unusedSimpArgs false

/-! ## C46: user tags -/

/-- Specification: a dictionary from names to value and declared type -/
abbrev UDict := Str → Option (Option Str × Option Str)

/-- An assignment without type keeps the type declared before. -/
def uset (n v : Str) (ty : Option Str) (f : UDict) : UDict := fun n' =>
  if n' = n then some (some v, ty.or ((f n).bind Prod.snd)) else f n'

def uSpec (f : UDict) : Op → UDict
  | .userSet n v ty => uset n v ty f
  | .userDel n => fun n' => if n' = n then none else f n'
  | .userUpdate d => d.foldl (fun f p => uset p.1 p.2 none f) f
  | .userClear => fun _ => none
  | .clear => fun _ => none
  | _ => f

/-- No name is stored twice. -/
def NoDupNames (m : Meta) : Prop := ∀ n : Str, (userIter m).countP (fun e => e.1 = some n) ≤ 1

/-- What the interface reads: value and type of a name -/
def reads (m : Meta) : UDict := fun n =>
  match userFind n m with
  | none => none
  | some t => some (t.1.text, t.1.get "meta:value-type")

abbrev UEntry := Option Str × Option Str × Option Str

def look (l : List UEntry) : UDict := fun n => (l.find? fun e => some n = e.1).map Prod.snd

def cnt (n : Str) (l : List UEntry) : Nat := l.countP fun e => e.1 = some n

theorem reads_eq (m : Meta) : reads m = look (entries m) := by
  funext n
  unfold reads look
  rw [← userFind_entry]
  cases userFind n m <;> rfl

theorem cnt_eq (m : Meta) (n : Str) :
    (userIter m).countP (fun e => e.1 = some n) = cnt n (entries m) := by
  unfold cnt userIter entries
  rw [List.countP_map, List.countP_map]
  rfl

theorem look_cons (e : UEntry) (l : List UEntry) (n : Str) :
    look (e :: l) n = if e.1 = some n then some e.2 else look l n := by
  unfold look
  by_cases h : e.1 = some n
  · simp [h]
  · have : ¬ some n = e.1 := fun e => h e.symm
    simp [h, this]

theorem look_upsert (n v : Str) (ty : Option Str) (l : List UEntry) :
    look (upsert n v ty l) = uset n v ty (look l) := by
  funext n'
  induction l with
  | nil =>
    unfold upsert uset
    rw [look_cons]
    by_cases h : n' = n
    · subst h; simp [look]
    · simp [h, Ne.symm h, look]
  | cons e r ih =>
    unfold upsert
    by_cases he : e.1 = some n
    · rw [if_pos he, look_cons]
      unfold uset
      by_cases h : n' = n
      · subst h; simp [look_cons, he]
      · simp [h, Ne.symm h, look_cons, he]
    · rw [if_neg he, look_cons, ih]
      unfold uset
      by_cases h : n' = n
      · subst h; simp [look_cons, he]
      · simp [h, look_cons]

theorem look_none {l : List UEntry} {n : Str} (h : cnt n l = 0) : look l n = none := by
  unfold look cnt at *
  rw [List.countP_eq_zero] at h
  rw [List.find?_eq_none.2]
  · rfl
  · intro e he hc
    simp at hc
    exact h e he (by simpa using hc.symm)

theorem look_erase (n : Str) (l : List UEntry) (h : cnt n l ≤ 1) :
    look (l.eraseP fun e => some n = e.1) = fun n' => if n' = n then none else look l n' := by
  funext n'
  induction l with
  | nil => simp [look]
  | cons e r ih =>
    unfold cnt at h ih
    rw [List.countP_cons] at h
    by_cases he : some n = e.1
    · rw [List.eraseP_cons_of_pos (by simpa using he)]
      have h0 : cnt n r = 0 := by
        unfold cnt; rw [if_pos (by simpa using he.symm)] at h; omega
      by_cases hn : n' = n
      · subst hn; rw [if_pos rfl]; exact look_none h0
      · rw [if_neg hn, look_cons, if_neg]
        rw [← he]; intro e'; exact hn (by injection e' with e'; exact e'.symm)
    · rw [List.eraseP_cons_of_neg (by simpa using he), look_cons, look_cons, ih (by omega)]
      by_cases hn : n' = n
      · subst hn
        rw [if_neg (fun e => he e.symm), if_pos rfl, if_pos rfl]
      · simp [hn]

theorem cnt_upsert (n v : Str) (ty : Option Str) (l : List UEntry) (n' : Str)
    (h : cnt n' l ≤ 1) : cnt n' (upsert n v ty l) ≤ 1 := by
  unfold cnt at *
  induction l with
  | nil => simp only [upsert]; exact Nat.le_trans List.countP_le_length (by simp)
  | cons e r ih =>
    unfold upsert
    rw [List.countP_cons] at h
    split
    · rename_i he
      rw [List.countP_cons]
      simp only [he] at h
      exact h
    · rename_i he
      rw [List.countP_cons]
      by_cases hn : e.1 = some n'
      · rw [if_pos (by simpa using hn)] at h ⊢
        have h0 : r.countP (fun e => decide (e.1 = some n')) = 0 := by omega
        have hne : n' ≠ n := fun e => he (by rw [hn, e])
        have : (upsert n v ty r).countP (fun e => decide (e.1 = some n')) = 0 := by
          clear ih h hn he
          induction r with
          | nil => simp [upsert, Ne.symm hne]
          | cons e r ih =>
            rw [List.countP_cons] at h0
            unfold upsert
            split
            · rw [List.countP_cons]
              rename_i he
              simp only [he] at h0
              simpa [Ne.symm hne] using h0
            · rw [List.countP_cons, ih (by omega)]; omega
        exact Nat.le_of_eq (congrArg (· + 1) this)
      · rw [if_neg (by simpa using hn)] at h ⊢
        exact ih (by omega)

theorem cnt_fold (d : Dict Str Str) (l : List UEntry) (h : ∀ n, cnt n l ≤ 1) (n : Str) :
    cnt n (d.foldl (fun l p => upsert p.1 p.2 none l) l) ≤ 1 := by
  induction d generalizing l with
  | nil => exact h n
  | cons p d ih => exact ih _ fun n => cnt_upsert _ _ _ _ _ (h n)

theorem look_fold (d : Dict Str Str) (l : List UEntry) :
    look (d.foldl (fun l p => upsert p.1 p.2 none l) l) =
      d.foldl (fun f p => uset p.1 p.2 none f) (look l) := by
  induction d generalizing l with
  | nil => rfl
  | cons p d ih => rw [List.foldl_cons, List.foldl_cons, ih, look_upsert]

theorem user_step (a : Abs) (o : Op) (h : ∀ n, cnt n a.user ≤ 1) :
    (∀ n, cnt n (specStep a o).user ≤ 1) ∧ look (specStep a o).user = uSpec (look a.user) o := by
  cases o with
  | userSet n v ty => exact ⟨fun n' => cnt_upsert _ _ _ _ _ (h n'), look_upsert n v ty _⟩
  | userDel n =>
    refine ⟨fun n' => ?_, look_erase n _ (h n)⟩
    exact Nat.le_trans (List.Sublist.countP_le List.eraseP_sublist) (h n')
  | userUpdate d => exact ⟨cnt_fold d _ h, look_fold d _⟩
  | userClear => exact ⟨fun _ => Nat.zero_le _, rfl⟩
  | clear => exact ⟨fun _ => Nat.zero_le _, rfl⟩
  | kwAdd k => simp only [specStep]; split <;> exact ⟨h, rfl⟩
  | statSet k n => simp only [specStep]; split <;> exact ⟨h, rfl⟩
  | statUpdate d => simp only [specStep]; rw [(updateCounts_tag d a).2.2]; exact ⟨h, rfl⟩
  | save now gen r =>
    have : (specStep a (.save now gen r)).user = a.user := by
      simp only [specStep]; split <;> rfl
    rw [this]; exact ⟨h, rfl⟩
  | _ => exact ⟨h, rfl⟩

theorem user_run (a : Abs) (h : List Op) (hn : ∀ n, cnt n a.user ≤ 1) :
    (∀ n, cnt n (spec a h).user ≤ 1) ∧ look (spec a h).user = h.foldl uSpec (look a.user) := by
  induction h generalizing a with
  | nil => exact ⟨hn, rfl⟩
  | cons o h ih =>
    have h1 := user_step a o hn
    have h2 := ih (specStep a o) h1.1
    refine ⟨h2.1, ?_⟩
    rw [List.foldl_cons, ← h1.2]; exact h2.2

/-- C46: after any history the user tags read as the dictionary obtained by the same operations, and
no name is stored twice.  Missing: documents that store a name twice, see `C46_duplicates_refuted`. -/
theorem C46_history_partial (m : Meta) (hm : WF m) (hn : NoDupNames m) (h : List Op) :
    reads (run m h) = h.foldl uSpec (reads m) ∧ NoDupNames (run m h) := by
  have := user_run (abs m) h fun n => by
    show cnt n (entries m) ≤ 1
    rw [← cnt_eq m n]; exact hn n
  rw [← abs_run hm h] at this
  refine ⟨?_, fun n => ?_⟩
  · rw [reads_eq, reads_eq]; exact this.2
  · rw [cnt_eq]; exact this.1 n

/-- C46: what the interface returns for a name; KeyError exactly for absent names. -/
theorem C46_read (m : Meta) (n : Str) :
    match reads m n with
    | none => userGet n m = .error .KeyError ∧ userTypeof n m = .error .KeyError ∧
        userContains n m = false ∧ userDel n m = (m, .error .KeyError)
    | some (v, ty) => userGet n m = .ok v ∧
        userTypeof n m = .ok (match ty with | none => "string".toList | some y => y) ∧
        userContains n m = true ∧ (userDel n m).2 = .ok () := by
  unfold reads userGet userTypeof userContains userDel
  cases userFind n m with
  | none => exact ⟨rfl, rfl, rfl, rfl⟩
  | some t =>
    refine ⟨rfl, ?_, rfl, rfl⟩
    show Except.ok ((t.1.get "meta:value-type").getD _) = _
    cases t.1.get "meta:value-type" <;> rfl

/-- C46: iteration yields exactly the names that can be read, each once and with its value. -/
theorem C46_iter_partial (m : Meta) (hn : NoDupNames m) (n : Str) (v : Option Str) :
    (some n, v) ∈ userIter m ↔ userGet n m = .ok v := by
  have hr : userGet n m = .ok v ↔ ∃ ty, reads m n = some (v, ty) := by
    unfold userGet reads
    cases userFind n m with
    | none => simp
    | some t => simp
  rw [hr, reads_eq]
  have hc := hn n
  rw [cnt_eq] at hc
  have hi : (some n, v) ∈ userIter m ↔ ∃ ty, (some n, v, ty) ∈ entries m := by
    unfold userIter entries
    simp only [List.mem_map]
    constructor
    · rintro ⟨t, ht, he⟩
      simp only [Prod.mk.injEq] at he
      exact ⟨_, t, ht, by unfold entry; rw [he.1, he.2]⟩
    · rintro ⟨ty, t, ht, he⟩
      refine ⟨t, ht, ?_⟩
      unfold entry at he
      simp only [Prod.mk.injEq] at he ⊢
      exact ⟨he.1, he.2.1⟩
  rw [hi]
  have key : ∀ (l : List UEntry) (x : Option Str × Option Str), cnt n l ≤ 1 →
      ((some n, x) ∈ l ↔ look l n = some x) := by
    intro l x
    induction l with
    | nil => simp [look]
    | cons e r ih =>
      intro h
      unfold cnt at h ih
      rw [List.countP_cons] at h
      rw [look_cons, List.mem_cons]
      by_cases he : e.1 = some n
      · rw [if_pos he]
        rw [if_pos (by simpa using he)] at h
        have h0 : r.countP (fun e => decide (e.1 = some n)) = 0 := by omega
        rw [List.countP_eq_zero] at h0
        constructor
        · rintro (h1 | h1)
          · rw [← h1]
          · exact absurd (by simp) (h0 _ h1)
        · intro h1
          left
          obtain ⟨a, b⟩ := e
          simp only at he h1
          rw [he, Option.some.inj h1]
      · rw [if_neg he, ← ih (by omega)]
        constructor
        · rintro (h1 | h1)
          · exact absurd (by rw [← h1]) he
          · exact h1
        · exact Or.inr
  constructor
  · rintro ⟨ty, h⟩; exact ⟨ty, (key _ _ hc).1 h⟩
  · rintro ⟨ty, h⟩; exact ⟨ty, (key _ _ hc).2 h⟩

/-- C46 does not hold of documents that store a name twice: after `del` the name is still there. -/
theorem C46_duplicates_refuted :
    ∃ (m : Meta) (n : Str), WF m ∧ (userDel n m).2 = .ok () ∧ userContains n (userDel n m).1 = true := by
  refine ⟨load { id := 0, tag := "office:meta" }
    [({ id := 1, tag := "meta:user-defined", attrs := [("meta:name", "a".toList)], text := some "x".toList }, .nil),
     ({ id := 2, tag := "meta:user-defined", attrs := [("meta:name", "a".toList)], text := some "y".toList }, .nil)]
    3, "a".toList, load_wf _ _ _ (by decide) (by decide), rfl, rfl⟩

/-! ## C47: statistics -/

/-- C47: assigning a count makes it read the number and leaves all others, and all other meta data,
unchanged; unknown keys raise KeyError without effect. -/
theorem C47_set (m : Meta) (hm : WF m) (k : String) (n : Int) :
    if k ∈ COUNTS then
      (statSet k n m).2 = .ok () ∧ statGet k (statSet k n m).1 = .ok n ∧
      (∀ k', k' ≠ k → statGet k' (statSet k n m).1 = statGet k' m) ∧
      (∀ key, getitem key (statSet k n m).1 = getitem key m) ∧
      keywords (statSet k n m).1 = keywords m ∧ userIter (statSet k n m).1 = userIter m
    else statSet k n m = (m, .error .KeyError) ∧ statGet k m = .error .KeyError := by
  split
  · rename_i hk
    have hk' : k ∈ TYPES := hk
    have hs := statSet_spec hm hk' n
    refine ⟨hs.2.2, ?_, ?_, ?_, kw_frame hs.1 (by decide), ?_⟩
    · unfold statGet; rw [hs.2.1, if_pos hk', Attrs.get_set]; simp [pyInt_intStr]
    · intro k' hne
      unfold statGet
      rw [hs.2.1]
      by_cases h1 : k' ∈ TYPES
      · simp only [if_pos h1]
        rw [Attrs.get_set, if_neg fun h => hne (statKey_inj _ h1 _ hk' h)]
      · simp [h1]
    · intro key
      cases hg : TAGS.get key with
      | none => rw [getitem_none hg, getitem_none hg]
      | some t => exact getitem_congr hg (hs.1.other t (TAGS_ne' hg).2.2)
    · unfold userIter; rw [hs.1.other _ (by decide)]
  · rename_i hk
    have hk' : k ∉ TYPES := hk
    refine ⟨statSet_unknown hk' n, ?_⟩
    unfold statGet; rw [if_neg hk']

/-- C47: a missing or non-numeric entry reads 0. -/
theorem C47_zero (m : Meta) (k : String) (hk : k ∈ COUNTS)
    (h : ∀ s, Attrs.get (statAttrs m) ("meta:" ++ k ++ "-count") = some s → pyInt s = none) :
    statGet k m = .ok 0 := by
  unfold statGet
  rw [if_pos (show k ∈ TYPES from hk)]
  show (match Attrs.get (statAttrs m) ("meta:" ++ k ++ "-count") with
    | none => (Except.ok 0 : Except Exc Int)
    | some s => match pyInt s with | none => .ok 0 | some n => .ok n) = _
  cases hg : Attrs.get (statAttrs m) ("meta:" ++ k ++ "-count") with
  | none => rfl
  | some s => simp only [h s hg]

/-- Counts after any history: what was last assigned. -/
theorem C47_history (m : Meta) (hm : WF m) (h : List Op) (k : String) (hk : k ∈ COUNTS) :
    statGet k (run m h) = .ok ((spec (abs m) h).count k) := by
  have : ∀ m, statGet k m = .ok ((abs m).count k) := by
    intro m
    simp only [abs]
    unfold statGet
    rw [if_pos (show k ∈ TYPES from hk)]
    split
    · rfl
    · split <;> rfl
  rw [this, abs_run hm]

/-- The stored statistics are counts with distinct names and integer values. -/
def StatOk (m : Meta) : Prop :=
  ((statAttrs m).map Prod.fst).Nodup ∧
  ∀ p ∈ statAttrs m, (∃ x : String, ':' ∉ x.toList ∧ p.1 = "meta:" ++ x ++ "-count") ∧
    (pyInt p.2).isSome

theorem meta_uri : Xmlns.XML.prefix2uri.get "meta".toList = some Xmlns.META_NS := by decide +kernel

theorem statName_eq (x : String) (hx : ':' ∉ x.toList) : statName ("meta:" ++ x ++ "-count") = x.toList := by
  have hc : clarkKey ("meta:" ++ x ++ "-count") =
      '{' :: Xmlns.META_NS ++ '}' :: (x.toList ++ "-count".toList) := by
    unfold clarkKey
    have : ("meta:" ++ x ++ "-count").toList = "meta".toList ++ ':' :: (x.toList ++ "-count".toList) := by
      simp [String.toList_append]
    rw [this]
    unfold Xmlns.prefix2clark
    unfold Xmlns.splitPrefix
    have hcol : ("meta".toList ++ ':' :: (x.toList ++ "-count".toList)).count ':' = 1 := by
      rw [List.count_append, List.count_cons, List.count_append, List.count_eq_zero.2 hx]
      decide
    rw [if_pos hcol]
    have hs : Xmlns.splitColon ("meta".toList ++ ':' :: (x.toList ++ "-count".toList)) =
        ("meta".toList, x.toList ++ "-count".toList) := by
      simp [Xmlns.splitColon]
    rw [hs]
    simp only [meta_uri]
  unfold statName
  rw [hc]
  have hl : ('{' :: Xmlns.META_NS ++ '}' :: (x.toList ++ "-count".toList)) =
      (('{' :: Xmlns.META_NS ++ ['}']) ++ x.toList) ++ "-count".toList := by simp
  rw [hl]
  have h6 : "-count".toList.length = 6 := rfl
  rw [List.length_append, h6, Nat.add_sub_cancel, List.take_left]
  have h2 : Xmlns.META_NS.length + 2 = ('{' :: Xmlns.META_NS ++ ['}']).length := by simp
  rw [h2, List.drop_left]

/-- C47: iteration yields exactly the stored pairs, in their order.  Missing: stored entries that are not numbers, see
`C47_iter_refuted`. -/
theorem C47_iter_partial (m : Meta) (h : StatOk m) :
    ∃ l, statIter m = .ok l ∧ l.length = (statAttrs m).length ∧
      ∀ (x : String) (n : Int), ':' ∉ x.toList → ((x.toList, n) ∈ l ↔
        ∃ s, Attrs.get (statAttrs m) ("meta:" ++ x ++ "-count") = some s ∧ pyInt s = some n) := by
  unfold statIter
  obtain ⟨hn, ha⟩ := h
  generalize statAttrs m = l at hn ha
  induction l with
  | nil =>
    refine ⟨[], rfl, rfl, fun x n _ => ?_⟩
    constructor
    · intro h; cases h
    · rintro ⟨s, hs, _⟩; cases hs
  | cons p l ih =>
    obtain ⟨k, v⟩ := p
    simp only [List.map_cons, List.nodup_cons] at hn
    obtain ⟨l', h1, h2, h3⟩ := ih hn.2 fun p hp => ha p (List.mem_cons_of_mem _ hp)
    obtain ⟨⟨y, hy, hk⟩, hv⟩ := ha (k, v) List.mem_cons_self
    simp only at hk hv
    obtain ⟨i, hv⟩ := Option.isSome_iff_exists.1 hv
    refine ⟨(y.toList, i) :: l', ?_, by simp [h2], fun x n hx => ?_⟩
    · rw [List.mapM_cons, h1]
      simp only [hv, hk, statName_eq y hy]
      rfl
    · rw [List.mem_cons, h3 x n hx]
      show _ ↔ ∃ s, (if k = _ then some v else Attrs.get l _) = some s ∧ _
      by_cases hxy : k = "meta:" ++ x ++ "-count"
      · simp only [if_pos hxy]
        have hxy' : x = y := by
          have := congrArg statName (hxy.symm.trans hk)
          rw [statName_eq x hx, statName_eq y hy] at this
          exact String.toList_inj.1 this
        subst hxy'
        constructor
        · rintro (h | ⟨s, hs, _⟩)
          · refine ⟨v, rfl, ?_⟩
            rw [hv]; rw [(Prod.mk.inj h).2]
          · exfalso
            apply hn.1
            rw [hxy]
            have : ∀ (l : Attrs) k s, Attrs.get l k = some s → k ∈ l.map Prod.fst := by
              intro l k s
              induction l with
              | nil => intro h; cases h
              | cons q l ih =>
                intro h
                unfold Attrs.get at h
                split at h
                · rename_i e; exact List.mem_cons.2 (.inl e.symm)
                · exact List.mem_cons_of_mem _ (ih h)
            exact this l _ s hs
        · rintro ⟨s, hs, hi⟩
          left
          have := Option.some.inj hs
          subst this
          rw [hv] at hi
          rw [Option.some.inj hi]
      · simp only [if_neg hxy]
        constructor
        · rintro (h | h)
          · exfalso
            apply hxy
            have := String.toList_inj.1 (Prod.mk.inj h).1
            rw [this]; exact hk
          · exact h
        · exact Or.inr

theorem keys_set (a : Attrs) (k : String) (v : Str) (h : (a.map Prod.fst).Nodup) :
    ((Attrs.set a k v).map Prod.fst).Nodup ∧
    ∀ p ∈ Attrs.set a k v, p ∈ a ∨ p = (k, v) := by
  induction a with
  | nil => simp [Attrs.set]
  | cons q a ih =>
    obtain ⟨k', v'⟩ := q
    simp only [List.map_cons, List.nodup_cons] at h
    obtain ⟨h1, h2⟩ := ih h.2
    unfold Attrs.set
    by_cases he : k' = k
    · rw [if_pos he]
      subst he
      refine ⟨by simpa using h, fun p hp => ?_⟩
      rcases List.mem_cons.1 hp with rfl | hp
      · exact .inr rfl
      · exact .inl (List.mem_cons_of_mem _ hp)
    · rw [if_neg he]
      refine ⟨?_, fun p hp => ?_⟩
      · simp only [List.map_cons, List.nodup_cons]
        refine ⟨?_, h1⟩
        intro hm
        obtain ⟨p, hp, hpe⟩ := List.mem_map.1 hm
        rcases h2 p hp with h3 | h3
        · exact h.1 (List.mem_map.2 ⟨p, h3, hpe⟩)
        · rw [h3] at hpe; exact he hpe.symm
      · rcases List.mem_cons.1 hp with rfl | hp
        · exact .inl List.mem_cons_self
        · rcases h2 p hp with h3 | h3
          · exact .inl (List.mem_cons_of_mem _ h3)
          · exact .inr h3

theorem types_no_colon : ∀ k ∈ TYPES, ':' ∉ k.toList := by decide +kernel

theorem statOk_set {m : Meta} (hm : WF m) (h : StatOk m) (k : String) (n : Int) :
    StatOk (statSet k n m).1 := by
  by_cases hk : k ∈ TYPES
  · have hs := statSet_spec hm hk n
    unfold StatOk
    rw [hs.2.1]
    have := keys_set (statAttrs m) (statKey k) (intStr n) h.1
    refine ⟨this.1, fun p hp => ?_⟩
    rcases this.2 p hp with h1 | h1
    · exact h.2 p h1
    · subst h1
      exact ⟨⟨k, types_no_colon k hk, rfl⟩, by simp [pyInt_intStr]⟩
  · rw [statSet_unknown hk]; exact h

theorem statOk_frame {m m' : Meta} {tag : String} (hm : WF m) (h : StatOk m) (hf : Frame tag m m')
    (ht : "meta:document-statistic" ≠ tag) : StatOk m' := by
  unfold StatOk; rw [stat_frame hm hf ht]; exact h

theorem statOk_setitem {m : Meta} (hm : WF m) (h : StatOk m) (k : String) (v : Option Str) :
    StatOk (setitem k v m).1 := by
  cases hk : TAGS.get k with
  | none => rw [setitem_unknown hk]; exact h
  | some tag =>
    exact statOk_frame hm h (frame_setitem hm hk v) (Ne.symm (TAGS_ne' hk).2.2)

theorem statOk_step {m : Meta} (hm : WF m) (h : StatOk m) (o : Op) : StatOk (step m o) := by
  cases o with
  | set k v => exact statOk_setitem hm h k v
  | clear => unfold StatOk; rw [show statAttrs (step m .clear) = [] by simp [step, statAttrs, clear]]; simp
  | save now gen r =>
    have w1 := abs_set hm "date" (some now)
    have w2 := abs_set w1.1 "generator" (some gen)
    have h2 := statOk_setitem w1.1 (statOk_setitem hm h "date" (some now)) "generator" (some gen)
    show StatOk (save now gen r m).1
    rw [save_eq, touch_eq]
    simp only
    split
    · exact h2
    · rename_i hne
      rw [inc_eq, if_neg hne]
      exact statOk_setitem w2.1 h2 _ _
  | kwAdd k => exact statOk_frame hm h (kwAdd_spec hm k).1 (by decide)
  | kwRemove k => exact statOk_frame hm h (kwRemove_spec hm k).1 (by decide)
  | kwClear => exact statOk_frame hm h (kwClear_spec hm).1 (by decide)
  | userSet n v ty => exact statOk_frame hm h (userSet_spec hm n v ty).1 (by decide)
  | userDel n => exact statOk_frame hm h (userDel_spec hm n).1 (by decide)
  | userUpdate d => exact statOk_frame hm h (userUpdate_spec hm d).1 (by decide)
  | userClear => exact statOk_frame hm h (userClear_spec hm).1 (by decide)
  | statSet k n => exact statOk_set hm h k n
  | statUpdate d =>
    show StatOk (statUpdate d m).1
    induction d generalizing m with
    | nil => exact h
    | cons p d ih =>
      obtain ⟨k, n⟩ := p
      unfold statUpdate
      have hw := (abs_statSet hm k n).1
      have ho := statOk_set hm h k n
      split
      · rename_i he; rw [he] at hw ho; exact ih hw ho
      · rename_i he; rw [he] at ho; exact ho
  | statClear => unfold StatOk; rw [show statAttrs (step m .statClear) = [] from (statClear_spec hm).2]; simp

/-- C47: once the stored statistics are numeric they stay so through any history, so that iteration
keeps yielding exactly the stored pairs. -/
theorem C47_iter_history (m : Meta) (hm : WF m) (hs : StatOk m) (h : List Op) : StatOk (run m h) := by
  induction h generalizing m with
  | nil => exact hs
  | cons o h ih => exact ih (step m o) (abs_step hm o).1 (statOk_step hm hs o)

/-- C47 does not hold of stored non-numeric statistics: reading gives 0, iterating raises. -/
theorem C47_iter_refuted :
    ∃ m : Meta, WF m ∧ statGet "page" m = .ok 0 ∧ statIter m = .error .ValueError := by
  refine ⟨load { id := 0, tag := "office:meta" }
    [({ id := 1, tag := "meta:document-statistic", attrs := [("meta:page-count", "x".toList)] }, .nil)]
    2, load_wf _ _ _ (by decide) (by decide), rfl, rfl⟩

/-! ## Examples -/

/-- A stored meta element with everything in it. -/
def stored : Meta := load { id := 0, tag := "office:meta" }
  [({ id := 1, tag := "dc:title", text := some "T".toList }, .nil),
   ({ id := 2, tag := "meta:keyword", text := some "k".toList }, .nil),
   ({ id := 3, tag := "meta:user-defined",
      attrs := [("meta:name", "a".toList), ("meta:value-type", "float".toList)], text := some "1".toList }, .nil),
   ({ id := 4, tag := "meta:document-statistic", attrs := [("meta:page-count", "7".toList)] }, .nil),
   ({ id := 5, tag := "meta:editing-cycles", text := some "41".toList }, .nil)] 6

example : WF stored := load_wf _ _ _ (by decide +kernel) (by decide +kernel)

example : (keywords stored).Nodup := by decide +kernel

example : NoDupNames stored := by
  intro n
  exact Nat.le_trans List.countP_le_length (by decide +kernel)

example : StatOk stored := by
  refine ⟨by decide +kernel, fun p hp => ?_⟩
  have : statAttrs stored = [("meta:page-count", "7".toList)] := by decide +kernel
  rw [this] at hp
  simp only [List.mem_singleton] at hp
  subst hp
  exact ⟨⟨"page", by decide, rfl⟩, by decide +kernel⟩

/-- Two saves with other work in between; they succeed. -/
example : AllSaved stored [.save [] [] (.ok ()), .kwAdd "z".toList, .set "title" none, .save [] [] (.ok ())] :=
  ⟨rfl, rfl, trivial⟩

example : cycles (run stored [.save [] [] (.ok ()), .kwAdd "z".toList, .save [] [] (.ok ())]) = 43 := by
  decide +kernel

example : keywords (run stored [.kwAdd "z".toList, .kwAdd "k".toList, .kwRemove "k".toList,
    .kwAdd "k".toList]) = [some "z".toList, some "k".toList] := by decide +kernel

example : reads (run stored [.userSet "a".toList "2".toList none, .userSet "b".toList "3".toList none])
      "a".toList = some (some "2".toList, some "float".toList) := by decide +kernel

example : userTypeof "b".toList (run stored [.userSet "b".toList "3".toList none]) = .ok "string".toList := rfl

example : "ole-object" ∈ COUNTS ∧ "pages" ∉ COUNTS := by decide

/-- An empty entry: saving is impossible. -/
example : (save [] [] (.ok ()) (load { id := 0, tag := "office:meta" }
    [({ id := 1, tag := "meta:editing-cycles" }, .nil)] 2)).2 = .error .TypeError := rfl

end Verif.Meta
