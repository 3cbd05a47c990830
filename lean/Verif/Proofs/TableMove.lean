import Verif.Proofs.TableEdit
import Verif.Proofs.Lxml
/-! A cell of the table assigned to another place of the table. -/
set_option linter.unusedSimpArgs false
namespace Verif.Tbl
open Verif Verif.Forest Verif.Cells Verif.TSpec

theorem subst_in {F : Forest} (hn : (ids F).Nodup) {r : Nat} {u : Tree} (hu : find r F = some u) {i : Nat}
    (hi : i ∈ ids u.2) (f : Elem → Forest → Forest) :
    subst i f F = mapKids r (fun _ => subst i f u.2) F := by
  unfold mapKids
  induction F with
  | nil => simp [find] at hu
  | cons e k r' ihk ihr =>
    simp only [ids, List.nodup_cons, List.mem_append, not_or, List.nodup_append] at hn
    obtain ⟨⟨n1, n2⟩, n3, n4, n5⟩ := hn
    rw [find] at hu
    split at hu
    · rename_i he
      cases hu
      rw [subst, subst, if_pos he, if_neg (fun h => n1 (by rw [h]; exact hi)),
        subst_not_mem f (fun h => n5 i hi i h rfl)]
      rfl
    · rename_i he
      rw [subst, subst, if_neg he]
      cases hk : find r k with
      | some t =>
        rw [hk] at hu; cases hu
        have hik : i ∈ ids k := (find_ids' hk i hi)
        rw [if_neg (fun h => n1 (by rw [h]; exact hik)), ihk n3 hk, subst_not_mem f (fun h => n5 i hik i h rfl),
          subst_not_mem _ (fun h => n5 r (find_mem_ids hk).2 r h rfl)]
      | none =>
        rw [hk] at hu
        have hir : i ∈ ids r' := (find_ids' hu i hi)
        rw [if_neg (fun h => n2 (by rw [h]; exact hir)), ihr n4 hu, subst_not_mem f (fun h => n5 i h i hir rfl),
          subst_not_mem _ (find_none.mp hk)]
where
  find_ids' {F : Forest} {r : Nat} {t : Tree} (h : find r F = some t) : ∀ x ∈ ids t.2, x ∈ ids F := by
    induction F with
    | nil => simp [find] at h
    | cons e k r' ihk ihr =>
      intro x hx
      rw [find] at h
      simp only [ids, List.mem_cons, List.mem_append]
      split at h
      · cases h; exact .inr (.inl hx)
      · cases hk : find r k with
        | some t' => rw [hk] at h; cases h; exact .inr (.inl (ihk hk x hx))
        | none => rw [hk] at h; exact .inr (.inr (ihr h x hx))

theorem subst_child {k : Forest} (hn : (ids k).Nodup) {A B : List Tree} {t : Tree} (hk : k.toList = A ++ t :: B)
    (f : Elem → Forest → Forest) : (subst t.1.id f k).toList = A ++ ((f t.1 t.2).toList ++ B) := by
  induction A generalizing k with
  | nil =>
    cases k with
    | nil => cases hk
    | cons e c r =>
      simp only [toList, List.nil_append, List.cons.injEq] at hk
      obtain ⟨rfl, rfl⟩ := hk
      rw [subst, if_pos rfl, toList_append]; rfl
  | cons a A ih =>
    cases k with
    | nil => cases hk
    | cons e c r =>
      simp only [toList, List.cons_append, List.cons.injEq] at hk
      obtain ⟨rfl, hk⟩ := hk
      simp only [ids, List.nodup_cons, List.mem_append, not_or, List.nodup_append] at hn
      have hm : t.1.id ∈ ids r := by
        rw [ids_toList, hk]
        simp only [List.flatMap_append, List.flatMap_cons, List.mem_append]
        exact .inr (.inl (by simp [single, ids]))
      rw [subst, if_neg (fun h => hn.1.2 (by rw [h]; exact hm)), subst_not_mem f (fun h => hn.2.2.2 _ h _ hm rfl)]
      simp only [toList, List.cons_append]
      rw [ih hn.2.2.1 hk]

/-- Replacing a cell by cells, given by its identity. -/
theorem cellSubst {s : TState} (h : Inv s) {i j : Nat} {u t : Tree} (hu : (rowsOf s)[i]? = some u)
    (ht : u.2.toList[j]? = some t) (N : Forest) (hnd : (idsOfL N.toList).Nodup)
    (hids : ∀ x ∈ idsOfL N.toList, x < s.fresh ∧ (x ∈ ids (single t) ∨ x ∉ ids s.kids))
    (hsel : selOfL isRC N.toList = []) :
    let s' : TState := { s with kids := s.kids.subst t.1.id fun _ _ => N }
    Inv s' ∧ rowsOf s' = (rowsOf s).set i
        (u.1, ofList (u.2.toList.take j ++ (N.toList ++ u.2.toList.drop (j + 1)))) ∧
      colsOf s' = colsOf s ∧ SameRest s s' ∧ s'.rows = s.rows := by
  intro s'
  obtain ⟨hr, hi⟩ := split_getElem? hu
  obtain ⟨hk, hj⟩ := split_getElem? ht
  have hm := List.mem_of_getElem? hu
  obtain ⟨f1, f2, f3⟩ := flat_of_row h.wf hm
  obtain ⟨u1, u2⟩ := ids_sub h.wf f1
  have hnk : (ids u.2).Nodup := by
    have : ids (single u) = u.1.id :: ids u.2 := by simp [single, ids]
    rw [this] at u1; exact (List.nodup_cons.mp u1).2
  have hin : t.1.id ∈ ids u.2 := by
    rw [ids_toList, hk]
    simp only [List.flatMap_append, List.flatMap_cons, List.mem_append]
    exact .inr (.inl (by simp [single, ids]))
  have hsub : s.kids.subst t.1.id (fun _ _ => N) =
      s.kids.mapKids u.1.id (fun _ => subst t.1.id (fun _ _ => N) u.2) :=
    subst_in h.wf.nodup (find_row h hm) hin _
  have hl : (subst t.1.id (fun _ _ => N) u.2).toList = u.2.toList.take j ++ (N.toList ++ u.2.toList.drop (j + 1)) :=
    subst_child hnk hk _
  have step := cellStep h hr (fun _ => subst t.1.id (fun _ _ => N) u.2) (A := u.2.toList.take j) (O := [t])
    (N := N.toList) (B := u.2.toList.drop (j + 1)) hk hl s.fresh (Nat.le_refl _) hnd
    (by intro x hx
        have := hids x hx
        simpa [idsOfL] using this)
    hsel
  have he : s' = { s with kids := s.kids.mapKids u.1.id (fun _ => subst t.1.id (fun _ _ => N) u.2), fresh := s.fresh } := by
    show ({ s with kids := _ } : TState) = _
    rw [hsub]
  rw [he]
  refine ⟨step.1, ?_, step.2.2.1, step.2.2.2, rfl⟩
  rw [step.2.1, List.set_eq_take_append_cons_drop, if_pos hi, ← hl, ofList_toList]

/-- The cells of row `i` after the cell `t` at `(ip, jp)` moved to `(iq, jq)`. -/
def movedCells (ip jp iq jq : Nat) (t : Tree) (i : Nat) (c : List Tree) : List Tree :=
  let c := if i = iq then c.set jq t else c
  if i = ip then c.eraseIdx jp else c

theorem roots_nodup {k : Forest} (h : (ids k).Nodup) : (k.toList.map fun t => t.1.id).Nodup := by
  induction k with
  | nil => simp [toList]
  | cons e c r _ ih =>
    simp only [ids, List.nodup_cons, List.mem_append, not_or, List.nodup_append] at h
    simp only [toList, List.map_cons, List.nodup_cons]
    refine ⟨fun hm => h.1.2 ?_, ih h.2.2.1⟩
    obtain ⟨t, ht, he⟩ := List.mem_map.mp hm
    rw [ids_toList]
    exact List.mem_flatMap.mpr ⟨t, ht, by rw [← he]; simp [single, ids]⟩

theorem row_kids_nodup {s : TState} (h : Inv s) {u : Tree} (hm : u ∈ rowsOf s) : (ids u.2).Nodup := by
  obtain ⟨f1, _, _⟩ := flat_of_row h.wf hm
  obtain ⟨u1, _⟩ := ids_sub h.wf f1
  have : ids (single u) = u.1.id :: ids u.2 := by simp [single, ids]
  rw [this] at u1; exact (List.nodup_cons.mp u1).2

/-- Different cells have different identities. -/
theorem cell_id_inj {s : TState} (h : Inv s) {i j i' j' : Nat} {u u' t t' : Tree} (hu : (rowsOf s)[i]? = some u)
    (ht : u.2.toList[j]? = some t) (hu' : (rowsOf s)[i']? = some u') (ht' : u'.2.toList[j']? = some t')
    (he : t.1.id = t'.1.id) : i = i' ∧ j = j' := by
  have a := (cellSubst h hu ht .nil (by simp [toList, idsOfL]) (by simp [toList, idsOfL]) (by simp [toList, selOfL])).2.1
  have b := (cellSubst h hu' ht' .nil (by simp [toList, idsOfL]) (by simp [toList, idsOfL]) (by simp [toList, selOfL])).2.1
  simp only [he] at a
  rw [a] at b
  have hlt := (List.getElem?_eq_some_iff.mp hu).1
  have hj := (List.getElem?_eq_some_iff.mp ht).1
  by_cases hi : i = i'
  · subst hi
    rw [hu] at hu'; cases hu'
    refine ⟨rfl, ?_⟩
    have hn := roots_nodup (row_kids_nodup h (List.mem_of_getElem? hu))
    have h1 : (u.2.toList.map fun t => t.1.id)[j]? = some t.1.id := by rw [List.getElem?_map, ht]; rfl
    have h2 : (u.2.toList.map fun t => t.1.id)[j']? = some t.1.id := by rw [List.getElem?_map, ht', he]; rfl
    exact (List.getElem?_inj (by simpa using hj) hn).mp (h1.trans h2.symm)
  · exfalso
    have := congrArg (fun l => l[i]?) b
    simp only [List.getElem?_set_self hlt, List.getElem?_set_ne (fun h => hi h.symm), hu] at this
    have := congrArg (fun o => (Option.map (fun t : Tree => t.2.toList.length) o)) this
    simp only [Option.map_some, toList_ofList, toList, List.nil_append, List.length_append, List.length_take,
      List.length_drop, Option.some.injEq] at this
    omega

theorem find_child {k : Forest} (hn : (ids k).Nodup) {A B : List Tree} {t : Tree} (hk : k.toList = A ++ t :: B) :
    find t.1.id k = some t := by
  induction A generalizing k with
  | nil =>
    cases k with
    | nil => cases hk
    | cons e c r =>
      simp only [toList, List.nil_append, List.cons.injEq] at hk
      obtain ⟨rfl, _⟩ := hk
      rw [find, if_pos rfl]
  | cons a A ih =>
    cases k with
    | nil => cases hk
    | cons e c r =>
      simp only [toList, List.cons_append, List.cons.injEq] at hk
      obtain ⟨_, hk⟩ := hk
      simp only [ids, List.nodup_cons, List.mem_append, not_or, List.nodup_append] at hn
      have hm : t.1.id ∈ ids r := by
        rw [ids_toList, hk]
        simp only [List.flatMap_append, List.flatMap_cons, List.mem_append]
        exact .inr (.inl (by simp [single, ids]))
      rw [find, if_neg (fun h => hn.1.2 (by rw [h]; exact hm)),
        find_none.mpr (fun h => hn.2.2.2 _ h _ hm rfl)]
      exact ih hn.2.2.1 hk

theorem find_cell {s : TState} (h : Inv s) {i j : Nat} {u t : Tree} (hu : (rowsOf s)[i]? = some u)
    (ht : u.2.toList[j]? = some t) : s.kids.find t.1.id = some t := by
  have hm := List.mem_of_getElem? hu
  obtain ⟨hk, hj⟩ := split_getElem? ht
  have hn := row_kids_nodup h hm
  have hin : t.1.id ∈ ids u.2 := by
    rw [ids_toList, hk]
    simp only [List.flatMap_append, List.flatMap_cons, List.mem_append]
    exact .inr (.inl (by simp [single, ids]))
  obtain ⟨f1, _, _⟩ := flat_of_row h.wf hm
  obtain ⟨u1, _⟩ := ids_sub h.wf f1
  have hs : ids (single u) = u.1.id :: ids u.2 := by simp [single, ids]
  rw [hs] at u1
  rw [Lxml.find_in h.wf.nodup (find_row h hm) (by rw [hs]; simp [hin]),
    Lxml.find_single_ne (fun he => (List.nodup_cons.mp u1).1 (by rw [he]; exact hin))]
  exact find_child hn hk

theorem erase_set_comm {α : Type} (l : List α) {a b : Nat} (t : α) (h : a ≠ b) (ha : a < l.length) (hb : b < l.length) :
    (l.eraseIdx a).set (if a < b then b - 1 else b) t = (l.set b t).eraseIdx a := by
  apply List.ext_getElem?
  intro n
  rw [List.getElem?_eraseIdx]
  simp only [List.getElem?_set, List.length_eraseIdx, if_pos ha, List.getElem?_eraseIdx]
  by_cases hab : a < b
  · simp only [if_pos hab]
    split <;> split <;> (try split) <;> (try split) <;> first | rfl | omega
  · simp only [if_neg hab]
    split <;> split <;> (try split) <;> (try split) <;> first | rfl | omega

theorem setCell_existing {s : TState} (h : Inv s) {pos : Int × Int} {ip jp iq jq : Nat} {u v t old : Tree}
    (hu : (rowsOf s)[ip]? = some u) (ht : u.2.toList[jp]? = some t)
    (hv : (rowsOf s)[iq]? = some v) (ho : v.2.toList[jq]? = some old) (hne : (ip, jp) ≠ (iq, jq))
    (hl : locate s pos = .ok (v.1.id, jq, old)) :
    ∃ s', setCell pos (.existing t.1.id) s = (s', .ok ()) ∧ Inv s' ∧
      rowsOf s' = (rowsOf s).mapIdx (fun i r => (r.1, ofList (movedCells ip jp iq jq t i r.2.toList))) ∧
      colsOf s' = colsOf s ∧ SameRest s s' ∧ s'.rows = s.rows := by
  have hid : t.1.id ≠ old.1.id := fun he => hne (by
    obtain ⟨rfl, rfl⟩ := cell_id_inj h hu ht hv ho he; rfl)
  obtain ⟨hku, hju⟩ := split_getElem? ht
  obtain ⟨hkv, hjv⟩ := split_getElem? ho
  have hip := (List.getElem?_eq_some_iff.mp hu).1
  have hiq := (List.getElem?_eq_some_iff.mp hv).1
  obtain ⟨c1, c2⟩ := cell_not_rc h (List.mem_of_getElem? hu) (List.mem_of_getElem? ht)
  obtain ⟨d1, d2⟩ := cell_ids h hu ht
  have hfind := find_cell h hu ht
  have A := cellSubst h hu ht .nil (by simp [toList, idsOfL]) (by simp [toList, idsOfL]) (by simp [toList, selOfL])
  simp only [toList, List.nil_append] at A
  rw [← List.eraseIdx_eq_take_drop_succ] at A
  obtain ⟨i1, r1, k1, sr1, _⟩ := A
  -- the target in the table without the cell
  obtain ⟨w, jq', g1, g2, g3⟩ : ∃ (w : Tree) (jq' : Nat),
      (rowsOf { s with kids := s.kids.subst t.1.id fun _ _ => .nil })[iq]? = some w ∧ w.2.toList[jq']? = some old ∧
      w.1 = v.1 ∧ w.2.toList.set jq' t = movedCells ip jp iq jq t iq v.2.toList := by
    by_cases hi : ip = iq
    · subst hi
      rw [hu] at hv; cases hv
      have hj : jp ≠ jq := fun he => hne (by rw [he])
      refine ⟨(u.1, ofList (u.2.toList.eraseIdx jp)), if jp < jq then jq - 1 else jq,
        by rw [r1, List.getElem?_set_self hip], ?_, rfl, ?_⟩
      · simp only [toList_ofList, List.getElem?_eraseIdx]
        split
        · split
          · omega
          · rw [show jq - 1 + 1 = jq by omega]; exact ho
        · rw [if_pos (by omega)]; exact ho
      · simp only [toList_ofList, movedCells, if_true]
        exact erase_set_comm _ t hj hju hjv
    · refine ⟨v, jq, by rw [r1, List.getElem?_set_ne hi]; exact hv, ho, rfl, ?_⟩
      simp only [movedCells, if_true, if_neg (fun he : iq = ip => hi he.symm)]
  have hdis : ∀ x ∈ ids (single t), x ∉ ids (s.kids.subst t.1.id fun _ _ => .nil) := by
    obtain ⟨c, p1, p2⟩ := ctx_exists h.wf.nodup hfind
    intro x hx hx'
    rw [p2, ids_plug] at hx'
    have hn := h.wf.nodup
    rw [p1, ids_plug, List.nodup_append, List.nodup_append] at hn
    simp only [ids, List.nil_append, List.mem_append] at hx'
    rcases hx' with hx' | hx'
    · exact hn.2.2 x hx' x (List.mem_append.mpr (.inl hx)) rfl
    · exact hn.2.1.2.2 x hx x hx' rfl
  have B := cellSubst i1 g1 g2 (single t) (by simpa [single, toList, idsOfL] using d1)
    (by
      intro x hx
      have hx' : x ∈ ids (single t) := by simpa [single, toList, idsOfL] using hx
      exact ⟨(d2 x hx').1, .inr (hdis x hx')⟩)
    (by
      simp [single, toList, selOfL, sel, c1, c2])
  obtain ⟨i2, r2, k2, sr2, _⟩ := B
  refine ⟨_, ?_, i2, ?_, k2.trans k1, sr1.trans sr2, rfl⟩
  · unfold setCell
    rw [hl]
    simp only [if_neg hid, hfind]
  · have hjw := (List.getElem?_eq_some_iff.mp g2).1
    rw [r2, r1]
    have e : w.2.toList.take jq' ++ ((single t).toList ++ w.2.toList.drop (jq' + 1)) =
        movedCells ip jp iq jq t iq v.2.toList := by
      rw [← g3.2, List.set_eq_take_append_cons_drop, if_pos hjw]; rfl
    rw [e, g3.1]
    apply List.ext_getElem?
    intro n
    rw [List.getElem?_mapIdx]
    by_cases hn : n = iq
    · subst hn
      rw [List.getElem?_set_self (by rw [List.length_set]; exact hiq), hv]
      rfl
    · rw [List.getElem?_set_ne (fun he => hn he.symm)]
      by_cases hn' : n = ip
      · subst hn'
        rw [List.getElem?_set_self hip, hu]
        simp only [movedCells, if_neg hn, if_true, Option.map_some]
      · rw [List.getElem?_set_ne (fun he => hn' he.symm)]
        simp only [movedCells, if_neg hn, if_neg hn', ofList_toList]
        cases (rowsOf s)[n]? <;> rfl

end Verif.Tbl
