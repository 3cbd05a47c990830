import Verif.Proofs.ProgTable
import Verif.Props.WholeMore
/-! Helper lemmas for C78: tables that are stored in documents. -/
namespace Verif.Tbl
open Verif Verif.Forest Verif.Cells Verif.TSpec
set_option linter.unusedSimpArgs false

/-! ## Tables that can be read -/

/-- Rows and columns -/
def IsLine (e : Elem) : Prop := e.tag = "table:table-row" ∨ e.tag = "table:table-column"

/-- A table element that can be read: no rows or columns inside of rows or columns, the repetition counts are numbers,
and they stand where they belong. -/
structure Legible (t : Tree) : Prop where
  tag : t.1.tag = "table:table"
  flat : ∀ u ∈ nodes t.2, IsLine u.1 → ∀ v ∈ nodes u.2, ¬ IsLine v.1
  rows : ∀ r ∈ docRows t.2, (∃ n, Stored "table:number-rows-repeated" r.1 n) ∧
    ∀ c ∈ cells r, ∃ n, Stored "table:number-columns-repeated" c.1 n
  cols : ∀ c ∈ docCols t.2, ∃ n, Stored "table:number-columns-repeated" c.1 n
  tidy : Tidy t.2

theorem isRC_line (e : Elem) : isRC e = true ↔ IsLine e := by
  unfold isRC IsLine isRow isCol
  rw [Bool.or_eq_true]
  exact or_congr decide_eq_true_iff decide_eq_true_iff

theorem flat_iff {F : Forest} : (∀ t ∈ sel isRC F, sel isRC t.2 = []) ↔
    ∀ u ∈ nodes F, IsLine u.1 → ∀ v ∈ nodes u.2, ¬ IsLine v.1 := by
  constructor
  · intro h u hu hl v hv hv'
    have := h u (mem_sel_iff.mpr ⟨hu, (isRC_line _).mpr hl⟩)
    have hm : v ∈ sel isRC u.2 := mem_sel_iff.mpr ⟨hv, (isRC_line _).mpr hv'⟩
    rw [this] at hm; simp at hm
  · intro h t ht
    obtain ⟨h1, h2⟩ := mem_sel_iff.mp ht
    refine List.eq_nil_iff_forall_not_mem.mpr fun v hv => ?_
    obtain ⟨h3, h4⟩ := mem_sel_iff.mp hv
    exact h t h1 ((isRC_line _).mp h2) v h3 ((isRC_line _).mp h4)

/-! ### Changes that keep tags and attributes -/

/-- A change of every element of a tree -/
def mapT (g : Elem → Elem) (t : Tree) : Tree := (g t.1, t.2.map g)

section
variable {g : Elem → Elem} (ht : ∀ e, (g e).tag = e.tag) (ha : ∀ e, (g e).attrs = e.attrs)
include ht ha

omit ht ha in
theorem nodes_mapT (F : Forest) : nodes (F.map g) = (nodes F).map (mapT g) := by
  induction F with
  | nil => rfl
  | cons e k r ihk ihr => simp [Forest.map, nodes, ihk, ihr, mapT]

omit ha in
theorem docRows_mapT (F : Forest) : docRows (F.map g) = (docRows F).map (mapT g) := by
  unfold docRows
  rw [nodes_mapT, List.filter_map]
  congr 1
  exact List.filter_congr fun x _ => by simp [mapT, ht]

omit ha in
theorem docCols_mapT (F : Forest) : docCols (F.map g) = (docCols F).map (mapT g) := by
  unfold docCols
  rw [nodes_mapT, List.filter_map]
  congr 1
  exact List.filter_congr fun x _ => by simp [mapT, ht]

omit ha in
theorem others_mapT (F : Forest) : others (F.map g) = (others F).map g := by
  induction F with
  | nil => rfl
  | cons e k r ihk ihr =>
    simp only [Forest.map, others, ihk, ihr, ht]
    split
    · rfl
    · rfl

omit ht ha in
theorem cells_mapT (t : Tree) : cells (mapT g t) = (cells t).map (mapT g) := toList_map g t.2

omit ht in
theorem get_mapT (e : Elem) (k : String) : (g e).get k = e.get k := by
  unfold Elem.get; rw [ha]

omit ht in
theorem stored_mapT (key : String) (e : Elem) (n : Nat) : Stored key (g e) n ↔ Stored key e n := by
  unfold Stored; rw [get_mapT ha]

omit ht in
theorem alone_mapT (e : Elem) : Alone (g e) ↔ Alone e := by
  unfold Alone; rw [stored_mapT ha, stored_mapT ha]

omit ha in
theorem line_mapT (e : Elem) : IsLine (g e) ↔ IsLine e := by
  unfold IsLine; rw [ht]

theorem tidy_mapT (F : Forest) : Tidy (F.map g) ↔ Tidy F := by
  constructor
  · rintro ⟨h1, h2, h3⟩
    refine ⟨fun t hm => ?_, fun r hr => ?_, fun c hc => ?_⟩
    · have := h1 (mapT g t) (by rw [others_mapT ht, nodes_mapT]; exact List.mem_map_of_mem hm)
      exact (alone_mapT ha _).mp this
    · obtain ⟨a, b⟩ := h2 (mapT g r) (by rw [docRows_mapT ht]; exact List.mem_map_of_mem hr)
      refine ⟨(stored_mapT ha _ _ _).mp a, fun c hc => ?_⟩
      obtain ⟨a', b'⟩ := b (mapT g c) (by rw [cells_mapT]; exact List.mem_map_of_mem hc)
      refine ⟨(stored_mapT ha _ _ _).mp a', fun t hm => ?_⟩
      have := b' (mapT g t) (by show _ ∈ nodes (c.2.map g); rw [nodes_mapT]; exact List.mem_map_of_mem hm)
      exact (alone_mapT ha _).mp this
    · obtain ⟨a, b⟩ := h3 (mapT g c) (by rw [docCols_mapT ht]; exact List.mem_map_of_mem hc)
      refine ⟨(stored_mapT ha _ _ _).mp a, fun t hm => ?_⟩
      have := b (mapT g t) (by show _ ∈ nodes (c.2.map g); rw [nodes_mapT]; exact List.mem_map_of_mem hm)
      exact (alone_mapT ha _).mp this
  · rintro ⟨h1, h2, h3⟩
    refine ⟨fun t hm => ?_, fun r hr => ?_, fun c hc => ?_⟩
    · rw [others_mapT ht, nodes_mapT] at hm
      obtain ⟨u, hu, rfl⟩ := List.mem_map.mp hm
      exact (alone_mapT ha _).mpr (h1 u hu)
    · rw [docRows_mapT ht] at hr
      obtain ⟨u, hu, rfl⟩ := List.mem_map.mp hr
      obtain ⟨a, b⟩ := h2 u hu
      refine ⟨(stored_mapT ha _ _ _).mpr a, fun c hc => ?_⟩
      rw [cells_mapT] at hc
      obtain ⟨v, hv, rfl⟩ := List.mem_map.mp hc
      obtain ⟨a', b'⟩ := b v hv
      refine ⟨(stored_mapT ha _ _ _).mpr a', fun t hm => ?_⟩
      have hm : t ∈ nodes (v.2.map g) := hm
      rw [nodes_mapT] at hm
      obtain ⟨w, hw, rfl⟩ := List.mem_map.mp hm
      exact (alone_mapT ha _).mpr (b' w hw)
    · rw [docCols_mapT ht] at hc
      obtain ⟨u, hu, rfl⟩ := List.mem_map.mp hc
      obtain ⟨a, b⟩ := h3 u hu
      refine ⟨(stored_mapT ha _ _ _).mpr a, fun t hm => ?_⟩
      have hm : t ∈ nodes (u.2.map g) := hm
      rw [nodes_mapT] at hm
      obtain ⟨w, hw, rfl⟩ := List.mem_map.mp hm
      exact (alone_mapT ha _).mpr (b w hw)

theorem legible_mapT (t : Tree) : Legible (mapT g t) ↔ Legible t := by
  constructor
  · rintro ⟨h1, h2, h3, h4, h5⟩
    refine ⟨by rw [← ht]; exact h1, ?_, fun r hr => ?_, fun c hc => ?_, (tidy_mapT ht ha _).mp h5⟩
    · intro u hu hl v hv hv'
      refine h2 (mapT g u) ?_ ((line_mapT ht _).mpr hl) (mapT g v) ?_ ((line_mapT ht _).mpr hv')
      · show _ ∈ nodes (t.2.map g); rw [nodes_mapT]; exact List.mem_map_of_mem hu
      · show _ ∈ nodes (u.2.map g); rw [nodes_mapT]; exact List.mem_map_of_mem hv
    · obtain ⟨⟨n, a⟩, b⟩ := h3 (mapT g r) (by show _ ∈ docRows (t.2.map g); rw [docRows_mapT ht]; exact List.mem_map_of_mem hr)
      refine ⟨⟨n, (stored_mapT ha _ _ _).mp a⟩, fun c hc => ?_⟩
      obtain ⟨m, b⟩ := b (mapT g c) (by rw [cells_mapT]; exact List.mem_map_of_mem hc)
      exact ⟨m, (stored_mapT ha _ _ _).mp b⟩
    · obtain ⟨n, a⟩ := h4 (mapT g c) (by show _ ∈ docCols (t.2.map g); rw [docCols_mapT ht]; exact List.mem_map_of_mem hc)
      exact ⟨n, (stored_mapT ha _ _ _).mp a⟩
  · rintro ⟨h1, h2, h3, h4, h5⟩
    refine ⟨by show (g t.1).tag = _; rw [ht]; exact h1, ?_, fun r hr => ?_, fun c hc => ?_, (tidy_mapT ht ha _).mpr h5⟩
    · intro u hu hl v hv hv'
      have hu : u ∈ nodes (t.2.map g) := hu
      rw [nodes_mapT] at hu
      obtain ⟨u1, hu1, rfl⟩ := List.mem_map.mp hu
      have hv : v ∈ nodes (u1.2.map g) := hv
      rw [nodes_mapT] at hv
      obtain ⟨v1, hv1, rfl⟩ := List.mem_map.mp hv
      exact h2 u1 hu1 ((line_mapT ht _).mp hl) v1 hv1 ((line_mapT ht _).mp hv')
    · have hr : r ∈ docRows (t.2.map g) := hr
      rw [docRows_mapT ht] at hr
      obtain ⟨r1, hr1, rfl⟩ := List.mem_map.mp hr
      obtain ⟨⟨n, a⟩, b⟩ := h3 r1 hr1
      refine ⟨⟨n, (stored_mapT ha _ _ _).mpr a⟩, fun c hc => ?_⟩
      rw [cells_mapT] at hc
      obtain ⟨c1, hc1, rfl⟩ := List.mem_map.mp hc
      obtain ⟨m, b⟩ := b c1 hc1
      exact ⟨m, (stored_mapT ha _ _ _).mpr b⟩
    · have hc : c ∈ docCols (t.2.map g) := hc
      rw [docCols_mapT ht] at hc
      obtain ⟨c1, hc1, rfl⟩ := List.mem_map.mp hc
      obtain ⟨n, a⟩ := h4 c1 hc1
      exact ⟨n, (stored_mapT ha _ _ _).mpr a⟩
end

theorem data_mapT (t : Tree) : Whole.data t = mapT (fun e => { e with id := 0 }) t := by
  unfold Whole.data mapT; rw [Whole.erase_eq_map]

theorem shape_mapT (t : Tree) : Whole.shape t = mapT Whole.written t := rfl

/-- What a file says of a table decides whether it can be read. -/
theorem legible_file {t t' : Tree} (h : Whole.data t' = Whole.shape t) : Legible t' ↔ Legible t := by
  rw [← legible_mapT (g := fun e => { e with id := 0 }) (fun _ => rfl) (fun _ => rfl) t', ← data_mapT, h, shape_mapT,
    legible_mapT (g := Whole.written) (fun _ => rfl) (fun _ => rfl)]

/-! ### Reading -/

theorem Legible.load {t : Tree} (h : Legible t) {strategy : String}
    (hname : strategy ∈ ["all", "all_but_last", "all_less_maxcount"]) {mx : Int × Int} (hm : 1 < mx.1 ∧ 1 < mx.2)
    {n : Nat} (hn : (ids t.2).Nodup) (hlt : ∀ i ∈ ids t.2, i < n) :
    ∃ T, Tbl.load strategy mx (stored t.1 t.2 n) = (T, .ok ()) ∧ Sound T ∧ T.node = t.1 ∧
      Grow [] (stored t.1 t.2 n) T := by
  classical
  let cnt (key : String) (e : Elem) : Nat := if h : ∃ n, Stored key e n then h.choose else 1
  have hc : ∀ {key : String} {e : Elem}, (∃ n, Stored key e n) → Stored key e (cnt key e) := by
    intro key e he
    show Stored key e (if h : ∃ n, Stored key e n then h.choose else 1)
    rw [dif_pos he]; exact he.choose_spec
  have hst : StoredTable (stored t.1 t.2 n) (cnt "table:number-rows-repeated") (cnt "table:number-columns-repeated") := by
    refine ⟨h.tag, ⟨hn, hlt, flat_iff.mpr h.flat⟩, fun r hr => ?_, fun c hc' => hc (h.cols c hc')⟩
    obtain ⟨a, b⟩ := h.rows r hr
    exact ⟨hc a, fun c hc' => hc (b c hc')⟩
  obtain ⟨T, h1, h2, h3, h4⟩ := opened_once hname hm hst h.tidy
  have hnode := load_node hname hm hst h1
  have hg := load_grow [] strategy mx (stored t.1 t.2 n)
  rw [h1] at hg
  exact ⟨T, h1, ⟨h2, h3, h4, by rw [hnode]; exact h.tag⟩, hnode, hg⟩

theorem allE_others {P : Elem → Prop} {F : Forest} (h : AllE P F) : AllE P (others F) := by
  induction F with
  | nil => trivial
  | cons e k r ihk ihr =>
    obtain ⟨a, b, c⟩ := h
    simp only [others]
    split
    · exact ihr c
    · exact ⟨a, ihk b, ihr c⟩

theorem mem_nodes_trans {F : Forest} {t : Tree} (h : t ∈ nodes F) : ∀ u ∈ nodes t.2, u ∈ nodes F := by
  induction F with
  | nil => simp [nodes] at h
  | cons e k r ihk ihr =>
    intro u hu
    simp only [nodes, List.mem_cons, List.mem_append] at h ⊢
    rcases h with rfl | h | h
    · exact .inr (.inl hu)
    · exact .inr (.inl (ihk h u hu))
    · exact .inr (.inr (ihr h u hu))

theorem mem_nodes_kid {F : Forest} {t : Tree} (h : t ∈ F.toList) : t ∈ nodes F := by
  induction F with
  | nil => simp [toList] at h
  | cons e k r _ ihr =>
    simp only [toList, List.mem_cons] at h
    simp only [nodes, List.mem_cons, List.mem_append]
    rcases h with rfl | h
    · exact .inl rfl
    · exact .inr (.inr (ihr h))

theorem Sound.legible {s : TState} (h : Sound s) : Legible (s.node, s.kids) := by
  have ho : ∀ t ∈ nodes s.kids, Alone t.1 := fun t ht => .of_once (allE_nodes.mp h.once t ht)
  refine ⟨h.tag, flat_iff.mp h.inv.wf.flat, fun r hr => ?_, fun c hc => ⟨1, h.expanded.cols c hc⟩, ⟨fun t ht => ?_, fun r hr => ?_, fun c hc => ?_⟩⟩
  · obtain ⟨a, b⟩ := h.expanded.rows r hr
    exact ⟨⟨1, a⟩, fun c hc => ⟨1, b c hc⟩⟩
  · exact .of_once (allE_nodes.mp (allE_others h.once) t ht)
  · have hr := (List.mem_filter.mp hr).1
    refine ⟨(ho r hr).2, fun c hc => ?_⟩
    have hc := mem_nodes_trans hr c (mem_nodes_kid hc)
    exact ⟨(ho c hc).1, fun t ht => ho t (mem_nodes_trans hc t ht)⟩
  · have hc := (List.mem_filter.mp hc).1
    exact ⟨(ho c hc).1, fun t ht => ho t (mem_nodes_trans hc t ht)⟩

/-! ## Empty texts are not written -/

/-- An element without empty texts -/
def plain (e : Elem) : Elem := { e with text := Whole.noEmpty e.text, tail := Whole.noEmpty e.tail }

/-- The table without empty texts -/
def plainTable (s : TState) : TState := { s with node := plain s.node, kids := s.kids.map plain }

theorem data_plain (t : Tree) : Whole.data (mapT plain t) = Whole.shape t := by
  rw [data_mapT]
  unfold mapT
  rw [Whole.map_map']
  rfl

theorem plain_rc (e : Elem) : isRC (plain e) = isRC e := rfl
theorem plain_row (e : Elem) : isRow (plain e) = isRow e := rfl
theorem plain_col (e : Elem) : isCol (plain e) = isCol e := rfl

theorem allE_map {P : Elem → Prop} {g : Elem → Elem} (h : ∀ e, P e → P (g e)) {F : Forest} (hF : AllE P F) :
    AllE P (F.map g) := by
  induction F with
  | nil => trivial
  | cons e k r ihk ihr => exact ⟨h _ hF.1, ihk hF.2.1, ihr hF.2.2⟩

theorem Sound.plain {s : TState} (h : Sound s) : Sound (plainTable s) := by
  have hid : ∀ e, (Tbl.plain e).id = e.id := fun _ => rfl
  have ht : ∀ e, (Tbl.plain e).tag = e.tag := fun _ => rfl
  have ha : ∀ e, (Tbl.plain e).attrs = e.attrs := fun _ => rfl
  refine ⟨⟨⟨?_, ?_, ?_⟩, ?_, ?_⟩, ⟨?_, ?_, ?_⟩, ?_, h.tag⟩
  · show (ids (s.kids.map Tbl.plain)).Nodup
    rw [ids_map hid]; exact h.inv.wf.nodup
  · intro i hi
    have hi : i ∈ ids (s.kids.map Tbl.plain) := hi
    rw [ids_map hid] at hi; exact h.inv.wf.lt i hi
  · intro t hm
    have hm : t ∈ sel isRC (s.kids.map Tbl.plain) := hm
    rw [sel_map plain_rc] at hm
    obtain ⟨u, hu, rfl⟩ := List.mem_map.mp hm
    show sel isRC (u.2.map Tbl.plain) = []
    rw [sel_map plain_rc, h.inv.wf.flat u hu]; rfl
  · show s.rows = (sel isRow (s.kids.map Tbl.plain)).map _
    rw [sel_map plain_row, List.map_map]; exact h.inv.rows
  · show s.cols = (sel isCol (s.kids.map Tbl.plain)).map _
    rw [sel_map plain_col, List.map_map]; exact h.inv.cols
  · intro r hr
    have hr : r ∈ docRows (s.kids.map Tbl.plain) := hr
    rw [docRows_mapT ht] at hr
    obtain ⟨u, hu, rfl⟩ := List.mem_map.mp hr
    obtain ⟨a, b⟩ := h.expanded.rows u hu
    refine ⟨(stored_mapT ha _ _ _).mpr a, fun c hc => ?_⟩
    rw [cells_mapT] at hc
    obtain ⟨v, hv, rfl⟩ := List.mem_map.mp hc
    exact (stored_mapT ha _ _ _).mpr (b v hv)
  · intro c hc
    have hc : c ∈ docCols (s.kids.map Tbl.plain) := hc
    rw [docCols_mapT ht] at hc
    obtain ⟨u, hu, rfl⟩ := List.mem_map.mp hc
    exact (stored_mapT ha _ _ _).mpr (h.expanded.cols u hu)
  · intro a hm b hb
    have hm : a ∈ docRows (s.kids.map Tbl.plain) := hm
    have hb : b ∈ docRows (s.kids.map Tbl.plain) := hb
    rw [docRows_mapT ht] at hm hb
    obtain ⟨u, hu, rfl⟩ := List.mem_map.mp hm
    obtain ⟨v, hv, rfl⟩ := List.mem_map.mp hb
    rw [cells_mapT, cells_mapT, List.length_map, List.length_map]
    exact h.expanded.rect u hu v hv
  · exact allE_map (g := Tbl.plain) (fun e he => (once_attrs rfl).mpr he) h.once

theorem kidsOf_plain (s : TState) (r : Nat) : kidsOf (plainTable s) r = (kidsOf s r).map plain := by
  unfold kidsOf plainTable
  simp only
  rw [find_map (g := plain) fun _ => rfl]
  cases find r s.kids <;> rfl

theorem length_map (g : Elem → Elem) (F : Forest) : (F.map g).length = F.length := by
  rw [← Forest.length_toList, toList_map, List.length_map, Forest.length_toList]

theorem ncols_plain (s : TState) : ncols (plainTable s) = ncols s := by
  unfold ncols
  show (match s.rows with | [] => 0 | r :: _ => _) = _
  cases s.rows with
  | nil => rfl
  | cons r _ => simp only; rw [kidsOf_plain, length_map]

theorem getCell_plain (s : TState) (pos : Int × Int) : getCell (plainTable s) pos = (getCell s pos).map (mapT plain) := by
  have ha : adjust (plainTable s) pos = adjust s pos := by
    unfold adjust; rw [ncols_plain]; rfl
  unfold getCell locate
  simp only [ha]
  have hr : rowId (plainTable s) (adjust s pos).1 = rowId s (adjust s pos).1 := rfl
  rw [hr]
  cases rowId s (adjust s pos).1 with
  | error e => rfl
  | ok r =>
    simp only
    rw [kidsOf_plain]
    unfold childAt
    rw [length_map]
    cases pyIdx (kidsOf s r).length (adjust s pos).2 with
    | none => rfl
    | some n =>
      simp only
      rw [toList_map, List.getElem?_map]
      cases (kidsOf s r).toList[n]? <;> rfl

/-! ### What cells read -/

theorem ostr_noEmpty (x : Option Str) : Txt.ostr (Whole.noEmpty x) = Txt.ostr x := by
  cases x with
  | none => rfl
  | some s => cases s <;> rfl

theorem parts_plain (F : Forest) : Txt.parts (F.map plain) = Txt.parts F := by
  induction F with
  | nil => rfl
  | cons e k r ihk ihr =>
    simp only [Forest.map, Txt.parts, ihk, ihr, List.cons.injEq, and_true]
    have h1 : Txt.ostr (plain e).text = Txt.ostr e.text := ostr_noEmpty _
    have h2 : Txt.ostr (plain e).tail = Txt.ostr e.tail := ostr_noEmpty _
    rw [h2]
    have h3 : Txt.elemText (plain e) (Txt.parts k) = Txt.elemText e (Txt.parts k) := by
      unfold Txt.elemText
      rw [h1]
      have h4 : Txt.kind (plain e).tag = Txt.kind e.tag := rfl
      have h5 : Ws.plaintext (plain e) = Ws.plaintext e := by
        have h6 : (plain e).text.getD [] = e.text.getD [] := by
          rcases hx : e.text with _ | _ | ⟨c, w⟩ <;> simp [plain, hx, Whole.noEmpty]
        unfold Ws.plaintext
        rw [h6]; rfl
      rw [h4, h5]
    rw [h3]; rfl

theorem reads_plain {L : FloatLib} (t : Tree) :
    value L (mapT plain t) = value L t ∧ valueType (mapT plain t) = valueType t ∧
    currency (mapT plain t) = currency t ∧ Cells.plaintext (mapT plain t) = Cells.plaintext t ∧
    span (mapT plain t).1 = span t.1 := by
  have hp : Cells.plaintext (mapT plain t) = Cells.plaintext t := by
    unfold Cells.plaintext
    show (Txt.lines ((Txt.parts (t.2.map plain)).filter _)).map _ = _
    rw [parts_plain]
  refine ⟨?_, rfl, rfl, hp, rfl⟩
  unfold value
  rw [hp]; rfl

/-- The table read from a file that was written from a table of a program. -/
theorem reread_file {s : TState} (h : Sound s) {strategy : String}
    (hname : strategy ∈ ["all", "all_but_last", "all_less_maxcount"])
    {mx : Int × Int} (hm : 1 < mx.1 ∧ 1 < mx.2) {t : Tree} {n : Nat}
    (hd : Whole.data t = Whole.shape (s.node, s.kids)) (hnd : (ids t.2).Nodup) (hlt : ∀ i ∈ ids t.2, i < n) :
    ∃ c, load strategy mx (stored t.1 t.2 n) = (c, .ok ()) ∧ c.node = t.1 ∧ c.kids = t.2 ∧ Shows c ∧
      nrows c = nrows s ∧ ncols c = ncols s ∧ c.cols.length = s.cols.length ∧ name c = name s ∧
      ∀ pos i j, Denotes (nrows s) pos.1 i → Denotes (ncols s) pos.2 j →
        ∃ u u', getCell s pos = .ok u ∧ getCell c pos = .ok u' ∧ Whole.data u' = Whole.shape u := by
  rw [← data_plain] at hd
  obtain ⟨c, c1, c2, c3, c4, c5, c6, c7, c8, c9⟩ := reread h.plain hname hm (node := t.1) (G := t.2) (n := n)
    (Whole.sameElem_of_data hd) (Tbl.sameContent_of_erase (Whole.erase_of_data hd).symm) hnd hlt
  refine ⟨c, c1, c2, c3, c4, c5, by rw [c6, ncols_plain], c7, by rw [c8]; rfl, ?_⟩
  intro pos i j hi hj
  obtain ⟨u, u', g1, g2, g3⟩ := c9 pos i j hi (by rw [ncols_plain]; exact hj)
  rw [getCell_plain] at g1
  cases hg : getCell s pos with
  | error e => rw [hg] at g1; cases g1
  | ok v =>
    rw [hg] at g1
    have g1 : mapT plain v = u := Except.ok.inj g1
    refine ⟨v, u', rfl, g2, ?_⟩
    rw [← data_plain, g1]
    have := erase_of_sameContent g3
    simp only [erase, Forest.cons.injEq] at this
    exact (Prod.ext this.1 this.2.1).symm

theorem reads_file {L : FloatLib} {t t' : Tree} (h : Whole.data t' = Whole.shape t) :
    value L t' = value L t ∧ valueType t' = valueType t ∧ currency t' = currency t ∧
    Cells.plaintext t' = Cells.plaintext t ∧ span t'.1 = span t.1 := by
  rw [← data_plain] at h
  obtain ⟨a, b, c, d, e⟩ := reads_plain (L := L) t
  have hs : Sim t' (mapT plain t) := ⟨congrArg Prod.fst h, congrArg Prod.snd h⟩
  have he : span t'.1 = span (mapT plain t).1 := by
    unfold span spanAttr
    rw [hs.get, hs.get]
  exact ⟨hs.value.trans a, hs.valueType.trans b, (hs.get _).trans c, hs.plaintext.trans d, he.trans e⟩

end Verif.Tbl
