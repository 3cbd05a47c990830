import Verif.Proofs.MixAct
/-! Helper lemmas for C88: documents that have just been made or opened. -/
namespace Verif.Mix
open Verif Verif.Lxml Forest Verif.Whole Verif.Tbl
open Verif.Program (TableObj tableState stateOf Config Framed)
open Verif.TextProg (Kept Loose Step Firm Fits node_some node_mem node_kids node_tagAt node_child declTags Place outer parent_in child_in
  tree_sub no_loop start_kept)
open Verif.Document (MIMETYPE_BODYTAG_MAP)
open Verif.TSpec (nodes)
set_option linter.unusedSimpArgs false

/-- The tables that are not inside of other tables -/
def topTables : Forest → List Tree
  | .nil => []
  | .cons e k r => if e.tag = "table:table" then (e, k) :: topTables r else topTables k ++ topTables r

/-- The tables in a body that are not inside of other tables; containers of declarations are left out. -/
def bodyTables (b : Tree) : List Tree :=
  (b.2.toList.filter fun u => u.1.tag ∉ declTags).flatMap fun u => topTables (single u)

theorem topTables_nodes {G : Forest} {t : Tree} (h : t ∈ topTables G) : t ∈ nodes G ∧ t.1.tag = "table:table" := by
  induction G with
  | nil => simp [topTables] at h
  | cons e k r ihk ihr =>
    simp only [topTables] at h
    simp only [nodes, List.mem_cons, List.mem_append]
    split at h
    · rename_i he
      simp only [List.mem_cons] at h
      rcases h with rfl | h
      · exact ⟨.inl rfl, he⟩
      · exact ⟨.inr (.inr (ihr h).1), (ihr h).2⟩
    · simp only [List.mem_append] at h
      rcases h with h | h
      · exact ⟨.inr (.inl (ihk h).1), (ihk h).2⟩
      · exact ⟨.inr (.inr (ihr h).1), (ihr h).2⟩

theorem topTables_ids (G : Forest) : ((topTables G).flatMap fun t => ids (single t)).Sublist (ids G) := by
  induction G with
  | nil => simp [topTables]
  | cons e k r ihk ihr =>
    simp only [topTables]
    split
    · rw [List.flatMap_cons, ids_single, ids, List.cons_append]
      exact (ihr.append_left _).cons_cons _
    · simp only [List.flatMap_append, ids]
      exact (ihk.append ihr).cons _

theorem topTables_all {G : Forest} {u : Tree} (h : u ∈ nodes G) (hu : u.1.tag = "table:table") :
    ∃ t ∈ topTables G, u = t ∨ u ∈ nodes t.2 := by
  induction G with
  | nil => simp [nodes] at h
  | cons e k r ihk ihr =>
    simp only [nodes, List.mem_cons, List.mem_append] at h
    simp only [topTables]
    split
    · rcases h with rfl | h | h
      · exact ⟨_, List.mem_cons_self, .inl rfl⟩
      · exact ⟨(e, k), List.mem_cons_self, .inr h⟩
      · obtain ⟨t, h1, h2⟩ := ihr h
        exact ⟨t, List.mem_cons_of_mem _ h1, h2⟩
    · rename_i he
      rcases h with rfl | h | h
      · exact absurd hu he
      · obtain ⟨t, h1, h2⟩ := ihk h
        exact ⟨t, List.mem_append_left _ h1, h2⟩
      · obtain ⟨t, h1, h2⟩ := ihr h
        exact ⟨t, List.mem_append_right _ h1, h2⟩

theorem nodes_ids {G : Forest} {t : Tree} (h : t ∈ nodes G) : t.1.id ∈ ids G := by
  induction G with
  | nil => simp [nodes] at h
  | cons e k r ihk ihr =>
    simp only [nodes, List.mem_cons, List.mem_append] at h
    simp only [ids, List.mem_cons, List.mem_append]
    rcases h with rfl | h | h
    · exact .inl rfl
    · exact .inr (.inl (ihk h))
    · exact .inr (.inr (ihr h))

theorem nodes_find {G : Forest} (hn : (ids G).Nodup) {t : Tree} (h : t ∈ nodes G) : find t.1.id G = some t := by
  induction G with
  | nil => simp [nodes] at h
  | cons e k r ihk ihr =>
    simp only [ids, List.nodup_cons, List.mem_append, not_or, List.nodup_append] at hn
    obtain ⟨⟨h1, h2⟩, h3, h4, h5⟩ := hn
    simp only [nodes, List.mem_cons, List.mem_append] at h
    simp only [find]
    rcases h with rfl | h | h
    · simp
    · have hi := nodes_ids h
      rw [if_neg (fun e' : e.id = t.1.id => h1 (e' ▸ hi)), ihk h3 h]
    · have hi := nodes_ids h
      rw [if_neg (fun e' : e.id = t.1.id => h2 (e' ▸ hi))]
      cases hk : find t.1.id k with
      | none => simpa using ihr h4 h
      | some x => exact absurd rfl (h5 _ (find_mem hk) _ hi)

theorem find_nodes {G : Forest} {i : Nat} {t : Tree} (h : find i G = some t) : t ∈ nodes G := by
  induction G with
  | nil => simp [find] at h
  | cons e k r ihk ihr =>
    simp only [find] at h
    simp only [nodes, List.mem_cons, List.mem_append]
    split at h
    · exact .inl (Option.some.inj h).symm
    · cases hk : find i k with
      | none => rw [hk] at h; exact .inr (.inr (ihr (by simpa using h)))
      | some x => rw [hk] at h; exact .inr (.inl (ihk (by rw [hk]; simpa using h)))

theorem topTables_mapT {g : Elem → Elem} (hg : ∀ e, (g e).tag = e.tag) (G : Forest) :
    topTables (G.map g) = (topTables G).map (mapT g) := by
  induction G with
  | nil => rfl
  | cons e k r ihk ihr =>
    simp only [Forest.map, topTables, hg]
    split
    · simp [ihr, mapT]
    · simp [ihk, ihr]

/-- A node that is a table not inside of another one -/
def TopTable (W : World) (x : Nat) : Prop := ∃ t ∈ topTables W, t.1.id = x
/-- A node inside of a table -/
def InTable (W : World) (x : Nat) : Prop := ∃ t ∈ topTables W, x ∈ ids t.2

variable {W : World} {d : Parts.DocTree} {tag : String}

theorem top_find (hn : (ids W).Nodup) {t : Tree} (h : t ∈ topTables W) : find t.1.id W = some t :=
  nodes_find hn (topTables_nodes h).1

/-- Two such tables do not share nodes. -/
theorem top_one (hn : (ids W).Nodup) {t u : Tree} (ht : t ∈ topTables W) (hu : u ∈ topTables W) {x : Nat}
    (h1 : x ∈ ids (single t)) (h2 : x ∈ ids (single u)) : t = u := by
  have h := (topTables_ids W).nodup hn
  rw [List.nodup_flatMap] at h
  by_contra hne
  obtain ⟨i, hi, rfl⟩ := List.getElem_of_mem ht
  obtain ⟨j, hj, rfl⟩ := List.getElem_of_mem hu
  have h3 := List.pairwise_iff_getElem.mp h.2
  rcases Nat.lt_trichotomy i j with hij | rfl | hij
  · exact h3 i j hi hj hij h1 h2
  · exact hne rfl
  · exact h3 j i hj hi hij h2 h1

theorem start_cover (hn : (ids W).Nodup) : Cover (TopTable W) (InTable W) W := by
  have hself : ∀ {t : Tree}, t ∈ topTables W → t.1.id ∉ ids t.2 := by
    intro t ht
    have := nodup_tree hn (top_find hn ht)
    simp only [ids_single, List.nodup_cons] at this
    exact this.1
  refine ⟨hn, ?_, ?_, ?_, ?_, ?_, ?_⟩
  · rintro x ⟨t, ht, rfl⟩ ⟨u, hu, hx⟩
    have := top_one hn ht hu (x := t.1.id) (by simp) (by simp [hx])
    subst this
    exact hself ht hx
  · rintro x (⟨t, ht, rfl⟩ | ⟨t, ht, hx⟩)
    · exact find_mem (top_find hn ht)
    · exact (find_sub (top_find hn ht)).subset (by simp [hx])
  · intro q e l x hq hx hrt
    obtain ⟨k, hk, rfl⟩ := find_of_node hq
    have : ∃ t ∈ topTables W, q ∈ ids (single t) := by
      rcases hrt with ⟨t, ht, rfl⟩ | ⟨t, ht, h⟩
      · exact ⟨t, ht, by simp⟩
      · exact ⟨t, ht, by simp [h]⟩
    obtain ⟨t, ht, hqt⟩ := this
    have hxt := child_in hn hk hx (top_find hn ht) hqt
    refine ⟨t, ht, ?_⟩
    simp only [ids_single, List.mem_cons] at hxt
    refine hxt.resolve_left fun he => ?_
    have := find_in hn (top_find hn ht) hqt
    rw [hk] at this
    have h1 := nodup_tree hn (top_find hn ht)
    exact child_not_root h1 this.symm (roots_sub hx) (by simp [he, roots, single, toList])
  · rintro q e l x hq hx h1 h2 ⟨t, ht, hxt⟩
    obtain ⟨k, hk, rfl⟩ := find_of_node hq
    have := parent_in hn hk hx (top_find hn ht) (by simp [hxt]) (fun he => hself ht (he ▸ hxt))
    simp only [ids_single, List.mem_cons] at this
    rcases this with h3 | h3
    · exact h1 ⟨t, ht, h3.symm⟩
    · exact h2 ⟨t, ht, h3⟩
  · rintro x ⟨t, ht, rfl⟩
    rw [tagAt_find (top_find hn ht), (topTables_nodes ht).2]
  · intro x hx
    obtain ⟨u, hu⟩ := find_some_of_mem (Parts.mem_of_tagAt hx)
    rw [tagAt_find hu] at hx
    have hid := (find_mem_ids hu).1
    obtain ⟨t, ht, h1⟩ := topTables_all (find_nodes hu) (Option.some.inj hx)
    rcases h1 with rfl | h1
    · exact .inl ⟨u, ht, hid⟩
    · exact .inr ⟨t, ht, hid ▸ nodes_ids h1⟩

/-- A table in a part of the tree is one of those of this part. -/
theorem top_part (hn : (ids W).Nodup) {u t : Tree} (hu : find u.1.id W = some u) (ht : t ∈ topTables W)
    (hin : t.1.id ∈ ids (single u)) : t ∈ topTables (single u) := by
  have h1 := top_find hn ht
  rw [find_in hn hu hin] at h1
  obtain ⟨t', a1, a2⟩ := topTables_all (find_nodes h1) (topTables_nodes ht).2
  rcases a2 with rfl | a2
  · exact a1
  · exfalso
    have h2 := nodes_find (nodup_tree hn hu) (topTables_nodes a1).1
    have h3 : find t'.1.id W = some t' := by rw [find_in hn hu (nodes_ids (topTables_nodes a1).1)]; exact h2
    obtain ⟨t'', b1, b2⟩ := topTables_all (find_nodes h3) (topTables_nodes a1).2
    have h4 : t.1.id ∈ ids t''.2 := by
      rcases b2 with rfl | b2
      · exact nodes_ids a2
      · exact nodes_ids (mem_nodes_trans b2 t a2)
    exact (start_cover hn).apart _ ⟨t, ht, rfl⟩ ⟨t'', b1, h4⟩

theorem start_body (h : Framed W tag d) : Out (TopTable W) (InTable W) d.body.node := by
  have hn := h.once
  have hc := start_cover hn
  have hT : ∀ x, InTable W x → x ∉ roots W := by
    rintro x ⟨t, ht, hx⟩
    exact child_not_root hn (top_find hn ht) hx
  have hR : ∀ {x tg}, Parts.tagAt W x = some tg → tg ≠ "table:table" → ¬ TopTable W x := by
    intro x tg h1 h2 h3
    rw [hc.table x h3] at h1
    exact h2 (Option.some.inj h1).symm
  obtain ⟨-, -, -, hb, -⟩ := h.refs.body.node
  obtain ⟨-, -, -, hcb, -⟩ := h.refs.content.body
  obtain ⟨x, hx, hxb⟩ := Program.ref_child h.refs.body.node
  obtain ⟨y, hy, hyb⟩ := Program.ref_child h.refs.content.body
  have h1 : ¬ InTable W d.content.root := fun h2 => hT _ h2 h.content
  have h2 : ¬ InTable W d.content.body :=
    hc.top _ _ _ _ (node_of_find hy) hyb (hR h.refs.contentRoot (by decide)) h1
  exact ⟨hR hb h.noTable, hc.top _ _ _ _ (node_of_find hx) hxb (hR hcb (by decide)) h2⟩

/-- The tables in the body of a document can be read. -/
def Readable (s : Session) : Prop := ∀ b, find s.tree.body.node s.world = some b → ∀ t ∈ bodyTables b, Legible t

theorem ready_start {L : XLib} {s : Session} (hl : Lives L s)
    (h : ∃ tag, MIMETYPE_BODYTAG_MAP.get s.mimetype = some tag ∧ Framed s.world tag s.tree) (hr : Readable s) :
    OK L ⟨⟨s, []⟩, []⟩ := by
  have hap := (TextProg.ok_start hl h).apart
  obtain ⟨tag, h1, h2⟩ := h
  refine ⟨outer s.world s.tree, TopTable s.world, InTable s.world, tag, hl, hap, h1,
    ⟨start_kept h2, fun n hn => by simp at hn⟩, start_cover h2.once, start_body h2, by simp, by simp, by simp, by simp, ?_⟩
  rintro n hR hF - t ht
  obtain ⟨t', a1, rfl⟩ := hR
  have e := top_find h2.once a1
  have ht : find t'.1.id s.world = some t := ht
  rw [e] at ht
  rw [← Option.some.inj ht]
  have hmem := find_mem e
  unfold outer at hF
  simp only [not_and, not_forall, not_not] at hF
  obtain ⟨b, u, hb, hu, htag, hin⟩ := hF hmem
  refine hr b hb t' ?_
  unfold bodyTables
  rw [List.mem_flatMap]
  exact ⟨u, List.mem_filter.mpr ⟨hu, by simpa using htag⟩, top_part h2.once (child_find h2.once hb hu) a1 hin⟩

variable {L : XLib} {F R T : Nat → Prop} {p : Prog}

theorem cover_top (hc : Cover R T W) : ∀ (k : Forest), (∀ v ∈ k.toList, find v.1.id W = some v) → (∀ x ∈ roots k, ¬ T x) →
    ∀ t ∈ topTables k, R t.1.id ∧ find t.1.id W = some t ∧ t.1.id ∈ ids k
  | .nil, _, _, t, ht => by simp [topTables] at ht
  | .cons e k r, hf, hT, t, ht => by
    have hfe : find e.id W = some (e, k) := hf (e, k) (by simp [toList])
    have hTe : ¬ T e.id := hT e.id (by simp [roots, toList])
    have hr := cover_top hc r (fun v hv => hf v (by simp [toList, hv]))
      (fun x hx => hT x (by simp only [roots, toList_cons, List.map_cons, List.mem_cons]; exact .inr hx))
    simp only [topTables] at ht
    split at ht
    · rename_i he
      simp only [List.mem_cons] at ht
      rcases ht with rfl | ht
      · exact ⟨(hc.tables e.id (by rw [tagAt_find hfe, he])).resolve_right hTe, hfe, by simp [ids]⟩
      · obtain ⟨a, b, c⟩ := hr t ht
        exact ⟨a, b, by simp [ids, c]⟩
    · rename_i he
      simp only [List.mem_append] at ht
      rcases ht with ht | ht
      · have hk := cover_top hc k (fun v hv => child_find hc.once hfe hv) (fun x hx => by
          refine hc.top e.id _ _ x (node_of_find hfe) hx (fun h1 => ?_) hTe
          have := hc.table _ h1
          rw [tagAt_find hfe] at this
          exact he (Option.some.inj this))
        obtain ⟨a, b, c⟩ := hk t ht
        exact ⟨a, b, by simp [ids, c]⟩
      · obtain ⟨a, b, c⟩ := hr t ht
        exact ⟨a, b, by simp [ids, c]⟩

/-- The tables of the body, and all of them can be read. -/
theorem Ready.bodyTable (h : Ready L F R T tag p) {b : Tree} (hb : find p.text.session.tree.body.node p.world = some b) {t : Tree}
    (ht : t ∈ bodyTables b) : R t.1.id ∧ find t.1.id p.world = some t ∧ ¬ F t.1.id ∧ Legible t := by
  unfold bodyTables at ht
  obtain ⟨u, hu, ht⟩ := List.mem_flatMap.mp ht
  obtain ⟨hu, htag⟩ := List.mem_filter.mp hu
  have htag : u.1.tag ∉ declTags := by simpa using htag
  have hfu := child_find h.cover.once hb hu
  have hru : u.1.id ∈ Lxml.roots b.2 := List.mem_map_of_mem hu
  have hTu : ¬ T u.1.id := h.cover.top _ _ _ _ (node_of_find hb) hru h.body.1 h.body.2
  obtain ⟨a1, a2, a3⟩ := cover_top h.cover (single u) (by simpa [single, toList] using hfu)
    (by simpa [single, roots, toList] using hTu) t ht
  have hFu : ¬ F u.1.id := (h.fits.kept.free _ _ _ (node_of_find hb) hru).mpr fun tg htg => by
    rw [tagAt_find hfu]
    intro he
    exact htag (by rw [Option.some.inj he]; exact htg)
  have hF : ¬ F t.1.id := h.fits.kept.outside hFu hfu _ a3
  refine ⟨a1, a2, hF, ?_⟩
  by_cases ho : ∃ o ∈ p.tables, o.node = t.1.id
  · obtain ⟨o, ho, e⟩ := ho
    have := (h.sound o ho t (by rw [e]; exact a2)).legible
    exact this
  · exact h.others _ a1 hF (fun o ho' e => ho ⟨o, ho', e⟩) t a2

theorem OK.readable (h : OK L p) : Readable p.text.session := by
  obtain ⟨F, R, T, tag, h⟩ := h
  exact fun b hb t ht => (h.bodyTable hb ht).2.2.2

theorem bodyTables_mapT {g : Elem → Elem} (hg : ∀ e, (g e).tag = e.tag) (b : Tree) :
    bodyTables (mapT g b) = (bodyTables b).map (mapT g) := by
  unfold bodyTables
  show ((b.2.map g).toList.filter _).flatMap _ = _
  rw [toList_map, List.filter_map, List.flatMap_map, List.map_flatMap]
  have h1 : ((fun u : Tree => decide (u.1.tag ∉ declTags)) ∘ fun t : Tree => (g t.1, Forest.map g t.2)) =
      fun u => decide (u.1.tag ∉ declTags) := by
    funext u
    simp [hg]
  rw [h1]
  refine List.flatMap_congr fun u _ => ?_
  exact topTables_mapT hg (single u)

/-- The tables in the body that is read from a file can be read. -/
theorem legible_body {b b' : Tree} (h : data b' = shape b) (hb : ∀ t ∈ bodyTables b, Legible t) :
    ∀ t ∈ bodyTables b', Legible t := by
  intro t ht
  have h1 : bodyTables (data b') = (bodyTables b').map (mapT fun e => { e with id := 0 }) := by
    rw [data_mapT]; exact bodyTables_mapT (g := fun e => { e with id := 0 }) (fun _ => rfl) b'
  have h2 : bodyTables (shape b) = (bodyTables b).map (mapT written) := by
    rw [shape_mapT]; exact bodyTables_mapT (g := written) (fun _ => rfl) b
  have h3 : mapT (fun e => { e with id := 0 }) t ∈ bodyTables (shape b) := by
    rw [← h, h1]; exact List.mem_map_of_mem ht
  rw [h2] at h3
  obtain ⟨u, hu, e⟩ := List.mem_map.mp h3
  exact (legible_mapT (g := fun e => { e with id := 0 }) (fun _ => rfl) (fun _ => rfl) t).mp
    (e ▸ (legible_mapT (g := written) (fun _ => rfl) (fun _ => rfl) u).mpr (hb u hu))

/-! ## Places in the body -/

/-- No element on the way to the place is a table. -/
def Clear : Tree → List Nat → Prop
  | _, [] => True
  | b, k :: path => ∀ u, b.2.toList[k]? = some u → (path ≠ [] → u.1.tag ≠ "table:table") ∧ Clear u path

theorem at_mem {path : List Nat} {u t : Tree} (h : TextProg.at_ u path = some t) : t.1.id ∈ ids (single u) ∧
    (path ≠ [] → t.1.id ∈ ids u.2) := by
  induction path generalizing u with
  | nil => cases h; simp
  | cons k path ih =>
    unfold TextProg.at_ at h
    obtain ⟨v, hv, h⟩ := Option.bind_eq_some_iff.mp h
    have h1 := tree_sub (List.mem_of_getElem? hv) (ih h).1
    exact ⟨by simp [h1], fun _ => h1⟩

theorem clear_of (hc : Cover R T W) {path : List Nat} {b t : Tree} (hb : find b.1.id W = some b)
    (h : TextProg.at_ b path = some t) (ht : ¬ T t.1.id) : Clear b path := by
  induction path generalizing b with
  | nil => trivial
  | cons k path ih =>
    unfold TextProg.at_ at h
    obtain ⟨v, hv, h⟩ := Option.bind_eq_some_iff.mp h
    have hfv := child_find hc.once hb (List.mem_of_getElem? hv)
    intro u hu
    rw [hv] at hu
    cases hu
    refine ⟨fun hp he => ht ?_, ih hfv h⟩
    exact hc.below (hc.tables v.1.id (by rw [tagAt_find hfv, he])) hfv _ ((at_mem h).2 hp)

theorem clear_file {path : List Nat} {b b' : Tree} (h : data b' = shape b) (hc : Clear b path) : Clear b' path := by
  induction path generalizing b b' with
  | nil => trivial
  | cons k path ih =>
    intro u' hu'
    have hk := TextProg.kids_file h
    have hlen := hk.length_eq
    have h1 := (List.getElem?_eq_some_iff.mp hu').1
    have h2 : k < b.2.toList.length := by omega
    have h3 := hk.get h2 h1
    simp only [List.get_eq_getElem] at h3
    have hu := List.getElem?_eq_getElem h2
    rw [(List.getElem?_eq_some_iff.mp hu').2] at h3
    obtain ⟨a1, a2⟩ := hc _ hu
    refine ⟨fun hp => ?_, ih h3 a2⟩
    have : u'.1.tag = (b.2.toList[k]).1.tag := by
      have := congrArg (fun x : Tree => x.1.tag) h3
      exact this
    rw [this]
    exact a1 hp

theorem clear_top (hc : Cover R T W) {path : List Nat} {b t : Tree} (hb : find b.1.id W = some b) (ho : Out R T b.1.id)
    (hp : path ≠ []) (h : TextProg.at_ b path = some t) (hcl : Clear b path) (ht : t.1.tag = "table:table") :
    R t.1.id ∧ find t.1.id W = some t := by
  induction path generalizing b with
  | nil => exact absurd rfl hp
  | cons k path ih =>
    unfold TextProg.at_ at h
    obtain ⟨v, hv, h⟩ := Option.bind_eq_some_iff.mp h
    have hm := List.mem_of_getElem? hv
    have hfv := child_find hc.once hb hm
    have hTv : ¬ T v.1.id := hc.top _ _ _ _ (node_of_find hb) (List.mem_map_of_mem hm) ho.1 ho.2
    obtain ⟨a1, a2⟩ := hcl v hv
    by_cases hpe : path = []
    · subst hpe
      have h : v = t := Option.some.inj h
      subst h
      exact ⟨(hc.tables v.1.id (by rw [tagAt_find hfv, ht])).resolve_right hTv, hfv⟩
    · refine ih hfv ⟨fun hR => a1 hpe ?_, hTv⟩ hpe h a2
      have := hc.table _ hR
      rw [tagAt_find hfv] at this
      exact Option.some.inj this

/-- What is in a container of declarations belongs to the frame. -/
theorem decl_inside {d : Parts.DocTree} (h : Kept F W tag d) {b u : Tree} (hb : find d.body.node W = some b)
    (hu : u ∈ b.2.toList) (hF : F u.1.id) : ∀ x ∈ ids (single u), F x := by
  have hfu := child_find h.once hb hu
  refine TextProg.closed_tree h.once (single u) (by simpa [single, toList] using hfu) ?_ (by simpa [single, Lxml.roots, toList] using hF)
  intro q hq e l x hn hx hFq
  exact h.down q e l x hn hx hFq fun he => no_loop h.once hb hu (he ▸ hq)

/-- The way to a table of the body that is not inside of a table -/
theorem Ready.way (h : Ready L F R T tag p) {b t : Tree} (hb : find p.text.session.tree.body.node p.world = some b)
    {path : List Nat} (hat : TextProg.at_ b path = some t) (hR : R t.1.id) (hF : ¬ F t.1.id) :
    path ≠ [] ∧ Clear b path ∧ ∀ u, b.2.toList[path.headD 0]? = some u → u.1.tag ∉ declTags := by
  have hid := (find_mem_ids hb).1
  refine ⟨?_, clear_of h.cover (by rw [hid]; exact hb) hat (h.cover.apart _ hR), ?_⟩
  · rintro rfl
    cases hat
    exact h.body.1 (hid ▸ hR)
  · intro u hu htag
    cases path with
    | nil =>
      cases hat
      exact h.body.1 (hid ▸ hR)
    | cons k path =>
      unfold TextProg.at_ at hat
      have hu : b.2.toList[k]? = some u := hu
      rw [hu] at hat
      have hm := List.mem_of_getElem? hu
      refine hF (decl_inside h.fits.kept hb hm ?_ _ (at_mem hat).1)
      by_contra hno
      exact (h.fits.kept.free _ _ _ (node_of_find hb) (List.mem_map_of_mem hm)).mp hno u.1.tag htag
        (tagAt_find (child_find h.cover.once hb hm))

/-- The table at such a place -/
theorem Ready.place (h : Ready L F R T tag p) {b t : Tree} (hb : find p.text.session.tree.body.node p.world = some b)
    {path : List Nat} (hat : TextProg.at_ b path = some t) (hp : path ≠ []) (hcl : Clear b path)
    (hd : ∀ u, b.2.toList[path.headD 0]? = some u → u.1.tag ∉ declTags) (ht : t.1.tag = "table:table") :
    R t.1.id ∧ ¬ F t.1.id ∧ find t.1.id p.world = some t := by
  have hid := (find_mem_ids hb).1
  obtain ⟨a1, a2⟩ := clear_top h.cover (by rw [hid]; exact hb) (by rw [hid]; exact h.body) hp hat hcl ht
  refine ⟨a1, ?_, a2⟩
  cases path with
  | nil => exact absurd rfl hp
  | cons k path =>
    unfold TextProg.at_ at hat
    obtain ⟨u, hu, hat⟩ := Option.bind_eq_some_iff.mp hat
    have hm := List.mem_of_getElem? hu
    have hfu := child_find h.cover.once hb hm
    have hFu : ¬ F u.1.id := (h.fits.kept.free _ _ _ (node_of_find hb) (List.mem_map_of_mem hm)).mpr fun tg htg => by
      rw [tagAt_find hfu]
      intro he
      exact hd u hu (by rw [Option.some.inj he]; exact htg)
    exact h.fits.kept.outside hFu hfu _ (at_mem hat).1

end Verif.Mix
