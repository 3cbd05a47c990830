import Verif.Proofs.Xmlns
/-! # C48: namespace expansion -/
namespace Verif.Xmlns
open Verif

/-- What a program can do with the namespaces. -/
inductive Op where
  | register (pfx uri : Str)
  | call (tag : Str)

/-- The state after a history; failed calls are caught by the program. -/
def after (s : NS) : List Op → NS
  | [] => s
  | .register p u :: h => after (register p u s).1 h
  | .call t :: h => after (cn t s).1 h

/-- Specification: the registrations made by a history, oldest first -/
def registrations : List Op → List (Str × Str)
  | [] => []
  | .register p u :: h => (p, u) :: registrations h
  | .call _ :: h => registrations h

/-- Specification: the URI registered last for a prefix -/
def lastUri (regs : List (Str × Str)) (p : Str) : Option Str :=
  (regs.reverse.find? fun e => e.1 = p).map Prod.snd

theorem after_ok (h : List Op) (s : NS) (hs : CacheOk s) : CacheOk (after s h) := by
  induction h generalizing s with
  | nil => exact hs
  | cons o h ih => cases o with
    | register p u => exact ih _ (register_ok p u s)
    | call t => exact ih _ (cn_ok t s hs)

theorem after_get (h : List Op) (s : NS) (p : Str) :
    (after s h).prefix2uri.get p = (lastUri (registrations h) p).or (s.prefix2uri.get p) := by
  induction h generalizing s with
  | nil => simp [after, registrations, lastUri]
  | cons o h ih => cases o with
    | call t => rw [after, ih, cn_prefix2uri]; rfl
    | register p' u =>
      rw [after, ih]
      simp only [register, Dict.get_set, registrations, lastUri, List.reverse_cons,
        List.find?_append, List.find?_cons, List.find?_nil]
      cases List.find? (fun e => decide (e.1 = p)) (registrations h).reverse with
      | some x => simp
      | none => by_cases hp : p' = p <;> simp [hp]

theorem created_get (ns : Dict Str Str) (h : List Op) (p : Str) :
    (after (create ns) h).prefix2uri.get p = lastUri (ns ++ registrations h) p := by
  rw [after_get]
  unfold create
  rw [update_prefix2uri]
  unfold lastUri
  rw [List.reverse_append, List.find?_append]
  cases List.find? (fun e => decide (e.1 = p)) (registrations h).reverse <;>
    simp

/-- C48: a prefixed name expands with the URI registered last for its prefix, whatever was called
before; an unknown prefix raises KeyError. -/
theorem C48_prefixed (ns : Dict Str Str) (h : List Op) (p l : Str) (hp : ':' ∉ p) (hl : ':' ∉ l)
    (hb : p.head? ≠ some '{') :
    (cn (p ++ ':' :: l) (after (create ns) h)).2 =
      match lastUri (ns ++ registrations h) p with
      | some u => .ok (['{'] ++ u ++ ['}'] ++ l)
      | none => .error .KeyError := by
  rw [cn_result _ _ (after_ok h _ (create_ok ns))]
  have key : prefix2clark (after (create ns) h) (p ++ ':' :: l) =
      match lastUri (ns ++ registrations h) p with
      | some u => .ok (['{'] ++ u ++ ['}'] ++ l)
      | none => .error .KeyError := by
    unfold prefix2clark
    rw [splitPrefix_eq p l hp hl]
    simp only [created_get]
    cases lastUri (ns ++ registrations h) p <;> simp
  rw [← key]
  cases p with
  | nil => simp
  | cons c p =>
    have : c ≠ '{' := by simpa using hb
    simp [this]

/-- C48: names in Clark notation are returned unchanged. -/
theorem C48_clark (ns : Dict Str Str) (h : List Op) (t : Str) :
    (cn ('{' :: t) (after (create ns) h)).2 = .ok ('{' :: t) := by
  rw [cn_result _ _ (after_ok h _ (create_ok ns))]; simp

/-- C48: names with no colon or several raise ValueError, the empty name IndexError. -/
theorem C48_malformed (ns : Dict Str Str) (h : List Op) (t : Str) (hc : t.count ':' ≠ 1)
    (hb : t.head? ≠ some '{') :
    (cn t (after (create ns) h)).2 = .error (if t = [] then .IndexError else .ValueError) := by
  rw [cn_result _ _ (after_ok h _ (create_ok ns))]
  cases t with
  | nil => rfl
  | cons c t =>
    have : c ≠ '{' := by simpa using hb
    simp only [this, if_false, prefix2clark, splitPrefix, if_neg hc]
    simp

/-- C48: earlier calls do not matter: histories with the same registrations give the same
answers, results and exceptions alike. -/
theorem C48_cache (ns : Dict Str Str) (h h' : List Op) (hr : registrations h = registrations h')
    (t : Str) :
    (cn t (after (create ns) h)).2 = (cn t (after (create ns) h')).2 := by
  rw [cn_result _ _ (after_ok h _ (create_ok ns)), cn_result _ _ (after_ok h' _ (create_ok ns))]
  rw [prefix2clark_congr (s' := after (create ns) h') (fun p => by
    rw [created_get, created_get, hr])]

/-- C48: expansion is idempotent, also when other calls and registrations come in between. -/
theorem C48_idempotent (ns : Dict Str Str) (h h' : List Op) (t r : Str)
    (hr : (cn t (after (create ns) h)).2 = .ok r) :
    (cn r (after (create ns) h')).2 = .ok r := by
  have hb : ∃ x, r = '{' :: x := by
    rw [cn_result _ _ (after_ok h _ (create_ok ns))] at hr
    cases t with
    | nil => cases hr
    | cons c t =>
      by_cases hc : c = '{'
      · subst hc; simp at hr; exact ⟨t, hr.symm⟩
      · simp only [hc, if_false] at hr
        unfold prefix2clark at hr
        split at hr
        · cases hr
        · split at hr
          · cases hr
          · rename_i u _
            simp at hr; exact ⟨_, hr.symm⟩
  obtain ⟨x, rfl⟩ := hb
  exact C48_clark ns h' x

theorem brace_inj {u v l m : Str} (hu : '}' ∉ u) (hv : '}' ∉ v)
    (h : u ++ '}' :: l = v ++ '}' :: m) : u = v ∧ l = m := by
  induction u generalizing v with
  | nil => cases v with
    | nil => simpa using h
    | cons c v => simp at h hv; exact absurd h.1 hv.1
  | cons c u ih => cases v with
    | nil => simp at h hu; exact absurd h.1.symm hu.1
    | cons d v =>
      simp only [List.cons_append, List.cons.injEq] at h
      simp at hu hv
      obtain ⟨rfl, h⟩ := h
      obtain ⟨h1, h2⟩ := ih hu.2 hv.2 h
      exact ⟨by rw [h1], h2⟩

theorem odf_uris : (ALL_NSMAP.map Prod.snd).Nodup ∧ (∀ e ∈ ALL_NSMAP, '}' ∉ e.2) ∧
    (ALL_NSMAP.map Prod.fst).Nodup := by decide +kernel

theorem nodup_snd {l : List (Str × Str)} (h : (l.map Prod.snd).Nodup) {a b u : Str}
    (ha : (a, u) ∈ l) (hb : (b, u) ∈ l) : a = b := by
  induction l with
  | nil => cases ha
  | cons e l ih =>
    simp only [List.map_cons, List.nodup_cons] at h
    rcases List.mem_cons.1 ha with h1 | h1 <;> rcases List.mem_cons.1 hb with h2 | h2
    · rw [← h1] at h2; exact (congrArg Prod.fst h2).symm
    · exact absurd (List.mem_map.2 ⟨_, h2, by rw [← h1]⟩) h.1
    · exact absurd (List.mem_map.2 ⟨_, h1, by rw [← h2]⟩) h.1
    · exact ih h.2 h1 h2

theorem lastUri_mem {l : List (Str × Str)} {p u : Str} (h : lastUri l p = some u) :
    (p, u) ∈ l := by
  unfold lastUri at h
  cases hf : List.find? (fun e => decide (e.1 = p)) l.reverse with
  | none => rw [hf] at h; cases h
  | some e =>
    rw [hf] at h
    have h1 := List.find?_some hf
    have h2 := List.mem_of_find?_eq_some hf
    simp at h h1 h2
    rw [← h1, ← h]; exact h2

/-- Injectivity for any namespaces with distinct URIs without a closing brace. -/
theorem injective_of (ns : Dict Str Str) (hu : (ns.map Prod.snd).Nodup)
    (hbr : ∀ e ∈ ns, '}' ∉ e.2) (h : List Op) (hr : registrations h = []) (p l p' l' r : Str)
    (hp : ':' ∉ p) (hl : ':' ∉ l) (hb : p.head? ≠ some '{')
    (hp' : ':' ∉ p') (hl' : ':' ∉ l') (hb' : p'.head? ≠ some '{')
    (h1 : (cn (p ++ ':' :: l) (after (create ns) h)).2 = .ok r)
    (h2 : (cn (p' ++ ':' :: l') (after (create ns) h)).2 = .ok r) : p = p' ∧ l = l' := by
  rw [C48_prefixed _ _ _ _ hp hl hb, hr, List.append_nil] at h1
  rw [C48_prefixed _ _ _ _ hp' hl' hb', hr, List.append_nil] at h2
  cases e1 : lastUri ns p with
  | none => rw [e1] at h1; cases h1
  | some u =>
    cases e2 : lastUri ns p' with
    | none => rw [e2] at h2; cases h2
    | some u' =>
      rw [e1] at h1; rw [e2] at h2
      have h3 : ['{'] ++ u ++ ['}'] ++ l = ['{'] ++ u' ++ ['}'] ++ l' := by
        injection h1 with h1; injection h2 with h2
        rw [h1, h2]
      have m1 := lastUri_mem e1
      have m2 := lastUri_mem e2
      have h4 := brace_inj (hbr _ m1) (hbr _ m2) (by simpa using h3)
      refine ⟨?_, h4.2⟩
      have h5 : u = u' := h4.1
      rw [← h5] at m2
      exact nodup_snd hu m1 m2

/-- C48: after any calls, distinct prefixed names of the ODF namespaces expand to distinct names. -/
theorem C48_injective (h : List Op) (hr : registrations h = []) (p l p' l' r : Str)
    (hp : ':' ∉ p) (hl : ':' ∉ l) (hb : p.head? ≠ some '{')
    (hp' : ':' ∉ p') (hl' : ':' ∉ l') (hb' : p'.head? ≠ some '{')
    (h1 : (cn (p ++ ':' :: l) (after XML h)).2 = .ok r)
    (h2 : (cn (p' ++ ':' :: l') (after XML h)).2 = .ok r) : p = p' ∧ l = l' :=
  injective_of _ odf_uris.1 odf_uris.2.1 h hr p l p' l' r hp hl hb hp' hl' hb' h1 h2

/-- The namespaces of OpenDocument 1.1 (section 1.3) and 1.2 that occur in documents: prefix and, for those of
OASIS, the part between `urn:oasis:names:tc:opendocument:xmlns:` and `:1.0`. -/
def oasis : List (String × String) :=
  [("office", "office"), ("meta", "meta"), ("config", "config"), ("text", "text"), ("table", "table"),
   ("draw", "drawing"), ("presentation", "presentation"), ("dr3d", "dr3d"), ("anim", "animation"),
   ("chart", "chart"), ("form", "form"), ("script", "script"), ("style", "style"), ("number", "datastyle"),
   ("manifest", "manifest"), ("fo", "xsl-fo-compatible"), ("svg", "svg-compatible"), ("smil", "smil-compatible")]

/-- The namespaces of other bodies that the standard uses. -/
def foreign : List (String × String) :=
  [("dc", "http://purl.org/dc/elements/1.1/"), ("xlink", "http://www.w3.org/1999/xlink"),
   ("math", "http://www.w3.org/1998/Math/MathML"), ("xforms", "http://www.w3.org/2002/xforms"),
   ("dom", "http://www.w3.org/2001/xml-events"), ("xhtml", "http://www.w3.org/1999/xhtml"),
   ("grddl", "http://www.w3.org/2003/g/data-view#"), ("xsd", "http://www.w3.org/2001/XMLSchema"),
   ("xsi", "http://www.w3.org/2001/XMLSchema-instance"),
   ("of", "urn:oasis:names:tc:opendocument:xmlns:of:1.2")]

/-- The namespaces of the standard. -/
def standard : List (Str × Str) :=
  oasis.map (fun e => (e.1.toList, "urn:oasis:names:tc:opendocument:xmlns:".toList ++ e.2.toList ++ ":1.0".toList)) ++
  foreign.map fun e => (e.1.toList, e.2.toList)

theorem standard_uri : ∀ e ∈ standard, lastUri ALL_NSMAP e.1 = some e.2 ∧ ':' ∉ e.1 ∧ e.1.head? ≠ some '{' := by
  decide +kernel

/-- C48: the prefixes of the OpenDocument standard stand for the namespaces of the standard, as long as the
program registers nothing else for them. -/
theorem C48_standard (h : List Op) {p u : Str} (hs : (p, u) ∈ standard) (hr : ∀ v, (p, v) ∉ registrations h)
    (l : Str) (hl : ':' ∉ l) : (cn (p ++ ':' :: l) (after XML h)).2 = .ok (['{'] ++ u ++ ['}'] ++ l) := by
  obtain ⟨h1, h2, h3⟩ := standard_uri _ hs
  have h4 : lastUri (ALL_NSMAP ++ registrations h) p = lastUri ALL_NSMAP p := by
    unfold lastUri
    rw [List.reverse_append, List.find?_append]
    have : List.find? (fun e => decide (e.1 = p)) (registrations h).reverse = none := by
      rw [List.find?_eq_none]
      rintro ⟨a, v⟩ ha
      have ha2 := List.mem_reverse.1 ha
      simp only [decide_eq_true_eq]
      rintro rfl
      exact hr v ha2
    rw [this, Option.none_or]
  unfold XML
  rw [C48_prefixed _ _ _ _ h2 hl h3, h4, h1]

/-! ## Examples -/

deriving instance DecidableEq for Except

/-- Calls that fill the cache, then a registration that changes what was cached. -/
example :
    let h := [Op.call "text:p".toList, .call "text:p".toList, .register "text".toList "urn:x".toList,
      .call "bad".toList]
    (cn "text:p".toList (after XML h)).2 = .ok "{urn:x}p".toList ∧
    (cn "text:p".toList (after XML (h.take 2))).2 =
      .ok "{urn:oasis:names:tc:opendocument:xmlns:text:1.0}p".toList := by
  decide +kernel

example : (cn "nope:p".toList XML).2 = .error .KeyError ∧
    (cn "a:b:c".toList XML).2 = .error .ValueError ∧ (cn [] XML).2 = .error .IndexError := by
  decide +kernel

example : (cn "office:p".toList (after XML [.call "text:p".toList])).2 =
    .ok "{urn:oasis:names:tc:opendocument:xmlns:office:1.0}p".toList := by decide +kernel

end Verif.Xmlns
