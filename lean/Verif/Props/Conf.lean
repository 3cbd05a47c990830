import Verif.Model.Conf
import Verif.Props.Copy
/-! # C73: the global configuration decides how tables are opened -/
set_option linter.unusedSimpArgs false
namespace Verif.Tbl
open Verif Verif.Forest Verif.Cells Verif.TSpec

/-- What a program does with the configuration. -/
inductive ConfOp
  | set (strategy : String) (maxcount : Option (Int × Int))
  | reset

def ConfOp.step (c : Config) : ConfOp → Config
  | .set n m => c.set n m
  | .reset => c.reset

/-- The configuration after a history of calls, from the import of the library on. -/
def configured (l : List ConfOp) : Config := l.foldl ConfOp.step .initial

/-- What the documentation says is in force: the last setting; `all_less_maxcount` with (32, 32) if there
was none or it was reset.  A setting without maxcount means (32, 32). -/
inductive InForce : List ConfOp → String → Int × Int → Prop
  | nothing : InForce [] "all_less_maxcount" (32, 32)
  | reset (l) : InForce (l ++ [.reset]) "all_less_maxcount" (32, 32)
  | set (l n m) : InForce (l ++ [.set n (some m)]) n m
  | setDefault (l n) : InForce (l ++ [.set n none]) n (32, 32)

theorem inForce {l : List ConfOp} {n : String} {m : Int × Int} (h : InForce l n m) : configured l = ⟨n, m⟩ := by
  cases h <;> simp [configured, ConfOp.step, Config.set, Config.reset, Config.initial]

/-- Some setting is always in force. -/
theorem inForce_total (l : List ConfOp) : ∃ n m, InForce l n m := by
  rcases List.eq_nil_or_concat l with rfl | ⟨l, o, rfl⟩
  · exact ⟨_, _, .nothing⟩
  · cases o with
    | reset => exact ⟨_, _, by simpa using InForce.reset l⟩
    | set n m => cases m with
      | none => exact ⟨_, _, by simpa using InForce.setDefault l n⟩
      | some m => exact ⟨_, _, by simpa using InForce.set l n m⟩

/-- **C73** under the setting in force (after any history of calls) a stored table is opened with the
documented counts. -/
theorem C73_open {l : List ConfOp} {n : String} {mx : Int × Int} (hl : InForce l n mx) {s : TState}
    {nr nc : Elem → Nat} (h : StoredTable s nr nc) :
    (n = "all" → ∃ s', openTable (configured l) s = (s', .ok ()) ∧
      Opened s s' (gridBy id id (storedRows s nr nc)) (rle (storedCols s nc))) ∧
    (n = "all_but_last" → ∃ s', openTable (configured l) s = (s', .ok ()) ∧
      Opened s s' (gridBy lastOnce lastOnce (storedRows s nr nc)) (rle (lastOnce (storedCols s nc)))) ∧
    (n = "all_less_maxcount" → 1 < mx.1 ∧ 1 < mx.2 → ∃ s', openTable (configured l) s = (s', .ok ()) ∧
      Opened s s' (gridBy (lessMax mx.1) (lessMax mx.2) (storedRows s nr nc))
        (rle (lessMax mx.2 (storedCols s nc)))) := by
  unfold openTable
  rw [inForce hl]
  refine ⟨?_, ?_, ?_⟩
  · rintro rfl; exact C15_grid h mx
  · rintro rfl; exact C16_all_but_last h mx
  · rintro rfl hm; exact C16_less_maxcount h hm

/-- **C73** a program that never changed the configuration, or has just reset it: counts below 32 are
expanded, others count once. -/
theorem C73_default {l l' : List ConfOp} (hl : l = [] ∨ l = l' ++ [.reset]) {s : TState}
    {nr nc : Elem → Nat} (h : StoredTable s nr nc) :
    ∃ s', openTable (configured l) s = (s', .ok ()) ∧
      Opened s s' (gridBy (lessMax 32) (lessMax 32) (storedRows s nr nc)) (rle (lessMax 32 (storedCols s nc))) := by
  have hf : InForce l "all_less_maxcount" (32, 32) := by
    rcases hl with rfl | rfl
    · exact .nothing
    · exact .reset l'
  exact (C73_open hf h).2.2 rfl (by decide)

/-- **C73** an unknown strategy in force: every table is refused with TypeError and left as it is; also new
tables and copies cannot be made. -/
theorem C73_unknown {l : List ConfOp} {n : String} {mx : Int × Int} (hl : InForce l n mx)
    (hn : n ∉ ["all", "all_but_last", "all_less_maxcount"]) :
    (∀ s : TState, s.node.tag = "table:table" → openTable (configured l) s = (s, .error .TypeError)) ∧
    (∀ id name size, (makeTable (configured l) id name size).2 = .error .TypeError) ∧
    (∀ (s : TState) newname, s.node.tag = "table:table" →
      copyTable (configured l).strategy (configured l).maxcount newname s = .error .TypeError) := by
  have hs : strategyOf n = none := by
    simp only [List.mem_cons, List.not_mem_nil, or_false, not_or] at hn
    unfold strategyOf
    rw [if_neg hn.1, if_neg hn.2.1, if_neg hn.2.2]
  have hload : ∀ s : TState, s.node.tag = "table:table" → load n mx s = (s, .error .TypeError) := by
    intro s ht
    unfold load
    rw [if_neg (by simpa using ht), hs]
  rw [inForce hl]
  refine ⟨fun s ht => ?_, fun id name size => ?_, fun s newname ht => ?_⟩
  · exact hload s ht
  · unfold makeTable openTable
    rw [Py.bind_error (hload _ rfl)]
  · unfold copyTable
    rw [hload (cloneTable s) ht]

/-- **C73** the configuration does not matter for new tables, as long as the strategy is a known one (whatever
the maxcount). -/
theorem C73_new {l : List ConfOp} {n : String} {mx : Int × Int} (hl : InForce l n mx)
    (hn : n ∈ ["all", "all_but_last", "all_less_maxcount"]) (id : Nat) (name : Str) (size : Int × Int) :
    makeTable (configured l) id name size = newTable id name size := by
  have hload : load n mx (stored { id := id, tag := "table:table" } .nil (id + 1)) =
      (stored { id := id, tag := "table:table" } .nil (id + 1), .ok ()) := by
    simp only [List.mem_cons, List.not_mem_nil, or_false] at hn
    rcases hn with rfl | rfl | rfl <;> rfl
  rw [inForce hl]
  unfold makeTable openTable newTable
  rw [Py.bind_ok hload]
  rfl

/-- **C73** tables whose element is another one are refused with ValueError under every configuration. -/
theorem C73_no_table (c : Config) (s : TState) (h : s.node.tag ≠ "table:table") :
    openTable c s = (s, .error .ValueError) := by
  unfold openTable load
  rw [if_pos h]

example : InForce [.set "all" none, .reset, .set "all_but_last" (some (2, 3))] "all_but_last" (2, 3) :=
  .set [_, _] _ _

example : ("everything" : String) ∉ ["all", "all_but_last", "all_less_maxcount"] := by decide

end Verif.Tbl
