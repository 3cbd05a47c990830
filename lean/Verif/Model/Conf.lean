import Verif.Model.TableCopy
/-! # Model of `conf.py`: the global configuration, and of making tables under it -/
namespace Verif.Tbl
open Verif Verif.Cells

/-- `TableExpandStrategyConfig`, conf.py:13-34.  Strategies are strings; other objects are not modelled. -/
structure Config where
  strategy : String
  maxcount : Int × Int
  deriving DecidableEq

/-- `set_strategy(strategy, maxcount)` and `Config.set_table_expand_strategy`, conf.py:20-22 and 42-53;
without `maxcount` the default of const.py:216 is taken. -/
def Config.set (strategy : String) (maxcount : Option (Int × Int)) (_ : Config) : Config :=
  ⟨strategy, maxcount.getD (32, 32)⟩

/-- `reset` and `Config.reset_table_expand_strategy`, conf.py:17-18 and 55-60, with the constants of
const.py:215-216. -/
def Config.reset (c : Config) : Config := c.set "all_less_maxcount" (some (32, 32))

/-- `Config()`, conf.py:14-15 and 39-40: what was there before does not matter. -/
def Config.initial : Config := Config.reset ⟨"", (0, 0)⟩

/-- `Table(xmlnode=…)`, table.py:30-45, under a configuration, conf.py:24-34. -/
def openTable (c : Config) : Py TState Unit := load c.strategy c.maxcount

/-- `Table(name, size)`, table.py:30-45: the controllers are made for the empty element first. -/
def makeTable (c : Config) (id : Nat) (name : Str) (size : Int × Int) : TState × Except Exc Unit :=
  (do openTable c
      setName (some name)
      cellsReset size
      colsReset size.2 : Py TState Unit)
    (stored { id := id, tag := "table:table" } .nil (id + 1))

end Verif.Tbl
