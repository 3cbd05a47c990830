import Verif.Model.Dict
/-!
# Model of `ezodf/wrapcache.py`

The cache is keyed by `id(element)`: the memory address of the lxml proxy of a node.  lxml keeps one
proxy per node as long as it is referenced; when it is gone the next access allocates a new one, at any
address that is not in use.  The allocator is the parameter `pick`: `pick k used` is the address of the
`k`-th allocation when the addresses `used` are in use.  A wrapper object holds its `xmlnode`, so a
proxy referenced by a cached wrapper stays.
-/
namespace Verif.WrapCache
open Verif

/-- A wrapper object: its own identity, the node it wraps and the address of the proxy of the node
(`id(self.xmlnode)`). -/
structure Obj where
  id : Nat
  node : Nat
  addr : Nat
  deriving DecidableEq, Repr

/-- The live proxies (node ↦ address), `_cache`, wrapcache.py:12-14 (address ↦ wrapper), and the
numbers of objects and proxies created so far. -/
structure Heap where
  proxies : Dict Nat Nat := []
  cache : Dict Nat Obj := []
  objects : Nat := 0
  allocs : Nat := 0
  deriving DecidableEq, Repr

/-- Access to a node: its live proxy, or a new one. -/
def touch (pick : Nat → List Nat → Nat) (n : Nat) (h : Heap) : Heap × Nat :=
  match h.proxies.get n with
  | some a => (h, a)
  | none =>
    let a := pick h.allocs (Dict.values h.proxies)
    ({ h with proxies := h.proxies.set n a, allocs := h.allocs + 1 }, a)

/-- The last reference of the program to the proxy of a node goes away: the proxy is destroyed,
unless a cached wrapper refers to it. -/
def release (n : Nat) (h : Heap) : Heap :=
  if (Dict.values h.cache).any (fun o => o.node = n) then h
  else { h with proxies := h.proxies.del n }

/-- `add`, wrapcache.py:25-26. -/
def add (o : Obj) (h : Heap) : Heap := { h with cache := h.cache.set o.addr o }

/-- `uncached_wrap` (xmlns.py:87-93) of a node: a new wrapper object; `isTable` says that the class
is `Table`, whose constructor calls `wrapcache.add(self)` (table.py:45). -/
def uncachedWrap (pick : Nat → List Nat → Nat) (isTable : Bool) (n : Nat) (h : Heap) : Heap × Obj :=
  let (h, a) := touch pick n h
  let o : Obj := ⟨h.objects, n, a⟩
  let h := { h with objects := h.objects + 1 }
  (if isTable then add o h else h, o)

/-- `wrap`, wrapcache.py:16-23. -/
def wrap (pick : Nat → List Nat → Nat) (isTable : Bool) (n : Nat) (h : Heap) : Heap × Obj :=
  let (h, key) := touch pick n h
  match h.cache.get key with
  | some o => (h, o)
  | none =>
    let (h, o) := uncachedWrap pick isTable n h
    (add o h, o)

/-- `remove`, wrapcache.py:28-29. -/
def remove (o : Obj) : Py Heap Unit := fun h =>
  match h.cache.get o.addr with
  | none => (h, .error .KeyError)
  | some _ => ({ h with cache := h.cache.del o.addr }, .ok ())

/-- `clear`, wrapcache.py:31-32. -/
def clear (h : Heap) : Heap := { h with cache := [] }

end Verif.WrapCache
