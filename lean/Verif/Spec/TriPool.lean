import Verif.Model.TriPool
/-!
# Memory pools: histories
-/
namespace Delynoi.Tri

/-- The place of the item number `k` of blocks with `per` items, of which the first has `first`. -/
def slot (first per k : Nat) : Item := if k < first then (0, k) else ((k - first) / per + 1, (k - first) % per)

/-- The pools that can be reached from a new one; `live` are the items taken and not given back.  Only those are given back. -/
inductive Reach (first per : Nat) : Pool → List Item → Prop
  | init : Reach first per (poolinit per first) []
  | alloc {p live} : Reach first per p live → Reach first per p.alloc.2 (p.alloc.1 :: live)
  | dealloc {p live x} : Reach first per p live → x ∈ live → Reach first per (p.dealloc x) (live.erase x)

end Delynoi.Tri
