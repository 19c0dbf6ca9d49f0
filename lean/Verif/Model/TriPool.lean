import Verif.Model.Outcome
/-!
# Triangle's memory pools

`delynoi/include/delynoi/voronoi/lib/triangle.c:3882-4150` (`poolrestart` on a new pool, `poolinit`,
`poolalloc`, `pooldealloc`, `traversalinit`, `traverse`) and 4573-4605 (`getvertex`).

An item is known by the number of its block and its place in the block; alignment and sizes in bytes are left
out (different places have different addresses, and the end of a block is not the start of another one).  A
dead item holds the link to the next dead item: the stack of dead items is a list (nothing else is written to
a dead item).
-/
namespace Delynoi.Tri

/-- An item: block and place in the block. -/
abbrev Item := Nat × Nat

/-- `struct memorypool` (triangle.c:621-634); `blocks` is the length of the list of blocks. -/
structure Pool where
  itemsfirstblock : Nat
  itemsperblock : Nat
  blocks : Nat
  nowblock : Nat
  nextitem : Item
  unallocateditems : Nat
  maxitems : Nat
  items : Nat
  dead : List Item

/-- triangle.c:3928-3988 `poolinit` with 3882-3914 `poolrestart`; `itemcount` and `firstitemcount` as given. -/
def poolinit (itemcount firstitemcount : Nat) : Pool :=
  let itemsfirstblock := if firstitemcount = 0 then itemcount else firstitemcount
  { itemsfirstblock := itemsfirstblock, itemsperblock := itemcount, blocks := 1, nowblock := 0, nextitem := (0, 0),
    unallocateditems := itemsfirstblock, maxitems := 0, items := 0, dead := [] }

namespace Pool

/-- triangle.c:3997-4050 `poolalloc`; a new block is made if the list of blocks ends. -/
def alloc (p : Pool) : Item × Pool :=
  match p.dead with
  | d :: ds => (d, { p with dead := ds, items := p.items + 1 })
  | [] =>
    let p :=
      if p.unallocateditems = 0 then
        { p with blocks := if p.nowblock + 1 = p.blocks then p.blocks + 1 else p.blocks, nowblock := p.nowblock + 1,
                 nextitem := (p.nowblock + 1, 0), unallocateditems := p.itemsperblock }
      else p
    (p.nextitem, { p with nextitem := (p.nextitem.1, p.nextitem.2 + 1), unallocateditems := p.unallocateditems - 1,
                          maxitems := p.maxitems + 1, items := p.items + 1 })

/-- triangle.c:4060-4073 `pooldealloc`. -/
def dealloc (p : Pool) (x : Item) : Pool := { p with dead := x :: p.dead, items := p.items - 1 }

/-- `pathblock`, `pathitem`, `pathitemsleft`. -/
structure Path where
  block : Nat
  item : Item
  left : Nat

/-- triangle.c:4083-4103 `traversalinit`. -/
def traversalinit (p : Pool) : Path := ⟨0, (0, 0), p.itemsfirstblock⟩

/-- triangle.c:4119-4154 `traverse`; following the link of the last block is `ub`. -/
def traverse (p : Pool) (c : Path) : Outcome (Option Item × Path) :=
  if c.item = p.nextitem then .ok (none, c)
  else do
    let c ← (if c.left = 0 then (if c.block + 1 < p.blocks then .ok ⟨c.block + 1, (c.block + 1, 0), p.itemsperblock⟩ else .ub) else .ok c)
    .ok (some c.item, ⟨c.block, (c.item.1, c.item.2 + 1), c.left - 1⟩)

/-- The loops over all items: `traverse` until it returns NULL; a loop that does not end runs out of fuel (`ub`). -/
def walk (p : Pool) : Nat → Path → Outcome (List Item)
  | 0, _ => .ub
  | fuel + 1, c => do
    let r ← p.traverse c
    match r.1 with
    | none => .ok []
    | some x => do
      let l ← p.walk fuel r.2
      .ok (x :: l)

/-- triangle.c:4594-4597: the loop of `getvertex`; the result has the block and the number of its first item. -/
def seek (p : Pool) (number : Int) : Nat → Nat → Int → Outcome (Nat × Int)
  | 0, _, _ => .ub
  | fuel + 1, block, current =>
    if current + p.itemsperblock ≤ number then
      if block + 1 < p.blocks then p.seek number fuel (block + 1) (current + p.itemsperblock) else .ub
    else .ok (block, current)

/-- triangle.c:4573-4605 `getvertex`. -/
def getvertex (p : Pool) (firstnumber number : Int) (fuel : Nat) : Outcome Item := do
  let r ← (if firstnumber + p.itemsfirstblock ≤ number then
      (if 1 < p.blocks then p.seek number fuel 1 (firstnumber + p.itemsfirstblock) else .ub)
    else .ok (0, firstnumber))
  if number < r.2 then .ub else .ok (r.1, (number - r.2).toNat)

end Pool

end Delynoi.Tri
