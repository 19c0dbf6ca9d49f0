import Verif.Model.ClipperInt
/-!
# Clipper's preparation of paths (hole/clipper/lib/clipper.cpp:729-754, 860-869, 1045-1140, 3136-3175)

Circular doubly linked lists (`TEdge`, `OutPt`) are lists of nodes in the order of `Next`, starting
at the node the code is looking at; a node is its address (a number) and its point.  `Next` of the
first node is the second one and `Prev` the last one (a single node is its own neighbour); removing
the node (`RemoveEdge`, 745-753) is removing the head.  Only closed paths are modelled: Delynoi adds no others
(ClipperWrapper.cpp:16-17).
-/
namespace Delynoi.Clip

/-- A node: its address and its point. -/
abbrev Node := Nat × IPt

/-- clipper.cpp:860-869 `Pt2IsBetweenPt1AndPt3`. -/
def isBetween (p1 p2 p3 : IPt) : Bool :=
  if p1 = p3 ∨ p1 = p2 ∨ p3 = p2 then false
  else if p1.X ≠ p3.X then decide (p2.X > p1.X) == decide (p2.X < p3.X)
  else decide (p2.Y > p1.Y) == decide (p2.Y < p3.Y)

/-- The condition for removing a vertex between collinear edges (clipper.cpp:1101-1103 and
3156-3157); the first test is made first. -/
def spike (keep full : Bool) (p c n : IPt) : Outcome Bool := do
  let s ← slopesEqual3 p c n full
  return s && (!keep || !isBetween p c n)

/-- The variables of the loop clipper.cpp:1085-1117: the ring seen from `E`, `eLoopStop`, `eStart`. -/
structure PathLoop where
  ring : List Node
  stop : Nat
  start : Nat
  deriving DecidableEq

/-- The end of a loop: go on, or leave it. -/
inductive Next (α : Type)
  | more (s : α)
  | done (s : α)

/-- clipper.cpp:1088-1116, once around the loop (closed paths). -/
def pathStep (keep full : Bool) (s : PathLoop) : Outcome (Next PathLoop) :=
  match s.ring with
  | [] => .ub
  | e :: rest =>
    let nx := rest.headD e
    let pv := rest.getLastD e
    let start' := if e.1 = s.start then nx.1 else s.start
    if e.2 = nx.2 then
      if e.1 = nx.1 then .ok (.done s)
      else .ok (.more ⟨rest, nx.1, start'⟩)
    else if pv.1 = nx.1 then .ok (.done s)
    else do
      let b ← spike keep full pv.2 e.2 nx.2
      if b then return .more ⟨pv :: rest.dropLast, pv.1, start'⟩
      else if nx.1 = s.stop then return .done ⟨rest ++ [e], s.stop, s.start⟩
      else return .more ⟨rest ++ [e], s.stop, s.start⟩

/-- clipper.cpp:1086-1117, the loop; it is undefined behaviour to run out of steps. -/
def pathLoop (keep full : Bool) : Nat → PathLoop → Outcome PathLoop
  | 0, _ => .ub
  | fuel + 1, s => do
    match ← pathStep keep full s with
    | .done t => return t
    | .more t => pathLoop keep full fuel t

/-- clipper.cpp:1056 `while (highI > 0 && (pg[highI] == pg[0])) --highI`, on the reversed path. -/
def trimFirst (first : IPt) : List IPt → List IPt
  | a :: b :: l => if a = first then trimFirst first (b :: l) else a :: b :: l
  | l => l

/-- clipper.cpp:1057 `while (highI > 0 && (pg[highI] == pg[highI -1])) --highI`, on the reversed path. -/
def trimLast : List IPt → List IPt
  | a :: b :: l => if a = b then trimLast (b :: l) else a :: b :: l
  | l => l

/-- clipper.cpp:1055-1057: the points `pg[0], ..., pg[highI]`. -/
def trim (pg : List IPt) : List IPt :=
  match pg with
  | [] => []
  | p :: _ => (trimLast (trimFirst p pg.reverse)).reverse

/-- clipper.cpp:729-742 `InitEdge2`: an edge gets its lower end `Bot` (larger `Y`) and its upper end
`Top`; its direction `Dx` is not modelled. -/
structure PathEdge where
  curr : IPt
  bot : IPt
  top : IPt
  deriving DecidableEq

/-- clipper.cpp:731-739. -/
def initEdge (c n : IPt) : PathEdge := if c.Y ≥ n.Y then ⟨c, c, n⟩ else ⟨c, n, c⟩

/-- The nodes of a ring, starting at the one with address `i`. -/
def fromNode (i : Nat) (l : List Node) : List Node :=
  l.dropWhile (fun v => v.1 != i) ++ l.takeWhile (fun v => v.1 != i)

/-- clipper.cpp:1045-1151, stages 0 to 3 of `AddPath` for closed paths: `none` is `return false`,
otherwise the edges starting at `eStart`.  Also returned is `m_UseFullRange`. -/
def preparePath (keep : Bool) (full : Bool) (pg : List IPt) : Outcome (Option (List PathEdge) × Bool) :=
  let l := trim pg
  if l.length < 3 then .ok (none, full)
  else do
    let f ← rangeTests (l.take 1 ++ (l.drop 1).reverse) full
    let nodes : List Node := (List.range l.length).zip l
    let s ← pathLoop keep f (l.length * (l.length + 1) + 1) ⟨nodes, 0, 0⟩
    if s.ring.length < 3 then return (none, f)   -- `E->Prev == E->Next`
    else
      let pts := (fromNode s.start s.ring).map Prod.snd
      let flat := (pts.drop 1 ++ pts.take 1).all (fun p => decide (some p.Y = pts.head?.map IPt.Y))
      if flat then return (none, f)
      else return (some ((pts.zip (pts.drop 1 ++ pts.take 1)).map (fun e => initEdge e.1 e.2)), f)

/-- The variables of `FixupOutPolygon`: the ring seen from `pp`, and `lastOK`. -/
structure FixLoop where
  ring : List Node
  lastOK : Option Nat
  deriving DecidableEq

/-- The condition clipper.cpp:3155-3157. -/
def fixBad (keep full : Bool) (p c n : IPt) : Outcome Bool :=
  if c = n ∨ c = p then .ok true else spike keep full p c n

/-- clipper.cpp:3145-3172, once around the loop; `ring = []` stands for `outrec.Pts = 0`. -/
def fixStep (keep full : Bool) (s : FixLoop) : Outcome (Next FixLoop) :=
  match s.ring with
  | [] => .ub
  | e :: rest =>
    let nx := rest.headD e
    let pv := rest.getLastD e
    if pv.1 = e.1 ∨ pv.1 = nx.1 then .ok (.done ⟨[], s.lastOK⟩)
    else do
      let b ← fixBad keep full pv.2 e.2 nx.2
      if b then return .more ⟨pv :: rest.dropLast, none⟩
      else if s.lastOK = some e.1 then return .done s
      else return .more ⟨rest ++ [e], some (s.lastOK.getD e.1)⟩

/-- clipper.cpp:3145-3172, the loop. -/
def fixLoop (keep full : Bool) : Nat → FixLoop → Outcome FixLoop
  | 0, _ => .ub
  | fuel + 1, s => do
    match ← fixStep keep full s with
    | .done t => return t
    | .more t => fixLoop keep full fuel t

/-- clipper.cpp:3136-3174 `FixupOutPolygon` on the ring of an output polygon (not null); the points
in the order of `Next` from `outrec.Pts`. -/
def fixupOutPolygon (keep full : Bool) (pts : List IPt) : Outcome (List IPt) := do
  let s ← fixLoop keep full (2 * pts.length * (pts.length + 1) + 1) ⟨(List.range pts.length).zip pts, none⟩
  return s.ring.map Prod.snd

end Delynoi.Clip
