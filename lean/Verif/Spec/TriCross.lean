import Verif.Spec.TriInsert
import Verif.Model.TriCross
/-!
# A subsegment cut by a segment

What it means that a subsegment has been cut where another segment crosses it.
-/
namespace Delynoi.Tri

/-- The subsegment `ss` from `l` to `r` has been cut at `nv`: the edge from `l` to `nv` has it now, the
one from `nv` to `r` has a new one with the same mark, all others have stayed at their edges, and there
are no others.  The segments of both parts end at `nv` now, and are not linked.  The new vertex has the mark of the subsegment. -/
structure SubCut (s : Segs) (L : Nat → Prop) (s' : Segs) (L' : Nat → Prop) (ss : Osub) (r l nv : Nat) : Prop where
  kept : ∀ y v w, s.mesh.Dir L y v w → (s.mesh.sub y).1 ≠ 0 → (s.mesh.sub y).1 ≠ ss.1 →
    ∃ z, s'.mesh.Dir L' z v w ∧ s'.mesh.sub z = s.mesh.sub y
  left : ∃ z, s'.mesh.Dir L' z nv l ∧ s'.mesh.sub z = ss
  leftEnds : s'.segorg ss = s.segorg ss ∧ s'.segdest ss = some nv
  right : ∃ z, s'.mesh.Dir L' z r nv ∧ (s'.mesh.sub z).1 = s.count + 1 ∧ s'.segorg (s'.mesh.sub z) = some nv ∧
    s'.segdest (s'.mesh.sub z) = s.segdest ss
  only : ∀ z v w, s'.mesh.Dir L' z v w → (s'.mesh.sub z).1 ≠ 0 →
    (∃ y, s.mesh.Dir L y v w ∧ s.mesh.sub y = s'.mesh.sub z ∧ (s.mesh.sub y).1 ≠ ss.1) ∨
    (((v = nv ∧ w = l) ∨ (v = l ∧ w = nv)) ∧ (s'.mesh.sub z).1 = ss.1) ∨
    (((v = r ∧ w = nv) ∨ (v = nv ∧ w = r)) ∧ (s'.mesh.sub z).1 = s.count + 1)
  count : s'.count = s.count + 1
  mark : s'.smark (s.count + 1) = s.smark ss.1
  smark : ∀ n, 0 < n → n ≤ s.count → s'.smark n = s.smark n
  segend : ∀ o : Osub, o.1 ≤ s.count → o.1 ≠ ss.1 → s'.segend o = s.segend o
  vmark : ∀ u, s'.vmark u = if u = nv ∨ (u = r ∧ s.vmark u = 0) then s.smark ss.1 else s.vmark u
  slink : ∀ o : Osub, 0 < o.1 → o.1 ≤ s.count → s'.slink o = s.slink o
  alone : ∀ o : Osub, o.1 = s.count + 1 → s'.slink o = (0, false)

end Delynoi.Tri
