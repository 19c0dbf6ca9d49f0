import Verif.Proofs.TriWrite3
import Verif.Props.TriSwitch
import Verif.Props.Arrays
import Mathlib.Tactic.IntervalCases
/-!
# C134: what Triangle hands back
-/
set_option linter.unusedSectionVars false
namespace Delynoi.Tri
variable {K : Type} [Field K] [LinearOrder K] [IsStrictOrderedRing K]

/-- C134: with the switches `z`, `e`, `j` and without `B` and `E`, the arrays written for a consistent
mesh are exactly filled; read back they are the vertices in use in their order, the triangles
counter-clockwise with the new numbers of their corners, and every edge once, with the marker of its
subsegment.  They form a valid triangulation. -/
theorem C134_write (b : Behavior) (m : OutMesh K) (h : MeshOk m) (hj : b.jettison = true)
    (hz : b.firstnumber = 0) (he : b.edgesout = true) (hB : b.nobound = false) (hE : b.noelewritten = false)
    (hs : b.usesegments = true) :
    ∃ w out, writeOut b m = .ok w ∧ readOut w.1 = .ok out ∧
      out.points = (m.verts.filter (fun v => !v.undead)).map Vtx.pt ∧
      w.2 = (m.verts.filter (fun v => !v.undead)).map (fun v => some v.mark) ∧
      out.tris = m.tris.map (fun r => (number m (r.corner 1), number m (r.corner 2), number m (r.corner 0))) ∧
      (∀ r ∈ m.tris, ∀ o, ∃ v, m.verts[r.corner o]? = some v ∧
        vecGet out.points (number m (r.corner o)) = .ok v.pt) ∧
      (∀ e ∈ out.edges, ∃ r ∈ m.tris, ∃ o, e.1 = number m (r.corner (o + 1)) ∧
        e.2.1 = number m (r.corner (o + 2)) ∧ (r.sub o = none ∧ e.2.2 = 0 ∨ r.sub o = some e.2.2)) ∧
      ValidOut out ∧ CounterClockwise out ∧ DirectedOnce out.tris ∧
      ((∀ r ∈ m.tris, ∀ o, r.sub o = some 1 ↔ r.nbr o = none) → MarkersOk out) := by
  obtain ⟨w, h1, h2, h3⟩ := writeOut_eq h hj hz hB hE he
  refine ⟨w, outOf b m, h1, C87_output_arrays _ _ h2, rfl, h3, rfl, ?_, ?_, out_valid h b, out_ccw h b,
    out_once h b, out_markers h hs⟩
  · intro r hr o
    obtain ⟨v, a, b, -⟩ := corner_point h (b := b) hr o
    exact ⟨v, a, b⟩
  · intro e hem
    obtain ⟨t, r, o, hr, -, rfl⟩ := mem_outEdges h hem
    refine ⟨r, List.mem_of_getElem? hr, o, rfl, rfl, ?_⟩
    unfold edgeMark
    rw [hs]
    cases hsub : r.sub o <;> simp

/-- C134: in particular for the strings of switches that the library uses. -/
theorem C134_library (s : List Char) (hs : s = constrainedSwitches ∨ s = conformingSwitches)
    (m : OutMesh K) (h : MeshOk m) :
    ∃ b w out, parsecommandline s = .ok b ∧ writeOut b m = .ok w ∧ readOut w.1 = .ok out ∧
      out.points = (m.verts.filter (fun v => !v.undead)).map Vtx.pt ∧
      out.tris = m.tris.map (fun r => (number m (r.corner 1), number m (r.corner 2), number m (r.corner 0))) ∧
      ValidOut out ∧ CounterClockwise out ∧ DirectedOnce out.tris ∧
      ((∀ r ∈ m.tris, ∀ o, r.sub o = some 1 ↔ r.nbr o = none) → MarkersOk out) := by
  rcases hs with rfl | rfl
  · have hp := C133_library.1
    generalize hb : ({ Behavior.init with
      poly := true, firstnumber := 0, edgesout := true, jettison := true, quiet := true, usesegments := true } : Behavior) = b at hp
    obtain ⟨w, out, a1, a2, a3, -, a5, -, -, a6⟩ := C134_write b m h (by rw [← hb]) (by rw [← hb])
      (by rw [← hb]) (by rw [← hb]; rfl) (by rw [← hb]; rfl) (by rw [← hb])
    exact ⟨b, w, out, hp, a1, a2, a3, a5, a6⟩
  · have hp := C133_library.2
    generalize hb : ({ Behavior.init with
      poly := true, firstnumber := 0, edgesout := true, jettison := true, quiet := true, usesegments := true,
      quality := true, conformdel := true } : Behavior) = b at hp
    obtain ⟨w, out, a1, a2, a3, -, a5, -, -, a6⟩ := C134_write b m h (by rw [← hb]) (by rw [← hb])
      (by rw [← hb]) (by rw [← hb]; rfl) (by rw [← hb]; rfl) (by rw [← hb])
    exact ⟨b, w, out, hp, a1, a2, a3, a5, a6⟩

/-- The unit square cut along a diagonal, with a vertex that is not used. -/
def squareMesh : OutMesh ℚ where
  verts := [⟨⟨0, 0⟩, 1, false⟩, ⟨⟨5, 5⟩, 0, true⟩, ⟨⟨1, 0⟩, 1, false⟩, ⟨⟨1, 1⟩, 1, false⟩, ⟨⟨0, 1⟩, 1, false⟩]
  tris := [
    { addr := 96, nbr := ![none, some (1, 2), none], corner := ![0, 2, 3], sub := ![some 1, none, some 1] },
    { addr := 32, nbr := ![none, none, some (0, 1)], corner := ![0, 3, 4], sub := ![some 1, some 1, none] }]
  undeads := 1
  hullsize := 4

/-- Searching the finitely many edges of a mesh decides which are where. -/
theorem EdgeFrom_iff {m : OutMesh K} {t : Nat} {o : Fin 3} {u v : Nat} :
    EdgeFrom m t o u v ↔ (m.tris[t]?).any (fun r => r.corner (o + 1) = u ∧ r.corner (o + 2) = v) = true := by
  unfold EdgeFrom
  cases m.tris[t]? <;> simp

/-- The hypotheses hold for the square. -/
example : MeshOk squareMesh where
  addrs := by decide
  corners := by
    intro r hr o
    have : (squareMesh.verts[r.corner o]?).any (fun v => v.undead = false) = true := by
      revert o
      simp only [squareMesh, List.mem_cons, List.not_mem_nil, or_false] at hr
      rcases hr with rfl | rfl <;> decide
    cases hv : squareMesh.verts[r.corner o]? with
    | none => simp [hv] at this
    | some v => exact ⟨v, rfl, by simpa [hv] using this⟩
  ccw := by
    intro r hr a b c ha hb hc
    simp only [squareMesh, List.mem_cons, List.not_mem_nil, or_false] at hr
    rcases hr with rfl | rfl <;> simp [squareMesh] at ha hb hc <;> subst ha hb hc <;> norm_num [turn]
  once := by
    intro t t' o o' u v h1 h2
    obtain ⟨r, hr, rfl, rfl⟩ := h1
    obtain ⟨s, hs, e1, e2⟩ := h2
    have b1 : t < 2 := (List.getElem?_eq_some_iff.1 hr).1
    have b2 : t' < 2 := (List.getElem?_eq_some_iff.1 hs).1
    interval_cases t <;> interval_cases t' <;> simp [squareMesh] at hr hs <;> subst hr hs <;>
      revert e1 e2 <;> revert o o' <;> decide
  nbr := by
    intro t r hr o t' o'
    have b1 : t < 2 := (List.getElem?_eq_some_iff.1 hr).1
    rw [EdgeFrom_iff]
    by_cases b2 : t' < 2
    · interval_cases t <;> interval_cases t' <;> simp [squareMesh] at hr <;> subst hr <;>
        revert o o' <;> decide
    · have : squareMesh.tris[t']? = none := List.getElem?_eq_none_iff.2 (by change 2 ≤ t'; omega)
      rw [this]
      simp only [Option.any_none, Bool.false_eq_true, iff_false]
      interval_cases t <;> simp [squareMesh] at hr <;> subst hr <;> fin_cases o <;> simp <;> omega
  undeads := by decide
  hullsize := by decide

/-- The hypothesis on markers holds for the square. -/
example : ∀ r ∈ squareMesh.tris, ∀ o, r.sub o = some 1 ↔ r.nbr o = none := by
  intro r hr o
  simp only [squareMesh, List.mem_cons, List.not_mem_nil, or_false] at hr
  rcases hr with rfl | rfl <;> revert o <;> decide

/-- What is written for the square: the unused vertex is left out, the diagonal is written from the
second triangle because it has the lower address. -/
example : ∃ w out, writeOut { Behavior.init with
      poly := true, firstnumber := 0, edgesout := true, jettison := true, quiet := true, usesegments := true }
      squareMesh = .ok w ∧ readOut w.1 = .ok out ∧
    out.points = [⟨0, 0⟩, ⟨1, 0⟩, ⟨1, 1⟩, ⟨0, 1⟩] ∧ out.tris = [(1, 2, 0), (2, 3, 0)] ∧
    out.edges = [(1, 2, 1), (0, 1, 1), (2, 3, 1), (3, 0, 1), (0, 2, 0)] := by
  refine ⟨_, _, rfl, rfl, ?_, ?_, ?_⟩ <;> decide +kernel

end Delynoi.Tri
