import Verif.Props.Triangulation
/-!
# Property C104: triangulations of convex polygons fill them exactly
-/
set_option linter.unusedSectionVars false
namespace Delynoi

section
variable {K : Type} [Field K] [LinearOrder K] [IsStrictOrderedRing K]

/-- C104, the part that holds for ear clipping: the corners of the triangles returned for a polygon
in convex position with margins fill it exactly, without overlaps.  Missing: other polygons (ear
clipping may return clockwise or no triangles there, C40_refuted and C40_small_refuted). -/
theorem C104_ear_partial (tol : K) (ht : 0 < tol) (p : List (Pt K)) (idx : List Int)
    (pts : List (Pt K)) (ts : List (List Int)) (hr : resolve p idx = .ok pts) (h3 : 3 ≤ idx.length)
    (hw : WellSpread tol pts) (h : earTriangulate tol p idx = .ok ts) :
    ∃ tps : List (Pt K × Pt K × Pt K),
      List.Forall₂ (fun t q => resolve p t = .ok [q.1, q.2.1, q.2.2]) ts tps ∧ Tiles tps pts := by
  obtain ⟨ts', tps, g1, _, g3, g4⟩ := C40_convex_partial tol ht p idx pts hr h3 hw
  rw [h] at g1
  cases g1
  exact ⟨tps, g3, g4⟩

/-- C104, the part that holds for center triangulation: every strictly convex counter-clockwise
polygon is accepted, and the corners of the triangles returned (taken from the extended point list)
fill it exactly, without overlaps.  Missing: other polygons the convexity test accepts. -/
theorem C104_center_partial (p : List (Pt K)) (idx : List Int) (pts : List (Pt K))
    (hr : resolve p idx = .ok pts) (hc : StrictlyConvexCCW pts) :
    ∃ (p' : List (Pt K)) (ts : List (List Int)) (tps : List (Pt K × Pt K × Pt K)),
      centerTriangulate p idx = .ok (p', ts) ∧
      List.Forall₂ (fun t q => resolve p' t = .ok [q.1, q.2.1, q.2.2]) ts tps ∧ Tiles tps pts := by
  obtain ⟨ts, g1, g2, g3, g4, _⟩ := C41_center p idx pts ⟨0, 0⟩ hr (C33_accepts_convex pts hc)
  refine ⟨_, ts, pointFan (meanPt pts) pts, g1, ?_, pointFan_tiles pts hc _ (C41_orientation pts hc)⟩
  have hlen := resolve_length hr
  have hpl : (pointFan (meanPt pts) pts).length = pts.length := by simp [pointFan]
  refine List.forall₂_iff_get.2 ⟨by rw [g2, hpl, hlen], ?_⟩
  intro k h1 h2
  have hk : k < idx.length := by omega
  have e1 : ts.get ⟨k, h1⟩ = [idx[k], nextV idx ⟨k, hk⟩, (p.length : Int)] := by
    have := g3 ⟨k, hk⟩
    rw [List.getElem?_eq_getElem h1] at this
    exact Option.some.inj this
  have e2 : (pointFan (meanPt pts) pts).get ⟨k, h2⟩ =
      (pts[k]'(by omega), nextV pts ⟨k, by omega⟩, meanPt pts) := by
    simp [pointFan]
  rw [e1, e2]
  exact g4 ⟨k, hk⟩

end

example : StrictlyConvexCCW [(⟨0, 0⟩ : Pt ℚ), ⟨4, 0⟩, ⟨5, 3⟩, ⟨2, 5⟩, ⟨0, 3⟩] := by
  unfold StrictlyConvexCCW; decide +kernel

/-- C104 fails as stated: the convexity test accepts a pentagram, and center triangulation returns
overlapping triangles for it. -/
theorem C104_star_refuted : ∃ (p p' : List (Pt ℚ)) (idx : List Int) (ts : List (List Int))
    (i j : Nat) (s t : Pt ℚ × Pt ℚ × Pt ℚ) (q : Pt ℚ),
    centerTriangulate p idx = .ok (p', ts) ∧ i < j ∧
    (ts[i]?.map (resolve p') = some (.ok [s.1, s.2.1, s.2.2])) ∧
    (ts[j]?.map (resolve p') = some (.ok [t.1, t.2.1, t.2.2])) ∧
    InOpenTri s q ∧ InOpenTri t q := by
  refine ⟨[⟨0, 10⟩, ⟨-6, -8⟩, ⟨9, 3⟩, ⟨-9, 3⟩, ⟨6, -8⟩],
    [⟨0, 10⟩, ⟨-6, -8⟩, ⟨9, 3⟩, ⟨-9, 3⟩, ⟨6, -8⟩, ⟨0, 0⟩], [0, 1, 2, 3, 4],
    [[0, 1, 5], [1, 2, 5], [2, 3, 5], [3, 4, 5], [4, 0, 5]], 0, 2,
    (⟨0, 10⟩, ⟨-6, -8⟩, ⟨0, 0⟩), (⟨9, 3⟩, ⟨-9, 3⟩, ⟨0, 0⟩), ⟨-1/2, 1⟩, by decide +kernel, by decide,
    by decide +kernel, by decide +kernel, ?_, ?_⟩ <;> (unfold InOpenTri; decide +kernel)

end Delynoi
