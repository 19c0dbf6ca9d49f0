import Verif.Proofs.EdgeRec
import Mathlib.Data.Rat.Cast.Order
import Mathlib.Algebra.Order.Field.Rat
/-!
# Property C66: importing a triangulation
-/
set_option linter.unusedSectionVars false
namespace Delynoi
variable {K : Type} [Field K] [LinearOrder K] [IsStrictOrderedRing K]

/-- C66: the import of a valid triangulation succeeds; each edge record keeps the edge's ends and
names exactly the triangles that have the edge as a side (`-1` stands for "none" in the second
place), and the reported neighbours of the edge are the same two numbers. -/
theorem C66_edge_records (tol : K) (out : TriOut K) (hv : ValidOut out) :
    ∃ d, DelInfo.importOut tol DelInfo.empty out = .ok d ∧ d.edges.length = out.edges.length ∧
      ∀ (k : Nat) (e : Int × Int × Int), out.edges[k]? = some e →
        ∃ r : EdgeData, d.edges[k]? = some r ∧ r.p1 = e.1 ∧ r.p2 = e.2.1 ∧
          0 ≤ r.t1 ∧ (r.t2 = -1 ∨ 0 ≤ r.t2) ∧ r.t1 ≠ r.t2 ∧
          (∀ n : Nat, (r.t1 = n ∨ r.t2 = n) ↔ ∃ t, out.tris[n]? = some t ∧ s(e.1, e.2.1) ∈ sides t) ∧
          d.delaunayEdges.find (ISeg.mk' e.1 e.2.1) = some ⟨some r.t1, r.t2⟩ ∧
          d.delaunayEdges.find (ISeg.mk' e.2.1 e.1) = some ⟨some r.t1, r.t2⟩ := by
  obtain ⟨d, hd, hi⟩ := import_ok tol hv
  have ht := hi.toTriInv
  refine ⟨d, hd, ?_, ?_⟩
  · have := ht.edges; simp only at this; rw [this, List.length_map]
  intro k e hk
  obtain ⟨r, h1, h2, h3, h4, h5⟩ := ht.edgeAt hv hk
  have hends : d.edges.map (fun r => s(r.p1, r.p2)) = out.edges.map eEnds := by
    apply List.ext_getElem?
    intro n
    simp only [List.getElem?_map]
    cases hn : out.edges[n]? with
    | none =>
      have hl : d.edges.length = out.edges.length := by
        have := ht.edges; simp only at this; rw [this, List.length_map]
      have : d.edges[n]? = none := by
        rw [List.getElem?_eq_none_iff, hl]; exact List.getElem?_eq_none_iff.1 hn
      simp [this]
    | some e' =>
      obtain ⟨r', g1, g2, g3, _⟩ := ht.edgeAt hv hn
      have g1 : d.edges[n]? = some r' := g1
      simp only [g1, Option.map_some]
      rw [g2, g3]; rfl
  have hf := foldl_assign SegMap.empty d.edges (by intro e he; simp [SegMap.empty] at he)
    (by rw [hends]; exact hv.edgeDistinct)
  rw [← hi.reported] at hf
  have hr := hf.2 r (List.mem_of_getElem? h1)
  refine ⟨r, h1, h2, h3, h4, ?_, ?_, ?_, ?_, ?_⟩
  · rcases h5 with h5 | h5
    · exact Or.inl h5.1
    · exact Or.inr h5.1
  · rcases h5 with h5 | h5
    · omega
    · exact h5.2.1
  · intro n
    rw [mem_pair_of_cases h5 n (by omega), mem_incident]
    constructor
    · rintro ⟨m, t, hm, ht, hs⟩
      have : m = n := by omega
      subst this
      exact ⟨t, ht, hs⟩
    · rintro ⟨t, ht, hs⟩
      exact ⟨n, t, rfl, ht, hs⟩
  · exact hr e.1 e.2.1 (by rw [h2, h3])
  · exact hr e.2.1 e.1 (by rw [h2, h3]; exact Sym2.eq_swap)

/-- C66: nothing else is reported. -/
theorem C66_only_edges (tol : K) (out : TriOut K) (hv : ValidOut out) (a b : Int)
    (hab : ∀ e ∈ out.edges, s(a, b) ≠ s(e.1, e.2.1)) :
    ∃ d, DelInfo.importOut tol DelInfo.empty out = .ok d ∧
      d.delaunayEdges.find (ISeg.mk' a b) = none := by
  obtain ⟨d, hd, hi⟩ := import_ok tol hv
  have ht := hi.toTriInv
  refine ⟨d, hd, ?_⟩
  have hends : d.edges.map (fun r => s(r.p1, r.p2)) = out.edges.map eEnds := by
    have := ht.edges
    simp only at this
    rw [this, List.map_map]
    apply List.map_congr_left
    intro e he
    obtain ⟨t1, t2, h1, _⟩ := edgeRec_cases hv he
    simp only [Function.comp]
    rw [h1]; rfl
  have hf := foldl_assign SegMap.empty d.edges (by intro e he; simp [SegMap.empty] at he)
    (by rw [hends]; exact hv.edgeDistinct)
  rw [← hi.reported] at hf
  refine (hf.1 a b ?_).trans rfl
  rw [hends]
  intro hm
  obtain ⟨e, he, h⟩ := List.mem_map.1 hm
  exact hab e he h.symm

/-! A square with its centre, split into four triangles. -/

def sampleOut : TriOut ℚ :=
  { points := [⟨0, 0⟩, ⟨2, 0⟩, ⟨2, 2⟩, ⟨0, 2⟩, ⟨1, 1⟩],
    edges := [(0, 1, 1), (1, 2, 1), (2, 3, 1), (3, 0, 1), (0, 4, 0), (1, 4, 0), (2, 4, 0), (3, 4, 0)],
    tris := [(0, 1, 4), (1, 2, 4), (2, 3, 4), (3, 0, 4)] }

theorem sampleOut_valid : ValidOut sampleOut := by
  refine ⟨by decide +kernel, by decide +kernel, ?_, by decide +kernel, by decide +kernel, by decide +kernel⟩
  intro t ht
  simp only [sampleOut, List.mem_cons, List.not_mem_nil, or_false] at ht
  rcases ht with rfl | rfl | rfl | rfl
  · exact ⟨⟨0, 0⟩, ⟨2, 0⟩, ⟨1, 1⟩, rfl, rfl, rfl, by decide +kernel⟩
  · exact ⟨⟨2, 0⟩, ⟨2, 2⟩, ⟨1, 1⟩, rfl, rfl, rfl, by decide +kernel⟩
  · exact ⟨⟨2, 2⟩, ⟨0, 2⟩, ⟨1, 1⟩, rfl, rfl, rfl, by decide +kernel⟩
  · exact ⟨⟨0, 2⟩, ⟨0, 0⟩, ⟨1, 1⟩, rfl, rfl, rfl, by decide +kernel⟩

theorem sampleOut_markers : MarkersOk sampleOut := by
  unfold MarkersOk
  decide +kernel

example : ValidOut sampleOut ∧ MarkersOk sampleOut := ⟨sampleOut_valid, sampleOut_markers⟩

end Delynoi
