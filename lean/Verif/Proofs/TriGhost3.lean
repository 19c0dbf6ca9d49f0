import Verif.Proofs.TriGhost
import Mathlib.Tactic.FinCases
/-!
# The smallest triangulations with their bounding triangles
-/
set_option linter.unusedSectionVars false
namespace Delynoi.Tri
variable {K : Type} [Field K] [LinearOrder K]

/-- The corners and neighbours of a triangle. -/
structure Row (m : Heap) (t : Nat) (a b c : Option Nat) (x y z : Otri) : Prop where
  c0 : m.corner (t, 0) = a
  c1 : m.corner (t, 1) = b
  c2 : m.corner (t, 2) = c
  n0 : m.nbr (t, 0) = x
  n1 : m.nbr (t, 1) = y
  n2 : m.nbr (t, 2) = z

theorem divconq2_table (m : Heap) {n1 n2 : Nat} (hn : n1 ≠ n2) (v0 v1 : Nat) :
    Row (m.divconq2 n1 n2 v0 v1).1 n1 none (some v0) (some v1) (n2, 0) (n2, 2) (n2, 1) ∧
    Row (m.divconq2 n1 n2 v0 v1).1 n2 none (some v1) (some v0) (n1, 0) (n1, 2) (n1, 1) ∧
    (∀ x : Otri, x.1 ≠ n1 → x.1 ≠ n2 → (m.divconq2 n1 n2 v0 v1).1.corner x = m.corner x ∧ (m.divconq2 n1 n2 v0 v1).1.nbr x = m.nbr x) := by
  refine ⟨?_, ?_, fun x h1 h2 => ?_⟩
  · constructor <;> simp [Heap.divconq2, Heap.maketriangle, Heap.setorg, Heap.setdest, Heap.bond, lnext, lprev, Function.update_apply, hn, hn.symm]
  · constructor <;> simp [Heap.divconq2, Heap.maketriangle, Heap.setorg, Heap.setdest, Heap.bond, lnext, lprev, Function.update_apply, hn, hn.symm]
  · rcases x with ⟨t, o⟩
    simp only at h1 h2
    simp [Heap.divconq2, Heap.maketriangle, Heap.setorg, Heap.setdest, Heap.bond, lnext, lprev, Function.update_apply, h1, h2]

theorem divconq2_ghosted (m : Heap) {n1 n2 v0 v1 : Nat} (hn : n1 ≠ n2) (h1 : n1 ≠ 0) (h2 : n2 ≠ 0) (hv : v0 ≠ v1) :
    Ghosted (m.divconq2 n1 n2 v0 v1).1 [] [(n2, 1), (n1, 1)] := by
  obtain ⟨r1, r2, -⟩ := divconq2_table m hn v0 v1
  generalize (m.divconq2 n1 n2 v0 v1).1 = m' at r1 r2
  obtain ⟨a1, a2, a3, a4, a5, a6⟩ := r1
  obtain ⟨b1, b2, b3, b4, b5, b6⟩ := r2
  constructor
  · simp [hn.symm]
  · simp [h1.symm, h2.symm]
  · rintro ⟨t, o⟩ h
    simp only [List.map_cons, List.map_nil, List.append_nil, List.mem_cons, List.not_mem_nil, or_false] at h
    rcases h with rfl | rfl <;> fin_cases o <;> simp [*]
  · rintro ⟨t, o⟩ h
    simp only [List.map_cons, List.map_nil, List.append_nil, List.mem_cons, List.not_mem_nil, or_false] at h
    rcases h with rfl | rfl <;> fin_cases o <;> simp [*]
  · rintro ⟨t, o⟩ h
    simp only [List.map_cons, List.map_nil, List.append_nil, List.mem_cons, List.not_mem_nil, or_false] at h
    rcases h with rfl | rfl <;> fin_cases o <;> simp [*]
  · rintro ⟨t, o⟩ h
    simp only [List.map_cons, List.map_nil, List.append_nil, List.mem_cons, List.not_mem_nil, or_false] at h
    rcases h with rfl | rfl <;> fin_cases o <;> simp [*]
  · rintro ⟨t, o⟩ ⟨t', o'⟩ v w ⟨hx, x1, x2⟩ ⟨hy, y1, y2⟩
    simp only [List.map_cons, List.map_nil, List.append_nil, List.mem_cons, List.not_mem_nil, or_false] at hx hy
    have hv' := hv.symm
    rcases hx with rfl | rfl <;> fin_cases o <;> simp_all <;>
    rcases hy with rfl | rfl <;> fin_cases o' <;> simp_all
  · intro t h o o' e
    simp only [List.map_cons, List.map_nil, List.append_nil, List.mem_cons, List.not_mem_nil, or_false] at h
    have hv' := hv.symm
    rcases h with rfl | rfl <;> fin_cases o <;> fin_cases o' <;> simp_all
  · intro t h
    simp at h
  · intro g h
    simp only [List.mem_cons, List.not_mem_nil, or_false] at h
    rcases h with rfl | rfl <;> simp [*]
  · exact ⟨_, _, rfl, by simp [*]⟩

theorem divconqTri_table (m : Heap) {n0 n1 n2 n3 : Nat} (h01 : n0 ≠ n1) (h02 : n0 ≠ n2) (h03 : n0 ≠ n3) (h12 : n1 ≠ n2) (h13 : n1 ≠ n3) (h23 : n2 ≠ n3)
    (left : Bool) (v0 v1 v2 : Nat) {m' : Heap} {fl fr : Otri}
    (e : ((((m.maketriangle n0).maketriangle n1).maketriangle n2).maketriangle n3).divconqTri (n0, 0) (n1, 0) (n2, 0) (n3, 0) left v0 v1 v2 = (m', fl, fr)) :
    fl = (n1, 1) ∧ fr = (if left then (n2, 2) else (n1, 2)) ∧
    Row m' n0 (some (if left then v2 else v1)) (some v0) (some (if left then v1 else v2)) (n1, 0) (n2, 0) (n3, 0) ∧
    Row m' n1 none (some (if left then v1 else v2)) (some v0) (n0, 0) (n3, 2) (n2, 1) ∧
    Row m' n2 none (some (if left then v2 else v1)) (some (if left then v1 else v2)) (n0, 1) (n1, 2) (n3, 1) ∧
    Row m' n3 none (some v0) (some (if left then v2 else v1)) (n0, 2) (n2, 2) (n1, 1) ∧
    (∀ x : Otri, x.1 ≠ n0 → x.1 ≠ n1 → x.1 ≠ n2 → x.1 ≠ n3 → m'.corner x = m.corner x ∧ m'.nbr x = m.nbr x) := by
  simp only [Heap.divconqTri, Prod.mk.injEq] at e
  obtain ⟨rfl, rfl, rfl⟩ := e
  have h10 := h01.symm
  have h20 := h02.symm
  have h30 := h03.symm
  have h21 := h12.symm
  have h31 := h13.symm
  have h32 := h23.symm
  refine ⟨by simp [lprev], by cases left <;> simp [lprev, lnext], ?_, ?_, ?_, ?_, fun x k0 k1 k2 k3 => ?_⟩
  · cases left <;> constructor <;> simp [Heap.maketriangle, Heap.setorg, Heap.setdest, Heap.setapex, Heap.bond, lnext, lprev, Function.update_apply, *]
  · cases left <;> constructor <;> simp [Heap.maketriangle, Heap.setorg, Heap.setdest, Heap.setapex, Heap.bond, lnext, lprev, Function.update_apply, *]
  · cases left <;> constructor <;> simp [Heap.maketriangle, Heap.setorg, Heap.setdest, Heap.setapex, Heap.bond, lnext, lprev, Function.update_apply, *]
  · cases left <;> constructor <;> simp [Heap.maketriangle, Heap.setorg, Heap.setdest, Heap.setapex, Heap.bond, lnext, lprev, Function.update_apply, *]
  · rcases x with ⟨t, o⟩
    simp only at k0 k1 k2 k3
    cases left <;> simp [Heap.maketriangle, Heap.setorg, Heap.setdest, Heap.setapex, Heap.bond, lnext, lprev, Function.update_apply, *]

theorem divconqLine_table (m : Heap) {n0 n1 n2 n3 : Nat} (h01 : n0 ≠ n1) (h02 : n0 ≠ n2) (h03 : n0 ≠ n3) (h12 : n1 ≠ n2) (h13 : n1 ≠ n3) (h23 : n2 ≠ n3)
    (v0 v1 v2 : Nat) {m' : Heap} {fl fr : Otri}
    (e : ((((m.maketriangle n0).maketriangle n1).maketriangle n2).maketriangle n3).divconqLine (n0, 0) (n1, 0) (n2, 0) (n3, 0) v0 v1 v2 = (m', fl, fr)) :
    fl = (n1, 1) ∧ fr = (n2, 2) ∧
    Row m' n0 none (some v0) (some v1) (n1, 0) (n3, 2) (n1, 1) ∧
    Row m' n1 none (some v1) (some v0) (n0, 0) (n0, 2) (n2, 1) ∧
    Row m' n2 none (some v2) (some v1) (n3, 0) (n1, 2) (n3, 1) ∧
    Row m' n3 none (some v1) (some v2) (n2, 0) (n2, 2) (n0, 1) ∧
    (∀ x : Otri, x.1 ≠ n0 → x.1 ≠ n1 → x.1 ≠ n2 → x.1 ≠ n3 → m'.corner x = m.corner x ∧ m'.nbr x = m.nbr x) := by
  simp only [Heap.divconqLine, Prod.mk.injEq] at e
  obtain ⟨rfl, rfl, rfl⟩ := e
  have h10 := h01.symm
  have h20 := h02.symm
  have h30 := h03.symm
  have h21 := h12.symm
  have h31 := h13.symm
  have h32 := h23.symm
  refine ⟨by simp [lprev], by simp [lnext], ?_, ?_, ?_, ?_, fun x k0 k1 k2 k3 => ?_⟩
  · constructor <;> simp [Heap.maketriangle, Heap.setorg, Heap.setdest, Heap.setapex, Heap.bond, lnext, lprev, Function.update_apply, *]
  · constructor <;> simp [Heap.maketriangle, Heap.setorg, Heap.setdest, Heap.setapex, Heap.bond, lnext, lprev, Function.update_apply, *]
  · constructor <;> simp [Heap.maketriangle, Heap.setorg, Heap.setdest, Heap.setapex, Heap.bond, lnext, lprev, Function.update_apply, *]
  · constructor <;> simp [Heap.maketriangle, Heap.setorg, Heap.setdest, Heap.setapex, Heap.bond, lnext, lprev, Function.update_apply, *]
  · rcases x with ⟨t, o⟩
    simp only at k0 k1 k2 k3
    simp [Heap.maketriangle, Heap.setorg, Heap.setdest, Heap.setapex, Heap.bond, lnext, lprev, Function.update_apply, *]

theorem tri_ghosted {m : Heap} {n0 n1 n2 n3 v0 v1 v2 : Nat} (h01 : n0 ≠ n1) (h02 : n0 ≠ n2) (h03 : n0 ≠ n3) (h12 : n1 ≠ n2) (h13 : n1 ≠ n3) (h23 : n2 ≠ n3)
    (k0 : n0 ≠ 0) (k1 : n1 ≠ 0) (k2 : n2 ≠ 0) (k3 : n3 ≠ 0) (v01 : v0 ≠ v1) (v02 : v0 ≠ v2) (v12 : v1 ≠ v2)
    (r0 : Row m n0 (some v2) (some v0) (some v1) (n1, 0) (n2, 0) (n3, 0)) (r1 : Row m n1 none (some v1) (some v0) (n0, 0) (n3, 2) (n2, 1))
    (r2 : Row m n2 none (some v2) (some v1) (n0, 1) (n1, 2) (n3, 1)) (r3 : Row m n3 none (some v0) (some v2) (n0, 2) (n2, 2) (n1, 1)) :
    Ghosted m [n0] [(n1, 1), (n2, 1), (n3, 1)] := by
  obtain ⟨a1, a2, a3, a4, a5, a6⟩ := r0
  obtain ⟨b1, b2, b3, b4, b5, b6⟩ := r1
  obtain ⟨c1, c2, c3, c4, c5, c6⟩ := r2
  obtain ⟨d1, d2, d3, d4, d5, d6⟩ := r3
  have h10 := h01.symm
  have h20 := h02.symm
  have h30 := h03.symm
  have h21 := h12.symm
  have h31 := h13.symm
  have h32 := h23.symm
  have w1 := v01.symm
  have w2 := v02.symm
  have w3 := v12.symm
  constructor
  · simp [*]
  · simp [k0.symm, k1.symm, k2.symm, k3.symm]
  · rintro ⟨t, o⟩ h
    simp only [List.map_cons, List.map_nil, List.append_nil, List.cons_append, List.nil_append, List.mem_cons, List.not_mem_nil, or_false] at h
    rcases h with rfl | rfl | rfl | rfl <;> fin_cases o <;> simp [*]
  · rintro ⟨t, o⟩ h
    simp only [List.map_cons, List.map_nil, List.append_nil, List.cons_append, List.nil_append, List.mem_cons, List.not_mem_nil, or_false] at h
    rcases h with rfl | rfl | rfl | rfl <;> fin_cases o <;> simp [*]
  · rintro ⟨t, o⟩ h
    simp only [List.map_cons, List.map_nil, List.append_nil, List.cons_append, List.nil_append, List.mem_cons, List.not_mem_nil, or_false] at h
    rcases h with rfl | rfl | rfl | rfl <;> fin_cases o <;> simp [*]
  · rintro ⟨t, o⟩ h
    simp only [List.map_cons, List.map_nil, List.append_nil, List.cons_append, List.nil_append, List.mem_cons, List.not_mem_nil, or_false] at h
    rcases h with rfl | rfl | rfl | rfl <;> fin_cases o <;> simp [*]
  · rintro ⟨t, o⟩ ⟨t', o'⟩ v w ⟨hx, x1, x2⟩ ⟨hy, y1, y2⟩
    simp only [List.map_cons, List.map_nil, List.append_nil, List.cons_append, List.nil_append, List.mem_cons, List.not_mem_nil, or_false] at hx hy
    rcases hx with rfl | rfl | rfl | rfl <;> fin_cases o <;> simp [*] at x1 x2 <;> subst x1 x2 <;>
    rcases hy with rfl | rfl | rfl | rfl <;> fin_cases o' <;> simp [*] at y1 y2 <;> rfl
  · intro t h o o' e
    simp only [List.map_cons, List.map_nil, List.append_nil, List.cons_append, List.nil_append, List.mem_cons, List.not_mem_nil, or_false] at h
    rcases h with rfl | rfl | rfl | rfl <;> fin_cases o <;> fin_cases o' <;> simp [*] at e <;> rfl
  · intro t h o
    obtain rfl := List.mem_singleton.mp h
    fin_cases o <;> simp [*]
  · intro g h
    simp only [List.mem_cons, List.not_mem_nil, or_false] at h
    rcases h with rfl | rfl | rfl <;> simp [*]
  · exact ⟨_, _, rfl, by simp [*]⟩

theorem line_ghosted {m : Heap} {n0 n1 n2 n3 v0 v1 v2 : Nat} (h01 : n0 ≠ n1) (h02 : n0 ≠ n2) (h03 : n0 ≠ n3) (h12 : n1 ≠ n2) (h13 : n1 ≠ n3) (h23 : n2 ≠ n3)
    (k0 : n0 ≠ 0) (k1 : n1 ≠ 0) (k2 : n2 ≠ 0) (k3 : n3 ≠ 0) (v01 : v0 ≠ v1) (v02 : v0 ≠ v2) (v12 : v1 ≠ v2)
    (r0 : Row m n0 none (some v0) (some v1) (n1, 0) (n3, 2) (n1, 1)) (r1 : Row m n1 none (some v1) (some v0) (n0, 0) (n0, 2) (n2, 1))
    (r2 : Row m n2 none (some v2) (some v1) (n3, 0) (n1, 2) (n3, 1)) (r3 : Row m n3 none (some v1) (some v2) (n2, 0) (n2, 2) (n0, 1)) :
    Ghosted m [] [(n1, 1), (n2, 1), (n3, 1), (n0, 1)] := by
  obtain ⟨a1, a2, a3, a4, a5, a6⟩ := r0
  obtain ⟨b1, b2, b3, b4, b5, b6⟩ := r1
  obtain ⟨c1, c2, c3, c4, c5, c6⟩ := r2
  obtain ⟨d1, d2, d3, d4, d5, d6⟩ := r3
  have h10 := h01.symm
  have h20 := h02.symm
  have h30 := h03.symm
  have h21 := h12.symm
  have h31 := h13.symm
  have h32 := h23.symm
  have w1 := v01.symm
  have w2 := v02.symm
  have w3 := v12.symm
  constructor
  · simp [*]
  · simp [k0.symm, k1.symm, k2.symm, k3.symm]
  · rintro ⟨t, o⟩ h
    simp only [List.map_cons, List.map_nil, List.append_nil, List.cons_append, List.nil_append, List.mem_cons, List.not_mem_nil, or_false] at h
    rcases h with rfl | rfl | rfl | rfl <;> fin_cases o <;> simp [*]
  · rintro ⟨t, o⟩ h
    simp only [List.map_cons, List.map_nil, List.append_nil, List.cons_append, List.nil_append, List.mem_cons, List.not_mem_nil, or_false] at h
    rcases h with rfl | rfl | rfl | rfl <;> fin_cases o <;> simp [*]
  · rintro ⟨t, o⟩ h
    simp only [List.map_cons, List.map_nil, List.append_nil, List.cons_append, List.nil_append, List.mem_cons, List.not_mem_nil, or_false] at h
    rcases h with rfl | rfl | rfl | rfl <;> fin_cases o <;> simp [*]
  · rintro ⟨t, o⟩ h
    simp only [List.map_cons, List.map_nil, List.append_nil, List.cons_append, List.nil_append, List.mem_cons, List.not_mem_nil, or_false] at h
    rcases h with rfl | rfl | rfl | rfl <;> fin_cases o <;> simp [*]
  · rintro ⟨t, o⟩ ⟨t', o'⟩ v w ⟨hx, x1, x2⟩ ⟨hy, y1, y2⟩
    simp only [List.map_cons, List.map_nil, List.append_nil, List.cons_append, List.nil_append, List.mem_cons, List.not_mem_nil, or_false] at hx hy
    rcases hx with rfl | rfl | rfl | rfl <;> fin_cases o <;> simp [*] at x1 x2 <;> subst x1 x2 <;>
    rcases hy with rfl | rfl | rfl | rfl <;> fin_cases o' <;> simp [*] at y1 y2 <;> rfl
  · intro t h o o' e
    simp only [List.map_cons, List.map_nil, List.append_nil, List.cons_append, List.nil_append, List.mem_cons, List.not_mem_nil, or_false] at h
    rcases h with rfl | rfl | rfl | rfl <;> fin_cases o <;> fin_cases o' <;> simp [*] at e <;> rfl
  · intro t h
    simp at h
  · intro g h
    simp only [List.mem_cons, List.not_mem_nil, or_false] at h
    rcases h with rfl | rfl | rfl | rfl <;> simp [*]
  · exact ⟨_, _, rfl, by simp [*]⟩

end Delynoi.Tri
