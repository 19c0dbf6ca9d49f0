import Verif.Proofs.TriMesh5
/-!
# C135: flipping edges of Triangle's mesh

`flip` replaces the triangles `abc` and `bad` on both sides of the edge `ab` by `dca` and `cdb`.
-/
set_option linter.unusedSectionVars false
namespace Delynoi
open Tri

section
variable {m : Heap} {L : Nat → Prop} {e : Otri} {a b c d : Nat}

/-- C135: if the diagonal is free, a flip keeps all links of the mesh. -/
theorem C135_linked (cs : Bool) (h : Linked m L) (he : m.Dir L e a b) (hc : m.corner e = some c)
    (hn : m.nbr e ≠ (0, 0)) (hd : m.corner (m.nbr e) = some d)
    (hdis : a ≠ b ∧ a ≠ c ∧ a ≠ d ∧ b ≠ c ∧ b ≠ d ∧ c ≠ d) (hno : ¬ m.Adj L c d) :
    Linked (m.flip cs e) L :=
  flip_linked h (quad_of_free h he hc hn hd hdis hno) cs

/-- C135: the triangles after the flip: `abc` and `bad` are replaced by `dca` and `cdb`, all other
triangles stay. -/
theorem C135_triangles (cs : Bool) (h : Linked m L) (he : m.Dir L e a b) (hc : m.corner e = some c)
    (hn : m.nbr e ≠ (0, 0)) (hd : m.corner (m.nbr e) = some d)
    (hdis : a ≠ b ∧ a ≠ c ∧ a ≠ d ∧ b ≠ c ∧ b ≠ d ∧ c ≠ d) (hno : ¬ m.Adj L c d) :
    (m.flip cs e).Tri3 L e a d c ∧ (m.flip cs e).Tri3 L (m.nbr e) b c d ∧ (m.flip cs e).nbr e = m.nbr e ∧
    ∀ x v A B, x.1 ≠ e.1 → x.1 ≠ (m.nbr e).1 → ((m.flip cs e).Tri3 L x v A B ↔ m.Tri3 L x v A B) := by
  have q := quad_of_free h he hc hn hd hdis hno
  refine ⟨(flip_new h q).1, (flip_new h q).2, (flip_quad h q cs).nbr, fun x v A B h1 h2 => ⟨?_, ?_⟩⟩
  · intro hx
    obtain ⟨-, -, -, -, -, -, c7⟩ := flip_corner h q cs
    obtain ⟨x1, x2, x3, x4⟩ := hx
    rw [c7 x h1 h2] at x2
    rw [c7 (x.1, x.2 + 1) h1 h2] at x3
    rw [c7 (x.1, x.2 + 2) h1 h2] at x4
    exact ⟨x1, x2, x3, x4⟩
  · exact fun hx => flip_tri' h q hx h1 h2

/-- C135: the edges after the flip: `ab` is replaced by `cd`. -/
theorem C135_edges (cs : Bool) (h : Linked m L) (he : m.Dir L e a b) (hc : m.corner e = some c)
    (hn : m.nbr e ≠ (0, 0)) (hd : m.corner (m.nbr e) = some d)
    (hdis : a ≠ b ∧ a ≠ c ∧ a ≠ d ∧ b ≠ c ∧ b ≠ d ∧ c ≠ d) (hno : ¬ m.Adj L c d) (v w : Nat) :
    (m.flip cs e).Adj L v w ↔
      (m.Adj L v w ∧ ¬ (v = a ∧ w = b) ∧ ¬ (v = b ∧ w = a)) ∨ (v = c ∧ w = d) ∨ (v = d ∧ w = c) := by
  have q := quad_of_free h he hc hn hd hdis hno
  refine ⟨flip_adj h q, ?_⟩
  obtain ⟨d1, d2, d3, d4, d5, d6⟩ := q.distinct h
  have hT : m.Dir L (m.nbr e) b a := dir_iff.2 ⟨q.lt, q.t1, q.t2⟩
  have key : ∀ x v w, m.Dir L x v w → ¬ (v = a ∧ w = b) → ¬ (v = b ∧ w = a) → ∃ y, (m.flip cs e).Dir L y v w := by
    intro x v w hx k1 k2
    have h1 : x ≠ e := by
      rintro rfl
      have i1 := he.2.1.symm.trans hx.2.1
      have i2 := he.2.2.symm.trans hx.2.2
      cases i1; cases i2; exact k1 ⟨rfl, rfl⟩
    have h2 : x ≠ m.nbr e := by
      rintro rfl
      have i1 := hT.2.1.symm.trans hx.2.1
      have i2 := hT.2.2.symm.trans hx.2.2
      cases i1; cases i2; exact k2 ⟨rfl, rfl⟩
    refine ⟨cyc (lnext e) (lprev e) (lnext (m.nbr e)) (lprev (m.nbr e)) x, (flip_dir h q cs).2 (Or.inr (Or.inr
      ⟨cyc_ne h q (Or.inl rfl) h1, cyc_ne h q (Or.inr rfl) h2, ?_⟩))⟩
    rw [cyc_inv d1 d2 d3 d4 d5 d6 x]; exact hx
  rintro (⟨⟨x, hx | hx⟩, k1, k2⟩ | ⟨rfl, rfl⟩ | ⟨rfl, rfl⟩)
  · obtain ⟨y, hy⟩ := key x v w hx k1 k2
    exact ⟨y, Or.inl hy⟩
  · obtain ⟨y, hy⟩ := key x w v hx (fun k => k2 ⟨k.2, k.1⟩) (fun k => k1 ⟨k.2, k.1⟩)
    exact ⟨y, Or.inr hy⟩
  · exact ⟨e, Or.inr ((flip_dir h q cs).2 (Or.inl ⟨rfl, rfl, rfl⟩))⟩
  · exact ⟨e, Or.inl ((flip_dir h q cs).2 (Or.inl ⟨rfl, rfl, rfl⟩))⟩

/-- C135: subsegments stay on their edges, and their links stay consistent; the new edge has a
subsegment only if the old one had. -/
theorem C135_segments (h : Linked m L) (g : Segmented m L) (he : m.Dir L e a b) (hc : m.corner e = some c)
    (hn : m.nbr e ≠ (0, 0)) (hd : m.corner (m.nbr e) = some d)
    (hdis : a ≠ b ∧ a ≠ c ∧ a ≠ d ∧ b ≠ c ∧ b ≠ d ∧ c ≠ d) (hno : ¬ m.Adj L c d) :
    Segmented (m.flip true e) L ∧
    (∀ x y v w, m.Dir L x v w → (m.flip true e).Dir L y v w → (m.flip true e).sub y = m.sub x) ∧
    (m.flip true e).sub e = m.sub e := by
  have q := quad_of_free h he hc hn hd hdis hno
  refine ⟨flip_segmented h q g, ?_, (flip_diag h q g).1⟩
  intro x y v w hx hy
  have hT : m.Dir L (m.nbr e) b a := dir_iff.2 ⟨q.lt, q.t1, q.t2⟩
  have hy' := hy
  rw [flip_dir h q] at hy'
  rcases hy' with ⟨rfl, rfl, rfl⟩ | ⟨rfl, rfl, rfl⟩ | ⟨y1, y2, hy'⟩
  · exact absurd ⟨x, Or.inr hx⟩ hno
  · exact absurd ⟨x, Or.inl hx⟩ hno
  · rw [flip_sub h q g, h.once _ _ _ _ hy' hx]

/-- C135: the hull can still be reached from `dummytri`. -/
theorem C135_hull (cs : Bool) (h : Linked m L) (he : m.Dir L e a b) (hc : m.corner e = some c)
    (hn : m.nbr e ≠ (0, 0)) (hd : m.corner (m.nbr e) = some d)
    (hdis : a ≠ b ∧ a ≠ c ∧ a ≠ d ∧ b ≠ c ∧ b ≠ d ∧ c ≠ d) (hno : ¬ m.Adj L c d)
    (hh : L (m.nbr (0, 0)).1 ∧ m.nbr (m.nbr (0, 0)) = (0, 0)) :
    L ((m.flip cs e).nbr (0, 0)).1 ∧ (m.flip cs e).nbr ((m.flip cs e).nbr (0, 0)) = (0, 0) :=
  flip_hull h (quad_of_free h he hc hn hd hdis hno) cs hh

/-- C135: `unflip` undoes a flip completely. -/
theorem C135_unflip (cs : Bool) (h : Linked m L) (he : m.Dir L e a b) (hc : m.corner e = some c)
    (hn : m.nbr e ≠ (0, 0)) (hd : m.corner (m.nbr e) = some d)
    (hdis : a ≠ b ∧ a ≠ c ∧ a ≠ d ∧ b ≠ c ∧ b ≠ d ∧ c ≠ d) (hno : ¬ m.Adj L c d) (x : Otri) (hx : L x.1) :
    ((m.flip cs e).unflip cs e).nbr x = m.nbr x ∧ ((m.flip cs e).unflip cs e).corner x = m.corner x ∧
    (Segmented m L → ((m.flip cs e).unflip cs e).sub x = m.sub x ∧
      ((m.sub x).1 ≠ 0 → ((m.flip cs e).unflip cs e).stri (m.sub x) = m.stri (m.sub x))) := by
  have q := quad_of_free h he hc hn hd hdis hno
  refine ⟨(unflip_flip h q cs hx).1, (unflip_flip h q cs hx).2, fun g => ?_⟩
  cases cs with
  | false => exact ⟨rfl, fun _ => rfl⟩
  | true => exact unflip_flip_sub h q g hx

end

section
variable {K : Type} [Field K] [LinearOrder K] [IsStrictOrderedRing K]
variable {m : Heap} {L : Nat → Prop} {e : Otri} {a b c d : Nat} {pos : Nat → Pt K}

/-- C135: in a flat triangulation, flipping the diagonal of a strictly convex quadrilateral gives a
flat triangulation; that the other diagonal is free is not an assumption. -/
theorem C135_flat (cs : Bool) (h : Linked m L) (f : Flat m L pos) (he : m.Dir L e a b) (hc : m.corner e = some c)
    (hn : m.nbr e ≠ (0, 0)) (hd : m.corner (m.nbr e) = some d)
    (v1 : 0 < turn (pos d) (pos c) (pos a)) (v2 : 0 < turn (pos c) (pos d) (pos b)) :
    Linked (m.flip cs e) L ∧ Flat (m.flip cs e) L pos ∧
    (a ≠ b ∧ a ≠ c ∧ a ≠ d ∧ b ≠ c ∧ b ≠ d ∧ c ≠ d) ∧ ¬ m.Adj L c d := by
  have q := quad_of_convex h f he hc hn hd v1 v2
  exact ⟨flip_linked h q cs, flip_flat h f q cs v1 v2, ⟨q.ab, q.ac, q.ad, q.bc, q.bd, q.cd⟩, q.nodiag⟩

/-- C135: an edge that is not locally Delaunay (`d` lies inside the circle through `abc`) can be
flipped without another test, and the new edge is locally Delaunay. -/
theorem C135_delaunay (cs : Bool) (h : Linked m L) (f : Flat m L pos) (he : m.Dir L e a b)
    (hc : m.corner e = some c) (hn : m.nbr e ≠ (0, 0)) (hd : m.corner (m.nbr e) = some d) (o : Pt K)
    (o1 : sqDist o (pos a) = sqDist o (pos b)) (o2 : sqDist o (pos a) = sqDist o (pos c))
    (hin : sqDist o (pos d) < sqDist o (pos a)) :
    Linked (m.flip cs e) L ∧ Flat (m.flip cs e) L pos ∧
    ∀ o', sqDist o' (pos d) = sqDist o' (pos c) → sqDist o' (pos d) = sqDist o' (pos a) →
      sqDist o' (pos d) < sqDist o' (pos b) := by
  obtain ⟨hl, hi, v, w, k1, k2⟩ := h.across he.1 hn
  have e1 := he.2.1.symm.trans k1.2.1
  have e2 := he.2.2.symm.trans k1.2.2
  cases e1; cases e2
  have T1 := f.ccw e c a b ⟨he.1, hc, he.2.1, he.2.2⟩
  have T2 := f.ccw (m.nbr e) d b a ⟨hl, hd, k2.2.1, k2.2.2⟩
  obtain ⟨v1, v2⟩ := convex_of_inside o1 o2 T1 T2 hin
  obtain ⟨r1, r2, -⟩ := C135_flat cs h f he hc hn hd v1 v2
  exact ⟨r1, r2, fun o' p1 p2 => outside_after o1 o2 T1 T2 hin p1 p2⟩

end

/-! ## A mesh of two triangles -/

/-- The triangles `1` (corners 2, 0, 1) and `2` (corners 3, 1, 0), with a subsegment on the edge
from 1 to 2. -/
def twoTriangles : Heap where
  nbr x := if x = (1, 0) then (2, 0) else if x = (2, 0) then (1, 0) else if x = (0, 0) then (1, 1) else (0, 0)
  corner x := if x.1 = 1 then some (if x.2 = 0 then 2 else if x.2 = 1 then 0 else 1)
    else if x.1 = 2 then some (if x.2 = 0 then 3 else if x.2 = 1 then 1 else 0) else none
  sub x := if x = (1, 1) then (1, false) else (0, false)
  stri s := if s = (1, false) then (1, 1) else (0, 0)

/-- A kite. -/
def kite (n : Nat) : Pt ℚ := if n = 0 then ⟨2, 0⟩ else if n = 1 then ⟨-2, 0⟩ else if n = 2 then ⟨0, -1⟩ else ⟨0, 1⟩

theorem twoTriangles_dir (x : Otri) (v w : Nat) : twoTriangles.Dir (fun t => t = 1 ∨ t = 2) x v w ↔
    (x, v, w) ∈ [((1, 0), 0, 1), ((1, 1), 1, 2), ((1, 2), 2, 0), ((2, 0), 1, 0), ((2, 1), 0, 3), ((2, 2), 3, 1)] := by
  obtain ⟨t, o⟩ := x
  unfold Heap.Dir
  constructor
  · rintro ⟨rfl | rfl, h1, h2⟩
    · have : ∀ o : Fin 3, ∃ v w, twoTriangles.corner (1, o + 1) = some v ∧ twoTriangles.corner (1, o + 2) = some w ∧
          (((1, o), v, w) : Otri × Nat × Nat) ∈ [((1, 0), 0, 1), ((1, 1), 1, 2), ((1, 2), 2, 0)] := by
        intro o
        match o with
        | 0 => exact ⟨0, 1, rfl, rfl, by decide⟩
        | 1 => exact ⟨1, 2, rfl, rfl, by decide⟩
        | 2 => exact ⟨2, 0, rfl, rfl, by decide⟩
      obtain ⟨v', w', k1, k2, k3⟩ := this o
      have i1 := k1.symm.trans h1
      have i2 := k2.symm.trans h2
      cases i1; cases i2
      simp only [List.mem_cons, List.not_mem_nil, or_false] at k3 ⊢
      rcases k3 with k | k | k <;> simp [k]
    · have : ∀ o : Fin 3, ∃ v w, twoTriangles.corner (2, o + 1) = some v ∧ twoTriangles.corner (2, o + 2) = some w ∧
          (((2, o), v, w) : Otri × Nat × Nat) ∈ [((2, 0), 1, 0), ((2, 1), 0, 3), ((2, 2), 3, 1)] := by
        intro o
        match o with
        | 0 => exact ⟨1, 0, rfl, rfl, by decide⟩
        | 1 => exact ⟨0, 3, rfl, rfl, by decide⟩
        | 2 => exact ⟨3, 1, rfl, rfl, by decide⟩
      obtain ⟨v', w', k1, k2, k3⟩ := this o
      have i1 := k1.symm.trans h1
      have i2 := k2.symm.trans h2
      cases i1; cases i2
      simp only [List.mem_cons, List.not_mem_nil, or_false] at k3 ⊢
      rcases k3 with k | k | k <;> simp [k]
  · intro h
    simp only [List.mem_cons, List.not_mem_nil, or_false, Prod.mk.injEq] at h
    rcases h with ⟨⟨rfl, rfl⟩, rfl, rfl⟩ | ⟨⟨rfl, rfl⟩, rfl, rfl⟩ | ⟨⟨rfl, rfl⟩, rfl, rfl⟩ | ⟨⟨rfl, rfl⟩, rfl, rfl⟩ |
      ⟨⟨rfl, rfl⟩, rfl, rfl⟩ | ⟨⟨rfl, rfl⟩, rfl, rfl⟩ <;> exact ⟨by simp, rfl, rfl⟩

theorem twoTriangles_linked : Linked twoTriangles (fun t => t = 1 ∨ t = 2) where
  dummy := by simp
  corners := by
    rintro t (rfl | rfl) o
    · exact ⟨_, rfl⟩
    · exact ⟨_, rfl⟩
  once := by
    intro x y v w hx hy
    rw [twoTriangles_dir] at hx hy
    simp only [List.mem_cons, List.not_mem_nil, or_false, Prod.mk.injEq] at hx hy
    grind
  links := by
    intro x hx
    by_cases h1 : x = (1, 0)
    · right; subst h1
      refine ⟨0, 1, (twoTriangles_dir _ _ _).2 (by simp), ?_⟩
      rw [show twoTriangles.nbr (1, 0) = (2, 0) from rfl]
      exact (twoTriangles_dir _ _ _).2 (by simp)
    by_cases h2 : x = (2, 0)
    · right; subst h2
      refine ⟨1, 0, (twoTriangles_dir _ _ _).2 (by simp), ?_⟩
      rw [show twoTriangles.nbr (2, 0) = (1, 0) from rfl]
      exact (twoTriangles_dir _ _ _).2 (by simp)
    left
    have h0 : x ≠ (0, 0) := by rintro rfl; simp at hx
    simp [twoTriangles, h1, h2, h0]
  complete := by
    intro x y v w hx hy
    rw [twoTriangles_dir] at hx hy
    simp only [List.mem_cons, List.not_mem_nil, or_false, Prod.mk.injEq] at hx hy
    rcases hx with ⟨rfl, h1, h2⟩ | ⟨rfl, h1, h2⟩ | ⟨rfl, h1, h2⟩ | ⟨rfl, h1, h2⟩ | ⟨rfl, h1, h2⟩ | ⟨rfl, h1, h2⟩ <;>
      rcases hy with ⟨rfl, k1, k2⟩ | ⟨rfl, k1, k2⟩ | ⟨rfl, k1, k2⟩ | ⟨rfl, k1, k2⟩ | ⟨rfl, k1, k2⟩ | ⟨rfl, k1, k2⟩ <;>
      first | rfl | omega

theorem twoTriangles_segmented : Segmented twoTriangles (fun t => t = 1 ∨ t = 2) where
  back := by
    intro x _ hs
    by_cases h : x = (1, 1)
    · subst h; rfl
    · simp [twoTriangles, h] at hs
  none := by
    intro x _ hs
    by_cases h : x = (1, 1)
    · subst h; simp [twoTriangles] at hs
    · simp [twoTriangles, h]
  both := by
    intro x _ hn hs
    by_cases h : x = (1, 1)
    · subst h; simp [twoTriangles] at hn
    · simp [twoTriangles, h] at hs
  neither := by
    intro x _ hn _
    have : twoTriangles.nbr x ≠ (1, 1) ∨ x = (0, 0) := by
      simp only [twoTriangles]; grind
    rcases this with h | rfl
    · simp [twoTriangles] at h ⊢
      simp [h]
    · simp at *
  same := by
    intro x y _ _ hs he
    have k : ∀ z, (twoTriangles.sub z).1 ≠ 0 → z = (1, 1) := by
      intro z hz
      by_contra h
      simp [twoTriangles, h] at hz
    left
    rw [k x hs, k y (he ▸ hs)]

theorem twoTriangles_flat : Flat twoTriangles (fun t => t = 1 ∨ t = 2) kite where
  ccw := by
    intro x v a b hx
    have hd := Tri3.dirs hx
    obtain ⟨h1, h2, -⟩ := hd
    rw [twoTriangles_dir] at h1 h2
    have hx2 := hx.2.1
    simp only [List.mem_cons, List.not_mem_nil, or_false, Prod.mk.injEq] at h1 h2
    rcases h1 with ⟨rfl, rfl, rfl⟩ | ⟨rfl, rfl, rfl⟩ | ⟨rfl, rfl, rfl⟩ | ⟨rfl, rfl, rfl⟩ | ⟨rfl, rfl, rfl⟩ |
      ⟨rfl, rfl, rfl⟩ <;> (simp [twoTriangles] at hx2; subst hx2; decide +kernel)
  cone := by
    rintro x v a b w hx ⟨y, hw⟩
    have hx2 := hx.2.1
    obtain ⟨h1, -, -⟩ := Tri3.dirs hx
    rw [twoTriangles_dir] at h1
    rw [twoTriangles_dir, twoTriangles_dir] at hw
    simp only [List.mem_cons, List.not_mem_nil, or_false, Prod.mk.injEq] at h1 hw
    have hw' : w < 4 := by omega
    have adj : ¬ (v = 2 ∧ w = 3) ∧ ¬ (v = 3 ∧ w = 2) := by omega
    rcases h1 with ⟨rfl, rfl, rfl⟩ | ⟨rfl, rfl, rfl⟩ | ⟨rfl, rfl, rfl⟩ | ⟨rfl, rfl, rfl⟩ | ⟨rfl, rfl, rfl⟩ |
      ⟨rfl, rfl, rfl⟩ <;> (simp [twoTriangles] at hx2; subst hx2; clear hw; revert w; decide +kernel)
  rays := by
    rintro v w w' ⟨y, hw⟩ ⟨y', hw'⟩ h0 hp
    rw [twoTriangles_dir, twoTriangles_dir] at hw hw'
    simp only [List.mem_cons, List.not_mem_nil, or_false, Prod.mk.injEq] at hw hw'
    have b1 : v < 4 := by omega
    have b2 : w < 4 := by omega
    have b3 : w' < 4 := by omega
    clear hw hw'
    have : ∀ v < 4, ∀ w < 4, ∀ w' < 4, turn (kite v) (kite w) (kite w') = 0 →
      0 < ((kite w).x - (kite v).x) * ((kite w').x - (kite v).x) + ((kite w).y - (kite v).y) * ((kite w').y - (kite v).y) →
      w = w' := by decide +kernel
    exact this v b1 w b2 w' b3 h0 hp

/-- The hypotheses of C135 hold for this mesh: vertex 3 is in the circle through 0, 1, 2. -/
example : ∃ o : Pt ℚ, Linked twoTriangles (fun t => t = 1 ∨ t = 2) ∧ Segmented twoTriangles (fun t => t = 1 ∨ t = 2) ∧
    Flat twoTriangles (fun t => t = 1 ∨ t = 2) kite ∧
    twoTriangles.Dir (fun t => t = 1 ∨ t = 2) (1, 0) 0 1 ∧ twoTriangles.corner (1, 0) = some 2 ∧
    twoTriangles.nbr (1, 0) ≠ (0, 0) ∧ twoTriangles.corner (twoTriangles.nbr (1, 0)) = some 3 ∧
    sqDist o (kite 0) = sqDist o (kite 1) ∧ sqDist o (kite 0) = sqDist o (kite 2) ∧
    sqDist o (kite 3) < sqDist o (kite 0) ∧ (twoTriangles.sub (1, 1)).1 ≠ 0 :=
  ⟨⟨0, 3 / 2⟩, twoTriangles_linked, twoTriangles_segmented, twoTriangles_flat,
    (twoTriangles_dir _ _ _).2 (by simp), rfl, by decide, rfl, by decide +kernel, by decide +kernel,
    by decide +kernel, by decide⟩

end Delynoi
