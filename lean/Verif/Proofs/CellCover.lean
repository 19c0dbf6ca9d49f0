import Verif.Proofs.Winding
import Verif.Proofs.CellRegion
/-!
Helper lemmas: the cells of a mesh contain a point as often as the triangles do.
-/
set_option linter.unusedSectionVars false
namespace Delynoi
variable {K : Type} [Field K] [LinearOrder K] [IsStrictOrderedRing K]

/-- Count of the triangle between `pv` and two points given relative to `pv`. -/
def covAt (x pv z z' : Pt K) : K :=
  cov x pv ⟨pv.x + z.x, pv.y + z.y⟩ ⟨pv.x + z'.x, pv.y + z'.y⟩

theorem covAt_rel (x pv a b : Pt K) : covAt x pv (relTo pv a) (relTo pv b) = cov x pv a b := by
  unfold covAt relTo
  simp only [add_sub_cancel]

theorem covAt_swap (x pv a b : Pt K) : covAt x pv a b = -covAt x pv b a := by
  unfold covAt cov
  rw [wnd_swap x _ pv, wnd_swap x ⟨pv.x + a.x, pv.y + a.y⟩ ⟨pv.x + b.x, pv.y + b.y⟩,
    wnd_swap x pv ⟨pv.x + b.x, pv.y + b.y⟩]
  rw [wnd_swap x ⟨pv.x + a.x, pv.y + a.y⟩ pv, wnd_swap x ⟨pv.x + b.x, pv.y + b.y⟩ pv]
  ring

theorem covAt_par {x pv a b : Pt K} (h : cr a b = 0) : covAt x pv a b = 0 := by
  apply cov_flat
  unfold cr at h
  unfold turn
  simp only [add_sub_cancel_left]
  linear_combination h

theorem covAt_self (x pv a : Pt K) : covAt x pv a a = 0 := covAt_par (cr_self a)

/-- Counts add up along a line. -/
theorem covAt_line {x pv a m b : Pt K} (h : cr a b = cr a m + cr m b) :
    covAt x pv a b = covAt x pv a m + covAt x pv m b := by
  unfold covAt cov
  have : turn (⟨pv.x + a.x, pv.y + a.y⟩ : Pt K) ⟨pv.x + m.x, pv.y + m.y⟩ ⟨pv.x + b.x, pv.y + b.y⟩ = 0 := by
    unfold cr at h; unfold turn; simp only; linear_combination -h
  rw [wnd_line x this, wnd_swap x ⟨pv.x + m.x, pv.y + m.y⟩ pv]; ring

/-- Part of the cell in one triangle. -/
def quadC (x pv : Pt K) (a c : Nat → Pt K) (s : Nat) : K :=
  covAt x pv (half (a s)) (c s) + covAt x pv (c s) (half (a (s + 1)))

namespace GFan
variable {e : K} {k : Nat} {a c : Nat → Pt K}

theorem zc_cov (h : GFan e k a c) (hk : 0 < k) (hcl : a 0 = a k) (x pv : Pt K) :
    ∑ s ∈ Finset.range k, covAt x pv (zc k c s) (zc k c (s + 1)) = ∑ s ∈ Finset.range k, quadC x pv a c s := by
  obtain ⟨n, rfl⟩ : ∃ n, k = n + 1 := ⟨k - 1, by omega⟩
  rw [Finset.sum_range_succ']
  have e1 : ∀ s ∈ Finset.range n, covAt x pv (zc (n + 1) c (s + 1)) (zc (n + 1) c (s + 1 + 1)) =
      covAt x pv (c s) (half (a (s + 1))) + covAt x pv (half (a (s + 1))) (c (s + 1)) := by
    intro s hs
    have hs' := Finset.mem_range.1 hs
    unfold zc
    rw [if_neg (by omega), if_neg (by omega), Nat.add_sub_cancel, Nat.add_sub_cancel]
    exact covAt_line (bisect (h.ne_zero (by omega) (by omega)) (h.c1 s (by omega)) (h.c0 (s + 1) (by omega)))
  rw [Finset.sum_congr rfl e1]
  have e2 : covAt x pv (zc (n + 1) c 0) (zc (n + 1) c (0 + 1)) =
      covAt x pv (c n) (half (a (n + 1))) + covAt x pv (half (a 0)) (c 0) := by
    unfold zc
    rw [if_pos rfl, if_neg (by omega), Nat.add_sub_cancel, Nat.add_sub_cancel, ← hcl]
    have h1 := h.c1 n (by omega)
    rw [← hcl] at h1
    exact covAt_line (bisect (h.ne_zero hk (by omega)) h1 (h.c0 0 hk))
  rw [e2]
  unfold quadC
  rw [Finset.sum_add_distrib, Finset.sum_add_distrib,
    Finset.sum_range_succ' (fun s => covAt x pv (half (a s)) (c s)),
    Finset.sum_range_succ (fun s => covAt x pv (c s) (half (a (s + 1))))]
  ring

theorem zo_cov (h : GFan e k a c) (hk : 0 < k) (x pv : Pt K) :
    ∑ s ∈ Finset.range (k + 1), covAt x pv (zo k a c s) (zo k a c (s + 1)) =
      ∑ s ∈ Finset.range k, quadC x pv a c s := by
  obtain ⟨n, rfl⟩ : ∃ n, k = n + 1 := ⟨k - 1, by omega⟩
  rw [Finset.sum_range_succ', Finset.sum_range_succ]
  have e1 : ∀ s ∈ Finset.range n, covAt x pv (zo (n + 1) a c (s + 1)) (zo (n + 1) a c (s + 1 + 1)) =
      covAt x pv (c s) (half (a (s + 1))) + covAt x pv (half (a (s + 1))) (c (s + 1)) := by
    intro s hs
    have hs' := Finset.mem_range.1 hs
    have zs : ∀ s < n + 1, zo (n + 1) a c (s + 1) = c s := by
      intro s hs; unfold zo; rw [if_neg (by omega), if_pos (by omega), Nat.add_sub_cancel]
    rw [zs s (by omega), zs (s + 1) (by omega)]
    exact covAt_line (bisect (h.ne_zero (by omega) (by omega)) (h.c1 s (by omega)) (h.c0 (s + 1) (by omega)))
  rw [Finset.sum_congr rfl e1]
  have e2 : covAt x pv (zo (n + 1) a c 0) (zo (n + 1) a c (0 + 1)) = covAt x pv (half (a 0)) (c 0) := by
    unfold zo
    rw [if_pos rfl, if_neg (by omega), if_pos (by omega)]
  have e3 : covAt x pv (zo (n + 1) a c (n + 1)) (zo (n + 1) a c (n + 1 + 1)) =
      covAt x pv (c n) (half (a (n + 1))) := by
    unfold zo
    rw [if_neg (by omega), if_pos (by omega), if_neg (by omega), if_neg (by omega), if_pos rfl,
      Nat.add_sub_cancel]
  rw [e2, e3]
  unfold quadC
  rw [Finset.sum_add_distrib, Finset.sum_add_distrib,
    Finset.sum_range_succ' (fun s => covAt x pv (half (a s)) (c s)),
    Finset.sum_range_succ (fun s => covAt x pv (c s) (half (a (s + 1))))]
  ring

end GFan

/-- Count of the triangle between `pv` and two points of the list. -/
def gCov (l : List (Pt K)) (x pv : Pt K) (i j : Int) : K := cov x pv (ptOf l i) (ptOf l j)

theorem gCov_swap (l : List (Pt K)) (x pv : Pt K) (i j : Int) : gCov l x pv i j = -gCov l x pv j i := by
  unfold gCov; rw [← covAt_rel, covAt_swap, covAt_rel]

theorem gCov_self (l : List (Pt K)) (x pv : Pt K) (i : Int) : gCov l x pv i i = 0 := by
  unfold gCov; rw [← covAt_rel, covAt_self]

theorem gCov_at {l : List (Pt K)} {x pv : Pt K} {idx : List Int} {s s' : Nat} {z z' : Pt K}
    (h : At l pv idx s z) (h' : At l pv idx s' z') :
    gCov l x pv (idx.getD s 0) (idx.getD s' 0) = covAt x pv z z' := by
  unfold gCov
  rw [← covAt_rel, at_getD h, at_getD h']

section
variable {tol : K} {out : TriOut K} {l : List (Pt K)} {v : Int} {ns : List Int} {ts : List Nat} {idx : List Int}

/-- The path around a cell counts the parts in the triangles. -/
theorem cell_cov (hv : ValidOut out) (hC : Conforming out)
    (hS : MergesNothing tol out) (hl : ∀ q ∈ l, Feature out q)
    (hu : ∀ i j q, vecGet l i = .ok q → vecGet l j = .ok q → i = j)
    (hF : IsFan out.tris v ns ts) (hn : ts.Nodup) (hne : ts ≠ [])
    (hci : CellIdx tol out l v ns ts idx) (e : K)
    (hG : GFan e ts.length (fanA out v ns) (fanX out v ts))
    (hM : MergesNoCorner tol out ∨ ∀ a, ¬ BoundaryEdge out.tris v a) (x : Pt K) :
    cycSum (gCov l x (ptOf out.points v)) (firsts idx) =
      ∑ s ∈ Finset.range ts.length, quadC x (ptOf out.points v) (fanA out v ns) (fanX out v ts) s := by
  have hpos : 0 < ts.length := List.length_pos_of_ne_nil hne
  have hnr := noReturn_of hv hC hS hl hu hF hn hne hci
  have hself := gCov_self l x (ptOf out.points v)
  unfold NoReturn at hnr
  rcases cell_exact hv hC hS hl hF hn hne hci with ⟨h1, h2, h3, ⟨c, h4, h4'⟩, h5⟩ |
    ⟨h1, h2, hb0, hb1, h5, h6, h7, h8⟩
  · rw [if_pos h2] at hnr
    rw [cycSum_closed _ hself h4 h4' hnr, pathSum_range, h3, Nat.add_sub_cancel, ← hG.zc_cov hpos h1]
    exact Finset.sum_congr rfl (fun s hs => gCov_at (h5 s (by have := Finset.mem_range.1 hs; omega))
        (h5 (s + 1) (by have := Finset.mem_range.1 hs; omega)))
  · rw [if_neg h2] at hnr
    have hil : 0 < idx.length := by rcases h8 with ⟨h8, _⟩ | h8 <;> omega
    have hhd : idx.head? = some (idx.getD 0 0) := by
      rw [List.head?_eq_getElem?, List.getElem?_eq_getElem hil, List.getD_eq_getElem _ _ hil]
    have hlst : idx.getLast? = some (idx.getD (idx.length - 1) 0) := by
      rw [List.getLast?_eq_getElem?, List.getElem?_eq_getElem (by omega),
        List.getD_eq_getElem _ _ (by omega)]
    rw [cycSum_open _ hself hhd hlst hnr, pathSum_range]
    rw [Finset.sum_congr rfl (fun s hs => gCov_at (h7 s (by have := Finset.mem_range.1 hs; omega))
        (h7 (s + 1) (by have := Finset.mem_range.1 hs; omega)))]
    rw [gCov_at (h7 (idx.length - 1) (by omega)) (h7 0 hil)]
    have z0 : zo ts.length (fanA out v ns) (fanX out v ts) 0 = half (fanA out v ns 0) := by
      unfold zo; rw [if_pos rfl]
    have z1 : zo ts.length (fanA out v ns) (fanX out v ts) (ts.length + 1) =
        half (fanA out v ns ts.length) := by
      unfold zo; rw [if_neg (by omega), if_neg (by omega), if_pos rfl]
    have z2 : zo ts.length (fanA out v ns) (fanX out v ts) (ts.length + 2) = ⟨0, 0⟩ := by
      unfold zo; rw [if_neg (by omega), if_neg (by omega), if_neg (by omega)]
    rcases h8 with ⟨h8, i, e', qf, ql, g1, g2, g3, g4, g5⟩ | h8
    · rw [h8, show ts.length + 2 - 1 = ts.length + 1 by omega, z0, z1, hG.zo_cov hpos]
      have : cr (half (fanA out v ns ts.length)) (half (fanA out v ns 0)) = 0 := by
        refine straight_of hv hM hb0 hb1 ?_
        rw [← firsts_dropRepeats, firsts_nodup hnr, dropRepeats_last, hlst] at g2
        rw [hhd] at g1
        have a0 := at_getD (h7 0 hil)
        have a1 := at_getD (h7 (idx.length - 1) (by omega))
        rw [Option.some.inj g1, ptOf_ok g3, z0] at a0
        rw [Option.some.inj g2, ptOf_ok g4, h8, show ts.length + 2 - 1 = ts.length + 1 by omega, z1] at a1
        have : cr (half (fanA out v ns ts.length)) (half (fanA out v ns 0)) =
            turn qf (ptOf out.points v) ql := by
          rw [← a0, ← a1]; unfold cr relTo turn; ring
        rw [this]; exact g5
      rw [covAt_par this, add_zero]
    · rw [h8, show ts.length + 3 - 1 = ts.length + 2 by omega, Finset.sum_range_succ, z0, z2, z1,
        hG.zo_cov hpos]
      have c1 : ∀ a : Pt K, cr a ⟨0, 0⟩ = 0 := by intro a; unfold cr; simp
      have c2 : ∀ a : Pt K, cr ⟨0, 0⟩ a = 0 := by intro a; unfold cr; simp
      rw [covAt_par (c1 _), covAt_par (c2 _)]; ring
end

/-- Count of the quadrilateral between `v`, the middles of `v a` and `v b`, and `c`. -/
def secCov (x v a b c : Pt K) : K :=
  cov x v ⟨(v.x + a.x) / 2, (v.y + a.y) / 2⟩ c + cov x v c ⟨(v.x + b.x) / 2, (v.y + b.y) / 2⟩

theorem secCov_swap (x v a b c : Pt K) : secCov x v a b c = -secCov x v b a c := by
  unfold secCov
  rw [← covAt_rel, ← covAt_rel, ← covAt_rel, ← covAt_rel, covAt_swap x v (relTo v c),
    covAt_swap x v _ (relTo v c)]
  ring

/-- The three parts of a triangle. -/
theorem secCov_tri (x a b c o : Pt K) :
    secCov x a b c o + secCov x b c a o + secCov x c a b o = cov x a b c := by
  have mid : ∀ u w : Pt K, wnd x u w = wnd x u ⟨(u.x + w.x) / 2, (u.y + w.y) / 2⟩ +
      wnd x ⟨(u.x + w.x) / 2, (u.y + w.y) / 2⟩ w := by
    intro u w; apply wnd_line; unfold turn; simp only; ring
  unfold secCov cov
  rw [mid a b, mid b c, mid c a]
  have comm : ∀ u w : Pt K, (⟨(u.x + w.x) / 2, (u.y + w.y) / 2⟩ : Pt K) = ⟨(w.x + u.x) / 2, (w.y + u.y) / 2⟩ := by
    intro u w; rw [add_comm u.x, add_comm u.y]
  rw [comm a c, comm b a, comm c b]
  rw [wnd_swap x o a, wnd_swap x o b, wnd_swap x o c, wnd_swap x o ⟨(a.x + b.x) / 2, (a.y + b.y) / 2⟩,
    wnd_swap x o ⟨(b.x + c.x) / 2, (b.y + c.y) / 2⟩, wnd_swap x o ⟨(c.x + a.x) / 2, (c.y + a.y) / 2⟩]
  ring

/-- The part of the cell of `v` in triangle number `t`. -/
def sectorC (x : Pt K) (out : TriOut K) (v : Int) (t : Nat) : K :=
  match out.tris[t]? with
  | some tt =>
    if v = tt.1 then secCov x (ptOf out.points tt.1) (ptOf out.points tt.2.1) (ptOf out.points tt.2.2) (cenOf out t)
    else if v = tt.2.1 then
      secCov x (ptOf out.points tt.2.1) (ptOf out.points tt.2.2) (ptOf out.points tt.1) (cenOf out t)
    else if v = tt.2.2 then
      secCov x (ptOf out.points tt.2.2) (ptOf out.points tt.1) (ptOf out.points tt.2.1) (cenOf out t)
    else 0
  | none => 0

section
variable {x : Pt K} {out : TriOut K} {v : Int} {t : Nat}

theorem sectorC_pos (hv : ValidOut out) {a b : Int} (h : Pos out.tris v a b t) : sectorC x out v t =
      secCov x (ptOf out.points v) (ptOf out.points a) (ptOf out.points b) (cenOf out t) := by
  obtain ⟨⟨x, y, z⟩, htt, h1, h2⟩ := h
  have hmem := List.mem_of_getElem? htt
  obtain ⟨n1, n2, n3⟩ := properTris_of_valid hv _ hmem
  simp only at n1 n2 n3
  simp only [dsides, List.mem_cons, Prod.mk.injEq, List.not_mem_nil, or_false] at h1 h2
  unfold sectorC
  rw [htt]
  simp only
  have hcase : (v = x ∧ a = y ∧ b = z) ∨ (v = y ∧ a = z ∧ b = x) ∨ (v = z ∧ a = x ∧ b = y) := by omega
  rcases hcase with ⟨rfl, rfl, rfl⟩ | ⟨rfl, rfl, rfl⟩ | ⟨rfl, rfl, rfl⟩
  · rw [if_pos rfl]
  · rw [if_neg (by omega), if_pos rfl]
  · rw [if_neg (by omega), if_neg (by omega), if_pos rfl]

theorem sectorC_unused (h : ¬ UsesVertex out.tris v t) : sectorC x out v t = 0 := by
  unfold sectorC
  cases htt : out.tris[t]? with
  | none => rfl
  | some tt =>
    have hn : v ∉ verts tt := fun hm => h ⟨tt, htt, hm⟩
    simp only [verts, List.mem_cons, List.not_mem_nil, or_false, not_or] at hn
    simp only
    rw [if_neg hn.1, if_neg hn.2.1, if_neg hn.2.2]

theorem quadC_sec (x : Pt K) (out : TriOut K) (v : Int) (ns : List Int) (ts : List Nat) (s : Nat) :
    quadC x (ptOf out.points v) (fanA out v ns) (fanX out v ts) s = secCov x (ptOf out.points v)
      (ptOf out.points (ns.getD s 0)) (ptOf out.points (ns.getD (s + 1) 0)) (cenOf out (ts.getD s 0)) := by
  unfold quadC fanA fanX secCov
  rw [half_relTo, half_relTo, covAt_rel, covAt_rel]

/-- The parts, summed over the triangles of the fan. -/
theorem sectorC_sum (hv : ValidOut out) {ns : List Int} {ts : List Nat} {e : K}
    (hdir : (e = 1 ∧ ∀ i < ts.length, Pos out.tris v (ns.getD i 0) (ns.getD (i + 1) 0) (ts.getD i 0)) ∨
       (e = -1 ∧ ∀ i < ts.length, Pos out.tris v (ns.getD (i + 1) 0) (ns.getD i 0) (ts.getD i 0))) :
    e * ∑ s ∈ Finset.range ts.length, quadC x (ptOf out.points v) (fanA out v ns) (fanX out v ts) s =
      (ts.map (sectorC x out v)).sum := by
  have : (ts.map (sectorC x out v)).sum = ∑ s ∈ Finset.range ts.length, sectorC x out v (ts.getD s 0) := by
    clear hdir
    induction ts with
    | nil => simp
    | cons t ts ih =>
      rw [List.map_cons, List.sum_cons, ih, List.length_cons, Finset.sum_range_succ', add_comm]
      rfl
  rw [this, Finset.mul_sum]
  refine Finset.sum_congr rfl (fun s hs => ?_)
  have hs' := Finset.mem_range.1 hs
  rw [quadC_sec]
  rcases hdir with ⟨rfl, hP⟩ | ⟨rfl, hP⟩
  · rw [sectorC_pos hv (hP s hs'), one_mul]
  · rw [sectorC_pos hv (hP s hs'), secCov_swap]; ring

theorem sectorC_all {ts : List Nat} (hn : ts.Nodup)
    (hall : ∀ t, UsesVertex out.tris v t → t ∈ ts) (huse : ∀ t ∈ ts, UsesVertex out.tris v t) :
    (ts.map (sectorC x out v)).sum = ∑ t ∈ Finset.range out.tris.length, sectorC x out v t := by
  rw [← List.sum_toFinset _ hn]
  refine Finset.sum_subset ?_ ?_
  · intro t ht
    obtain ⟨tt, h, _⟩ := huse t (by simpa using ht)
    exact Finset.mem_range.2 (List.getElem?_eq_some_iff.1 h).1
  · intro t _ ht
    refine sectorC_unused (fun h => ht ?_)
    simpa using hall t h

theorem sectorC_tri (hv : ValidOut out) {vs : List Int} (hn : vs.Nodup)
    {tt : Int × Int × Int} (h : out.tris[t]? = some tt) (hvs : ∀ v ∈ verts tt, v ∈ vs) :
    (vs.map (fun v => sectorC x out v t)).sum =
      cov x (ptOf out.points tt.1) (ptOf out.points tt.2.1) (ptOf out.points tt.2.2) := by
  obtain ⟨n1, n2, n3⟩ := properTris_of_valid hv _ (List.mem_of_getElem? h)
  rw [← List.sum_toFinset _ hn]
  have hsub : ({tt.1, tt.2.1, tt.2.2} : Finset Int) ⊆ vs.toFinset := by
    intro v hvm
    simp only [Finset.mem_insert, Finset.mem_singleton] at hvm
    rw [List.mem_toFinset]
    apply hvs
    simpa [verts] using hvm
  rw [← Finset.sum_subset hsub]
  · rw [Finset.sum_insert, Finset.sum_insert, Finset.sum_singleton]
    · unfold sectorC
      rw [h]
      dsimp only
      rw [if_pos rfl, if_neg (fun hh => n1 hh.symm), if_pos rfl, if_neg (by omega), if_neg (by omega), if_pos rfl]
      rw [← secCov_tri x _ _ _ (cenOf out t)]
      ring
    · simpa using n2
    · simp only [Finset.mem_insert, Finset.mem_singleton, not_or]
      exact ⟨n1, n3.symm⟩
  · intro v _ hvn
    refine sectorC_unused ?_
    rintro ⟨tt', h1, h2⟩
    rw [h] at h1; obtain rfl := Option.some.inj h1
    apply hvn
    simpa [verts] using h2
end

end Delynoi
