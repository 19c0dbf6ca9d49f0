import Verif.Proofs.ExactCell
import Mathlib.Algebra.BigOperators.Field
/-!
Helper lemmas: the area of a cell in an exact mesh.
-/
set_option linter.unusedSectionVars false
namespace Delynoi
variable {K : Type} [Field K] [LinearOrder K] [IsStrictOrderedRing K]

theorem refArea_cyc (o : Pt K) (l : List (Pt K)) :
    refArea o l = ((cycPairs l).map (fun e => turn o e.1 e.2 / 2)).sum := by
  unfold refArea
  congr 1
  apply List.ext_getElem
  · simp [cycPairs_length]
  · intro i h1 h2
    simp [cycPairs_getElem]

/-- Signed area seen from `pv`, for indices. -/
def gArea (l : List (Pt K)) (pv : Pt K) (i j : Int) : K := turn pv (ptOf l i) (ptOf l j) / 2

theorem resolve_map {l : List (Pt K)} {is : List Int} {L : List (Pt K)} (h : resolve l is = .ok L) :
    L = is.map (ptOf l) := by
  apply List.ext_getElem?
  intro k
  rw [List.getElem?_map]
  cases hk : is[k]? with
  | none =>
    have : is.length ≤ k := by simpa using hk
    simp [resolve_length h, this]
  | some i =>
    obtain ⟨a, h1, h2⟩ := resolve_getElem? h hk
    rw [h1, Option.map_some, ptOf_ok h2]

theorem refArea_resolve {l : List (Pt K)} {is : List Int} {L : List (Pt K)} (h : resolve l is = .ok L)
    (pv : Pt K) : refArea pv L = cycSum (gArea l pv) is := by
  rw [refArea_cyc, resolve_map h, cycPairs_map, List.map_map]
  rfl

theorem gArea_self (l : List (Pt K)) (pv : Pt K) (a : Int) : gArea l pv a a = 0 := by
  unfold gArea turn; ring

theorem gArea_swap (l : List (Pt K)) (pv : Pt K) (a b : Int) : gArea l pv a b = -gArea l pv b a := by
  unfold gArea turn; ring

theorem pathSum_range (g : Int → Int → K) : ∀ (l : List Int),
    pathSum g l = ∑ s ∈ Finset.range (l.length - 1), g (l.getD s 0) (l.getD (s + 1) 0) := by
  intro l
  induction l with
  | nil => simp [pathSum]
  | cons a l ih =>
    cases l with
    | nil => simp [pathSum]
    | cons b l =>
      rw [pathSum_cons2, ih]
      simp only [List.length_cons, Nat.add_sub_cancel]
      rw [Finset.sum_range_succ']
      rw [add_comm]
      rfl

theorem at_getD {l : List (Pt K)} {pv : Pt K} {idx : List Int} {s : Nat} {z : Pt K}
    (h : At l pv idx s z) : relTo pv (ptOf l (idx.getD s 0)) = z := by
  obtain ⟨u, q, h1, h2, h3⟩ := h
  rw [List.getD_eq_getElem?_getD, h1, Option.getD_some, ptOf_ok h2, h3]

theorem gArea_at {l : List (Pt K)} {pv : Pt K} {idx : List Int} {s s' : Nat} {z z' : Pt K}
    (h : At l pv idx s z) (h' : At l pv idx s' z') :
    gArea l pv (idx.getD s 0) (idx.getD s' 0) = cr z z' / 2 := by
  unfold gArea
  rw [← cr_relTo, at_getD h, at_getD h']

/-- Equal positions of the path are equal points, and conversely. -/
theorem at_eq {l : List (Pt K)} (hu : ∀ i j q, vecGet l i = .ok q → vecGet l j = .ok q → i = j)
    {pv : Pt K} {idx : List Int} {s s' : Nat} {z z' : Pt K} (h : At l pv idx s z) (h' : At l pv idx s' z') :
    z = z' ↔ idx[s]? = idx[s']? := by
  obtain ⟨u, q, h1, h2, h3⟩ := h
  obtain ⟨u', q', h1', h2', h3'⟩ := h'
  constructor
  · intro hz
    rw [← h3, ← h3'] at hz
    have := relTo_inj hz
    rw [this] at h2
    rw [h1, h1', hu _ _ _ h2 h2']
  · intro hi
    rw [h1, h1'] at hi
    obtain rfl := Option.some.inj hi
    rw [h2] at h2'
    obtain rfl := Outcome.ok.inj h2'
    rw [← h3, h3']

section
variable {tol : K} {out : TriOut K} {l : List (Pt K)} {v : Int} {ns : List Int} {ts : List Nat} {idx : List Int}

/-- The path around a cell does not return. -/
theorem noReturn_of (hv : ValidOut out) (hC : Conforming out)
    (hS : MergesNothing tol out) (hl : ∀ q ∈ l, Feature out q)
    (hu : ∀ i j q, vecGet l i = .ok q → vecGet l j = .ok q → i = j)
    (hF : IsFan out.tris v ns ts) (hn : ts.Nodup) (hne : ts ≠ [])
    (hci : CellIdx tol out l v ns ts idx) : NoReturn ns idx := by
  obtain ⟨e, hG, -⟩ := gfan_of hv hC hF hn hne
  have hpos : 0 < ts.length := List.length_pos_of_ne_nil hne
  unfold NoReturn
  rcases cell_exact hv hC hS hl hF hn hne hci with ⟨h1, h2, h3, -, h4⟩ | ⟨h1, h2, -, -, h5, h6, h7, h8⟩
  · rw [if_pos h2]
    apply returns_tail_nodup
    intro p q w hpq hp hq
    have hpl : p < idx.length := (List.getElem?_eq_some_iff.1 hp).1
    have hql : q < idx.length := (List.getElem?_eq_some_iff.1 hq).1
    have hz := (at_eq hu (h4 p (by omega)) (h4 q (by omega))).2 (by rw [hp, hq])
    rcases hG.zc_returns h1 hpq (by omega) hz with hh | ⟨hh, hh'⟩
    · left
      intro s hs hs'
      rw [← hp]
      exact (at_eq hu (h4 s (by omega)) (h4 p (by omega))).1 (hh s hs hs')
    · right
      refine ⟨fun s hs => ?_, fun s hs hs' => ?_⟩
      · rw [← hp]
        exact (at_eq hu (h4 s (by omega)) (h4 p (by omega))).1 (hh s hs)
      · rw [← hp]
        exact (at_eq hu (h4 s (by omega)) (h4 p (by omega))).1 (hh' s hs (by omega))
  · rw [if_neg h2]
    apply between_nodup
    intro p q w hpq hp hq s hs hs'
    have hpl : p < idx.length := (List.getElem?_eq_some_iff.1 hp).1
    have hql : q < idx.length := (List.getElem?_eq_some_iff.1 hq).1
    have hz := (at_eq hu (h7 p hpl) (h7 q hql)).2 (by rw [hp, hq])
    rw [← hp]
    refine (at_eq hu (h7 s (by omega)) (h7 p hpl)).1 ?_
    refine hG.zo_between hpos h1 h5 h6 hpq ?_ hz s hs hs'
    rcases h8 with ⟨h8, _⟩ | h8 <;> omega

/-- The area of the path around a cell: the parts in the triangles, up to the closing hop of a flat
boundary cell. -/
theorem cell_sum (hv : ValidOut out) (hC : Conforming out)
    (hS : MergesNothing tol out) (hl : ∀ q ∈ l, Feature out q)
    (hu : ∀ i j q, vecGet l i = .ok q → vecGet l j = .ok q → i = j)
    (hF : IsFan out.tris v ns ts) (hn : ts.Nodup) (hne : ts ≠ [])
    (hci : CellIdx tol out l v ns ts idx) (e : K)
    (hG : GFan e ts.length (fanA out v ns) (fanX out v ts)) :
    0 ≤ ∑ s ∈ Finset.range ts.length, e * (quad (fanA out v ns) (fanX out v ts) s / 2) ∧
    ∃ r : K, e * cycSum (gArea l (ptOf out.points v)) (firsts idx) =
      ∑ s ∈ Finset.range ts.length, e * (quad (fanA out v ns) (fanX out v ts) s / 2) + e * (r / 2) ∧
      (r = 0 ∨ (|r| < tol ∧ BoundaryEdge out.tris v (ns.getD 0 0) ∧
        BoundaryEdge out.tris v (ns.getD ts.length 0) ∧
        r = cr (half (fanA out v ns ts.length)) (half (fanA out v ns 0)))) := by
  have hpos : 0 < ts.length := List.length_pos_of_ne_nil hne
  have hnr := noReturn_of hv hC hS hl hu hF hn hne hci
  have hself := gArea_self l (ptOf out.points v)
  have hq : ∀ e' : K, ∑ s ∈ Finset.range ts.length, e' * (quad (fanA out v ns) (fanX out v ts) s / 2) =
      e' * (∑ s ∈ Finset.range ts.length, quad (fanA out v ns) (fanX out v ts) s) / 2 := by
    intro e'
    rw [← Finset.mul_sum, ← Finset.sum_div, mul_div_assoc]
  rw [hq]
  unfold NoReturn at hnr
  rcases cell_exact hv hC hS hl hF hn hne hci with ⟨h1, h2, h3, ⟨c, h4, h4'⟩, h5⟩ |
    ⟨h1, h2, hb0, hb1, h5, h6, h7, h8⟩
  · rw [if_pos h2] at hnr
    refine ⟨?_, 0, ?_, Or.inl rfl⟩
    · rw [← hG.zc_sum hpos h1, Finset.mul_sum]
      have := Finset.sum_nonneg (fun s hs => hG.zc_nonneg hpos h1 s (Finset.mem_range.1 hs))
      linarith
    · rw [cycSum_closed _ hself h4 h4' hnr, pathSum_range, h3, Nat.add_sub_cancel, ← hG.zc_sum hpos h1]
      rw [Finset.sum_congr rfl (fun s hs => gArea_at (h5 s (by have := Finset.mem_range.1 hs; omega))
        (h5 (s + 1) (by have := Finset.mem_range.1 hs; omega))), ← Finset.sum_div]
      ring
  · rw [if_neg h2] at hnr
    have hil : 0 < idx.length := by rcases h8 with ⟨h8, _⟩ | h8 <;> omega
    have hhd : idx.head? = some (idx.getD 0 0) := by
      rw [List.head?_eq_getElem?, List.getElem?_eq_getElem hil, List.getD_eq_getElem _ _ hil]
    have hlst : idx.getLast? = some (idx.getD (idx.length - 1) 0) := by
      rw [List.getLast?_eq_getElem?, List.getElem?_eq_getElem (by omega),
        List.getD_eq_getElem _ _ (by omega)]
    refine ⟨?_, ?_⟩
    · rw [← hG.zo_sum hpos, Finset.mul_sum]
      have := Finset.sum_nonneg (fun s hs => hG.zo_nonneg hpos h5 h6 s (Finset.mem_range.1 hs))
      linarith
    · rw [cycSum_open _ hself hhd hlst hnr, pathSum_range]
      rw [Finset.sum_congr rfl (fun s hs => gArea_at (h7 s (by have := Finset.mem_range.1 hs; omega))
        (h7 (s + 1) (by have := Finset.mem_range.1 hs; omega)))]
      rw [gArea_at (h7 (idx.length - 1) (by omega)) (h7 0 hil)]
      have z0 : zo ts.length (fanA out v ns) (fanX out v ts) 0 = half (fanA out v ns 0) := by
        unfold zo; rw [if_pos rfl]
      have z1 : zo ts.length (fanA out v ns) (fanX out v ts) (ts.length + 1) =
          half (fanA out v ns ts.length) := by
        unfold zo; rw [if_neg (by omega), if_neg (by omega), if_pos rfl]
      have z2 : zo ts.length (fanA out v ns) (fanX out v ts) (ts.length + 2) = ⟨0, 0⟩ := by
        unfold zo; rw [if_neg (by omega), if_neg (by omega), if_neg (by omega)]
      rcases h8 with ⟨h8, i, e', qf, ql, g1, g2, g3, g4, g5⟩ | h8
      · refine ⟨cr (half (fanA out v ns ts.length)) (half (fanA out v ns 0)), ?_, Or.inr ⟨?_, hb0, hb1, rfl⟩⟩
        · rw [h8, show ts.length + 2 - 1 = ts.length + 1 by omega, z0, z1, ← Finset.sum_div, hG.zo_sum hpos]
          ring
        · -- the last index kept is the last of the path
          rw [← firsts_dropRepeats, firsts_nodup hnr, dropRepeats_last, hlst] at g2
          rw [hhd] at g1
          have a0 := at_getD (h7 0 hil)
          have a1 := at_getD (h7 (idx.length - 1) (by omega))
          rw [Option.some.inj g1, ptOf_ok g3, z0] at a0
          rw [Option.some.inj g2, ptOf_ok g4, h8, show ts.length + 2 - 1 = ts.length + 1 by omega, z1] at a1
          have : cr (half (fanA out v ns ts.length)) (half (fanA out v ns 0)) =
              turn qf (ptOf out.points v) ql := by
            rw [← a0, ← a1]; unfold cr relTo turn; ring
          rw [this]; exact g5
      · refine ⟨0, ?_, Or.inl rfl⟩
        rw [h8, show ts.length + 3 - 1 = ts.length + 2 by omega, Finset.sum_range_succ, z0, z2, z1,
          ← Finset.sum_div, hG.zo_sum hpos]
        have c1 : ∀ a : Pt K, cr a ⟨0, 0⟩ = 0 := by intro a; unfold cr; simp
        have c2 : ∀ a : Pt K, cr ⟨0, 0⟩ a = 0 := by intro a; unfold cr; simp
        rw [c1, c2]; ring
end

/-- Area of the quadrilateral between `v`, the middles of `v a` and `v b`, and `c`. -/
def secArea (v a b c : Pt K) : K :=
  (turn v ⟨(v.x + a.x) / 2, (v.y + a.y) / 2⟩ c + turn v c ⟨(v.x + b.x) / 2, (v.y + b.y) / 2⟩) / 2

/-- The part of the cell of `v` in triangle number `t`. -/
def sector (out : TriOut K) (v : Int) (t : Nat) : K :=
  match out.tris[t]? with
  | some tt =>
    if v = tt.1 then secArea (ptOf out.points tt.1) (ptOf out.points tt.2.1) (ptOf out.points tt.2.2) (cenOf out t)
    else if v = tt.2.1 then
      secArea (ptOf out.points tt.2.1) (ptOf out.points tt.2.2) (ptOf out.points tt.1) (cenOf out t)
    else if v = tt.2.2 then
      secArea (ptOf out.points tt.2.2) (ptOf out.points tt.1) (ptOf out.points tt.2.1) (cenOf out t)
    else 0
  | none => 0

theorem sector_pos {out : TriOut K} (hv : ValidOut out) {v a b : Int} {t : Nat}
    (h : Pos out.tris v a b t) : sector out v t =
      secArea (ptOf out.points v) (ptOf out.points a) (ptOf out.points b) (cenOf out t) := by
  obtain ⟨⟨x, y, z⟩, htt, h1, h2⟩ := h
  have hmem := List.mem_of_getElem? htt
  obtain ⟨n1, n2, n3⟩ := properTris_of_valid hv _ hmem
  simp only at n1 n2 n3
  simp only [dsides, List.mem_cons, Prod.mk.injEq, List.not_mem_nil, or_false] at h1 h2
  unfold sector
  rw [htt]
  simp only
  have hcase : (v = x ∧ a = y ∧ b = z) ∨ (v = y ∧ a = z ∧ b = x) ∨ (v = z ∧ a = x ∧ b = y) := by omega
  rcases hcase with ⟨rfl, rfl, rfl⟩ | ⟨rfl, rfl, rfl⟩ | ⟨rfl, rfl, rfl⟩
  · rw [if_pos rfl]
  · rw [if_neg (by omega), if_pos rfl]
  · rw [if_neg (by omega), if_neg (by omega), if_pos rfl]

theorem sector_unused {out : TriOut K} {v : Int} {t : Nat} (h : ¬ UsesVertex out.tris v t) :
    sector out v t = 0 := by
  unfold sector
  cases htt : out.tris[t]? with
  | none => rfl
  | some tt =>
    have hn : v ∉ verts tt := fun hm => h ⟨tt, htt, hm⟩
    simp only [verts, List.mem_cons, List.not_mem_nil, or_false, not_or] at hn
    simp only
    rw [if_neg hn.1, if_neg hn.2.1, if_neg hn.2.2]

theorem quad_sec (out : TriOut K) (v : Int) (ns : List Int) (ts : List Nat) (s : Nat) :
    quad (fanA out v ns) (fanX out v ts) s / 2 = secArea (ptOf out.points v)
      (ptOf out.points (ns.getD s 0)) (ptOf out.points (ns.getD (s + 1) 0)) (cenOf out (ts.getD s 0)) := by
  unfold quad fanA fanX secArea
  rw [half_relTo, half_relTo, cr_relTo, cr_relTo]

theorem secArea_swap (v a b c : Pt K) : secArea v a b c = -secArea v b a c := by
  unfold secArea turn; ring

/-- The area of the parts is the sum over the triangles of the fan. -/
theorem sector_sum {out : TriOut K} (hv : ValidOut out) {v : Int} {ns : List Int} {ts : List Nat} {e : K}
    (hdir : (e = 1 ∧ ∀ i < ts.length, Pos out.tris v (ns.getD i 0) (ns.getD (i + 1) 0) (ts.getD i 0)) ∨
       (e = -1 ∧ ∀ i < ts.length, Pos out.tris v (ns.getD (i + 1) 0) (ns.getD i 0) (ts.getD i 0))) :
    ∑ s ∈ Finset.range ts.length, e * (quad (fanA out v ns) (fanX out v ts) s / 2) =
      (ts.map (sector out v)).sum := by
  have : (ts.map (sector out v)).sum = ∑ s ∈ Finset.range ts.length, sector out v (ts.getD s 0) := by
    clear hdir
    induction ts with
    | nil => simp
    | cons t ts ih =>
      rw [List.map_cons, List.sum_cons, ih, List.length_cons, Finset.sum_range_succ', add_comm]
      rfl
  rw [this]
  refine Finset.sum_congr rfl (fun s hs => ?_)
  have hs' := Finset.mem_range.1 hs
  rw [quad_sec]
  rcases hdir with ⟨rfl, hP⟩ | ⟨rfl, hP⟩
  · rw [sector_pos hv (hP s hs'), one_mul]
  · rw [sector_pos hv (hP s hs'), secArea_swap]; ring

/-- All triangles. -/
theorem sector_all {out : TriOut K} {v : Int} {ts : List Nat} (hn : ts.Nodup)
    (hall : ∀ t, UsesVertex out.tris v t → t ∈ ts) (huse : ∀ t ∈ ts, UsesVertex out.tris v t) :
    (ts.map (sector out v)).sum = ∑ t ∈ Finset.range out.tris.length, sector out v t := by
  rw [← List.sum_toFinset _ hn]
  refine Finset.sum_subset ?_ ?_
  · intro t ht
    obtain ⟨tt, h, _⟩ := huse t (by simpa using ht)
    exact Finset.mem_range.2 (List.getElem?_eq_some_iff.1 h).1
  · intro t _ ht
    refine sector_unused (fun h => ht ?_)
    simpa using hall t h

/-- The three parts of a triangle. -/
theorem sector_tri {out : TriOut K} (hv : ValidOut out) {vs : List Int} (hn : vs.Nodup) {t : Nat}
    {tt : Int × Int × Int} (h : out.tris[t]? = some tt) (hvs : ∀ v ∈ verts tt, v ∈ vs) :
    (vs.map (fun v => sector out v t)).sum =
      turn (ptOf out.points tt.1) (ptOf out.points tt.2.1) (ptOf out.points tt.2.2) / 2 := by
  obtain ⟨n1, n2, n3⟩ := properTris_of_valid hv _ (List.mem_of_getElem? h)
  rw [← List.sum_toFinset _ hn]
  have hsub : ({tt.1, tt.2.1, tt.2.2} : Finset Int) ⊆ vs.toFinset := by
    intro v hvm
    simp only [Finset.mem_insert, Finset.mem_singleton] at hvm
    rw [List.mem_toFinset]
    apply hvs
    simpa [verts] using hvm
  rw [← Finset.sum_subset hsub]
  · rw [Finset.sum_insert, Finset.sum_insert, Finset.sum_singleton]
    · unfold sector
      rw [h]
      dsimp only
      rw [if_pos rfl, if_neg (fun hh => n1 hh.symm), if_pos rfl, if_neg (by omega), if_neg (by omega), if_pos rfl]
      unfold secArea turn
      ring
    · simpa using n2
    · simp only [Finset.mem_insert, Finset.mem_singleton, not_or]
      exact ⟨n1, n3.symm⟩
  · intro v _ hvn
    refine sector_unused ?_
    rintro ⟨tt', h1, h2⟩
    rw [h] at h1; obtain rfl := Option.some.inj h1
    apply hvn
    simpa [verts] using h2

end Delynoi
