import Verif.Proofs.GFanSum
import Verif.Proofs.PathSum
import Verif.Props.Flags
import Verif.Spec.Tiling
/-!
Helper lemmas: fans of triangles in a conforming Delaunay triangulation, and exact meshes.
-/
set_option linter.unusedSectionVars false
namespace Delynoi
variable {K : Type} [Field K] [LinearOrder K] [IsStrictOrderedRing K]

/-- The point number `i` (any point if out of range). -/
def ptOf (l : List (Pt K)) (i : Int) : Pt K := match vecGet l i with | .ok q => q | _ => ⟨0, 0⟩

theorem ptOf_ok {l : List (Pt K)} {i : Int} {q : Pt K} (h : vecGet l i = .ok q) : ptOf l i = q := by
  unfold ptOf; rw [h]

/-- Coordinates relative to `v`. -/
def relTo (v q : Pt K) : Pt K := ⟨q.x - v.x, q.y - v.y⟩

theorem cr_relTo (v a b : Pt K) : cr (relTo v a) (relTo v b) = turn v a b := by
  unfold cr relTo turn; ring

theorem pw_relTo (v c w : Pt K) : pw (relTo v c) (relTo v w) = sqDist c w - sqDist c v := by
  unfold pw dt relTo sqDist; ring

theorem relTo_inj {v a b : Pt K} (h : relTo v a = relTo v b) : a = b := by
  unfold relTo at h
  have h1 := congrArg Pt.x h
  have h2 := congrArg Pt.y h
  simp only at h1 h2
  exact Pt.ext (by linarith) (by linarith)

theorem half_relTo (v a : Pt K) : half (relTo v a) = relTo v ⟨(v.x + a.x) / 2, (v.y + a.y) / 2⟩ := by
  unfold half relTo
  refine Pt.ext ?_ ?_ <;> simp only <;> ring

theorem relTo_self (v : Pt K) : relTo v v = ⟨0, 0⟩ := by unfold relTo; simp

/-- The circumcenter of triangle number `t` (any point if there is none). -/
def cenOf (out : TriOut K) (t : Nat) : Pt K :=
  match out.tris[t]? with
  | some tt => (circumcenter (ptOf out.points tt.1) (ptOf out.points tt.2.1)
      (ptOf out.points tt.2.2)).getD ⟨0, 0⟩
  | none => ⟨0, 0⟩

theorem cenOf_spec {out : TriOut K} (hv : ValidOut out) {t : Nat} {tt : Int × Int × Int}
    (h : out.tris[t]? = some tt) {a b c : Pt K} (ha : vecGet out.points tt.1 = .ok a)
    (hb : vecGet out.points tt.2.1 = .ok b) (hc : vecGet out.points tt.2.2 = .ok c) :
    sqDist (cenOf out t) a = sqDist (cenOf out t) b ∧ sqDist (cenOf out t) a = sqDist (cenOf out t) c ∧
      ∀ q, sqDist q a = sqDist q b → sqDist q a = sqDist q c → q = cenOf out t := by
  obtain ⟨a', b', c', g1, g2, g3, ht⟩ := hv.triProper tt (List.mem_of_getElem? h)
  rw [ha] at g1; obtain rfl := Outcome.ok.inj g1
  rw [hb] at g2; obtain rfl := Outcome.ok.inj g2
  rw [hc] at g3; obtain rfl := Outcome.ok.inj g3
  obtain ⟨q, hq⟩ := Option.isSome_iff_exists.1 ((C37_defined_iff a b c).2 ht)
  have hcen : cenOf out t = q := by
    unfold cenOf
    rw [h]
    simp only
    rw [ptOf_ok ha, ptOf_ok hb, ptOf_ok hc, hq]; rfl
  rw [hcen]
  obtain ⟨e1, e2⟩ := (C37_circumcenter a b c q ht).1 hq
  refine ⟨e1, e2, fun q' h1 h2 => ?_⟩
  have := (C37_circumcenter a b c q' ht).2 ⟨h1, h2⟩
  rw [hq] at this
  exact (Option.some.inj this).symm

/-- The circumcenter is equidistant from all vertices. -/
theorem cen_equi {out : TriOut K} (hv : ValidOut out) {t : Nat} {tt : Int × Int × Int}
    (h : out.tris[t]? = some tt) {w w' : Int} (hw : w ∈ verts tt) (hw' : w' ∈ verts tt) :
    sqDist (cenOf out t) (ptOf out.points w) = sqDist (cenOf out t) (ptOf out.points w') := by
  obtain ⟨a, b, c, g1, g2, g3, -⟩ := hv.triProper tt (List.mem_of_getElem? h)
  obtain ⟨e1, e2, -⟩ := cenOf_spec hv h g1 g2 g3
  simp only [verts, List.mem_cons, List.not_mem_nil, or_false] at hw hw'
  have key : ∀ w, w = tt.1 ∨ w = tt.2.1 ∨ w = tt.2.2 →
      sqDist (cenOf out t) (ptOf out.points w) = sqDist (cenOf out t) a := by
    rintro w (rfl | rfl | rfl)
    · rw [ptOf_ok g1]
    · rw [ptOf_ok g2, e1]
    · rw [ptOf_ok g3, e2]
  rw [key w hw, key w' hw']

theorem site_of_tri {out : TriOut K} (hv : ValidOut out) {t : Nat} {tt : Int × Int × Int}
    (h : out.tris[t]? = some tt) {w : Int} (hw : w ∈ verts tt) : SiteAt out w (ptOf out.points w) := by
  obtain ⟨a, b, c, g1, g2, g3, -⟩ := hv.triProper tt (List.mem_of_getElem? h)
  refine ⟨?_, t, tt, h, hw⟩
  simp only [verts, List.mem_cons, List.not_mem_nil, or_false] at hw
  rcases hw with rfl | rfl | rfl
  · rw [ptOf_ok g1]; exact g1
  · rw [ptOf_ok g2]; exact g2
  · rw [ptOf_ok g3]; exact g3

/-- No used point is inside the circumscribed circle. -/
theorem cen_empty {out : TriOut K} (hv : ValidOut out) (hE : EmptyCircles out) {t : Nat}
    {tt : Int × Int × Int} (h : out.tris[t]? = some tt) {v w : Int} (hvt : v ∈ verts tt) {pw : Pt K}
    (hw : SiteAt out w pw) : sqDist (cenOf out t) (ptOf out.points v) ≤ sqDist (cenOf out t) pw := by
  obtain ⟨a, b, c, g1, g2, g3, -⟩ := hv.triProper tt (List.mem_of_getElem? h)
  obtain ⟨e1, e2, -⟩ := cenOf_spec hv h g1 g2 g3
  have := hE tt (List.mem_of_getElem? h) a b c (cenOf out t) g1 g2 g3 e1 e2 w pw hw
  rw [cen_equi hv h hvt (w' := tt.1) (by simp [verts]), ptOf_ok g1]
  exact this

theorem isFan_get {tris : List (Int × Int × Int)} {v : Int} : ∀ {ts : List Nat} {ns : List Int},
    IsFan tris v ns ts → ns.length = ts.length + 1 ∧
      ∀ i < ts.length, Fan3 tris v (ns.getD i 0) (ns.getD (i + 1) 0) (ts.getD i 0) := by
  intro ts
  induction ts with
  | nil =>
    intro ns h
    match ns, h with
    | [_], _ => exact ⟨rfl, fun i hi => absurd hi (by simp)⟩
  | cons t ts ih =>
    intro ns h
    match ns, h with
    | a :: b :: ns', h =>
      obtain ⟨h1, h2⟩ := ih h.2
      refine ⟨by simpa using h1, fun i hi => ?_⟩
      cases i with
      | zero => exact h.1
      | succ i => exact h2 i (by simpa using hi)

/-- Triangle number `t` is `v`, `a`, `b` in this (cyclic) order. -/
def Pos (tris : List (Int × Int × Int)) (v a b : Int) (t : Nat) : Prop :=
  ∃ tt, tris[t]? = some tt ∧ (v, a) ∈ dsides tt ∧ (b, v) ∈ dsides tt

theorem fan3_pos {tris : List (Int × Int × Int)} {v a b : Int} {t : Nat} (h : Fan3 tris v a b t) :
    Pos tris v a b t ∨ Pos tris v b a t := by
  obtain ⟨h1, h2, h3, ⟨x, y, z⟩, htt, hm⟩ := h
  have mv := (hm v).2 (Or.inl rfl)
  have ma := (hm a).2 (Or.inr (Or.inl rfl))
  have mb := (hm b).2 (Or.inr (Or.inr rfl))
  simp only [verts, List.mem_cons, List.not_mem_nil, or_false] at mv ma mb
  unfold Pos
  rw [htt]
  rcases mv with rfl | rfl | rfl <;> rcases ma with rfl | rfl | rfl <;>
    first
    | exact absurd rfl h1
    | (rcases mb with rfl | rfl | rfl <;>
        first
        | exact absurd rfl h2
        | exact absurd rfl h3
        | (refine Or.inl ⟨_, rfl, ?_, ?_⟩ <;> simp only [dsides, List.mem_cons, true_or, or_true]; done)
        | (refine Or.inr ⟨_, rfl, ?_, ?_⟩ <;> simp only [dsides, List.mem_cons, true_or, or_true]; done))

theorem pos_verts {tris : List (Int × Int × Int)} {v a b : Int} {t : Nat} (h : Pos tris v a b t) :
    ∃ tt, tris[t]? = some tt ∧ v ∈ verts tt ∧ a ∈ verts tt ∧ b ∈ verts tt := by
  obtain ⟨⟨x, y, z⟩, htt, h1, h2⟩ := h
  refine ⟨_, htt, ?_⟩
  simp only [dsides, List.mem_cons, Prod.mk.injEq, List.not_mem_nil, or_false] at h1 h2
  simp only [verts, List.mem_cons, List.not_mem_nil, or_false]
  omega

theorem pos_turn {out : TriOut K} (hv : ValidOut out) (hc : CounterClockwise out) {v a b : Int} {t : Nat}
    (h : Pos out.tris v a b t) :
    0 < turn (ptOf out.points v) (ptOf out.points a) (ptOf out.points b) := by
  obtain ⟨⟨x, y, z⟩, htt, h1, h2⟩ := h
  have hmem := List.mem_of_getElem? htt
  obtain ⟨n1, n2, n3⟩ := properTris_of_valid hv _ hmem
  obtain ⟨pa, pb, pc, g1, g2, g3, -⟩ := hv.triProper _ hmem
  have ht := hc _ hmem pa pb pc g1 g2 g3
  simp only at n1 n2 n3 g1 g2 g3
  simp only [dsides, List.mem_cons, Prod.mk.injEq, List.not_mem_nil, or_false] at h1 h2
  have hcase : (v = x ∧ a = y ∧ b = z) ∨ (v = y ∧ a = z ∧ b = x) ∨ (v = z ∧ a = x ∧ b = y) := by omega
  rcases hcase with ⟨rfl, rfl, rfl⟩ | ⟨rfl, rfl, rfl⟩ | ⟨rfl, rfl, rfl⟩ <;>
    rw [ptOf_ok g1, ptOf_ok g2, ptOf_ok g3]
  · exact ht
  · calc 0 < _ := ht
      _ = _ := by unfold turn; ring
  · calc 0 < _ := ht
      _ = _ := by unfold turn; ring

/-- All triangles of a fan have the same direction. -/
theorem fan_dir {tris : List (Int × Int × Int)} (ho : DirectedOnce tris) {v : Int} {ns : List Int}
    {ts : List Nat} (hF : IsFan tris v ns ts) (hn : ts.Nodup) :
    (∀ i < ts.length, Pos tris v (ns.getD i 0) (ns.getD (i + 1) 0) (ts.getD i 0)) ∨
    (∀ i < ts.length, Pos tris v (ns.getD (i + 1) 0) (ns.getD i 0) (ts.getD i 0)) := by
  obtain ⟨-, hg⟩ := isFan_get hF
  have hne : ∀ i, i + 1 < ts.length → ts.getD i 0 ≠ ts.getD (i + 1) 0 := by
    intro i hi he
    rw [List.getD_eq_getElem _ _ (by omega), List.getD_eq_getElem _ _ hi] at he
    have := (List.Nodup.getElem_inj_iff hn).1 he
    omega
  rcases Nat.eq_zero_or_pos ts.length with h0 | h0
  · exact Or.inl fun i hi => absurd hi (by omega)
  rcases fan3_pos (hg 0 h0) with h | h
  · left
    intro i
    induction i with
    | zero => intro _; exact h
    | succ i ih =>
      intro hi
      rcases fan3_pos (hg (i + 1) hi) with h' | h'
      · exact h'
      · obtain ⟨t1, a1, _, a3⟩ := ih (by omega)
        obtain ⟨t2, b1, _, b3⟩ := h'
        exact absurd (ho _ _ _ _ _ a1 b1 a3 b3) (hne i hi)
  · right
    intro i
    induction i with
    | zero => intro _; exact h
    | succ i ih =>
      intro hi
      rcases fan3_pos (hg (i + 1) hi) with h' | h'
      · obtain ⟨t1, a1, a2, _⟩ := ih (by omega)
        obtain ⟨t2, b1, b2, _⟩ := h'
        exact absurd (ho _ _ _ _ _ a1 b1 a2 b2) (hne i hi)
      · exact h'

/-- Outer points of the fan of `v`, relative to `v`. -/
def fanA (out : TriOut K) (v : Int) (ns : List Int) (i : Nat) : Pt K :=
  relTo (ptOf out.points v) (ptOf out.points (ns.getD i 0))

/-- Centers of the fan of `v`, relative to `v`. -/
def fanX (out : TriOut K) (v : Int) (ts : List Nat) (i : Nat) : Pt K :=
  relTo (ptOf out.points v) (cenOf out (ts.getD i 0))

theorem fan_tri {tris : List (Int × Int × Int)} {v a b : Int} {t : Nat} (h : Fan3 tris v a b t) :
    ∃ tt, tris[t]? = some tt ∧ v ∈ verts tt ∧ a ∈ verts tt ∧ b ∈ verts tt := by
  obtain ⟨_, _, _, tt, h1, h2⟩ := h
  exact ⟨tt, h1, (h2 v).2 (Or.inl rfl), (h2 a).2 (Or.inr (Or.inl rfl)), (h2 b).2 (Or.inr (Or.inr rfl))⟩

/-- The fan of a point of a conforming triangulation. -/
theorem gfan_of {out : TriOut K} (hv : ValidOut out) (hC : Conforming out) {v : Int} {ns : List Int}
    {ts : List Nat} (hF : IsFan out.tris v ns ts) (hn : ts.Nodup) (hne : ts ≠ []) :
    ∃ e : K, GFan e ts.length (fanA out v ns) (fanX out v ts) ∧
      ((e = 1 ∧ ∀ i < ts.length, Pos out.tris v (ns.getD i 0) (ns.getD (i + 1) 0) (ts.getD i 0)) ∨
       (e = -1 ∧ ∀ i < ts.length, Pos out.tris v (ns.getD (i + 1) 0) (ns.getD i 0) (ts.getD i 0))) := by
  obtain ⟨hlen, hg⟩ := isFan_get hF
  have hpos : 0 < ts.length := List.length_pos_of_ne_nil hne
  -- every neighbour is a vertex of a triangle of the fan
  have hnb : ∀ j ≤ ts.length, ∃ (t : Nat) (tt : Int × Int × Int), out.tris[t]? = some tt ∧ v ∈ verts tt ∧
      ns.getD j 0 ∈ verts tt := by
    intro j hj
    rcases Nat.lt_or_ge j ts.length with hlt | hge
    · obtain ⟨tt, h1, h2, h3, _⟩ := fan_tri (hg j hlt)
      exact ⟨_, tt, h1, h2, h3⟩
    · obtain ⟨tt, h1, h2, _, h4⟩ := fan_tri (hg (ts.length - 1) (by omega))
      rw [show ts.length - 1 + 1 = j by omega] at h4
      exact ⟨_, tt, h1, h2, h4⟩
  have hsite : ∀ j ≤ ts.length, SiteAt out (ns.getD j 0) (ptOf out.points (ns.getD j 0)) := by
    intro j hj
    obtain ⟨t, tt, h1, _, h3⟩ := hnb j hj
    exact site_of_tri hv h1 h3
  have hsv : SiteAt out v (ptOf out.points v) := by
    obtain ⟨t, tt, h1, h2, _⟩ := hnb 0 (by omega)
    exact site_of_tri hv h1 h2
  have hside : ∀ j ≤ ts.length, ∃ u ∈ out.tris, s(v, ns.getD j 0) ∈ sides u := by
    intro j hj
    have hp := properTris_of_valid hv
    rcases Nat.lt_or_ge j ts.length with hlt | hge
    · obtain ⟨_, _, _, tt, h1, h2⟩ := hg j hlt
      refine ⟨tt, List.mem_of_getElem? h1, (mem_sides_iff (hp tt (List.mem_of_getElem? h1)) _ _).2 ?_⟩
      exact ⟨(h2 _).2 (Or.inl rfl), (h2 _).2 (Or.inr (Or.inl rfl)), by assumption⟩
    · obtain ⟨n1, n2, n3, tt, h1, h2⟩ := hg (ts.length - 1) (by omega)
      rw [show ts.length - 1 + 1 = j by omega] at h2 n2
      refine ⟨tt, List.mem_of_getElem? h1, (mem_sides_iff (hp tt (List.mem_of_getElem? h1)) _ _).2 ?_⟩
      exact ⟨(h2 _).2 (Or.inl rfl), (h2 _).2 (Or.inr (Or.inr rfl)), n2⟩
  have c0 : ∀ i < ts.length, pw (fanX out v ts i) (fanA out v ns i) = 0 := by
    intro i hi
    obtain ⟨tt, h1, h2, h3, _⟩ := fan_tri (hg i hi)
    unfold fanX fanA
    rw [pw_relTo, cen_equi hv h1 h3 h2, sub_self]
  have c1 : ∀ i < ts.length, pw (fanX out v ts i) (fanA out v ns (i + 1)) = 0 := by
    intro i hi
    obtain ⟨tt, h1, h2, _, h3⟩ := fan_tri (hg i hi)
    unfold fanX fanA
    rw [pw_relTo, cen_equi hv h1 h3 h2, sub_self]
  have emp : ∀ i < ts.length, ∀ j ≤ ts.length, 0 ≤ pw (fanX out v ts i) (fanA out v ns j) := by
    intro i hi j hj
    obtain ⟨tt, h1, h2, h3, _⟩ := fan_tri (hg i hi)
    unfold fanX fanA
    rw [pw_relTo]
    have := cen_empty hv hC.empty h1 h2 (hsite j hj)
    linarith
  have heq : ∀ i j, i ≤ ts.length → j ≤ ts.length → fanA out v ns i = fanA out v ns j →
      ns.getD i 0 = ns.getD j 0 := by
    intro i j hi hj h
    have h1 := relTo_inj h
    have h2 := hsite i hi
    rw [h1] at h2
    exact hC.distinct _ _ _ h2 (hsite j hj)
  have hti : ∀ i j, i < ts.length → j < ts.length → ts.getD i 0 = ts.getD j 0 → i = j := by
    intro i j hi hj he
    rw [List.getD_eq_getElem _ _ hi, List.getD_eq_getElem _ _ hj] at he
    exact (List.Nodup.getElem_inj_iff hn).1 he
  rcases fan_dir hC.once hF hn with hP | hP
  · refine ⟨1, ⟨Or.inl rfl, ?_, c0, c1, emp, ?_, ?_⟩, Or.inl ⟨rfl, hP⟩⟩
    · intro i hi
      rw [one_mul]
      unfold fanA
      rw [cr_relTo]
      exact pos_turn hv hC.ccw (hP i hi)
    · intro i hi j hj hh
      obtain ⟨tt, h1, h2, h3⟩ := hP i hi
      obtain ⟨u, hu, hu'⟩ := hside j hj
      refine hC.noOverlap tt (List.mem_of_getElem? h1) v _ _ h2 h3 u hu _ hu' _ _ _ _ hsv.1
        (hsite i (by omega)).1 (hsite (i + 1) (by omega)).1 (hsite j hj).1 ?_
      unfold fanA at hh
      rwa [one_mul, one_mul, cr_relTo, cr_relTo] at hh
    · intro i j hij hj h
      have h' := heq i j (by omega) hj h
      rcases Nat.lt_or_ge j ts.length with hlt | hge
      · obtain ⟨t1, a1, a2, _⟩ := hP i (by omega)
        obtain ⟨t2, b1, b2, _⟩ := hP j hlt
        rw [← h'] at b2
        have := hti i j (by omega) hlt (hC.once _ _ _ _ _ a1 b1 a2 b2)
        omega
      · refine ⟨?_, by omega⟩
        by_contra hi0
        obtain ⟨t1, a1, _, a2⟩ := hP (i - 1) (by omega)
        obtain ⟨t2, b1, _, b2⟩ := hP (j - 1) (by omega)
        rw [show i - 1 + 1 = i by omega] at a2
        rw [show j - 1 + 1 = j by omega, ← h'] at b2
        have := hti _ _ (by omega) (by omega) (hC.once _ _ _ _ _ a1 b1 a2 b2)
        omega
  · refine ⟨-1, ⟨Or.inr rfl, ?_, c0, c1, emp, ?_, ?_⟩, Or.inr ⟨rfl, hP⟩⟩
    · intro i hi
      unfold fanA
      rw [cr_swap, cr_relTo]
      have := pos_turn hv hC.ccw (hP i hi)
      linarith
    · intro i hi j hj hh
      obtain ⟨tt, h1, h2, h3⟩ := hP i hi
      obtain ⟨u, hu, hu'⟩ := hside j hj
      refine hC.noOverlap tt (List.mem_of_getElem? h1) v _ _ h2 h3 u hu _ hu' _ _ _ _ hsv.1
        (hsite (i + 1) (by omega)).1 (hsite i (by omega)).1 (hsite j hj).1 ?_
      unfold fanA at hh
      rw [cr_swap, cr_relTo] at hh
      obtain ⟨hh1, hh2⟩ := hh
      rw [cr_swap, cr_relTo] at hh2
      constructor <;> linarith
    · intro i j hij hj h
      have h' := heq i j (by omega) hj h
      rcases Nat.lt_or_ge j ts.length with hlt | hge
      · obtain ⟨t1, a1, _, a2⟩ := hP i (by omega)
        obtain ⟨t2, b1, _, b2⟩ := hP j hlt
        rw [← h'] at b2
        have := hti i j (by omega) hlt (hC.once _ _ _ _ _ a1 b1 a2 b2)
        omega
      · refine ⟨?_, by omega⟩
        by_contra hi0
        obtain ⟨t1, a1, a2, _⟩ := hP (i - 1) (by omega)
        obtain ⟨t2, b1, b2, _⟩ := hP (j - 1) (by omega)
        rw [show i - 1 + 1 = i by omega] at a2
        rw [show j - 1 + 1 = j by omega, ← h'] at b2
        have := hti _ _ (by omega) (by omega) (hC.once _ _ _ _ _ a1 b1 a2 b2)
        omega

end Delynoi
