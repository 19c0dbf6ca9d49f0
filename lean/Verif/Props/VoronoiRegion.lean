import Verif.Spec.Nearest
import Verif.Props.Flags
/-!
# Property C98: cells of the Voronoi mesh lie in the Voronoi regions of their points
-/
set_option linter.unusedSectionVars false
namespace Delynoi
variable {K : Type} [Field K] [LinearOrder K] [IsStrictOrderedRing K]

/-- Difference of squared distances is affine. -/
theorem sqDist_sub (x a b : Pt K) : sqDist x a - sqDist x b =
    2 * (b.x - a.x) * x.x + 2 * (b.y - a.y) * x.y + (a.x ^ 2 + a.y ^ 2 - b.x ^ 2 - b.y ^ 2) := by
  unfold sqDist; ring

/-- A point near a point of the Voronoi region. -/
theorem near_of_close {tol : K} {x q pv pw : Pt K} (hc : Close tol x q)
    (h : sqDist q pv ≤ sqDist q pw) :
    sqDist x pv ≤ sqDist x pw + 2 * tol * (|pv.x - pw.x| + |pv.y - pw.y|) := by
  have e1 := sqDist_sub x pv pw
  have e2 := sqDist_sub q pv pw
  have b1 : (pw.x - pv.x) * (x.x - q.x) ≤ |pv.x - pw.x| * tol := by
    calc (pw.x - pv.x) * (x.x - q.x) ≤ |(pw.x - pv.x) * (x.x - q.x)| := le_abs_self _
      _ = |pv.x - pw.x| * |x.x - q.x| := by rw [abs_mul, abs_sub_comm pw.x]
      _ ≤ |pv.x - pw.x| * tol := mul_le_mul_of_nonneg_left hc.1.le (abs_nonneg _)
  have b2 : (pw.y - pv.y) * (x.y - q.y) ≤ |pv.y - pw.y| * tol := by
    calc (pw.y - pv.y) * (x.y - q.y) ≤ |(pw.y - pv.y) * (x.y - q.y)| := le_abs_self _
      _ = |pv.y - pw.y| * |x.y - q.y| := by rw [abs_mul, abs_sub_comm pw.y]
      _ ≤ |pv.y - pw.y| * tol := mul_le_mul_of_nonneg_left hc.2.le (abs_nonneg _)
  have e3 : sqDist x pv - sqDist x pw = (sqDist q pv - sqDist q pw) +
      2 * ((pw.x - pv.x) * (x.x - q.x)) + 2 * ((pw.y - pv.y) * (x.y - q.y)) := by
    rw [e1, e2]; ring
  linarith

theorem weighted_le {A B C : K} : ∀ (ws : List K) (l : List (Pt K)), ws.length = l.length →
    (∀ w ∈ ws, 0 ≤ w) → (∀ q ∈ l, A * q.x + B * q.y ≤ C) →
    A * (List.zipWith (fun w q => w * q.x) ws l).sum + B * (List.zipWith (fun w q => w * q.y) ws l).sum ≤
      ws.sum * C := by
  intro ws
  induction ws with
  | nil => intro l _ _ _; simp
  | cons w ws ih =>
    intro l hl hw hq
    cases l with
    | nil => simp at hl
    | cons q l =>
      have h1 := ih l (by simpa using hl) (fun w' h => hw w' (by simp [h])) (fun q' h => hq q' (by simp [h]))
      have h2 := mul_le_mul_of_nonneg_left (hq q (by simp)) (hw w (by simp))
      simp only [List.zipWith_cons_cons, List.sum_cons]
      linarith

/-- Half planes are convex. -/
theorem inHull_le {l : List (Pt K)} {x : Pt K} (h : InHull l x) {A B C : K}
    (hq : ∀ q ∈ l, A * q.x + B * q.y ≤ C) : A * x.x + B * x.y ≤ C := by
  obtain ⟨ws, h1, h2, h3, h4, h5⟩ := h
  have := weighted_le (A := A) (B := B) (C := C) ws l h1 h2 hq
  rw [h3, one_mul] at this
  rw [h4, h5]; exact this

theorem nearRegion_hull {tol : K} {out : TriOut K} {pv : Pt K} {l : List (Pt K)} {x : Pt K}
    (h : ∀ q ∈ l, NearRegion tol out pv q) (hx : InHull l x) : NearRegion tol out pv x := by
  intro w pw hw
  have := inHull_le (A := 2 * (pw.x - pv.x)) (B := 2 * (pw.y - pv.y))
    (C := 2 * tol * (|pv.x - pw.x| + |pv.y - pw.y|) - (pv.x ^ 2 + pv.y ^ 2 - pw.x ^ 2 - pw.y ^ 2)) hx (by
      intro q hq
      have h1 := h q hq w pw hw
      have h2 := sqDist_sub q pv pw
      linarith)
  have h2 := sqDist_sub x pv pw
  linarith

/-- What the indices of a cell denote is in the Voronoi region of the point of the cell. -/
theorem cellIdx_near {tol : K} {out : TriOut K} {l : List (Pt K)} {v : Int} {ns : List Int} {ts : List Nat}
    {idx : List Int} {pv : Pt K} (hci : CellIdx tol out l v ns ts idx)
    (hts : ∀ t ∈ ts, UsesVertex out.tris v t) (hpv : vecGet out.points v = .ok pv)
    (hE : EmptyCircles out) (hB : NoEncroachmentAt out v) :
    ∀ i ∈ idx, ∀ q, vecGet l i = .ok q → NearRegion tol out pv q := by
  have hcen : ∀ t ∈ ts, ∀ i, DenotesCenter tol out l t i → ∀ q, vecGet l i = .ok q →
      NearRegion tol out pv q := by
    rintro t ht i ⟨tt, a, b, c, q0, h1, h2, h3, h4, h5, h6, y, h7, h8⟩ q hq w pw hw
    rw [h7] at hq; obtain rfl := Outcome.ok.inj hq
    refine near_of_close h8 ?_
    have hle := hE tt (List.mem_of_getElem? h1) a b c q0 h2 h3 h4 h5 h6 w pw hw
    obtain ⟨tt', g1, g2⟩ := hts t ht
    rw [h1] at g1; obtain rfl := Option.some.inj g1
    simp only [verts, List.mem_cons, List.not_mem_nil, or_false] at g2
    rcases g2 with rfl | rfl | rfl
    · rw [h2] at hpv; obtain rfl := Outcome.ok.inj hpv; exact hle
    · rw [h3] at hpv; obtain rfl := Outcome.ok.inj hpv; rw [← h5]; exact hle
    · rw [h4] at hpv; obtain rfl := Outcome.ok.inj hpv; rw [← h6]; exact hle
  have hcens : ∀ cs, List.Forall₂ (DenotesCenter tol out l) ts cs → ∀ i ∈ cs, ∀ q, vecGet l i = .ok q →
      NearRegion tol out pv q := by
    intro cs hf i hi q hq
    obtain ⟨k, hk⟩ := List.mem_iff_getElem?.1 hi
    have hk' := List.getElem?_eq_some_iff.1 hk
    have hkt : k < ts.length := by rw [hf.length_eq]; exact hk'.1
    have := List.Forall₂.get hf hkt hk'.1
    simp only [List.get_eq_getElem] at this
    rw [hk'.2] at this
    exact hcen _ (List.getElem_mem hkt) i this q hq
  have hmid : ∀ a i, BoundaryEdge out.tris v a → DenotesMid tol out l v a i →
      ∀ q, vecGet l i = .ok q → NearRegion tol out pv q := by
    rintro a i hb ⟨pv', pa, h1, h2, y, h3, h4⟩ q hq w pw hw
    rw [h3] at hq; obtain rfl := Outcome.ok.inj hq
    rw [hpv] at h1; obtain rfl := Outcome.ok.inj h1
    exact near_of_close h4 (hB a pv pa hb hpv h2 w pw hw)
  cases hci with
  | inner cs c h1 h2 h3 =>
    intro i hi
    rcases List.mem_cons.1 hi with rfl | hi
    · exact hcens cs h2 i (List.mem_of_getLast? h3)
    · exact hcens cs h2 i hi
  | flat a b i m e cs qf ql p h1 h2 h3 h4 h5 h6 h7 =>
    intro k hk
    simp only [List.mem_append, List.mem_cons, List.not_mem_nil, or_false] at hk
    rcases hk with (rfl | hk) | rfl
    · exact hmid a _ h3 h5
    · exact hcens cs h6 k hk
    · exact hmid b _ h4 h7
  | corner a b i m e r cs qf ql p h1 h2 h3 h4 h5 h6 h7 h8 h9 h10 h11 h12 h13 =>
    intro k hk
    simp only [List.mem_append, List.mem_cons, List.not_mem_nil, or_false] at hk
    rcases hk with ((rfl | hk) | rfl) | rfl
    · exact hmid a _ h3 h5
    · exact hcens cs h6 k hk
    · exact hmid b _ h4 h7
    · rintro q hq w pw hw
      obtain ⟨y, g1, g2⟩ := h13
      rw [g1] at hq; obtain rfl := Outcome.ok.inj hq
      rw [hpv] at h10; obtain rfl := Outcome.ok.inj h10
      refine near_of_close g2 ?_
      have e : sqDist pv pv = 0 := by unfold sqDist; ring
      rw [e]; unfold sqDist; positivity

/-- C98: in the Voronoi mesh of a triangulation with empty circumscribed circles (a Delaunay
triangulation), the cell number `j` lies in the Voronoi region of the `j`-th used point `v`: every
convex combination of the vertices of the cell is, up to the tolerance, at least as close to `v` as to
every other used point.  If `v` is on the boundary, the circles on its two boundary edges must be empty,
too. -/
theorem C98_cell_in_region (tol : K) (ht : 0 < tol) (out : TriOut K) (hv : ValidOut out)
    (hmk : MarkersOk out) (hE : EmptyCircles out) (d : DelInfo K)
    (hd : DelInfo.importOut tol DelInfo.empty out = .ok d) (m : Mesh K (Poly K))
    (hm : voronoi tol d = .ok m) (j : Nat) (v : Int) (pv : Pt K)
    (hj : (firsts (out.tris.flatMap verts))[j]? = some v) (hpv : vecGet out.points v = .ok pv)
    (hB : NoEncroachmentAt out v) :
    ∃ poly l, m.polygons[j]? = some poly ∧ resolve m.points.list poly.points = .ok l ∧
      ∀ x, InHull l x → NearRegion tol out pv x := by
  obtain ⟨poly, ns, ts, idx, hp, hF, _, _, hts, _, hci, hpts⟩ :=
    C70_cell tol ht out hv hmk d hd m hm j v hj
  obtain ⟨_, _, _, l, hl, _⟩ := (C71_mesh_consistent tol out hv d hd m hm).2.1 poly (List.mem_of_getElem? hp)
  refine ⟨poly, l, hp, hl, fun x hx => nearRegion_hull (fun q hq => ?_) hx⟩
  obtain ⟨k, hk⟩ := List.mem_iff_getElem?.1 hq
  have hmem : ∀ i ∈ poly.points, i ∈ idx := by
    intro i hi
    rcases hpts with h | h <;> rw [h] at hi
    · exact (mem_firsts _ _).1 hi
    · exact (mem_firsts _ _).1 (List.mem_reverse.1 hi)
  have hkl : k < poly.points.length := by
    rw [← resolve_length hl]; exact (List.getElem?_eq_some_iff.1 hk).1
  obtain ⟨q', h2, h1⟩ := resolve_getElem? hl (List.getElem?_eq_getElem hkl)
  rw [hk] at h2
  obtain rfl := Option.some.inj h2
  exact cellIdx_near hci hts hpv hE hB _ (hmem _ (List.getElem_mem hkl)) q h1

/-- C98: different cells overlap at most along the bisector of their points: a common convex
combination of the vertices of the cells of `v` and `w` is, up to the tolerance, at the same distance
from `v` and `w`. -/
theorem C98_overlap (tol : K) (ht : 0 < tol) (out : TriOut K) (hv : ValidOut out)
    (hmk : MarkersOk out) (hE : EmptyCircles out) (d : DelInfo K)
    (hd : DelInfo.importOut tol DelInfo.empty out = .ok d) (m : Mesh K (Poly K))
    (hm : voronoi tol d = .ok m) (i j : Nat) (v w : Int) (pv pw : Pt K)
    (hi : (firsts (out.tris.flatMap verts))[i]? = some v)
    (hj : (firsts (out.tris.flatMap verts))[j]? = some w)
    (hpv : vecGet out.points v = .ok pv) (hpw : vecGet out.points w = .ok pw)
    (hBv : NoEncroachmentAt out v) (hBw : NoEncroachmentAt out w) (gi gj : Poly K) (li lj : List (Pt K))
    (hgi : m.polygons[i]? = some gi) (hgj : m.polygons[j]? = some gj)
    (hli : resolve m.points.list gi.points = .ok li) (hlj : resolve m.points.list gj.points = .ok lj)
    (x : Pt K) (hxi : InHull li x) (hxj : InHull lj x) :
    |sqDist x pv - sqDist x pw| ≤ 2 * tol * (|pv.x - pw.x| + |pv.y - pw.y|) := by
  have site : ∀ (k : Nat) (u : Int) (pu : Pt K), (firsts (out.tris.flatMap verts))[k]? = some u →
      vecGet out.points u = .ok pu → SiteAt out u pu := by
    intro k u pu hk hu
    refine ⟨hu, ?_⟩
    obtain ⟨tt, htt, hvt⟩ := List.mem_flatMap.1 ((mem_firsts _ _).1 (List.mem_of_getElem? hk))
    obtain ⟨t, h⟩ := List.mem_iff_getElem?.1 htt
    exact ⟨t, tt, h, hvt⟩
  obtain ⟨g1, l1, a1, a2, a3⟩ := C98_cell_in_region tol ht out hv hmk hE d hd m hm i v pv hi hpv hBv
  obtain ⟨g2, l2, b1, b2, b3⟩ := C98_cell_in_region tol ht out hv hmk hE d hd m hm j w pw hj hpw hBw
  rw [hgi] at a1; obtain rfl := Option.some.inj a1
  rw [hgj] at b1; obtain rfl := Option.some.inj b1
  rw [hli] at a2; obtain rfl := Outcome.ok.inj a2
  rw [hlj] at b2; obtain rfl := Outcome.ok.inj b2
  have h1 := a3 x hxi w pw (site j w pw hj hpw)
  have h2 := b3 x hxj v pv (site i v pv hi hpv)
  rw [abs_sub_comm pw.x, abs_sub_comm pw.y] at h2
  rw [abs_le]
  constructor <;> linarith

/-- Circles are empty if the computed circumcenters say so. -/
theorem emptyCircles_of {out : TriOut K} (hv : ValidOut out)
    (h : ∀ t ∈ out.tris, ∀ a ∈ out.points, ∀ b ∈ out.points, ∀ c ∈ out.points,
      vecGet out.points t.1 = .ok a → vecGet out.points t.2.1 = .ok b → vecGet out.points t.2.2 = .ok c →
      ∀ q ∈ circumcenter a b c, ∀ p ∈ out.points, sqDist q a ≤ sqDist q p) : EmptyCircles out := by
  intro t ht a b c q h1 h2 h3 h4 h5 w pw hw
  obtain ⟨a', b', c', g1, g2, g3, g4⟩ := hv.triProper t ht
  rw [h1] at g1; obtain rfl := Outcome.ok.inj g1
  rw [h2] at g2; obtain rfl := Outcome.ok.inj g2
  rw [h3] at g3; obtain rfl := Outcome.ok.inj g3
  have hm : ∀ {v : Int} {p : Pt K}, vecGet out.points v = .ok p → p ∈ out.points := fun hp =>
    List.mem_of_getElem? (vecGet_ok_iff.1 hp).2
  exact h t ht a (hm h1) b (hm h2) c (hm h3) h1 h2 h3 q ((C37_circumcenter a b c q g4).2 ⟨h4, h5⟩) pw (hm hw.1)

theorem sampleOut_emptyCircles : EmptyCircles sampleOut :=
  emptyCircles_of sampleOut_valid (by decide +kernel)

theorem incident_of_boundaryEdge {tris : List (Int × Int × Int)} {v a : Int} (h : BoundaryEdge tris v a) :
    (incident tris s(v, a)).length ≤ 1 := by
  obtain ⟨t, _, h2⟩ := h
  have hall : ∀ u ∈ incident tris s(v, a), u = (t : Int) := by
    intro u hu
    obtain ⟨k, uu, h3, h4, h5⟩ := (mem_incident tris s(v, a) u).1 hu
    have := h2 k uu h4 h5
    omega
  have hn := incident_nodup tris s(v, a)
  match hl : incident tris s(v, a) with
  | [] => simp
  | [x] => simp
  | x :: y :: r =>
    rw [hl] at hn hall
    have h3 := hall x (by simp)
    have h4 := hall y (by simp)
    simp [h3, h4] at hn

/-- Circles on the boundary are empty if the numbers say so. -/
theorem noEncroachment_of {out : TriOut K} (hv : ValidOut out)
    (h : ∀ tt ∈ out.tris, ∀ v ∈ verts tt, ∀ a ∈ verts tt, (incident out.tris s(v, a)).length ≤ 1 →
      ∀ pv ∈ out.points, ∀ pa ∈ out.points, vecGet out.points v = .ok pv → vecGet out.points a = .ok pa →
      ∀ p ∈ out.points, sqDist ⟨(pv.x + pa.x) / 2, (pv.y + pa.y) / 2⟩ pv ≤
        sqDist ⟨(pv.x + pa.x) / 2, (pv.y + pa.y) / 2⟩ p) (v : Int) : NoEncroachmentAt out v := by
  intro a pv pa hb h1 h2 w pw hw
  have hm : ∀ {v : Int} {p : Pt K}, vecGet out.points v = .ok p → p ∈ out.points := fun hp =>
    List.mem_of_getElem? (vecGet_ok_iff.1 hp).2
  have hi := incident_of_boundaryEdge hb
  obtain ⟨t, ⟨tt, h3, h4⟩, _⟩ := hb
  have hp := properTris_of_valid hv tt (List.mem_of_getElem? h3)
  obtain ⟨h5, h6, _⟩ := (mem_sides_iff hp v a).1 h4
  exact h tt (List.mem_of_getElem? h3) v h5 a h6 hi pv (hm h1) pa (hm h2) h1 h2 pw (hm hw.1)

theorem sampleOut_noEncroachment (v : Int) : NoEncroachmentAt sampleOut v :=
  noEncroachment_of sampleOut_valid (by decide +kernel) v

/-- The hypotheses are met by the sample triangulation. -/
example : EmptyCircles sampleOut ∧ (∀ v, NoEncroachmentAt sampleOut v) ∧
    (firsts (sampleOut.tris.flatMap verts))[0]? = some 0 ∧ (firsts (sampleOut.tris.flatMap verts))[2]? = some 4 :=
  ⟨sampleOut_emptyCircles, sampleOut_noEncroachment, by decide +kernel, by decide +kernel⟩

/-- One triangle with an obtuse angle at the point number 2. -/
def obtuseOut : TriOut ℚ :=
  ⟨[⟨0, 0⟩, ⟨10, 0⟩, ⟨5, 1⟩], [(0, 1, 1), (1, 2, 1), (2, 0, 1)], [(0, 1, 2)]⟩

theorem obtuseOut_valid : ValidOut obtuseOut := by
  refine ⟨by decide +kernel, by decide +kernel, ?_, by decide +kernel, by decide +kernel, by decide +kernel⟩
  intro t ht
  simp only [obtuseOut, List.mem_cons, List.not_mem_nil, or_false] at ht
  subst ht
  exact ⟨⟨0, 0⟩, ⟨10, 0⟩, ⟨5, 1⟩, rfl, rfl, rfl, by decide +kernel⟩

/-- C98: the condition on the boundary edges cannot be dropped: the first cell of this triangulation has
a vertex that is much closer to another point. -/
theorem C98_encroached : EmptyCircles obtuseOut ∧ MarkersOk obtuseOut ∧
    ∃ d m poly l q, DelInfo.importOut (1/100000 : ℚ) DelInfo.empty obtuseOut = .ok d ∧
      voronoi (1/100000) d = .ok m ∧ m.polygons[0]? = some poly ∧
      resolve m.points.list poly.points = .ok l ∧ q ∈ l ∧ sqDist q ⟨0, 0⟩ = 25 ∧ sqDist q ⟨5, 1⟩ = 1 := by
  refine ⟨emptyCircles_of obtuseOut_valid (by decide +kernel), by unfold MarkersOk; decide +kernel, ?_⟩
  have key : (match DelInfo.importOut (1/100000 : ℚ) DelInfo.empty obtuseOut with
    | .ok d => (match voronoi (1/100000 : ℚ) d with
      | .ok m => (match m.polygons[0]? with
        | some poly => (match resolve m.points.list poly.points with
          | .ok l => decide (⟨5, 0⟩ ∈ l)
          | _ => false)
        | _ => false)
      | _ => false)
    | _ => false) = true := by decide +kernel
  split at key
  · rename_i d hd
    split at key
    · rename_i m hm
      split at key
      · rename_i poly hp
        split at key
        · rename_i l hl
          exact ⟨d, m, poly, l, ⟨5, 0⟩, hd, hm, hp, hl, of_decide_eq_true key, by decide +kernel, by decide +kernel⟩
        · cases key
      · cases key
    · cases key
  · cases key

end Delynoi
