import Verif.Proofs.Triangulation
import Verif.Proofs.Partition
import Verif.Props.Contain
import Verif.Props.Area
import Verif.Props.PolygonMisc
import Mathlib.Tactic.NormNum
/-!
# Properties C39-C41: ear clipping and center triangulation
-/
set_option linter.unusedSectionVars false
namespace Delynoi

section
variable {K : Type} [Field K] [LinearOrder K] [IsStrictOrderedRing K]

private theorem refArea_shoe (o : Pt K) (l : List (Pt K)) : refArea o l = shoe l / 2 := by
  rw [← (C17_area_reference o l).2, signedArea_eq]; ring

private theorem sum_half (tps : List (Pt K × Pt K × Pt K)) :
    (tps.map (fun q => turn q.1 q.2.1 q.2.2 / 2)).sum = (tps.map (fun q => turn q.1 q.2.1 q.2.2)).sum / 2 := by
  induction tps with
  | nil => simp
  | cons a l ih => simp only [List.map_cons, List.sum_cons, ih]; ring

/-- C39: ear clipping on any polygon with valid indices terminates (within as many rounds as
there are vertices) without undefined behaviour; triangles have three corners taken from the
polygon, pairwise different if the polygon's indices are; there are at most `n - 2` of them; and
their signed areas plus that of the unclipped remainder sum to the polygon's signed area.  The
remainder is empty exactly when `n - 2` triangles were produced. -/
theorem C39_ear (tol : K) (p : List (Pt K)) (idx : List Int) (pts : List (Pt K)) (o : Pt K)
    (hpts : resolve p idx = .ok pts) (h3 : 3 ≤ idx.length) :
    ∃ ts rest rpts tps, earTriangulate tol p idx = .ok ts ∧
      (∀ t ∈ ts, t.length = 3 ∧ (∀ v ∈ t, v ∈ idx) ∧ (idx.Nodup → t.Nodup)) ∧
      ts.length ≤ idx.length - 2 ∧ (rest = [] ↔ ts.length = idx.length - 2) ∧
      rest.Sublist idx ∧ resolve p rest = .ok rpts ∧
      List.Forall₂ (fun t (q : Pt K × Pt K × Pt K) => resolve p t = .ok [q.1, q.2.1, q.2.2]) ts tps ∧
      refArea o pts = (tps.map (fun q => turn q.1 q.2.1 q.2.2 / 2)).sum + refArea o rpts := by
  obtain ⟨ts, rest, tps, g1, g2, g3, g4, g5, g6, g7⟩ :=
    earLoop_spec tol p idx.length idx [] (resolve_ok_iff.1 ⟨pts, hpts⟩) (le_refl _)
  obtain ⟨rpts, hr, hs⟩ := g7 pts hpts
  refine ⟨ts, rest, rpts, tps, by simpa [earTriangulate] using g1, g3, ?_, ?_, g2, hr, g4, ?_⟩
  · rcases g5 h3 with h | h <;> omega
  · rcases g5 h3 with ⟨h, h'⟩ | ⟨h, h'⟩
    · exact ⟨fun _ => by omega, fun _ => h⟩
    · constructor
      · intro he; rw [he] at h; simp at h
      · intro he; omega
  · have := hs (fun a b => a.x * b.y - b.x * a.y) (fun a b => by ring)
    rw [edgeSum_turn, ← shoe_eq_edgeSum, ← shoe_eq_edgeSum] at this
    rw [refArea_shoe, refArea_shoe, this, sum_half]; ring

/-- C39, the claim as listed: when `n - 2` triangles are produced their areas sum to the
polygon's. -/
theorem C39_area_conserved (tol : K) (p : List (Pt K)) (idx : List Int) (pts : List (Pt K)) (o : Pt K)
    (hpts : resolve p idx = .ok pts) (h3 : 3 ≤ idx.length) (ts : List (List Int))
    (hts : earTriangulate tol p idx = .ok ts) (hn : ts.length = idx.length - 2) :
    ∃ tps : List (Pt K × Pt K × Pt K),
      List.Forall₂ (fun t q => resolve p t = .ok [q.1, q.2.1, q.2.2]) ts tps ∧
      refArea o pts = (tps.map (fun q => turn q.1 q.2.1 q.2.2 / 2)).sum := by
  obtain ⟨ts', rest, rpts, tps, h1, _, _, h4, _, h6, h7, h8⟩ := C39_ear tol p idx pts o hpts h3
  rw [hts] at h1
  have := Outcome.ok.inj h1
  subst this
  have hr := h4.2 hn
  subst hr
  simp only [resolve, Outcome.ok.injEq] at h6
  subst h6
  exact ⟨tps, h7, by rw [h8]; simp [refArea]⟩

/-- C39: polygons with fewer than three vertices give no triangles. -/
theorem C39_small (tol : K) (p : List (Pt K)) (idx : List Int) (h : idx.length < 3) :
    earTriangulate tol p idx = .ok [] := by
  unfold earTriangulate earLoop; rw [if_pos h]

example : earTriangulate (1/100000) [(⟨0, 0⟩ : Pt ℚ), ⟨4, 0⟩, ⟨4, 3⟩, ⟨0, 3⟩] [0, 1, 2, 3] =
    .ok [[3, 0, 1], [1, 2, 3]] := by decide +kernel

/-! ### C40 -/

/-- Convex position, counter-clockwise, with margins: vertices distinguishable by the tolerance
and every vertex triple turning by at least the tolerance. -/
def WellSpread (tol : K) (l : List (Pt K)) : Prop :=
  (∀ i j : Fin l.length, i < j → ¬ Close tol l[i] l[j]) ∧
  (∀ i j k : Fin l.length, i < j → j < k → tol ≤ turn l[i] l[j] l[k])

private theorem wellSpread_tail {tol : K} {a : Pt K} {l : List (Pt K)} (h : WellSpread tol (a :: l)) :
    WellSpread tol l := by
  constructor
  · intro i j hij
    exact h.1 i.succ j.succ (Fin.succ_lt_succ_iff.2 hij)
  · intro i j k hij hjk
    exact h.2 i.succ j.succ k.succ (Fin.succ_lt_succ_iff.2 hij) (Fin.succ_lt_succ_iff.2 hjk)

private theorem turn_cyc (a b c : Pt K) : turn b c a = turn a b c := by unfold turn; ring

private theorem nextV_last (z a b : Pt K) (h : 2 < [z, a, b].length) : nextV [z, a, b] ⟨2, h⟩ = z := by
  simp [nextV]

private theorem tri_contains_false (tol : K) (ht : 0 < tol) (z a b v : Pt K)
    (c1 : ¬ Close tol z a) (c2 : ¬ Close tol a b) (c3 : ¬ Close tol b z)
    (h : 0 < turn z a b) (h1 : tol ≤ turn z a v) (h2 : tol ≤ turn a b v) (h3 : turn b z v ≤ -tol) :
    containsPoint tol [z, a, b] v = false := by
  have hnc : NeighboursApart tol [z, a, b] := by
    intro i
    match i with
    | ⟨0, _⟩ => exact fun h => absurd h c1
    | ⟨1, _⟩ => exact fun h => absurd h c2
    | ⟨2, _⟩ => rw [nextV_last]; exact fun h => absurd h c3
  have hconv : StrictlyConvexCCW [z, a, b] := by
    refine ⟨by simp, ?_⟩
    intro i k h1 h2
    match i, k, h1, h2 with
    | ⟨0, _⟩, ⟨0, _⟩, h1, _ => exact absurd rfl h1
    | ⟨0, _⟩, ⟨1, _⟩, _, h2 => exact absurd rfl h2
    | ⟨0, _⟩, ⟨2, _⟩, _, _ => exact h
    | ⟨1, _⟩, ⟨0, _⟩, _, _ => show 0 < turn a b z; rwa [turn_cyc]
    | ⟨1, _⟩, ⟨1, _⟩, h1, _ => exact absurd rfl h1
    | ⟨1, _⟩, ⟨2, _⟩, _, h2 => exact absurd rfl h2
    | ⟨2, _⟩, ⟨0, _⟩, _, h2 => exact absurd (by simp) h2
    | ⟨2, _⟩, ⟨1, _⟩, _, _ => rw [nextV_last]; show 0 < turn b z a; rwa [turn_cyc, turn_cyc]
    | ⟨2, _⟩, ⟨2, _⟩, h1, _ => exact absurd rfl h1
  have hout : Outside [z, a, b] v := ⟨⟨2, by simp⟩, by rw [nextV_last]; show turn b z v < 0; linarith⟩
  rw [← Bool.not_eq_true, C28_outside_only_near_edge tol ht _ v hnc hconv hout]
  rintro ⟨i, hi⟩
  match i, hi with
  | ⟨0, _⟩, hi =>
    have : |turn z a v| < tol := hi.2.2
    rw [abs_lt] at this; linarith
  | ⟨1, _⟩, hi =>
    have : |turn a b v| < tol := hi.2.2
    rw [abs_lt] at this; linarith
  | ⟨2, _⟩, hi =>
    have : |turn b z v| < tol := by have := hi.2.2; rwa [nextV_last] at this
    rw [abs_lt] at this; linarith

private theorem earBlocked_false (tol : K) (p t : List (Pt K)) (tri : List Int) : ∀ l : List Int,
    (∀ v ∈ l, isVertex tri v = true ∨ ∃ q, vecGet p v = .ok q ∧ containsPoint tol t q = false) →
    earBlocked tol p t tri l = .ok false := by
  intro l
  induction l with
  | nil => intro _; rfl
  | cons v l ih =>
    intro h
    have h1 := ih (fun w hw => h w (by simp [hw]))
    by_cases hv : isVertex tri v = true
    · simp only [earBlocked, if_pos hv, Outcome.bind_ok, h1, Outcome.pure_eq, Bool.or_self]
    · obtain ⟨q, hq, hc⟩ := (h v (by simp)).resolve_left hv
      simp only [earBlocked, if_neg hv, hq, Outcome.bind_ok, h1, Outcome.pure_eq, hc, Bool.or_self]

private theorem getEar_spread (tol : K) (ht : 0 < tol) (p : List (Pt K)) (x y : Int) (l : List Int)
    (z : Int) (hz : (x :: y :: l).getLast (by simp) = z) (hl : 2 ≤ l.length)
    (pts : List (Pt K)) (hr : resolve p (x :: y :: l) = .ok pts) (hw : WellSpread tol pts) :
    getEar tol p (x :: y :: l) = .ok (some ([z, x, y], y :: l)) := by
  have hlen := resolve_length hr
  set full := x :: y :: l with hfull
  have hn : full.length = l.length + 2 := by simp [hfull]
  unfold getEar
  rw [if_neg (by omega), if_neg (by omega)]
  have hrange : List.range full.length = 0 :: (List.range (full.length - 1)).map Nat.succ := by
    have : full.length = (full.length - 1) + 1 := by omega
    conv_lhs => rw [this]
    exact List.range_succ_eq_map
  rw [hrange]
  have htri0 := earTriple full (by omega) 0 (by omega)
  have e0 : (full.length + 0 - 1) % full.length = full.length - 1 := Nat.mod_eq_of_lt (by omega)
  have e1 : (full.length + 0 + 1) % full.length = 1 := by
    rw [Nat.mod_eq_sub_mod (by omega), Nat.mod_eq_of_lt (by omega)]; omega
  have hzz : full[full.length - 1]'(by omega) = z := by
    rw [← hz, List.getLast_eq_getElem]
  have hx0 : full[0]'(by omega) = x := rfl
  have hy1 : full[1]'(by omega) = y := rfl
  have htri := htri0.trans (c := Outcome.ok [z, x, y]) (by simp only [e0, e1]; rw [hzz, hx0, hy1])
  have hget : ∀ k (hk : k < full.length), vecGet p full[k] = .ok (pts[k]'(by omega)) := by
    intro k hk
    obtain ⟨w, hw1, hw2⟩ := resolve_getElem? hr (List.getElem?_eq_getElem hk)
    rw [List.getElem?_eq_getElem (by omega)] at hw1
    rw [hw2, Option.some.inj hw1]
  have gz := hget (full.length - 1) (by omega)
  rw [hzz] at gz
  have gx := hget 0 (by omega)
  rw [hx0] at gx
  have gy := hget 1 (by omega)
  rw [hy1] at gy
  have hres : resolve p [z, x, y] = .ok [pts[full.length - 1]'(by omega), pts[0]'(by omega), pts[1]'(by omega)] := by
    simp only [resolve, gz, gx, gy, Outcome.bind_ok, Outcome.pure_eq]
  have F : ∀ k, (hk : k < full.length) → k < pts.length := fun k hk => by omega
  have hcl := fun (i j : Nat) (hj : j < full.length) (hij : i < j) =>
    hw.1 ⟨i, F i (by omega)⟩ ⟨j, F j hj⟩ hij
  have htn := fun (i j k : Nat) (hk : k < full.length) (hij : i < j) (hjk : j < k) =>
    hw.2 ⟨i, F i (by omega)⟩ ⟨j, F j (by omega)⟩ ⟨k, F k hk⟩ hij hjk
  have hb : earBlocked tol p [pts[full.length - 1]'(by omega), pts[0]'(by omega), pts[1]'(by omega)]
      [z, x, y] full = .ok false := by
    apply earBlocked_false
    intro v hv
    obtain ⟨k, hk, rfl⟩ := List.getElem_of_mem hv
    by_cases hk0 : k = 0
    · left; subst hk0; simp [isVertex, hx0]
    by_cases hk1 : k = 1
    · left; subst hk1; simp [isVertex, hy1]
    by_cases hkn : k = full.length - 1
    · left; subst hkn; simp [isVertex, hzz]
    right
    refine ⟨_, hget k hk, ?_⟩
    apply tri_contains_false tol ht
    · intro hc; exact hcl 0 (full.length - 1) (by omega) (by omega) (by
        unfold Close at *; rw [abs_sub_comm, abs_sub_comm (Pt.y _)]; exact hc)
    · exact hcl 0 1 (by omega) (by omega)
    · exact hcl 1 (full.length - 1) (by omega) (by omega)
    · have := htn 0 1 (full.length - 1) (by omega) (by omega) (by omega)
      rw [← turn_cyc]; exact lt_of_lt_of_le ht this
    · have := htn 0 k (full.length - 1) (by omega) (by omega) (by omega)
      rw [← turn_cyc]; exact this
    · exact htn 0 1 k (by omega) (by omega) (by omega)
    · have := htn 1 k (full.length - 1) (by omega) (by omega) (by omega)
      have e : ∀ a b c : Pt K, turn a c b = -turn a b c := by intro a b c; unfold turn; ring
      rw [e]; exact neg_le_neg this
  simp only [findEar, htri, hres, isConvex_triangle, hb, Outcome.bind_ok, if_true,
    Bool.false_eq_true, if_false, Outcome.pure_eq]
  rfl

/-- On polygons in convex position with margins, ear clipping is a fan from the last vertex. -/
theorem ear_is_fan (tol : K) (ht : 0 < tol) (p : List (Pt K)) (idx : List Int)
    (pts : List (Pt K)) (hr : resolve p idx = .ok pts) (h3 : 3 ≤ idx.length)
    (hw : WellSpread tol pts) :
    ∃ ts : List (List Int), earTriangulate tol p idx = .ok ts ∧ ts.length = idx.length - 2 ∧
      List.Forall₂ (fun t q => resolve p t = .ok [q.1, q.2.1, q.2.2]) ts (earFan pts) := by
  have key : ∀ (fuel : Nat) (idx : List Int) (pts : List (Pt K)) (acc : List (List Int)),
      resolve p idx = .ok pts → 3 ≤ idx.length → idx.length ≤ fuel → WellSpread tol pts →
      ∃ ts : List (List Int), earLoop tol p fuel idx acc = .ok (acc ++ ts) ∧ ts.length = idx.length - 2 ∧
      List.Forall₂ (fun t q => resolve p t = .ok [q.1, q.2.1, q.2.2]) ts (earFan pts) := by
    intro fuel
    induction fuel with
    | zero => intro idx pts acc hr h3 hf; omega
    | succ fuel ih =>
      intro idx pts acc hr h3 hf hw
      have hlen := resolve_length hr
      by_cases h : idx.length = 3
      · match pts, hlen.trans h with
        | [a, b, c], _ =>
          refine ⟨[idx], ?_, by simp [h], List.Forall₂.cons hr List.Forall₂.nil⟩
          · have hg : getEar tol p idx = .ok (some (idx, [])) := by
              unfold getEar
              rw [if_neg (by omega), if_pos h, hr]; rfl
            unfold earLoop
            rw [if_neg (by omega), hg]
            simp only [Outcome.bind_ok]
            unfold earLoop
            rw [if_pos (by simp)]
      · match idx, h3, h, hf, hr, hlen with
        | x :: y :: l, h3, h, hf, hr, hlen =>
          simp only [List.length_cons] at h3 h hf hlen
          have hg := getEar_spread tol ht p x y l _ rfl (by omega) pts hr hw
          obtain ⟨a, ptl, ha, hptl, rfl⟩ := resolve_cons_ok.1 hr
          obtain ⟨b, ptl2, hb, hptl2, rfl⟩ := resolve_cons_ok.1 hptl
          obtain ⟨ts, g1, g2, g3⟩ := ih (y :: l) _ (acc ++ [[(x :: y :: l).getLast (by simp), x, y]])
            hptl (by simp only [List.length_cons]; omega) (by simp only [List.length_cons]; omega) (wellSpread_tail hw)
          have hl2 : ptl2.length = l.length := by simp only [List.length_cons] at hlen; omega
          have hgz : vecGet p ((x :: y :: l).getLast (by simp)) = .ok ((a :: b :: ptl2)[ptl2.length + 1]'(by simp)) := by
            obtain ⟨w, hw1, hw2⟩ := resolve_getElem? hr (k := l.length + 1)
              (i := (x :: y :: l).getLast (by simp)) (by
                rw [List.getLast_eq_getElem]
                exact List.getElem?_eq_getElem (by simp))
            rw [← hl2, List.getElem?_eq_getElem (by simp)] at hw1
            rw [hw2, Option.some.inj hw1]
          have hfan : earFan (a :: b :: ptl2) =
              ((a :: b :: ptl2)[ptl2.length + 1]'(by simp), a, b) :: earFan (b :: ptl2) := by
            match ptl2, hl2 with
            | [], hl2 => simp at hl2; omega
            | [c], hl2 => simp at hl2; omega
            | c :: d :: r, _ =>
              have e : earFan (a :: b :: c :: d :: r) =
                ((a :: b :: c :: d :: r).getLast (by simp), a, b) :: earFan (b :: c :: d :: r) := rfl
              rw [e, List.getLast_eq_getElem]; rfl
          refine ⟨[(x :: y :: l).getLast (by simp), x, y] :: ts, ?_, ?_, ?_⟩
          · unfold earLoop
            rw [if_neg (by simp only [List.length_cons]; omega), hg]
            simp only [Outcome.bind_ok]
            rw [g1]; simp
          · simp only [List.length_cons] at g2 ⊢; omega
          · rw [hfan]
            refine List.Forall₂.cons ?_ g3
            simp only [resolve, hgz, ha, hb, Outcome.bind_ok, Outcome.pure_eq]
  obtain ⟨ts, g1, g2, g3⟩ := key idx.length idx pts [] hr h3 (le_refl _) hw
  exact ⟨ts, by simpa [earTriangulate] using g1, g2, g3⟩

theorem convexPos_of_spread {tol : K} (ht : 0 < tol) {l : List (Pt K)} (h : WellSpread tol l) : ConvexPos l :=
  fun i j k hij hjk => lt_of_lt_of_le ht (h.2 i j k hij hjk)

/-- C40, the part that holds: polygons in convex position with margins are cut into `n - 2`
counter-clockwise triangles, which fill the polygon exactly and do not overlap.  Missing for the
full claim: non-convex simple polygons (refuted below) and polygons with vertices too close to a
line. -/
theorem C40_convex_partial (tol : K) (ht : 0 < tol) (p : List (Pt K)) (idx : List Int)
    (pts : List (Pt K)) (hr : resolve p idx = .ok pts) (h3 : 3 ≤ idx.length)
    (hw : WellSpread tol pts) :
    ∃ (ts : List (List Int)) (tps : List (Pt K × Pt K × Pt K)), earTriangulate tol p idx = .ok ts ∧ ts.length = idx.length - 2 ∧
      List.Forall₂ (fun t q => resolve p t = .ok [q.1, q.2.1, q.2.2]) ts tps ∧ Tiles tps pts := by
  obtain ⟨ts, g1, g2, g3⟩ := ear_is_fan tol ht p idx pts hr h3 hw
  exact ⟨ts, earFan pts, g1, g2, g3, earFan_tiles pts (by rw [resolve_length hr]; exact h3) (convexPos_of_spread ht hw)⟩

end

example : WellSpread (1/100000) [(⟨0, 0⟩ : Pt ℚ), ⟨4, 0⟩, ⟨5, 3⟩, ⟨2, 5⟩, ⟨0, 3⟩] := by
  unfold WellSpread Close; decide +kernel

/-- C40 is false for non-convex polygons: on a simple counter-clockwise dart the reflex vertex
is clipped as an "ear", giving a clockwise triangle (outside the polygon) and one covering it. -/
theorem C40_refuted : ∃ (p : List (Pt ℚ)) (idx : List Int) (pts : List (Pt ℚ)),
    resolve p idx = .ok pts ∧ ¬ EdgesCross (1/100000) pts ∧ 0 < refArea ⟨0, 0⟩ pts ∧
    ∃ ts, earTriangulate (1/100000) p idx = .ok ts ∧ ∃ t ∈ ts, ∃ a b c,
      resolve p t = .ok [a, b, c] ∧ turn a b c < 0 := by
  let p : List (Pt ℚ) := [⟨0, 0⟩, ⟨4, 0⟩, ⟨1, 1⟩, ⟨0, 4⟩]
  refine ⟨p, [2, 3, 0, 1], [⟨1, 1⟩, ⟨0, 4⟩, ⟨0, 0⟩, ⟨4, 0⟩], by decide +kernel, ?_, ?_, [[1, 2, 3], [3, 0, 1]],
    by decide +kernel, [1, 2, 3], by decide, ⟨4, 0⟩, ⟨1, 1⟩, ⟨0, 4⟩, by decide +kernel, by decide +kernel⟩
  · rw [← C35_isSelfIntersecting_iff]; decide +kernel
  · rw [← (C17_area_reference _ _).2]; decide +kernel

/-- C40 is false for small convex polygons: a square of side 10⁻⁶ gives no triangles at all. -/
theorem C40_small_refuted : ∃ (p : List (Pt ℚ)), StrictlyConvexCCW p ∧ p.length = 4 ∧
    earTriangulate (1/100000) p [0, 1, 2, 3] = .ok [] := by
  refine ⟨[⟨0, 0⟩, ⟨1/1000000, 0⟩, ⟨1/1000000, 1/1000000⟩, ⟨0, 1/1000000⟩], ?_, rfl, by decide +kernel⟩
  unfold StrictlyConvexCCW; decide +kernel

/-! ### C41 -/

section
variable {K : Type} [Field K] [LinearOrder K] [IsStrictOrderedRing K]

/-- Coordinate-wise mean of a non-empty vertex list. -/
def meanPt (l : List (Pt K)) : Pt K := ⟨(l.map Pt.x).sum / l.length, (l.map Pt.y).sum / l.length⟩

private theorem turn_mean (a b : Pt K) (l : List (Pt K)) (hl : l ≠ []) :
    turn a b (meanPt l) = (l.map (fun v => turn a b v)).sum / l.length := by
  have hn : (l.length : K) ≠ 0 := by
    have := List.length_pos_iff.2 hl
    exact_mod_cast this.ne'
  have key : ∀ m : List (Pt K), (m.map (fun v => turn a b v)).sum =
      (b.x - a.x) * ((m.map Pt.y).sum - m.length * a.y) - (b.y - a.y) * ((m.map Pt.x).sum - m.length * a.x) := by
    intro m
    induction m with
    | nil => simp
    | cons c m ih =>
      simp only [List.map_cons, List.sum_cons, ih, List.length_cons, Nat.cast_add, Nat.cast_one]
      unfold turn; ring
  rw [key]
  unfold turn meanPt
  field_simp

/-- C41: when the convexity test accepts, exactly the mean is appended and there is one triangle
per edge, made of that edge and the new point (whose index is the old point count), and the
triangles' areas sum to the polygon's area. -/
theorem C41_center (p : List (Pt K)) (idx : List Int) (pts : List (Pt K)) (o : Pt K)
    (hr : resolve p idx = .ok pts) (hc : isConvex pts = .ok true) :
    ∃ ts, centerTriangulate p idx = .ok (p ++ [meanPt pts], ts) ∧ ts.length = idx.length ∧
      (∀ i : Fin idx.length, ts[i.val]? = some [idx[i], nextV idx i, (p.length : Int)]) ∧
      (∀ i : Fin idx.length, resolve (p ++ [meanPt pts]) [idx[i], nextV idx i, (p.length : Int)] =
        .ok [pts[i.val]'(by rw [resolve_length hr]; exact i.isLt),
          nextV pts ⟨i.val, by rw [resolve_length hr]; exact i.isLt⟩, meanPt pts]) ∧
      refArea o pts = ((List.finRange pts.length).map (fun i =>
        turn pts[i] (nextV pts i) (meanPt pts) / 2)).sum := by
  have hne : pts ≠ [] := by rintro rfl; simp [isConvex] at hc
  have hav : getAverage pts = some (meanPt pts) := by unfold getAverage; rw [if_neg hne]; rfl
  refine ⟨_, by unfold centerTriangulate; rw [hr]; simp only [Outcome.bind_ok, hc, hav]; rfl, ?_, ?_, ?_, ?_⟩
  · simp [cycPairs_length]
  · intro i
    rw [List.getElem?_map, cycPairs_getElem? idx i.val i.isLt]; rfl
  · intro i
    have hlen := resolve_length hr
    have g : ∀ k (hk : k < idx.length), vecGet (p ++ [meanPt pts]) idx[k] = .ok (pts[k]'(by omega)) := by
      intro k hk
      obtain ⟨w, hw1, hw2⟩ := resolve_getElem? hr (List.getElem?_eq_getElem hk)
      rw [List.getElem?_eq_getElem (by omega)] at hw1
      obtain ⟨h0, h1⟩ := vecGet_ok_iff.1 hw2
      have hlt := (List.getElem?_eq_some_iff.1 h1).1
      refine vecGet_ok_iff.2 ⟨h0, ?_⟩
      rw [List.getElem?_append_left hlt, h1, Option.some.inj hw1]
    have gl : vecGet (p ++ [meanPt pts]) (p.length : Int) = .ok (meanPt pts) :=
      vecGet_ok_iff.2 ⟨by omega, by simp⟩
    have hm : (i.val + 1) % idx.length < idx.length := Nat.mod_lt _ (by have := i.isLt; omega)
    have g2 := g _ hm
    have g1 := g i.val i.isLt
    unfold nextV
    simp only [resolve, Fin.getElem_fin, g1, g2, gl, Outcome.bind_ok, Outcome.pure_eq, hlen]
  · rw [← (C17_area_reference o pts).2, (C17_area_reference (meanPt pts) pts).2]
    unfold refArea
    congr 1
    apply List.map_congr_left
    intro i _
    rw [← turn_cyc]; rfl

/-- C41: on a convex counter-clockwise polygon all triangles are counter-clockwise. -/
theorem C41_orientation (pts : List (Pt K)) (h : StrictlyConvexCCW pts) (i : Fin pts.length) :
    0 < turn pts[i] (nextV pts i) (meanPt pts) := by
  have hne : pts ≠ [] := by rintro rfl; exact absurd i.isLt (by simp)
  have hpos : (0 : K) < pts.length := by exact_mod_cast List.length_pos_iff.2 hne
  rw [turn_mean _ _ _ hne]
  apply div_pos _ hpos
  have hnn : ∀ v ∈ pts, 0 ≤ turn pts[i] (nextV pts i) v := by
    intro v hv
    obtain ⟨k, hk, rfl⟩ := List.getElem_of_mem hv
    by_cases h1 : (⟨k, hk⟩ : Fin pts.length) = i
    · have : pts[k] = pts[i] := by subst h1; rfl
      rw [this]; apply le_of_eq; unfold turn; ring
    by_cases h2 : k = (i.val + 1) % pts.length
    · have : pts[k] = nextV pts i := by unfold nextV; simp only [h2]
      rw [this]; apply le_of_eq; unfold turn; ring
    · exact (h.2 i ⟨k, hk⟩ h1 h2).le
  obtain ⟨k, hk1, hk2⟩ : ∃ k : Fin pts.length, k ≠ i ∧ k.val ≠ (i.val + 1) % pts.length := by
    have h3 := h.1
    have := i.isLt
    by_cases ha : (0 : Nat) ≠ i.val ∧ 0 ≠ (i.val + 1) % pts.length
    · exact ⟨⟨0, by omega⟩, fun hc => ha.1 (congrArg Fin.val hc), ha.2⟩
    by_cases hb : (1 : Nat) ≠ i.val ∧ 1 ≠ (i.val + 1) % pts.length
    · exact ⟨⟨1, by omega⟩, fun hc => hb.1 (congrArg Fin.val hc), hb.2⟩
    refine ⟨⟨2, by omega⟩, fun hc => ?_, fun hc => ?_⟩
    · have : 2 = i.val := congrArg Fin.val hc
      omega
    · simp only at hc; omega
  have hs : ∀ m : List (Pt K), (∀ v ∈ m, 0 ≤ turn pts[i] (nextV pts i) v) →
      0 ≤ (m.map (fun v => turn pts[i] (nextV pts i) v)).sum := by
    intro m hm
    apply List.sum_nonneg
    intro x hx
    obtain ⟨v, hv, rfl⟩ := List.mem_map.1 hx
    exact hm v hv
  have hsplit : pts = pts.take k.val ++ pts[k] :: pts.drop (k.val + 1) := by
    conv_lhs => rw [← List.take_append_drop k.val pts]
    rw [List.drop_eq_getElem_cons k.isLt]; rfl
  have hsum : (pts.map (fun v => turn pts[i] (nextV pts i) v)).sum =
      ((pts.take k.val).map (fun v => turn pts[i] (nextV pts i) v)).sum +
      (turn pts[i] (nextV pts i) pts[k] + ((pts.drop (k.val + 1)).map (fun v => turn pts[i] (nextV pts i) v)).sum) := by
    rw [← List.sum_cons, ← List.map_cons, ← List.sum_append, ← List.map_append, ← hsplit]
  rw [hsum]
  have a1 := hs (pts.take k.val) (fun v hv => hnn v (List.mem_of_mem_take hv))
  have a2 := hs (pts.drop (k.val + 1)) (fun v hv => hnn v (List.mem_of_mem_drop hv))
  have a3 := h.2 i k hk1 hk2
  linarith

/-- C41: a polygon failing the convexity test raises the exception (nothing is returned, so the
point list is the caller's, unchanged). -/
theorem C41_rejects (p : List (Pt K)) (idx : List Int) (pts : List (Pt K))
    (hr : resolve p idx = .ok pts) (hc : isConvex pts = .ok false) :
    centerTriangulate p idx = .exn := by
  unfold centerTriangulate; rw [hr]; simp only [Outcome.bind_ok, hc]; rfl

example : centerTriangulate [(⟨0, 0⟩ : Pt ℚ), ⟨4, 0⟩, ⟨4, 2⟩, ⟨0, 2⟩] [0, 1, 2, 3] =
    .ok ([⟨0, 0⟩, ⟨4, 0⟩, ⟨4, 2⟩, ⟨0, 2⟩, ⟨2, 1⟩], [[0, 1, 4], [1, 2, 4], [2, 3, 4], [3, 0, 4]]) := by
  decide +kernel

end
end Delynoi
