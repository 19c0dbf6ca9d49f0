import Verif.Props.Area
import Verif.Model.Region
/-!
# Property C97: replacing the vertices of a polygon (and the rejected case of C36)
-/
set_option linter.unusedSectionVars false
namespace Delynoi
variable {K : Type} [Field K] [LinearOrder K] [IsStrictOrderedRing K]

/-- C97: when `mutate` accepts the new points, nothing of the old polygon is left: whatever was
cached before, area, diameter and hash are those of the new points (which the polygon then has, in the
given order). -/
theorem C97_accepted (tol : K) (calcD : List (Pt K) → Outcome K) (g g' : Poly K) (p : List (Pt K))
    (h : g.mutate tol p = (g', false)) (o : Pt K) :
    resolve p g'.points = .ok p ∧
    (∃ g'', g'.getArea p = .ok (g'', refArea o p)) ∧
    (∀ x, (∃ g'', g'.getDiameter calcD p = .ok (g'', x)) ↔ calcD p = .ok x) ∧
    g'.hash = polyHash g'.points := by
  unfold Poly.mutate at h
  by_cases hs : isSelfIntersecting tol p = true
  · rw [if_pos hs] at h; exact absurd (Prod.mk.inj h).2 (by decide)
  · rw [if_neg hs] at h
    obtain rfl := (Prod.mk.inj h).1
    have hr : resolve p (trivialIndex p.length) = .ok p := resolve_trivial p
    refine ⟨hr, ?_, ?_, rfl⟩
    · refine ⟨{ (Poly.fresh (trivialIndex p.length) : Poly K) with area := fanArea p }, ?_⟩
      unfold Poly.getArea
      rw [if_pos (show (Poly.fresh (trivialIndex p.length) : Poly K).area = -1 from rfl),
        show (Poly.fresh (trivialIndex p.length) : Poly K).points = trivialIndex p.length from rfl, hr,
        Outcome.bind_ok, Outcome.pure_eq, refArea_eq, fanArea_eq]
      rfl
    · intro x
      unfold Poly.getDiameter
      rw [if_pos (show (Poly.fresh (trivialIndex p.length) : Poly K).diameter < 0 by
          show (-1 : K) < 0
          exact neg_lt_zero.2 one_pos),
        show (Poly.fresh (trivialIndex p.length) : Poly K).points = trivialIndex p.length from rfl, hr,
        Outcome.bind_ok]
      cases hc : calcD p with
      | exn => simp
      | ub => simp
      | ok d =>
        rw [Outcome.bind_ok, Outcome.pure_eq]
        constructor
        · rintro ⟨g'', he⟩
          rw [(Prod.mk.inj (Outcome.ok.inj he)).2]
        · intro he
          rw [Outcome.ok.inj he]
          exact ⟨_, rfl⟩

/-- C97: `mutate` throws exactly if the new points are self intersecting for the test of the library,
whatever the polygon was before. -/
theorem C97_rejects_iff (tol : K) (g : Poly K) (p : List (Pt K)) :
    (g.mutate tol p).2 = true ↔ isSelfIntersecting tol p = true := by
  unfold Poly.mutate
  by_cases hs : isSelfIntersecting tol p = true
  · rw [if_pos hs]; exact ⟨fun _ => hs, fun _ => rfl⟩
  · rw [if_neg hs]; exact ⟨fun h => (Bool.false_ne_true h).elim, fun h => absurd h hs⟩

/-- C36 (partial): a rejected `mutate` replaces the vertices nevertheless; the answers of the object
are those of the new vertices if nothing was cached.  Missing: with a cached area the object answers
with the area of vertices it no longer has (`C36_refuted`). -/
theorem C36_rejected_partial (tol : K) (g g' : Poly K) (p : List (Pt K))
    (h : g.mutate tol p = (g', true)) (o : Pt K) :
    resolve p g'.points = .ok p ∧
    (g.area = -1 → ∃ g'', g'.getArea p = .ok (g'', refArea o p)) ∧
    (g.area ≠ -1 → g'.getArea p = .ok (g', g.area)) := by
  unfold Poly.mutate at h
  by_cases hs : isSelfIntersecting tol p = true
  · rw [if_pos hs] at h
    obtain rfl := (Prod.mk.inj h).1
    have hr : resolve p (trivialIndex p.length) = .ok p := resolve_trivial p
    refine ⟨hr, fun ha => ?_, fun ha => ?_⟩
    · refine ⟨{ g with points := trivialIndex p.length, area := fanArea p }, ?_⟩
      unfold Poly.getArea
      simp only
      rw [if_pos ha, hr, Outcome.bind_ok, Outcome.pure_eq, refArea_eq, fanArea_eq]
    · unfold Poly.getArea
      simp only
      rw [if_neg ha]
  · rw [if_neg hs] at h; exact absurd (Prod.mk.inj h).2 (by decide)

/-- A square whose area has been asked for, and a self intersecting path over four points. -/
def cachedSquare : Poly ℚ := { (Poly.fresh [0, 1, 2, 3] : Poly ℚ) with area := 1 }

def bowTie : List (Pt ℚ) := [⟨0, 0⟩, ⟨2, 2⟩, ⟨2, 0⟩, ⟨0, 2⟩]

/-- Both outcomes occur. -/
example : ((Poly.fresh [] : Poly ℚ).mutate (1/100000) [⟨0, 0⟩, ⟨1, 0⟩, ⟨1, 1⟩]).2 = false ∧
    (cachedSquare.mutate (1/100000) bowTie).2 = true := by decide +kernel

/-- C97: the same for regions: an accepted `mutate` gives the region of the new points, with holes and
seeds kept; a rejected one keeps the new points, too. -/
theorem C97_region (tol : K) (r : Region K) (p : List (Pt K)) :
    (r.mutate tol p).1.p = p ∧ (r.mutate tol p).1.holes = r.holes ∧ (r.mutate tol p).1.seeds = r.seeds ∧
    resolve p (r.mutate tol p).1.poly.points = .ok p ∧
    ((r.mutate tol p).2 = true ↔ isSelfIntersecting tol p = true) ∧
    (∀ q, (r.mutate tol p).1.containsPoint tol q = .ok (containsPoint tol p q)) := by
  have hpts : resolve p (r.mutate tol p).1.poly.points = .ok p := by
    have : (r.mutate tol p).1.poly.points = trivialIndex p.length := by
      unfold Region.mutate Poly.mutate
      by_cases hs : isSelfIntersecting tol p = true <;> simp only [hs] <;> rfl
    rw [this]; exact resolve_trivial p
  refine ⟨rfl, rfl, rfl, hpts, C97_rejects_iff tol r.poly p, fun q => ?_⟩
  unfold Region.containsPoint
  rw [show (r.mutate tol p).1.p = p from rfl, hpts, Outcome.bind_ok, Outcome.pure_eq]

end Delynoi
