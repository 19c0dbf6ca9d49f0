import Verif.Model.Flags
import Verif.Proofs.WeakList
/-! Helper lemmas: the construction with flags is the construction without them, and every point it
adds is flagged. -/
set_option linter.unusedSectionVars false
namespace Delynoi
variable {K : Type} [Field K] [LinearOrder K]

/-- Flags after the point list has grown from `n` to `n'` by flagged points. -/
def extFlags (n n' : Nat) (fl : List Bool) : List Bool := fl ++ List.replicate (n' - n) true

theorem extFlags_refl (n : Nat) (fl : List Bool) : extFlags n n fl = fl := by simp [extFlags]

theorem extFlags_trans {a b c : Nat} (h1 : a ≤ b) (h2 : b ≤ c) (fl : List Bool) :
    extFlags b c (extFlags a b fl) = extFlags a c fl := by
  unfold extFlags
  rw [List.append_assoc, ← List.replicate_add]
  congr 2; omega

theorem pushFlagged_true (tol : K) (u : UList (Pt K)) (fl : List Bool) (x : Pt K) :
    pushFlagged tol u fl x true = (((u.pushBack (fun x y => x.ltTol tol y) x).1,
      extFlags u.list.length (u.pushBack (fun x y => x.ltTol tol y) x).1.list.length fl),
      (u.pushBack (fun x y => x.ltTol tol y) x).2) := by
  unfold pushFlagged
  simp only
  rcases UList.pushBack_tail (lt := fun x y : Pt K => x.ltTol tol y) u x with h | h
  · rw [h, if_pos rfl, extFlags_refl]
  · rw [h, if_neg (by simp)]
    simp [extFlags]

theorem push_len_le (tol : K) (u : UList (Pt K)) (x : Pt K) :
    u.list.length ≤ (u.pushBack (fun x y => x.ltTol tol y) x).1.list.length := by
  rcases UList.pushBack_tail (lt := fun x y : Pt K => x.ltTol tol y) u x with h | h <;> rw [h] <;> simp

/-- Number of points of a state. -/
def VState.n (s : VState K) : Nat := s.circ.list.length

theorem getCircumcenter_len {tol : K} {d : DelInfo K} {s : VState K} {t e : Int} {r : VState K × Int}
    (h : getCircumcenter tol d s t e = .ok r) : s.n ≤ r.1.n := by
  unfold getCircumcenter at h
  by_cases ht : t ≠ -1
  · rw [if_pos ht] at h
    cases h1 : vecGet d.triangles t with
    | exn => rw [h1] at h; cases h
    | ub => rw [h1] at h; cases h
    | ok x =>
      rw [h1, Outcome.bind_ok, Outcome.pure_eq] at h
      obtain rfl := Outcome.ok.inj h
      exact Nat.le_refl _
  · rw [if_neg ht] at h
    cases h1 : vecGet d.edges e with
    | exn => rw [h1] at h; cases h
    | ub => rw [h1] at h; cases h
    | ok x =>
      rw [h1, Outcome.bind_ok] at h
      cases h2 : (ISeg.mk' x.p1 x.p2).middlePoint d.meshPoints with
      | exn => rw [h2] at h; cases h
      | ub => rw [h2] at h; cases h
      | ok m =>
        rw [h2, Outcome.bind_ok, Outcome.pure_eq] at h
        obtain rfl := Outcome.ok.inj h
        exact push_len_le tol s.circ m

theorem getCircumcenterF_eq (tol : K) (d : DelInfo K) (s : VState K) (fl : List Bool) (t e : Int) :
    getCircumcenterF tol d s fl t e = (do
      let r ← getCircumcenter tol d s t e
      return ((r.1, extFlags s.n r.1.n fl), r.2)) := by
  unfold getCircumcenterF getCircumcenter
  by_cases ht : t ≠ -1
  · rw [if_pos ht, if_pos ht]
    cases h1 : vecGet d.triangles t with
    | exn => rfl
    | ub => rfl
    | ok x =>
      simp only [Outcome.bind_ok, Outcome.pure_eq, extFlags_refl]
  · rw [if_neg ht, if_neg ht]
    cases h1 : vecGet d.edges e with
    | exn => rfl
    | ub => rfl
    | ok x =>
      simp only [Outcome.bind_ok]
      cases h2 : (ISeg.mk' x.p1 x.p2).middlePoint d.meshPoints with
      | exn => rfl
      | ub => rfl
      | ok m => simp only [Outcome.bind_ok, Outcome.pure_eq, pushFlagged_true]; rfl

theorem crossEdge_len {tol : K} {d : DelInfo K} {cell t1 t2 e : Int} {s : VState K} {cp : UList Int}
    {r : VState K × UList Int} (h : crossEdge tol d cell t1 t2 e s cp = .ok r) : s.n ≤ r.1.n := by
  unfold crossEdge at h
  cases h1 : getCircumcenter tol d s t1 e with
  | exn => rw [h1] at h; cases h
  | ub => rw [h1] at h; cases h
  | ok r1 =>
    rw [h1, Outcome.bind_ok] at h
    cases h2 : getCircumcenter tol d r1.1 t2 e with
    | exn => rw [h2] at h; cases h
    | ub => rw [h2] at h; cases h
    | ok r2 =>
      rw [h2, Outcome.bind_ok] at h
      simp only at h
      have hle := Nat.le_trans (getCircumcenter_len h1) (getCircumcenter_len h2)
      cases h3 : vecGet r2.1.circ.list r1.2 with
      | exn => rw [h3] at h; cases h
      | ub => rw [h3] at h; cases h
      | ok q1 =>
        rw [h3, Outcome.bind_ok] at h
        by_cases hc : r1.2 ≠ r2.2
        · rw [if_pos hc] at h
          cases h4 : vecGet r2.1.circ.list r2.2 with
          | exn => rw [h4] at h; cases h
          | ub => rw [h4] at h; cases h
          | ok q2 =>
            rw [h4, Outcome.bind_ok, Outcome.pure_eq] at h
            obtain rfl := Outcome.ok.inj h
            exact hle
        · rw [if_neg hc, Outcome.pure_eq] at h
          obtain rfl := Outcome.ok.inj h
          exact hle

theorem crossEdgeF_eq (tol : K) (d : DelInfo K) (cell t1 t2 e : Int) (s : VState K) (fl : List Bool)
    (cp : UList Int) : crossEdgeF tol d cell t1 t2 e s fl cp = (do
      let r ← crossEdge tol d cell t1 t2 e s cp
      return ((r.1, extFlags s.n r.1.n fl), r.2)) := by
  unfold crossEdgeF crossEdge
  rw [getCircumcenterF_eq]
  cases h1 : getCircumcenter tol d s t1 e with
  | exn => rfl
  | ub => rfl
  | ok r1 =>
    simp only [Outcome.bind_ok, Outcome.pure_eq]
    rw [getCircumcenterF_eq]
    cases h2 : getCircumcenter tol d r1.1 t2 e with
    | exn => rfl
    | ub => rfl
    | ok r2 =>
      simp only [Outcome.bind_ok, Outcome.pure_eq]
      rw [extFlags_trans (getCircumcenter_len h1) (getCircumcenter_len h2)]
      cases h3 : vecGet r2.1.circ.list r1.2 with
      | exn => rfl
      | ub => rfl
      | ok q1 =>
        simp only [Outcome.bind_ok]
        by_cases hc : r1.2 ≠ r2.2
        · rw [if_pos hc, if_pos hc]
          cases h4 : vecGet r2.1.circ.list r2.2 with
          | exn => rfl
          | ub => rfl
          | ok q2 => rfl
        · rw [if_neg hc, if_neg hc]; rfl

theorem nextEdgeOf_len {d : DelInfo K} {s : VState K} {t i : Int} {e : EdgeData}
    {r : VState K × EdgeData} (h : nextEdgeOf d s t i e = .ok r) : r.1.n = s.n := by
  unfold nextEdgeOf at h
  cases h1 : vecGet d.triangles t with
  | exn => rw [h1] at h; cases h
  | ub => rw [h1] at h; cases h
  | ok tr =>
    rw [h1, Outcome.bind_ok] at h
    cases h2 : thirdPoint tr.pts e with
    | exn => rw [h2] at h; cases h
    | ub => rw [h2] at h; cases h
    | ok w =>
      rw [h2, Outcome.bind_ok] at h
      simp only at h
      cases h3 : vecGet d.edges (edgeMapGet s.edgeMap (Key.mk' i w)).2 with
      | exn => rw [h3] at h; cases h
      | ub => rw [h3] at h; cases h
      | ok e' =>
        rw [h3, Outcome.bind_ok, Outcome.pure_eq] at h
        obtain rfl := Outcome.ok.inj h
        rfl

theorem walk_len {tol : K} {d : DelInfo K} {cell index : Int} {init : EdgeData} :
    ∀ (fuel : Nat) {edge : EdgeData} {t : Int} {s : VState K} {cp : UList Int}
      {r : EdgeData × VState K × UList Int},
    walk tol d cell index init fuel edge t s cp = .ok r → s.n ≤ r.2.1.n := by
  intro fuel
  induction fuel with
  | zero =>
    intro edge t s cp r h
    unfold walk at h
    by_cases he : edge.eq init = true
    · rw [if_pos he] at h; obtain rfl := Outcome.ok.inj h; exact Nat.le_refl _
    · rw [if_neg he] at h; cases h
  | succ fuel ih =>
    intro edge t s cp r h
    unfold walk at h
    by_cases he : edge.eq init = true
    · rw [if_pos he] at h; obtain rfl := Outcome.ok.inj h; exact Nat.le_refl _
    · rw [if_neg he] at h
      simp only at h
      generalize (if edge.t1 ≠ t then edge.t1 else edge.t2) = t' at h
      generalize hm : edgeMapGet s.edgeMap (Key.mk' edge.p1 edge.p2) = m at h
      cases h1 : crossEdge tol d cell t' t m.2 { s with edgeMap := m.1 } cp with
      | exn => rw [h1] at h; cases h
      | ub => rw [h1] at h; cases h
      | ok r1 =>
        rw [h1, Outcome.bind_ok] at h
        have hle : s.n ≤ r1.1.n := (crossEdge_len h1 : VState.n { s with edgeMap := m.1 } ≤ r1.1.n)
        by_cases ht : t' ≠ -1
        · rw [if_pos ht] at h
          cases h2 : nextEdgeOf d r1.1 t' index edge with
          | exn => rw [h2] at h; cases h
          | ub => rw [h2] at h; cases h
          | ok n =>
            rw [h2, Outcome.bind_ok] at h
            have := ih h
            rw [nextEdgeOf_len h2] at this
            omega
        · rw [if_neg ht, Outcome.pure_eq] at h
          obtain rfl := Outcome.ok.inj h
          exact hle

theorem walkF_eq (tol : K) (d : DelInfo K) (cell index : Int) (init : EdgeData) :
    ∀ (fuel : Nat) (edge : EdgeData) (t : Int) (s : VState K) (fl : List Bool) (cp : UList Int),
    walkF tol d cell index init fuel edge t s fl cp = (do
      let r ← walk tol d cell index init fuel edge t s cp
      return (r.1, (r.2.1, extFlags s.n r.2.1.n fl), r.2.2)) := by
  intro fuel
  induction fuel with
  | zero =>
    intro edge t s fl cp
    unfold walkF walk
    by_cases he : edge.eq init = true
    · rw [if_pos he, if_pos he]; simp only [Outcome.bind_ok, Outcome.pure_eq, extFlags_refl]
    · rw [if_neg he, if_neg he]; rfl
  | succ fuel ih =>
    intro edge t s fl cp
    unfold walkF walk
    by_cases he : edge.eq init = true
    · rw [if_pos he, if_pos he]; simp only [Outcome.bind_ok, Outcome.pure_eq, extFlags_refl]
    · rw [if_neg he, if_neg he]
      simp only
      generalize (if edge.t1 ≠ t then edge.t1 else edge.t2) = t'
      generalize hm : edgeMapGet s.edgeMap (Key.mk' edge.p1 edge.p2) = m
      rw [crossEdgeF_eq]
      cases h1 : crossEdge tol d cell t' t m.2 { s with edgeMap := m.1 } cp with
      | exn => rfl
      | ub => rfl
      | ok r1 =>
        have hle : s.n ≤ r1.1.n := (crossEdge_len h1 : VState.n { s with edgeMap := m.1 } ≤ r1.1.n)
        simp only [Outcome.bind_ok, Outcome.pure_eq]
        have hn : VState.n { s with edgeMap := m.1 } = s.n := rfl
        rw [hn]
        by_cases ht : t' ≠ -1
        · rw [if_pos ht, if_pos ht]
          cases h2 : nextEdgeOf d r1.1 t' index edge with
          | exn => rfl
          | ub => rfl
          | ok n =>
            simp only [Outcome.bind_ok]
            rw [ih]
            cases h3 : walk tol d cell index init fuel n.2 t' n.1 r1.2 with
            | exn => rfl
            | ub => rfl
            | ok w =>
              simp only [Outcome.bind_ok, Outcome.pure_eq]
              have hw := walk_len fuel h3
              rw [nextEdgeOf_len h2] at hw ⊢
              rw [extFlags_trans hle hw]
        · rw [if_neg ht, if_neg ht]; rfl

theorem closeCell_len {tol : K} {cell : Int} {center : Pt K} {edge : EdgeData} {s : VState K}
    {cp : UList Int} {r : VState K × UList Int} (h : closeCell tol cell center edge s cp = .ok r) :
    s.n ≤ r.1.n := by
  unfold closeCell at h
  by_cases he : edge.t2 = -1
  · rw [if_pos he] at h
    cases h1 : vecGet cp.list 0 with
    | exn => rw [h1] at h; cases h
    | ub => rw [h1] at h; cases h
    | ok a =>
      rw [h1, Outcome.bind_ok] at h
      cases h2 : vecGet cp.list ((cp.list.length : Int) - 1) with
      | exn => rw [h2] at h; cases h
      | ub => rw [h2] at h; cases h
      | ok b =>
        rw [h2, Outcome.bind_ok] at h
        cases h3 : vecGet s.circ.list a with
        | exn => rw [h3] at h; cases h
        | ub => rw [h3] at h; cases h
        | ok qa =>
          rw [h3, Outcome.bind_ok] at h
          cases h4 : vecGet s.circ.list b with
          | exn => rw [h4] at h; cases h
          | ub => rw [h4] at h; cases h
          | ok qb =>
            rw [h4, Outcome.bind_ok] at h
            by_cases hc : collinear tol qa center qb = true
            · rw [if_pos hc, Outcome.pure_eq] at h
              obtain rfl := Outcome.ok.inj h
              exact Nat.le_refl _
            · rw [if_neg hc] at h
              simp only at h
              cases h5 : vecGet (s.circ.pushBack (fun x y => x.ltTol tol y) center).1.list
                ((s.circ.pushBack (fun x y => x.ltTol tol y) center).2 : Int) with
              | exn => rw [h5] at h; cases h
              | ub => rw [h5] at h; cases h
              | ok q =>
                rw [h5, Outcome.bind_ok, Outcome.pure_eq] at h
                obtain rfl := Outcome.ok.inj h
                exact push_len_le tol s.circ center
  · rw [if_neg he] at h
    obtain rfl := Outcome.ok.inj h
    exact Nat.le_refl _

theorem closeCellF_eq (tol : K) (cell : Int) (center : Pt K) (edge : EdgeData) (s : VState K)
    (fl : List Bool) (cp : UList Int) : closeCellF tol cell center edge s fl cp = (do
      let r ← closeCell tol cell center edge s cp
      return ((r.1, extFlags s.n r.1.n fl), r.2)) := by
  unfold closeCellF closeCell
  by_cases he : edge.t2 = -1
  · rw [if_pos he, if_pos he]
    cases h1 : vecGet cp.list 0 with
    | exn => rfl
    | ub => rfl
    | ok a =>
      simp only [Outcome.bind_ok]
      cases h2 : vecGet cp.list ((cp.list.length : Int) - 1) with
      | exn => rfl
      | ub => rfl
      | ok b =>
        simp only [Outcome.bind_ok]
        cases h3 : vecGet s.circ.list a with
        | exn => rfl
        | ub => rfl
        | ok qa =>
          simp only [Outcome.bind_ok]
          cases h4 : vecGet s.circ.list b with
          | exn => rfl
          | ub => rfl
          | ok qb =>
            simp only [Outcome.bind_ok]
            by_cases hc : collinear tol qa center qb = true
            · rw [if_pos hc, if_pos hc]
              simp only [Outcome.bind_ok, Outcome.pure_eq]
              show Outcome.ok (({ s with vedges := _ }, fl), cp) = .ok ((_, extFlags s.n s.n fl), cp)
              rw [extFlags_refl]
            · rw [if_neg hc, if_neg hc]
              rw [pushFlagged_true]
              simp only
              cases h5 : vecGet (s.circ.pushBack (fun x y => x.ltTol tol y) center).1.list
                ((s.circ.pushBack (fun x y => x.ltTol tol y) center).2 : Int) with
              | exn => rfl
              | ub => rfl
              | ok q => rfl
  · rw [if_neg he, if_neg he]
    simp only [Outcome.bind_ok, Outcome.pure_eq, extFlags_refl]

theorem voronoiCellF_eq (tol : K) (d : DelInfo K) (cell index : Int) (s : VState K) (fl : List Bool) :
    voronoiCellF tol d cell index s fl = (do
      let r ← voronoiCell tol d cell index s
      return ((r.1, extFlags s.n r.1.n fl), r.2)) ∧
    ∀ r, voronoiCell tol d cell index s = .ok r → s.n ≤ r.1.n := by
  unfold voronoiCellF voronoiCell
  cases h1 : vecGet d.meshPoints index with
  | exn => exact ⟨rfl, fun r h => by cases h⟩
  | ub => exact ⟨rfl, fun r h => by cases h⟩
  | ok center =>
    simp only [Outcome.bind_ok]
    cases h2 : vecGet d.points index with
    | exn => exact ⟨rfl, fun r h => by cases h⟩
    | ub => exact ⟨rfl, fun r h => by cases h⟩
    | ok pd =>
      simp only [Outcome.bind_ok]
      cases h3 : vecGet d.edges pd.edge with
      | exn => exact ⟨rfl, fun r h => by cases h⟩
      | ub => exact ⟨rfl, fun r h => by cases h⟩
      | ok init =>
        simp only [Outcome.bind_ok]
        rw [crossEdgeF_eq]
        cases h4 : crossEdge tol d cell init.t1 init.t2 pd.edge s UList.empty with
        | exn => exact ⟨rfl, fun r h => by cases h⟩
        | ub => exact ⟨rfl, fun r h => by cases h⟩
        | ok r1 =>
          have l1 := crossEdge_len h4
          simp only [Outcome.bind_ok, Outcome.pure_eq]
          cases h5 : nextEdgeOf d r1.1 init.t1 index init with
          | exn => exact ⟨rfl, fun r h => by cases h⟩
          | ub => exact ⟨rfl, fun r h => by cases h⟩
          | ok n =>
            simp only [Outcome.bind_ok]
            rw [walkF_eq]
            cases h6 : walk tol d cell index init (3 * d.triangles.length) n.2 init.t1 n.1 r1.2 with
            | exn => exact ⟨rfl, fun r h => by cases h⟩
            | ub => exact ⟨rfl, fun r h => by cases h⟩
            | ok w =>
              have l2 := walk_len _ h6
              rw [nextEdgeOf_len h5] at l2
              simp only [Outcome.bind_ok, Outcome.pure_eq]
              rw [closeCellF_eq]
              cases h7 : closeCell tol cell center w.1 w.2.1 w.2.2 with
              | exn => exact ⟨rfl, fun r h => by cases h⟩
              | ub => exact ⟨rfl, fun r h => by cases h⟩
              | ok c =>
                have l3 := closeCell_len h7
                simp only [Outcome.bind_ok, Outcome.pure_eq]
                rw [nextEdgeOf_len h5, extFlags_trans l1 l2, extFlags_trans (Nat.le_trans l1 l2) l3]
                cases h8 : Poly.ofIndices tol c.2.list c.1.circ.list with
                | exn => exact ⟨rfl, fun r h => by cases h⟩
                | ub => exact ⟨rfl, fun r h => by cases h⟩
                | ok p =>
                  simp only [Outcome.bind_ok]
                  cases h9 : p.fixCCW c.1.circ.list with
                  | exn => exact ⟨rfl, fun r h => by cases h⟩
                  | ub => exact ⟨rfl, fun r h => by cases h⟩
                  | ok p' =>
                    refine ⟨rfl, fun r h => ?_⟩
                    simp only [Outcome.bind_ok] at h
                    obtain rfl := Outcome.ok.inj h
                    exact Nat.le_trans l1 (Nat.le_trans l2 l3)

theorem voronoiCellsF_eq (tol : K) (d : DelInfo K) : ∀ (vs : List Int) (s : VState K) (fl : List Bool)
    (cells : List (Poly K)), voronoiCellsF tol d vs s fl cells = (do
      let r ← voronoiCells tol d vs s cells
      return ((r.1, extFlags s.n r.1.n fl), r.2)) ∧
    ∀ r, voronoiCells tol d vs s cells = .ok r → s.n ≤ r.1.n := by
  intro vs
  induction vs with
  | nil =>
    intro s fl cells
    constructor
    · simp only [voronoiCellsF, voronoiCells, Outcome.bind_ok, Outcome.pure_eq, extFlags_refl]
    · intro r h
      obtain rfl := Outcome.ok.inj h
      exact Nat.le_refl _
  | cons v vs ih =>
    intro s fl cells
    unfold voronoiCellsF voronoiCells
    obtain ⟨e, l⟩ := voronoiCellF_eq tol d (cells.length : Int) v s fl
    rw [e]
    cases h1 : voronoiCell tol d (cells.length : Int) v s with
    | exn => exact ⟨rfl, fun r h => by cases h⟩
    | ub => exact ⟨rfl, fun r h => by cases h⟩
    | ok r =>
      have l1 := l r h1
      simp only [Outcome.bind_ok, Outcome.pure_eq]
      obtain ⟨e2, l2⟩ := ih r.1 (extFlags s.n r.1.n fl) (cells ++ [r.2])
      rw [e2]
      cases h2 : voronoiCells tol d vs r.1 (cells ++ [r.2]) with
      | exn => exact ⟨rfl, fun r h => by cases h⟩
      | ub => exact ⟨rfl, fun r h => by cases h⟩
      | ok r' =>
        have l3 := l2 r' h2
        simp only [Outcome.bind_ok, Outcome.pure_eq]
        rw [extFlags_trans l1 l3]
        refine ⟨rfl, fun r h => ?_⟩
        obtain rfl := Outcome.ok.inj h
        exact Nat.le_trans l1 l3

/-- The construction with flags: the same mesh; the points of the Delaunay information are not
flagged, all points added are. -/
theorem voronoiF_eq (tol : K) (d : DelInfo K) : voronoiF tol d = (do
      let m ← voronoi tol d
      return (m, List.replicate d.circumcenters.list.length false ++
        List.replicate (m.points.list.length - d.circumcenters.list.length) true)) := by
  unfold voronoiF voronoi
  rw [(voronoiCellsF_eq tol d _ _ _ _).1]
  cases h : voronoiCells tol d d.realPoints.list
      ⟨d.circumcenters, d.edgeMap, SegMap.empty, PtMap.empty⟩ [] with
  | exn => rfl
  | ub => rfl
  | ok r => rfl

end Delynoi
