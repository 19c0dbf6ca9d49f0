import Verif.Model.Delaunay
import Verif.Proofs.WeakList
import Verif.Props.Region
import Verif.Props.UniqueList
import Verif.Props.Neighbours
import Verif.Props.DelaunayImport
/-!
# Properties C62-C65: the triangulation generator and the input it builds
-/
set_option linter.unusedSectionVars false
namespace Delynoi
variable {K : Type} [Field K] [LinearOrder K] [IsStrictOrderedRing K]

/-! ### C62, C63 -/

/-- Switches and restricted segments a request asks for. -/
def Req.key : Req K → Switches × List (Pt K × Pt K)
  | .conformingMesh => (.conforming, [])
  | .conformingInfo => (.conforming, [])
  | .constrained => (.constrained, [])
  | .constrainedWith segs => (.constrained, segs)

/-- What is returned once the generator holds its triangulation. -/
def answer (tol : K) (g : DelGen K) : Req K → Outcome (Resp K)
  | .conformingMesh => g.respond tol (fun _ => .dangling)
  | .conformingInfo => .ok (.info g.info)
  | .constrained => g.respond tol .mesh
  | .constrainedWith _ => g.respond tol .mesh

theorem request_eq (tol : K) (lib : Triangulator K) (g : DelGen K) (q : Req K) :
    g.request tol lib q = (do
      let g ← g.ensure tol lib q.key.1 q.key.2
      let r ← answer tol g q
      return (g, r)) := by
  cases q <;> rfl

theorem ensure_inv (tol : K) (lib : Triangulator K) (g g' : DelGen K) (q : Req K)
    (h : g.ensure tol lib q.key.1 q.key.2 = .ok g') :
    (g.empty = true ∧ g' = g) ∨ (g.empty = false ∧ g'.empty = true ∧ g'.region = g.region ∧
      g'.seeds = g.seeds ∧ ∃ inp, g'.log = g.log ++ [(q.key.1, inp)]) := by
  unfold DelGen.ensure at h
  cases he : g.empty with
  | true => rw [he] at h; left; exact ⟨rfl, (Outcome.ok.inj h).symm⟩
  | false =>
    rw [he] at h
    right
    have h : g.callTriangle tol lib q.key.1 q.key.2 = .ok g' := h
    unfold DelGen.callTriangle at h
    cases h1 : triangleInput tol g.region g.seeds q.key.2 with
    | exn => rw [h1] at h; cases h
    | ub => rw [h1] at h; cases h
    | ok inp =>
      rw [h1, Outcome.bind_ok] at h
      cases h2 : g.info.importOut tol (lib q.key.1 inp) with
      | exn => rw [h2] at h; cases h
      | ub => rw [h2] at h; cases h
      | ok info =>
        rw [h2, Outcome.bind_ok] at h
        have h := Outcome.ok.inj h
        subst h
        exact ⟨rfl, rfl, rfl, rfl, inp, rfl⟩

theorem requests_log (tol : K) (lib : Triangulator K) (qs : List (Req K)) :
    ∀ (g g' : DelGen K) (rs : List (Resp K)), g.requests tol lib qs = .ok (g', rs) →
    (g.empty = true → g' = g) ∧
    (g.empty = false → (qs = [] ∧ g' = g) ∨ g'.log.length = g.log.length + 1) ∧
    rs.length = qs.length := by
  induction qs with
  | nil =>
    intro g g' rs h
    have h := Outcome.ok.inj h
    obtain ⟨rfl, rfl⟩ := Prod.mk.inj h
    exact ⟨fun _ => rfl, fun _ => Or.inl ⟨rfl, rfl⟩, rfl⟩
  | cons q qs ih =>
    intro g g' rs h
    unfold DelGen.requests at h
    rw [request_eq] at h
    cases h1 : g.ensure tol lib q.key.1 q.key.2 with
    | exn => rw [h1] at h; cases h
    | ub => rw [h1] at h; cases h
    | ok g1 =>
      rw [h1, Outcome.bind_ok] at h
      cases h2 : answer tol g1 q with
      | exn => rw [h2] at h; cases h
      | ub => rw [h2] at h; cases h
      | ok r =>
        rw [h2] at h
        simp only [Outcome.bind_ok, Outcome.pure_eq] at h
        cases h3 : g1.requests tol lib qs with
        | exn => rw [h3] at h; cases h
        | ub => rw [h3] at h; cases h
        | ok x =>
          rw [h3, Outcome.bind_ok] at h
          obtain ⟨e1, e2⟩ := Prod.mk.inj (Outcome.ok.inj h)
          obtain ⟨i1, i2, i3⟩ := ih g1 x.1 x.2 h3
          subst e1
          rcases ensure_inv tol lib g g1 q h1 with ⟨he, rfl⟩ | ⟨he, he1, _, _, inp, hl⟩
          · exact ⟨fun _ => i1 he, fun hf => by rw [he] at hf; exact absurd hf (by simp),
              by rw [← e2]; simp [i3]⟩
          · refine ⟨fun ht => by rw [he] at ht; exact absurd ht (by simp), fun _ => Or.inr ?_,
              by rw [← e2]; simp [i3]⟩
            rw [i1 he1, hl]; simp

/-- C62: over any sequence of requests to a new generator, some of which may have thrown, the
external library is called once if there was any request, and not at all otherwise. -/
theorem C62_called_once (tol : K) (lib : Triangulator K) (pts : List (Pt K)) (region : Region K)
    (qs : List (Req K)) (g : DelGen K) (rs : List (Resp K))
    (h : (DelGen.new pts region).requests tol lib qs = .ok (g, rs)) :
    g.log.length = if qs = [] then 0 else 1 := by
  obtain ⟨_, h2, _⟩ := requests_log tol lib qs _ g rs h
  by_cases hq : qs = []
  · subst hq
    have h := Outcome.ok.inj h
    obtain ⟨rfl, _⟩ := Prod.mk.inj h
    rfl
  · rw [if_neg hq]
    rcases h2 rfl with ⟨h3, _⟩ | h3
    · exact absurd h3 hq
    · rw [h3]; rfl

/-- A triangulator that gives the square with centre when conforming and the square cut along a
diagonal when constrained. -/
def twoFaced : Triangulator ℚ := fun sw _ => match sw with
  | .conforming => sampleOut
  | .constrained =>
    { points := [⟨0, 0⟩, ⟨2, 0⟩, ⟨2, 2⟩, ⟨0, 2⟩],
      edges := [(0, 1, 1), (1, 2, 1), (2, 3, 1), (3, 0, 1), (0, 2, 0)],
      tris := [(0, 1, 2), (0, 2, 3)] }

def squareRegion : Region ℚ := ⟨Poly.fresh [0, 1, 2, 3], [⟨0, 0⟩, ⟨2, 0⟩, ⟨2, 2⟩, ⟨0, 2⟩], [], []⟩

/-- Number of triangles in a response. -/
def Resp.size : Resp K → Option Nat
  | .info d => some d.triangles.length
  | .mesh m => some m.polygons.length
  | _ => none

/-- Numbers of triangles in all responses of a generator. -/
def sizes (tol : K) (lib : Triangulator K) (g : DelGen K) (qs : List (Req K)) :
    Outcome (List (Option Nat)) := do
  let r ← g.requests tol lib qs
  return r.2.map Resp.size

example : ∃ g rs, (DelGen.new [] squareRegion).requests (1/100000) twoFaced
    [.constrained, .conformingInfo, .constrained] = .ok (g, rs) := by
  have : (match (DelGen.new [] squareRegion).requests (1/100000) twoFaced
    [.constrained, .conformingInfo, .constrained] with | .ok _ => true | _ => false) = true := by
    decide +kernel
  split at this
  · rename_i x hx; exact ⟨x.1, x.2, hx⟩
  · cases this

/-- C63 is violated: a generator asked for a constrained and then for a conforming triangulation
answers both with the constrained one (2 triangles), although a new generator answers the second
request with the conforming one (4 triangles). -/
theorem C63_refuted :
    sizes (1/100000) twoFaced (DelGen.new [] squareRegion) [.constrained, .conformingInfo]
      = .ok [some 2, some 2] ∧
    sizes (1/100000) twoFaced (DelGen.new [] squareRegion) [.conformingInfo] = .ok [some 4] := by
  decide +kernel

/-- C63 is violated: segments asked for in a second request are ignored. -/
theorem C63_segments_refuted (tol : K) (lib : Triangulator K) (g : DelGen K) (h : g.empty = true)
    (s s' : List (Pt K × Pt K)) :
    g.request tol lib (.constrainedWith s) = g.request tol lib (.constrainedWith s') := by
  rw [request_eq, request_eq]
  have e : ∀ s, g.ensure tol lib (Req.key (.constrainedWith s)).1 (Req.key (.constrainedWith s)).2
      = .ok g := by
    intro s; unfold DelGen.ensure; rw [h]; rfl
  rw [e, e]
  rfl

/-- C63 is violated: the conforming mesh is never delivered, its reference is dead. -/
theorem C63_dangling_refuted (tol : K) (lib : Triangulator K) (g g' : DelGen K) (r : Resp K)
    (h : g.request tol lib .conformingMesh = .ok (g', r)) : r = .dangling ∨ r = .threw := by
  rw [request_eq] at h
  cases h1 : g.ensure tol lib (Req.key (.conformingMesh : Req K)).1
      (Req.key (.conformingMesh : Req K)).2 with
  | exn => rw [h1] at h; cases h
  | ub => rw [h1] at h; cases h
  | ok g1 =>
    rw [h1, Outcome.bind_ok] at h
    have e : answer tol g1 (.conformingMesh : Req K) = g1.respond tol (fun _ => .dangling) := rfl
    rw [e] at h
    unfold DelGen.respond at h
    cases h2 : initializeMesh tol mkTriangle g1.info with
    | exn => rw [h2] at h; right; exact (Prod.mk.inj (Outcome.ok.inj h)).2.symm
    | ub => rw [h2] at h; cases h
    | ok m => rw [h2] at h; left; exact (Prod.mk.inj (Outcome.ok.inj h)).2.symm

theorem requests_same (tol : K) (lib : Triangulator K) (qs : List (Req K)) :
    ∀ (g g' : DelGen K) (rs : List (Resp K)), g.empty = true →
    g.requests tol lib qs = .ok (g', rs) →
    ∀ (k : Nat) (q : Req K), qs[k]? = some q → ∃ r, rs[k]? = some r ∧ answer tol g q = .ok r := by
  induction qs with
  | nil => intro g g' rs _ _ k q hk; simp at hk
  | cons q0 qs ih =>
    intro g g' rs he h k q hk
    unfold DelGen.requests at h
    rw [request_eq] at h
    have e : g.ensure tol lib q0.key.1 q0.key.2 = .ok g := by unfold DelGen.ensure; rw [he]; rfl
    rw [e, Outcome.bind_ok] at h
    cases h2 : answer tol g q0 with
    | exn => rw [h2] at h; cases h
    | ub => rw [h2] at h; cases h
    | ok r =>
      rw [h2] at h
      simp only [Outcome.bind_ok, Outcome.pure_eq] at h
      cases h3 : g.requests tol lib qs with
      | exn => rw [h3] at h; cases h
      | ub => rw [h3] at h; cases h
      | ok x =>
        rw [h3, Outcome.bind_ok] at h
        obtain ⟨e1, e2⟩ := Prod.mk.inj (Outcome.ok.inj h)
        subst e2
        cases k with
        | zero => simp at hk; subst hk; exact ⟨r, rfl, h2⟩
        | succ k =>
          obtain ⟨r', hr', ha⟩ := ih g x.1 x.2 he h3 k q (by simpa using hk)
          exact ⟨r', by simpa using hr', ha⟩

/-- C63, the part that holds: the first request, and every later request that asks for the same
switches and segments as the first, is answered as by a new generator.  Missing: requests of
another kind (refuted above). -/
theorem C63_same_kind_partial (tol : K) (lib : Triangulator K) (pts : List (Pt K))
    (region : Region K) (q0 : Req K) (qs : List (Req K)) (g : DelGen K) (rs : List (Resp K))
    (h : (DelGen.new pts region).requests tol lib (q0 :: qs) = .ok (g, rs))
    (k : Nat) (q : Req K) (hk : (q0 :: qs)[k]? = some q) (hq : q.key = q0.key) :
    ∃ g1 r, (DelGen.new pts region).request tol lib q = .ok (g1, r) ∧ rs[k]? = some r := by
  unfold DelGen.requests at h
  rw [request_eq] at h ⊢
  cases h1 : (DelGen.new pts region).ensure tol lib q0.key.1 q0.key.2 with
  | exn => rw [h1] at h; cases h
  | ub => rw [h1] at h; cases h
  | ok g1 =>
    rw [h1, Outcome.bind_ok] at h
    rw [hq, h1, Outcome.bind_ok]
    have he : g1.empty = true := by
      rcases ensure_inv tol lib _ g1 q0 h1 with ⟨he, _⟩ | ⟨_, he, _⟩
      · exact absurd he (by simp [DelGen.new])
      · exact he
    cases h2 : answer tol g1 q0 with
    | exn => rw [h2] at h; cases h
    | ub => rw [h2] at h; cases h
    | ok r =>
      rw [h2] at h
      simp only [Outcome.bind_ok, Outcome.pure_eq] at h
      cases h3 : g1.requests tol lib qs with
      | exn => rw [h3] at h; cases h
      | ub => rw [h3] at h; cases h
      | ok x =>
        rw [h3, Outcome.bind_ok] at h
        obtain ⟨e1, e2⟩ := Prod.mk.inj (Outcome.ok.inj h)
        subst e2
        cases k with
        | zero =>
          simp at hk; subst hk
          exact ⟨g1, r, by rw [h2]; rfl, rfl⟩
        | succ k =>
          obtain ⟨r', hr', ha⟩ := requests_same tol lib qs g1 x.1 x.2 he h3 k q (by simpa using hk)
          exact ⟨g1, r', by rw [ha]; rfl, by simpa using hr'⟩

/-! ### C64, C65 -/

theorem close_of_equiv {tol : K} (h : 0 < tol) {a b : Pt K}
    (hab : a = b ∨ Equiv' (fun a b : Pt K => a.ltTol tol b) a b) : Close tol a b := by
  rcases hab with rfl | hab
  · unfold Close; simp [h]
  · exact (equiv_iff_close tol h a b).1 hab

/-- Everything about the list handed to the library that holds without assumptions on the
points. -/
theorem trianglePoints_spec {tol : K} (h : 0 < tol) (region : Region K) (seeds : List (Pt K)) :
    let u := trianglePoints tol region seeds
    u.2.length = region.getRegionPoints.length ∧
    (∀ (k : Nat) (x : Pt K), region.getRegionPoints[k]? = some x → ∃ (i : Nat) (y : Pt K),
      u.2[k]? = some i ∧ u.1.list[i]? = some y ∧ Close tol y x) ∧
    (∀ x ∈ seeds ++ region.getRegionPoints, ∃ y ∈ u.1.list, Close tol y x) := by
  intro u
  obtain ⟨a1, a2, a3, a4⟩ := UList.pushList_weak (lt := fun a b : Pt K => a.ltTol tol b) seeds
    (UList.decodes_empty (T := Pt K))
  obtain ⟨b1, b2, b3, ⟨tail, b4⟩⟩ := UList.pushList_weak (lt := fun a b : Pt K => a.ltTol tol b)
    region.getRegionPoints a1
  refine ⟨b2, ?_, ?_⟩
  · intro k x hk
    obtain ⟨i, y, h1, h2, h3⟩ := b3 k x hk
    exact ⟨i, y, h1, h2, close_of_equiv h h3⟩
  · intro x hx
    rcases List.mem_append.1 hx with hx | hx
    · obtain ⟨k, hk⟩ := List.mem_iff_getElem?.1 hx
      obtain ⟨i, y, h1, h2, h3⟩ := a3 k x hk
      refine ⟨y, ?_, close_of_equiv h h3⟩
      show y ∈ (trianglePoints tol region seeds).1.list
      unfold trianglePoints
      simp only
      rw [b4]
      exact List.mem_append_left _ (List.mem_of_getElem? h2)
    · obtain ⟨k, hk⟩ := List.mem_iff_getElem?.1 hx
      obtain ⟨i, y, h1, h2, h3⟩ := b3 k x hk
      exact ⟨y, List.mem_of_getElem? h2, close_of_equiv h h3⟩

theorem regionSegments_spec {tol : K} (h : 0 < tol) (region : Region K) (seeds : List (Pt K))
    (segs : List ISeg) (hs : ∀ s ∈ segs, (0 ≤ s.p1 ∧ s.p1 < region.getRegionPoints.length) ∧
      0 ≤ s.p2 ∧ s.p2 < region.getRegionPoints.length) :
    ∃ out, regionSegments (trianglePoints tol region seeds).2 segs = .ok out ∧
      out.length = segs.length ∧
      ∀ (k : Nat) (s : ISeg), segs[k]? = some s → ∃ (i j : Int) (a b : Pt K) (va vb : Pt K),
        out[k]? = some (i, j) ∧ vecGet (trianglePoints tol region seeds).1.list i = .ok a ∧
        vecGet (trianglePoints tol region seeds).1.list j = .ok b ∧
        vecGet region.getRegionPoints s.p1 = .ok va ∧ vecGet region.getRegionPoints s.p2 = .ok vb ∧
        Close tol a va ∧ Close tol b vb := by
  obtain ⟨l1, l2, _⟩ := trianglePoints_spec h region seeds
  have one : ∀ i : Int, 0 ≤ i → i < region.getRegionPoints.length → ∃ (n : Nat) (a va : Pt K),
      vecGet (trianglePoints tol region seeds).2 i = .ok n ∧
      vecGet (trianglePoints tol region seeds).1.list (n : Int) = .ok a ∧
      vecGet region.getRegionPoints i = .ok va ∧ Close tol a va := by
    intro i h0 h1
    have hx : region.getRegionPoints[i.toNat]? = some _ := List.getElem?_eq_getElem (by omega)
    obtain ⟨n, y, g1, g2, g3⟩ := l2 i.toNat _ hx
    exact ⟨n, y, _, vecGet_ok_iff.2 ⟨h0, g1⟩, vecGet_ok_iff.2 ⟨by omega, by simpa using g2⟩,
      vecGet_ok_iff.2 ⟨h0, hx⟩, g3⟩
  induction segs with
  | nil => exact ⟨[], rfl, rfl, by simp⟩
  | cons s segs ih =>
    obtain ⟨out, ho, hlen, hk⟩ := ih (fun s hs' => hs s (by simp [hs']))
    obtain ⟨⟨a0, a1⟩, b0, b1⟩ := hs s (by simp)
    obtain ⟨n, a, va, g1, g2, g3, g4⟩ := one s.p1 a0 a1
    obtain ⟨m, b, vb, f1, f2, f3, f4⟩ := one s.p2 b0 b1
    refine ⟨((n : Int), (m : Int)) :: out, ?_, by simp [hlen], ?_⟩
    · unfold regionSegments
      rw [g1, Outcome.bind_ok, f1, Outcome.bind_ok, ho, Outcome.bind_ok]; rfl
    · intro k s' hs'
      cases k with
      | zero =>
        simp at hs'; subst hs'
        exact ⟨n, m, a, b, va, vb, rfl, g2, f2, g3, f3, g4, f4⟩
      | succ k => exact hk k s' (by simpa using hs')

/-- C64: for a well-formed region the input is built without out-of-range access; its segments
start with those of the region, in order, and each index is a valid position in the point list of
a point equal (up to tolerance) to the region vertex it stands for; every seed and region point is
represented.  No assumption on the points. -/
theorem C64_input_consistent (tol : K) (h : 0 < tol) (region : Region K) (hw : region.WF)
    (seeds : List (Pt K)) (restricted : List (Pt K × Pt K)) :
    ∃ inp, triangleInput tol region seeds restricted = .ok inp ∧
      inp.segments.length = region.getSegments.length + restricted.length ∧
      inp.holes = region.holes.map Hole.center ∧
      (∀ x ∈ seeds ++ region.getRegionPoints, ∃ y ∈ inp.points, Close tol y x) ∧
      ∀ (k : Nat) (s : ISeg), region.getSegments[k]? = some s →
        ∃ (i j : Int) (a b va vb : Pt K), inp.segments[k]? = some (i, j) ∧
          vecGet inp.points i = .ok a ∧ vecGet inp.points j = .ok b ∧
          vecGet region.getRegionPoints s.p1 = .ok va ∧
          vecGet region.getRegionPoints s.p2 = .ok vb ∧ Close tol a va ∧ Close tol b vb := by
  obtain ⟨out, h1, h2, h3⟩ := regionSegments_spec h region seeds region.getSegments
    (fun s hs => C48_indices_valid region hw s hs)
  obtain ⟨_, _, l3⟩ := trianglePoints_spec h region seeds
  refine ⟨_, by unfold triangleInput; simp only; rw [h1, Outcome.bind_ok]; rfl, ?_, rfl, l3, ?_⟩
  · simp [h2]
  · intro k s hs
    obtain ⟨i, j, a, b, va, vb, g1, g2⟩ := h3 k s hs
    refine ⟨i, j, a, b, va, vb, ?_, g2⟩
    simp only
    rw [List.getElem?_append_left (List.getElem?_eq_some_iff.1 g1).1]; exact g1

/-- C64: the point list holds no two points that are equal up to tolerance, if closeness does not
drift on the points involved. -/
theorem C64_no_duplicates (tol : K) (h : 0 < tol) (region : Region K) (seeds : List (Pt K))
    (restricted : List (Pt K × Pt K)) (S : Set (Pt K)) (hS : TolSeparated tol S)
    (hin : ∀ x ∈ seeds ++ region.getRegionPoints, x ∈ S) (inp : TriIn K)
    (hi : triangleInput tol region seeds restricted = .ok inp) :
    inp.points.Pairwise (fun a b => ¬ Close tol a b) ∧
      ∀ y ∈ inp.points, y ∈ seeds ++ region.getRegionPoints := by
  have hw := C09_swo_of_separated tol h S hS
  have hp : inp.points = (trianglePoints tol region seeds).1.list := by
    unfold triangleInput at hi
    simp only at hi
    cases h1 : regionSegments (trianglePoints tol region seeds).2 region.getSegments with
    | exn => rw [h1] at hi; cases hi
    | ub => rw [h1] at hi; cases hi
    | ok segs =>
      rw [h1, Outcome.bind_ok] at hi
      have := Outcome.ok.inj hi
      rw [← this]
  have hrun : (trianglePoints tol region seeds).1 = UList.run (fun a b : Pt K => a.ltTol tol b)
      [.pushAll seeds, .pushAll region.getRegionPoints] := rfl
  have hop : ∀ o ∈ ([.pushAll seeds, .pushAll region.getRegionPoints] : List (UList.Op (Pt K))),
      OpIn S o := by
    intro o ho
    simp only [List.mem_cons, List.not_mem_nil, or_false] at ho
    rcases ho with rfl | rfl
    · exact fun x hx => hin x (List.mem_append_left _ hx)
    · exact fun x hx => hin x (List.mem_append_right _ hx)
  have hn := C02_no_duplicates hw _ hop
  rw [hp, hrun]
  refine ⟨hn.imp (fun hab hc => hab ((equiv_iff_close tol h _ _).2 hc)), ?_⟩
  rw [C02_history_refines_ordered_set hw _ hop]
  have key : ∀ (xs acc : List (Pt K)) (y : Pt K),
      y ∈ xs.foldl (specPush (fun a b : Pt K => a.ltTol tol b)) acc → y ∈ acc ∨ y ∈ xs := by
    intro xs
    induction xs with
    | nil => intro acc y hy; exact Or.inl hy
    | cons x xs ih =>
      intro acc y hy
      rcases ih _ y hy with h1 | h1
      · unfold specPush at h1
        split at h1
        · exact Or.inl h1
        · rcases List.mem_append.1 h1 with h1 | h1
          · exact Or.inl h1
          · simp at h1; exact Or.inr (by simp [h1])
      · exact Or.inr (by simp [h1])
  intro y hy
  have hy : y ∈ region.getRegionPoints.foldl (specPush (fun a b : Pt K => a.ltTol tol b))
      (seeds.foldl (specPush (fun a b : Pt K => a.ltTol tol b)) []) := hy
  rcases key _ _ y hy with h1 | h1
  · rcases key _ _ y h1 with h1 | h1
    · simp at h1
    · exact List.mem_append_left _ h1
  · exact List.mem_append_right _ h1

example : squareRegion.WF := ⟨by decide, by intro h hh; cases hh⟩

example : triangleInput (1/100000 : ℚ) squareRegion [⟨1, 1⟩, ⟨2, 0⟩] [(⟨1, 1⟩, ⟨0, 2⟩)] =
    .ok ⟨[⟨1, 1⟩, ⟨2, 0⟩, ⟨0, 0⟩, ⟨2, 2⟩, ⟨0, 2⟩], [(2, 1), (1, 3), (3, 4), (4, 2), (0, 4)], []⟩ := by
  decide +kernel

/-- C65 is violated: an end point that is neither a seed nor a region point is passed as the
index -1. -/
theorem C65_refuted : triangleInput (1/100000 : ℚ) squareRegion [⟨1, 1⟩] [(⟨1, 1⟩, ⟨1/2, 1⟩)] =
    .ok ⟨[⟨1, 1⟩, ⟨0, 0⟩, ⟨2, 0⟩, ⟨2, 2⟩, ⟨0, 2⟩], [(1, 2), (2, 3), (3, 4), (4, 1), (0, -1)], []⟩ := by
  decide +kernel

theorem indexOf_close {tol : K} (l : List (Pt K)) (x : Pt K)
    (hx : ∃ y ∈ l, Close tol y x) : ∃ y, vecGet l (UList.indexOf (fun a b : Pt K => a.eqTol tol b) l x)
      = .ok y ∧ Close tol y x := by
  have hlt : l.findIdx (fun e => e.eqTol tol x) < l.length := by
    rw [List.findIdx_lt_length]
    obtain ⟨y, hy, hc⟩ := hx
    exact ⟨y, hy, (C08_eq_iff_close tol y x).2 hc⟩
  refine ⟨l[l.findIdx (fun e => e.eqTol tol x)], ?_, ?_⟩
  · unfold UList.indexOf
    simp only
    rw [if_pos hlt]
    exact vecGet_ok_iff.2 ⟨by omega, by simp [List.getElem?_eq_getElem hlt]⟩
  · have := List.findIdx_getElem (w := hlt)
    exact (C08_eq_iff_close tol _ x).1 this

/-- C65, the part that holds: restricted segments whose end points are seeds or region points are
passed as valid indices of (up to tolerance) those points, after the region's segments.  Missing:
other end points (refuted above). -/
theorem C65_known_endpoints_partial (tol : K) (h : 0 < tol) (region : Region K) (hw : region.WF)
    (seeds : List (Pt K)) (restricted : List (Pt K × Pt K))
    (hr : ∀ s ∈ restricted, s.1 ∈ seeds ++ region.getRegionPoints ∧
      s.2 ∈ seeds ++ region.getRegionPoints) :
    ∃ inp, triangleInput tol region seeds restricted = .ok inp ∧
      ∀ (k : Nat) (s : Pt K × Pt K), restricted[k]? = some s → ∃ (i j : Int) (a b : Pt K),
        inp.segments[region.getSegments.length + k]? = some (i, j) ∧
        vecGet inp.points i = .ok a ∧ vecGet inp.points j = .ok b ∧
        Close tol a s.1 ∧ Close tol b s.2 := by
  obtain ⟨out, h1, h2, h3⟩ := regionSegments_spec h region seeds region.getSegments
    (fun s hs => C48_indices_valid region hw s hs)
  obtain ⟨_, _, l3⟩ := trianglePoints_spec h region seeds
  refine ⟨_, by unfold triangleInput; simp only; rw [h1, Outcome.bind_ok]; rfl, ?_⟩
  intro k s hs
  obtain ⟨m1, m2⟩ := hr s (List.mem_of_getElem? hs)
  obtain ⟨a, ha, hca⟩ := indexOf_close _ s.1 (l3 _ m1)
  obtain ⟨b, hb, hcb⟩ := indexOf_close _ s.2 (l3 _ m2)
  refine ⟨_, _, a, b, ?_, ha, hb, hca, hcb⟩
  simp only
  rw [← h2, List.getElem?_append_right (by omega)]
  simp [hs]

example : ∀ s ∈ ([(⟨1, 1⟩, ⟨0, 2⟩)] : List (Pt ℚ × Pt ℚ)),
    s.1 ∈ ([⟨1, 1⟩] : List (Pt ℚ)) ++ squareRegion.getRegionPoints ∧
    s.2 ∈ ([⟨1, 1⟩] : List (Pt ℚ)) ++ squareRegion.getRegionPoints := by decide +kernel

end Delynoi
