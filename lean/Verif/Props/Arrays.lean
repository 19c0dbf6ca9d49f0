import Verif.Model.Arrays
import Verif.Props.DelaunayGen
/-!
# Property C87: the arrays exchanged with Triangle
-/
set_option linter.unusedSectionVars false
namespace Delynoi
variable {K : Type} [Field K] [LinearOrder K] [IsStrictOrderedRing K]

/-! ### C87 -/

/-- The coordinates of a point list, all initialised. -/
def flatPts (l : List (Pt K)) : Arr K := l.flatMap (fun q => [some q.x, some q.y])

/-- The ends of a segment list, all initialised. -/
def flatSegs (l : List (Int × Int)) : Arr Int := l.flatMap (fun s => [some s.1, some s.2])

theorem flatPts_length (l : List (Pt K)) : (flatPts l).length = 2 * l.length := by
  simp [flatPts, List.length_flatMap]; omega

theorem flatSegs_length (l : List (Int × Int)) : (flatSegs l).length = 2 * l.length := by
  simp [flatSegs, List.length_flatMap]; omega

theorem write_append {α : Type} (a b : Arr α) (x : Option α) (v : α) (i : Nat) (hi : i = a.length) :
    Arr.write (a ++ x :: b) i v = .ok (a ++ some v :: b) := by
  subst hi
  unfold Arr.write
  rw [if_pos (by simp)]
  simp

theorem alloc_two (n : Nat) : (Arr.alloc ((n + 1) * 2) : Arr α) = none :: none :: Arr.alloc (n * 2) := by
  unfold Arr.alloc
  rw [show (n + 1) * 2 = n * 2 + 1 + 1 by omega, List.replicate_succ, List.replicate_succ]

theorem alloc_one (n : Nat) : (Arr.alloc ((n + 1) * 1) : Arr α) = none :: Arr.alloc (n * 1) := by
  unfold Arr.alloc
  rw [show (n + 1) * 1 = n * 1 + 1 by omega, List.replicate_succ]

theorem fillPoints_spec (l : List (Pt K)) : ∀ (i k : Nat) (a c : Arr K), k = a.length → i = c.length →
    fillPoints i k l (a ++ Arr.alloc (l.length * 2), c ++ Arr.alloc (l.length * 1)) =
      .ok (a ++ flatPts l, c ++ List.replicate l.length (some 0)) := by
  induction l with
  | nil => intro i k a c _ _; rfl
  | cons q l ih =>
    intro i k a c hk hi
    unfold fillPoints
    simp only
    rw [List.length_cons, alloc_two, alloc_one, write_append _ _ _ _ _ hk, Outcome.bind_ok]
    have e := write_append (a ++ [some q.x]) (Arr.alloc (l.length * 2)) none q.y (k + 1) (by simp; omega)
    rw [List.append_assoc] at e
    simp only [List.singleton_append] at e
    rw [e, Outcome.bind_ok, write_append _ _ _ _ _ hi, Outcome.bind_ok]
    have := ih (i + 1) (k + 2) (a ++ [some q.x, some q.y]) (c ++ [some 0]) (by simp; omega) (by simp; omega)
    simp only [List.append_assoc, List.cons_append, List.nil_append] at this ⊢
    rw [this]
    rfl

theorem fillHoles_spec (l : List (Hole K)) : ∀ (i : Nat) (a : Arr K), 2 * i = a.length →
    fillHoles i l (a ++ Arr.alloc (l.length * 2)) = .ok (a ++ flatPts (l.map Hole.center)) := by
  induction l with
  | nil => intro i a _; rfl
  | cons q l ih =>
    intro i a hk
    unfold fillHoles
    rw [List.length_cons, alloc_two, write_append _ _ _ _ _ hk, Outcome.bind_ok]
    have e := write_append (a ++ [some q.center.x]) (Arr.alloc (l.length * 2)) none q.center.y (2 * i + 1)
      (by simp; omega)
    rw [List.append_assoc] at e
    simp only [List.singleton_append] at e
    rw [e, Outcome.bind_ok]
    have := ih (i + 1) (a ++ [some q.center.x, some q.center.y]) (by simp; omega)
    simp only [List.append_assoc, List.cons_append, List.nil_append] at this ⊢
    rw [this]
    rfl

theorem fillSegments_spec (idx : List Nat) (ss : List ISeg) : ∀ (k : Nat) (a : Arr Int) (m : Nat)
    (out : List (Int × Int)), 2 * k = a.length → regionSegments idx ss = .ok out →
    fillSegments idx k ss (a ++ Arr.alloc ((ss.length + m) * 2)) =
      .ok (a ++ flatSegs out ++ Arr.alloc (m * 2), k + ss.length) ∧ out.length = ss.length := by
  induction ss with
  | nil =>
    intro k a m out _ ho
    obtain rfl := Outcome.ok.inj ho
    refine ⟨?_, rfl⟩
    unfold fillSegments flatSegs
    simp
  | cons s ss ih =>
    intro k a m out hk ho
    unfold regionSegments at ho
    cases h1 : vecGet idx s.p1 with
    | exn => rw [h1] at ho; cases ho
    | ub => rw [h1] at ho; cases ho
    | ok i =>
    rw [h1, Outcome.bind_ok] at ho
    cases h2 : vecGet idx s.p2 with
    | exn => rw [h2] at ho; cases ho
    | ub => rw [h2] at ho; cases ho
    | ok j =>
    rw [h2, Outcome.bind_ok] at ho
    cases h3 : regionSegments idx ss with
    | exn => rw [h3] at ho; cases ho
    | ub => rw [h3] at ho; cases ho
    | ok rest =>
    rw [h3, Outcome.bind_ok] at ho
    obtain rfl := Outcome.ok.inj ho
    obtain ⟨g1, g2⟩ := ih (k + 1) (a ++ [some (i : Int), some (j : Int)]) m rest (by simp; omega) h3
    refine ⟨?_, by simp [g2]⟩
    unfold fillSegments
    rw [h1, Outcome.bind_ok, List.length_cons, show ss.length + 1 + m = ss.length + m + 1 by omega,
      alloc_two, write_append _ _ _ _ _ hk, Outcome.bind_ok, h2, Outcome.bind_ok]
    have e := write_append (a ++ [some (i : Int)]) (Arr.alloc ((ss.length + m) * 2)) none (j : Int) (2 * k + 1)
      (by simp; omega)
    rw [List.append_assoc] at e
    simp only [List.singleton_append] at e
    rw [e, Outcome.bind_ok]
    simp only [List.append_assoc, List.cons_append, List.nil_append] at g1 ⊢
    rw [g1]
    simp only [flatSegs, List.flatMap_cons, List.cons_append, List.nil_append,
      show k + 1 + ss.length = k + (ss.length + 1) by omega]

theorem fillRestricted_spec (tol : K) (l : List (Pt K)) (ss : List (Pt K × Pt K)) : ∀ (k : Nat)
    (a : Arr Int), 2 * k = a.length →
    fillRestricted tol l k ss (a ++ Arr.alloc (ss.length * 2)) =
      .ok (a ++ flatSegs (ss.map (fun s =>
        (UList.indexOf (fun a b : Pt K => a.eqTol tol b) l s.1,
         UList.indexOf (fun a b : Pt K => a.eqTol tol b) l s.2)))) := by
  induction ss with
  | nil => intro k a _; rfl
  | cons s ss ih =>
    intro k a hk
    unfold fillRestricted
    rw [List.length_cons, alloc_two, write_append _ _ _ _ _ hk, Outcome.bind_ok]
    have e := write_append (a ++ [some (UList.indexOf (fun a b : Pt K => a.eqTol tol b) l s.1)])
      (Arr.alloc (ss.length * 2)) none (UList.indexOf (fun a b : Pt K => a.eqTol tol b) l s.2) (2 * k + 1)
      (by simp; omega)
    rw [List.append_assoc] at e
    simp only [List.singleton_append] at e
    rw [e, Outcome.bind_ok]
    have := ih (k + 1) (a ++ [some (UList.indexOf (fun a b : Pt K => a.eqTol tol b) l s.1),
      some (UList.indexOf (fun a b : Pt K => a.eqTol tol b) l s.2)]) (by simp; omega)
    simp only [List.append_assoc, List.cons_append, List.nil_append] at this ⊢
    rw [this]
    rfl

/-- C87: filling the arrays for the library never leaves their bounds: for every well-formed region,
seed list and list of restricted segments all writes succeed.  Afterwards no element is
uninitialised, the sizes announced are those of the arrays, and the contents are the coordinates of
the points, the ends of the segments and the coordinates of the hole centers in order. -/
theorem C87_input_arrays (tol : K) (h : 0 < tol) (region : Region K) (hw : region.WF)
    (seeds : List (Pt K)) (restricted : List (Pt K × Pt K)) :
    ∃ inp raw, triangleInput tol region seeds restricted = .ok inp ∧
      rawInput tol region seeds restricted = .ok raw ∧
      raw.numberofpoints = inp.points.length ∧ raw.pointlist = flatPts inp.points ∧
      raw.pointlist.length = 2 * raw.numberofpoints ∧
      raw.pointattributelist = List.replicate (raw.numberofpoints * raw.numberofpointattributes) (some 0) ∧
      raw.numberofsegments = inp.segments.length ∧ raw.segmentlist = flatSegs inp.segments ∧
      raw.segmentlist.length = 2 * raw.numberofsegments ∧
      raw.numberofholes = inp.holes.length ∧ raw.holelist = flatPts inp.holes ∧
      raw.holelist.length = 2 * raw.numberofholes := by
  obtain ⟨out, h1, h2, h3⟩ := regionSegments_spec h region seeds region.getSegments
    (fun s hs => C48_indices_valid region hw s hs)
  obtain ⟨g1, g2⟩ := fillSegments_spec _ _ 0 [] restricted.length out rfl h1
  have g3 := fillRestricted_spec tol (trianglePoints tol region seeds).1.list restricted
    region.getSegments.length (flatSegs out) (by
      rw [← g2]; unfold flatSegs; simp [List.length_flatMap]; omega)
  have g4 := fillPoints_spec (trianglePoints tol region seeds).1.list 0 0 [] [] rfl rfl
  have g5 := fillHoles_spec region.holes 0 [] rfl
  simp only [List.nil_append] at g1 g4 g5
  have hraw : rawInput tol region seeds restricted = .ok
      ⟨(trianglePoints tol region seeds).1.list.length, flatPts (trianglePoints tol region seeds).1.list, 1,
        List.replicate (trianglePoints tol region seeds).1.list.length (some 0),
        region.getSegments.length + restricted.length,
        flatSegs out ++ flatSegs (restricted.map (fun s =>
          (UList.indexOf (fun a b : Pt K => a.eqTol tol b) (trianglePoints tol region seeds).1.list s.1,
           UList.indexOf (fun a b : Pt K => a.eqTol tol b) (trianglePoints tol region seeds).1.list s.2))),
        region.holes.length, flatPts (region.holes.map Hole.center)⟩ := by
    unfold rawInput
    simp only
    rw [g4, Outcome.bind_ok, g1, Outcome.bind_ok]
    simp only [Nat.zero_add]
    rw [g3, Outcome.bind_ok, g5, Outcome.bind_ok]
    rfl
  refine ⟨_, _, by unfold triangleInput; simp only; rw [h1, Outcome.bind_ok]; rfl, hraw, ?_⟩
  refine ⟨rfl, rfl, ?_, ?_, ?_, ?_, ?_, ?_, rfl, ?_⟩
  · exact flatPts_length _
  · simp
  · simp [g2]
  · simp [flatSegs]
  · simp only [List.length_append, flatSegs_length, List.length_map, g2]; omega
  · simp
  · simp [flatPts_length]

example : squareRegion.WF := ⟨by decide, by intro h hh; cases hh⟩

/-- Arrays holding a triangulation in the library's format. -/
structure Holds (r : RawOut K) (out : TriOut K) : Prop where
  np : r.numberofpoints = out.points.length
  pts : r.pointlist = flatPts out.points
  ne : r.numberofedges = out.edges.length
  edges : r.edgelist = flatSegs (out.edges.map (fun e => (e.1, e.2.1)))
  marks : r.edgemarkerlist = out.edges.map (fun e => some e.2.2)
  nt : r.numberoftriangles = out.tris.length
  tris : r.trianglelist = out.tris.flatMap (fun t => [some t.1, some t.2.1, some t.2.2])

theorem read_append {α : Type} (a b : Arr α) (v : α) (i : Nat) (hi : i = a.length) :
    Arr.read (a ++ some v :: b) i = .ok v := by
  subst hi
  unfold Arr.read
  simp

theorem readPts_spec (l : List (Pt K)) : ∀ (i : Nat) (a : Arr K), i * 2 = a.length →
    readPts (a ++ flatPts l) i l.length = .ok l := by
  induction l with
  | nil => intro i a _; rfl
  | cons q l ih =>
    intro i a hi
    unfold readPts
    simp only [List.length_cons]
    have e : flatPts (q :: l) = some q.x :: some q.y :: flatPts l := rfl
    rw [e, read_append _ _ _ _ hi, Outcome.bind_ok]
    have e2 := read_append (a ++ [some q.x]) (flatPts l) q.y (i * 2 + 1) (by simp; omega)
    simp only [List.append_assoc, List.cons_append, List.nil_append] at e2
    have := ih (i + 1) (a ++ [some q.x, some q.y]) (by simp; omega)
    simp only [List.append_assoc, List.cons_append, List.nil_append] at this
    rw [e2, Outcome.bind_ok, this, Outcome.bind_ok]
    rfl

theorem readEdges_spec (l : List (Int × Int × Int)) : ∀ (i : Nat) (a m : Arr Int), 2 * i = a.length →
    i = m.length → readEdges (a ++ flatSegs (l.map (fun e => (e.1, e.2.1))))
      (m ++ l.map (fun e => some e.2.2)) i l.length = .ok l := by
  induction l with
  | nil => intro i a m _ _; rfl
  | cons q l ih =>
    intro i a m hi hm
    unfold readEdges
    simp only [List.length_cons]
    have e : flatSegs ((q :: l).map (fun e => (e.1, e.2.1))) =
      some q.1 :: some q.2.1 :: flatSegs (l.map (fun e => (e.1, e.2.1))) := rfl
    rw [e, List.map_cons, read_append _ _ _ _ hi, Outcome.bind_ok]
    have e2 := read_append (a ++ [some q.1]) (flatSegs (l.map (fun e => (e.1, e.2.1)))) q.2.1 (2 * i + 1)
      (by simp; omega)
    simp only [List.append_assoc, List.cons_append, List.nil_append] at e2
    have := ih (i + 1) (a ++ [some q.1, some q.2.1]) (m ++ [some q.2.2]) (by simp; omega) (by simp; omega)
    simp only [List.append_assoc, List.cons_append, List.nil_append] at this
    rw [e2, Outcome.bind_ok, read_append _ _ _ _ hm, Outcome.bind_ok, this, Outcome.bind_ok]
    rfl

theorem readTris_spec (l : List (Int × Int × Int)) : ∀ (i : Nat) (a : Arr Int), 3 * i = a.length →
    readTris (a ++ l.flatMap (fun t => [some t.1, some t.2.1, some t.2.2])) i l.length = .ok l := by
  induction l with
  | nil => intro i a _; rfl
  | cons q l ih =>
    intro i a hi
    unfold readTris
    simp only [List.length_cons, List.flatMap_cons, List.cons_append, List.nil_append]
    rw [read_append _ _ _ _ hi, Outcome.bind_ok]
    generalize hr : l.flatMap (fun t => [some t.1, some t.2.1, some t.2.2]) = rest at ih ⊢
    have e2 := read_append (a ++ [some q.1]) (some q.2.2 :: rest) q.2.1 (3 * i + 1) (by simp; omega)
    have e3 := read_append (a ++ [some q.1, some q.2.1]) rest q.2.2 (3 * i + 2) (by simp; omega)
    have := ih (i + 1) (a ++ [some q.1, some q.2.1, some q.2.2]) (by simp; omega)
    simp only [List.append_assoc, List.cons_append, List.nil_append] at e2 e3 this
    rw [e2, Outcome.bind_ok, e3, Outcome.bind_ok, this, Outcome.bind_ok]
    rfl

/-- C87: writing is defined exactly inside the array; reading exactly where something was written. -/
theorem C87_access {α : Type} (n i j : Nat) (v : α) :
    (n ≤ i → (Arr.alloc n).write i v = .ub) ∧
    (i < n → ∃ a, (Arr.alloc n).write i v = .ok a ∧ a.length = n ∧ Arr.read a i = .ok v ∧
      (j ≠ i → Arr.read a j = .ub)) := by
  constructor
  · intro h
    simp [Arr.write, Arr.alloc, h]
  · intro h
    refine ⟨(Arr.alloc n).set i (some v), by simp [Arr.write, Arr.alloc, h], by simp [Arr.alloc],
      by simp [Arr.read, Arr.alloc, h], ?_⟩
    intro hj
    unfold Arr.read Arr.alloc
    rw [List.getElem?_set_ne (Ne.symm hj), List.getElem?_replicate]
    split_ifs <;> rfl

/-- C87: reading the library's arrays stays in bounds and gives the triangulation they hold. -/
theorem C87_output_arrays (r : RawOut K) (out : TriOut K) (h : Holds r out) : readOut r = .ok out := by
  unfold readOut
  have h1 := readPts_spec out.points 0 [] rfl
  have h2 := readEdges_spec out.edges 0 [] [] rfl rfl
  have h3 := readTris_spec out.tris 0 [] rfl
  simp only [List.nil_append] at h1 h2 h3
  rw [h.pts, h.np, h1, Outcome.bind_ok, h.edges, h.marks, h.ne, h2, Outcome.bind_ok, h.tris, h.nt, h3,
    Outcome.bind_ok]
  rfl

/-- Every triangulation can be held in arrays. -/
example (out : TriOut K) : ∃ r, Holds r out :=
  ⟨⟨_, _, _, _, _, _, _⟩, rfl, rfl, rfl, rfl, rfl, rfl, rfl⟩

end Delynoi
