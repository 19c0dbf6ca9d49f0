import Verif.Model.MeshObj
import Verif.Props.Text
/-!
# Property C86: copies of meshes
-/
set_option linter.unusedSectionVars false
namespace Delynoi

/-! ### C86 -/

/-- A file with one triangle. -/
def fileA : List Char := "3\n0 0\n1 0\n0 1\n1\n3 0 1 2\n".toList

/-- A file with three more points and the triangle they form. -/
def fileB : List Char := "3\n5 5\n6 5\n5 6\n1\n3 3 4 5\n".toList

/-- The declarations `Mesh a; a.createFromFile(fileA); Mesh b(a);`. -/
def copyProg : List MeshStmt := [.new, .read 0 fileA 0, .copy 0]

/-- C86 is violated: reading a file into a copy changes the original, which then knows an edge
between its "points" number 3 and 4, though it has three points only. -/
theorem C86_refuted : ∃ p q m m', MeshProg.start.run (1/100000) copyProg = .ok p ∧
    p.step (1/100000) (.read 1 fileB 0) = .ok q ∧
    (∃ o, p.vars[0]? = some o ∧ q.vars[0]? = some o ∧ o.view p.heap = .ok m ∧ o.view q.heap = .ok m') ∧
    m.edges ≠ m'.edges ∧ m'.points.list.length = 3 ∧
    ∃ e ∈ m'.edges, e.1.p1 = 3 ∧ e.1.p2 = 4 := by
  have key : (match MeshProg.start.run (1/100000) copyProg with
    | .ok p => (match p.step (1/100000) (.read 1 fileB 0) with
      | .ok q => (match p.vars[0]?, q.vars[0]? with
        | some o, some o' => (match o.view p.heap, o.view q.heap with
          | .ok m, .ok m' => decide (o' = o ∧ m.edges ≠ m'.edges ∧ m'.points.list.length = 3 ∧
              ∃ e ∈ m'.edges, e.1.p1 = 3 ∧ e.1.p2 = 4)
          | _, _ => false)
        | _, _ => false)
      | _ => false)
    | _ => false) = true := by decide +kernel
  split at key
  · rename_i p hp
    split at key
    · rename_i q hq
      split at key
      · rename_i o o' ho ho'
        split at key
        · rename_i m m' hm hm'
          obtain ⟨e, h1, h2, h3⟩ := of_decide_eq_true key
          subst e
          exact ⟨p, q, m, m', hp, hq, ⟨_, ho, ho', hm, hm'⟩, h1, h2, h3⟩
        · cases key
      · cases key
    · cases key
  · cases key

/-- Pointers are valid. -/
def MeshProg.WF (p : MeshProg) : Prop :=
  ∀ o ∈ p.vars, o.edges < p.heap.segs.length ∧ o.pointMap < p.heap.pms.length

theorem readPolygons_pointMap (tol : ℚ) (start : Int) (n : Nat) : ∀ (i : Int) (s : IStream)
    (line : List Char) (m m' : Mesh ℚ (Poly ℚ)), readPolygons tol start n i s line m = .ok m' →
    m'.pointMap = m.pointMap := by
  induction n with
  | zero => intro i s line m m' h; obtain rfl := Outcome.ok.inj h; rfl
  | succ n ih =>
    intro i s line m m' h
    unfold readPolygons at h
    simp only at h
    cases h1 : readIndices start ((splitBySpaces (s.getline line).2).drop 1) with
    | exn => rw [h1] at h; cases h
    | ub => rw [h1] at h; cases h
    | ok pts =>
      rw [h1, Outcome.bind_ok] at h
      cases h2 : addPolygon tol m i pts with
      | exn => rw [h2] at h; cases h
      | ub => rw [h2] at h; cases h
      | ok m1 =>
        rw [h2, Outcome.bind_ok] at h
        rw [ih _ _ _ _ _ h]
        have := Outcome.ok.inj (h2 : Outcome.ok _ = Outcome.ok m1)
        rw [← this]

theorem createFromFile_pointMap (tol : ℚ) (text : List Char) (start : Int) (m m' : Mesh ℚ (Poly ℚ))
    (h : createFromFile tol (some text) start m = .ok m') : m'.pointMap = m.pointMap := by
  unfold createFromFile createFromStream at h
  simp only at h
  cases h1 : atoi ((IStream.ofText text).getline []).2 with
  | exn => rw [h1] at h; cases h
  | ub => rw [h1] at h; cases h
  | ok n =>
    rw [h1, Outcome.bind_ok] at h
    cases h2 : readPoints n.toNat ((IStream.ofText text).getline []).1 ((IStream.ofText text).getline []).2 with
    | exn => rw [h2] at h; cases h
    | ub => rw [h2] at h; cases h
    | ok r =>
      rw [h2, Outcome.bind_ok] at h
      cases h3 : atoi (r.1.getline r.2.1).2 with
      | exn => rw [h3] at h; cases h
      | ub => rw [h3] at h; cases h
      | ok k =>
        rw [h3, Outcome.bind_ok] at h
        rw [readPolygons_pointMap _ _ _ _ _ _ _ _ h]

theorem view_ok {h : Heap} {o : MeshObj} {m : Mesh ℚ (Poly ℚ)} (hv : o.view h = .ok m) :
    h.segs[o.edges]? = some m.edges ∧ h.pms[o.pointMap]? = some m.pointMap ∧
      m.points = o.points ∧ m.polygons = o.polygons := by
  unfold MeshObj.view at hv
  split at hv
  · rename_i e p h1 h2
    obtain rfl := Outcome.ok.inj hv
    exact ⟨h1, h2, rfl, rfl⟩
  · cases hv

theorem view_intro {h : Heap} {o : MeshObj} {e : SegMap} {p : PtMap ℚ}
    (h1 : h.segs[o.edges]? = some e) (h2 : h.pms[o.pointMap]? = some p) :
    o.view h = .ok ⟨o.points, o.polygons, e, p⟩ := by
  unfold MeshObj.view
  rw [h1, h2]

theorem set_same {α : Type} {l : List α} {i : Nat} {x : α} (h : l[i]? = some x) : l.set i x = l := by
  apply List.ext_getElem?
  intro j
  rw [List.getElem?_set]
  split
  · rename_i e; subst e
    obtain ⟨h1, h2⟩ := List.getElem?_eq_some_iff.1 h
    rw [if_pos h1, h]
  · rfl

/-- Which variables a statement writes to. -/
def MeshStmt.target : MeshStmt → Option Nat
  | .read i _ _ => some i
  | _ => none

theorem step_cases {tol : ℚ} {p q : MeshProg} (hw : p.WF) {s : MeshStmt} (h : p.step tol s = .ok q) :
    q.WF ∧ ∀ (i : Nat) (o : MeshObj) (m : Mesh ℚ (Poly ℚ)), p.vars[i]? = some o → o.view p.heap = .ok m →
      s.target ≠ some i → q.vars[i]? = some o ∧ ∃ m', o.view q.heap = .ok m' ∧ m'.points = m.points ∧
        m'.polygons = m.polygons ∧ m'.pointMap = m.pointMap ∧
        ((∀ j o', s.target = some j → p.vars[j]? = some o' → o'.edges ≠ o.edges) → m' = m) := by
  cases s with
  | new =>
    obtain rfl := Outcome.ok.inj (h : Outcome.ok _ = _)
    constructor
    · intro o ho
      rcases List.mem_append.1 ho with ho | ho
      · obtain ⟨h1, h2⟩ := hw o ho
        simp only [List.length_append, List.length_singleton]
        exact ⟨by omega, by omega⟩
      · simp only [List.mem_singleton] at ho; subst ho
        simp
    · intro i o m hi hm _
      obtain ⟨h1, h2, h3, h4⟩ := view_ok hm
      have l1 := (List.getElem?_eq_some_iff.1 h1).1
      have l2 := (List.getElem?_eq_some_iff.1 h2).1
      have l3 := (List.getElem?_eq_some_iff.1 hi).1
      refine ⟨by simp only; rw [List.getElem?_append_left l3]; exact hi, m, ?_, rfl, rfl, rfl, fun _ => rfl⟩
      rw [view_intro (e := m.edges) (p := m.pointMap)
        (by simp only; rw [List.getElem?_append_left l1]; exact h1)
        (by simp only; rw [List.getElem?_append_left l2]; exact h2), ← h3, ← h4]
  | copy k =>
    unfold MeshProg.step at h
    simp only at h
    split at h
    · rename_i o0 h0
      obtain rfl := Outcome.ok.inj h
      constructor
      · intro o ho
        rcases List.mem_append.1 ho with ho | ho
        · exact hw o ho
        · simp only [List.mem_singleton] at ho; subst ho
          exact hw o0 (List.mem_of_getElem? h0)
      · intro i o m hi hm _
        have l3 := (List.getElem?_eq_some_iff.1 hi).1
        exact ⟨by simp only; rw [List.getElem?_append_left l3]; exact hi, m, hm, rfl, rfl, rfl, fun _ => rfl⟩
    · cases h
  | read k text start =>
    unfold MeshProg.step at h
    simp only at h
    split at h
    · rename_i o0 h0
      cases h1 : o0.view p.heap with
      | exn => rw [h1] at h; cases h
      | ub => rw [h1] at h; cases h
      | ok m0 =>
      rw [h1, Outcome.bind_ok] at h
      cases h2 : createFromFile tol (some text) start m0 with
      | exn => rw [h2] at h; cases h
      | ub => rw [h2] at h; cases h
      | ok m1 =>
      rw [h2, Outcome.bind_ok] at h
      obtain rfl := Outcome.ok.inj h
      have hpm := createFromFile_pointMap _ _ _ _ _ h2
      obtain ⟨v1, v2, v3, v4⟩ := view_ok h1
      constructor
      · intro o ho
        simp only [List.length_set]
        rcases List.mem_or_eq_of_mem_set ho with ho | rfl
        · exact hw o ho
        · exact hw o0 (List.mem_of_getElem? h0)
      · intro i o m hi hm ht
        have hik : k ≠ i := fun e => ht (by rw [e]; rfl)
        obtain ⟨u1, u2, u3, u4⟩ := view_ok hm
        have hp' : p.heap.pms.set o0.pointMap m1.pointMap = p.heap.pms := by
          rw [hpm]; exact set_same v2
        refine ⟨by simp only; rw [List.getElem?_set_ne hik]; exact hi, ?_⟩
        by_cases he : o0.edges = o.edges
        · have hl := (List.getElem?_eq_some_iff.1 v1).1
          refine ⟨_, view_intro (e := m1.edges) (p := m.pointMap) ?_ ?_, u3.symm, u4.symm, rfl, ?_⟩
          · simp only; rw [← he, List.getElem?_set_self hl]
          · simp only; rw [hp']; exact u2
          · intro hd; exact absurd he (hd k o0 rfl h0)
        · refine ⟨m, ?_, rfl, rfl, rfl, fun _ => rfl⟩
          rw [view_intro (e := m.edges) (p := m.pointMap)
            (by simp only; rw [List.getElem?_set_ne he]; exact u1)
            (by simp only; rw [hp']; exact u2), ← u3, ← u4]
    · cases h

theorem run_wf {tol : ℚ} (ss : List MeshStmt) : ∀ {p q : MeshProg}, p.WF → p.run tol ss = .ok q → q.WF := by
  induction ss with
  | nil => intro p q hw h; obtain rfl := Outcome.ok.inj h; exact hw
  | cons s ss ih =>
    intro p q hw h
    unfold MeshProg.run at h
    cases h1 : p.step tol s with
    | exn => rw [h1] at h; cases h
    | ub => rw [h1] at h; cases h
    | ok p1 => rw [h1, Outcome.bind_ok] at h; exact ih (step_cases hw h1).1 h

/-- C86, the part that holds: after any history, a statement about other variables leaves the points,
the polygons and the point map of a mesh as they were; and also its edges, unless the variable
written to shares them.  Missing: the edges when they are shared (see `C86_refuted`). -/
theorem C86_step_partial (tol : ℚ) (ss : List MeshStmt) (p q : MeshProg)
    (hp : MeshProg.start.run tol ss = .ok p) (s : MeshStmt) (hq : p.step tol s = .ok q)
    (i : Nat) (o : MeshObj) (hi : p.vars[i]? = some o) (hs : s.target ≠ some i) :
    ∃ m m', o.view p.heap = .ok m ∧ q.vars[i]? = some o ∧ o.view q.heap = .ok m' ∧
      m'.points = m.points ∧ m'.polygons = m.polygons ∧ m'.pointMap = m.pointMap ∧
      ((∀ j o', s.target = some j → p.vars[j]? = some o' → o'.edges ≠ o.edges) → m' = m) := by
  have hw : p.WF := run_wf ss (p := MeshProg.start) (by intro o ho; cases ho) hp
  obtain ⟨w1, w2⟩ := hw o (List.mem_of_getElem? hi)
  have hm := view_intro (o := o) (h := p.heap) (List.getElem?_eq_getElem w1) (List.getElem?_eq_getElem w2)
  obtain ⟨h1, m', h2, h3⟩ := (step_cases hw hq).2 i o _ hi hm hs
  exact ⟨_, m', hm, h1, h2, h3⟩

/-- C86, the part that holds: meshes that were declared separately never share anything: in a program
without copies, a statement about other variables leaves a mesh as it was. -/
theorem C86_no_copy_partial (tol : ℚ) (ss : List MeshStmt) (hc : ∀ i, MeshStmt.copy i ∉ ss)
    (p q : MeshProg) (hp : MeshProg.start.run tol ss = .ok p) (s : MeshStmt) (hq : p.step tol s = .ok q)
    (i : Nat) (o : MeshObj) (hi : p.vars[i]? = some o) (hs : s.target ≠ some i) :
    ∃ m, o.view p.heap = .ok m ∧ q.vars[i]? = some o ∧ o.view q.heap = .ok m := by
  have key : ∀ (ss : List MeshStmt), (∀ i, MeshStmt.copy i ∉ ss) → ∀ (p0 p : MeshProg), p0.WF →
      p0.vars.Pairwise (fun a b => a.edges ≠ b.edges) → p0.run tol ss = .ok p →
      p.vars.Pairwise (fun a b => a.edges ≠ b.edges) := by
    intro ss
    induction ss with
    | nil => intro _ p0 p _ hd h; obtain rfl := Outcome.ok.inj h; exact hd
    | cons s ss ih =>
      intro hc p0 p hw hd h
      unfold MeshProg.run at h
      cases h1 : p0.step tol s with
      | exn => rw [h1] at h; cases h
      | ub => rw [h1] at h; cases h
      | ok p1 =>
        rw [h1, Outcome.bind_ok] at h
        refine ih (fun i hi => hc i (by simp [hi])) p1 p (step_cases hw h1).1 ?_ h
        cases s with
        | copy k => exact absurd (by simp) (hc k)
        | new =>
          obtain rfl := Outcome.ok.inj (h1 : Outcome.ok _ = _)
          refine List.pairwise_append.2 ⟨hd, by simp, ?_⟩
          intro a ha b hb
          simp only [List.mem_singleton] at hb; subst hb
          have := (hw a ha).1
          simp only; omega
        | read k text start =>
          unfold MeshProg.step at h1
          simp only at h1
          split at h1
          · rename_i o0 h0
            cases h2 : o0.view p0.heap with
            | exn => rw [h2] at h1; cases h1
            | ub => rw [h2] at h1; cases h1
            | ok m0 =>
            rw [h2, Outcome.bind_ok] at h1
            cases h3 : createFromFile tol (some text) start m0 with
            | exn => rw [h3] at h1; cases h1
            | ub => rw [h3] at h1; cases h1
            | ok m1 =>
            rw [h3, Outcome.bind_ok] at h1
            obtain rfl := Outcome.ok.inj h1
            simp only
            have hkl := List.getElem?_eq_some_iff.1 h0
            refine List.pairwise_iff_getElem.2 ?_
            intro a b ha hb hab
            have hd' := List.pairwise_iff_getElem.1 hd a b (by simpa using ha) (by simpa using hb) hab
            have fa : ∀ (c : Nat) (hcl : c < (p0.vars.set k
                { o0 with points := m1.points, polygons := m1.polygons }).length),
                ((p0.vars.set k { o0 with points := m1.points, polygons := m1.polygons })[c]).edges =
                (p0.vars[c]'(by simpa using hcl)).edges := by
              intro c hcl
              rw [List.getElem_set]
              split
              · rename_i e; subst e
                rw [hkl.2]
              · rfl
            rw [fa a ha, fa b hb]
            exact hd'
          · cases h1
  obtain ⟨m, m', h1, h2, h3, h4, h5, h6, h7⟩ := C86_step_partial tol ss p q hp s hq i o hi hs
  have hd := key ss hc _ p (by intro o ho; cases ho) (by exact List.Pairwise.nil) hp
  have : m' = m := by
    apply h7
    intro j o' ht hj
    have hji : j ≠ i := fun e => hs (by rw [ht, e])
    obtain ⟨lj, ej⟩ := List.getElem?_eq_some_iff.1 hj
    obtain ⟨li, ei⟩ := List.getElem?_eq_some_iff.1 hi
    rcases Nat.lt_or_gt_of_ne hji with hlt | hlt
    · have := List.pairwise_iff_getElem.1 hd j i lj li hlt
      rw [ej, ei] at this; exact this
    · have := List.pairwise_iff_getElem.1 hd i j li lj hlt
      rw [ej, ei] at this; exact this.symm
  rw [this] at h3
  exact ⟨m, h1, h2, h3⟩

/-- Two meshes declared separately, each read from a file; then the second is read again. -/
example : ∃ p q, MeshProg.start.run (1/100000) [.new, .read 0 fileA 0, .new, .read 1 fileA 0] = .ok p ∧
    p.step (1/100000) (.read 1 fileB 0) = .ok q ∧ p.vars.length = 2 := by
  have key : (match MeshProg.start.run (1/100000) [.new, .read 0 fileA 0, .new, .read 1 fileA 0] with
    | .ok p => (match p.step (1/100000) (.read 1 fileB 0) with
      | .ok q => decide (p.vars.length = 2)
      | _ => false)
    | _ => false) = true := by decide +kernel
  split at key
  · rename_i p hp
    split at key
    · rename_i q hq
      exact ⟨p, q, hp, hq, of_decide_eq_true key⟩
    · cases key
  · cases key

/-- C86, the part that holds: a new mesh is empty, and the other variables are kept. -/
theorem C86_new (tol : ℚ) (p : MeshProg) : ∃ q o, p.step tol .new = .ok q ∧ q.vars = p.vars ++ [o] ∧
    o.view q.heap = .ok ⟨UList.empty, [], SegMap.empty, PtMap.empty⟩ :=
  ⟨_, _, rfl, rfl, view_intro (by simp) (by simp)⟩

/-- C86, the part that holds: a copy shows the same points, polygons and maps as the original. -/
theorem C86_copy (tol : ℚ) (p : MeshProg) (i : Nat) (o : MeshObj) (hi : p.vars[i]? = some o) :
    ∃ q o', p.step tol (.copy i) = .ok q ∧ q.heap = p.heap ∧ q.vars = p.vars ++ [o'] ∧ o'.view q.heap = o.view p.heap := by
  simp only [MeshProg.step, hi]
  exact ⟨_, _, rfl, rfl, rfl, rfl⟩

/-- C86, the part that holds: after a file has been read into a mesh, the mesh shows what was read. -/
theorem C86_read (tol : ℚ) (p : MeshProg) (i : Nat) (o : MeshObj) (hi : p.vars[i]? = some o) (text : List Char) (start : Int)
    {m m' : Mesh ℚ (Poly ℚ)} (hm : o.view p.heap = .ok m) (hr : createFromFile tol (some text) start m = .ok m') :
    ∃ q o', p.step tol (.read i text start) = .ok q ∧ q.vars = p.vars.set i o' ∧ q.vars[i]? = some o' ∧ o'.view q.heap = .ok m' := by
  have hlt : i < p.vars.length := (List.getElem?_eq_some_iff.1 hi).1
  have hw : o.edges < p.heap.segs.length ∧ o.pointMap < p.heap.pms.length := by
    unfold MeshObj.view at hm
    split at hm
    · rename_i e1 e2
      exact ⟨(List.getElem?_eq_some_iff.1 e1).1, (List.getElem?_eq_some_iff.1 e2).1⟩
    · cases hm
  simp only [MeshProg.step, hi, hm, hr, Outcome.bind_ok, Outcome.pure_eq]
  refine ⟨_, _, rfl, rfl, ?_, ?_⟩
  · simp [hlt]
  · exact view_intro (by simp [hw.1]) (by simp [hw.2])

/-- The hypotheses hold after a mesh was read from a file and copied. -/
example : (match MeshProg.start.run (1/100000) copyProg with
    | .ok p => (match p.vars[0]? with
      | some o => (match o.view p.heap with
        | .ok m => (match createFromFile (1/100000) (some fileB) 0 m with
          | .ok m' => decide (m.points.list.length = 3 ∧ m ≠ m')
          | _ => false)
        | _ => false)
      | none => false)
    | _ => false) = true := by decide +kernel

end Delynoi
