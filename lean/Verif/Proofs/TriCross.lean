import Verif.Props.TriInsert
import Verif.Spec.TriCross
import Mathlib.Tactic.FieldSimp
/-! # `segmentintersection` -/
set_option linter.unusedSectionVars false
namespace Delynoi.Tri
variable {K : Type} [Field K] [LinearOrder K] [IsStrictOrderedRing K]

theorem frac_eq {D N U r b t u : K} (hD : D ≠ 0) (h : r * D + N * t = b * D + U * u) : r + N / D * t = b + U / D * u := by
  field_simp
  linarith

/-- The crossing point. -/
theorem cross_point {b r l p : Pt K} (h0 : 0 < turn r l b) (h1 : 0 < turn b r p) (h2 : 0 < turn b p l) (h3 : turn r l p < 0) :
    (l.y - r.y) * (p.x - b.x) - (l.x - r.x) * (p.y - b.y) ≠ 0 ∧
    ∀ q : Pt K, q = ⟨r.x + ((p.y - b.y) * (r.x - p.x) - (p.x - b.x) * (r.y - p.y)) / ((l.y - r.y) * (p.x - b.x) - (l.x - r.x) * (p.y - b.y)) * (l.x - r.x),
      r.y + ((p.y - b.y) * (r.x - p.x) - (p.x - b.x) * (r.y - p.y)) / ((l.y - r.y) * (p.x - b.x) - (l.x - r.x) * (p.y - b.y)) * (l.y - r.y)⟩ →
      Amid r l q ∧ Amid b p q := by
  have e1 : (l.y - r.y) * (p.x - b.x) - (l.x - r.x) * (p.y - b.y) = turn r l b - turn r l p := by simp only [turn]; ring
  have e2 : (l.y - r.y) * (p.x - b.x) - (l.x - r.x) * (p.y - b.y) = turn b r p + turn b p l := by simp only [turn]; ring
  have e3 : (p.y - b.y) * (r.x - p.x) - (p.x - b.x) * (r.y - p.y) = turn b r p := by simp only [turn]; ring
  have hd : 0 < (l.y - r.y) * (p.x - b.x) - (l.x - r.x) * (p.y - b.y) := by rw [e2]; linarith
  refine ⟨ne_of_gt hd, ?_⟩
  rintro q rfl
  refine ⟨⟨_, ?_, ?_, rfl, rfl⟩, turn r l b / ((l.y - r.y) * (p.x - b.x) - (l.x - r.x) * (p.y - b.y)), div_pos h0 hd, ?_, ?_, ?_⟩
  · rw [e3]; exact div_pos h1 hd
  · rw [div_lt_one hd, e3, e2]; linarith
  · rw [div_lt_one hd, e1]; linarith
  · refine frac_eq (ne_of_gt hd) ?_
    simp only [turn]
    ring
  · refine frac_eq (ne_of_gt hd) ?_
    simp only [turn]
    ring

variable {m : Heap} {L : Nat → Prop} {pos pos' : Nat → Pt K}

theorem Flat.move (f : Flat m L pos) (e : ∀ v w, m.Adj L v w → pos' v = pos v) : Flat m L pos' := by
  have e' : ∀ {v w}, m.Adj L v w → pos' w = pos w := fun {v w} h => e w v (by obtain ⟨x, h⟩ := h; exact ⟨x, h.symm⟩)
  have a : ∀ {x v a b}, m.Tri3 L x v a b → pos' v = pos v ∧ pos' a = pos a ∧ pos' b = pos b := by
    intro x v a b h
    obtain ⟨d1, d2, d3⟩ := Tri3.dirs h
    exact ⟨e _ _ ⟨_, Or.inl d2⟩, e _ _ ⟨_, Or.inl d1⟩, e _ _ ⟨_, Or.inl d3⟩⟩
  refine ⟨fun x v A B h => ?_, fun x v A B w h hw => ?_, fun v w w' h h' => ?_⟩
  · obtain ⟨a1, a2, a3⟩ := a h
    rw [a1, a2, a3]; exact f.ccw _ _ _ _ h
  · obtain ⟨a1, a2, a3⟩ := a h
    rw [a1, a2, a3, e' hw]; exact f.cone _ _ _ _ _ h hw
  · rw [e _ _ h, e' h, e' h']; exact f.rays _ _ _ h h'

theorem relabel_one {s : Segs} {o : Osub} {v fuel : Nat} (h : (s.slink (ssym o)).1 = 0) (hf : 0 < fuel) :
    s.relabel v fuel o = .ok (s.setsegorg o (some v)) := by
  obtain ⟨n, rfl⟩ : ∃ n, fuel = n + 1 := ⟨fuel - 1, by omega⟩
  unfold Segs.relabel
  exact if_pos h

/-- `finddirection` finds a neighbour of the vertex. -/
theorem finddirection_adj {ts : List Nat} {v u : Nat} {x : Otri} {fuel : Nat} (h : Linked m (· ∈ ts)) (f : Flat m (· ∈ ts) pos)
    (hx : (x.1 ∈ ts) ∧ m.org x = some v) (hu : m.Adj (· ∈ ts) v u) (hin : InsideAt m (· ∈ ts) pos v (pos u)) (hf : 3 * ts.length ≤ fuel) :
    ∃ r y l w, finddirection m pos (pos u) fuel x = .ok (r, y) ∧ m.Tri3 (· ∈ ts) y l v w ∧ ((l = u ∧ pos w ≠ pos u) ∨ (w = u ∧ pos l ≠ pos u)) := by
  have ne : ∀ {a b}, m.Adj (· ∈ ts) a b → pos a ≠ pos b := by
    intro a b hab he
    obtain ⟨y, hy⟩ := hab
    have : ∀ {y a b}, m.Dir (· ∈ ts) y a b → pos a ≠ pos b := by
      intro y a b hy he
      obtain ⟨c, hc⟩ := h.corners y.1 hy.1 y.2
      have T : m.Tri3 (· ∈ ts) y c a b := ⟨hy.1, hc, hy.2.1, hy.2.2⟩
      have := f.ccw _ _ _ _ T
      rw [he] at this
      simp only [turn] at this
      linarith
    rcases hy with hy | hy
    · exact this hy he
    · exact this hy he.symm
  obtain ⟨w0, hw0⟩ := h.corners x.1 hx.1 (x.2 + 2)
  obtain ⟨r, y, e, ht⟩ := C141_found (p := pos u) (x := x) (v := v) (w := w0) h f.ccw hin ⟨hx.1, hx.2, hw0⟩ (ne hu).symm hf
  have sep : ∀ {q}, m.Adj (· ∈ ts) v q → pos q = pos u → q = u := by
    intro q hq he
    refine f.rays v q u hq hu ?_ ?_
    · rw [he]; exact turn_same _ _
    · rw [he]
      have hne := ne hu
      have : (pos u).x - (pos v).x ≠ 0 ∨ (pos u).y - (pos v).y ≠ 0 := by
        by_contra hh
        push Not at hh
        apply hne
        have h1 := sub_eq_zero.1 hh.1
        have h2 := sub_eq_zero.1 hh.2
        cases hv : pos v; cases hu' : pos u
        rw [hv, hu'] at h1 h2
        simp only at h1 h2
        rw [h1, h2]
      rcases this with k | k
      · have := mul_self_pos.2 k
        have := mul_self_nonneg ((pos u).y - (pos v).y)
        linarith
      · have := mul_self_pos.2 k
        have := mul_self_nonneg ((pos u).x - (pos v).x)
        linarith
  have ray : ∀ {q t}, m.Adj (· ∈ ts) v q → 0 < t → pos q = lineAt (pos v) (pos u) t → q = u := by
    intro q t hq h0 he
    have hne := ne hu
    have hu2 : 0 < ((pos u).x - (pos v).x) * ((pos u).x - (pos v).x) + ((pos u).y - (pos v).y) * ((pos u).y - (pos v).y) := by
      have : (pos u).x - (pos v).x ≠ 0 ∨ (pos u).y - (pos v).y ≠ 0 := by
        by_contra hh
        push Not at hh
        apply hne
        have h1 := sub_eq_zero.1 hh.1
        have h2 := sub_eq_zero.1 hh.2
        cases hv : pos v; cases hu' : pos u
        rw [hv, hu'] at h1 h2
        simp only at h1 h2
        rw [h1, h2]
      rcases this with k | k
      · have := mul_self_pos.2 k
        have := mul_self_nonneg ((pos u).y - (pos v).y)
        linarith
      · have := mul_self_pos.2 k
        have := mul_self_nonneg ((pos u).x - (pos v).x)
        linarith
    refine f.rays v q u hq hu ?_ ?_
    · rw [he]; simp only [turn, lineAt]; ring
    · rw [he]
      have : ((lineAt (pos v) (pos u) t).x - (pos v).x) * ((pos u).x - (pos v).x) + ((lineAt (pos v) (pos u) t).y - (pos v).y) * ((pos u).y - (pos v).y) =
        t * (((pos u).x - (pos v).x) * ((pos u).x - (pos v).x) + ((pos u).y - (pos v).y) * ((pos u).y - (pos v).y)) := by
        simp only [lineAt]; ring
      rw [this]
      exact mul_pos h0 hu2
  cases r with
  | within =>
    obtain ⟨l, w, T, t1, t2⟩ := ht
    have T' : m.Tri3 (· ∈ ts) (lnext y) v w l := by
      obtain ⟨t0, t1, t2, t3⟩ := tri3_iff.1 T
      exact tri3_iff.2 ⟨t0, t2, by rw [lnext_lnext]; exact t3, by rw [lprev_lnext]; exact t1⟩
    exact absurd ⟨t1, t2⟩ (f.cone _ _ _ _ _ T' hu)
  | leftCollinear =>
    obtain ⟨l, w, T, t, h0, he⟩ := ht
    obtain ⟨d1, d2, d3⟩ := Tri3.dirs T
    have := ray ⟨_, Or.inr d2⟩ h0 he
    refine ⟨_, _, l, w, e, T, Or.inl ⟨this, fun hh => ?_⟩⟩
    exact (f.distinct T).2.2 (this.trans (sep ⟨_, Or.inl d1⟩ hh).symm)
  | rightCollinear =>
    obtain ⟨l, w, T, t, h0, he⟩ := ht
    obtain ⟨d1, d2, d3⟩ := Tri3.dirs T
    have := ray ⟨_, Or.inl d1⟩ h0 he
    refine ⟨_, _, l, w, e, T, Or.inr ⟨this, fun hh => ?_⟩⟩
    exact (f.distinct T).2.2 ((sep ⟨_, Or.inr d2⟩ hh).trans this.symm)

/-- `segmentintersection` where a segment crosses a subsegment. -/
theorem segmentintersection_spec {ts : List Nat} {s : Segs} {e : Otri} {n1 n2 nv b r l fuel : Nat} {p : Pt K} (M : SegMesh s (· ∈ ts))
    (f : Flat s.mesh (· ∈ ts) pos) (ht : s.mesh.Tri3 (· ∈ ts) e b r l) (hs : (s.mesh.sub e).1 ≠ 0) (hn1 : n1 ∉ ts) (hn2 : n2 ∉ ts)
    (z1 : n1 ≠ 0) (z2 : n2 ≠ 0) (h12 : n1 ≠ n2) (hv : Fresh s.mesh (· ∈ ts) nv) (p1 : 0 < turn (pos b) (pos r) p)
    (p2 : 0 < turn (pos b) p (pos l)) (p3 : turn (pos r) (pos l) p < 0)
    (hk : ∀ o : Osub, o.1 = (s.mesh.sub e).1 → s.slink o = (0, false)) (hf : 3 * (ts.length + 2) ≤ fuel) :
    ∃ s' pos' z L', segmentintersection pos nv n1 n2 fuel s e (s.mesh.sub e) p = .ok (s', pos', z) ∧
      (∀ t, L' t ↔ t ∈ ts ∨ t = n1 ∨ (s.mesh.nbr e ≠ (0, 0) ∧ t = n2)) ∧
      (∀ v, v ≠ nv → pos' v = pos v) ∧ Amid (pos r) (pos l) (pos' nv) ∧ Amid (pos b) p (pos' nv) ∧
      Inserted true s.mesh (· ∈ ts) pos' nv s'.mesh L' z ∧ SegMesh s' L' ∧ SubCut s (· ∈ ts) s' L' (s.mesh.sub e) r l nv ∧
      s'.mesh.Dir L' z nv b ∧ (∀ d, s.mesh.Tri3 (· ∈ ts) (s.mesh.nbr e) d l r → s'.mesh.Adj L' nv d) ∧
      ∀ v w, Lone s'.mesh L' v w ↔
        (Lone s.mesh (· ∈ ts) v w ∧ ¬ (v = r ∧ w = l)) ∨ (s.mesh.nbr e = (0, 0) ∧ ((v = nv ∧ w = l) ∨ (v = r ∧ w = nv))) := by
  obtain ⟨v1, v2, v3⟩ := (splitAt_of f ht hn1 hn2 z1 z2 h12 hv).nv_ne M.linked
  have c0 : 0 < turn (pos r) (pos l) (pos b) := by rw [turn_rotate]; exact f.ccw _ _ _ _ ht
  obtain ⟨hden, hq⟩ := cross_point c0 p1 p2 p3
  obtain ⟨q, hqe⟩ : ∃ q : Pt K, q = ⟨(pos r).x + ((p.y - (pos b).y) * ((pos r).x - p.x) - (p.x - (pos b).x) * ((pos r).y - p.y)) /
      (((pos l).y - (pos r).y) * (p.x - (pos b).x) - ((pos l).x - (pos r).x) * (p.y - (pos b).y)) * ((pos l).x - (pos r).x),
      (pos r).y + ((p.y - (pos b).y) * ((pos r).x - p.x) - (p.x - (pos b).x) * ((pos r).y - p.y)) /
      (((pos l).y - (pos r).y) * (p.x - (pos b).x) - ((pos l).x - (pos r).x) * (p.y - (pos b).y)) * ((pos l).y - (pos r).y)⟩ := ⟨_, rfl⟩
  obtain ⟨m1, m2⟩ := hq q hqe
  set pos' := Function.update pos nv q with hpos'
  have hpn : pos' nv = q := Function.update_self ..
  have hpo : ∀ v, v ≠ nv → pos' v = pos v := fun v hv => Function.update_of_ne hv _ _
  set s0 : Segs := { s with vmark := Function.update s.vmark nv (s.smark (s.mesh.sub e).1) } with hs0
  have M0 : SegMesh s0 (· ∈ ts) := ⟨M.linked, M.segmented, M.proper, M.endpointed.made, M.endpointed.ends⟩
  have f' : Flat s.mesh (· ∈ ts) pos' := f.move fun v w hvw => hpo v (by
    rintro rfl
    obtain ⟨x, h | h⟩ := hvw
    · exact (hv x w).1 h
    · exact (hv x w).2 h)
  obtain ⟨s1, x, L', k1, k2, k3, k4, k5, k6, k7, k8⟩ := C149_subsegment (s := s0) (pos := pos') (fuel := fuel) (nv := nv) M0 f' ht hs hn1 hn2 z1 z2 h12 hv
    (by rw [hpn, hpo r v2.symm, hpo l v3.symm]; exact m1) (ts := ts) (fun _ h => h) (by omega)
  -- the list of triangles
  obtain ⟨ts', hL, hlen⟩ : ∃ ts' : List Nat, L' = (· ∈ ts') ∧ ts'.length ≤ ts.length + 2 := by
    by_cases h0 : s.mesh.nbr e = (0, 0)
    · refine ⟨n1 :: ts, funext fun t => propext ?_, by simp⟩
      rw [k2 t]; simp [s0, h0, or_comm]
    · refine ⟨n1 :: n2 :: ts, funext fun t => propext ?_, by simp⟩
      rw [k2 t]; simp [s0, h0]; tauto
  subst hL
  -- the subsegments
  obtain ⟨zr, r1, r2, r3, r4⟩ := k5.right
  have hA : ∀ o : Osub, o.1 = (s.mesh.sub e).1 → s0.slink o = (0, false) := hk
  have hAA := hA (ssym (s.mesh.sub e)) rfl
  have he1 : (s.mesh.sub e).1 ≤ s.count := M.endpointed.made e ht.1
  obtain ⟨l1, l2, l3, -, l5⟩ := k5.links zr r1 (by rw [hAA]; exact Nat.zero_le _) (by
    rw [hAA]; intro h0; have h2 := congrArg Prod.fst h0; exact hs h2.symm)
  have r2 : (s1.mesh.sub zr).1 = s.count + 1 := r2
  have l3 : s1.slink (ssym (s1.mesh.sub zr)) = (0, false) := l3.trans hAA
  have l5 : ∀ o : Osub, 0 < o.1 → o.1 ≤ s.count → o ≠ ssym (s.mesh.sub e) → s1.slink o = s.slink o := by
    intro o o1 o2 o3
    refine l5 o o2 o3 ?_
    rw [hAA]
    rintro rfl
    exact absurd o1 (by simp)
  have nA : ∀ o : Osub, o ≠ ssym o := by
    intro o h0; have := congrArg Prod.snd h0; simp [ssym] at this
  have ss : ∀ o : Osub, ssym (ssym o) = o := fun o => by simp [ssym]
  set N := s1.mesh.sub zr with hN
  set A := s.mesh.sub e with hAdef
  have AN : ∀ o o' : Osub, o.1 ≤ s.count → o'.1 = s.count + 1 → o ≠ o' := by
    rintro o o' h1 h2 rfl; omega
  have AN1 : ssym A ≠ N := AN _ _ he1 r2
  have AN2 : A ≠ N := AN _ _ he1 r2
  have AN3 : ssym A ≠ ssym N := AN _ _ he1 r2
  have AN4 : A ≠ ssym N := AN _ _ he1 r2
  set s2 := (s1.sdissolve (ssym A)).sdissolve N with hs2
  have sl2 : s2.slink = Function.update (Function.update s1.slink (ssym A) (0, false)) N (0, false) := rfl
  have l6 : s1.slink A = (0, false) := (l5 A (Nat.pos_of_ne_zero hs) he1 (nA A)).trans (hk A rfl)
  have y1 : s2.relabel nv fuel (ssym A) = .ok (s2.setsegorg (ssym A) (some nv)) := by
    refine relabel_one ?_ (by omega)
    rw [ss, sl2, Function.update_of_ne AN2, Function.update_of_ne (nA A), l6]
  set s3 := s2.setsegorg (ssym A) (some nv) with hs3
  have y2 : s3.relabel nv fuel N = .ok (s3.setsegorg N (some nv)) := by
    refine relabel_one ?_ (by omega)
    show (s2.slink (ssym N)).1 = 0
    rw [sl2, Function.update_of_ne (nA N).symm, Function.update_of_ne AN3.symm, l3, hAA]
  set s4 := s3.setsegorg N (some nv) with hs4
  have s4m : s4.mesh = s1.mesh := rfl
  -- the direction
  have hin : InsideAt s1.mesh (· ∈ ts') pos' nv (pos' b) := by
    intro y a c hy h0 hac
    have hl : Lone s1.mesh (· ∈ ts') a c := ⟨⟨y, hy⟩, fun y' hy' => by
      have := k3.linked.complete _ _ _ _ hy hy'
      rw [h0] at this
      rw [← this] at hy'
      exact k3.linked.dummy hy'.1⟩
    have sub1 : 0 < turn (pos r) (pos l) (pos b) := c0
    obtain ⟨t, t0, t1, tx, ty⟩ := m1
    rcases (k8 a c).1 hl with ⟨⟨⟨y', hy'⟩, -⟩, -⟩ | ⟨-, ⟨rfl, rfl⟩ | ⟨rfl, rfl⟩⟩
    · rcases hac with rfl | rfl
      · exact absurd hy' (hv _ _).1
      · exact absurd hy' (hv _ _).2
    · rw [hpn, hpo _ v3.symm, hpo _ v1.symm]
      have : turn q (pos c) (pos b) = (1 - t) * turn (pos r) (pos c) (pos b) := by
        simp only [turn]; rw [tx, ty]; ring
      rw [this]
      exact mul_nonneg (by linarith) sub1.le
    · rw [hpn, hpo _ v2.symm, hpo _ v1.symm]
      have : turn (pos a) q (pos b) = t * turn (pos a) (pos l) (pos b) := by
        simp only [turn]; rw [tx, ty]; ring
      rw [this]
      exact mul_nonneg t0.le sub1.le
  obtain ⟨rr, y, u, w, e1, T, hcase⟩ := finddirection_adj (fuel := fuel) k3.linked k3.flat k3.found k6 hin (by omega)
  rw [hpo b v1.symm] at e1 hcase
  obtain ⟨d1, d2, d3⟩ := Tri3.dirs T
  have eA : s.mesh.apex e = some b := ht.2.1
  have eO : s.mesh.org e = some r := (Tri3.dirs ht).1.2.1
  have eD : s.mesh.dest e = some l := (Tri3.dirs ht).1.2.2
  have yD : s1.mesh.dest y = some w := d1.2.2
  have yA : s1.mesh.apex y = some u := T.2.1
  have run : ∀ z, (if (pos' u).x = (pos b).x ∧ (pos' u).y = (pos b).y then (.ok (s4, pos', s1.mesh.onext y) : Outcome (Segs × (Nat → Pt K) × Otri))
      else if (pos' w).x ≠ (pos b).x ∨ (pos' w).y ≠ (pos b).y then .exn else .ok (s4, pos', y)) = .ok (s4, pos', z) →
      segmentintersection pos nv n1 n2 fuel s e A p = .ok (s4, pos', z) := by
    intro z hz
    unfold segmentintersection
    simp only [eA, eO, eD, deref, Outcome.bind_ok]
    rw [if_neg hden, ← hqe, ← hpos', ← hs0, k1]
    simp only [Outcome.bind_ok]
    rw [show s1.spivot (ssym A) = N from l1, ← hs2, y1]
    simp only [Outcome.bind_ok]
    rw [y2]
    simp only [Outcome.bind_ok, s4m, e1, yD, yA]
    exact hz
  have ptne : ∀ {a c : Pt K}, a ≠ c → ¬ (a.x = c.x ∧ a.y = c.y) := by
    rintro ⟨a1, a2⟩ ⟨c1, c2⟩ hne ⟨h1, h2⟩
    simp only at h1 h2
    exact hne (by rw [h1, h2])
  obtain ⟨z, hz, hzd⟩ : ∃ z, segmentintersection pos nv n1 n2 fuel s e A p = .ok (s4, pos', z) ∧ s1.mesh.Dir (· ∈ ts') z nv b := by
    rcases hcase with ⟨rfl, -⟩ | ⟨rfl, hne⟩
    · refine ⟨_, run _ (if_pos (by rw [hpo _ v1.symm]; exact ⟨rfl, rfl⟩)), ?_⟩
      have h0 : s1.mesh.nbr (lprev y) ≠ (0, 0) := by
        intro h0
        have hl : Lone s1.mesh (· ∈ ts') u nv := ⟨⟨_, d2⟩, fun y' hy' => by
          have := k3.linked.complete _ _ _ _ d2 hy'
          rw [h0] at this
          rw [← this] at hy'
          exact k3.linked.dummy hy'.1⟩
        rcases (k8 _ _).1 hl with ⟨⟨⟨y', hy'⟩, -⟩, -⟩ | ⟨-, ⟨hh, -⟩ | ⟨hh, -⟩⟩
        · exact (hv _ _).2 hy'
        · exact v1 hh.symm
        · exact (f.distinct ht).1 hh
      obtain ⟨-, -, v', w', j1, j2⟩ := k3.linked.across (x := lprev y) d2.1 h0
      obtain ⟨rfl, rfl⟩ := d2.uniq j1
      exact j2
    · refine ⟨_, run y ?_, d1⟩
      rw [if_neg (ptne hne), if_neg]
      rw [hpo _ v1.symm]; simp
  refine ⟨s4, pos', z, _, hz, k2, hpo, by rw [hpn]; exact m1, by rw [hpn]; exact m2, ⟨k3.linked, k3.flat, ⟨hzd.1, hzd.2.1⟩, k3.settled, k3.tri, k3.adj, k3.verts⟩,
    ⟨k4.linked, k4.segmented, k4.proper, k4.endpointed.made, k4.endpointed.ends⟩, ?_, hzd, k7, k8⟩
  have sg : s4.segend = Function.update (Function.update s1.segend (ssym A) (some nv)) N (some nv) := rfl
  refine ⟨k5.kept, k5.left, ⟨?_, ?_⟩, ⟨zr, r1, r2, ?_, ?_⟩, k5.only, k5.count, k5.mark, k5.smark, ?_, ?_, ?_, ?_⟩
  · show s4.segend A = s.segend A
    rw [sg, Function.update_of_ne AN2, Function.update_of_ne (nA A)]
    exact k5.segend A he1
  · show s4.segend (ssym A) = some nv
    rw [sg, Function.update_of_ne AN1, Function.update_self]
  · show s4.segend N = some nv
    rw [sg, Function.update_self]
  · show s4.segend (ssym N) = s.segend (ssym A)
    rw [sg, Function.update_of_ne (nA N).symm, Function.update_of_ne AN3.symm]
    exact r4
  · intro o ho hne
    rw [sg, Function.update_of_ne (AN _ _ ho r2), Function.update_of_ne (by rintro rfl; exact hne rfl)]
    exact k5.segend o ho
  · intro u
    have : s4.vmark u = _ := k5.vmark u
    rw [this]
    show (if (u = r ∨ u = nv) ∧ Function.update s.vmark nv (s.smark A.1) u = 0 then s.smark A.1 else Function.update s.vmark nv (s.smark A.1) u) = _
    by_cases hu : u = nv
    · subst hu; simp
    · simp [Function.update_of_ne hu, hu]
  · intro o h0 ho
    show s2.slink o = _
    rw [sl2, Function.update_of_ne (AN _ _ ho r2)]
    by_cases hh : o = ssym A
    · rw [hh, Function.update_self]; exact (hk (ssym A) rfl).symm
    · rw [Function.update_of_ne hh]; exact l5 o h0 ho hh
  · intro o ho
    show s2.slink o = _
    rw [sl2]
    by_cases hh : o = N
    · rw [hh, Function.update_self]
    · have : o = ssym N := by
        rcases o with ⟨o1, o2⟩
        refine Prod.ext (ho.trans r2.symm) ?_
        have : o2 ≠ N.2 := fun h => hh (Prod.ext (ho.trans r2.symm) h)
        show o2 = !N.2
        revert this
        generalize N.2 = c
        cases o2 <;> cases c <;> simp
      rw [this, Function.update_of_ne (nA N).symm, Function.update_of_ne AN3.symm, l3, hAA]

end Delynoi.Tri
