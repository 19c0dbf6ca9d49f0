import Verif.Proofs.TriInsert7
import Verif.Proofs.TriFixup2
/-!
# The loop around the new vertex keeps a constrained Delaunay triangulation

Every spoke, from the new vertex to `a`, has a circle through `a` with the new vertex inside and the
neighbours of `a` in the star outside; it is the circle of an old triangle.
-/
set_option linter.unusedSectionVars false
namespace Delynoi.Tri
variable {K : Type} [Field K] [LinearOrder K] [IsStrictOrderedRing K]

section
variable {a b c d e p o q s : Pt K}

theorem fan_out (h1 : sqDist q a = sqDist q b) (h2 : sqDist q a = sqDist q d) (hb : sqDist o a ≤ sqDist o b)
    (hp : sqDist o p - sqDist o a ≤ sqDist q p - sqDist q a) (t1 : 0 < turn p a b) (t2 : 0 < turn d b a) (v : 0 < turn p a d) :
    sqDist o a ≤ sqDist o d := by
  have key : ((sqDist q b - sqDist q a) - (sqDist o b - sqDist o a)) * turn p a d =
      ((sqDist q p - sqDist q a) - (sqDist o p - sqDist o a)) * turn d b a + ((sqDist q d - sqDist q a) - (sqDist o d - sqDist o a)) * turn p a b := by
    simp only [sqDist, turn]; ring
  have k1 : ((sqDist q b - sqDist q a) - (sqDist o b - sqDist o a)) * turn p a d ≤ 0 := mul_nonpos_of_nonpos_of_nonneg (by linarith) v.le
  have k2 : 0 ≤ ((sqDist q p - sqDist q a) - (sqDist o p - sqDist o a)) * turn d b a := mul_nonneg (by linarith) t2.le
  have k3 : ((sqDist q d - sqDist q a) - (sqDist o d - sqDist o a)) * turn p a b ≤ 0 := by linarith
  have := nonpos_of_mul_nonpos_left k3 t1
  linarith

theorem fan_out' (h1 : sqDist q b = sqDist q a) (h2 : sqDist q b = sqDist q d) (hb : sqDist o b ≤ sqDist o a)
    (hp : sqDist o p - sqDist o b ≤ sqDist q p - sqDist q b) (t1 : 0 < turn p a b) (t2 : 0 < turn d b a) (v : 0 < turn p d b) :
    sqDist o b ≤ sqDist o d := by
  have key : ((sqDist q a - sqDist q b) - (sqDist o a - sqDist o b)) * turn p d b =
      ((sqDist q p - sqDist q b) - (sqDist o p - sqDist o b)) * turn d b a + ((sqDist q d - sqDist q b) - (sqDist o d - sqDist o b)) * turn p a b := by
    simp only [sqDist, turn]; ring
  have k1 : ((sqDist q a - sqDist q b) - (sqDist o a - sqDist o b)) * turn p d b ≤ 0 := mul_nonpos_of_nonpos_of_nonneg (by linarith) v.le
  have k2 : 0 ≤ ((sqDist q p - sqDist q b) - (sqDist o p - sqDist o b)) * turn d b a := mul_nonneg (by linarith) t2.le
  have k3 : ((sqDist q d - sqDist q b) - (sqDist o d - sqDist o b)) * turn p a b ≤ 0 := by linarith
  have := nonpos_of_mul_nonpos_left k3 t1
  linarith

theorem fan_next (h0 : sqDist o a = sqDist o d) (h1 : sqDist q a = sqDist q d) (h2 : sqDist q a = sqDist q e)
    (he : sqDist o a ≤ sqDist o e) (t1 : 0 < turn e d a) (t2 : 0 < turn p a d) :
    sqDist o p - sqDist o a ≤ sqDist q p - sqDist q a := by
  have key : ((sqDist q p - sqDist q a) - (sqDist o p - sqDist o a)) * turn e d a =
      - ((sqDist q e - sqDist q a) - (sqDist o e - sqDist o a)) * turn p a d := by
    simp only [sqDist, turn] at *
    linear_combination ((e.x - a.x) * (p.y - a.y) - (e.y - a.y) * (p.x - a.x)) * (h0 - h1)
  have k : 0 ≤ - ((sqDist q e - sqDist q a) - (sqDist o e - sqDist o a)) * turn p a d := mul_nonneg (by linarith) t2.le
  rw [← key] at k
  have := (mul_nonneg_iff_of_pos_right t1).1 k
  linarith

theorem spoke_delaunay (h1 : sqDist o a = sqDist o p) (h2 : sqDist o a = sqDist o b) (s1 : sqDist s p ≤ sqDist s a) (s2 : sqDist s a ≤ sqDist s b)
    (s3 : sqDist s a ≤ sqDist s c) (t1 : 0 < turn p a b) (t2 : 0 < turn p c a) : sqDist o a ≤ sqDist o c := by
  rcases lt_or_ge 0 (turn a b c) with h | h
  · have key : ((sqDist o p - sqDist o a) - (sqDist s p - sqDist s a)) * turn a b c =
        ((sqDist o b - sqDist o a) - (sqDist s b - sqDist s a)) * turn p c a + ((sqDist o c - sqDist o a) - (sqDist s c - sqDist s a)) * turn p a b := by
      simp only [sqDist, turn]; ring
    have k1 : 0 ≤ ((sqDist o p - sqDist o a) - (sqDist s p - sqDist s a)) * turn a b c := mul_nonneg (by linarith) h.le
    have k2 : ((sqDist o b - sqDist o a) - (sqDist s b - sqDist s a)) * turn p c a ≤ 0 := mul_nonpos_of_nonpos_of_nonneg (by linarith) t2.le
    have k3 : 0 ≤ ((sqDist o c - sqDist o a) - (sqDist s c - sqDist s a)) * turn p a b := by linarith
    have := (mul_nonneg_iff_of_pos_right t1).1 k3
    linarith
  · have key : (sqDist a c - (sqDist o c - sqDist o a)) * turn p a b =
        (sqDist a p - (sqDist o p - sqDist o a)) * turn a b c - (sqDist a b - (sqDist o b - sqDist o a)) * turn p c a := by
      simp only [sqDist, turn]; ring
    have n1 := sqDist_nonneg' a p
    have n2 := sqDist_nonneg' a b
    have n3 := sqDist_nonneg' a c
    have k1 : (sqDist a p - (sqDist o p - sqDist o a)) * turn a b c ≤ 0 := mul_nonpos_of_nonneg_of_nonpos (by linarith) h
    have k2 : 0 ≤ (sqDist a b - (sqDist o b - sqDist o a)) * turn p c a := mul_nonneg (by linarith) t2.le
    have k3 : (sqDist a c - (sqDist o c - sqDist o a)) * turn p a b ≤ 0 := by linarith
    have := nonpos_of_mul_nonpos_left k3 t1
    linarith

end

/-- No subsegment at the edge from `a` to `b`. -/
def Free (cs : Bool) (m : Heap) (L : Nat → Prop) (a b : Nat) : Prop := cs = true → ∀ y, m.Dir L y a b → (m.sub y).1 = 0

/-- Between triangles without `nv`, edges without a subsegment are locally Delaunay; the spokes have circles. -/
structure Fan (cs : Bool) (m : Heap) (L : Nat → Prop) (pos : Nat → Pt K) (nv : Nat) : Prop where
  old : ∀ y z v a b d, m.Tri3 L y v a b → m.Tri3 L z d b a → v ≠ nv → a ≠ nv → b ≠ nv → d ≠ nv → Free cs m L a b →
    ∀ o, sqDist o (pos a) = sqDist o (pos b) → sqDist o (pos a) = sqDist o (pos v) → sqDist o (pos a) ≤ sqDist o (pos d)
  star : ∃ o o' : Nat → Pt K, (∀ a, Free cs m L nv a → o a = o' a) ∧ ∀ y a b, m.Tri3 L y nv a b →
    (sqDist (o a) (pos nv) ≤ sqDist (o a) (pos a) ∧ sqDist (o' b) (pos nv) ≤ sqDist (o' b) (pos b) ∧
      sqDist (o a) (pos a) ≤ sqDist (o a) (pos b) ∧ sqDist (o' b) (pos b) ≤ sqDist (o' b) (pos a)) ∧
    ∀ z d, m.Tri3 L z d b a → Free cs m L a b → ∀ q, sqDist q (pos a) = sqDist q (pos b) → sqDist q (pos a) = sqDist q (pos d) →
      sqDist (o a) (pos nv) - sqDist (o a) (pos a) ≤ sqDist q (pos nv) - sqDist q (pos a) ∧
      sqDist (o' b) (pos nv) - sqDist (o' b) (pos b) ≤ sqDist q (pos nv) - sqDist q (pos b)

section
variable {m : Heap} {L : Nat → Prop} {pos : Nat → Pt K} {nv : Nat} {e top : Otri} {a b d : Nat}

theorem Free.of_keeps {cs : Bool} {m m' : Heap} {L L' : Nat → Prop} {a b : Nat} (k : cs = true → KeepsSubs m L m' L')
    (hf : Free cs m' L' a b) : Free cs m L a b := by
  intro hc y hy
  by_contra h0
  obtain ⟨z, hz, e⟩ := k hc y a b hy h0
  exact h0 (by rw [← e]; exact hf hc z hz)

theorem Fan.flip (cs : Bool) (h : Linked m L) (f : Flat m L pos) (g : cs = true → Segmented m L) (q : QuadAt m L e top a b nv d)
    (v1 : 0 < turn (pos d) (pos nv) (pos a)) (v2 : 0 < turn (pos nv) (pos d) (pos b)) (h0 : cs = true → (m.sub e).1 = 0)
    (hin : ∀ o, sqDist o (pos a) = sqDist o (pos b) → sqDist o (pos a) = sqDist o (pos nv) → sqDist o (pos d) < sqDist o (pos a))
    (F : Fan cs m L pos nv) : Fan cs (m.flip cs e) L pos nv := by
  have h' := flip_linked h q cs
  have f' := flip_flat h f q cs v1 v2
  have Te : m.Tri3 L e nv a b := tri3_iff.2 ⟨q.le, q.e0, q.e1, q.e2⟩
  have Tt : m.Tri3 L top d b a := tri3_iff.2 ⟨q.lt, q.t0, q.t1, q.t2⟩
  have te := f.ccw _ _ _ _ Te
  have tt := f.ccw _ _ _ _ Tt
  have w1 : 0 < turn (pos nv) (pos a) (pos d) := by
    rw [show turn (pos nv) (pos a) (pos d) = turn (pos d) (pos nv) (pos a) by simp only [turn]; ring]; exact v1
  have keep : cs = true → KeepsSubs m L (m.flip cs e) L := by
    rintro rfl x v w hx hs
    have z2 := (g rfl).neither e q.le (by rw [q.nbr]; exact q.lt) (h0 rfl)
    rw [q.nbr] at z2
    exact flip_keep h q (g rfl) hx (by rintro rfl; exact hs (h0 rfl)) (by rintro rfl; exact hs z2)
  have free : ∀ {v w}, Free cs (m.flip cs e) L v w → Free cs m L v w := fun hf => Free.of_keeps keep hf
  have hfe : Free cs m L a b := by
    intro hc y hy
    rw [h.once y e a b hy (Tri3.dirs Te).1]
    exact h0 hc
  -- triangles without the vertex are old
  have old : ∀ {y v A B}, (m.flip cs e).Tri3 L y v A B → v ≠ nv → A ≠ nv → B ≠ nv → m.Tri3 L y v A B := by
    intro y v A B hy n1 n2 n3
    rcases flip_tri h q hy with ⟨k, -, -⟩ | ⟨-, -, k⟩ | ⟨-, k, -⟩ | ⟨k, -, -⟩ | ⟨-, k, -⟩ | ⟨k, -, -⟩ | ⟨-, -, k⟩
    exacts [k, absurd k n3, absurd k n2, absurd k n1, absurd k n2, absurd k n1, absurd k n3]
  -- the other side of an edge opposite to the vertex
  have other : ∀ {y z A B D}, (m.flip cs e).Tri3 L y nv A B → (m.flip cs e).Tri3 L z D B A → m.Tri3 L z D B A := by
    intro y z A B D hy hz
    have n := f'.distinct hy
    refine old hz ?_ n.2.2.symm n.1.symm
    rintro rfl
    have c1 := f'.ccw _ _ _ _ hy
    have c2 := f'.ccw _ _ _ _ hz
    have : turn (pos D) (pos B) (pos A) = - turn (pos D) (pos A) (pos B) := by simp only [turn]; ring
    linarith
  obtain ⟨q0, q1, q2⟩ := exists_center (ne_of_gt tt)
  have qab : sqDist q0 (pos a) = sqDist q0 (pos b) := by rw [← q2, q1]
  have qad : sqDist q0 (pos a) = sqDist q0 (pos d) := q2.symm
  have qin : sqDist q0 (pos nv) < sqDist q0 (pos d) := by
    obtain ⟨o, o1, o2⟩ := exists_center (ne_of_gt te)
    have c3 := hin o (by rw [← o1, o2]) o1.symm
    have e1 := power_weights (d := pos nv) q1 q2
    have e2 := power_weights (o := o) (a := pos nv) (b := pos a) (c := pos b) (d := pos d) o1 o2
    have e3 : turn (pos b) (pos a) (pos nv) * sqDist (pos d) (pos nv) + turn (pos a) (pos d) (pos nv) * sqDist (pos b) (pos nv) +
        turn (pos d) (pos b) (pos nv) * sqDist (pos a) (pos nv) =
        turn (pos a) (pos b) (pos d) * sqDist (pos nv) (pos d) + turn (pos b) (pos nv) (pos d) * sqDist (pos a) (pos d) +
        turn (pos nv) (pos a) (pos d) * sqDist (pos b) (pos d) := by
      simp only [turn, sqDist]; ring
    rw [e3, e2] at e1
    have k : 0 < turn (pos nv) (pos a) (pos b) * (sqDist o (pos nv) - sqDist o (pos d)) := mul_pos te (by rw [o1]; linarith)
    rw [e1] at k
    have := (mul_pos_iff_of_pos_left tt).1 k
    linarith
  obtain ⟨o, o', hoo, ho⟩ := F.star
  obtain ⟨⟨e1, e2, e3, e4⟩, e5⟩ := ho e a b Te
  obtain ⟨e6, e7⟩ := e5 top d Tt hfe q0 qab qad
  have n1 : sqDist (o a) (pos a) ≤ sqDist (o a) (pos d) := fan_out qab qad e3 e6 te tt w1
  have n2 : sqDist (o' b) (pos b) ≤ sqDist (o' b) (pos d) := fan_out' qab.symm (by rw [← qab, qad]) e4 e7 te tt v2
  obtain ⟨r1, r2⟩ := Tri3.rot Tt
  refine ⟨?_, fun v => if v = d then q0 else o v, fun v => if v = d then q0 else o' v, ?_, ?_⟩
  · intro y z v A B D hy hz m1 m2 m3 m4 hf
    exact F.old y z v A B D (old hy m1 m2 m3) (old hz m4 m3 m2) m1 m2 m3 m4 (free hf)
  · intro v hv
    by_cases h0 : v = d
    · simp only [h0, if_true]
    · simp only [if_neg h0]; exact hoo v (free hv)
  intro y A B hy
  have nA := f'.distinct hy
  rcases flip_tri h q hy with ⟨k, -, -⟩ | ⟨k, -, -⟩ | ⟨k, -, -⟩ | ⟨-, hA, hB⟩ | ⟨k, -, -⟩ | ⟨-, hA, hB⟩ | ⟨k, -, -⟩
  · have dA : A ≠ d := by rintro rfl; exact q.nodiag ⟨_, Or.inl (Tri3.dirs k).2.1⟩
    have dB : B ≠ d := by rintro rfl; exact q.nodiag ⟨_, Or.inr (Tri3.dirs k).2.2⟩
    simp only [if_neg dA, if_neg dB]
    obtain ⟨k1, k2⟩ := ho y A B k
    exact ⟨k1, fun z D hz hf => k2 z D (other hy hz) (free hf)⟩
  · exact absurd k q.ac.symm
  · exact absurd k q.cd
  · -- the triangle at `a`
    replace hA := hA.symm; replace hB := hB.symm; subst hA hB
    simp only [if_neg q.ad, if_true]
    refine ⟨⟨e1, qin.le, n1, le_of_eq q2⟩, ?_⟩
    intro z D hz hf qq z1 z2
    have hz' := other hy hz
    have mD := f'.distinct hz
    have nD : D ≠ nv := by
      rintro rfl
      have c2 := f'.ccw _ _ _ _ hz
      have : turn (pos D) (pos d) (pos a) = - turn (pos D) (pos a) (pos d) := by simp only [turn]; ring
      linarith
    have ld := F.old _ z b a d D r1 hz' q.bc q.ac q.cd.symm nD (free hf) q0 qad qab
    have k := fan_next (p := pos nv) qad z1 z2 ld (f'.ccw _ _ _ _ hz) w1
    exact ⟨by linarith, by rw [← z1, q2]; exact k⟩
  · exact absurd k q.bc.symm
  · replace hA := hA.symm; replace hB := hB.symm; subst hA hB
    simp only [if_neg q.bd, if_true]
    refine ⟨⟨qin.le, e2, le_of_eq q1, n2⟩, ?_⟩
    intro z D hz hf qq z1 z2
    have hz' := other hy hz
    have nD : D ≠ nv := by
      rintro rfl
      have c2 := f'.ccw _ _ _ _ hz
      have : turn (pos D) (pos b) (pos d) = - turn (pos D) (pos d) (pos b) := by simp only [turn]; ring
      linarith
    have ld := F.old _ z a d b D r2 hz' q.ac q.cd.symm q.bc nD (free hf) q0 q1 q2
    have k := fan_next (p := pos nv) q1 z1 z2 ld (f'.ccw _ _ _ _ hz) v2
    exact ⟨k, by rw [← z1]; rw [q1] at k; linarith⟩
  · exact absurd k q.cd


theorem legalize_fan (cs : Bool) (first : Nat) :
    ∀ (fuel : Nat) (m : Heap) (e : Otri) (right left : Nat), Linked m L → Flat m L pos → (cs = true → Segmented m L) →
      L e.1 → m.corner e = some nv → m.corner (lnext e) = some right → m.corner (lprev e) = some left → Fan cs m L pos nv →
      ∀ m' x, legalize cs pos nv first fuel m e right left = .ok (m', x) → Fan cs m' L pos nv := by
  intro fuel
  induction fuel with
  | zero => intro m e right left _ _ _ _ _ _ _ _ m' x hr; simp [legalize] at hr
  | succ fuel ih =>
    intro m e right left h f g le he hr hl F m' x hres
    have T : m.Tri3 L e nv right left := tri3_iff.2 ⟨le, he, hr, hl⟩
    have ct := f.ccw _ _ _ _ T
    have next : (let horiz := lnext e
         let testtri := m.sym horiz
         if left = first ∨ testtri.1 = 0 then (.ok (m, lnext horiz) : Outcome (Heap × Otri))
         else
          let horiz := lnext testtri
          match m.dest horiz with
          | some l => legalize cs pos nv first fuel m horiz left l
          | none => .ub) = .ok (m', x) → Fan cs m' L pos nv := by
      intro hn
      by_cases c : left = first ∨ (m.sym (lnext e)).1 = 0
      · rw [if_pos c] at hn
        cases hn; exact F
      · simp only [if_neg c] at hn
        have c2 : (m.nbr (lnext e)).1 ≠ 0 := fun h0 => c (Or.inr h0)
        have hn0 : m.nbr (lnext e) ≠ (0, 0) := fun h0 => c2 (by rw [h0])
        have dn := (Tri3.dirs T).2.2
        obtain ⟨hl', -, v, w, k1, k2⟩ := h.across dn.1 hn0
        obtain ⟨rfl, rfl⟩ : v = left ∧ w = nv := by
          have e1 := k1.2.1.symm.trans dn.2.1
          have e2 := k1.2.2.symm.trans dn.2.2
          cases e1; cases e2; exact ⟨rfl, rfl⟩
        cases hd : m.dest (lnext (m.sym (lnext e))) with
        | none => simp [hd] at hn
        | some l' =>
          simp only [hd] at hn
          exact ih m (lnext (m.nbr (lnext e))) v l' h f g hl' k2.2.1 (by rw [lnext_lnext]; exact k2.2.2) hd F m' x hn
    simp only [legalize] at hres
    by_cases c1 : cs = true ∧ (m.tspivot e).1 ≠ 0
    · rw [if_pos c1] at hres; exact next hres
    rw [if_neg c1] at hres
    by_cases c2 : (m.sym e).1 = 0
    · rw [if_pos c2] at hres; exact next hres
    rw [if_neg c2] at hres
    have hn : m.nbr e ≠ (0, 0) := fun h0 => c2 (by show (m.nbr e).1 = 0; rw [h0])
    obtain ⟨hl', hi, v, w, k1, k2⟩ := h.across le hn
    obtain ⟨rfl, rfl⟩ : v = right ∧ w = left := by
      have e1 := k1.2.1.symm.trans T.2.2.1
      have e2 := k1.2.2.symm.trans T.2.2.2
      cases e1; cases e2; exact ⟨rfl, rfl⟩
    obtain ⟨d, hd⟩ := h.corners (m.nbr e).1 hl' (m.nbr e).2
    have hd : m.corner (m.nbr e) = some d := hd
    have hd' : m.apex (m.sym e) = some d := hd
    simp only [hd'] at hres
    have T2 : m.Tri3 L (m.nbr e) d w v := ⟨hl', hd, k2.2.1, k2.2.2⟩
    have ct2 := f.ccw _ _ _ _ T2
    have ct' : 0 < turn (pos w) (pos nv) (pos v) := by
      rw [show turn (pos w) (pos nv) (pos v) = turn (pos nv) (pos v) (pos w) by simp only [turn]; ring]; exact ct
    by_cases c3 : 0 < incircleDet (pos w) (pos nv) (pos v) (pos d)
    · rw [if_pos c3] at hres
      have inC : ∀ o, sqDist o (pos v) = sqDist o (pos w) → sqDist o (pos v) = sqDist o (pos nv) → sqDist o (pos d) < sqDist o (pos v) := by
        intro o o1 o2
        have c4 := c3
        rw [incircleDet_eq (o := o) (by rw [← o1, o2]) o1.symm] at c4
        have := (mul_pos_iff_of_pos_left ct').1 c4
        linarith
      obtain ⟨o, o1, o2⟩ := exists_center (ne_of_gt ct')
      obtain ⟨v1, v2⟩ := convex_of_inside (o := o) (a := pos v) (b := pos w) (c := pos nv) (d := pos d) o2.symm (by rw [← o2, o1]) ct ct2
        (inC o o2.symm (by rw [← o2, o1]))
      have q := quad_of_convex h f k1 he hn hd v1 v2
      obtain ⟨cc1, cc2, cc3, cc4, cc5, cc6, cc7⟩ := flip_corner h q cs
      have hs0 : cs = true → (m.sub e).1 = 0 := by
        intro hc
        by_contra h0
        exact c1 ⟨hc, h0⟩
      refine ih (m.flip cs e) (lprev e) v d (flip_linked h q cs) (flip_flat h f q cs v1 v2)
        (by rintro rfl; exact flip_segmented h q (g rfl)) le ?_ (by rw [lnext_lprev]; exact cc1) (by rw [lprev_lprev]; exact cc2)
        (F.flip cs h f g q v1 v2 hs0 inC) m' x hres
      exact cc3
    · rw [if_neg c3] at hres
      exact next hres

/-- From the circles of the spokes: all edges are settled. -/
theorem Fan.settled {cs : Bool} (F : Fan cs m L pos nv) (h : Linked m L) (f : Flat m L pos) (g : cs = true → Segmented m L)
    (hs : ∀ y, L y.1 → m.corner y = some nv → Settled cs m L pos y) : ∀ y, L y.1 → Settled cs m L pos y := by
  intro y hy
  by_cases h1 : cs = true ∧ (m.sub y).1 ≠ 0
  · exact Or.inl h1
  by_cases h2 : m.nbr y = (0, 0)
  · exact Or.inr (Or.inl h2)
  have hs0 : cs = true → (m.sub y).1 = 0 := fun hc => by by_contra h0; exact h1 ⟨hc, h0⟩
  obtain ⟨hn, hinv, -⟩ := h.across hy h2
  refine Or.inr (Or.inr ?_)
  intro v a b d T1 T2 o o1 o2
  have c1 := f.ccw _ _ _ _ T1
  have c2 := f.ccw _ _ _ _ T2
  have hs1 : cs = true → (m.sub (m.nbr y)).1 = 0 := fun hc => (g hc).neither y hy hn (hs0 hc)
  obtain ⟨r1, r2⟩ := Tri3.rot T1
  obtain ⟨s1, s2⟩ := Tri3.rot T2
  obtain ⟨o', p1, p2⟩ := exists_center (ne_of_gt c2)
  obtain ⟨oo, oo', hoo, ho⟩ := F.star
  by_cases n1 : v = nv
  · subst n1
    rcases hs y hy T1.2.1 with k | k | k
    exacts [absurd k h1, absurd k h2, k v a b d T1 T2 o o1 o2]
  by_cases n2 : d = nv
  · subst n2
    rcases hs (m.nbr y) hn T2.2.1 with k | k | k
    · exact absurd (hs1 k.1) k.2
    · exact absurd k (fun h0 => h.dummy (by rw [← show (m.nbr (m.nbr y)).1 = 0 by rw [h0], hinv]; exact hy))
    · exact delaunay_symm c1 c2 o1 o2 (by rw [← p1, p2]) p1.symm
        (k d b a v T2 (by rw [hinv]; exact T1) o' (by rw [← p1, p2]) p1.symm)
  by_cases n3 : a = nv
  · subst n3
    have hf : Free cs m L a b := by
      intro hc z hz
      rw [h.once z y a b hz (Tri3.dirs T1).1]
      exact hs0 hc
    obtain ⟨⟨k1, k2, k3, k4⟩, -⟩ := ho _ _ _ r1
    obtain ⟨⟨l1, l2, l3, l4⟩, -⟩ := ho _ _ _ s2
    rw [← hoo b hf] at l2 l4
    rw [o1]
    exact spoke_delaunay (p := pos a) (b := pos v) o1.symm (by rw [← o1, o2]) k1 k3 l4 (f.ccw _ _ _ _ r1) (f.ccw _ _ _ _ s2)
  by_cases n4 : b = nv
  · subst n4
    have hf : Free cs m L b a := by
      intro hc z hz
      rw [h.once z (m.nbr y) b a hz (Tri3.dirs T2).1]
      exact hs1 hc
    obtain ⟨⟨k1, k2, k3, k4⟩, -⟩ := ho _ _ _ r2
    obtain ⟨⟨l1, l2, l3, l4⟩, -⟩ := ho _ _ _ s1
    rw [← hoo a hf] at k2 k4
    refine delaunay_symm c1 c2 o1 o2 (by rw [← p1, p2]) p1.symm ?_
    rw [← p1, p2]
    exact spoke_delaunay (p := pos b) (b := pos d) (by rw [← p2, p1]) p2.symm l1 l3 k4 (f.ccw _ _ _ _ s1) (f.ccw _ _ _ _ r2)
  refine F.old y (m.nbr y) v a b d T1 T2 n1 n3 n4 n2 ?_ o o1 o2
  intro hc z hz
  rw [h.once z y a b hz (Tri3.dirs T1).1]
  exact hs0 hc


theorem Fan.init {cs : Bool} {m1 : Heap} {L1 : Nat → Prop} (h : Linked m L) (f1 : Flat m1 L1 pos) (hall : ∀ y, L y.1 → Settled cs m L pos y)
    (hold : ∀ y v A B, m1.Tri3 L1 y v A B → v ≠ nv → A ≠ nv → B ≠ nv → m.Tri3 L y v A B)
    (hfree : ∀ y v A B, m1.Tri3 L1 y v A B → A ≠ nv → B ≠ nv → Free cs m1 L1 A B → Free cs m L A B)
    (o o' : Nat → Pt K) (hoo : ∀ a, Free cs m1 L1 nv a → o a = o' a)
    (hst : ∀ y a b, m1.Tri3 L1 y nv a b →
      (sqDist (o a) (pos nv) ≤ sqDist (o a) (pos a) ∧ sqDist (o' b) (pos nv) ≤ sqDist (o' b) (pos b) ∧
        sqDist (o a) (pos a) ≤ sqDist (o a) (pos b) ∧ sqDist (o' b) (pos b) ≤ sqDist (o' b) (pos a)) ∧
      ∃ y' v q, m.Tri3 L y' v a b ∧ sqDist q (pos a) = sqDist q (pos b) ∧ sqDist q (pos a) = sqDist q (pos v) ∧
        sqDist (o a) (pos nv) - sqDist (o a) (pos a) ≤ sqDist q (pos nv) - sqDist q (pos a) ∧
        sqDist (o' b) (pos nv) - sqDist (o' b) (pos b) ≤ sqDist q (pos nv) - sqDist q (pos b)) : Fan cs m1 L1 pos nv := by
  have ld : ∀ {y z v a b d}, m.Tri3 L y v a b → m.Tri3 L z d b a → Free cs m L a b → LocallyDelaunay m L pos y ∧ m.nbr y = z := by
    intro y z v a b d T1 T2 hf
    have e1 := h.complete y z a b (Tri3.dirs T1).1 (Tri3.dirs T2).1
    refine ⟨?_, e1⟩
    rcases hall y T1.1 with k | k | k
    · exact absurd (hf k.1 y (Tri3.dirs T1).1) k.2
    · rw [k] at e1; exact absurd T2.1 (by rw [← e1]; exact h.dummy)
    · exact k
  refine ⟨?_, o, o', hoo, ?_⟩
  · intro y z v a b d T1 T2 n1 n2 n3 n4 hf q q1 q2
    have U1 := hold _ _ _ _ T1 n1 n2 n3
    have U2 := hold _ _ _ _ T2 n4 n3 n2
    obtain ⟨k1, k2⟩ := ld U1 U2 (hfree _ _ _ _ T1 n2 n3 hf)
    exact k1 v a b d U1 (by rw [k2]; exact U2) q q1 q2
  · intro y a b T
    obtain ⟨k, y', v, q, U, q1, q2, q3, q4⟩ := hst y a b T
    refine ⟨k, ?_⟩
    intro z d T2 hf p p1 p2
    have n := f1.distinct T
    have c1 := f1.ccw _ _ _ _ T
    have c2 := f1.ccw _ _ _ _ T2
    have nd : d ≠ nv := by
      rintro rfl
      have : turn (pos d) (pos b) (pos a) = - turn (pos d) (pos a) (pos b) := by simp only [turn]; ring
      linarith
    have U2 := hold _ _ _ _ T2 nd n.2.2.symm n.1.symm
    obtain ⟨k1, k2⟩ := ld U U2 (hfree _ _ _ _ T n.1.symm n.2.2.symm hf)
    have := fan_next (p := pos nv) q1 p1 p2 (k1 v a b d U (by rw [k2]; exact U2) q q1 q2) c2 c1
    exact ⟨by linarith, by linarith⟩

theorem insertIn_fan {nl nr b r l : Nat} {cs : Bool} (h : Linked m L) (f : Flat m L pos) (g : cs = true → Segmented m L)
    (s : SplitAt m L e nl nr nv b r l) (p1 : 0 < turn (pos r) (pos l) (pos nv)) (p2 : 0 < turn (pos l) (pos b) (pos nv))
    (p3 : 0 < turn (pos b) (pos r) (pos nv)) (hall : ∀ y, L y.1 → Settled cs m L pos y) :
    Fan cs (m.splitTriangle cs nl nr nv e) (With L nl nr) pos nv := by
  obtain ⟨R1, R2, R3⟩ := s.rots h
  have t1 := f.ccw _ _ _ _ R1
  obtain ⟨v1, v2, v3⟩ := s.nv_ne h
  obtain ⟨q, o1, o2⟩ := exists_center (ne_of_gt t1)
  have hin : sqDist q (pos nv) ≤ sqDist q (pos b) := by
    have := power_weights (d := pos nv) o1 o2
    have := mul_nonneg p1.le (sqDist_nonneg' (pos b) (pos nv))
    have := mul_nonneg p2.le (sqDist_nonneg' (pos r) (pos nv))
    have := mul_nonneg p3.le (sqDist_nonneg' (pos l) (pos nv))
    have : 0 ≤ turn (pos b) (pos r) (pos l) * (sqDist q (pos b) - sqDist q (pos nv)) := by linarith
    have := (mul_nonneg_iff_of_pos_left t1).1 this
    linarith
  refine Fan.init h (splitTriangle_flat h s cs f p1 p2 p3) hall ?_ ?_ (fun _ => q) (fun _ => q) (fun _ _ => rfl) ?_
  · intro y v A B hy n1 n2 n3
    rcases splitTriangle_tri h s cs hy with ⟨k, -⟩ | k
    · exact k
    · rcases k with ⟨-, k, -⟩ | ⟨-, -, -, k⟩ | ⟨-, -, k, -⟩ | ⟨-, k, -⟩ | ⟨-, -, -, k⟩ | ⟨-, -, k, -⟩ | ⟨-, k, -⟩ | ⟨-, -, -, k⟩ | ⟨-, -, k, -⟩ <;>
        contradiction
  · intro y v A B _ _ _ hf
    exact Free.of_keeps (by rintro rfl; exact splitTriangle_keeps h s (g rfl)) hf
  · intro y A B hy
    rcases splitTriangle_tri h s cs hy with ⟨k, -⟩ | k
    · exact absurd (Tri3.dirs k).2.1 (s.fresh _ _).1
    · rcases k with ⟨-, -, rfl, rfl⟩ | ⟨-, k, -⟩ | ⟨-, k, -⟩ | ⟨-, -, rfl, rfl⟩ | ⟨-, k, -⟩ | ⟨-, k, -⟩ | ⟨-, -, rfl, rfl⟩ | ⟨-, k, -⟩ | ⟨-, k, -⟩
      · exact ⟨⟨by linarith, by linarith, by linarith, by linarith⟩, _, _, q, R1, by linarith, by linarith, le_rfl, le_rfl⟩
      · exact absurd k v2
      · exact absurd k v3
      · exact ⟨⟨by linarith, by linarith, by linarith, by linarith⟩, _, _, q, R2, by linarith, by linarith, le_rfl, le_rfl⟩
      · exact absurd k v3
      · exact absurd k v1
      · exact ⟨⟨by linarith, by linarith, by linarith, by linarith⟩, _, _, q, R3, by linarith, by linarith, le_rfl, le_rfl⟩
      · exact absurd k v1
      · exact absurd k v2

end
end Delynoi.Tri
