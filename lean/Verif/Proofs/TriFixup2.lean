import Verif.Proofs.TriFixup
import Verif.Proofs.TriSegment4
/-! # `constrainededge` across one edge -/
set_option linter.unusedSectionVars false
namespace Delynoi.Tri
variable {K : Type} [Field K] [LinearOrder K] [IsStrictOrderedRing K] {m : Heap} {L : Nat → Prop} {pos : Nat → Pt K}

theorem Settled.locally {x z : Otri} {v d a b : Nat} (h : Linked m L) (hs : Settled true m L pos x) (h0 : (m.sub x).1 = 0)
    (T1 : m.Tri3 L x v a b) (T2 : m.Tri3 L z d b a) (o : Pt K) (o1 : sqDist o (pos a) = sqDist o (pos b))
    (o2 : sqDist o (pos a) = sqDist o (pos v)) : sqDist o (pos a) ≤ sqDist o (pos d) := by
  have hz : m.nbr x = z := h.complete _ _ _ _ (Tri3.dirs T1).1 (Tri3.dirs T2).1
  rcases hs with ⟨-, hs⟩ | hs | hs
  · exact absurd h0 hs
  · rw [hz] at hs; rw [hs] at T2; exact absurd T2.1 h.dummy
  · exact hs v a b d T1 (by rw [hz]; exact T2) o o1 o2

/-- The other corner is inside no circle: a side of the quadrilateral stays settled. -/
theorem side_settled {x z : Otri} {u p w a b : Nat} (h : Linked m L) (hs : Settled true m L pos x) (h0 : (m.sub x).1 = 0)
    (T1 : m.Tri3 L x u a b) (T2 : m.Tri3 L z w b a) (cu : 0 < turn (pos u) (pos a) (pos b)) (cp : 0 < turn (pos p) (pos a) (pos b))
    (cw : 0 < turn (pos w) (pos b) (pos a))
    (hp : ∀ o, sqDist o (pos a) = sqDist o (pos b) → sqDist o (pos a) = sqDist o (pos u) → sqDist o (pos a) ≤ sqDist o (pos p)) (o : Pt K)
    (o1 : sqDist o (pos a) = sqDist o (pos b)) (o2 : sqDist o (pos a) = sqDist o (pos p)) : sqDist o (pos a) ≤ sqDist o (pos w) := by
  obtain ⟨o', p1, p2⟩ := exists_center (ne_of_gt cu)
  have q1 : sqDist o' (pos a) = sqDist o' (pos b) := by rw [← p1, p2]
  exact chord_delaunay o1 o2 q1 (hp o' q1 p1.symm) (hs.locally h h0 T1 T2 o' q1 p1.symm) cp cw

theorem Tri3.rot {x : Otri} {v a b : Nat} (T : m.Tri3 L x v a b) : m.Tri3 L (lnext x) a b v ∧ m.Tri3 L (lprev x) b v a := by
  rw [tri3_iff] at T
  refine ⟨tri3_iff.2 ⟨T.1, T.2.2.1, by rw [lnext_lnext]; exact T.2.2.2, by rw [lprev_lnext]; exact T.2.1⟩,
    tri3_iff.2 ⟨T.1, T.2.2.2, by rw [lnext_lprev]; exact T.2.1, by rw [lprev_lprev]; exact T.2.2.1⟩⟩

variable {e top : Otri} {a b c d : Nat}

theorem flip_all_settled (h : Linked m L) (f : Flat m L pos) (g : Segmented m L) (q : QuadAt m L e top a b c d)
    (v1 : 0 < turn (pos d) (pos c) (pos a)) (v2 : 0 < turn (pos c) (pos d) (pos b)) (hall : ∀ y, L y.1 → Settled true m L pos y)
    (h0 : (m.sub e).1 = 0) {y : Otri} (hy : L y.1) (hye : y ≠ e) (hyt : y ≠ top) : Settled true (m.flip true e) L pos y := by
  have h' := flip_linked h q true
  have f' := flip_flat h f q true v1 v2
  have g' := flip_segmented h q g
  have ht0 : (m.sub top).1 = 0 := by rw [← q.nbr]; exact g.neither _ q.le (by rw [q.nbr]; exact q.lt) h0
  have TE : m.Tri3 L e c a b := tri3_iff.2 ⟨q.le, q.e0, q.e1, q.e2⟩
  have TT : m.Tri3 L top d b a := tri3_iff.2 ⟨q.lt, q.t0, q.t1, q.t2⟩
  obtain ⟨TE1, TE2⟩ := Tri3.rot TE
  obtain ⟨TT1, TT2⟩ := Tri3.rot TT
  have P1 : ∀ o, sqDist o (pos a) = sqDist o (pos b) → sqDist o (pos a) = sqDist o (pos c) → sqDist o (pos a) ≤ sqDist o (pos d) :=
    (hall e q.le).locally h h0 TE TT
  have P2 : ∀ o, sqDist o (pos b) = sqDist o (pos a) → sqDist o (pos b) = sqDist o (pos d) → sqDist o (pos b) ≤ sqDist o (pos c) :=
    (hall top q.lt).locally h ht0 TT TE
  by_cases hs : ((m.flip true e).sub y).1 ≠ 0
  · exact Or.inl ⟨rfl, hs⟩
  by_cases hn : (m.flip true e).nbr y = (0, 0)
  · exact Or.inr (Or.inl hn)
  refine Or.inr (Or.inr ?_)
  have hs : ((m.flip true e).sub y).1 = 0 := not_not.1 hs
  intro v A B w t1 t2 o o1 o2
  have ln := (h'.across hy hn).1
  have hs2 : ((m.flip true e).sub ((m.flip true e).nbr y)).1 = 0 := g'.neither _ hy ln hs
  have hAB := (Tri3.dirs t1).1
  have hBA := (Tri3.dirs t2).1
  have hnd1 : ¬ (A = d ∧ B = c) := by
    rintro ⟨rfl, rfl⟩
    exact hye (h'.once _ _ _ _ hAB ((flip_dir h q true).2 (Or.inl ⟨rfl, rfl, rfl⟩)))
  have hnd2 : ¬ (A = c ∧ B = d) := by
    rintro ⟨rfl, rfl⟩
    exact hyt (h'.once _ _ _ _ hAB ((flip_dir h q true).2 (Or.inr (Or.inl ⟨rfl, rfl, rfl⟩))))
  -- subsegments of edges in the old mesh
  have S : ∀ z v' w', (m.flip true e).Dir L z v' w' → ((m.flip true e).sub z).1 = 0 → ¬ (v' = d ∧ w' = c) → ¬ (v' = c ∧ w' = d) →
      ∀ x, m.Dir L x v' w' → (m.sub x).1 = 0 := by
    intro z v' w' hz hs n1 n2 x hx
    by_contra hh
    obtain ⟨z', k1, k2⟩ := flip_keep h q g hx (by rintro rfl; exact hh h0) (by rintro rfl; exact hh ht0)
    rw [← h'.once _ _ _ _ hz k1] at k2
    rw [k2] at hs
    exact hh hs
  -- the new triangle has the side `A B`, the old one beyond it is `w B A`
  have N : ∀ (z z' : Otri) v A B w, (m.flip true e).Tri3 L z v A B → m.Tri3 L z' w B A → ((m.flip true e).sub z).1 = 0 →
      ¬ (A = d ∧ B = c) → ¬ (A = c ∧ B = d) →
      (v = d ∧ A = c ∧ B = a) ∨ (v = c ∧ A = a ∧ B = d) ∨ (v = c ∧ A = d ∧ B = b) ∨ (v = d ∧ A = b ∧ B = c) →
      ∀ o, sqDist o (pos A) = sqDist o (pos B) → sqDist o (pos A) = sqDist o (pos v) → sqDist o (pos A) ≤ sqDist o (pos w) := by
    intro z z' v A B w T T' hs n1 n2 hc
    have cv := f'.ccw _ _ _ _ T
    have cw := f.ccw _ _ _ _ T'
    have hd := (Tri3.dirs T).1
    have fin : ∀ x u, m.Tri3 L x u A B → (∀ o, sqDist o (pos A) = sqDist o (pos B) → sqDist o (pos A) = sqDist o (pos u) →
        sqDist o (pos A) ≤ sqDist o (pos v)) →
        ∀ o, sqDist o (pos A) = sqDist o (pos B) → sqDist o (pos A) = sqDist o (pos v) → sqDist o (pos A) ≤ sqDist o (pos w) := by
      intro x u Tx hp
      exact side_settled h (hall x Tx.1) (S z A B hd hs n1 n2 x (Tri3.dirs Tx).1) Tx T' (f.ccw _ _ _ _ Tx) cv cw hp
    rcases hc with ⟨rfl, rfl, rfl⟩ | ⟨rfl, rfl, rfl⟩ | ⟨rfl, rfl, rfl⟩ | ⟨rfl, rfl, rfl⟩
    · exact fin _ _ TE2 (fun o p1 p2 => by
        have := P1 o (by rw [← p1, p2]) p1.symm
        rw [← p1] at this; exact this)
    · exact fin _ _ TT1 (fun o p1 p2 => by
        have := P2 o p2.symm (by rw [← p2, p1])
        rw [← p2] at this; exact this)
    · exact fin _ _ TT2 (fun o p1 p2 => by
        have := P2 o (by rw [← p1, p2]) p1.symm
        rw [← p1] at this; exact this)
    · exact fin _ _ TE1 (fun o p1 p2 => by
        have := P1 o p2.symm (by rw [← p2, p1])
        rw [← p2] at this; exact this)
  have c1 := f'.ccw _ _ _ _ t1
  have c2 := f'.ccw _ _ _ _ t2
  have back : m.Tri3 L y v A B → (w = d ∧ B = c ∧ A = a) ∨ (w = c ∧ B = a ∧ A = d) ∨ (w = c ∧ B = d ∧ A = b) ∨ (w = d ∧ B = b ∧ A = c) →
      sqDist o (pos A) ≤ sqDist o (pos w) := by
    intro T k
    obtain ⟨o', p1, p2⟩ := exists_center (ne_of_gt c2)
    have q1 : sqDist o' (pos B) = sqDist o' (pos A) := by rw [← p1, p2]
    exact delaunay_symm c1 c2 o1 o2 q1 p1.symm (N _ _ w B A v t2 T hs2 (fun hh => hnd2 ⟨hh.2, hh.1⟩) (fun hh => hnd1 ⟨hh.2, hh.1⟩) k o' q1 p1.symm)
  have no : ∀ {P : Prop}, (((A = c ∧ B = a) ∨ (A = a ∧ B = d) ∨ (A = d ∧ B = b) ∨ (A = b ∧ B = c)) ∧
      ((B = c ∧ A = a) ∨ (B = a ∧ A = d) ∨ (B = d ∧ A = b) ∨ (B = b ∧ A = c))) → P := by
    rintro P ⟨i | i | i | i, j | j | j | j⟩ <;> obtain ⟨rfl, rfl⟩ := i <;> obtain ⟨i, j⟩ := j <;> exfalso
    all_goals first
      | exact q.ac i | exact q.ac i.symm | exact q.ab i | exact q.ab i.symm | exact q.ad i | exact q.ad i.symm
      | exact q.bc i | exact q.bc i.symm | exact q.bd i | exact q.bd i.symm | exact q.cd i | exact q.cd i.symm
      | exact q.ac j | exact q.ac j.symm | exact q.ab j | exact q.ab j.symm | exact q.ad j | exact q.ad j.symm
      | exact q.bc j | exact q.bc j.symm | exact q.bd j | exact q.bd j.symm | exact q.cd j | exact q.cd j.symm
  have fwd : (v = d ∧ A = c ∧ B = a) ∨ (v = c ∧ A = a ∧ B = d) ∨ (v = c ∧ A = d ∧ B = b) ∨ (v = d ∧ A = b ∧ B = c) →
      sqDist o (pos A) ≤ sqDist o (pos w) := by
    intro k
    have K := k.imp And.right (Or.imp And.right (Or.imp And.right And.right))
    rcases flip_tri h q t2 with ⟨T', -, -⟩ | ⟨-, k'⟩ | ⟨-, k'⟩ | ⟨-, k'⟩ | ⟨-, k'⟩ | ⟨-, k'⟩ | ⟨-, k'⟩
    · exact N _ _ v A B w t1 T' hs hnd1 hnd2 k o o1 o2
    · exact absurd ⟨k'.2, k'.1⟩ hnd2
    · exact no ⟨K, Or.inl k'⟩
    · exact no ⟨K, Or.inr (Or.inl k')⟩
    · exact absurd ⟨k'.2, k'.1⟩ hnd1
    · exact no ⟨K, Or.inr (Or.inr (Or.inl k'))⟩
    · exact no ⟨K, Or.inr (Or.inr (Or.inr k'))⟩
  rcases flip_tri h q t1 with ⟨T, -, -⟩ | ⟨-, k⟩ | k | k | ⟨-, k⟩ | k | k
  · rcases flip_tri h q t2 with ⟨T', -, -⟩ | ⟨-, k⟩ | k | k | ⟨-, k⟩ | k | k
    · exact (hall y T.1).locally h (S y A B hAB hs hnd1 hnd2 y (Tri3.dirs T).1) T T' o o1 o2
    · exact absurd ⟨k.2, k.1⟩ hnd2
    · exact back T (Or.inl k)
    · exact back T (Or.inr (Or.inl k))
    · exact absurd ⟨k.2, k.1⟩ hnd1
    · exact back T (Or.inr (Or.inr (Or.inl k)))
    · exact back T (Or.inr (Or.inr (Or.inr k)))
  · exact absurd k hnd1
  · exact fwd (Or.inl k)
  · exact fwd (Or.inr (Or.inl k))
  · exact absurd k hnd2
  · exact fwd (Or.inr (Or.inr (Or.inl k)))
  · exact fwd (Or.inr (Or.inr (Or.inr k)))

end Delynoi.Tri
