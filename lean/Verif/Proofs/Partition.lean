import Verif.Spec.Partition
import Verif.Proofs.Cyc
import Verif.Proofs.ConeCover
import Mathlib.Tactic.Ring
import Mathlib.Tactic.Linarith
import Mathlib.Tactic.LinearCombination
/-!
# Fans fill convex polygons
-/
set_option linter.unusedSectionVars false
namespace Delynoi
variable {K : Type} [Field K] [LinearOrder K] [IsStrictOrderedRing K]

private theorem turn_rot (a b c : Pt K) : turn b c a = turn a b c := by unfold turn; ring

/-- The triangles between the last vertex and the sides away from it. -/
def earFan : List (Pt K) → List (Pt K × Pt K × Pt K)
  | [] => []
  | x :: l => match l with
    | [y, w] => [(x, y, w)]
    | y :: _ :: _ :: _ => ((x :: l).getLast (by simp), x, y) :: earFan l
    | _ => []

/-- Strict convex position, counter-clockwise. -/
def ConvexPos (l : List (Pt K)) : Prop :=
  ∀ i j k : Fin l.length, i < j → j < k → 0 < turn l[i] l[j] l[k]

private theorem convexPos_tail {a : Pt K} {l : List (Pt K)} (h : ConvexPos (a :: l)) : ConvexPos l :=
  fun i j k hij hjk => h i.succ j.succ k.succ (Fin.succ_lt_succ_iff.2 hij) (Fin.succ_lt_succ_iff.2 hjk)

theorem tri_comb {a b c q u v : Pt K} (hp : 0 < turn a b c) (h : InTri (a, b, c) q)
    (ha : 0 ≤ turn u v a) (hb : 0 ≤ turn u v b) (hc : 0 ≤ turn u v c) : 0 ≤ turn u v q := by
  obtain ⟨h1, h2, h3⟩ := h
  have id : turn a b c * turn u v q =
      turn b c q * turn u v a + turn c a q * turn u v b + turn a b q * turn u v c := by
    unfold turn; ring
  have := add_nonneg (add_nonneg (mul_nonneg h2 ha) (mul_nonneg h3 hb)) (mul_nonneg h1 hc)
  rw [← id] at this
  exact nonneg_of_mul_nonneg_right this hp

private theorem earFan_facts : ∀ (l : List (Pt K)), ConvexPos l → ∀ t ∈ earFan l,
    0 < turn t.1 t.2.1 t.2.2 ∧ t.1 ∈ l ∧ t.2.1 ∈ l ∧ t.2.2 ∈ l := by
  intro l
  induction l with
  | nil => intro _ t ht; cases ht
  | cons x l ih =>
    intro h t ht
    match l, h, ht, ih with
    | [], _, ht, _ => cases ht
    | [_], _, ht, _ => cases ht
    | [y, w], h, ht, _ =>
      have : t = (x, y, w) := by simpa [earFan] using ht
      subst this
      exact ⟨h ⟨0, by simp⟩ ⟨1, by simp⟩ ⟨2, by simp⟩ (by simp [Fin.lt_def]) (by simp [Fin.lt_def]), by simp⟩
    | y :: c :: d :: r, h, ht, ih =>
      have e : earFan (x :: y :: c :: d :: r) =
        ((x :: y :: c :: d :: r).getLast (by simp), x, y) :: earFan (y :: c :: d :: r) := rfl
      rw [e] at ht
      rcases List.mem_cons.1 ht with rfl | ht
      · refine ⟨?_, List.getLast_mem (by simp), by simp, by simp⟩
        rw [← turn_rot]
        have := h ⟨0, by simp⟩ ⟨1, by simp⟩ ⟨r.length + 3, by simp⟩ (by simp [Fin.lt_def])
          (by simp [Fin.lt_def])
        rw [List.getLast_eq_getElem]
        exact this
      · obtain ⟨h1, h2, h3, h4⟩ := ih (convexPos_tail h) t ht
        exact ⟨h1, List.mem_cons_of_mem _ h2, List.mem_cons_of_mem _ h3, List.mem_cons_of_mem _ h4⟩

private theorem zip_snoc (l : List (Pt K)) : ∀ (y w : Pt K),
    (y :: l).zip (l ++ [w]) = (y :: l).zip l ++ [((y :: l).getLast (by simp), w)] := by
  induction l with
  | nil => intro y w; rfl
  | cons a l ih =>
    intro y w
    rw [List.cons_append, List.zip_cons_cons, ih a w]
    rfl

theorem outside_iff (l : List (Pt K)) (q : Pt K) :
    ¬ Outside l q ↔ ∀ e ∈ cycPairs l, 0 ≤ turn e.1 e.2 q := by
  unfold Outside
  push Not
  constructor
  · intro h e he
    obtain ⟨i, hi, rfl⟩ := List.getElem_of_mem he
    rw [cycPairs_getElem]
    exact h ⟨i, by rwa [cycPairs_length] at hi⟩
  · intro h i
    have := h ((cycPairs l)[i.val]'(by rw [cycPairs_length]; exact i.isLt)) (List.getElem_mem _)
    rw [cycPairs_getElem] at this
    exact this

/-- A polygon in convex position is covered by its fan. -/
private theorem earFan_cover : ∀ (l : List (Pt K)) (q : Pt K), 3 ≤ l.length → ¬ Outside l q →
    ∃ t ∈ earFan l, InTri t q := by
  intro l
  induction l with
  | nil => intro q h; simp at h
  | cons x l ih =>
    intro q h3 h
    rw [outside_iff] at h
    match l, h3, h, ih with
    | [], h3, _, _ => simp at h3
    | [_], h3, _, _ => simp at h3
    | [y, w], _, h, _ =>
      refine ⟨(x, y, w), by simp [earFan], h (x, y) ?_, h (y, w) ?_, h (w, x) ?_⟩ <;>
        simp [cycPairs_cons]
    | y :: c :: d :: r, _, h, ih =>
      have e : earFan (x :: y :: c :: d :: r) =
        ((x :: y :: c :: d :: r).getLast (by simp), x, y) :: earFan (y :: c :: d :: r) := rfl
      rw [e]
      rw [cycPairs_cons, List.cons_append, List.zip_cons_cons, zip_snoc] at h
      have hz : (x :: y :: c :: d :: r).getLast (by simp) = (y :: c :: d :: r).getLast (by simp) := by simp
      rw [hz]
      by_cases hs : 0 ≤ turn ((y :: c :: d :: r).getLast (by simp)) y q
      · obtain ⟨t, ht, hq⟩ := ih q (by simp) (by
          rw [outside_iff, cycPairs_cons, zip_snoc]
          intro e he
          rcases List.mem_append.1 he with he | he
          · exact h e (List.mem_cons_of_mem _ (List.mem_append_left _ he))
          · have : e = ((y :: c :: d :: r).getLast (by simp), y) := by simpa using he
            rw [this]; exact hs)
        exact ⟨t, List.mem_cons_of_mem _ ht, hq⟩
      · refine ⟨_, List.mem_cons_self, ?_, ?_, ?_⟩
        · exact h ((y :: c :: d :: r).getLast (by simp), x) (by simp)
        · exact h (x, y) (by simp)
        · have e : ∀ a b c : Pt K, turn b a c = -turn a b c := by intro a b c; unfold turn; ring
          show 0 ≤ turn y ((y :: c :: d :: r).getLast (by simp)) q
          rw [e]; linarith [not_le.1 hs]

/-- The vertices of a polygon in convex position are on the left of all sides. -/
private theorem convexPos_left (l : List (Pt K)) (h : ConvexPos l) (v : Pt K) (hv : v ∈ l) :
    ∀ e ∈ cycPairs l, 0 ≤ turn e.1 e.2 v := by
  intro e he
  obtain ⟨i, hi, rfl⟩ := List.getElem_of_mem he
  obtain ⟨k, hk, rfl⟩ := List.getElem_of_mem hv
  rw [cycPairs_getElem]
  rw [cycPairs_length] at hi
  have aa : ∀ a b : Pt K, turn a b a = 0 := by intro a b; unfold turn; ring
  have bb : ∀ a b : Pt K, turn a b b = 0 := by intro a b; unfold turn; ring
  by_cases hl : i + 1 < l.length
  · have e1 : (i + 1) % l.length = i + 1 := Nat.mod_eq_of_lt hl
    simp only [e1]
    rcases Nat.lt_trichotomy k i with hc | hc | hc
    · have := h ⟨k, hk⟩ ⟨i, hi⟩ ⟨i + 1, hl⟩ hc (by simp [Fin.lt_def])
      rw [← turn_rot] at this
      exact this.le
    · subst hc; rw [aa]
    · by_cases hc2 : k = i + 1
      · subst hc2; rw [bb]
      · exact (h ⟨i, hi⟩ ⟨i + 1, hl⟩ ⟨k, hk⟩ (by simp [Fin.lt_def]) (by simp only [Fin.lt_def]; omega)).le
  · have hi' : i = l.length - 1 := by omega
    have e1 : (i + 1) % l.length = 0 := by rw [show i + 1 = l.length by omega, Nat.mod_self]
    simp only [e1]
    by_cases hc : k = i
    · subst hc; rw [aa]
    · by_cases hc2 : k = 0
      · subst hc2; rw [bb]
      · have := h ⟨0, by omega⟩ ⟨k, hk⟩ ⟨i, hi⟩ (by simp only [Fin.lt_def]; omega) (by simp only [Fin.lt_def]; omega)
        rw [← turn_rot, ← turn_rot] at this
        exact this.le

private theorem earFan_inside (l : List (Pt K)) (h : ConvexPos l) (t : Pt K × Pt K × Pt K)
    (ht : t ∈ earFan l) (q : Pt K) (hq : InTri t q) : ¬ Outside l q := by
  obtain ⟨h1, h2, h3, h4⟩ := earFan_facts l h t ht
  rw [outside_iff]
  intro e he
  exact tri_comb h1 hq (convexPos_left l h _ h2 e he) (convexPos_left l h _ h3 e he)
    (convexPos_left l h _ h4 e he)

private theorem earFan_disjoint : ∀ (l : List (Pt K)), ConvexPos l →
    (earFan l).Pairwise (fun s t => ∀ q, ¬ (InOpenTri s q ∧ InOpenTri t q)) := by
  intro l
  induction l with
  | nil => intro _; exact List.Pairwise.nil
  | cons x l ih =>
    intro h
    match l, h, ih with
    | [], _, _ => exact List.Pairwise.nil
    | [_], _, _ => exact List.Pairwise.nil
    | [y, w], _, _ => exact List.pairwise_singleton _ _
    | y :: c :: d :: r, h, ih =>
      have e : earFan (x :: y :: c :: d :: r) =
        ((x :: y :: c :: d :: r).getLast (by simp), x, y) :: earFan (y :: c :: d :: r) := rfl
      rw [e]
      refine List.Pairwise.cons ?_ (ih (convexPos_tail h))
      intro t ht q hq
      have ht' := convexPos_tail h
      obtain ⟨h1, h2, h3, h4⟩ := earFan_facts _ ht' t ht
      have hz : (x :: y :: c :: d :: r).getLast (by simp) = (y :: c :: d :: r).getLast (by simp) := by simp
      have side := ((y :: c :: d :: r).getLast (by simp), y)
      have hs : ((y :: c :: d :: r).getLast (by simp), y) ∈ cycPairs (y :: c :: d :: r) := by
        rw [cycPairs_cons, zip_snoc]; simp
      have := tri_comb h1 ⟨hq.2.1.le, hq.2.2.1.le, hq.2.2.2.le⟩ (convexPos_left _ ht' _ h2 _ hs)
        (convexPos_left _ ht' _ h3 _ hs) (convexPos_left _ ht' _ h4 _ hs)
      have hn := hq.1.2.2
      simp only [hz] at hn
      have e : ∀ a b c : Pt K, turn b a c = -turn a b c := by intro a b c; unfold turn; ring
      rw [e] at hn
      linarith

theorem earFan_tiles (l : List (Pt K)) (h3 : 3 ≤ l.length) (h : ConvexPos l) : Tiles (earFan l) l :=
  ⟨fun t ht => (earFan_facts l h t ht).1,
    fun q => ⟨earFan_cover l q h3, fun ⟨t, ht, hq⟩ => earFan_inside l h t ht q hq⟩,
    earFan_disjoint l h⟩

/-! ### fans around an inner point -/

private theorem wedge_lt {m u v w x q : Pt K} (hF : 0 < turn u v m) (hG : 0 < turn w x m)
    (h1 : 0 ≤ turn u v w) (h2 : 0 ≤ turn u v x) (h3 : 0 < turn u v w ∨ 0 < turn u v x)
    (hq : InOpenTri (w, x, m) q) :
    turn w x m * (turn v m q + turn m u q) < turn u v m * (turn x m q + turn m w q) := by
  obtain ⟨_, hc, hd⟩ := hq
  simp only at hc hd
  have id : turn u v m * (turn x m q + turn m w q) - turn w x m * (turn v m q + turn m u q) =
      turn x m q * turn u v w + turn m w q * turn u v x := by
    unfold turn; ring
  have : 0 < turn x m q * turn u v w + turn m w q * turn u v x := by
    rcases h3 with h | h
    · exact add_pos_of_pos_of_nonneg (mul_pos hc h) (mul_nonneg hd.le h2)
    · exact add_pos_of_nonneg_of_pos (mul_nonneg hc.le h1) (mul_pos hd h)
  linarith

/-- The triangles between a point and the sides of a polygon. -/
def pointFan (m : Pt K) (l : List (Pt K)) : List (Pt K × Pt K × Pt K) :=
  (List.finRange l.length).map (fun i => (l[i], nextV l i, m))

private theorem convex_left (l : List (Pt K)) (h : StrictlyConvexCCW l) (i k : Fin l.length) :
    0 ≤ turn l[i] (nextV l i) l[k] := by
  by_cases h1 : k = i
  · subst h1; apply le_of_eq; unfold turn; ring
  by_cases h2 : k.val = (i.val + 1) % l.length
  · have : l[k] = nextV l i := by unfold nextV; simp only [Fin.getElem_fin, h2]
    rw [this]; apply le_of_eq; unfold turn; ring
  · exact (h.2 i k h1 h2).le

private theorem convex_next (l : List (Pt K)) (h : StrictlyConvexCCW l) (i j : Fin l.length) (hij : i ≠ j) :
    0 ≤ turn l[i] (nextV l i) (nextV l j) ∧
    (0 < turn l[i] (nextV l i) l[j] ∨ 0 < turn l[i] (nextV l i) (nextV l j)) := by
  have h3 := h.1
  have hi := i.isLt
  have hj := j.isLt
  have hm : (j.val + 1) % l.length < l.length := Nat.mod_lt _ (by omega)
  refine ⟨convex_left l h i ⟨_, hm⟩, ?_⟩
  by_cases hc : j.val = (i.val + 1) % l.length
  · right
    refine h.2 i ⟨_, hm⟩ ?_ ?_
    · intro hc2
      have : (j.val + 1) % l.length = i.val := congrArg Fin.val hc2
      rw [hc, Nat.mod_add_mod] at this
      rcases Nat.lt_or_ge (i.val + 1 + 1) l.length with h4 | h4
      · rw [Nat.mod_eq_of_lt h4] at this; omega
      · rw [Nat.mod_eq_sub_mod h4, Nat.mod_eq_of_lt (by omega)] at this; omega
    · intro hc2
      simp only at hc2
      rw [← hc] at hc2
      rcases Nat.lt_or_ge (j.val + 1) l.length with h4 | h4
      · rw [Nat.mod_eq_of_lt h4] at hc2; omega
      · rw [Nat.mod_eq_sub_mod h4, Nat.mod_eq_of_lt (by omega)] at hc2; omega
  · left
    exact h.2 i j (Ne.symm hij) hc

theorem pointFan_tiles (l : List (Pt K)) (h : StrictlyConvexCCW l) (m : Pt K) (hm : Inside l m) :
    Tiles (pointFan m l) l := by
  have h3 := h.1
  have hn : 0 < l.length := by omega
  have mem : ∀ t, t ∈ pointFan m l ↔ ∃ i : Fin l.length, t = (l[i], nextV l i, m) := by
    intro t
    unfold pointFan
    simp [eq_comm]
  refine ⟨?_, ?_, ?_⟩
  · intro t ht
    obtain ⟨i, rfl⟩ := (mem t).1 ht
    exact hm i
  · intro q
    constructor
    · intro hq
      unfold Outside at hq
      push Not at hq
      by_cases hqm : q = m
      · refine ⟨_, (mem _).2 ⟨⟨0, hn⟩, rfl⟩, ?_, ?_, ?_⟩
        · exact hq ⟨0, hn⟩
        · rw [hqm]; apply le_of_eq; simp only; unfold turn; ring
        · rw [hqm]; apply le_of_eq; simp only; unfold turn; ring
      · let z : Nat → Pt K := fun s => ⟨(l[s % l.length]'(Nat.mod_lt _ hn)).x - m.x, (l[s % l.length]'(Nat.mod_lt _ hn)).y - m.y⟩
        have hz : ∀ s, cr (z s) (z (s + 1)) =
            turn (l[s % l.length]'(Nat.mod_lt _ hn)) (nextV l ⟨s % l.length, Nat.mod_lt _ hn⟩) m := by
          intro s
          have e : (s % l.length + 1) % l.length = (s + 1) % l.length := Nat.mod_add_mod _ _ _
          simp only [nextV, e, z]
          unfold cr turn; ring
        have hpos : ∀ s, 0 < cr (z s) (z (s + 1)) := fun s => by
          rw [hz]; exact hm ⟨s % l.length, Nat.mod_lt _ hn⟩
        have T : Turning 1 l.length z :=
          { sgn := Or.inl rfl
            pos := hn
            per := fun s => by simp only [z, Nat.add_mod_right]
            hop := fun s => by rw [one_mul]; exact (hpos s).le
            stay := fun s hs => absurd hs (hpos s).ne'
            ne := fun s hs => by
              have := hpos s
              rw [hs] at this
              unfold cr at this
              simp at this
            some := ⟨0, (hpos 0).ne'⟩ }
        obtain ⟨s, hs, h1, h2, _⟩ := T.cover ⟨q.x - m.x, q.y - m.y⟩ (by
          intro hc
          apply hqm
          have a1 := congrArg Pt.x hc
          have a2 := congrArg Pt.y hc
          simp only at a1 a2
          exact Pt.ext (sub_eq_zero.1 a1) (sub_eq_zero.1 a2))
        rw [one_mul] at h1 h2
        refine ⟨_, (mem _).2 ⟨⟨s, hs⟩, rfl⟩, hq ⟨s, hs⟩, ?_, ?_⟩
        · have : turn (nextV l ⟨s, hs⟩) m q = cr ⟨q.x - m.x, q.y - m.y⟩ (z (s + 1)) := by
            simp only [nextV, z]; unfold cr turn; ring
          show 0 ≤ turn (nextV l ⟨s, hs⟩) m q
          rw [this]; exact h2
        · have : turn m (l[s]) q = cr (z s) ⟨q.x - m.x, q.y - m.y⟩ := by
            have e : s % l.length = s := Nat.mod_eq_of_lt hs
            simp only [z, e]; unfold cr turn; ring
          show 0 ≤ turn m (l[s]) q
          rw [this]; exact h1
    · rintro ⟨t, ht, hq⟩
      obtain ⟨i, rfl⟩ := (mem t).1 ht
      unfold Outside
      push Not
      intro k
      have hl : (i.val + 1) % l.length < l.length := Nat.mod_lt _ hn
      exact tri_comb (hm i) hq (convex_left l h k i) (convex_left l h k ⟨_, hl⟩) (hm k).le
  · unfold pointFan
    rw [List.pairwise_map]
    refine (List.nodup_finRange l.length).imp ?_
    intro i j hij q hq
    obtain ⟨hq1, hq2⟩ := hq
    obtain ⟨a1, a2⟩ := convex_next l h i j hij
    obtain ⟨b1, b2⟩ := convex_next l h j i (Ne.symm hij)
    have r1 := wedge_lt (hm i) (hm j) (convex_left l h i j) a1 a2 hq2
    have r2 := wedge_lt (hm j) (hm i) (convex_left l h j i) b1 b2 hq1
    linarith

end Delynoi
