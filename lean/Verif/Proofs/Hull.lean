import Verif.Model.Hull
import Verif.Spec.Geometry
import Mathlib.Tactic.Ring
import Mathlib.Tactic.Linarith
import Mathlib.Tactic.LinearCombination
/-! Convex hull chains and calipers. -/
namespace Delynoi
set_option linter.unusedSectionVars false
variable {K : Type} [Field K] [LinearOrder K] [IsStrictOrderedRing K]

/-- Weak lexicographic order. -/
def LexLe (a b : Pt K) : Prop := a.x < b.x ∨ (a.x = b.x ∧ a.y ≤ b.y)
/-- Strict lexicographic order. -/
def LexLt (a b : Pt K) : Prop := a.x < b.x ∨ (a.x = b.x ∧ a.y < b.y)

theorem lexLt_false_iff (a b : Pt K) : lexLt b a = false ↔ LexLe a b := by
  unfold lexLt LexLe
  split
  · rename_i h; simp [h]
  · rename_i h
    rw [decide_eq_false_iff_not, not_lt]
    constructor
    · intro h'; exact Or.inl (lt_of_le_of_ne h' (Ne.symm h))
    · rintro (h' | h')
      · exact h'.le
      · exact absurd h'.1.symm h

theorem lexLe_refl (a : Pt K) : LexLe a a := Or.inr ⟨rfl, le_refl _⟩

theorem lexLe_total (a b : Pt K) : LexLe a b ∨ LexLe b a := by
  unfold LexLe
  rcases lt_trichotomy a.x b.x with h | h | h
  · exact Or.inl (Or.inl h)
  · rcases le_total a.y b.y with h' | h'
    · exact Or.inl (Or.inr ⟨h, h'⟩)
    · exact Or.inr (Or.inr ⟨h.symm, h'⟩)
  · exact Or.inr (Or.inl h)

theorem lexLe_trans {a b c : Pt K} (h1 : LexLe a b) (h2 : LexLe b c) : LexLe a c := by
  unfold LexLe at *
  rcases h1 with h1 | ⟨h1, h1'⟩ <;> rcases h2 with h2 | ⟨h2, h2'⟩
  · exact Or.inl (h1.trans h2)
  · exact Or.inl (h2 ▸ h1)
  · exact Or.inl (h1 ▸ h2)
  · exact Or.inr ⟨h1.trans h2, h1'.trans h2'⟩

theorem lexLe_antisymm {a b : Pt K} (h1 : LexLe a b) (h2 : LexLe b a) : a = b := by
  unfold LexLe at *
  rcases h1 with h1 | ⟨h1, h1'⟩ <;> rcases h2 with h2 | ⟨h2, h2'⟩
  · exact absurd h1 h2.asymm
  · exact absurd h2.symm h1.ne
  · exact absurd h1.symm h2.ne
  · exact Pt.ext h1 (le_antisymm h1' h2')

theorem lexLt_of_le_ne {a b : Pt K} (h1 : LexLe a b) (h : a ≠ b) : LexLt a b := by
  rcases h1 with h1 | ⟨h1, h2⟩
  · exact Or.inl h1
  · refine Or.inr ⟨h1, lt_of_le_of_ne h2 ?_⟩
    intro h3; exact h (Pt.ext h1 h3)

theorem LexLt.le {a b : Pt K} (h : LexLt a b) : LexLe a b := by
  rcases h with h | ⟨h1, h2⟩
  · exact Or.inl h
  · exact Or.inr ⟨h1, h2.le⟩

theorem LexLt.ne {a b : Pt K} (h : LexLt a b) : a ≠ b := by
  rintro rfl
  rcases h with h | ⟨_, h⟩ <;> exact lt_irrefl _ h

theorem LexLt.trans_le {a b c : Pt K} (h1 : LexLt a b) (h2 : LexLe b c) : LexLt a c := by
  apply lexLt_of_le_ne (lexLe_trans h1.le h2)
  rintro rfl
  exact h1.ne (lexLe_antisymm h1.le h2)

theorem lexLe_trans_lt {a b c : Pt K} (h1 : LexLe a b) (h2 : LexLt b c) : LexLt a c := by
  apply lexLt_of_le_ne (lexLe_trans h1 h2.le)
  rintro rfl
  exact h2.ne (lexLe_antisymm h2.le h1)

theorem LexLe.x_le {a b : Pt K} (h : LexLe a b) : a.x ≤ b.x := by
  rcases h with h | ⟨h, _⟩
  · exact h.le
  · exact h.le

theorem sortPts_perm (l : List (Pt K)) : (sortPts l).Perm l := List.perm_insertionSort _ _

theorem sortPts_sorted (l : List (Pt K)) : (sortPts l).Pairwise LexLe := by
  have : Std.Total (fun a b : Pt K => lexLt b a = false) :=
    ⟨fun a b => by rw [lexLt_false_iff, lexLt_false_iff]; exact lexLe_total a b⟩
  have : IsTrans (Pt K) (fun a b : Pt K => lexLt b a = false) :=
    ⟨fun a b c => by
      rw [lexLt_false_iff, lexLt_false_iff, lexLt_false_iff]; exact lexLe_trans⟩
  have h := List.pairwise_insertionSort (fun a b : Pt K => lexLt b a = false) l
  exact h.imp (fun {a b} h => (lexLt_false_iff a b).1 h)

/-- Scalar product with a direction. -/
def dotP (n v : Pt K) : K := n.x * v.x + n.y * v.y

/-- Consecutive triples (left to right) satisfy `P`. -/
def Triples (P : Pt K → Pt K → Pt K → Prop) : List (Pt K) → Prop
  | a :: b :: c :: r => P a b c ∧ Triples P (b :: c :: r)
  | _ => True

/-- Consecutive triples of a stack (right to left). -/
def TriplesS (P : Pt K → Pt K → Pt K → Prop) : List (Pt K) → Prop
  | c :: b :: a :: r => P a b c ∧ TriplesS P (b :: a :: r)
  | _ => True

theorem TriplesS.tail {P : Pt K → Pt K → Pt K → Prop} {a : Pt K} {l : List (Pt K)}
    (h : TriplesS P (a :: l)) : TriplesS P l := by
  match l, h with
  | [], _ => trivial
  | [_], _ => trivial
  | _ :: _ :: _, h => exact h.2

theorem Triples.tail {P : Pt K → Pt K → Pt K → Prop} {a : Pt K} {l : List (Pt K)}
    (h : Triples P (a :: l)) : Triples P l := by
  match l, h with
  | [], _ => trivial
  | [_], _ => trivial
  | _ :: _ :: _, h => exact h.2

theorem triples_append_singleton {P : Pt K → Pt K → Pt K → Prop} {l : List (Pt K)} {b c : Pt K} :
    Triples P (l ++ [b]) → (∀ a, l.getLast? = some a → P a b c) → Triples P (l ++ [b, c]) := by
  induction l with
  | nil => intro _ _; trivial
  | cons x l ih =>
    intro h1 h2
    match l, ih, h1, h2 with
    | [], _, _, h2 => exact ⟨h2 x (by simp), trivial⟩
    | [y], ih, h1, h2 =>
      refine ⟨h1.1, ih h1.tail ?_⟩
      intro a ha; exact h2 a (by simpa using ha)
    | y :: z :: l, ih, h1, h2 =>
      refine ⟨h1.1, ih h1.tail ?_⟩
      intro a ha; exact h2 a (by simpa using ha)

theorem triples_reverse {P : Pt K → Pt K → Pt K → Prop} : ∀ (s : List (Pt K)),
    TriplesS P s → Triples P s.reverse := by
  intro s
  induction s with
  | nil => intro _; trivial
  | cons c s ih =>
    intro h
    match s, ih, h with
    | [], _, _ => trivial
    | [b], _, _ => trivial
    | b :: a :: r, ih, h =>
      have := ih h.tail
      rw [List.reverse_cons] at this
      rw [List.reverse_cons, List.reverse_cons, List.append_assoc]
      apply triples_append_singleton this
      intro a' ha'
      have : a' = a := by simpa using ha'.symm
      rw [this]; exact h.1

/-- Requirements on a pop condition for the stack invariant. -/
structure GoodBad (bad : Pt K → Pt K → Pt K → Bool) (dir : Pt K → Prop) : Prop where
  eq_right : ∀ a b, bad a b b = true
  eq_left : ∀ a c, bad a a c = true
  dominated : ∀ a b c n, LexLe a b → LexLe b c → bad a b c = true → dir n →
    dotP n b ≤ dotP n a ∨ dotP n b ≤ dotP n c

theorem upperBad_iff (a b c : Pt K) : upperBad a b c = true ↔
    0 ≤ (b.x - a.x) * (c.y - a.y) - (b.y - a.y) * (c.x - a.x) := by
  unfold upperBad; rw [decide_eq_true_iff]; rfl

theorem lowerBad_iff (a b c : Pt K) : lowerBad a b c = true ↔
    (b.x - a.x) * (c.y - a.y) - (b.y - a.y) * (c.x - a.x) ≤ 0 := by
  unfold lowerBad; rw [decide_eq_true_iff]; rfl

theorem goodUpper : GoodBad (K := K) upperBad (fun n => 0 ≤ n.y) where
  eq_right a b := by rw [upperBad_iff]; apply le_of_eq; ring
  eq_left a c := by rw [upperBad_iff]; apply le_of_eq; ring
  dominated a b c n hab hbc hbad hn := by
    rw [upperBad_iff] at hbad
    by_cases h1 : dotP n b ≤ dotP n a
    · exact Or.inl h1
    right
    unfold dotP at *
    have hx1 : 0 ≤ b.x - a.x := by linarith [hab.x_le]
    have hx2 : 0 ≤ c.x - b.x := by linarith [hbc.x_le]
    have hE : 0 < n.x * (b.x - a.x) + n.y * (b.y - a.y) := by linarith
    have hcr : 0 ≤ (b.x - a.x) * (c.y - b.y) - (b.y - a.y) * (c.x - b.x) := by linarith
    suffices 0 ≤ n.x * (c.x - b.x) + n.y * (c.y - b.y) by linarith
    rcases eq_or_lt_of_le hx1 with h0 | h0
    · rw [← h0] at hE hcr
      have hny : 0 < n.y * (b.y - a.y) := by linarith
      have hdy : 0 < b.y - a.y := pos_of_mul_pos_right hny hn
      have hx0 : c.x - b.x = 0 := by nlinarith
      have hy : b.y ≤ c.y := by
        rcases hbc with h | h
        · linarith
        · exact h.2
      rw [hx0]
      have := mul_nonneg hn (sub_nonneg.2 hy)
      linarith
    · have h2 : 0 ≤ (b.x - a.x) * (n.x * (c.x - b.x) + n.y * (c.y - b.y)) := by
        have e1 := mul_nonneg hn hcr
        have e2 := mul_nonneg hx2 hE.le
        linarith
      exact nonneg_of_mul_nonneg_right h2 h0

theorem goodLower : GoodBad (K := K) lowerBad (fun n => n.y ≤ 0) where
  eq_right a b := by rw [lowerBad_iff]; apply le_of_eq; ring
  eq_left a c := by rw [lowerBad_iff]; apply le_of_eq; ring
  dominated a b c n hab hbc hbad hn := by
    rw [lowerBad_iff] at hbad
    by_cases h1 : dotP n b ≤ dotP n a
    · exact Or.inl h1
    right
    unfold dotP at *
    have hx1 : 0 ≤ b.x - a.x := by linarith [hab.x_le]
    have hx2 : 0 ≤ c.x - b.x := by linarith [hbc.x_le]
    have hE : 0 < n.x * (b.x - a.x) + n.y * (b.y - a.y) := by linarith
    have hcr : 0 ≤ (b.y - a.y) * (c.x - b.x) - (b.x - a.x) * (c.y - b.y) := by linarith
    suffices 0 ≤ n.x * (c.x - b.x) + n.y * (c.y - b.y) by linarith
    rcases eq_or_lt_of_le hx1 with h0 | h0
    · exfalso
      rw [← h0] at hE
      have hy : a.y ≤ b.y := by
        rcases hab with h | h
        · linarith
        · exact h.2
      have := mul_nonneg (neg_nonneg.2 hn) (sub_nonneg.2 hy)
      linarith
    · have h2 : 0 ≤ (b.x - a.x) * (n.x * (c.x - b.x) + n.y * (c.y - b.y)) := by
        have e1 := mul_nonneg (neg_nonneg.2 hn) hcr
        have e2 := mul_nonneg hx2 hE.le
        linarith
      exact nonneg_of_mul_nonneg_right h2 h0

/-- Strict unimodality along a chain. -/
def Unimodal (bad : Pt K → Pt K → Pt K → Bool) (n : Pt K) : Prop :=
  ∀ a b c, LexLt a b → LexLt b c → bad a b c = false → dotP n b ≤ dotP n a → dotP n c < dotP n b

theorem unimodalUpper {n : Pt K} (hn : 0 < n.y) : Unimodal upperBad n := by
  intro a b c hab hbc hbad h1
  rw [← Bool.not_eq_true, upperBad_iff, not_le] at hbad
  unfold dotP at *
  have hx1 : 0 ≤ b.x - a.x := by linarith [hab.le.x_le]
  have hx2 : 0 ≤ c.x - b.x := by linarith [hbc.le.x_le]
  have hE : n.x * (b.x - a.x) + n.y * (b.y - a.y) ≤ 0 := by linarith
  have hcr : (b.x - a.x) * (c.y - b.y) - (b.y - a.y) * (c.x - b.x) < 0 := by linarith
  suffices n.x * (c.x - b.x) + n.y * (c.y - b.y) < 0 by linarith
  rcases eq_or_lt_of_le hx1 with h0 | h0
  · exfalso
    have hy : a.y < b.y := by
      rcases hab with h | h
      · linarith
      · exact h.2
    rw [← h0] at hE
    have := mul_pos hn (sub_pos.2 hy)
    linarith
  · have h2 : (b.x - a.x) * (n.x * (c.x - b.x) + n.y * (c.y - b.y)) < 0 := by
      have e1 := mul_neg_of_pos_of_neg hn hcr
      have e2 := mul_nonneg hx2 (neg_nonneg.2 hE)
      linarith
    by_contra hc
    have := mul_nonneg h0.le (not_lt.1 hc)
    linarith

theorem unimodalLower {n : Pt K} (hn : n.y < 0) : Unimodal lowerBad n := by
  intro a b c hab hbc hbad h1
  rw [← Bool.not_eq_true, lowerBad_iff, not_le] at hbad
  unfold dotP at *
  have hx1 : 0 ≤ b.x - a.x := by linarith [hab.le.x_le]
  have hx2 : 0 ≤ c.x - b.x := by linarith [hbc.le.x_le]
  have hE : n.x * (b.x - a.x) + n.y * (b.y - a.y) ≤ 0 := by linarith
  have hcr : 0 < (b.x - a.x) * (c.y - b.y) - (b.y - a.y) * (c.x - b.x) := by linarith
  suffices n.x * (c.x - b.x) + n.y * (c.y - b.y) < 0 by linarith
  rcases eq_or_lt_of_le hx1 with h0 | h0
  · exfalso
    have hy : a.y < b.y := by
      rcases hab with h | h
      · linarith
      · exact h.2
    rw [← h0] at hcr
    have := mul_nonneg (sub_pos.2 hy).le hx2
    linarith
  · have h2 : (b.x - a.x) * (n.x * (c.x - b.x) + n.y * (c.y - b.y)) < 0 := by
      have e1 := mul_neg_of_neg_of_pos hn hcr
      have e2 := mul_nonneg hx2 (neg_nonneg.2 hE)
      linarith
    by_contra hc
    have := mul_nonneg h0.le (not_lt.1 hc)
    linarith

/-- Stack invariant after the points `done` have been processed. -/
structure SInv (bad : Pt K → Pt K → Pt K → Bool) (dir : Pt K → Prop) (done s : List (Pt K)) : Prop where
  sub : ∀ v ∈ s, v ∈ done
  head : s.head? = done.getLast?
  last : s.getLast? = done.head?
  turns : TriplesS (fun a b c => bad a b c = false) s
  dom : ∀ x ∈ done, ∀ n, dir n → ∃ v ∈ s, dotP n x ≤ dotP n v
  strict : s.Pairwise (fun a b => LexLt b a) ∨ ∀ x ∈ done, ∀ y ∈ done, x = y

/-- What popping does. -/
theorem popWhile_spec {bad : Pt K → Pt K → Pt K → Bool} {dir : Pt K → Prop}
    (hg : GoodBad bad dir) (c : Pt K) : ∀ (s : List (Pt K)),
    s.Pairwise (fun a b => LexLe b a) → (∀ v ∈ s, LexLe v c) →
    (popWhile bad c s) <:+ s ∧ (popWhile bad c s).getLast? = s.getLast? ∧
    (∀ b a r, popWhile bad c s = b :: a :: r → bad a b c = false) ∧
    (∀ x ∈ s, ∀ n, dir n → (∃ v ∈ popWhile bad c s, dotP n x ≤ dotP n v) ∨ dotP n x ≤ dotP n c) := by
  intro s
  induction s with
  | nil => intro _ _; simp [popWhile]
  | cons b s ih =>
    intro hs hc
    match s, ih, hs, hc with
    | [], _, _, _ =>
      refine ⟨List.suffix_refl _, rfl, ?_, ?_⟩
      · intro b' a r h; simp [popWhile] at h
      · intro x hx n _
        exact Or.inl ⟨x, by simpa [popWhile] using hx, le_refl _⟩
    | a :: r, ih, hs, hc =>
      by_cases hb : bad a b c = true
      · have e : popWhile bad c (b :: a :: r) = popWhile bad c (a :: r) := by
          rw [popWhile]; simp [hb]
        rw [e]
        obtain ⟨h1, h2, h3, h4⟩ := ih (List.pairwise_cons.1 hs).2 (fun v hv => hc v (List.mem_cons_of_mem _ hv))
        refine ⟨h1.trans (List.suffix_cons _ _), by rw [h2]; simp, h3, ?_⟩
        intro x hx n hn
        rcases List.mem_cons.1 hx with rfl | hx
        · have hax : LexLe a x := (List.pairwise_cons.1 hs).1 a (by simp)
          rcases hg.dominated a x c n hax (hc x (by simp)) hb hn with h | h
          · rcases h4 a (by simp) n hn with ⟨v, hv, hv'⟩ | h'
            · exact Or.inl ⟨v, hv, h.trans hv'⟩
            · exact Or.inr (h.trans h')
          · exact Or.inr h
        · exact h4 x hx n hn
      · have e : popWhile bad c (b :: a :: r) = b :: a :: r := by
          rw [popWhile]; simp [hb]
        rw [e]
        refine ⟨List.suffix_refl _, rfl, ?_, ?_⟩
        · intro b' a' r' h
          injection h with h1 h2
          injection h2 with h2 h3
          subst h1 h2
          simpa using hb
        · intro x hx n _
          exact Or.inl ⟨x, hx, le_refl _⟩

theorem triplesS_suffix {P : Pt K → Pt K → Pt K → Prop} {s t : List (Pt K)} (h : s <:+ t)
    (ht : TriplesS P t) : TriplesS P s := by
  obtain ⟨p, rfl⟩ := h
  induction p with
  | nil => exact ht
  | cons a p ih => exact ih (TriplesS.tail ht)

theorem sinv_step {bad : Pt K → Pt K → Pt K → Bool} {dir : Pt K → Prop}
    (hg : GoodBad bad dir) {done s : List (Pt K)} {c : Pt K} (hi : SInv bad dir done s)
    (hsorted : (done ++ [c]).Pairwise LexLe) :
    SInv bad dir (done ++ [c]) (c :: popWhile bad c s) := by
  have hdc : ∀ v ∈ done, LexLe v c := by
    intro v hv
    exact (List.pairwise_append.1 hsorted).2.2 v hv c (by simp)
  have hsle : s.Pairwise (fun a b => LexLe b a) := by
    rcases hi.strict with h | h
    · exact h.imp (fun h => h.le)
    · rw [List.pairwise_iff_forall_sublist]
      intro a b hab
      have ha : a ∈ s := hab.subset (by simp)
      have hb : b ∈ s := hab.subset (by simp)
      rw [h a (hi.sub a ha) b (hi.sub b hb)]
      exact lexLe_refl _
  obtain ⟨p1, p2, p3, p4⟩ := popWhile_spec hg c s hsle (fun v hv => hdc v (hi.sub v hv))
  have psub : ∀ v ∈ popWhile bad c s, v ∈ done := fun v hv => hi.sub v (p1.subset hv)
  refine ⟨?_, ?_, ?_, ?_, ?_, ?_⟩
  · intro v hv
    rcases List.mem_cons.1 hv with rfl | hv
    · simp
    · exact List.mem_append_left _ (psub v hv)
  · simp
  · cases hp : popWhile bad c s with
    | nil =>
      rw [hp] at p2
      have : s = [] := by
        have := p2.symm; simpa using this
      have hd : done = [] := by
        have h := hi.last
        rw [this] at h
        exact List.head?_eq_none_iff.1 h.symm
      simp [hd]
    | cons t r =>
      rw [hp] at p2
      rw [List.getLast?_cons_cons, p2, hi.last]
      cases done with
      | nil => simp at psub; exact absurd hp (by rw [List.eq_nil_iff_forall_not_mem.2 psub]; simp)
      | cons d ds => simp
  · have ht := triplesS_suffix p1 hi.turns
    match hp : popWhile bad c s, ht with
    | [], _ => trivial
    | [_], _ => trivial
    | b :: a :: r, ht => exact ⟨p3 b a r hp, ht⟩
  · intro x hx n hn
    rcases List.mem_append.1 hx with hx | hx
    · obtain ⟨v, hv, hv'⟩ := hi.dom x hx n hn
      rcases p4 v hv n hn with ⟨w, hw, hw'⟩ | h
      · exact ⟨w, List.mem_cons_of_mem _ hw, hv'.trans hw'⟩
      · exact ⟨c, by simp, hv'.trans h⟩
    · have : x = c := by simpa using hx
      exact ⟨c, by simp, by rw [this]⟩
  · match hp : popWhile bad c s with
    | [] =>
      left; simp
    | t :: r =>
      have htd : t ∈ done := psub t (by rw [hp]; simp)
      by_cases htc : t = c
      · -- the chain has only this point: everything equal
        cases r with
        | cons a r =>
          have h1 := p3 t a r hp
          rw [htc, hg.eq_right] at h1
          simp at h1
        | nil =>
          right
          rw [hp, hi.last] at p2
          have hhead : done.head? = some c := by rw [← p2, htc]; rfl
          have hall : ∀ x ∈ done ++ [c], x = c := by
            intro x hx
            rcases List.mem_append.1 hx with hx | hx
            · apply lexLe_antisymm (hdc x hx)
              cases done with
              | nil => simp at hx
              | cons d ds =>
                have : d = c := by simpa using hhead
                rw [← this]
                rcases List.mem_cons.1 hx with h | h
                · rw [h]; exact lexLe_refl _
                · exact (List.pairwise_cons.1 (List.pairwise_append.1 hsorted).1).1 x h
            · simpa using hx
          intro x hx y hy
          rw [hall x hx, hall y hy]
      · left
        have hlt : LexLt t c := lexLt_of_le_ne (hdc t htd) htc
        have hstr : (t :: r).Pairwise (fun a b => LexLt b a) := by
          rcases hi.strict with h | h
          · rw [← hp]; exact h.sublist p1.sublist
          · cases r with
            | nil => simp
            | cons a r =>
              have h1 := p3 t a r hp
              have : a = t := h a (psub a (by rw [hp]; simp)) t htd
              rw [this, hg.eq_left] at h1
              simp at h1
        rw [List.pairwise_cons]
        refine ⟨?_, hstr⟩
        intro v hv
        rcases List.mem_cons.1 hv with rfl | hv
        · exact hlt
        · exact ((List.pairwise_cons.1 hstr).1 v hv).trans_le hlt.le

theorem sinv_foldl {bad : Pt K → Pt K → Pt K → Bool} {dir : Pt K → Prop}
    (hg : GoodBad bad dir) : ∀ (todo done s : List (Pt K)), SInv bad dir done s →
    (done ++ todo).Pairwise LexLe →
    SInv bad dir (done ++ todo) (todo.foldl (fun s c => c :: popWhile bad c s) s) := by
  intro todo
  induction todo with
  | nil => intro done s h _; simpa using h
  | cons c todo ih =>
    intro done s h hs
    have e : done ++ c :: todo = (done ++ [c]) ++ todo := by simp
    rw [List.foldl_cons, e]
    apply ih
    · apply sinv_step hg h
      rw [e] at hs
      exact (List.pairwise_append.1 hs).1
    · rw [← e]; exact hs

theorem sinv_chain {bad : Pt K → Pt K → Pt K → Bool} {dir : Pt K → Prop}
    (hg : GoodBad bad dir) (pts : List (Pt K)) (hs : pts.Pairwise LexLe) :
    SInv bad dir pts (chainStack bad pts) := by
  have h0 : SInv bad dir ([] : List (Pt K)) [] :=
    ⟨by simp, by simp, by simp, trivial, by simp, Or.inl (by simp)⟩
  have := sinv_foldl hg pts [] [] h0 (by simpa using hs)
  simpa [chainStack] using this

/-! ### Unimodality along chains (left to right lists) -/

theorem uni_before {bad : Pt K → Pt K → Pt K → Bool} {n : Pt K} (hu : Unimodal bad n) (q : Pt K)
    (post : List (Pt K)) : ∀ (pre : List (Pt K)),
    (pre ++ q :: post).Pairwise LexLt → Triples (fun a b c => bad a b c = false) (pre ++ q :: post) →
    (∀ z, pre.getLast? = some z → dotP n z < dotP n q) →
    (pre ++ [q]).Pairwise (fun a b => dotP n a < dotP n b) := by
  intro pre
  induction pre with
  | nil => intro _ _ _; simp
  | cons z pre ih =>
    intro h1 h2 h3
    cases pre with
    | nil =>
      simp only [List.cons_append, List.nil_append, List.pairwise_cons, List.mem_singleton,
        forall_eq, List.not_mem_nil, false_imp_iff, implies_true, List.Pairwise.nil, and_true]
      exact h3 z (by simp)
    | cons w pre =>
      have ih' := ih (List.pairwise_cons.1 h1).2 h2.tail (fun z hz => h3 z (by simpa using hz))
      obtain ⟨z1, z2⟩ := List.pairwise_cons.1 h1
      have hzw : dotP n z < dotP n w := by
        have hlt : ∃ c r, pre ++ q :: post = c :: r ∧ dotP n w < dotP n c := by
          cases pre with
          | nil => exact ⟨q, post, rfl, (List.pairwise_cons.1 ih').1 q (by simp)⟩
          | cons c pre => exact ⟨c, pre ++ q :: post, rfl, (List.pairwise_cons.1 ih').1 c (by simp)⟩
        obtain ⟨c, r, hr, hc⟩ := hlt
        have h2' : Triples (fun a b c => bad a b c = false) (z :: w :: c :: r) := by
          rw [← hr]; exact h2
        by_contra hcon
        have hwc : LexLt w c := by
          have := (List.pairwise_cons.1 z2).1
          apply this
          show c ∈ pre ++ q :: post
          rw [hr]; simp
        have := hu z w c (z1 w (by simp)) hwc h2'.1 (not_lt.1 hcon)
        exact absurd hc this.asymm
      show (z :: ((w :: pre) ++ [q])).Pairwise _
      rw [List.pairwise_cons]
      refine ⟨?_, ih'⟩
      intro v hv
      rw [List.cons_append] at hv ih'
      rcases List.mem_cons.1 hv with rfl | hv
      · exact hzw
      · exact hzw.trans ((List.pairwise_cons.1 ih').1 v hv)

theorem uni_after {bad : Pt K → Pt K → Pt K → Bool} {n : Pt K} (hu : Unimodal bad n) :
    ∀ (post : List (Pt K)) (q : Pt K), (q :: post).Pairwise LexLt →
    Triples (fun a b c => bad a b c = false) (q :: post) →
    (∀ z, post.head? = some z → dotP n z < dotP n q) →
    (q :: post).Pairwise (fun a b => dotP n b < dotP n a) := by
  intro post
  induction post with
  | nil => intro q _ _ _; simp
  | cons b post ih =>
    intro q h1 h2 h3
    have hbq := h3 b (by simp)
    obtain ⟨q1, q2⟩ := List.pairwise_cons.1 h1
    have ih' := ih b q2 h2.tail (by
      intro z hz
      cases post with
      | nil => simp at hz
      | cons c post =>
        have : c = z := by simpa using hz
        subst this
        exact hu q b c (q1 b (by simp)) ((List.pairwise_cons.1 q2).1 c (by simp)) h2.1 hbq.le)
    rw [List.pairwise_cons]
    refine ⟨?_, ih'⟩
    intro v hv
    rcases List.mem_cons.1 hv with rfl | hv
    · exact hbq
    · exact ((List.pairwise_cons.1 ih').1 v hv).trans hbq

theorem triples_append_right {P : Pt K → Pt K → Pt K → Prop} {l m : List (Pt K)}
    (h : Triples P (l ++ m)) : Triples P m := by
  induction l with
  | nil => exact h
  | cons a l ih => exact ih (Triples.tail h)

/-- Along an edge that is a level line of `n`, all chain points are at most at that level. -/
theorem edge_supports {bad : Pt K → Pt K → Pt K → Bool} {n : Pt K} (hu : Unimodal bad n)
    (pre post : List (Pt K)) (a b : Pt K) (h1 : (pre ++ a :: b :: post).Pairwise LexLt)
    (h2 : Triples (fun a b c => bad a b c = false) (pre ++ a :: b :: post))
    (hab : dotP n a = dotP n b) : ∀ v ∈ pre ++ a :: b :: post, dotP n v ≤ dotP n a := by
  have hbef : (pre ++ [a]).Pairwise (fun a b => dotP n a < dotP n b) := by
    apply uni_before hu a (b :: post) pre h1 h2
    intro z hz
    obtain ⟨pre', rfl⟩ := List.getLast?_eq_some_iff.1 hz
    by_contra hc
    have h2' : Triples (fun a b c => bad a b c = false) (z :: a :: b :: post) := by
      apply triples_append_right (l := pre'); simpa using h2
    have h1' : (z :: a :: b :: post).Pairwise LexLt := by
      have : (pre' ++ (z :: a :: b :: post)).Pairwise LexLt := by simpa using h1
      exact (List.pairwise_append.1 this).2.1
    obtain ⟨z1, z2⟩ := List.pairwise_cons.1 h1'
    have := hu z a b (z1 a (by simp)) ((List.pairwise_cons.1 z2).1 b (by simp)) h2'.1 (not_lt.1 hc)
    rw [hab] at this; exact lt_irrefl _ this
  have hq : (a :: b :: post).Pairwise LexLt := (List.pairwise_append.1 h1).2.1
  have ht := triples_append_right h2
  have haft : (b :: post).Pairwise (fun a b => dotP n b < dotP n a) := by
    apply uni_after hu post b (List.pairwise_cons.1 hq).2 ht.tail
    intro z hz
    cases post with
    | nil => simp at hz
    | cons c post =>
      have : c = z := by simpa using hz
      subst this
      obtain ⟨q1, q2⟩ := List.pairwise_cons.1 hq
      exact hu a b c (q1 b (by simp)) ((List.pairwise_cons.1 q2).1 c (by simp)) ht.1 hab.ge
  intro v hv
  rcases List.mem_append.1 hv with hv | hv
  · exact ((List.pairwise_append.1 hbef).2.2 v hv a (by simp)).le
  · rcases List.mem_cons.1 hv with rfl | hv
    · exact le_refl _
    · rcases List.mem_cons.1 hv with rfl | hv
      · exact hab.ge
      · exact (((List.pairwise_cons.1 haft).1 v hv).le).trans hab.ge

/-! ### Calipers -/

/-- The calipers loop visits a pair `(q,p)` that is extreme in a direction with positive `y`. -/
theorem calipers_visits (n : Pt K) (hn : 0 < n.y) (q p : Pt K) : ∀ (k : Nat)
    (pre post pre' post' : List (Pt K)), pre.length + pre'.length = k →
    (pre ++ q :: post).Pairwise LexLt → (pre' ++ p :: post').Pairwise (fun a b => LexLt b a) →
    (pre ++ [q]).Pairwise (fun a b => dotP n a < dotP n b) →
    (∀ z, post.head? = some z → dotP n z < dotP n q) →
    (pre' ++ [p]).Pairwise (fun a b => dotP n b < dotP n a) →
    (∀ z, post'.head? = some z → dotP n p < dotP n z) →
    (q, p) ∈ calipers (pre ++ q :: post) (pre' ++ p :: post') ∨ (post = [] ∧ post' = []) := by
  intro k
  induction k with
  | zero =>
    intro pre post pre' post' hk _ _ _ _ _ _
    have e1 : pre = [] := List.length_eq_zero_iff.1 (by omega)
    have e2 : pre' = [] := List.length_eq_zero_iff.1 (by omega)
    subst e1 e2
    cases post with
    | nil =>
      cases post' with
      | nil => right; exact ⟨rfl, rfl⟩
      | cons b' ls => left; simp [calipers]
    | cons a' us =>
      cases post' with
      | nil => left; simp [calipers]
      | cons b' ls => left; simp [calipers]
  | succ k ih =>
    intro pre post pre' post' hk hu hl hup hua hlp hla
    cases pre with
    | nil =>
      cases pre' with
      | nil => simp at hk
      | cons b pre' =>
        have hl' := (List.pairwise_cons.1 hl).2
        have hlp' := (List.pairwise_cons.1 hlp).2
        have hrec := ih [] post pre' post' (by simp at hk ⊢; omega) hu hl' hup hua hlp' hla
        -- the second list has at least two elements
        obtain ⟨b', ls, hb'⟩ : ∃ b' ls, pre' ++ p :: post' = b' :: ls := by
          cases pre' with
          | nil => exact ⟨p, post', rfl⟩
          | cons x y => exact ⟨x, y ++ p :: post', rfl⟩
        have hnb : dotP n b' < dotP n b := by
          apply (List.pairwise_cons.1 hlp).1
          cases pre' with
          | nil =>
            have : p = b' := by injection hb'
            simp [this]
          | cons x y =>
            have : x = b' := by injection hb'
            simp [this]
        have hlex : LexLt b' b := (List.pairwise_cons.1 hl).1 b' (by
          show b' ∈ pre' ++ p :: post'
          rw [hb']; simp)
        rw [List.nil_append, List.cons_append, hb']
        rw [List.nil_append, hb'] at hrec
        cases post with
        | nil =>
          rcases hrec with h | h
          · left; rw [calipers]; exact List.mem_cons_of_mem _ h
          · exact Or.inr h
        | cons a' us =>
          rcases hrec with h | h
          · left
            have hcond : ¬ ((a'.y - q.y) * (b.x - b'.x) > (b.y - b'.y) * (a'.x - q.x)) := by
              have hna := hua a' (by simp)
              have hqa : LexLt q a' := (List.pairwise_cons.1 hu).1 a' (by simp)
              have hx1 : 0 ≤ a'.x - q.x := by linarith [hqa.le.x_le]
              have hx2 : 0 ≤ b.x - b'.x := by linarith [hlex.le.x_le]
              unfold dotP at hna hnb
              have m1 := mul_nonneg hx2 (show 0 ≤ -(n.x * (a'.x - q.x) + n.y * (a'.y - q.y)) by linarith)
              have m2 := mul_nonneg hx1 (show 0 ≤ n.x * (b.x - b'.x) + n.y * (b.y - b'.y) by linarith)
              intro hc
              have := mul_pos hn (sub_pos.2 hc)
              linarith
            rw [calipers, if_neg hcond]
            exact List.mem_cons_of_mem _ h
          · exact Or.inr h
    | cons a pre =>
      have hu' := (List.pairwise_cons.1 hu).2
      have hup' := (List.pairwise_cons.1 hup).2
      have hrec1 := ih pre post pre' post' (by simp at hk ⊢; omega) hu' hl hup' hua hlp hla
      obtain ⟨a', us, ha'⟩ : ∃ a' us, pre ++ q :: post = a' :: us := by
        cases pre with
        | nil => exact ⟨q, post, rfl⟩
        | cons x y => exact ⟨x, y ++ q :: post, rfl⟩
      have hna : dotP n a < dotP n a' := by
        apply (List.pairwise_cons.1 hup).1
        cases pre with
        | nil =>
          have : q = a' := by injection ha'
          simp [this]
        | cons x y =>
          have : x = a' := by injection ha'
          simp [this]
      have hlexa : LexLt a a' := (List.pairwise_cons.1 hu).1 a' (by
        show a' ∈ pre ++ q :: post
        rw [ha']; simp)
      rw [List.cons_append, ha']
      rw [ha'] at hrec1
      cases pre' with
      | nil =>
        rw [List.nil_append] at hrec1 ⊢
        cases post' with
        | nil =>
          rcases hrec1 with h | h
          · left; rw [calipers]; exact List.mem_cons_of_mem _ h
          · exact Or.inr h
        | cons b' ls =>
          rcases hrec1 with h | h
          · left
            have hcond : (a'.y - a.y) * (p.x - b'.x) > (p.y - b'.y) * (a'.x - a.x) := by
              have hnb := hla b' (by simp)
              have hpb : LexLt b' p := (List.pairwise_cons.1 hl).1 b' (by simp)
              have hx1 : 0 ≤ a'.x - a.x := by linarith [hlexa.le.x_le]
              have hx2 : 0 ≤ p.x - b'.x := by linarith [hpb.le.x_le]
              unfold dotP at hna hnb
              have hE : 0 < n.x * (a'.x - a.x) + n.y * (a'.y - a.y) := by linarith
              have hF : 0 < -(n.x * (p.x - b'.x) + n.y * (p.y - b'.y)) := by linarith
              have m1 := mul_nonneg hx2 hE.le
              have m2 := mul_nonneg hx1 hF.le
              have hpos : 0 < (p.x - b'.x) * (n.x * (a'.x - a.x) + n.y * (a'.y - a.y)) +
                  (a'.x - a.x) * -(n.x * (p.x - b'.x) + n.y * (p.y - b'.y)) := by
                rcases eq_or_lt_of_le hx2 with h0 | h0
                · rcases eq_or_lt_of_le hx1 with h1 | h1
                  · exfalso
                    rw [← h0] at hF
                    have : b'.y < p.y := by
                      rcases hpb with h | h
                      · linarith
                      · exact h.2
                    have := mul_pos hn (sub_pos.2 this)
                    linarith
                  · have := mul_pos h1 hF; linarith
                · have := mul_pos h0 hE; linarith
              by_contra hc
              have := mul_nonneg hn.le (sub_nonneg.2 (not_lt.1 hc))
              linarith
            rw [calipers, if_pos hcond]
            exact List.mem_cons_of_mem _ h
          · exact Or.inr h
      | cons b pre' =>
        have hl' := (List.pairwise_cons.1 hl).2
        have hlp' := (List.pairwise_cons.1 hlp).2
        have hrec2 := ih (a :: pre) post pre' post' (by simp at hk ⊢; omega) hu hl' hup hua hlp' hla
        obtain ⟨b', ls, hb'⟩ : ∃ b' ls, pre' ++ p :: post' = b' :: ls := by
          cases pre' with
          | nil => exact ⟨p, post', rfl⟩
          | cons x y => exact ⟨x, y ++ p :: post', rfl⟩
        rw [List.cons_append, ha', hb'] at hrec2
        rw [List.cons_append, hb'] at hrec1 ⊢
        rw [calipers]
        by_cases hcond : (a'.y - a.y) * (b.x - b'.x) > (b.y - b'.y) * (a'.x - a.x)
        · rw [if_pos hcond]
          rcases hrec1 with h | h
          · exact Or.inl (List.mem_cons_of_mem _ h)
          · exact Or.inr h
        · rw [if_neg hcond]
          rcases hrec2 with h | h
          · exact Or.inl (List.mem_cons_of_mem _ h)
          · exact Or.inr h

theorem calipers_mem : ∀ (us ls : List (Pt K)) (e : Pt K × Pt K),
    e ∈ calipers us ls → e.1 ∈ us ∧ e.2 ∈ ls := by
  intro us ls
  induction us, ls using calipers.induct with
  | case1 a b b' ls ih =>
    intro e he
    rw [calipers] at he
    rcases List.mem_cons.1 he with rfl | he
    · simp
    · have := ih e he
      exact ⟨this.1, List.mem_cons_of_mem _ this.2⟩
  | case2 a a' us b ih =>
    intro e he
    rw [calipers] at he
    rcases List.mem_cons.1 he with rfl | he
    · simp
    · have := ih e he
      exact ⟨List.mem_cons_of_mem _ this.1, this.2⟩
  | case3 a a' us b b' ls ih1 ih2 =>
    intro e he
    rw [calipers] at he
    rcases List.mem_cons.1 he with rfl | he
    · simp
    · split at he
      · have := ih1 e he
        exact ⟨List.mem_cons_of_mem _ this.1, this.2⟩
      · have := ih2 e he
        exact ⟨this.1, List.mem_cons_of_mem _ this.2⟩
  | case4 us ls h1 h2 h3 =>
    intro e he
    rw [calipers] at he
    · simp at he
    · exact h1
    · exact h2
    · exact h3

end Delynoi
