import Verif.Proofs.TriSort3
/-!
# The comparisons of Triangle's sorting functions
-/
namespace Delynoi.Tri

set_option linter.unusedSectionVars false

variable {K : Type} [LinearOrder K] {V : Type}

theorem axisLt_false_iff (ax : Bool) (p q : Pt K) : axisLt ax q p = false ↔ AxisLe ax p q := by
  unfold axisLt AxisLe
  cases ax with
  | true =>
    simp only [if_true, Bool.or_eq_false_iff, Bool.and_eq_false_iff, decide_eq_false_iff_not,
      not_lt]
    constructor
    · rintro ⟨h1, h2⟩
      rcases lt_or_eq_of_le h1 with h | h
      · exact .inl h
      · rcases h2 with h2 | h2
        · exact absurd h.symm h2
        · exact .inr ⟨h, h2⟩
    · rintro (h | ⟨h1, h2⟩)
      · exact ⟨h.le, .inl (fun e => by rw [e] at h; exact lt_irrefl _ h)⟩
      · exact ⟨h1.le, .inr h2⟩
  | false =>
    simp only [Bool.false_eq_true, if_false, Bool.or_eq_false_iff, Bool.and_eq_false_iff,
      decide_eq_false_iff_not, not_lt]
    constructor
    · rintro ⟨h1, h2⟩
      rcases lt_or_eq_of_le h1 with h | h
      · exact .inl h
      · rcases h2 with h2 | h2
        · exact absurd h.symm h2
        · exact .inr ⟨h, h2⟩
    · rintro (h | ⟨h1, h2⟩)
      · exact ⟨h.le, .inl (fun e => by rw [e] at h; exact lt_irrefl _ h)⟩
      · exact ⟨h1.le, .inr h2⟩

theorem axisLe_total (ax : Bool) (p q : Pt K) : AxisLe ax p q ∨ AxisLe ax q p := by
  unfold AxisLe
  cases ax with
  | true =>
    simp only [if_true]
    rcases lt_trichotomy p.y q.y with h | h | h
    · exact .inl (.inl h)
    · rcases le_total p.x q.x with h2 | h2
      · exact .inl (.inr ⟨h, h2⟩)
      · exact .inr (.inr ⟨h.symm, h2⟩)
    · exact .inr (.inl h)
  | false =>
    simp only [Bool.false_eq_true, if_false]
    rcases lt_trichotomy p.x q.x with h | h | h
    · exact .inl (.inl h)
    · rcases le_total p.y q.y with h2 | h2
      · exact .inl (.inr ⟨h, h2⟩)
      · exact .inr (.inr ⟨h.symm, h2⟩)
    · exact .inr (.inl h)

theorem axisLe_trans {ax : Bool} {p q s : Pt K} (h1 : AxisLe ax p q) (h2 : AxisLe ax q s) :
    AxisLe ax p s := by
  unfold AxisLe at *
  cases ax with
  | true =>
    simp only [if_true] at *
    rcases h1 with h1 | ⟨h1, h1'⟩ <;> rcases h2 with h2 | ⟨h2, h2'⟩
    · exact .inl (h1.trans h2)
    · exact .inl (h2 ▸ h1)
    · exact .inl (h1 ▸ h2)
    · exact .inr ⟨h1.trans h2, h1'.trans h2'⟩
  | false =>
    simp only [Bool.false_eq_true, if_false] at *
    rcases h1 with h1 | ⟨h1, h1'⟩ <;> rcases h2 with h2 | ⟨h2, h2'⟩
    · exact .inl (h1.trans h2)
    · exact .inl (h2 ▸ h1)
    · exact .inl (h1 ▸ h2)
    · exact .inr ⟨h1.trans h2, h1'.trans h2'⟩

theorem axisLe_antisymm {ax : Bool} {p q : Pt K} (h1 : AxisLe ax p q) (h2 : AxisLe ax q p) :
    p = q := by
  unfold AxisLe at *
  cases ax with
  | true =>
    simp only [if_true] at *
    rcases h1 with h1 | ⟨h1, h1'⟩ <;> rcases h2 with h2 | ⟨h2, h2'⟩
    · exact absurd h1 h2.asymm
    · exact absurd h2 h1.ne'
    · exact absurd h1 h2.ne'
    · exact Pt.ext (le_antisymm h1' h2') h1
  | false =>
    simp only [Bool.false_eq_true, if_false] at *
    rcases h1 with h1 | ⟨h1, h1'⟩ <;> rcases h2 with h2 | ⟨h2, h2'⟩
    · exact absurd h1 h2.asymm
    · exact absurd h2 h1.ne'
    · exact absurd h1 h2.ne'
    · exact Pt.ext h1 (le_antisymm h1' h2')

theorem axisLt_weak (pos : V → Pt K) (ax : Bool) :
    Weak fun u v => axisLt ax (pos u) (pos v) where
  irr v := (axisLt_false_iff ax _ _).mpr ((axisLe_total ax (pos v) (pos v)).elim id id)
  asymm x y h := by
    rw [axisLt_false_iff]
    rcases axisLe_total ax (pos x) (pos y) with h1 | h1
    · exact h1
    · rw [(axisLt_false_iff ax _ _).mpr h1] at h
      cases h
  trans x y z h1 h2 := by
    rw [axisLt_false_iff] at h1 h2 ⊢
    exact axisLe_trans h1 h2

theorem samePt_iff (p q : Pt K) : samePt p q = true ↔ p = q := by
  unfold samePt
  rw [Bool.and_eq_true, decide_eq_true_iff, decide_eq_true_iff]
  exact ⟨fun h => Pt.ext h.1 h.2, fun h => by rw [h]; exact ⟨rfl, rfl⟩⟩

theorem ext_lt_irrefl (a : Ext K) : a.lt a = false := by
  cases a <;> simp [Ext.lt]

theorem axisLtExt_irrefl (ax : Bool) (p : Ext K × Ext K) : axisLtExt ax p p = false := by
  unfold axisLtExt
  cases ax <;> simp [ext_lt_irrefl]

/-- A sorted list without equal neighbours has no equal elements. -/
theorem nodup_of_chain (pos : V → Pt K) : ∀ c : List V,
    c.Pairwise (leOf (fun ax u v => axisLt ax (pos u) (pos v)) false) →
    (c.IsChain fun x y => samePt (pos x) (pos y) = false) → (c.map pos).Nodup
  | [], _, _ => List.nodup_nil
  | [x], _, _ => by simp
  | x :: y :: l, hp, hc => by
    have ih := nodup_of_chain pos (y :: l) (List.pairwise_cons.mp hp).2
      (List.isChain_cons_cons.mp hc).2
    rw [List.map_cons, List.nodup_cons]
    refine ⟨fun hmem => ?_, ih⟩
    obtain ⟨z, hz, hzx⟩ := List.mem_map.mp hmem
    have hxy : AxisLe false (pos x) (pos y) :=
      (axisLt_false_iff false _ _).mp ((List.pairwise_cons.mp hp).1 y (by simp))
    have hyz : AxisLe false (pos y) (pos z) := by
      rcases List.mem_cons.mp hz with rfl | h
      · exact (axisLe_total false (pos z) (pos z)).elim id id
      · exact (axisLt_false_iff false _ _).mp
          ((List.pairwise_cons.mp (List.pairwise_cons.mp hp).2).1 z h)
    rw [hzx] at hyz
    have e := axisLe_antisymm hxy hyz
    have := (List.isChain_cons_cons.mp hc).1
    rw [(samePt_iff _ _).mpr e] at this
    cases this

theorem cutReady_mono {le le' : Bool → V → V → Prop} (h : ∀ ax x y, le ax x y → le' ax x y)
    {ax : Bool} {l : List V} (hc : CutReady le ax l) : CutReady le' ax l := by
  induction hc with
  | small ax l h1 h2 => exact .small ax l h1 (h2.imp (h false _ _))
  | cut ax l r h1 h2 h3 _ _ ih1 ih2 =>
    exact .cut ax l r h1 h2 (fun x hx y hy => h ax _ _ (h3 x hx y hy)) ih1 ih2

end Delynoi.Tri
