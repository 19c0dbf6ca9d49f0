import Verif.Proofs.TriSort
import Verif.Spec.TriSort
/-!
# Lemmas about Triangle's quicksort, order statistic and alternating cuts
-/
namespace Delynoi.Tri

set_option linter.unusedSectionVars false

variable {V : Type}

/-- A comparison that orders the vertices up to ties. -/
structure Weak (lt : V → V → Bool) : Prop where
  irr : ∀ v, lt v v = false
  asymm : ∀ x y, lt x y = true → lt y x = false
  trans : ∀ x y z, lt y x = false → lt z y = false → lt z x = false

theorem mem_take_get {b : List V} {n : Nat} {x : V} (h : x ∈ b.take n) :
    ∃ i, i < n ∧ b[i]? = some x := by
  obtain ⟨i, hi, rfl⟩ := List.mem_iff_getElem.mp h
  rw [List.length_take] at hi
  refine ⟨i, by omega, ?_⟩
  rw [List.getElem_take]
  exact List.getElem?_eq_getElem _

theorem mem_drop_get {b : List V} {n : Nat} {x : V} (h : x ∈ b.drop n) :
    ∃ i, n ≤ i ∧ b[i]? = some x := by
  obtain ⟨i, hi, rfl⟩ := List.mem_iff_getElem.mp h
  rw [List.length_drop] at hi
  refine ⟨n + i, by omega, ?_⟩
  rw [List.getElem_drop]
  exact List.getElem?_eq_getElem _

theorem Cut.sides {lt : V → V → Bool} (hw : Weak lt) {p : V} {b : List V} {l r : Int}
    (hc : Cut (fun x => lt x p) (fun x => lt p x) b l r) :
    (∀ x ∈ b.take l.toNat, lt p x = false) ∧ (∀ x ∈ b.drop l.toNat, lt x p = false) ∧
    (∀ x ∈ b.take (r + 1).toNat, lt p x = false) ∧
    (∀ x ∈ b.drop (r + 1).toNat, lt x p = false) := by
  have hr := hc.r0
  have hn := hc.near
  have low : ∀ (i : Nat) x, (i : Int) < l → b[i]? = some x → lt p x = false := by
    intro i x hi hx
    rcases hc.low i x hi ((vecGet_iff _ _ _).mpr ⟨by omega, by simpa using hx⟩) with h | h
    · exact hw.asymm _ _ h
    · exact h
  have high : ∀ (i : Nat) x, r < (i : Int) → b[i]? = some x → lt x p = false := by
    intro i x hi hx
    rcases hc.high i x hi ((vecGet_iff _ _ _).mpr ⟨by omega, by simpa using hx⟩) with h | h
    · exact hw.asymm _ _ h
    · exact h
  have mid : ∀ (i : Nat) x, (i : Int) = l → l = r → b[i]? = some x →
      lt x p = false ∧ lt p x = false := by
    intro i x hi hlr hx
    exact hc.mid hlr x ((vecGet_iff _ _ _).mpr ⟨by omega, by rw [← hi]; simpa using hx⟩)
  refine ⟨fun x hx => ?_, fun x hx => ?_, fun x hx => ?_, fun x hx => ?_⟩
  · obtain ⟨i, hi, h⟩ := mem_take_get hx
    exact low i x (by omega) h
  · obtain ⟨i, hi, h⟩ := mem_drop_get hx
    by_cases h' : r < (i : Int)
    · exact high i x h' h
    · exact (mid i x (by omega) (by omega) h).1
  · obtain ⟨i, hi, h⟩ := mem_take_get hx
    by_cases h' : (i : Int) < l
    · exact low i x h' h
    · exact (mid i x (by omega) (by omega) h).2
  · obtain ⟨i, hi, h⟩ := mem_drop_get hx
    exact high i x (by omega) h

/-- Sorted: nothing comes before an earlier element. -/
def Srt (lt : V → V → Bool) (l : List V) : Prop := l.Pairwise fun x y => lt y x = false

theorem srt_small (lt : V → V → Bool) (l : List V) (h : l.length ≤ 1) : Srt lt l := by
  match l, h with
  | [], _ => exact List.Pairwise.nil
  | [x], _ => exact List.pairwise_singleton _ _

theorem sortTwo_spec (lt : V → V → Bool) (x y : V) :
    (sortTwo lt x y).Perm [x, y] ∧ (Weak lt → Srt lt (sortTwo lt x y)) := by
  unfold sortTwo
  cases h : lt y x with
  | true =>
    rw [if_pos rfl]
    refine ⟨List.Perm.swap _ _ _, fun hw => ?_⟩
    simp [Srt, hw.asymm _ _ h]
  | false =>
    rw [if_neg (by simp)]
    exact ⟨List.Perm.refl _, fun hw => by simp [Srt, h]⟩

theorem take_append_eq (A b : List V) (l r : Nat) (h : A.length = l) (hlr : l ≤ r) :
    (A ++ b.drop l).take r = A ++ (b.drop l).take (r - l) ∧
    (A ++ b.drop l).drop r = b.drop r := by
  subst h
  constructor
  · rw [List.take_append, List.take_of_length_le hlr]
  · rw [List.drop_append, List.drop_of_length_le hlr, List.nil_append, List.drop_drop]
    congr 1
    omega

theorem vertexsort_spec (lt : V → V → Bool) (hirr : ∀ v, lt v v = false) :
    ∀ (d : Nat) (a : List V) (seed : Nat), 0 < a.length → a.length ≤ d →
      ∃ b s, vertexsort lt d a seed = .ok (b, s) ∧ b.Perm a ∧ (Weak lt → Srt lt b) := by
  intro d
  induction d with
  | zero => intro a seed h1 h2; omega
  | succ d ih =>
    intro a seed h1 h2
    by_cases hex : ∃ x y, a = [x, y]
    · obtain ⟨x, y, rfl⟩ := hex
      exact ⟨sortTwo lt x y, seed, rfl, sortTwo_spec lt x y⟩
    · obtain ⟨b, l, r, s, p, e, hperm, hc⟩ := split_spec lt hirr a seed h1
      have hlen := hperm.length_eq
      have hr0 := hc.r0
      have hln := hc.ln
      have hnear := hc.near
      -- the left part
      obtain ⟨A, s1, eA, hA, hsA⟩ : ∃ A s1,
          (if l > 1 then (do
            let t ← vertexsort lt d (b.take l.toNat) s
            pure (t.1 ++ b.drop l.toNat, t.2)) else pure (b, s) : Outcome (List V × Nat))
            = .ok (A ++ b.drop l.toNat, s1) ∧ A.Perm (b.take l.toNat) ∧
            (Weak lt → Srt lt A) := by
        by_cases hl : l > 1
        · obtain ⟨A, s1, eA, hA, hsA⟩ := ih (b.take l.toNat) s
            (by rw [List.length_take]; omega) (by rw [List.length_take]; omega)
          exact ⟨A, s1, by simp [hl, eA], hA, hsA⟩
        · refine ⟨b.take l.toNat, s, by simp [hl], List.Perm.refl _, fun _ => srt_small _ _ ?_⟩
          rw [List.length_take]
          omega
      have hAlen : A.length = l.toNat := by
        rw [hA.length_eq, List.length_take]; omega
      obtain ⟨et, ed⟩ := take_append_eq A b l.toNat (r + 1).toNat hAlen (by omega)
      -- the right part
      obtain ⟨C, s2, eC, hC, hsC⟩ : ∃ C s2,
          (if r < (a.length : Int) - 2 then (do
            let t ← vertexsort lt d ((A ++ b.drop l.toNat).drop (r + 1).toNat) s1
            pure ((A ++ b.drop l.toNat).take (r + 1).toNat ++ t.1, t.2))
            else pure (A ++ b.drop l.toNat, s1) : Outcome (List V × Nat))
            = .ok (A ++ (b.drop l.toNat).take ((r + 1).toNat - l.toNat) ++ C, s2) ∧
            C.Perm (b.drop (r + 1).toNat) ∧ (Weak lt → Srt lt C) := by
        by_cases hr : r < (a.length : Int) - 2
        · obtain ⟨C, s2, eC, hC, hsC⟩ := ih (b.drop (r + 1).toNat) s1
            (by rw [List.length_drop]; omega) (by rw [List.length_drop]; omega)
          exact ⟨C, s2, by rw [if_pos hr, ed, eC, et]; rfl, hC, hsC⟩
        · refine ⟨b.drop (r + 1).toNat, s1, ?_, List.Perm.refl _, fun _ => srt_small _ _ ?_⟩
          · rw [if_neg hr, ← et, ← ed, List.take_append_drop]
            rfl
          · rw [List.length_drop]
            omega
      refine ⟨A ++ (b.drop l.toNat).take ((r + 1).toNat - l.toNat) ++ C, s2, ?_, ?_, ?_⟩
      · rw [← eC, vertexsort.eq_def]
        simp only
        split
        · exact absurd ⟨_, _, rfl⟩ hex
        · rw [e]
          simp only [Outcome.bind_ok]
          rw [eA]
          simp only [Outcome.bind_ok]
      · refine List.Perm.trans ?_ hperm
        have hAC : (A ++ (b.drop l.toNat).take ((r + 1).toNat - l.toNat) ++ C).Perm
            (b.take l.toNat ++ (b.drop l.toNat).take ((r + 1).toNat - l.toNat) ++
              b.drop (r + 1).toNat) :=
          ((hA.append_right _).append hC)
        refine hAC.trans ?_
        have : b.drop (r + 1).toNat = (b.drop l.toNat).drop ((r + 1).toNat - l.toNat) := by
          rw [List.drop_drop]; congr 1; omega
        rw [this, List.append_assoc, List.take_append_drop, List.take_append_drop]
      · intro hw
        obtain ⟨w1, w2, w3, w4⟩ := hc.sides hw
        have mid : ∀ x ∈ (b.drop l.toNat).take ((r + 1).toNat - l.toNat),
            lt x p = false ∧ lt p x = false := by
          intro x hx
          refine ⟨w2 x (List.mem_of_mem_take hx), w3 x ?_⟩
          obtain ⟨i, hi, h⟩ := mem_take_get hx
          rw [List.getElem?_drop] at h
          have hlt : l.toNat + i < b.length := (List.getElem?_eq_some_iff.mp h).1
          have h3 : (b.take (r + 1).toNat)[l.toNat + i]? = some x := by
            rw [List.getElem?_take, if_pos (by omega), h]
          exact List.mem_of_getElem? h3
        unfold Srt
        rw [List.pairwise_append, List.pairwise_append]
        refine ⟨⟨hsA hw, ?_, ?_⟩, hsC hw, ?_⟩
        · refine List.pairwise_iff_forall_sublist.mpr fun {x y} hs => ?_
          exact hw.trans x p y (mid x (hs.subset (by simp))).2 (mid y (hs.subset (by simp))).1
        · intro x hx y hy
          exact hw.trans x p y (w1 x (hA.mem_iff.mp hx)) (mid y hy).1
        · intro x hx y hy
          refine hw.trans x p y ?_ (w4 y (hC.mem_iff.mp hy))
          rcases List.mem_append.mp hx with h | h
          · exact w1 x (hA.mem_iff.mp h)
          · exact (mid x h).2

/-- The first `m` elements do not come after the others. -/
def Halved (lt : V → V → Bool) (b : List V) (m : Nat) : Prop :=
  ∀ x ∈ b.take m, ∀ y ∈ b.drop m, lt y x = false

theorem srt_halved {lt : V → V → Bool} {b : List V} (h : Srt lt b) (m : Nat) :
    Halved lt b m := by
  have := h
  unfold Srt at this
  rw [← List.take_append_drop m b, List.pairwise_append] at this
  exact this.2.2

theorem vertexmedian_spec (lt : V → V → Bool) (hirr : ∀ v, lt v v = false) :
    ∀ (d : Nat) (a : List V) (m : Int) (seed : Nat), 0 < a.length → a.length ≤ d → 0 ≤ m →
      m ≤ a.length → ∃ b s, vertexmedian lt d a m seed = .ok (b, s) ∧ b.Perm a ∧
        (Weak lt → Halved lt b m.toNat ∧ (a.length = 2 → Srt lt b)) := by
  intro d
  induction d with
  | zero => intro a m seed h1 h2; omega
  | succ d ih =>
    intro a m seed h1 h2 hm0 hm
    by_cases hex : ∃ x y, a = [x, y]
    · obtain ⟨x, y, rfl⟩ := hex
      obtain ⟨h3, h4⟩ := sortTwo_spec lt x y
      exact ⟨sortTwo lt x y, seed, rfl, h3, fun hw => ⟨srt_halved (h4 hw) _, fun _ => h4 hw⟩⟩
    · have hne2 : a.length ≠ 2 := fun h => hex (List.length_eq_two.mp h)
      obtain ⟨b, l, r, s, p, e, hperm, hc⟩ := split_spec lt hirr a seed h1
      have hlen := hperm.length_eq
      have hr0 := hc.r0
      have hln := hc.ln
      have hnear := hc.near
      have hstep : ∀ (u v : Outcome (List V × Nat)),
          (if l > m then (do
            let t ← vertexmedian lt d (b.take l.toNat) m s
            pure (t.1 ++ b.drop l.toNat, t.2)) else pure (b, s)) = u →
          (u >>= fun u => if r < m - 1 then (do
            let t ← vertexmedian lt d (u.1.drop (r + 1).toNat) (m - r - 1) u.2
            pure (u.1.take (r + 1).toNat ++ t.1, t.2)) else pure u) = v →
          vertexmedian lt (d + 1) a m seed = v := by
        intro u v hu hv
        rw [← hv, ← hu, vertexmedian.eq_def]
        simp only
        split
        · exact absurd ⟨_, _, rfl⟩ hex
        · rw [e]
          simp only [Outcome.bind_ok]
      by_cases hl : l > m
      · obtain ⟨A, s1, eA, hA, hsA⟩ := ih (b.take l.toNat) m s
          (by rw [List.length_take]; omega) (by rw [List.length_take]; omega) hm0
          (by rw [List.length_take]; omega)
        have hAlen : A.length = l.toNat := by
          rw [hA.length_eq, List.length_take]; omega
        refine ⟨A ++ b.drop l.toNat, s1, hstep (.ok (A ++ b.drop l.toNat, s1)) _ ?_ ?_, ?_, ?_⟩
        · rw [if_pos hl, eA]
          rfl
        · rw [Outcome.bind_ok, if_neg (by omega)]
          rfl
        · exact ((hA.append_right _).trans (by rw [List.take_append_drop])).trans hperm
        · intro hw
          obtain ⟨w1, w2, w3, w4⟩ := hc.sides hw
          refine ⟨?_, fun h => absurd h hne2⟩
          intro x hx y hy
          rw [List.take_append_of_le_length (by omega)] at hx
          rw [List.drop_append_of_le_length (by omega)] at hy
          rcases List.mem_append.mp hy with h | h
          · exact (hsA hw).1 x hx y h
          · exact hw.trans x p y (w1 x (hA.mem_iff.mp (List.mem_of_mem_take hx))) (w2 y h)
      · by_cases hr : r < m - 1
        · obtain ⟨C, s2, eC, hC, hsC⟩ := ih (b.drop (r + 1).toNat) (m - r - 1) s
            (by rw [List.length_drop]; omega) (by rw [List.length_drop]; omega) (by omega)
            (by rw [List.length_drop]; omega)
          have hl1 : (b.take (r + 1).toNat).length = (r + 1).toNat := by
            rw [List.length_take]; omega
          refine ⟨b.take (r + 1).toNat ++ C, s2, hstep (.ok (b, s)) _ ?_ ?_, ?_, ?_⟩
          · rw [if_neg hl]
            rfl
          · rw [Outcome.bind_ok, if_pos hr, eC]
            rfl
          · exact ((hC.append_left _).trans (by rw [List.take_append_drop])).trans hperm
          · intro hw
            obtain ⟨w1, w2, w3, w4⟩ := hc.sides hw
            refine ⟨?_, fun h => absurd h hne2⟩
            intro x hx y hy
            rw [List.take_append, hl1] at hx
            rw [List.drop_append, hl1, List.drop_of_length_le (by omega), List.nil_append] at hy
            have em : m.toNat - (r + 1).toNat = (m - r - 1).toNat := by omega
            rw [em] at hx hy
            rcases List.mem_append.mp hx with h | h
            · exact hw.trans x p y (w3 x (List.mem_of_mem_take h))
                (w4 y (hC.mem_iff.mp (List.mem_of_mem_drop hy)))
            · exact (hsC hw).1 x h y hy
        · refine ⟨b, s, hstep (.ok (b, s)) _ ?_ ?_, hperm, ?_⟩
          · rw [if_neg hl]
            rfl
          · rw [Outcome.bind_ok, if_neg hr]
            rfl
          · intro hw
            obtain ⟨w1, w2, w3, w4⟩ := hc.sides hw
            refine ⟨?_, fun h => absurd h hne2⟩
            intro x hx y hy
            refine hw.trans x p y (w3 x ?_) (w2 y ?_)
            · exact (List.take_subset_take_left b (by omega)) hx
            · obtain ⟨i, hi, h⟩ := mem_drop_get hy
              have h3 : (b.drop l.toNat)[i - l.toNat]? = some y := by
                rw [List.getElem?_drop, ← h]; congr 1; omega
              exact List.mem_of_getElem? h3

end Delynoi.Tri
