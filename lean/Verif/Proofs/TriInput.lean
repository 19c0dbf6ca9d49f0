import Verif.Model.TriInput
import Verif.Spec.TriInput
import Verif.Proofs.TriPool
import Verif.Props.Arrays
/-!
# Input of Triangle: proofs
-/
set_option linter.unusedSectionVars false
namespace Delynoi.Tri

variable {K : Type} [Field K] [LinearOrder K] [IsStrictOrderedRing K] {first per : Nat}

theorem Pool.Good.alloc_nil (hp : 0 < per) {p : Pool} {live : List Item} (G : p.Good first per live) (hd : p.dead = []) :
    p.alloc.1 = slot first per p.maxitems ∧ p.alloc.2.dead = [] ∧ p.alloc.2.maxitems = p.maxitems + 1 := by
  unfold Pool.alloc
  rw [hd]
  by_cases h0 : p.unallocateditems = 0
  · have := G.pos
    rw [h0] at this
    obtain ⟨k1, -⟩ := this.move hp
    simp only [h0, if_true]
    exact ⟨by rw [← k1, G.now], trivial, trivial⟩
  · obtain ⟨k1, -⟩ := G.pos.stay h0
    simp only [if_neg h0]
    exact ⟨k1, hd, trivial⟩

theorem readAttrs_spec (vals : List K) : ∀ (n i : Nat), i + n ≤ vals.length →
    readAttrs (vals.map some) i n = .ok ((vals.drop i).take n) := by
  intro n
  induction n with
  | zero => intro i _; simp [readAttrs]
  | succ n ih =>
    intro i h
    have hi : i < vals.length := by omega
    have e : Arr.read (vals.map some) i = .ok vals[i] := by
      unfold Arr.read; rw [List.getElem?_map, List.getElem?_eq_getElem hi]; rfl
    unfold readAttrs
    rw [e, Outcome.bind_ok, ih (i + 1) (by omega), Outcome.bind_ok, List.drop_eq_getElem_cons hi, List.take_succ_cons]

theorem IsBox.grow {l : List (Pt K)} {lo hi q : Pt K} (h : IsBox l lo hi) :
    IsBox (l ++ [q]) ⟨if q.x < lo.x then q.x else lo.x, if q.y < lo.y then q.y else lo.y⟩ ⟨if hi.x < q.x then q.x else hi.x, if hi.y < q.y then q.y else hi.y⟩ := by
  obtain ⟨b, ⟨q1, m1, e1⟩, ⟨q2, m2, e2⟩, ⟨q3, m3, e3⟩, q4, m4, e4⟩ := h
  have self : q ∈ l ++ [q] := by simp
  refine ⟨?_, ?_, ?_, ?_, ?_⟩
  · intro r hr
    have ifmin : ∀ a b : K, (if a < b then a else b) = min a b := fun a b => by
      rcases lt_or_ge a b with h | h
      · rw [if_pos h, min_eq_left h.le]
      · rw [if_neg (not_lt.mpr h), min_eq_right h]
    have ifmax : ∀ a b : K, (if b < a then a else b) = max a b := fun a b => by
      rcases lt_or_ge b a with h | h
      · rw [if_pos h, max_eq_left h.le]
      · rw [if_neg (not_lt.mpr h), max_eq_right h]
    simp only [ifmin, ifmax]
    rcases List.mem_append.mp hr with hr | hr
    · obtain ⟨k1, k2, k3, k4⟩ := b r hr
      exact ⟨(min_le_right _ _).trans k1, k2.trans (le_max_right _ _), (min_le_right _ _).trans k3, k4.trans (le_max_right _ _)⟩
    · obtain rfl : r = q := by simpa using hr
      exact ⟨min_le_left _ _, le_max_left _ _, min_le_left _ _, le_max_left _ _⟩
  · by_cases h : q.x < lo.x
    · exact ⟨q, self, by simp [h]⟩
    · exact ⟨q1, List.mem_append_left _ m1, by simp [h, e1]⟩
  · by_cases h : hi.x < q.x
    · exact ⟨q, self, by simp [h]⟩
    · exact ⟨q2, List.mem_append_left _ m2, by simp [h, e2]⟩
  · by_cases h : q.y < lo.y
    · exact ⟨q, self, by simp [h]⟩
    · exact ⟨q3, List.mem_append_left _ m3, by simp [h, e3]⟩
  · by_cases h : hi.y < q.y
    · exact ⟨q, self, by simp [h]⟩
    · exact ⟨q4, List.mem_append_left _ m4, by simp [h, e4]⟩

/-- The vertices `l` have been read. -/
structure Nodes.Has (first per : Nat) (attr : Nat → List K) (mark : Nat → Int) (s : Nodes K) (l : List (Pt K)) : Prop where
  reach : ∃ live, Reach first per s.pool live ∧ live.length = l.length
  dead : s.pool.dead = []
  size : s.pool.maxitems = l.length
  node : ∀ k q, l[k]? = some q → s.node (slot first per k) = some ⟨q, attr k, mark k⟩
  box : l ≠ [] → ∃ lo hi, s.box = some (lo, hi) ∧ IsBox l lo hi

theorem transferLoop_spec (hf : 0 < first) (hp : 0 < per) {attr : Nat → List K} {mark : Nat → Int} {al : Arr K} {ml : Option (Arr Int)} {nattr : Nat} {pts : List (Pt K)}
    (ha : ∀ i < pts.length, readAttrs al (nattr * i) nattr = .ok (attr i))
    (hm : ∀ i < pts.length, markAt ml i = .ok (mark i)) :
    ∀ (rest l : List (Pt K)) (s : Nodes K), l ++ rest = pts → s.Has first per attr mark l →
      ∃ s', transferLoop (flatPts pts) al ml nattr l.length rest.length s = .ok s' ∧ s'.Has first per attr mark pts := by
  intro rest
  induction rest with
  | nil => intro l s e h; rw [List.append_nil] at e; subst e; exact ⟨s, rfl, h⟩
  | cons q rest ih =>
    intro l s e h
    have hl : l.length < pts.length := by rw [← e]; simp
    have ef : flatPts pts = flatPts l ++ some q.x :: some q.y :: flatPts rest := by
      rw [← e]; simp [flatPts]
    have ef' : flatPts pts = (flatPts l ++ [some q.x]) ++ some q.y :: flatPts rest := by rw [ef]; simp
    have r1 : Arr.read (flatPts pts) (2 * l.length) = .ok q.x := by
      rw [ef]; exact read_append _ _ _ _ (flatPts_length l).symm
    have r2 : Arr.read (flatPts pts) (2 * l.length + 1) = .ok q.y := by
      rw [ef']; exact read_append _ _ _ _ (by simp [flatPts_length])
    obtain ⟨live, hr, hn⟩ := h.reach
    have G := hr.good hf hp
    obtain ⟨a1, a2, a3⟩ := G.alloc_nil hp h.dead
    rw [h.size] at a1 a3
    have hbox : ∃ lo hi, growBox l.length q.x q.y s.box = .ok (some (lo, hi)) ∧ IsBox (l ++ [q]) lo hi := by
      cases l with
      | nil => exact ⟨q, q, rfl, by constructor <;> simp⟩
      | cons a l =>
        obtain ⟨lo, hi, e1, e2⟩ := h.box (by simp)
        refine ⟨_, _, ?_, e2.grow⟩
        simp [growBox, e1]
    obtain ⟨lo, hi, b1, b2⟩ := hbox
    have := ih (l ++ [q]) ⟨s.pool.alloc.2, Function.update s.node s.pool.alloc.1 (some ⟨⟨q.x, q.y⟩, attr l.length, mark l.length⟩), some (lo, hi)⟩ (by rw [← e]; simp)
      ⟨⟨_, hr.alloc, by simp [hn]⟩, a2, by simp [a3], ?_, fun _ => ⟨lo, hi, rfl, b2⟩⟩
    · obtain ⟨s', k1, k2⟩ := this
      refine ⟨s', ?_, k2⟩
      rw [List.length_cons]
      unfold transferLoop
      simp only []
      rw [r1, Outcome.bind_ok, r2, Outcome.bind_ok, ha _ hl, Outcome.bind_ok, hm _ hl, Outcome.bind_ok, b1, Outcome.bind_ok]
      simpa using k1
    · intro k r hk
      show Function.update s.node s.pool.alloc.1 _ _ = _
      rw [a1]
      rcases lt_trichotomy k l.length with hlt | rfl | hgt
      · rw [Function.update_of_ne (fun e => by have := slot_inj hp e; omega)]
        rw [List.getElem?_append_left hlt] at hk
        exact h.node k r hk
      · rw [Function.update_self]
        simp at hk
        subst hk
        rfl
      · rw [List.getElem?_eq_none (by simp; omega)] at hk; cases hk

theorem skeletonLoop_spec {σ : Type} {ins : σ → Item → Item → Int → Outcome σ} {v : Nodes K} {fn : Int} {fuel : Nat} {ml : Option (Arr Int)} {pts : List (Pt K)} {at' : Nat → Item}
    (hget : ∀ (k : Nat) q, pts[k]? = some q → v.pool.getvertex fn (fn + k) fuel = .ok (at' k) ∧ v.pt (at' k) = .ok q) {all : List ((Int × Int) × Int)}
    (hm : (ml = none ∧ ∀ s ∈ all, s.2 = 0) ∨ ml = some (all.map fun s => some s.2)) :
    ∀ (rest l : List ((Int × Int) × Int)) (s : σ), l ++ rest = all →
      skeletonLoop ins v (flatSegs (all.map Prod.fst)) ml fn pts.length fuel l.length rest.length s =
        (realSegs pts fn rest).foldlM (fun s e => ins s (at' e.1) (at' e.2.1) e.2.2) s := by
  intro rest
  induction rest with
  | nil => intro l s e; rfl
  | cons q rest ih =>
    intro l s e
    have ef : flatSegs (all.map Prod.fst) = flatSegs (l.map Prod.fst) ++ some q.1.1 :: some q.1.2 :: flatSegs (rest.map Prod.fst) := by
      rw [← e]; simp [flatSegs]
    have ef' : flatSegs (all.map Prod.fst) = (flatSegs (l.map Prod.fst) ++ [some q.1.1]) ++ some q.1.2 :: flatSegs (rest.map Prod.fst) := by rw [ef]; simp
    have r1 : Arr.read (flatSegs (all.map Prod.fst)) (2 * l.length) = .ok q.1.1 := by
      rw [ef]; exact read_append _ _ _ _ (by simp [flatSegs_length])
    have r2 : Arr.read (flatSegs (all.map Prod.fst)) (2 * l.length + 1) = .ok q.1.2 := by
      rw [ef']; exact read_append _ _ _ _ (by simp [flatSegs_length])
    have r3 : markAt ml l.length = .ok q.2 := by
      rcases hm with ⟨rfl, h0⟩ | rfl
      · rw [h0 q (by rw [← e]; simp)]; rfl
      · show Arr.read (all.map fun s => some s.2) l.length = _
        rw [← e, List.map_append, List.map_cons]
        exact read_append _ _ _ _ (by simp)
    have step := fun s => ih (l ++ [q]) s (by rw [← e]; simp)
    simp only [List.length_append, List.length_singleton] at step
    rw [List.length_cons]
    unfold skeletonLoop
    rw [r1, Outcome.bind_ok, r2, Outcome.bind_ok, r3, Outcome.bind_ok]
    have hcons : ∀ t, realSegs pts fn (q :: rest) = t ++ realSegs pts fn rest ↔ realSegs pts fn [q] = t := by
      intro t
      have : realSegs pts fn (q :: rest) = realSegs pts fn [q] ++ realSegs pts fn rest := by
        unfold realSegs
        rw [← List.filterMap_append]; rfl
      rw [this]
      exact List.append_left_inj _
    have skip : (¬ (0 ≤ q.1.1 - fn ∧ 0 ≤ q.1.2 - fn ∧ ∃ a b, pts[(q.1.1 - fn).toNat]? = some a ∧ pts[(q.1.2 - fn).toNat]? = some b ∧ a ≠ b)) →
        realSegs pts fn (q :: rest) = realSegs pts fn rest := fun h => by
      have := (hcons []).mpr (by unfold realSegs; simp only [List.filterMap_cons, List.filterMap_nil]; rw [if_neg h])
      simpa using this
    have lt : ∀ {k : Nat} {a : Pt K}, pts[k]? = some a → k < pts.length := fun h => (List.getElem?_eq_some_iff.mp h).1
    by_cases c1 : q.1.1 < fn ∨ fn + pts.length ≤ q.1.1
    · rw [if_pos c1, step, skip]
      rintro ⟨h1, h2, a, b, h3, h4, -⟩
      have := lt h3
      omega
    · rw [if_neg c1]
      by_cases c2 : q.1.2 < fn ∨ fn + pts.length ≤ q.1.2
      · rw [if_pos c2, step, skip]
        rintro ⟨h1, h2, a, b, h3, h4, -⟩
        have := lt h4
        omega
      · rw [if_neg c2]
        obtain ⟨i, hi⟩ : ∃ i, i = (q.1.1 - fn).toNat := ⟨_, rfl⟩
        obtain ⟨j, hj⟩ : ∃ j, j = (q.1.2 - fn).toNat := ⟨_, rfl⟩
        have ei : q.1.1 = fn + i := by omega
        have ej : q.1.2 = fn + j := by omega
        have li : i < pts.length := by omega
        have lj : j < pts.length := by omega
        obtain ⟨g1, g2⟩ := hget i _ (List.getElem?_eq_getElem li)
        obtain ⟨g3, g4⟩ := hget j _ (List.getElem?_eq_getElem lj)
        rw [ei, ej, g1, Outcome.bind_ok, g3, Outcome.bind_ok, g2, Outcome.bind_ok, g4, Outcome.bind_ok]
        by_cases c3 : pts[i].x = pts[j].x ∧ pts[i].y = pts[j].y
        · rw [if_pos c3, step, skip]
          rintro ⟨h1, h2, a, b, h3, h4, h5⟩
          rw [← hi, List.getElem?_eq_getElem li] at h3
          rw [← hj, List.getElem?_eq_getElem lj] at h4
          obtain rfl := Option.some.inj h3
          obtain rfl := Option.some.inj h4
          have hext : ∀ a b : Pt K, a.x = b.x ∧ a.y = b.y → a = b := by rintro ⟨_, _⟩ ⟨_, _⟩ ⟨h, h'⟩; cases h; cases h'; rfl
          exact h5 (hext _ _ c3)
        · rw [if_neg c3]
          have : realSegs pts fn [q] = [(i, j, q.2)] := by
            unfold realSegs
            simp only [List.filterMap_cons, List.filterMap_nil]
            rw [if_pos ⟨by omega, by omega, pts[i], pts[j], by rw [← hi]; exact List.getElem?_eq_getElem li,
              by rw [← hj]; exact List.getElem?_eq_getElem lj, fun e => c3 (by rw [e]; exact ⟨rfl, rfl⟩)⟩, ← hi, ← hj]
          rw [(hcons _).mpr this]
          simp only [List.singleton_append, List.foldlM_cons]
          congr 1
          funext s
          exact step s

end Delynoi.Tri
