import Verif.Spec.TriWrite
import Verif.Props.Arrays
import Mathlib.Data.List.Nodup
import Mathlib.Tactic.FinCases
/-! # What Triangle hands back: the loops -/
set_option linter.unusedSectionVars false
namespace Delynoi.Tri
variable {K : Type} [Field K] [LinearOrder K]

theorem write_next {α : Type} (a : Arr α) (k : Nat) (v : α) (i : Nat) (hi : i = a.length) :
    Arr.write (a ++ List.replicate (k + 1) none) i v = .ok (a ++ [some v] ++ List.replicate k none) := by
  subst hi
  unfold Arr.write
  rw [if_pos (by simp)]
  simp [List.set_append, List.replicate_succ]

/-- The vertices in use. -/
def live (vs : List (Vtx K)) : List (Vtx K) := vs.filter (fun v => !v.undead)

/-- Vertices in use numbered from `k` on. -/
def numbered : List (Vtx K) → Int → List (Vtx K)
  | [], _ => []
  | v :: vs, k => if v.undead then v :: numbered vs k else { v with mark := k } :: numbered vs (k + 1)

theorem nodesLoop_spec (b : Behavior) (hj : b.jettison = true) (hn : b.nobound = false) :
    ∀ (vs : List (Vtx K)) (ci : Nat) (vn : Int) (P : Arr K) (M : Arr Int), ci = P.length →
      vn = b.firstnumber + M.length →
      nodesLoop b vs ci vn (P ++ List.replicate (2 * (live vs).length) none)
        (M ++ List.replicate (live vs).length none) =
      .ok (P ++ flatPts ((live vs).map Vtx.pt), M ++ (live vs).map (fun v => some v.mark), numbered vs vn)
  | [], ci, vn, P, M, _, _ => by simp [nodesLoop, live, flatPts, numbered]
  | v :: vs, ci, vn, P, M, hc, hv => by
    unfold nodesLoop
    by_cases hu : v.undead = true
    · have e : live (v :: vs) = live vs := by simp [live, hu]
      rw [e, hj, hu]
      simp only [Bool.not_true, Bool.or_self, Bool.false_eq_true, if_false]
      rw [nodesLoop_spec b hj hn vs ci vn P M hc hv, Outcome.bind_ok]
      simp [numbered, hu]
    · have hu' : v.undead = false := by simpa using hu
      have e : live (v :: vs) = v :: live vs := by simp [live, hu']
      rw [e, hu']
      simp only [Bool.not_false, Bool.or_true, if_true, hn]
      have e2 : 2 * (v :: live vs).length = 2 * (live vs).length + 1 + 1 := by simp; omega
      rw [e2, write_next P _ _ _ hc, Outcome.bind_ok, write_next _ _ _ _ (by simp [hc]), Outcome.bind_ok]
      have e3 : writeAt (M ++ List.replicate (v :: live vs).length none) (vn - b.firstnumber) v.mark =
          .ok (M ++ [some v.mark] ++ List.replicate (live vs).length none) := by
        unfold writeAt
        rw [if_pos (by omega), List.length_cons]
        exact write_next M _ _ _ (by omega)
      rw [e3, Outcome.bind_ok, nodesLoop_spec b hj hn vs (ci + 2) (vn + 1) _ _ (by simp [hc]) (by simp; omega),
        Outcome.bind_ok]
      simp [numbered, hu', flatPts]

theorem elementsLoop_spec (vs : List (Vtx K)) (N : Nat → Int) : ∀ (ts : List TriRec) (k : Nat) (A : Arr Int),
    k = A.length → (∀ r ∈ ts, ∀ o, vertexmark vs (r.corner o) = .ok (N (r.corner o))) →
    elementsLoop vs ts k (A ++ List.replicate (3 * ts.length) none) =
      .ok (A ++ ts.flatMap (fun r => [some (N (r.corner 1)), some (N (r.corner 2)), some (N (r.corner 0))]))
  | [], k, A, _, _ => by simp [elementsLoop]
  | r :: ts, k, A, hk, hN => by
    unfold elementsLoop
    have e : 3 * (r :: ts).length = 3 * ts.length + 1 + 1 + 1 := by simp; omega
    have h := hN r List.mem_cons_self
    have o0 : r.org 0 = r.corner 1 := rfl
    have d0 : r.dest 0 = r.corner 2 := rfl
    have a0 : r.apex 0 = r.corner 0 := rfl
    rw [o0, d0, a0, h 1, Outcome.bind_ok, e, write_next A _ _ _ hk, Outcome.bind_ok, h 2, Outcome.bind_ok,
      write_next _ _ _ _ (by simp [hk]), Outcome.bind_ok, h 0, Outcome.bind_ok,
      write_next _ _ _ _ (by simp [hk]), Outcome.bind_ok,
      elementsLoop_spec vs N ts (k + 3) _ (by simp [hk]) (fun r hr => hN r (List.mem_cons_of_mem _ hr))]
    simp

theorem edgesLoop_spec (b : Behavior) (hn : b.nobound = false) (vs : List (Vtx K)) (N : Nat → Int)
    (ts : List TriRec) (own : TriRec × Fin 3 → Bool) : ∀ (hs : List (TriRec × Fin 3)) (ix : Nat) (en : Int)
    (E M : Arr Int), ix = E.length → en = b.firstnumber + M.length →
    (∀ h ∈ hs, ownsEdge ts h.1 h.2 = .ok (own h)) →
    (∀ h ∈ hs, ∀ o, vertexmark vs (h.1.corner o) = .ok (N (h.1.corner o))) →
    edgesLoop b vs ts hs ix en (E ++ List.replicate (2 * (hs.filter own).length) none)
      (M ++ List.replicate (hs.filter own).length none) =
    .ok (E ++ flatSegs ((hs.filter own).map (fun h => (N (h.1.corner (h.2 + 1)), N (h.1.corner (h.2 + 2))))),
      M ++ (hs.filter own).map (fun h => some (edgeMark b h.1 h.2)))
  | [], ix, en, E, M, _, _, _, _ => by simp [edgesLoop, flatSegs]
  | h :: hs, ix, en, E, M, hi, he, ho, hN => by
    have h1 := ho h List.mem_cons_self
    have h2 := hN h List.mem_cons_self
    have ih := edgesLoop_spec b hn vs N ts own hs
    obtain ⟨t, o⟩ := h
    unfold edgesLoop
    rw [h1, Outcome.bind_ok]
    have oo : t.org o = t.corner (o + 1) := rfl
    have dd : t.dest o = t.corner (o + 2) := rfl
    cases hw : own (t, o) with
    | false =>
      simp only [Bool.false_eq_true, if_false]
      rw [List.filter_cons_of_neg (by simp [hw])]
      exact ih ix en E M hi he (fun h hh => ho h (List.mem_cons_of_mem _ hh))
        (fun h hh => hN h (List.mem_cons_of_mem _ hh))
    | true =>
      simp only [if_true]
      rw [List.filter_cons_of_pos (by simp [hw])]
      have e2 : 2 * ((t, o) :: hs.filter own).length = 2 * (hs.filter own).length + 1 + 1 := by simp; omega
      rw [oo, dd, h2 (o + 1), Outcome.bind_ok, e2, write_next E _ _ _ hi, Outcome.bind_ok, h2 (o + 2),
        Outcome.bind_ok, write_next _ _ _ _ (by simp [hi]), Outcome.bind_ok]
      simp only [hn, Bool.false_eq_true, if_false]
      have e3 : writeAt (M ++ List.replicate ((t, o) :: hs.filter own).length none) (en - b.firstnumber)
          (edgeMark b t o) = .ok (M ++ [some (edgeMark b t o)] ++ List.replicate (hs.filter own).length none) := by
        unfold writeAt
        rw [if_pos (by omega), List.length_cons]
        exact write_next M _ _ _ (by omega)
      rw [e3, Outcome.bind_ok, ih (ix + 2) (en + 1) _ _ (by simp [hi]) (by simp; omega)
        (fun h hh => ho h (List.mem_cons_of_mem _ hh)) (fun h hh => hN h (List.mem_cons_of_mem _ hh))]
      simp [flatSegs]

/-! ### Numbers -/

theorem numbered_get : ∀ (vs : List (Vtx K)) (k : Int) (i : Nat) (v : Vtx K), vs[i]? = some v → v.undead = false →
    ∃ v', (numbered vs k)[i]? = some v' ∧ v'.mark = k + ((vs.take i).countP (fun v => !v.undead) : Nat)
  | [], k, i, v, h, _ => by simp at h
  | w :: vs, k, 0, v, h, hv => by
    simp at h; subst h
    exact ⟨{ w with mark := k }, by simp [numbered, hv], by simp⟩
  | w :: vs, k, i + 1, v, h, hv => by
    simp at h
    by_cases hw : w.undead = true
    · obtain ⟨v', h1, h2⟩ := numbered_get vs k i v h hv
      exact ⟨v', by simp [numbered, hw, h1], by rw [h2]; simp [hw]⟩
    · obtain ⟨v', h1, h2⟩ := numbered_get vs (k + 1) i v h hv
      refine ⟨v', by simp [numbered, hw, h1], ?_⟩
      rw [h2]; simp [hw]; ring

theorem live_get : ∀ (vs : List (Vtx K)) (i : Nat) (v : Vtx K), vs[i]? = some v → v.undead = false →
    (live vs)[(vs.take i).countP (fun v => !v.undead)]? = some v
  | [], i, v, h, _ => by simp at h
  | w :: vs, 0, v, h, hv => by
    simp at h; subst h
    simp [live, hv]
  | w :: vs, i + 1, v, h, hv => by
    simp at h
    have ih := live_get vs i v h hv
    by_cases hw : w.undead = true
    · simp [live, hw] at ih ⊢; exact ih
    · simp [live, hw] at ih ⊢; exact ih

theorem count_lt {vs : List (Vtx K)} {i j : Nat} {v : Vtx K} (hi : vs[i]? = some v) (hv : v.undead = false)
    (hij : i < j) : (vs.take i).countP (fun v => !v.undead) < (vs.take j).countP (fun v => !v.undead) := by
  have hlen : i < vs.length := (List.getElem?_eq_some_iff.1 hi).1
  have e : vs.take (i + 1) = vs.take i ++ [v] := by
    rw [List.take_add_one, hi]; rfl
  have h1 : (vs.take (i + 1)).countP (fun v => !v.undead) = (vs.take i).countP (fun v => !v.undead) + 1 := by
    rw [e, List.countP_append]; simp [hv]
  have h2 : (vs.take (i + 1)).countP (fun v => !v.undead) ≤ (vs.take j).countP (fun v => !v.undead) :=
    (List.take_sublist_take_left (by omega)).countP_le
  omega

theorem number_inj {m : OutMesh K} {i j : Nat} {v w : Vtx K} (hi : m.verts[i]? = some v) (hv : v.undead = false)
    (hj : m.verts[j]? = some w) (hw : w.undead = false) (h : number m i = number m j) : i = j := by
  unfold number at h
  have h' := Int.ofNat.inj h
  rcases Nat.lt_trichotomy i j with hlt | heq | hgt
  · have := count_lt hi hv hlt; omega
  · exact heq
  · have := count_lt hj hw hgt; omega

theorem number_point {m : OutMesh K} {i : Nat} {v : Vtx K} (hi : m.verts[i]? = some v) (hv : v.undead = false) :
    vecGet ((live m.verts).map Vtx.pt) (number m i) = .ok v.pt ∧ 0 ≤ number m i ∧
      number m i < ((live m.verts).map Vtx.pt).length := by
  have h := live_get m.verts i v hi hv
  have hl := (List.getElem?_eq_some_iff.1 h).1
  unfold number vecGet
  refine ⟨?_, by omega, by simpa using hl⟩
  rw [if_pos (by omega)]
  simp [h]

end Delynoi.Tri
