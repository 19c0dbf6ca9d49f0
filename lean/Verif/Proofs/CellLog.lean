import Verif.Proofs.Cell
import Verif.Spec.Voronoi
import Verif.Props.Neighbours
/-! Helper lemmas: the neighbourhood maps of the Voronoi construction as logs of insertions. -/
set_option linter.unusedSectionVars false
namespace Delynoi
variable {K : Type} [Field K] [LinearOrder K] [IsStrictOrderedRing K]
section
variable {tol : K} {out : TriOut K} {d : DelInfo K}

/-- Insertions into the edge map, cells numbered from `n`. -/
def vlog : Nat → List (List (Int × Int)) → List (Int × Int × Int)
  | _, [] => []
  | n, ks :: kss => ks.map (fun e => (e.1, e.2, (n : Int))) ++ vlog (n + 1) kss

theorem mem_vlog : ∀ (kss : List (List (Int × Int))) (n : Nat) (e : Int × Int × Int),
    e ∈ vlog n kss ↔ ∃ j ks, kss[j]? = some ks ∧ (e.1, e.2.1) ∈ ks ∧ e.2.2 = ((n + j : Nat) : Int) := by
  intro kss
  induction kss with
  | nil => intro n e; simp [vlog]
  | cons ks kss ih =>
    intro n e
    unfold vlog
    rw [List.mem_append, ih]
    constructor
    · rintro (h | ⟨j, ks', h1, h2, h3⟩)
      · obtain ⟨a, ha, rfl⟩ := List.mem_map.1 h
        exact ⟨0, ks, rfl, ha, rfl⟩
      · exact ⟨j + 1, ks', by simpa using h1, h2, by rw [h3]; congr 1; omega⟩
    · rintro ⟨j, ks', h1, h2, h3⟩
      cases j with
      | zero =>
        simp at h1; subst h1
        exact Or.inl (List.mem_map.2 ⟨(e.1, e.2.1), h2, by
          obtain ⟨a, b, c⟩ := e
          simp only at h3 ⊢; rw [h3]; rfl⟩)
      | succ j => exact Or.inr ⟨j, ks', by simpa using h1, h2, by rw [h3]; congr 1; omega⟩

theorem vlog_sorted : ∀ (kss : List (List (Int × Int))) (n : Nat),
    ((vlog n kss).map (fun e => e.2.2)).Pairwise (· ≤ ·) := by
  intro kss
  induction kss with
  | nil => intro n; simp [vlog]
  | cons ks kss ih =>
    intro n
    unfold vlog
    rw [List.map_append, List.pairwise_append]
    refine ⟨?_, ih _, ?_⟩
    · rw [List.map_map]
      refine List.pairwise_iff_getElem.2 (fun i j h1 h2 _ => ?_)
      simp
    · intro a ha b hb
      obtain ⟨x, hx, rfl⟩ := List.mem_map.1 ha
      obtain ⟨y, hy, rfl⟩ := List.mem_map.1 hb
      obtain ⟨z, _, rfl⟩ := List.mem_map.1 hx
      obtain ⟨j, _, _, _, h3⟩ := (mem_vlog _ _ _).1 hy
      simp only [h3]; omega

theorem segLog_eq (n : Nat) (m : SegMap) (ks : List (Int × Int)) :
    segLog (n : Int) m ks =
      (ks.map (fun e => (e.1, e.2, (n : Int)))).foldl (fun m e => m.insert (ISeg.mk' e.1 e.2.1) e.2.2) m := by
  unfold segLog
  rw [List.foldl_map]

theorem Cells.vlog {n : Nat} {s0 s : VState K} {vs : List Int} {polys : List (Poly K)}
    {kss : List (List (Int × Int))} (h : Cells tol out d n s0 vs polys kss s) :
    s.vedges = (vlog n kss).foldl (fun m e => m.insert (ISeg.mk' e.1 e.2.1) e.2.2) s0.vedges := by
  induction h with
  | nil => rfl
  | cons h1 _ ih =>
    unfold Delynoi.vlog
    rw [ih, h1.ved, segLog_eq, List.foldl_append]

/-- The edge map of the whole construction. -/
theorem Cells.edges_run {s s0 : VState K} {vs : List Int} {polys : List (Poly K)}
    {kss : List (List (Int × Int))} (h : Cells tol out d 0 s0 vs polys kss s)
    (h0 : s0.vedges = SegMap.empty) :
    s.vedges = SegMap.run ((Delynoi.vlog 0 kss).map (fun e => .insert (ISeg.mk' e.1 e.2.1) e.2.2)) := by
  rw [h.vlog, h0]
  unfold SegMap.run
  rw [List.foldl_map]; rfl

/-- Members of a map built by insertions, in terms of lookup. -/
theorem run_mem_find (ops : List SegMap.Op) (hk : ∀ o ∈ ops, HashOk o.seg) {e : ISeg × NbSeg}
    (he : e ∈ SegMap.run ops) : HashOk e.1 ∧ (SegMap.run ops).find e.1 = some e.2 := by
  have hsim := segMap_sim ops hk
  have i1 := hsim.1
  have i3 := hsim.2.2.1
  clear hsim
  refine ⟨i1 e he, ?_⟩
  generalize SegMap.run ops = m at *
  induction m with
  | nil => simp at he
  | cons a m ih =>
    unfold SegMap.find at ih ⊢
    rw [UMap.find_cons]
    rw [List.map_cons, List.nodup_cons] at i3
    rcases List.mem_cons.1 he with rfl | he'
    · rw [if_pos ((seg_kernel _ _ (i1 _ (by simp)) (i1 _ (by simp))).2 rfl)]
    · rw [if_neg, ih he' (fun e h => i1 e (by simp [h])) i3.2]
      intro hc
      have := (seg_kernel _ _ (i1 a (by simp)) (i1 e (by simp [he']))).1 hc
      apply i3.1
      rw [this]
      exact List.mem_map_of_mem (f := fun e => ends e.1) he'

/-- A nonempty list of insertions is remembered by its first and last element. -/
theorem remembered_some {l : List Int} (hl : l ≠ []) : ∃ n i, remembered l = some n ∧ n.n1 = some i ∧
    l.head? = some i ∧ ((l = [i] ∧ n.n2 = -1) ∨ (2 ≤ l.length ∧ l.getLast? = some n.n2)) := by
  match l with
  | [i] => exact ⟨_, i, rfl, rfl, rfl, Or.inl ⟨rfl, rfl⟩⟩
  | i :: j :: l =>
    refine ⟨_, i, rfl, rfl, rfl, Or.inr ⟨by simp, ?_⟩⟩
    rw [List.getLast?_eq_getLast_of_ne_nil (by simp)]
    simp

theorem remembered_sorted {l : List Int} (hs : l.Pairwise (· ≤ ·)) {j : Nat} (hj : (j : Int) ∈ l) :
    ∃ n, remembered l = some n ∧ Remembers n j := by
  have hne : l ≠ [] := by rintro rfl; simp at hj
  obtain ⟨n, i, h1, h2, h3, h4⟩ := remembered_some hne
  refine ⟨n, h1, i, h2, ?_, ?_⟩
  · cases l with
    | nil => simp at h3
    | cons a l =>
      simp at h3; subst h3
      rcases List.mem_cons.1 hj with h | h
      · omega
      · exact (List.pairwise_cons.1 hs).1 _ h
  · rcases h4 with ⟨h4, _⟩ | ⟨_, h4⟩
    · left; rw [h4] at hj; simp at hj; omega
    · right
      obtain ⟨l', rfl⟩ : ∃ l', l = l' ++ [n.n2] := List.getLast?_eq_some_iff.1 h4
      rcases List.mem_append.1 hj with h | h
      · exact (List.pairwise_append.1 hs).2.2 _ h _ (by simp)
      · simp at h; omega

end
end Delynoi
