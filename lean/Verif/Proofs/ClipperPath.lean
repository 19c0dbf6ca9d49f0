import Verif.Model.ClipperPath
import Verif.Props.ClipperInt
import Verif.Proofs.ClipperPip
import Verif.Proofs.Triangulation
/-!
# Lemmas about Clipper's preparation of paths
-/
set_option linter.unusedSectionVars false
namespace Delynoi
open Clip

/-! ### Sums over closed paths -/

/-- A function of directed edges that does not see flat triangles. -/
def FlatSum (g : Pt ℚ → Pt ℚ → ℚ) : Prop :=
  (∀ a b, g a b = -g b a) ∧ ∀ a b c, turn a b c = 0 → g a b + g b c + g c a = 0

/-- The sum over the edges of a ring. -/
def ringSumOf (g : Pt ℚ → Pt ℚ → ℚ) (l : List IPt) : ℚ := edgeSum g (l.map IPt.toPt)

theorem turn_int (a b c : IPt) : turn a.toPt b.toPt c.toPt =
    (((b.X - a.X) * (c.Y - a.Y) - (b.Y - a.Y) * (c.X - a.X) : Int) : ℚ) := by
  unfold turn IPt.toPt; push_cast; rfl

theorem turn_int_zero (a b c : IPt) : turn a.toPt b.toPt c.toPt = 0 ↔
    (b.X - a.X) * (c.Y - a.Y) - (b.Y - a.Y) * (c.X - a.X) = 0 := by
  rw [turn_int]; exact Int.cast_eq_zero

theorem turn_first (a c : Pt ℚ) : turn a a c = 0 := by unfold turn; ring
theorem turn_last (a c : Pt ℚ) : turn a c c = 0 := by unfold turn; ring

theorem ringSumOf_rotate (g : Pt ℚ → Pt ℚ → ℚ) (l : List IPt) (k : Nat) :
    ringSumOf g (l.rotate k) = ringSumOf g l := by
  unfold ringSumOf; rw [List.map_rotate, edgeSum_rotate]

theorem ringSumOf_append (g : Pt ℚ → Pt ℚ → ℚ) (l m : List IPt) : ringSumOf g (l ++ m) = ringSumOf g (m ++ l) := by
  rw [← ringSumOf_rotate g (l ++ m) l.length, List.rotate_append_length_eq]

/-- Removing a vertex between collinear edges. -/
theorem ringSumOf_remove {g : Pt ℚ → Pt ℚ → ℚ} (hg : FlatSum g) (e : IPt) (l : List IPt) (hl : l ≠ [])
    (h : turn (l.getLast hl).toPt e.toPt (l.head hl).toPt = 0) : ringSumOf g (e :: l) = ringSumOf g l := by
  unfold ringSumOf
  obtain ⟨b, l, rfl⟩ := List.exists_cons_of_ne_nil hl
  rw [List.map_cons, List.map_cons, edgeSum_cons g hg.1 e.toPt b.toPt ((b :: l).getLast hl).toPt]
  · have h3 := hg.2 _ _ _ h
    rw [List.head_cons] at h3
    rw [h3, add_zero]
  · simp only [← List.map_cons (f := IPt.toPt), List.getLast_map]

theorem ringSumOf_single {g : Pt ℚ → Pt ℚ → ℚ} (hg : FlatSum g) (a : IPt) : ringSumOf g [a] = 0 := by
  unfold ringSumOf edgeSum cycPairs
  simp only [List.map_cons, List.map_nil, List.drop_succ_cons, List.drop_zero, List.take_succ_cons, List.take_zero,
    List.nil_append, List.zip_cons_cons, List.zip_nil_right, List.sum_cons, List.sum_nil, add_zero]
  have := hg.1 a.toPt a.toPt
  linarith

theorem ringSumOf_two {g : Pt ℚ → Pt ℚ → ℚ} (hg : FlatSum g) (a b : IPt) : ringSumOf g [a, b] = 0 := by
  rw [ringSumOf_remove hg a [b] (by simp) (by simp [turn]), ringSumOf_single hg]

theorem ringSumOf_short {g : Pt ℚ → Pt ℚ → ℚ} (hg : FlatSum g) (l : List IPt) (h : l.length < 3) : ringSumOf g l = 0 := by
  match l, h with
  | [], _ => rfl
  | [a], _ => exact ringSumOf_single hg a
  | [a, b], _ => exact ringSumOf_two hg a b
  | _ :: _ :: _ :: _, h => simp at h; omega

/-! ### Vertices of rings -/

/-- The node at a place of a ring. -/
def nodeAt (l : List Node) (i : Nat) : Option Node := l[i % l.length]?

theorem nodeAt_advance (e : Node) (rest : List Node) (i : Nat) :
    nodeAt (rest ++ [e]) i = nodeAt (e :: rest) (i + 1) := by
  unfold nodeAt
  have h1 : rest ++ [e] = (e :: rest).rotate 1 := by simp
  rw [h1, List.length_rotate]
  rw [List.getElem?_rotate (Nat.mod_lt _ (by simp)), Nat.mod_add_mod]

/-- Three consecutive vertices none of which has to be removed. -/
def GoodTriple (keep : Bool) (p c n : IPt) : Prop :=
  c ≠ n ∧ ¬ (turn p.toPt c.toPt n.toPt = 0 ∧ (keep = true → isBetween p c n = false))

/-- The vertex at a place need not be removed. -/
def GoodAt (keep : Bool) (l : List Node) (i : Nat) : Prop :=
  ∀ p c n, nodeAt l (i + (l.length - 1)) = some p → nodeAt l i = some c → nodeAt l (i + 1) = some n →
    GoodTriple keep p.2 c.2 n.2

theorem goodAt_advance (keep : Bool) (e : Node) (rest : List Node) (i : Nat) :
    GoodAt keep (rest ++ [e]) i ↔ GoodAt keep (e :: rest) (i + 1) := by
  unfold GoodAt
  simp only [nodeAt_advance]
  have h1 : (rest ++ [e]).length = (e :: rest).length := by simp
  rw [h1, show i + ((e :: rest).length - 1) + 1 = i + 1 + ((e :: rest).length - 1) by omega]

theorem nodeAt_head (e : Node) (rest : List Node) : nodeAt (e :: rest) 0 = some e := by
  unfold nodeAt; simp

theorem nodeAt_second (e : Node) (rest : List Node) (h : rest ≠ []) : nodeAt (e :: rest) 1 = some (rest.head h) := by
  obtain ⟨b, l, rfl⟩ := List.exists_cons_of_ne_nil h
  unfold nodeAt
  simp

theorem nodeAt_last (e : Node) (rest : List Node) (h : rest ≠ []) :
    nodeAt (e :: rest) ((e :: rest).length - 1) = some (rest.getLast h) := by
  unfold nodeAt
  rw [Nat.mod_eq_of_lt (by simp)]
  have := List.length_pos_of_ne_nil h
  rw [List.length_cons, Nat.add_sub_cancel, List.getElem?_cons]
  rw [if_neg (by omega), List.getLast_eq_getElem, List.getElem?_eq_getElem]

theorem goodAt_head {keep : Bool} {e : Node} {rest : List Node} (h : rest ≠ []) :
    GoodAt keep (e :: rest) 0 ↔ GoodTriple keep (rest.getLast h).2 e.2 (rest.head h).2 := by
  unfold GoodAt
  rw [Nat.zero_add, Nat.zero_add, nodeAt_last e rest h, nodeAt_head, nodeAt_second e rest h]
  constructor
  · intro g; exact g _ _ _ rfl rfl rfl
  · rintro g p c n ⟨⟩ ⟨⟩ ⟨⟩; exact g

/-! ### The loop of `AddPath` -/

/-- The flag matches the coordinates. -/
def InRange (full : Bool) (l : List Node) : Prop := ∀ v ∈ l, CoordsWithin (RangeOf full) v.2

/-- What holds while the loop runs: `k` vertices have been found good since the last removal. -/
structure PathInv (keep : Bool) (L : List Node) (s : PathLoop) (k : Nat) : Prop where
  part : ∃ A B, s.ring = B ++ A ∧ (A ++ B).Sublist L ∧ B ≠ [] ∧ (A ++ B).head?.map Prod.fst = some s.start
  lt : k < s.ring.length
  stop : ∃ v, nodeAt s.ring (s.ring.length - k) = some v ∧ v.1 = s.stop
  good : ∀ i, i < k → GoodAt keep s.ring (s.ring.length - k + i)
  same : ∀ g, FlatSum g → ringSumOf g (s.ring.map Prod.snd) = ringSumOf g (L.map Prod.snd)

/-- What holds after the loop. -/
structure PathFinal (keep : Bool) (L : List Node) (s : PathLoop) : Prop where
  part : ∃ A B, s.ring = B ++ A ∧ (A ++ B).Sublist L ∧ B ≠ [] ∧ (A ++ B).head?.map Prod.fst = some s.start
  good : s.ring.length < 3 ∨ ∀ i, i < s.ring.length → GoodAt keep s.ring i
  same : ∀ g, FlatSum g → ringSumOf g (s.ring.map Prod.snd) = ringSumOf g (L.map Prod.snd)

theorem spike_eq {keep full : Bool} {p c n : IPt} (hp : CoordsWithin (RangeOf full) p)
    (hc : CoordsWithin (RangeOf full) c) (hn : CoordsWithin (RangeOf full) n) :
    ∃ b, spike keep full p c n = .ok b ∧
      (b = true ↔ turn p.toPt c.toPt n.toPt = 0 ∧ (keep = true → isBetween p c n = false)) := by
  refine ⟨_, by unfold spike; rw [C109_slopes3 p c n full hp hc hn, Outcome.bind_ok]; rfl, ?_⟩
  rw [Bool.and_eq_true, decide_eq_true_eq, turn_int_zero]
  cases keep <;> simp

theorem split_facts {L A B : List Node} {e : Node} {rest : List Node} {start : Nat}
    (hL : (L.map Prod.fst).Nodup) (hr : e :: rest = B ++ A) (hs : (A ++ B).Sublist L) (hB : B ≠ [])
    (hst : (A ++ B).head?.map Prod.fst = some start) (hne : rest ≠ []) :
    ∃ B', B = e :: B' ∧ rest = B' ++ A ∧ (A ++ B').Sublist L ∧
      (A ++ B').head?.map Prod.fst = some (if e.1 = start then (rest.head hne).1 else start) := by
  obtain ⟨b, B', rfl⟩ := List.exists_cons_of_ne_nil hB
  rw [List.cons_append, List.cons.injEq] at hr
  obtain ⟨rfl, rfl⟩ := hr
  refine ⟨B', rfl, rfl, ?_, ?_⟩
  · exact (List.Sublist.append_left (List.sublist_cons_self e B') A).trans hs
  · cases A with
    | nil =>
      simp only [List.nil_append, List.head?_cons, Option.map_some, Option.some.injEq] at hst
      rw [if_pos hst, List.nil_append]
      simp only [List.append_nil] at hne ⊢
      rw [List.head?_eq_some_head hne]; rfl
    | cons a A =>
      simp only [List.cons_append, List.head?_cons, Option.map_some, Option.some.injEq] at hst
      have hnd : ((a :: A ++ e :: B').map Prod.fst).Nodup := hL.sublist (hs.map _)
      have : e.1 ≠ start := by
        rw [← hst]
        intro h
        simp only [List.cons_append, List.map_cons, List.nodup_cons, List.map_append, List.mem_append, List.mem_cons] at hnd
        exact hnd.1 (Or.inr (Or.inl h.symm))
      rw [if_neg this]
      simp [hst]

theorem nodup_ring {L A B : List Node} (hL : (L.map Prod.fst).Nodup) (hs : (A ++ B).Sublist L) :
    ((B ++ A).map Prod.fst).Nodup := by
  have := hL.sublist (hs.map _)
  rw [List.map_append] at this ⊢
  exact List.nodup_append_comm.1 this

theorem ringSumOf_back (g : Pt ℚ → Pt ℚ → ℚ) (l : List Node) (h : l ≠ []) :
    ringSumOf g ((l.getLast h :: l.dropLast).map Prod.snd) = ringSumOf g (l.map Prod.snd) := by
  conv_rhs => rw [← List.dropLast_append_getLast h, List.map_append, ringSumOf_append]
  rw [List.map_cons]; rfl

/-- One step of the loop. -/
theorem pathStep_spec {keep full : Bool} {L : List Node} {s : PathLoop} {k : Nat}
    (hL : (L.map Prod.fst).Nodup) (hr : InRange full L) (h : PathInv keep L s k) :
    (∃ t, pathStep keep full s = .ok (.done t) ∧ PathFinal keep L t) ∨
    (∃ t k', pathStep keep full s = .ok (.more t) ∧ PathInv keep L t k' ∧
      (t.ring.length < s.ring.length ∨ (t.ring.length = s.ring.length ∧ k' = k + 1))) := by
  obtain ⟨ring, stop, start⟩ := s
  obtain ⟨⟨A, B, p1, p2, p3, p4⟩, hlt, ⟨v, v1, v2⟩, hgood, hsame⟩ := h
  simp only at p1 p4 hlt v1 v2 hgood hsame ⊢
  cases ring with
  | nil => simp at hlt
  | cons e rest =>
    have hnd : ((e :: rest).map Prod.fst).Nodup := by rw [p1]; exact nodup_ring hL p2
    by_cases hne : rest = []
    · -- a single node
      subst hne
      left
      refine ⟨⟨[e], stop, start⟩, ?_, ⟨⟨A, B, p1, p2, p3, p4⟩, Or.inl (by simp), hsame⟩⟩
      unfold pathStep; simp
    · have hh : rest.headD e = rest.head hne := by
        rw [List.headD_eq_head?_getD, List.head?_eq_some_head hne]; rfl
      have hl : rest.getLastD e = rest.getLast hne := by
        rw [List.getLastD_eq_getLast?, List.getLast?_eq_some_getLast hne]; rfl
      obtain ⟨B', rfl, rfl, q2, q3⟩ := split_facts hL p1 p2 p3 p4 hne
      have hmem : ∀ w ∈ e :: (B' ++ A), w ∈ L := by
        intro w hw
        apply p2.subset
        rw [← List.cons_append, List.mem_append] at hw
        rw [List.mem_append]; tauto
      have he1 : e.1 ≠ ((B' ++ A).head hne).1 := by
        intro hc
        rw [List.map_cons, List.nodup_cons] at hnd
        exact hnd.1 (by rw [hc]; exact List.mem_map_of_mem (List.head_mem hne))
      unfold pathStep
      simp only [hh, hl]
      by_cases hdup : e.2 = ((B' ++ A).head hne).2
      · -- equal to the next vertex
        right
        rw [if_pos hdup, if_neg he1]
        refine ⟨_, 0, rfl, ⟨?_, ?_, ?_, ?_, ?_⟩, Or.inl (by simp)⟩
        · by_cases hB' : B' = []
          · subst hB'
            refine ⟨[], A, by simp, by simpa using q2, by simpa using hne, by simpa using q3⟩
          · exact ⟨A, B', rfl, q2, hB', q3⟩
        · exact List.length_pos_of_ne_nil hne
        · refine ⟨(B' ++ A).head hne, ?_, rfl⟩
          simp only [Nat.sub_zero]
          unfold nodeAt
          rw [Nat.mod_self, ← List.head?_eq_getElem?, List.head?_eq_some_head hne]
        · intro i hi; omega
        · intro g hg
          rw [← hsame g hg, List.map_cons]
          symm
          apply ringSumOf_remove hg _ _ (by simpa using hne)
          rw [List.head_map, ← hdup]; exact turn_last _ _
      · rw [if_neg hdup]
        by_cases h2 : ((B' ++ A).getLast hne).1 = ((B' ++ A).head hne).1
        · -- two vertices
          left
          rw [if_pos h2]
          refine ⟨_, rfl, ⟨⟨A, e :: B', p1, p2, p3, p4⟩, Or.inl ?_, hsame⟩⟩
          have : (B' ++ A).length = 1 := by
            rw [List.map_cons, List.nodup_cons] at hnd
            obtain ⟨b, l, hbl⟩ := List.exists_cons_of_ne_nil hne
            simp only [hbl] at h2 hnd ⊢
            cases l with
            | nil => rfl
            | cons c l =>
              exfalso
              rw [List.head_cons, List.getLast_cons (by simp)] at h2
              rw [List.map_cons, List.nodup_cons] at hnd
              exact hnd.2.1 (by rw [← h2]; exact List.mem_map_of_mem (List.getLast_mem _))
          simp only [List.length_cons]; omega
        · rw [if_neg h2]
          have hin := fun w hw => hr w (hmem w hw)
          obtain ⟨b, b1, b2⟩ := spike_eq (keep := keep) (full := full)
            (hin _ (List.mem_cons_of_mem _ (List.getLast_mem hne))) (hin e (by simp))
            (hin _ (List.mem_cons_of_mem _ (List.head_mem hne)))
          rw [b1, Outcome.bind_ok]
          cases b with
          | true =>
            right
            obtain ⟨t1, _⟩ := b2.1 rfl
            have hlen : ((B' ++ A).getLast hne :: (B' ++ A).dropLast).length = (B' ++ A).length := by
              rw [List.length_cons, List.length_dropLast]
              have := List.length_pos_of_ne_nil hne
              omega
            refine ⟨_, 0, rfl, ⟨?_, ?_, ?_, ?_, ?_⟩, Or.inl ?_⟩
            · by_cases hA : A = []
              · subst hA
                simp only [List.append_nil] at hne q2 q3 ⊢
                simp only [List.nil_append] at q2 q3
                refine ⟨B'.dropLast, [B'.getLast hne], rfl, ?_, by simp, ?_⟩
                · rw [List.dropLast_append_getLast hne]; exact q2
                · rw [List.dropLast_append_getLast hne]; exact q3
              · refine ⟨A.dropLast, A.getLast hA :: B', ?_, ?_, by simp, ?_⟩
                · simp only [List.getLast_append_of_ne_nil hne hA, List.dropLast_append_of_ne_nil hA, List.cons_append]
                · have : A.dropLast ++ A.getLast hA :: B' = A ++ B' := by
                    conv_rhs => rw [← List.dropLast_append_getLast hA]
                    simp
                  rw [this]; exact q2
                · have : A.dropLast ++ A.getLast hA :: B' = A ++ B' := by
                    conv_rhs => rw [← List.dropLast_append_getLast hA]
                    simp
                  rw [this]; exact q3
            · rw [hlen]; exact List.length_pos_of_ne_nil hne
            · refine ⟨_, ?_, rfl⟩
              unfold nodeAt
              rw [Nat.sub_zero, Nat.mod_self]; rfl
            · intro i hi; omega
            · intro g hg
              rw [ringSumOf_back, ← hsame g hg, List.map_cons]
              symm
              apply ringSumOf_remove hg _ _ (by simpa using hne)
              rw [List.head_map, List.getLast_map]; exact t1
            · rw [hlen]; simp
          | false =>
            have hg0 : GoodAt keep (e :: (B' ++ A)) 0 := by
              rw [goodAt_head hne]
              exact ⟨hdup, fun hc => by simpa using b2.2 hc⟩
            have hgood' : ∀ i, i < k + 1 → GoodAt keep ((B' ++ A) ++ [e]) ((e :: (B' ++ A)).length - (k + 1) + i) := by
              intro i hi
              rw [goodAt_advance]
              by_cases hik : i < k
              · have := hgood i hik
                rwa [show (e :: (B' ++ A)).length - (k + 1) + i + 1 = (e :: (B' ++ A)).length - k + i by omega]
              · have hik : i = k := by omega
                subst hik
                rw [show (e :: (B' ++ A)).length - (i + 1) + i + 1 = 0 + (e :: (B' ++ A)).length by omega]
                unfold GoodAt at hg0 ⊢
                have hper : ∀ j, nodeAt (e :: (B' ++ A)) (j + (e :: (B' ++ A)).length) = nodeAt (e :: (B' ++ A)) j := by
                  intro j; unfold nodeAt; rw [Nat.add_mod_right]
                rw [hper, Nat.add_right_comm, hper, Nat.add_right_comm, hper]
                exact hg0
            have hpart : ∃ A' C, (B' ++ A) ++ [e] = C ++ A' ∧ (A' ++ C).Sublist L ∧ C ≠ [] ∧
                (A' ++ C).head?.map Prod.fst = some start := by
              by_cases hB' : B' = []
              · subst hB'
                exact ⟨[], A ++ [e], by simp, by simpa using p2, by simp, by simpa using p4⟩
              · exact ⟨A ++ [e], B', by simp, by simpa using p2, hB', by simpa using p4⟩
            have hsame' : ∀ g, FlatSum g → ringSumOf g (((B' ++ A) ++ [e]).map Prod.snd) = ringSumOf g (L.map Prod.snd) := by
              intro g hg
              rw [← hsame g hg, List.map_append, ringSumOf_append]
              rfl
            have hlen : ((B' ++ A) ++ [e]).length = (e :: (B' ++ A)).length := by simp; omega
            have hnd' : (((B' ++ A) ++ [e]).map Prod.fst).Nodup := by
              rw [List.map_append, List.nodup_append_comm]; exact hnd
            have hstop : ∃ w, nodeAt ((B' ++ A) ++ [e]) ((e :: (B' ++ A)).length - (k + 1)) = some w ∧ w.1 = stop := by
              refine ⟨v, ?_, v2⟩
              rw [nodeAt_advance, show (e :: (B' ++ A)).length - (k + 1) + 1 = (e :: (B' ++ A)).length - k by omega]
              exact v1
            simp only [Bool.false_eq_true, if_false]
            by_cases hst : ((B' ++ A).head hne).1 = stop
            · left
              rw [if_pos hst]
              refine ⟨_, rfl, ⟨hpart, Or.inr ?_, hsame'⟩⟩
              have hk : k + 1 = (e :: (B' ++ A)).length := by
                by_contra hne'
                obtain ⟨w, w1, w2⟩ := hstop
                have h0 : nodeAt ((B' ++ A) ++ [e]) 0 = some ((B' ++ A).head hne) := by
                  rw [nodeAt_advance]; exact nodeAt_second e _ hne
                unfold nodeAt at h0 w1
                rw [Nat.zero_mod] at h0
                rw [Nat.mod_eq_of_lt (by rw [hlen]; simp only [List.length_cons] at hlt ⊢; omega)] at w1
                obtain ⟨g1, g2⟩ := List.getElem?_eq_some_iff.1 h0
                obtain ⟨g3, g4⟩ := List.getElem?_eq_some_iff.1 w1
                have := (List.nodup_iff_injective_getElem.1 hnd')
                have h5 : (⟨0, by simpa using g1⟩ : Fin (((B' ++ A) ++ [e]).map Prod.fst).length) =
                    ⟨(e :: (B' ++ A)).length - (k + 1), by simpa using g3⟩ := by
                  apply this
                  simp only [List.getElem_map, g2, g4, hst, w2]
                have h6 := congrArg Fin.val h5
                simp only at h6
                omega
              intro i hi
              have := hgood' i (by rw [hk, ← hlen]; exact hi)
              rwa [hk, Nat.sub_self, Nat.zero_add] at this
            · right
              rw [if_neg hst]
              refine ⟨_, k + 1, rfl, ⟨hpart, ?_, ?_, ?_, hsame'⟩, Or.inr ⟨hlen, rfl⟩⟩
              · simp only [hlen]
                by_contra hc
                obtain ⟨w, w1, w2⟩ := hstop
                have hk : k + 1 = (e :: (B' ++ A)).length := by omega
                rw [hk, Nat.sub_self, nodeAt_advance, nodeAt_second e _ hne] at w1
                cases w1
                exact hst w2
              · simp only [hlen]; exact hstop
              · simp only [hlen]; exact hgood'

/-- The loop ends. -/
theorem pathLoop_spec {keep full : Bool} {L : List Node} (hL : (L.map Prod.fst).Nodup) (hr : InRange full L) :
    ∀ (fuel : Nat) (s : PathLoop) (k : Nat), PathInv keep L s k →
      s.ring.length * (s.ring.length + 1) + 1 ≤ fuel + k →
      ∃ t, pathLoop keep full fuel s = .ok t ∧ PathFinal keep L t
  | 0, s, k, h, hf => by
    have := h.lt
    nlinarith
  | fuel + 1, s, k, h, hf => by
    rcases pathStep_spec hL hr h with ⟨t, t1, t2⟩ | ⟨t, k', t1, t2, t3⟩
    · exact ⟨t, by rw [pathLoop, t1]; rfl, t2⟩
    · have hlt := h.lt
      obtain ⟨u, u1, u2⟩ := pathLoop_spec hL hr fuel t k' t2 (by
        rcases t3 with t3 | ⟨t3, rfl⟩
        · have : t.ring.length * (t.ring.length + 1) + 2 * s.ring.length ≤ s.ring.length * (s.ring.length + 1) := by
            nlinarith
          omega
        · rw [t3]; omega)
      exact ⟨u, by rw [pathLoop, t1]; exact u1, u2⟩

/-! ### Trimming -/

theorem ringSumOf_reverse_cons {g : Pt ℚ → Pt ℚ → ℚ} (hg : FlatSum g) (a : IPt) (m : List IPt) (hm : m ≠ [])
    (h : a = m.head hm ∨ a = m.getLast hm) : ringSumOf g (a :: m).reverse = ringSumOf g m.reverse := by
  rw [List.reverse_cons, ringSumOf_append]
  apply ringSumOf_remove hg a m.reverse (by simpa using hm)
  rw [List.getLast_reverse, List.head_reverse]
  rcases h with h | h
  · rw [← h]; exact turn_first _ _
  · rw [← h]; exact turn_last _ _

theorem trimFirst_spec (first : IPt) : ∀ (m : List IPt) (hm : m ≠ []), m.getLast hm = first →
    trimFirst first m ≠ [] ∧ (trimFirst first m).IsSuffix m ∧
    ∀ g, FlatSum g → ringSumOf g (trimFirst first m).reverse = ringSumOf g m.reverse
  | [], hm, _ => absurd rfl hm
  | [a], _, _ => ⟨by simp [trimFirst], by simp [trimFirst], fun _ _ => by simp [trimFirst]⟩
  | a :: b :: l, _, h => by
    unfold trimFirst
    split
    · rename_i hab
      obtain ⟨h1, h2, h3⟩ := trimFirst_spec first (b :: l) (by simp)
        ((List.getLast_cons (a := a) (by simp)).symm.trans h)
      refine ⟨h1, h2.trans (List.suffix_cons a (b :: l)), fun g hg => ?_⟩
      rw [h3 g hg, ringSumOf_reverse_cons hg a (b :: l) (by simp)]
      right
      rw [hab, ← h, List.getLast_cons (by simp)]
    · exact ⟨by simp, List.suffix_refl _, fun _ _ => rfl⟩

theorem trimLast_spec : ∀ (m : List IPt), m ≠ [] →
    trimLast m ≠ [] ∧ (trimLast m).IsSuffix m ∧
    ∀ g, FlatSum g → ringSumOf g (trimLast m).reverse = ringSumOf g m.reverse
  | [], hm => absurd rfl hm
  | [a], _ => ⟨by simp [trimLast], by simp [trimLast], fun _ _ => by simp [trimLast]⟩
  | a :: b :: l, _ => by
    unfold trimLast
    split
    · rename_i hab
      obtain ⟨h1, h2, h3⟩ := trimLast_spec (b :: l) (by simp)
      refine ⟨h1, h2.trans (List.suffix_cons a (b :: l)), fun g hg => ?_⟩
      rw [h3 g hg, ringSumOf_reverse_cons hg a (b :: l) (by simp)]
      left; exact hab
    · exact ⟨by simp, List.suffix_refl _, fun _ _ => rfl⟩

theorem trim_spec (pg : List IPt) : (trim pg).IsPrefix pg ∧
    ∀ g, FlatSum g → ringSumOf g (trim pg) = ringSumOf g pg := by
  unfold trim
  match pg with
  | [] => exact ⟨List.prefix_refl _, fun _ _ => rfl⟩
  | p :: l =>
    have hne : (p :: l).reverse ≠ [] := by simp
    obtain ⟨h1, h2, h3⟩ := trimFirst_spec p (p :: l).reverse hne (by simp)
    obtain ⟨_, h5, h6⟩ := trimLast_spec _ h1
    simp only
    refine ⟨?_, fun g hg => by rw [h6 g hg, h3 g hg, List.reverse_reverse]⟩
    have := List.reverse_prefix.2 (h5.trans h2)
    rwa [List.reverse_reverse] at this

theorem trimFirst_mem (first : IPt) (q : IPt) : ∀ (m : List IPt) (hm : m ≠ []), m.getLast hm = first →
    (q ∈ trimFirst first m ↔ q ∈ m)
  | [], hm, _ => absurd rfl hm
  | [a], _, _ => by simp [trimFirst]
  | a :: b :: l, _, h => by
    unfold trimFirst
    split
    · rename_i hab
      have h' : (b :: l).getLast (by simp) = first := (List.getLast_cons (a := a) (by simp)).symm.trans h
      rw [trimFirst_mem first q (b :: l) (by simp) h', List.mem_cons (a := q) (b := a)]
      constructor
      · exact Or.inr
      · rintro (rfl | hq)
        · rw [hab, ← h']; exact List.getLast_mem _
        · exact hq
    · rfl

theorem trimLast_mem (q : IPt) : ∀ (m : List IPt), (q ∈ trimLast m ↔ q ∈ m)
  | [] => by simp [trimLast]
  | [a] => by simp [trimLast]
  | a :: b :: l => by
    unfold trimLast
    split
    · rename_i hab
      rw [trimLast_mem q (b :: l), List.mem_cons (a := q) (b := a)]
      constructor
      · exact Or.inr
      · rintro (rfl | hq)
        · rw [hab]; simp
        · exact hq
    · rfl

/-- Trimming keeps the set of points. -/
theorem trim_mem (pg : List IPt) (q : IPt) : q ∈ trim pg ↔ q ∈ pg := by
  unfold trim
  match pg with
  | [] => rfl
  | p :: l =>
    simp only
    rw [List.mem_reverse, trimLast_mem, trimFirst_mem p q _ (by simp) (by simp), List.mem_reverse]

/-! ### Corners -/

/-- Three consecutive vertices of a closed path. -/
def Corner (l : List IPt) (a b c : IPt) : Prop :=
  ∃ i, l[i % l.length]? = some a ∧ l[(i + 1) % l.length]? = some b ∧ l[(i + 2) % l.length]? = some c

theorem getElem?_rotate_mod (l : List IPt) (k i : Nat) (hl : l ≠ []) :
    (l.rotate k)[i % l.length]? = l[(i + k) % l.length]? := by
  rw [List.getElem?_rotate (Nat.mod_lt _ (List.length_pos_of_ne_nil hl)), Nat.mod_add_mod]

theorem corner_rotate {l : List IPt} {k : Nat} {a b c : IPt} (h : Corner (l.rotate k) a b c) : Corner l a b c := by
  obtain ⟨i, h1, h2, h3⟩ := h
  have hl : l ≠ [] := by rintro rfl; simp at h1
  rw [List.length_rotate, getElem?_rotate_mod l k _ hl] at h1 h2 h3
  exact ⟨i + k, h1, by rwa [show i + k + 1 = i + 1 + k by omega], by rwa [show i + k + 2 = i + 2 + k by omega]⟩

theorem corner_append {l m : List IPt} {a b c : IPt} (h : Corner (l ++ m) a b c) : Corner (m ++ l) a b c := by
  apply corner_rotate (k := m.length)
  rwa [List.rotate_append_length_eq]

theorem corners_good {keep : Bool} {l : List Node} (h : ∀ i, i < l.length → GoodAt keep l i) {a b c : IPt}
    (hc : Corner (l.map Prod.snd) a b c) : GoodTriple keep a b c := by
  obtain ⟨i, h1, h2, h3⟩ := hc
  rw [List.length_map, List.getElem?_map, Option.map_eq_some_iff] at h1 h2 h3
  obtain ⟨u, u1, rfl⟩ := h1
  obtain ⟨v, v1, rfl⟩ := h2
  obtain ⟨w, w1, rfl⟩ := h3
  have hpos : 0 < l.length := by
    rcases l with _ | ⟨x, l⟩
    · simp at u1
    · simp
  apply h ((i + 1) % l.length) (Nat.mod_lt _ hpos)
  · unfold nodeAt
    rw [Nat.mod_add_mod, show i + 1 + (l.length - 1) = i + l.length by omega, Nat.add_mod_right]; exact u1
  · unfold nodeAt; rw [Nat.mod_mod]; exact v1
  · unfold nodeAt; rw [Nat.mod_add_mod]; exact w1

theorem good_corners {keep : Bool} {l : List Node}
    (h : ∀ a b c, Corner (l.map Prod.snd) a b c → GoodTriple keep a b c) (i : Nat) : GoodAt keep l i := by
  intro p c n h1 h2 h3
  apply h
  unfold nodeAt at h1 h2 h3
  have hpos : 0 < l.length := by
    rcases l with _ | ⟨x, l⟩
    · simp at h1
    · simp
  refine ⟨i + (l.length - 1), ?_, ?_, ?_⟩ <;> rw [List.length_map, List.getElem?_map]
  · rw [h1]; rfl
  · rw [show i + (l.length - 1) + 1 = i + l.length by omega, Nat.add_mod_right, h2]; rfl
  · rw [show i + (l.length - 1) + 2 = i + 1 + l.length by omega, Nat.add_mod_right, h3]; rfl

/-! ### From the ring to the path -/

theorem fromNode_eq {A B : List Node} {start : Nat} (hnd : ((A ++ B).map Prod.fst).Nodup)
    (hst : (A ++ B).head?.map Prod.fst = some start) (hB : B ≠ []) : fromNode start (B ++ A) = A ++ B := by
  unfold fromNode
  cases A with
  | nil =>
    obtain ⟨b, B, rfl⟩ := List.exists_cons_of_ne_nil hB
    simp only [List.nil_append, List.head?_cons, Option.map_some, Option.some.injEq] at hst
    simp [List.dropWhile_cons, List.takeWhile_cons, hst]
  | cons a A =>
    simp only [List.cons_append, List.head?_cons, Option.map_some, Option.some.injEq] at hst
    have hall : ∀ v ∈ B, (v.1 != start) = true := by
      intro v hv
      rw [bne_iff_ne, ← hst]
      intro hc
      rw [List.cons_append, List.map_cons, List.nodup_cons] at hnd
      exact hnd.1 (by rw [← hc]; exact List.mem_map_of_mem (List.mem_append_right _ hv))
    rw [List.dropWhile_append_of_pos hall, List.takeWhile_append_of_pos hall]
    simp [List.dropWhile_cons, List.takeWhile_cons, hst]

theorem nodes_fst (l : List IPt) : ((List.range l.length).zip l).map Prod.fst = List.range l.length :=
  List.map_fst_zip (by simp)

theorem nodes_snd (l : List IPt) : ((List.range l.length).zip l).map Prod.snd = l :=
  List.map_snd_zip (by simp)

theorem nodes_nodup (l : List IPt) : (((List.range l.length).zip l).map Prod.fst).Nodup := by
  rw [nodes_fst]; exact List.nodup_range

theorem nodes_inv (keep : Bool) (l : List IPt) (h : l ≠ []) :
    PathInv keep ((List.range l.length).zip l) ⟨(List.range l.length).zip l, 0, 0⟩ 0 := by
  have hlen : ((List.range l.length).zip l).length = l.length := by simp
  have hpos := List.length_pos_of_ne_nil h
  have hne : (List.range l.length).zip l ≠ [] := by
    intro hc; rw [hc] at hlen; simp at hlen; omega
  have hhd : ((List.range l.length).zip l).head? = some (0, l.head h) := by
    obtain ⟨a, l, rfl⟩ := List.exists_cons_of_ne_nil h
    simp [List.range_succ_eq_map]
  refine ⟨⟨[], _, by simp, by simp, hne, ?_⟩, by simp only [hlen]; exact hpos, ⟨(0, l.head h), ?_, rfl⟩,
    by intro i hi; omega, fun _ _ => rfl⟩
  · rw [List.nil_append, hhd]; rfl
  · simp only
    unfold nodeAt
    rw [Nat.sub_zero, Nat.mod_self, ← List.head?_eq_getElem?, hhd]

/-- What the stages 2 and 3 of `AddPath` make of the points. -/
theorem pathLoop_points {keep full : Bool} {l : List IPt} (h : l ≠ [])
    (hr : ∀ p ∈ l, CoordsWithin (RangeOf full) p) {fuel : Nat} (hf : l.length * (l.length + 1) + 1 ≤ fuel) :
    ∃ t, pathLoop keep full fuel ⟨(List.range l.length).zip l, 0, 0⟩ = .ok t ∧
      ((fromNode t.start t.ring).map Prod.snd).Sublist l ∧
      (fromNode t.start t.ring).length = t.ring.length ∧
      (∀ g, FlatSum g → ringSumOf g ((fromNode t.start t.ring).map Prod.snd) = ringSumOf g l) ∧
      (3 ≤ t.ring.length → ∀ a b c, Corner ((fromNode t.start t.ring).map Prod.snd) a b c → GoodTriple keep a b c) := by
  have hL := nodes_nodup l
  have hR : InRange full ((List.range l.length).zip l) := by
    intro v hv
    apply hr
    rw [← nodes_snd l]
    exact List.mem_map_of_mem hv
  obtain ⟨t, t1, ⟨⟨A, B, p1, p2, p3, p4⟩, t3, t4⟩⟩ := pathLoop_spec hL hR fuel _ 0 (nodes_inv keep l h) (by simpa using hf)
  have hnd : ((A ++ B).map Prod.fst).Nodup := hL.sublist (p2.map _)
  have hfrom : fromNode t.start t.ring = A ++ B := by rw [p1]; exact fromNode_eq hnd p4 p3
  refine ⟨t, t1, ?_, ?_, ?_, ?_⟩
  · rw [hfrom]
    have := p2.map Prod.snd
    rwa [nodes_snd] at this
  · rw [hfrom, p1]; simp [Nat.add_comm]
  · intro g hg
    rw [hfrom, List.map_append, ringSumOf_append, ← List.map_append, ← p1, t4 g hg, nodes_snd]
  · intro h3 a b c hc
    rcases t3 with t3 | t3
    · omega
    · apply corners_good t3
      rw [p1, List.map_append]
      apply corner_append
      rw [← List.map_append, ← hfrom]; exact hc

/-! ### Flat paths -/

theorem exists_leftmost : ∀ (l : List IPt), l ≠ [] → ∃ m ∈ l, ∀ q ∈ l, m.X ≤ q.X
  | [], h => absurd rfl h
  | [a], _ => ⟨a, by simp, by simp⟩
  | a :: b :: l, _ => by
    obtain ⟨m, h1, h2⟩ := exists_leftmost (b :: l) (by simp)
    by_cases h : a.X ≤ m.X
    · refine ⟨a, by simp, fun q hq => ?_⟩
      rcases List.mem_cons.1 hq with rfl | hq
      · exact le_refl _
      · exact h.trans (h2 q hq)
    · refine ⟨m, List.mem_cons_of_mem _ h1, fun q hq => ?_⟩
      rcases List.mem_cons.1 hq with rfl | hq
      · exact (not_le.1 h).le
      · exact h2 q hq

/-- A path all of whose corners are kept is not horizontal. -/
theorem not_flat {keep : Bool} {l : List IPt} (hl : l ≠ []) (y : Int) (hy : ∀ p ∈ l, p.Y = y)
    (hg : ∀ a b c, Corner l a b c → GoodTriple keep a b c) : False := by
  obtain ⟨m, hm, hmin⟩ := exists_leftmost l hl
  obtain ⟨i, hi, rfl⟩ := List.getElem_of_mem hm
  have hpos : 0 < l.length := by omega
  have hc : Corner l (l[(i + (l.length - 1)) % l.length]'(Nat.mod_lt _ hpos)) l[i] (l[(i + 1) % l.length]'(Nat.mod_lt _ hpos)) := by
    refine ⟨i + (l.length - 1), List.getElem?_eq_getElem _, ?_, ?_⟩
    · rw [show i + (l.length - 1) + 1 = i + l.length by omega, Nat.add_mod_right, Nat.mod_eq_of_lt hi]
      exact List.getElem?_eq_getElem _
    · rw [show i + (l.length - 1) + 2 = i + 1 + l.length by omega, Nat.add_mod_right]
      exact List.getElem?_eq_getElem _
  obtain ⟨g1, g2⟩ := hg _ _ _ hc
  have hn := hmin _ (List.getElem_mem (Nat.mod_lt (i + 1) hpos))
  have hp := hmin _ (List.getElem_mem (Nat.mod_lt (i + (l.length - 1)) hpos))
  have yn := hy _ (List.getElem_mem (Nat.mod_lt (i + 1) hpos))
  have yp := hy _ (List.getElem_mem (Nat.mod_lt (i + (l.length - 1)) hpos))
  have yc := hy _ hm
  generalize l[(i + (l.length - 1)) % l.length]'(Nat.mod_lt _ hpos) = p at *
  generalize l[(i + 1) % l.length]'(Nat.mod_lt _ hpos) = n at *
  generalize l[i] = c at *
  apply g2
  refine ⟨by rw [turn_int_zero, yn, yp, yc]; ring, fun _ => ?_⟩
  have hnc : c.X < n.X := by
    rcases lt_or_eq_of_le hn with h | h
    · exact h
    · exfalso; apply g1
      cases c; cases n
      simp only at *
      rw [h, yc, yn]
  unfold isBetween
  split
  · rfl
  · rename_i h1
    split
    · have h2 : ¬ (c.X > p.X) := by omega
      simp [h2, hnc]
    · rename_i h2
      exfalso
      apply h1
      left
      cases p; cases n
      simp only [not_not] at *
      rw [h2, yp, yn]

/-! ### Paths that need no change -/

/-- A path whose corners are all good stays. -/
theorem pathStep_steady {keep full : Bool} {L A B : List Node} {stop start : Nat}
    (hL : (L.map Prod.fst).Nodup) (hr : InRange full L) (hlen : 3 ≤ L.length)
    (hg : ∀ a b c, Corner (L.map Prod.snd) a b c → GoodTriple keep a b c)
    (h : A ++ B = L) (hB : B ≠ []) :
    ∃ A' B', A' ++ B' = L ∧ B' ≠ [] ∧
      (pathStep keep full ⟨B ++ A, stop, start⟩ = .ok (.done ⟨B' ++ A', stop, start⟩) ∨
       pathStep keep full ⟨B ++ A, stop, start⟩ = .ok (.more ⟨B' ++ A', stop, start⟩)) := by
  obtain ⟨e, B, rfl⟩ := List.exists_cons_of_ne_nil hB
  subst h
  have hlen' : 2 ≤ (B ++ A).length := by simp at hlen ⊢; omega
  have hne : B ++ A ≠ [] := by intro hc; rw [hc] at hlen'; simp at hlen'
  have hh : (B ++ A).headD e = (B ++ A).head hne := by
    rw [List.headD_eq_head?_getD, List.head?_eq_some_head hne]; rfl
  have hl : (B ++ A).getLastD e = (B ++ A).getLast hne := by
    rw [List.getLastD_eq_getLast?, List.getLast?_eq_some_getLast hne]; rfl
  have hnd : ((e :: (B ++ A)).map Prod.fst).Nodup := nodup_ring (B := e :: B) hL (List.Sublist.refl _)
  have hgood : GoodTriple keep ((B ++ A).getLast hne).2 e.2 ((B ++ A).head hne).2 := by
    rw [← goodAt_head hne]
    apply good_corners
    intro a b c hc
    apply hg
    rw [List.map_append]
    apply corner_append
    rw [← List.map_append]
    exact hc
  have hin : ∀ w ∈ e :: (B ++ A), CoordsWithin (RangeOf full) w.2 := by
    intro w hw
    apply hr
    rw [← List.cons_append, List.mem_append] at hw
    rw [List.mem_append]; tauto
  obtain ⟨b, b1, b2⟩ := spike_eq (keep := keep) (full := full)
    (hin _ (List.mem_cons_of_mem _ (List.getLast_mem hne))) (hin e (by simp))
    (hin _ (List.mem_cons_of_mem _ (List.head_mem hne)))
  have hb : b = false := by
    cases b with
    | false => rfl
    | true => exact absurd (b2.1 rfl) hgood.2
  subst hb
  have h2 : ((B ++ A).getLast hne).1 ≠ ((B ++ A).head hne).1 := by
    rw [List.map_cons, List.nodup_cons] at hnd
    obtain ⟨b, l, hbl⟩ := List.exists_cons_of_ne_nil hne
    simp only [hbl] at hnd hlen' ⊢
    cases l with
    | nil => simp at hlen'
    | cons c l =>
      rw [List.head_cons, List.getLast_cons (by simp)]
      intro hc
      rw [List.map_cons, List.nodup_cons] at hnd
      exact hnd.2.1 (by rw [← hc]; exact List.mem_map_of_mem (List.getLast_mem _))
  have hpart : ∃ A' B', A' ++ B' = A ++ e :: B ∧ B' ≠ [] ∧ (B ++ A) ++ [e] = B' ++ A' := by
    by_cases hB' : B = []
    · subst hB'; exact ⟨[], A ++ [e], by simp, by simp, by simp⟩
    · exact ⟨A ++ [e], B, by simp, hB', by simp⟩
  obtain ⟨A', B', c1, c2, c3⟩ := hpart
  refine ⟨A', B', c1, c2, ?_⟩
  rw [← c3]
  unfold pathStep
  simp only [List.cons_append, hh, hl]
  rw [if_neg hgood.1, if_neg h2, b1, Outcome.bind_ok]
  simp only [Bool.false_eq_true, if_false]
  by_cases hst : ((B ++ A).head hne).1 = stop
  · left; rw [if_pos hst]; rfl
  · right; rw [if_neg hst]; rfl

theorem pathLoop_steady {keep full : Bool} {L : List Node} {start : Nat}
    (hL : (L.map Prod.fst).Nodup) (hr : InRange full L) (hlen : 3 ≤ L.length)
    (hg : ∀ a b c, Corner (L.map Prod.snd) a b c → GoodTriple keep a b c) :
    ∀ (fuel : Nat) (A B : List Node) (stop : Nat) (t : PathLoop), A ++ B = L → B ≠ [] →
      pathLoop keep full fuel ⟨B ++ A, stop, start⟩ = .ok t →
      ∃ A' B', A' ++ B' = L ∧ B' ≠ [] ∧ t.ring = B' ++ A' ∧ t.start = start
  | 0, _, _, _, _, _, _, h => by cases h
  | fuel + 1, A, B, stop, t, h, hB, ht => by
    obtain ⟨A', B', c1, c2, c3 | c3⟩ := pathStep_steady (stop := stop) (start := start) hL hr hlen hg h hB
    · rw [pathLoop, c3, Outcome.bind_ok] at ht
      obtain rfl := Outcome.ok.inj ht
      exact ⟨A', B', c1, c2, rfl, rfl⟩
    · rw [pathLoop, c3, Outcome.bind_ok] at ht
      exact pathLoop_steady hL hr hlen hg fuel A' B' stop t c1 c2 ht

/-! ### `FixupOutPolygon` -/

/-- What holds while the loop runs. -/
structure FixInv (keep : Bool) (L : List Node) (s : FixLoop) (k : Nat) : Prop where
  part : ∃ A B, s.ring = B ++ A ∧ (A ++ B).Sublist L
  pos : s.ring ≠ []
  le : k ≤ s.ring.length
  zero : k = 0 → s.lastOK = none
  stop : 0 < k → ∃ v, nodeAt s.ring (s.ring.length - k) = some v ∧ s.lastOK = some v.1
  good : ∀ i, i < k → GoodAt keep s.ring (s.ring.length - k + i)
  same : ∀ g, FlatSum g → ringSumOf g (s.ring.map Prod.snd) = ringSumOf g (L.map Prod.snd)

/-- What holds after the loop. -/
def FixFinal (keep : Bool) (L : List Node) (s : FixLoop) : Prop :=
  (s.ring = [] ∧ ∀ g, FlatSum g → ringSumOf g (L.map Prod.snd) = 0) ∨
  ((∃ A B, s.ring = B ++ A ∧ (A ++ B).Sublist L) ∧ 3 ≤ s.ring.length ∧
    (∀ i, i < s.ring.length → GoodAt keep s.ring i) ∧
    ∀ g, FlatSum g → ringSumOf g (s.ring.map Prod.snd) = ringSumOf g (L.map Prod.snd))

theorem fixBad_eq {keep full : Bool} {p c n : IPt} (hp : CoordsWithin (RangeOf full) p)
    (hc : CoordsWithin (RangeOf full) c) (hn : CoordsWithin (RangeOf full) n) :
    ∃ b, fixBad keep full p c n = .ok b ∧ (b = true → turn p.toPt c.toPt n.toPt = 0) ∧
      (b = false → GoodTriple keep p c n) := by
  unfold fixBad
  split
  · rename_i h
    refine ⟨true, rfl, fun _ => ?_, fun h => by cases h⟩
    rcases h with h | h
    · rw [h]; exact turn_last _ _
    · rw [h]; exact turn_first _ _
  · rename_i h
    push Not at h
    obtain ⟨b, b1, b2⟩ := spike_eq (keep := keep) (full := full) hp hc hn
    refine ⟨b, b1, fun hb => (b2.1 hb).1, fun hb => ⟨h.1, fun hc => ?_⟩⟩
    rw [hb] at b2
    simpa using b2.2 hc

/-- One step of the loop. -/
theorem fixStep_spec {keep full : Bool} {L : List Node} {s : FixLoop} {k : Nat}
    (hL : (L.map Prod.fst).Nodup) (hr : InRange full L) (h : FixInv keep L s k) :
    (∃ t, fixStep keep full s = .ok (.done t) ∧ FixFinal keep L t) ∨
    (∃ t k', fixStep keep full s = .ok (.more t) ∧ FixInv keep L t k' ∧
      (t.ring.length < s.ring.length ∨ (t.ring.length = s.ring.length ∧ k' = k + 1))) := by
  obtain ⟨ring, lastOK⟩ := s
  obtain ⟨⟨A, B, p1, p2⟩, hpos, hle, hzero, hstop, hgood, hsame⟩ := h
  simp only at p1 hpos hle hzero hstop hgood hsame ⊢
  cases ring with
  | nil => exact absurd rfl hpos
  | cons e rest =>
    have hnd : ((e :: rest).map Prod.fst).Nodup := by rw [p1]; exact nodup_ring hL p2
    -- the node `e` can be taken to be in the second part
    obtain ⟨A, B', rfl, p2⟩ : ∃ A B', rest = B' ++ A ∧ (A ++ e :: B').Sublist L := by
      cases B with
      | nil =>
        cases A with
        | nil => simp at p1
        | cons a A =>
          simp only [List.nil_append, List.cons.injEq] at p1
          obtain ⟨rfl, rfl⟩ := p1
          exact ⟨[], rest, by simp, by simpa using p2⟩
      | cons b B =>
        simp only [List.cons_append, List.cons.injEq] at p1
        obtain ⟨rfl, rfl⟩ := p1
        exact ⟨A, B, rfl, p2⟩
    have q2 : (A ++ B').Sublist L := (List.Sublist.append_left (List.sublist_cons_self e B') A).trans p2
    by_cases hne : B' ++ A = []
    · left
      rw [hne] at hsame ⊢
      refine ⟨⟨[], lastOK⟩, by unfold fixStep; simp, Or.inl ⟨rfl, fun g hg => ?_⟩⟩
      rw [← hsame g hg]; exact ringSumOf_short hg _ (by simp)
    · have hh : (B' ++ A).headD e = (B' ++ A).head hne := by
        rw [List.headD_eq_head?_getD, List.head?_eq_some_head hne]; rfl
      have hl : (B' ++ A).getLastD e = (B' ++ A).getLast hne := by
        rw [List.getLastD_eq_getLast?, List.getLast?_eq_some_getLast hne]; rfl
      have he1 : ((B' ++ A).getLast hne).1 ≠ e.1 := by
        intro hc
        rw [List.map_cons, List.nodup_cons] at hnd
        exact hnd.1 (by rw [← hc]; exact List.mem_map_of_mem (List.getLast_mem hne))
      have hmem : ∀ w ∈ e :: (B' ++ A), w ∈ L := by
        intro w hw
        apply p2.subset
        rw [← List.cons_append, List.mem_append] at hw
        rw [List.mem_append]; tauto
      unfold fixStep
      simp only [hh, hl]
      by_cases h2 : ((B' ++ A).getLast hne).1 = ((B' ++ A).head hne).1
      · left
        rw [if_pos (Or.inr h2)]
        refine ⟨_, rfl, Or.inl ⟨rfl, fun g hg => ?_⟩⟩
        have : (B' ++ A).length = 1 := by
          rw [List.map_cons, List.nodup_cons] at hnd
          obtain ⟨b, l, hbl⟩ := List.exists_cons_of_ne_nil hne
          simp only [hbl] at h2 hnd ⊢
          cases l with
          | nil => rfl
          | cons c l =>
            exfalso
            rw [List.head_cons, List.getLast_cons (by simp)] at h2
            rw [List.map_cons, List.nodup_cons] at hnd
            exact hnd.2.1 (by rw [← h2]; exact List.mem_map_of_mem (List.getLast_mem _))
        rw [← hsame g hg]
        exact ringSumOf_short hg _ (by rw [List.length_map, List.length_cons]; omega)
      · rw [if_neg (by rintro (hc | hc); exacts [he1 hc, h2 hc])]
        have hlen3 : 3 ≤ (e :: (B' ++ A)).length := by
          obtain ⟨b, l, hbl⟩ := List.exists_cons_of_ne_nil hne
          simp only [hbl] at h2 ⊢
          cases l with
          | nil => simp at h2
          | cons c l => simp
        have hin := fun w hw => hr w (hmem w hw)
        obtain ⟨b, b1, b2, b3⟩ := fixBad_eq (keep := keep) (full := full)
          (hin _ (List.mem_cons_of_mem _ (List.getLast_mem hne))) (hin e (by simp))
          (hin _ (List.mem_cons_of_mem _ (List.head_mem hne)))
        rw [b1, Outcome.bind_ok]
        cases b with
        | true =>
          right
          have t1 := b2 rfl
          have hlen : ((B' ++ A).getLast hne :: (B' ++ A).dropLast).length = (B' ++ A).length := by
            rw [List.length_cons, List.length_dropLast]
            have := List.length_pos_of_ne_nil hne
            omega
          refine ⟨_, 0, rfl, ⟨?_, by simp, by omega, fun _ => rfl, fun h => by omega, fun i hi => by omega, ?_⟩, Or.inl ?_⟩
          · by_cases hA : A = []
            · subst hA
              simp only [List.append_nil] at hne ⊢
              simp only [List.nil_append] at q2
              refine ⟨B'.dropLast, [B'.getLast hne], rfl, ?_⟩
              rw [List.dropLast_append_getLast hne]; exact q2
            · refine ⟨A.dropLast, A.getLast hA :: B', ?_, ?_⟩
              · simp only [List.getLast_append_of_ne_nil hne hA, List.dropLast_append_of_ne_nil hA, List.cons_append]
              · have : A.dropLast ++ A.getLast hA :: B' = A ++ B' := by
                  conv_rhs => rw [← List.dropLast_append_getLast hA]
                  simp
                rw [this]; exact q2
          · intro g hg
            rw [ringSumOf_back, ← hsame g hg, List.map_cons]
            symm
            apply ringSumOf_remove hg _ _ (by simpa using hne)
            rw [List.head_map, List.getLast_map]; exact t1
          · rw [hlen]; simp
        | false =>
          have hg0 : GoodAt keep (e :: (B' ++ A)) 0 := by
            rw [goodAt_head hne]; exact b3 rfl
          simp only [Bool.false_eq_true, if_false]
          have hkn : lastOK = some e.1 → k = (e :: (B' ++ A)).length := by
            intro hlo
            have hk : 0 < k := by
              rcases Nat.eq_zero_or_pos k with h | h
              · rw [hzero h] at hlo; cases hlo
              · exact h
            obtain ⟨v, v1, v2⟩ := hstop hk
            rw [hlo, Option.some.injEq] at v2
            by_contra hc
            unfold nodeAt at v1
            rw [Nat.mod_eq_of_lt (by omega)] at v1
            obtain ⟨g3, g4⟩ := List.getElem?_eq_some_iff.1 v1
            have := (List.nodup_iff_injective_getElem.1 hnd)
            have h5 : (⟨0, by simp⟩ : Fin ((e :: (B' ++ A)).map Prod.fst).length) =
                ⟨(e :: (B' ++ A)).length - k, by simpa using g3⟩ := by
              apply this
              simp only [List.getElem_map, g4, List.getElem_cons_zero]
              exact v2
            have h6 := congrArg Fin.val h5
            simp only at h6
            omega
          by_cases hlo : lastOK = some e.1
          · left
            rw [if_pos hlo]
            refine ⟨_, rfl, Or.inr ⟨⟨A, e :: B', rfl, p2⟩, hlen3, ?_, hsame⟩⟩
            have hk := hkn hlo
            intro i hi
            have := hgood i (by rw [hk]; exact hi)
            rwa [hk, Nat.sub_self, Nat.zero_add] at this
          · right
            rw [if_neg hlo]
            have hlen : ((B' ++ A) ++ [e]).length = (e :: (B' ++ A)).length := by simp; omega
            have hklt : k < (e :: (B' ++ A)).length := by
              rcases lt_or_eq_of_le hle with h | h
              · exact h
              · exfalso
                obtain ⟨v, v1, v2⟩ := hstop (by omega)
                rw [h, Nat.sub_self, nodeAt_head] at v1
                cases v1
                exact hlo v2
            refine ⟨_, k + 1, rfl, ⟨⟨A ++ [e], B', by simp, by simpa using p2⟩, by simp, ?_, by omega, ?_, ?_, ?_⟩, Or.inr ⟨hlen, rfl⟩⟩
            · simp only [hlen]; omega
            · intro _
              simp only [hlen, nodeAt_advance]
              rw [show (e :: (B' ++ A)).length - (k + 1) + 1 = (e :: (B' ++ A)).length - k by omega]
              rcases Nat.eq_zero_or_pos k with h | h
              · subst h
                refine ⟨e, ?_, by rw [hzero rfl]; rfl⟩
                unfold nodeAt
                rw [Nat.sub_zero, Nat.mod_self]; rfl
              · obtain ⟨v, v1, v2⟩ := hstop h
                exact ⟨v, v1, by rw [v2]; rfl⟩
            · intro i hi
              simp only [hlen]
              rw [goodAt_advance]
              by_cases hik : i < k
              · have := hgood i hik
                rwa [show (e :: (B' ++ A)).length - (k + 1) + i + 1 = (e :: (B' ++ A)).length - k + i by omega]
              · have hik : i = k := by omega
                subst hik
                rw [show (e :: (B' ++ A)).length - (i + 1) + i + 1 = 0 + (e :: (B' ++ A)).length by omega]
                unfold GoodAt at hg0 ⊢
                have hper : ∀ j, nodeAt (e :: (B' ++ A)) (j + (e :: (B' ++ A)).length) = nodeAt (e :: (B' ++ A)) j := by
                  intro j; unfold nodeAt; rw [Nat.add_mod_right]
                rw [hper, Nat.add_right_comm, hper, Nat.add_right_comm, hper]
                exact hg0
            · intro g hg
              rw [← hsame g hg, List.map_append, ringSumOf_append]
              rfl

/-- The loop ends. -/
theorem fixLoop_spec {keep full : Bool} {L : List Node} (hL : (L.map Prod.fst).Nodup) (hr : InRange full L) :
    ∀ (fuel : Nat) (s : FixLoop) (k : Nat), FixInv keep L s k →
      s.ring.length * (s.ring.length + 1) + 1 ≤ fuel + k →
      ∃ t, fixLoop keep full fuel s = .ok t ∧ FixFinal keep L t
  | 0, s, k, h, hf => by
    have := h.le
    nlinarith
  | fuel + 1, s, k, h, hf => by
    rcases fixStep_spec hL hr h with ⟨t, t1, t2⟩ | ⟨t, k', t1, t2, t3⟩
    · exact ⟨t, by rw [fixLoop, t1]; rfl, t2⟩
    · have hle := h.le
      obtain ⟨u, u1, u2⟩ := fixLoop_spec hL hr fuel t k' t2 (by
        rcases t3 with t3 | ⟨t3, rfl⟩
        · have : t.ring.length * (t.ring.length + 1) + 2 * s.ring.length ≤ s.ring.length * (s.ring.length + 1) := by
            nlinarith
          omega
        · rw [t3]; omega)
      exact ⟨u, by rw [fixLoop, t1]; exact u1, u2⟩

end Delynoi
