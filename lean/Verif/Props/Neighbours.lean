import Verif.Model.Neighbours
import Verif.Proofs.Maps
import Verif.Props.IndexSegment
import Verif.Props.Point
import Mathlib.Data.Sym.Sym2
import Mathlib.Data.Finset.Card
import Mathlib.Data.Finset.Dedup
/-!
# Properties C59-C61: neighbourhood maps
-/
set_option linter.unusedSectionVars false
namespace Delynoi

/-! ### C59 -/

/-- The unordered pair of end points of a segment. -/
def ends (s : ISeg) : Sym2 Int := s(s.p1, s.p2)

theorem ends_eq_iff (a b : ISeg) : ends a = ends b ↔ SameEnds a b := by
  unfold ends SameEnds
  rw [Sym2.eq_iff]

theorem hash_congr (f : Int → Int → BitVec 64) (hc : ∀ i j, f i j = f j i) (a b : ISeg)
    (ha : a.hash = f a.p1 a.p2) (hb : b.hash = f b.p1 b.p2) (h : SameEnds a b) :
    a.hash = b.hash := by
  rw [ha, hb]
  rcases h with ⟨e1, e2⟩ | ⟨e1, e2⟩
  · rw [e1, e2]
  · rw [e1, e2, hc]

theorem seg_kernel : UMap.Kernel ISeg.hash ISeg.eq HashOk ends := by
  intro a b ha hb
  rw [ends_eq_iff, C14_eq_iff]
  exact ⟨fun h => h.2, fun h => ⟨hash_congr pairHash pairHash_comm a b ha hb h, h⟩⟩

namespace SegMap

/-- Segment a call is about. -/
def Op.seg : Op → ISeg
  | .insert s _ => s
  | .assign s _ => s
  | .get s => s
  | .contains s => s

/-- Every call but `containsSegment` leaves its segment in the map. -/
def Op.adds : Op → Bool
  | .contains _ => false
  | _ => true

end SegMap

/-- Meaning of one call on a finite map from unordered pairs to neighbours. -/
def segSpecStep (φ : Sym2 Int → Option NbSeg) : SegMap.Op → Sym2 Int → Option NbSeg
  | .insert s i => Function.update φ (ends s)
      (some ((φ (ends s)).elim ⟨some i, -1⟩ (fun n => ⟨n.n1, i⟩)))
  | .assign s n => Function.update φ (ends s) (some n)
  | .get s => Function.update φ (ends s) (some ((φ (ends s)).getD ⟨none, -1⟩))
  | .contains _ => φ

theorem segMap_sim (ops : List SegMap.Op) (hk : ∀ o ∈ ops, HashOk o.seg) :
    (∀ e ∈ SegMap.run ops, HashOk e.1) ∧
    (∀ k, HashOk k → (SegMap.run ops).find k = ops.foldl segSpecStep (fun _ => none) (ends k)) ∧
    ((SegMap.run ops).map (fun e => ends e.1)).Nodup ∧
    (∀ c, c ∈ (SegMap.run ops).map (fun e => ends e.1) ↔
      ∃ o ∈ ops, o.adds = true ∧ ends o.seg = c) := by
  induction ops using List.reverseRecOn with
  | nil =>
    refine ⟨?_, ?_, ?_, ?_⟩ <;> simp [SegMap.run, SegMap.empty, SegMap.find, UMap.find]
  | append_singleton ops o ih =>
    obtain ⟨i1, i2, i3, i4⟩ := ih (fun o ho => hk o (by simp [ho]))
    have ho : HashOk o.seg := hk o (by simp)
    have hrun : SegMap.run (ops ++ [o]) = (SegMap.run ops).step o := by
      simp [SegMap.run]
    have hspec : (ops ++ [o]).foldl segSpecStep (fun _ => none)
        = segSpecStep (ops.foldl segSpecStep (fun _ => none)) o := by simp
    rw [hrun, hspec]
    generalize SegMap.run ops = m at *
    generalize ops.foldl segSpecStep (fun _ => none) = φ at *
    -- one lemma for all updating calls
    have key : ∀ (s : ISeg) (d : NbSeg) (f : NbSeg → NbSeg), HashOk s →
        (∀ e ∈ UMap.upsert ISeg.hash ISeg.eq d f m s, HashOk e.1) ∧
        (∀ k, HashOk k → SegMap.find (UMap.upsert ISeg.hash ISeg.eq d f m s) k
          = Function.update φ (ends s) (some ((φ (ends s)).elim d f)) (ends k)) ∧
        ((UMap.upsert ISeg.hash ISeg.eq d f m s).map (fun e => ends e.1)).Nodup ∧
        (∀ c, c ∈ (UMap.upsert ISeg.hash ISeg.eq d f m s).map (fun e => ends e.1) ↔
          c = ends s ∨ c ∈ m.map (fun e => ends e.1)) := by
      intro s d f hs
      refine ⟨UMap.upsert_keys d f m s i1 hs, ?_, UMap.nodup_upsert seg_kernel d f m s i1 hs i3,
        UMap.mem_upsert_cls seg_kernel d f m s i1 hs⟩
      intro k hkk
      have := UMap.find_upsert seg_kernel d f m s k i1 hs hkk
      by_cases hc : ends s = ends k
      · rw [← hc, Function.update_self]
        have h1 := this.1 hc
        have h2 := i2 s hs
        unfold SegMap.find at h2 ⊢
        rw [h1, h2]
      · rw [Function.update_of_ne (Ne.symm hc)]
        have h1 := this.2 hc
        have h2 := i2 k hkk
        unfold SegMap.find at h2 ⊢
        rw [h1, h2]
    have fin : ∀ (m' : SegMap), o.adds = true →
        (∀ c, c ∈ m'.map (fun e => ends e.1) ↔ c = ends o.seg ∨ c ∈ m.map (fun e => ends e.1)) →
        ∀ c, c ∈ m'.map (fun e => ends e.1) ↔
          ∃ o' ∈ ops ++ [o], o'.adds = true ∧ ends o'.seg = c := by
      intro m' ha h c
      rw [h c, i4 c]
      constructor
      · rintro (h | ⟨o', h1, h2⟩)
        · exact ⟨o, by simp, ha, h.symm⟩
        · exact ⟨o', by simp [h1], h2⟩
      · rintro ⟨o', h1, h2, h3⟩
        rcases List.mem_append.1 h1 with h1 | h1
        · exact Or.inr ⟨o', h1, h2, h3⟩
        · simp at h1; subst h1; exact Or.inl h3.symm
    cases o with
    | insert s i =>
      obtain ⟨k1, k2, k3, k4⟩ := key s (NbSeg.one i) (fun n => n.setNeighbour i) ho
      exact ⟨k1, k2, k3, fin _ rfl k4⟩
    | assign s n =>
      obtain ⟨k1, k2, k3, k4⟩ := key s n (fun _ => n) ho
      refine ⟨k1, ?_, k3, fin _ rfl k4⟩
      intro k hkk
      refine (k2 k hkk).trans ?_
      simp only [segSpecStep]
      cases φ (ends s) <;> rfl
    | get s =>
      obtain ⟨k1, k2, k3, k4⟩ := key s NbSeg.default' id ho
      have hst : (m.step (.get s)) = UMap.upsert ISeg.hash ISeg.eq NbSeg.default' id m s := by
        show (m.get s).1 = _
        unfold SegMap.get
        split
        · rename_i n hn
          refine (UMap.upsert_id _ _ _ ?_).symm
          have : UMap.find ISeg.hash ISeg.eq m s = some n := hn
          rw [this]; simp
        · rfl
      rw [hst]
      refine ⟨k1, ?_, k3, fin _ rfl k4⟩
      intro k hkk
      refine (k2 k hkk).trans ?_
      simp only [segSpecStep]
      cases φ (ends s) <;> rfl
    | contains s =>
      refine ⟨i1, i2, i3, ?_⟩
      intro c
      refine (i4 c).trans ?_
      constructor
      · rintro ⟨o', h1, h2⟩; exact ⟨o', by simp [h1], h2⟩
      · rintro ⟨o', h1, h2, h3⟩
        rcases List.mem_append.1 h1 with h1 | h1
        · exact ⟨o', h1, h2, h3⟩
        · simp at h1; subst h1; exact absurd h2 (by simp [SegMap.Op.adds])

/-- C59: after any history of calls with keys that were constructed, copied, ... (`HashOk`, see
C14) the map is the abstract map on unordered pairs. -/
theorem C59_history (ops : List SegMap.Op) (hk : ∀ o ∈ ops, HashOk o.seg) (k : ISeg)
    (hkk : HashOk k) :
    (SegMap.run ops).find k = ops.foldl segSpecStep (fun _ => none) s(k.p1, k.p2) :=
  (segMap_sim ops hk).2.1 k hkk

/-- What a list of insertions for one segment is remembered as. -/
def remembered : List Int → Option NbSeg
  | [] => none
  | [i] => some ⟨some i, -1⟩
  | i :: j :: l => some ⟨some i, (j :: l).getLast (by simp)⟩

theorem remembered_append (l : List Int) (i : Int) :
    remembered (l ++ [i]) = some ((remembered l).elim ⟨some i, -1⟩ (fun n => ⟨n.n1, i⟩)) := by
  match l with
  | [] => rfl
  | [a] => rfl
  | a :: b :: l => simp [remembered]

/-- C59: after any history of insertions, a segment's neighbours are the first polygon inserted
for it and the last one inserted after that (`-1` if there was only one), whatever the order of
the end points in insertions and lookup. -/
theorem C59_neighbours (ins : List (Int × Int × Int)) (a b : Int) :
    (SegMap.run (ins.map (fun e => .insert (ISeg.mk' e.1 e.2.1) e.2.2))).find (ISeg.mk' a b) =
      remembered ((ins.filter (fun e => decide ((e.1 = a ∧ e.2.1 = b) ∨ (e.1 = b ∧ e.2.1 = a)))).map
        (fun e => e.2.2)) := by
  have hk : ∀ o ∈ ins.map (fun e => SegMap.Op.insert (ISeg.mk' e.1 e.2.1) e.2.2),
      HashOk o.seg := by
    intro o ho
    obtain ⟨e, _, rfl⟩ := List.mem_map.1 ho
    exact hashOk_mk' _ _
  have h0 := C59_history _ hk _ (hashOk_mk' a b)
  have e1 : (ISeg.mk' a b).p1 = a := rfl
  have e2 : (ISeg.mk' a b).p2 = b := rfl
  rw [e1, e2] at h0
  rw [h0]
  clear h0 hk
  induction ins using List.reverseRecOn with
  | nil => rfl
  | append_singleton ins e ih =>
    have e3 : (ISeg.mk' e.1 e.2.1).p1 = e.1 := rfl
    have e4 : (ISeg.mk' e.1 e.2.1).p2 = e.2.1 := rfl
    rw [List.map_append, List.foldl_append, List.filter_append, List.map_append]
    simp only [List.map_cons, List.map_nil, List.foldl_cons, List.foldl_nil]
    by_cases hc : (e.1 = a ∧ e.2.1 = b) ∨ (e.1 = b ∧ e.2.1 = a)
    · have hs : ends (ISeg.mk' e.1 e.2.1) = s(a, b) := by
        unfold ends; rw [e3, e4, Sym2.eq_iff]; exact hc
      rw [List.filter_cons_of_pos (by simpa using hc)]
      simp only [List.filter_nil, List.map_cons, List.map_nil]
      rw [remembered_append, ← ih]
      simp only [segSpecStep]
      rw [hs, Function.update_self]
    · have hs : s(a, b) ≠ ends (ISeg.mk' e.1 e.2.1) := by
        unfold ends; rw [e3, e4]; intro h; exact hc (Sym2.eq_iff.1 h.symm)
      rw [List.filter_cons_of_neg (by simpa using hc)]
      simp only [List.filter_nil, List.map_nil, List.append_nil]
      rw [← ih]
      simp only [segSpecStep]
      rw [Function.update_of_ne hs]

/-- C59: `size` is the number of different unordered pairs inserted, assigned or looked up. -/
theorem C59_size (ops : List SegMap.Op) (hk : ∀ o ∈ ops, HashOk o.seg) :
    (SegMap.run ops).size =
      ((ops.filter SegMap.Op.adds).map (fun o => s(o.seg.p1, o.seg.p2))).toFinset.card := by
  obtain ⟨_, _, i3, i4⟩ := segMap_sim ops hk
  have h1 : (SegMap.run ops).size = ((SegMap.run ops).map (fun e => ends e.1)).toFinset.card := by
    rw [List.toFinset_card_of_nodup i3, List.length_map]; rfl
  rw [h1]
  congr 1
  ext c
  simp only [List.mem_toFinset]
  rw [i4 c]
  simp only [List.mem_map, List.mem_filter]
  constructor
  · rintro ⟨o, h1, h2, h3⟩; exact ⟨o, ⟨h1, h2⟩, h3⟩
  · rintro ⟨o, ⟨h1, h2⟩, h3⟩; exact ⟨o, h1, h2, h3⟩

/-- C59: `containsSegment` says whether some earlier call put the segment in. -/
theorem C59_contains (ops : List SegMap.Op) (hk : ∀ o ∈ ops, HashOk o.seg) (k : ISeg)
    (hkk : HashOk k) :
    (SegMap.run ops).containsSegment k = true ↔
      ∃ o ∈ ops, o.adds = true ∧ SameEnds o.seg k := by
  obtain ⟨i1, i2, i3, i4⟩ := segMap_sim ops hk
  have h1 : ∀ m : SegMap, (∀ e ∈ m, HashOk e.1) →
      ((m.find k).isSome = true ↔ ends k ∈ m.map (fun e => ends e.1)) := by
    intro m hm
    induction m with
    | nil => simp [SegMap.find, UMap.find]
    | cons e m ih =>
      have ih := ih (fun e he => hm e (by simp [he]))
      unfold SegMap.find at ih ⊢
      rw [UMap.find_cons, List.map_cons, List.mem_cons, ← ih]
      have := seg_kernel e.1 k (hm e (by simp)) hkk
      by_cases hc : ends e.1 = ends k
      · rw [if_pos (this.2 hc)]; simp [hc]
      · rw [if_neg (fun h => hc (this.1 h))]
        constructor
        · exact Or.inr
        · rintro (h | h)
          · exact absurd h.symm hc
          · exact h
  unfold SegMap.containsSegment
  rw [h1 _ i1, i4]
  simp only [ends_eq_iff]

/-- C59: keys whose hash does not match their end points would break this, so the hypothesis is
needed: two entries for the same unordered pair. -/
theorem C59_needs_hash :
    (SegMap.run [.insert ⟨0, 1, 5⟩ 7, .insert ⟨0, 1, 6⟩ 8]).size = 2 := by decide +kernel

example : (SegMap.run [.insert (ISeg.mk' 0 1) 3, .insert (ISeg.mk' 1 2) 4,
    .insert (ISeg.mk' 1 0) 5]).find (ISeg.mk' 0 1) = some ⟨some 3, 5⟩ := by decide +kernel

/-! ### C60 -/

/-- C60: `containsSegment` and `get` of a segment in the map change nothing, and `get` returns
what was stored. -/
theorem C60_get_present_partial (m : SegMap) (s : ISeg) (h : m.containsSegment s = true) :
    (m.get s).1 = m ∧ m.find s = some (m.get s).2 := by
  unfold SegMap.containsSegment at h
  obtain ⟨n, hn⟩ := Option.isSome_iff_exists.1 h
  unfold SegMap.get
  simp [hn]

/-- C60 is violated: whatever the map, `get` of an absent segment adds a record to it whose
first neighbour is uninitialised; reading it is undefined behaviour, and afterwards
`containsSegment` finds the segment. -/
theorem C60_get_absent_refuted (m : SegMap) (s : ISeg) (h : m.containsSegment s = false) :
    (m.get s).1.size = m.size + 1 ∧ (m.get s).2.getFirst = .ub ∧
      (m.get s).1.containsSegment s = true := by
  have hn : m.find s = none := by
    unfold SegMap.containsSegment at h
    simpa using h
  have hg : m.get s = (UMap.upsert ISeg.hash ISeg.eq NbSeg.default' id m s, NbSeg.default') := by
    unfold SegMap.get; simp [hn]
  rw [hg]
  refine ⟨?_, rfl, ?_⟩
  · unfold SegMap.size
    clear hg h
    induction m with
    | nil => rfl
    | cons e m ih =>
      have hn : UMap.find ISeg.hash ISeg.eq (e :: m) s = none := hn
      rw [UMap.find_cons] at hn
      split at hn
      · exact absurd hn (by simp)
      · rename_i hh
        simp only
        rw [UMap.upsert_cons, if_neg hh, List.length_cons, List.length_cons]
        exact congrArg (· + 1) (ih hn)
  · unfold SegMap.containsSegment
    clear hg h
    induction m with
    | nil =>
      show (UMap.find ISeg.hash ISeg.eq [(s, NbSeg.default')] s).isSome = true
      rw [UMap.find_cons, if_pos ⟨rfl, C14_equivalence.1 s⟩]; rfl
    | cons e m ih =>
      have hn : UMap.find ISeg.hash ISeg.eq (e :: m) s = none := hn
      rw [UMap.find_cons] at hn
      split at hn
      · exact absurd hn (by simp)
      · rename_i hh
        have ih := ih hn
        unfold SegMap.find at ih ⊢
        simp only at ih ⊢
        rw [UMap.upsert_cons, if_neg hh, UMap.find_cons, if_neg hh]
        exact ih

example : (SegMap.insert SegMap.empty (ISeg.mk' 0 1) 3).containsSegment (ISeg.mk' 1 0) = true := by
  decide +kernel
example : (SegMap.insert SegMap.empty (ISeg.mk' 0 1) 3).containsSegment (ISeg.mk' 1 2) = false := by
  decide +kernel

/-! ### C61 -/

variable {K : Type} [Field K] [LinearOrder K] [IsStrictOrderedRing K]

namespace PtMap

/-- Point a call is about. -/
def Op.pt : Op K → Pt K
  | .insert p _ => p
  | .insertAll p _ => p
  | .get p => p

/-- Polygon indices a call adds. -/
def Op.added : Op K → List Int
  | .insert _ n => [n]
  | .insertAll _ n => n
  | .get _ => []

end PtMap

instance (tol : K) (a b : Pt K) : Decidable (Close tol a b) := by unfold Close; infer_instance

theorem equiv_iff_close (tol : K) (h : 0 < tol) (a b : Pt K) :
    Equiv' (fun a b : Pt K => a.ltTol tol b) a b ↔ Close tol a b := by
  rw [← C08_eq_iff_close]
  unfold Equiv'
  rcases C08_trichotomy tol h a b with h1 | h1 | h1
  · simp [h1]
  · simp [h1]
  · simp [h1]

theorem ptMap_sim (tol : K) (h : 0 < tol) (S : Set (Pt K)) (hS : TolSeparated tol S)
    (ops : List (PtMap.Op K)) (ho : ∀ o ∈ ops, o.pt ∈ S) :
    SMap.Sorted (fun a b : Pt K => a.ltTol tol b) (PtMap.run tol ops) ∧
    SMap.KeysIn S (PtMap.run tol ops) ∧
    (∀ p ∈ S, ((PtMap.run tol ops).find tol p = none ↔ ∀ o ∈ ops, ¬ Close tol o.pt p) ∧
      ∀ l, (PtMap.run tol ops).find tol p = some l →
        l = (ops.filter (fun o => decide (Close tol o.pt p))).flatMap PtMap.Op.added) := by
  have hw := C09_swo_of_separated tol h S hS
  induction ops using List.reverseRecOn with
  | nil =>
    refine ⟨?_, ?_, ?_⟩
    · exact List.Pairwise.nil
    · intro e he; simp [PtMap.run, PtMap.empty] at he
    · intro p _; simp [PtMap.run, PtMap.empty, PtMap.find, SMap.find]
  | append_singleton ops o ih =>
    obtain ⟨i1, i2, i3⟩ := ih (fun o h => ho o (by simp [h]))
    have hoS : o.pt ∈ S := ho o (by simp)
    have hrun : PtMap.run tol (ops ++ [o]) = (PtMap.run tol ops).step tol o := by
      simp [PtMap.run]
    rw [hrun]
    generalize PtMap.run tol ops = m at *
    have hstep : m.step tol o = match m.find tol o.pt with
        | none => SMap.insert (fun a b => a.ltTol tol b) m o.pt o.added
        | some _ => SMap.upsert (fun a b => a.ltTol tol b) [] (fun l => l ++ o.added) m o.pt := by
      cases o with
      | insert p n => rfl
      | insertAll p n => rfl
      | get p =>
        show (m.get tol p).1 = match m.find tol p with
          | none => SMap.insert (fun a b => a.ltTol tol b) m p []
          | some _ => SMap.upsert (fun a b => a.ltTol tol b) [] (fun l => l ++ []) m p
        unfold PtMap.get
        cases hf : m.find tol p with
        | none => rfl
        | some l =>
          simp only [List.append_nil]
          have hid : ∀ m' : PtMap K, SMap.find (fun a b => a.ltTol tol b) m' p ≠ none →
              SMap.upsert (fun a b : Pt K => a.ltTol tol b) [] (fun l => l) m' p = m' := by
            intro m' hm'
            induction m' with
            | nil => exact absurd rfl hm'
            | cons a m' ih =>
              unfold SMap.find at hm'; unfold SMap.upsert
              by_cases h1 : a.1.ltTol tol p = true
              · rw [if_pos h1] at hm' ⊢; rw [ih hm']
              · rw [if_neg h1] at hm' ⊢
                by_cases h2 : p.ltTol tol a.1 = true
                · rw [if_pos h2] at hm'; exact absurd rfl hm'
                · rw [if_neg h2]
          refine (hid m ?_).symm
          have : SMap.find (fun a b => a.ltTol tol b) m p = some l := hf
          rw [this]; simp
    rw [hstep]
    cases hf : m.find tol o.pt with
    | none =>
      simp only
      have hf' : SMap.find (fun a b : Pt K => a.ltTol tol b) m o.pt = none := hf
      refine ⟨SMap.sorted_insert hw i1 i2 hoS, SMap.keysIn_insert i2 hoS, ?_⟩
      intro p hp
      have hfi := SMap.find_insert_absent hw o.added i1 i2 hoS hp hf'
      rw [equiv_iff_close tol h] at hfi
      have hno := (i3 o.pt hoS).1.1 hf
      by_cases hc : Close tol o.pt p
      · have h1 := hfi.1 hc
        have h2 : PtMap.find tol (SMap.insert (fun a b => a.ltTol tol b) m o.pt o.added) p
            = some o.added := h1
        refine ⟨?_, ?_⟩
        · rw [h2]
          constructor
          · intro h; simp at h
          · intro h; exact absurd hc (h o (by simp))
        · intro l hl
          rw [h2] at hl
          have hno' : ops.filter (fun o => decide (Close tol o.pt p)) = [] := by
            rw [List.filter_eq_nil_iff]
            intro o' ho' hc'
            have hc' : Close tol o'.pt p := by simpa using hc'
            have ho'S := ho o' (by simp [ho'])
            apply hno o' ho'
            have e1 := (equiv_iff_close tol h o'.pt p).2 hc'
            have e2 := (equiv_iff_close tol h o.pt p).2 hc
            exact (equiv_iff_close tol h _ _).1
              (hw.equiv_trans ho'S hp hoS e1 (SWO.equiv_symm e2))
          rw [List.filter_append, hno', List.filter_cons_of_pos (by simpa using hc)]
          simp at hl ⊢
          exact hl.symm
      · have h1 : PtMap.find tol (SMap.insert (fun a b => a.ltTol tol b) m o.pt o.added) p
            = m.find tol p := hfi.2 hc
        rw [h1, List.filter_append, List.filter_cons_of_neg (by simpa using hc)]
        simp only [List.filter_nil, List.append_nil]
        refine ⟨?_, (i3 p hp).2⟩
        rw [(i3 p hp).1]
        constructor
        · intro hh o' ho'
          rcases List.mem_append.1 ho' with ho' | ho'
          · exact hh o' ho'
          · simp at ho'; subst ho'; exact hc
        · intro hh o' ho'; exact hh o' (by simp [ho'])
    | some v =>
      simp only
      have hf' : SMap.find (fun a b : Pt K => a.ltTol tol b) m o.pt = some v := hf
      have hkeys := SMap.upsert_keys_present (lt := fun a b : Pt K => a.ltTol tol b) []
        (fun l => l ++ o.added) (m := m) (k := o.pt) (by rw [hf']; simp)
      refine ⟨SMap.sorted_of_keys hkeys i1, SMap.keysIn_of_keys hkeys i2, ?_⟩
      intro p hp
      have hfi := SMap.find_upsert_present hw [] (fun l => l ++ o.added) i1 i2 hoS hp hf'
      rw [equiv_iff_close tol h] at hfi
      by_cases hc : Close tol o.pt p
      · have h2 : PtMap.find tol (SMap.upsert (fun a b => a.ltTol tol b) []
            (fun l => l ++ o.added) m o.pt) p = some (v ++ o.added) := hfi.1 hc
        refine ⟨?_, ?_⟩
        · rw [h2]
          constructor
          · intro h; simp at h
          · intro h; exact absurd hc (h o (by simp))
        · intro l hl
          rw [h2] at hl
          have hv := (i3 o.pt hoS).2 v hf
          have hsame : ops.filter (fun o' => decide (Close tol o'.pt o.pt))
              = ops.filter (fun o' => decide (Close tol o'.pt p)) := by
            apply List.filter_congr
            intro o' ho'
            have ho'S := ho o' (by simp [ho'])
            have e2 := (equiv_iff_close tol h o.pt p).2 hc
            have : Close tol o'.pt o.pt ↔ Close tol o'.pt p := by
              rw [← equiv_iff_close tol h, ← equiv_iff_close tol h]
              exact ⟨fun e => hw.equiv_trans ho'S hoS hp e e2,
                fun e => hw.equiv_trans ho'S hp hoS e (SWO.equiv_symm e2)⟩
            simp [this]
          rw [List.filter_append, List.filter_cons_of_pos (by simpa using hc), List.filter_nil,
            List.flatMap_append, ← hsame, ← hv]
          simp at hl ⊢
          exact hl.symm
      · have h1 : PtMap.find tol (SMap.upsert (fun a b => a.ltTol tol b) []
            (fun l => l ++ o.added) m o.pt) p = m.find tol p := hfi.2 hc
        rw [h1, List.filter_append, List.filter_cons_of_neg (by simpa using hc)]
        simp only [List.filter_nil, List.append_nil]
        refine ⟨?_, (i3 p hp).2⟩
        rw [(i3 p hp).1]
        constructor
        · intro hh o' ho'
          rcases List.mem_append.1 ho' with ho' | ho'
          · exact hh o' ho'
          · simp at ho'; subst ho'; exact hc
        · intro hh o' ho'; exact hh o' (by simp [ho'])

/-- C61: after any history over tolerance-separated points, `get(p)` lists exactly the polygon
indices inserted for points equal to `p` up to tolerance, in insertion order. -/
theorem C61_get (tol : K) (h : 0 < tol) (S : Set (Pt K)) (hS : TolSeparated tol S)
    (ops : List (PtMap.Op K)) (ho : ∀ o ∈ ops, o.pt ∈ S) (p : Pt K) (hp : p ∈ S) :
    ((PtMap.run tol ops).get tol p).2 =
      (ops.filter (fun o => decide (|o.pt.x - p.x| < tol ∧ |o.pt.y - p.y| < tol))).flatMap
        PtMap.Op.added := by
  obtain ⟨_, _, i3⟩ := ptMap_sim tol h S hS ops ho
  obtain ⟨i3, i4⟩ := i3 p hp
  have hflt : ops.filter (fun o => decide (|o.pt.x - p.x| < tol ∧ |o.pt.y - p.y| < tol))
      = ops.filter (fun o => decide (Close tol o.pt p)) := by
    apply List.filter_congr; intro o _; simp only [Close]
  rw [hflt]
  unfold PtMap.get
  cases hf : (PtMap.run tol ops).find tol p with
  | none =>
    have : ops.filter (fun o => decide (Close tol o.pt p)) = [] := by
      rw [List.filter_eq_nil_iff]; intro o hoo; simpa using i3.1 hf o hoo
    rw [this]; rfl
  | some l => exact i4 l hf

/-- C61: the keys of the map are points of the calls, no two of them equal up to tolerance, and
every point of a call is equal to one of them: `size` counts the different points. -/
theorem C61_keys (tol : K) (h : 0 < tol) (S : Set (Pt K)) (hS : TolSeparated tol S)
    (ops : List (PtMap.Op K)) (ho : ∀ o ∈ ops, o.pt ∈ S) :
    ((PtMap.run tol ops).map Prod.fst).Pairwise (fun a b => ¬ Close tol a b) ∧
    ∀ o ∈ ops, ∃ q ∈ (PtMap.run tol ops).map Prod.fst, Close tol q o.pt := by
  obtain ⟨i1, i2, i3⟩ := ptMap_sim tol h S hS ops ho
  have hw := C09_swo_of_separated tol h S hS
  refine ⟨?_, ?_⟩
  · rw [List.pairwise_map]
    refine i1.imp ?_
    intro a b hlt hc
    have := ((equiv_iff_close tol h a.1 b.1).2 hc).1
    simp only at this hlt
    rw [this] at hlt
    exact absurd hlt (by simp)
  · intro o hoo
    have hne : (PtMap.run tol ops).find tol o.pt ≠ none := by
      intro hn
      have := (i3 o.pt (ho o hoo)).1.1 hn o hoo
      exact this ⟨by simpa using h, by simpa using h⟩
    obtain ⟨l, hl⟩ := Option.ne_none_iff_exists'.1 hne
    obtain ⟨e, he, hq, _⟩ := (SMap.find_some_iff hw i1 i2 (ho o hoo)).1 hl
    exact ⟨e.1, List.mem_map_of_mem he, (equiv_iff_close tol h _ _).1 hq⟩

example : ((PtMap.run (1/10 : ℚ) [.insert ⟨0, 0⟩ 3, .insert ⟨1, 0⟩ 4,
    .insertAll ⟨0, 0⟩ [5, 6]]).get (1/10) ⟨0, 0⟩).2 = [3, 5, 6] := by decide +kernel

/-- C61: looking up a point that was never inserted adds it to the map, so looking up is not
read-only and changes what is printed. -/
theorem C61_get_absent_adds : ∃ m : PtMap ℚ,
    (m.get (1/10) ⟨0, 0⟩).2 = [] ∧ (m.get (1/10) ⟨0, 0⟩).1.size = m.size + 1 :=
  ⟨[], by decide +kernel, by decide +kernel⟩

end Delynoi
