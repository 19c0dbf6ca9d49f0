import Verif.Proofs.TriLocate3
import Verif.Proofs.TriCarve6
/-! # Searching the holes -/
set_option linter.unusedSectionVars false
namespace Delynoi.Tri
variable {K : Type} [Field K] [LinearOrder K] [IsStrictOrderedRing K]
  {m : Heap} {ts : List Nat} {pos : Nat → Pt K} {p : Pt K}

/-- `locate` for a point that is not beyond the boundary. -/
theorem locate_inside (h : Linked m (· ∈ ts)) (c : Ccw m (· ∈ ts) pos) (hin : Inside m (· ∈ ts) pos p) (cs : Bool)
    {dead : Nat → Bool} {recent : Option Otri} {samples : List Nat} {fuel : Nat} (hf : 3 * ts.length < fuel) {x : Otri}
    (hs : ∀ t ∈ samples, dead t = false → t ∈ ts) (hr : ∀ r, recent = some r → dead r.1 = false → r.1 ∈ ts) (hx : x.1 ∈ ts) :
    ∃ r y, locate m pos p cs dead recent samples fuel x = .ok (some (r, y)) ∧ Answer m (· ∈ ts) pos p false r y ∧ r ≠ .outside := by
  have fin : ∀ {r : Located} {y : Otri}, Answer m (· ∈ ts) pos p false r y → r ≠ .outside := by
    rintro r y ha rfl
    obtain ⟨v, w, hd, ht, hn | ⟨hn, -⟩⟩ := ha
    · have := hin y v w hd hn; linarith
    · cases hn
  rcases locate_start (pos := pos) (p := p) h cs fuel hs hr hx with ⟨r, y, e, ha⟩ | ⟨y, hy, e⟩
  · exact ⟨r, y, e, ha, fin ha⟩
  rcases locateFrom_spec (p := p) h c cs fuel hy with ⟨r, z, e', ha⟩ | ⟨z, hz, e'⟩ | ⟨v, w, hd, hn, ht, -⟩
  · exact ⟨r, z, e.trans e', ha, fin ha⟩
  · obtain ⟨r, u, e'', ha⟩ := precise_ends h c cs false hf hz
    rw [Bool.and_false] at ha
    exact ⟨r, u, e.trans (e'.trans e''), ha, fin ha⟩
  · have := hin y v w hd hn; linarith

/-- The triangle of a right answer has the point. -/
theorem Answer.closed (h : Linked m (· ∈ ts)) (c : Ccw m (· ∈ ts) pos) {stop : Bool} {r : Located} {y : Otri}
    (a : Answer m (· ∈ ts) pos p stop r y) (hr : r ≠ .outside) :
    ∃ u v w, m.Tri3 (· ∈ ts) (y.1, 0) u v w ∧ 0 ≤ turn (pos u) (pos v) p ∧ 0 ≤ turn (pos v) (pos w) p ∧ 0 ≤ turn (pos w) (pos u) p := by
  -- it does not matter where one starts
  have any : ∀ y : Otri, (∃ u v w, m.Tri3 (· ∈ ts) y u v w ∧ 0 ≤ turn (pos u) (pos v) p ∧ 0 ≤ turn (pos v) (pos w) p ∧ 0 ≤ turn (pos w) (pos u) p) →
      ∃ u v w, m.Tri3 (· ∈ ts) (y.1, 0) u v w ∧ 0 ≤ turn (pos u) (pos v) p ∧ 0 ≤ turn (pos v) (pos w) p ∧ 0 ≤ turn (pos w) (pos u) p := by
    rintro ⟨t, o⟩ ⟨u, v, w, tr, h1, h2, h3⟩
    match o with
    | 0 => exact ⟨u, v, w, tr, h1, h2, h3⟩
    | 1 => exact ⟨w, u, v, tr.prev, h3, h1, h2⟩
    | 2 => exact ⟨v, w, u, tr.next, h2, h3, h1⟩
  apply any
  cases r with
  | outside => exact absurd rfl hr
  | inTriangle =>
    obtain ⟨v, a, b, tr, h1, h2, h3⟩ := a
    exact ⟨v, a, b, tr, h1.le, h2.le, h3.le⟩
  | onVertex =>
    obtain ⟨v, w, hd, hv⟩ := a
    obtain ⟨u, tr⟩ := hd.tri h
    have hc := c _ _ _ _ tr
    refine ⟨u, v, w, tr, ?_, ?_, ?_⟩ <;> rw [← hv]
    · apply le_of_eq; simp only [turn]; ring
    · apply le_of_eq; simp only [turn]; ring
    · have : turn (pos w) (pos u) (pos v) = turn (pos u) (pos v) (pos w) := by simp only [turn]; ring
      linarith
  | onEdge =>
    obtain ⟨v, w, hd, s, h0, h1, hp⟩ := a
    obtain ⟨u, tr⟩ := hd.tri h
    have hc := c _ _ _ _ tr
    refine ⟨u, v, w, tr, ?_, ?_, ?_⟩ <;> rw [hp]
    · have : turn (pos u) (pos v) (lineAt (pos v) (pos w) s) = s * turn (pos u) (pos v) (pos w) := by simp only [turn, lineAt]; ring
      rw [this]; exact mul_nonneg h0.le hc.le
    · apply le_of_eq; simp only [turn, lineAt]; ring
    · have : turn (pos w) (pos u) (lineAt (pos v) (pos w) s) = (1 - s) * turn (pos u) (pos v) (pos w) := by simp only [turn, lineAt]; ring
      rw [this]; exact mul_nonneg (by linarith) hc.le

theorem searchHole_spec (h : Linked m (· ∈ ts)) (c : Ccw m (· ∈ ts) pos) (hin : Inside m (· ∈ ts) pos p) (cs : Bool)
    {dead : Nat → Bool} {recent : Option Otri} {samples : Pt K → List Nat} {fuel : Nat} (hf : 3 * ts.length < fuel) {x : Otri}
    (hs : ∀ t ∈ samples p, dead t = false → t ∈ ts) (hr : ∀ r, recent = some r → dead r.1 = false → r.1 ∈ ts) (hx : x.1 ∈ ts) :
    ∃ y, searchHole pos cs dead recent samples fuel m p x = .ok (some y) ∧
      ∃ u v w, m.Tri3 (· ∈ ts) (y.1, 0) u v w ∧ 0 ≤ turn (pos u) (pos v) p ∧ 0 ≤ turn (pos v) (pos w) p ∧ 0 ≤ turn (pos w) (pos u) p := by
  obtain ⟨r, y, e, ha, hne⟩ := locate_inside h c hin cs hf hs hr hx
  refine ⟨y, ?_, ha.closed h c hne⟩
  simp only [searchHole, e, Outcome.bind_ok]

theorem infectHoles_congr {l l' : Heap → Pt K → Otri → Outcome (Option Otri)} {lo hi : Pt K} :
    ∀ (holes : List (Pt K)) (s : Carve) (pool : List Nat), (∀ p ∈ holes, ∀ m x, l m p x = l' m p x) →
    Carve.infectHoles l pos lo hi holes s pool = Carve.infectHoles l' pos lo hi holes s pool := by
  intro holes
  induction holes with
  | nil => intro s pool _; rfl
  | cons p holes ih =>
    intro s pool hh
    have hh' : ∀ p ∈ holes, ∀ m x, l m p x = l' m p x := fun p hp => hh p (List.mem_cons_of_mem _ hp)
    have e := hh p (List.mem_cons_self ..)
    rw [Carve.infectHoles, Carve.infectHoles]
    simp only [e, fun s pool => ih s pool hh']

theorem carveholes_congr {l l' : Heap → Pt K → Otri → Outcome (Option Otri)} {lo hi : Pt K} {convex noholes : Bool}
    {holes : List (Pt K)} {fuel : Nat} {s : Carve} (hh : ∀ p ∈ holes, ∀ m x, l m p x = l' m p x) :
    Carve.carveholes l pos lo hi convex noholes holes fuel s = Carve.carveholes l' pos lo hi convex noholes holes fuel s := by
  simp only [Carve.carveholes, fun s pool => infectHoles_congr (pos := pos) (lo := lo) (hi := hi) holes s pool hh]

end Delynoi.Tri
