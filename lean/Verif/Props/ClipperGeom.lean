import Verif.Proofs.ClipperArea
import Verif.Spec.Partition
/-!
# Clipper's areas and point-in-polygon test (C110, C111)
-/
set_option linter.unusedSectionVars false
namespace Delynoi
open Clip

/-! ### Specification -/

/-- Twice the signed area enclosed by a path. -/
def twiceArea (path : List IPt) : Int :=
  ((List.finRange path.length).map (fun i => path[i].X * (nextV path i).Y - (nextV path i).X * path[i].Y)).sum

/-- All coordinates are at most `M`. -/
def Coords (M : Int) (path : List IPt) : Prop := ∀ p ∈ path, |p.X| ≤ M ∧ |p.Y| ≤ M

/-- `q` is on an edge of the closed path. -/
def OnOutline (path : List IPt) (q : IPt) : Prop :=
  ∃ i : Fin path.length, ∃ t : ℚ, 0 ≤ t ∧ t ≤ 1 ∧ lineAt path[i].toPt (nextV path i).toPt t = q.toPt

/-- How often the path goes around `q`. -/
noncomputable def goesAround (path : List IPt) (q : IPt) : Int := winding (path.map IPt.toPt) q.toPt

/-! ### C110: areas -/

theorem twiceArea_shoe (path : List IPt) : ((twiceArea path : Int) : ℚ) = shoe (path.map IPt.toPt) := by
  unfold twiceArea shoe
  rw [cycPairs_map, cycPairs_eq_finRange, List.map_map, List.map_map]
  have : ∀ is : List (Fin path.length),
      (((is.map (fun i => path[i].X * (nextV path i).Y - (nextV path i).X * path[i].Y)).sum : Int) : ℚ) =
      (is.map (((fun e : Pt ℚ × Pt ℚ => e.1.x * e.2.y - e.2.x * e.1.y) ∘ Prod.map IPt.toPt IPt.toPt) ∘
        (fun i => (path[i], nextV path i)))).sum := by
    intro is
    induction is with
    | nil => simp
    | cons i is ih => rw [List.map_cons, List.map_cons, List.sum_cons, List.sum_cons, ← ih]; push_cast; rfl
  exact this _

/-- `Area` of a path is half of the shoelace sum. -/
theorem C110_area (path : List IPt) (h : 3 ≤ path.length) : 2 * area id path = twiceArea path := by
  unfold area
  rw [if_neg (by omega), rnd_id_sum, areaTerm_sum, ← twiceArea_shoe]
  simp only [id]
  ring

example : (3 : Nat) ≤ [IPt.mk 0 0, ⟨4, 0⟩, ⟨0, 3⟩].length ∧ area id [⟨0, 0⟩, ⟨4, 0⟩, ⟨0, 3⟩] = 6 := by decide +kernel

/-- So it is for fewer than three points. -/
theorem C110_short (path : List IPt) (h : path.length < 3) : area id path = 0 ∧ twiceArea path = 0 := by
  unfold area
  rw [if_pos h]
  refine ⟨rfl, ?_⟩
  have := twiceArea_shoe path
  match path, h with
  | [], _ => rfl
  | [a], _ =>
    have h1 : ((twiceArea [a] : Int) : ℚ) = 0 := by rw [this]; simp [shoe, cycPairs, IPt.toPt]
    exact_mod_cast h1
  | [a, b], _ =>
    have h1 : ((twiceArea [a, b] : Int) : ℚ) = 0 := by rw [this]; simp [shoe, cycPairs, IPt.toPt]
    exact_mod_cast h1
  | _ :: _ :: _ :: _, h => simp at h; omega

/-- In `double` arithmetic `Area` is exact as long as `4 n M² < 2^53` for `n` points with coordinates
up to `M`. -/
theorem C110_binary64 {M : Int} {path : List IPt} (hM : Coords M path)
    (hb : 4 * path.length * M ^ 2 < 9007199254740992) : area fl path = area id path := by
  unfold area
  split
  · rfl
  · obtain ⟨S, s1, s2, s3⟩ := area_sum_fl hM hb
    rw [s3, rnd_id_sum, areaTerm_sum, ← s2, zero_add, ← Int.cast_neg]
    exact fl_half_int (by rw [abs_neg]; exact s1)

example : Coords 16777216 [⟨0, 0⟩, ⟨16777216, 0⟩, ⟨16777215, 16777216⟩, ⟨-16777216, 3⟩] ∧
    4 * (4 : Int) * 16777216 ^ 2 < 9007199254740992 := by unfold Coords; decide +kernel

/-- Beyond that, rounding can even change the sign: a clockwise triangle is reported to be
counter-clockwise. -/
theorem C110_rounding_flips : ∃ path : List IPt, path.length = 3 ∧ Coords 2147483647 path ∧
    twiceArea path < 0 ∧ Clip.orientation fl path = true := by
  refine ⟨[⟨-134217728, -134217727⟩, ⟨134217729, 134217728⟩, ⟨0, 0⟩], rfl, by unfold Coords; decide +kernel, ?_, ?_⟩
  · decide +kernel
  · decide +kernel

/-- `Orientation` is the sign of the area. -/
theorem C110_orientation (path : List IPt) : Clip.orientation id path = true ↔ 0 ≤ twiceArea path := by
  unfold Clip.orientation
  rw [decide_eq_true_eq]
  rcases Nat.lt_or_ge path.length 3 with h | h
  · rw [(C110_short path h).1, (C110_short path h).2]; simp
  · have := C110_area path h
    constructor
    · intro h1
      have : (0 : ℚ) ≤ twiceArea path := by rw [← this]; linarith
      exact_mod_cast this
    · intro h1
      have h2 : (0 : ℚ) ≤ twiceArea path := by exact_mod_cast h1
      linarith

/-- The area of a ring of output points has the opposite sign. -/
theorem C110_ring {ring : List IPt} (h : Coords 4611686018427387903 ring) :
    ∃ a, ringArea id ring = .ok a ∧ 2 * a = -(twiceArea ring : ℚ) := by
  refine ⟨_, ringArea_eq id h, ?_⟩
  have e : (prevPairs ring).map (fun e => id (id ((e.1.X + e.2.X : Int) : ℚ) * id ((e.1.Y - e.2.Y : Int) : ℚ))) =
      (prevPairs ring).map (fun e => areaTerm id e.1 e.2) := by
    apply List.map_congr_left
    intro e _
    unfold areaTerm; simp only [id]; push_cast; rfl
  rw [e, rnd_id_sum, areaTerm_sum, twiceArea_shoe]
  simp only [id]
  ring

example : Coords 4611686018427387903 [⟨0, 0⟩, ⟨4, 0⟩, ⟨0, 3⟩] ∧ ringArea id [⟨0, 0⟩, ⟨4, 0⟩, ⟨0, 3⟩] = .ok (-6) := by
  unfold Coords; decide +kernel

/-! ### C111: points and paths -/

theorem onOutline_iff (path : List IPt) (q : IPt) :
    OnOutline path q ↔ ∃ e ∈ cycPairs path, OnEdge e.1.toPt e.2.toPt q.toPt := by
  rw [cycPairs_eq_finRange]
  constructor
  · rintro ⟨i, h⟩
    exact ⟨_, List.mem_map_of_mem (List.mem_finRange i), h⟩
  · rintro ⟨e, he, h⟩
    obtain ⟨i, _, rfl⟩ := List.mem_map.1 he
    exact ⟨i, h⟩

theorem toPt_inj {p q : IPt} (h : p.toPt = q.toPt) : p = q := by
  have h1 : (p.X : ℚ) = q.X := congrArg Pt.x h
  have h2 : (p.Y : ℚ) = q.Y := congrArg Pt.y h
  cases p; cases q
  simp only [Int.cast_inj] at h1 h2
  rw [h1, h2]

theorem fits_edges {path : List IPt} (h : Coords 4611686018427387903 path) :
    ∀ e ∈ cycPairs path, Fits e.1 ∧ Fits e.2 :=
  fun _ he => ⟨h _ (cycPairs_mem he).1, h _ (cycPairs_mem he).2⟩

theorem ring_boundary {path : List IPt} {q : IPt} (hp : Coords 4611686018427387903 path)
    (hq : Coords 4611686018427387903 [q]) (h : OnOutline path q) : pointInRing id q path = .ok (-1) := by
  apply pipLoop_on (hq q (by simp)) _ _ (fits_edges hp)
  obtain ⟨e, he, h1⟩ := (onOutline_iff path q).1 h
  by_cases h2 : q = e.1
  · -- the edge that ends at `q`
    have h3 : e.1 ∈ (cycPairs path).map Prod.snd := (cycPairs_snd_perm path).mem_iff.2 (cycPairs_mem he).1
    obtain ⟨f, hf, h4⟩ := List.mem_map.1 h3
    exact ⟨f, hf, Or.inl (h2.trans h4.symm)⟩
  · exact ⟨e, he, Or.inr ⟨h1, h2⟩⟩

theorem ring_parity {path : List IPt} {q : IPt} (hp : Coords 4611686018427387903 path)
    (hq : Coords 4611686018427387903 [q]) (h : ¬ OnOutline path q) :
    ∃ z, pointInRing id q path = .ok z ∧ (z = 0 ∨ z = 1) ∧ (Odd z ↔ Odd (goesAround path q)) := by
  rw [onOutline_iff] at h
  push Not at h
  obtain ⟨z, z1, z2, z3⟩ := pipLoop_off (hq q (by simp)) (cycPairs path) 0 (Or.inl rfl) (fits_edges hp) h
  refine ⟨z, z1, z2, ?_⟩
  rw [z3, zero_add]
  unfold goesAround
  rw [winding_sgnC, cycPairs_map, List.map_map]
  · rfl
  · rw [cycPairs_map]
    intro e he
    obtain ⟨f, hf, rfl⟩ := List.mem_map.1 he
    exact h f hf

theorem pip_ring {r : ℚ → ℚ} {path : List IPt} (q : IPt) (h : 3 ≤ path.length) :
    pointInPolygon r q path = pointInRing r q path := by
  unfold pointInPolygon pointInRing
  rw [if_neg (by omega)]

/-- Points of the outline are recognised. -/
theorem C111_boundary {path : List IPt} {q : IPt} (h3 : 3 ≤ path.length) (hp : Coords 4611686018427387903 path)
    (hq : Coords 4611686018427387903 [q]) (h : OnOutline path q) : pointInPolygon id q path = .ok (-1) := by
  rw [pip_ring q h3]; exact ring_boundary hp hq h

example : Coords 4611686018427387903 [⟨0, 0⟩, ⟨4, 0⟩, ⟨0, 3⟩] ∧ OnOutline [⟨0, 0⟩, ⟨4, 0⟩, ⟨0, 3⟩] ⟨0, 2⟩ :=
  ⟨by unfold Coords; decide +kernel, 2, 1 / 3, by norm_num, by norm_num, by
    unfold lineAt IPt.toPt nextV; simp only [Pt.mk.injEq]; constructor <;> decide +kernel⟩

/-- Points that the path goes around an odd number of times are inside. -/
theorem C111_inside {path : List IPt} {q : IPt} (h3 : 3 ≤ path.length) (hp : Coords 4611686018427387903 path)
    (hq : Coords 4611686018427387903 [q]) (h : ¬ OnOutline path q) (ho : Odd (goesAround path q)) :
    pointInPolygon id q path = .ok 1 := by
  rw [pip_ring q h3]
  obtain ⟨z, z1, z2, z3⟩ := ring_parity hp hq h
  rcases z2 with rfl | rfl
  · exact absurd (z3.2 ho) (by decide)
  · exact z1

/-- All other points are outside. -/
theorem C111_outside {path : List IPt} {q : IPt} (hp : Coords 4611686018427387903 path)
    (hq : Coords 4611686018427387903 [q]) (h : ¬ OnOutline path q) (ho : ¬ Odd (goesAround path q)) :
    pointInPolygon id q path = .ok 0 := by
  rcases Nat.lt_or_ge path.length 3 with h3 | h3
  · unfold pointInPolygon; rw [if_pos h3]
  rw [pip_ring q h3]
  obtain ⟨z, z1, z2, z3⟩ := ring_parity hp hq h
  rcases z2 with rfl | rfl
  · exact z1
  · exact absurd (z3.1 (by decide)) ho

/-- So the answer determines the position. -/
theorem C111_iff {path : List IPt} {q : IPt} (h3 : 3 ≤ path.length) (hp : Coords 4611686018427387903 path)
    (hq : Coords 4611686018427387903 [q]) :
    (pointInPolygon id q path = .ok (-1) ↔ OnOutline path q) ∧
    (pointInPolygon id q path = .ok 1 ↔ ¬ OnOutline path q ∧ Odd (goesAround path q)) ∧
    (pointInPolygon id q path = .ok 0 ↔ ¬ OnOutline path q ∧ ¬ Odd (goesAround path q)) := by
  by_cases h : OnOutline path q
  · rw [C111_boundary h3 hp hq h]
    simp [h]
  · by_cases ho : Odd (goesAround path q)
    · rw [C111_inside h3 hp hq h ho]
      simp [h, ho]
    · rw [C111_outside hp hq h ho]
      simp [h, ho]

example : ¬ OnOutline [⟨0, 0⟩, ⟨4, 0⟩, ⟨0, 3⟩] ⟨1, 1⟩ ∧ Odd (goesAround [⟨0, 0⟩, ⟨4, 0⟩, ⟨0, 3⟩] ⟨1, 1⟩) :=
  (C111_iff (by decide) (by unfold Coords; decide +kernel) (by unfold Coords; decide +kernel)).2.1.1
    (by decide +kernel)

example : ¬ OnOutline [⟨0, 0⟩, ⟨4, 0⟩, ⟨0, 3⟩] ⟨5, 0⟩ ∧ ¬ Odd (goesAround [⟨0, 0⟩, ⟨4, 0⟩, ⟨0, 3⟩] ⟨5, 0⟩) :=
  (C111_iff (by decide) (by unfold Coords; decide +kernel) (by unfold Coords; decide +kernel)).2.2.1
    (by decide +kernel)

/-- In `double` arithmetic the answer is the exact one or "on the outline": inside and outside are
never confused. -/
theorem C111_binary64 {path : List IPt} {q : IPt} (hp : Coords 2251799813685248 path)
    (hq : Coords 2251799813685248 [q]) :
    pointInPolygon fl q path = .ok (-1) ∨ pointInPolygon fl q path = pointInPolygon id q path := by
  unfold pointInPolygon
  split
  · exact Or.inr rfl
  · exact pipLoop_fl (hq q (by simp)) _ _ (fun _ he => ⟨hp _ (cycPairs_mem he).1, hp _ (cycPairs_mem he).2⟩)

/-- It is the exact one for coordinates below `2^25`. -/
theorem C111_exact64 {path : List IPt} {q : IPt} (hp : Coords 33554431 path) (hq : Coords 33554431 [q]) :
    pointInPolygon fl q path = pointInPolygon id q path := by
  unfold pointInPolygon
  split
  · rfl
  · exact pipLoop_fl25 (hq q (by simp)) _ _ (fun _ he => ⟨hp _ (cycPairs_mem he).1, hp _ (cycPairs_mem he).2⟩)

example : Coords 33554431 [⟨-33554431, 0⟩, ⟨33554431, 1⟩, ⟨0, 33554431⟩] ∧ Coords 33554431 [⟨0, 1⟩] ∧
    pointInPolygon fl ⟨0, 1⟩ [⟨-33554431, 0⟩, ⟨33554431, 1⟩, ⟨0, 33554431⟩] = .ok 1 := by
  unfold Coords; decide +kernel

/-- For larger coordinates, points off the outline can be reported to be on it. -/
theorem C111_rounding_blurs : ∃ (path : List IPt) (q : IPt), Coords 2147483647 path ∧ Coords 2147483647 [q] ∧
    pointInPolygon id q path = .ok 0 ∧ pointInPolygon fl q path = .ok (-1) := by
  refine ⟨[⟨-134217728, -134217727⟩, ⟨134217729, 134217728⟩, ⟨-134217728, 134217728⟩], ⟨0, 0⟩,
    by unfold Coords; decide +kernel, by unfold Coords; decide +kernel, ?_, ?_⟩
  · decide +kernel
  · decide +kernel

/-- `Poly2ContainsPoly1` goes by the first point of the ring that is not on the outline of the other
one; if there is none, it is `true`. -/
theorem C111_contains {ring2 : List IPt} (h2 : Coords 4611686018427387903 ring2) :
    ∀ {ring1 : List IPt}, Coords 4611686018427387903 ring1 →
      ∃ b, ringContains id ring2 ring1 = .ok b ∧
        ((∀ p ∈ ring1, OnOutline ring2 p) → b = true) ∧
        (∀ l p l', ring1 = l ++ p :: l' → (∀ x ∈ l, OnOutline ring2 x) → ¬ OnOutline ring2 p →
          (b = true ↔ Odd (goesAround ring2 p)))
  | [], _ => ⟨true, rfl, fun _ => rfl, fun l p l' h => by simp at h⟩
  | p :: ps, h1 => by
    have hp : Coords 4611686018427387903 [p] := fun x hx => h1 x (by
      rw [List.mem_singleton.1 hx]; simp)
    obtain ⟨b, b1, b2, b3⟩ := C111_contains h2 (ring1 := ps) (fun x hx => h1 x (List.mem_cons_of_mem _ hx))
    by_cases ho : OnOutline ring2 p
    · refine ⟨b, ?_, fun hall => b2 (fun x hx => hall x (List.mem_cons_of_mem _ hx)), ?_⟩
      · rw [ringContains, ring_boundary h2 hp ho, Outcome.bind_ok, if_neg (by decide)]; exact b1
      · intro l x l' he hl hx
        cases l with
        | nil =>
          rw [List.nil_append, List.cons.injEq] at he
          rw [← he.1] at hx; exact absurd ho hx
        | cons y l =>
          rw [List.cons_append, List.cons.injEq] at he
          exact b3 l x l' he.2 (fun z hz => hl z (List.mem_cons_of_mem _ hz)) hx
    · obtain ⟨z, z1, z2, z3⟩ := ring_parity h2 hp ho
      have hz : z ≥ 0 := by omega
      refine ⟨decide (z > 0), ?_, fun hall => absurd (hall p (by simp)) ho, ?_⟩
      · rw [ringContains, z1, Outcome.bind_ok, if_pos hz]; rfl
      · intro l x l' he hl hx
        cases l with
        | nil =>
          rw [List.nil_append, List.cons.injEq] at he
          rw [← he.1, ← z3, decide_eq_true_eq]
          rcases z2 with rfl | rfl <;> decide
        | cons y l =>
          rw [List.cons_append, List.cons.injEq] at he
          exact absurd (hl y (by simp)) (by rw [← he.1]; exact ho)

example : ringContains id [⟨0, 0⟩, ⟨4, 0⟩, ⟨0, 4⟩] [⟨0, 0⟩, ⟨1, 1⟩, ⟨9, 9⟩] = .ok true := by decide +kernel

end Delynoi
