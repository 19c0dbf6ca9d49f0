import Verif.Props.Region
import Mathlib.Algebra.Order.Floor.Ring
import Mathlib.Tactic.FieldSimp
import Mathlib.Tactic.Ring
import Mathlib.Tactic.Positivity
/-!
# Properties C49-C51: adding holes
-/
set_option linter.unusedSectionVars false
namespace Delynoi
variable {K : Type} [Field K] [LinearOrder K] [IsStrictOrderedRing K] [FloorRing K]

/-! ### C50 -/

/-- C50: `(int) x` is defined exactly when the truncated value fits an `int`, and the result is
the integer obtained by cutting off the fraction. -/
theorem C50_toInt_iff (x : K) (z : Int) :
    Region.toInt x = .ok z ↔
      |(z : K)| ≤ |x| ∧ |x - z| < 1 ∧ 0 ≤ x * z ∧ -2147483648 ≤ z ∧ z ≤ 2147483647 := by
  have huniq : ∀ a b : Int, |(a : K)| ≤ |x| → |x - a| < 1 → 0 ≤ x * a →
      |(b : K)| ≤ |x| → |x - b| < 1 → 0 ≤ x * b → a = b := by
    intro a b a1 a2 a3 b1 b2 b3
    have ha := abs_lt.1 a2
    have hb := abs_lt.1 b2
    rcases lt_trichotomy x 0 with hx | hx | hx
    · have ha0 : (a : K) ≤ 0 := by
        by_contra h; push Not at h; nlinarith
      have hb0 : (b : K) ≤ 0 := by
        by_contra h; push Not at h; nlinarith
      rw [abs_of_neg hx, abs_of_nonpos ha0] at a1
      rw [abs_of_neg hx, abs_of_nonpos hb0] at b1
      have e1 : (a : K) < b + 1 := by linarith
      have e2 : (b : K) < a + 1 := by linarith
      have e1' : a < b + 1 := by exact_mod_cast e1
      have e2' : b < a + 1 := by exact_mod_cast e2
      omega
    · subst hx
      simp only [abs_zero, abs_nonpos_iff] at a1 b1
      have : (a : K) = b := by rw [a1, b1]
      exact_mod_cast this
    · have ha0 : 0 ≤ (a : K) := by
        by_contra h; push Not at h; nlinarith
      have hb0 : 0 ≤ (b : K) := by
        by_contra h; push Not at h; nlinarith
      rw [abs_of_pos hx, abs_of_nonneg ha0] at a1
      rw [abs_of_pos hx, abs_of_nonneg hb0] at b1
      have e1 : (a : K) < b + 1 := by linarith
      have e2 : (b : K) < a + 1 := by linarith
      have e1' : a < b + 1 := by exact_mod_cast e1
      have e2' : b < a + 1 := by exact_mod_cast e2
      omega
  have hspec : |(((if 0 ≤ x then ⌊x⌋ else ⌈x⌉ : Int)) : K)| ≤ |x| ∧
      |x - ((if 0 ≤ x then ⌊x⌋ else ⌈x⌉ : Int) : K)| < 1 ∧ 0 ≤ x * ((if 0 ≤ x then ⌊x⌋ else ⌈x⌉ : Int) : K) := by
    by_cases hx : 0 ≤ x
    · rw [if_pos hx]
      have h1 := Int.floor_le x
      have h2 := Int.lt_floor_add_one x
      have h0 : (0 : K) ≤ (⌊x⌋ : K) := by exact_mod_cast Int.floor_nonneg.2 hx
      refine ⟨by rw [abs_of_nonneg h0, abs_of_nonneg hx]; exact h1, ?_, mul_nonneg hx h0⟩
      rw [abs_lt]; constructor <;> linarith
    · rw [if_neg hx]
      push Not at hx
      have h1 := Int.le_ceil x
      have h2 := Int.ceil_lt_add_one x
      have h0 : ((⌈x⌉ : Int) : K) ≤ 0 := by
        have : ⌈x⌉ ≤ 0 := Int.ceil_le.2 (by simpa using hx.le)
        exact_mod_cast this
      refine ⟨by rw [abs_of_nonpos h0, abs_of_neg hx]; linarith, ?_, mul_nonneg_of_nonpos_of_nonpos hx.le h0⟩
      rw [abs_lt]; constructor <;> linarith
  unfold Region.toInt
  dsimp only
  constructor
  · intro h
    generalize (if 0 ≤ x then ⌊x⌋ else ⌈x⌉ : Int) = w at h hspec
    by_cases hr : -2147483648 ≤ w ∧ w ≤ 2147483647
    · rw [if_pos hr] at h
      have h := Outcome.ok.inj h
      rw [← h]
      exact ⟨hspec.1, hspec.2.1, hspec.2.2, hr.1, hr.2⟩
    · rw [if_neg hr] at h
      cases h
  · rintro ⟨h1, h2, h3, h4, h5⟩
    have e := huniq _ z hspec.1 hspec.2.1 hspec.2.2 h1 h2 h3
    rw [e, if_pos ⟨h4, h5⟩]

/-- C50: it is defined exactly for `-2147483649 < x < 2147483648`; otherwise undefined
behaviour. -/
theorem C50_toInt_defined (x : K) :
    (∃ z, Region.toInt x = .ok z) ↔ -2147483649 < x ∧ x < 2147483648 := by
  constructor
  · rintro ⟨z, hz⟩
    obtain ⟨_, h2, _, h4, h5⟩ := (C50_toInt_iff x z).1 hz
    have := abs_lt.1 h2
    have a : (-2147483648 : K) ≤ z := by exact_mod_cast h4
    have b : (z : K) ≤ 2147483647 := by exact_mod_cast h5
    constructor <;> linarith
  · rintro ⟨h1, h2⟩
    refine ⟨if 0 ≤ x then ⌊x⌋ else ⌈x⌉, ?_⟩
    unfold Region.toInt
    dsimp only
    rw [if_pos]
    by_cases hx : 0 ≤ x
    · rw [if_pos hx]
      have a : 0 ≤ ⌊x⌋ := Int.floor_nonneg.2 hx
      have b : ⌊x⌋ < 2147483648 := Int.floor_lt.2 (by simpa using h2)
      omega
    · rw [if_neg hx]
      push Not at hx
      have a : ⌈x⌉ ≤ 0 := Int.ceil_le.2 (by simpa using hx.le)
      have b : -2147483649 < ⌈x⌉ := Int.lt_ceil.2 (by simpa using h1)
      omega

theorem C50_toInt_not_exn (x : K) : Region.toInt x ≠ .exn := by
  unfold Region.toInt
  dsimp only
  generalize (if 0 ≤ x then ⌊x⌋ else ⌈x⌉ : Int) = w
  split <;> simp

/-- C50: there and back, a coordinate moves by less than `1/scale`, never away from zero, and
never to the other side of zero. -/
theorem C50_roundtrip (scale : Int) (hs : 0 < scale) (q : Pt K) (a : Int × Int)
    (h : Region.scalePoint scale q = .ok a) :
    |(Region.unscale scale a : Pt K).x - q.x| < 1 / scale ∧ |(Region.unscale scale a : Pt K).y - q.y| < 1 / scale ∧
    |(Region.unscale scale a : Pt K).x| ≤ |q.x| ∧ |(Region.unscale scale a : Pt K).y| ≤ |q.y| ∧
    0 ≤ (Region.unscale scale a : Pt K).x * q.x ∧ 0 ≤ (Region.unscale scale a : Pt K).y * q.y := by
  have hS : (0 : K) < (scale : K) := by exact_mod_cast hs
  have one : ∀ (x : K) (z : Int), Region.toInt ((scale : K) * x) = .ok z →
      |(z : K) / scale - x| < 1 / scale ∧ |(z : K) / scale| ≤ |x| ∧ 0 ≤ (z : K) / scale * x := by
    intro x z hz
    obtain ⟨h1, h2, h3, _, _⟩ := (C50_toInt_iff _ z).1 hz
    refine ⟨?_, ?_, ?_⟩
    · have : (z : K) / scale - x = -(((scale : K) * x - z) / scale) := by field_simp; ring
      rw [this, abs_neg, abs_div, abs_of_pos hS]
      exact (div_lt_div_iff_of_pos_right hS).2 h2
    · rw [abs_div, abs_of_pos hS, div_le_iff₀ hS]
      rw [abs_mul, abs_of_pos hS] at h1
      linarith
    · have : (z : K) / scale * x = (scale : K) * x * z / (scale : K) ^ 2 := by field_simp
      rw [this]
      positivity
  unfold Region.scalePoint at h
  cases hx : Region.toInt ((scale : K) * q.x) with
  | exn => rw [hx] at h; cases h
  | ub => rw [hx] at h; cases h
  | ok zx =>
    cases hy : Region.toInt ((scale : K) * q.y) with
    | exn => rw [hx, hy] at h; cases h
    | ub => rw [hx, hy] at h; cases h
    | ok zy =>
      rw [hx, hy] at h
      rw [← Outcome.ok.inj h]
      obtain ⟨a1, a2, a3⟩ := one _ _ hx
      obtain ⟨b1, b2, b3⟩ := one _ _ hy
      exact ⟨a1, b1, a2, b2, a3, b3⟩

/-- C50: with the default scale of 100000 any coordinate of absolute value 21475 or more is
undefined behaviour. -/
theorem C50_default_scale (q : Pt K) (h : 21475 ≤ |q.x|) : Region.scalePoint 100000 q = .ub := by
  unfold Region.scalePoint
  have : ¬ ∃ z, Region.toInt (((100000 : Int) : K) * q.x) = .ok z := by
    rw [C50_toInt_defined]
    rintro ⟨h1, h2⟩
    push_cast at h1 h2
    rcases abs_cases q.x with ⟨e, _⟩ | ⟨e, _⟩ <;> rw [e] at h <;> linarith
  cases hx : Region.toInt (((100000 : Int) : K) * q.x) with
  | ok z => exact absurd ⟨z, hx⟩ this
  | exn => exact absurd hx (C50_toInt_not_exn _)
  | ub => rfl

example : Region.scalePoint 100 (⟨3/2, -7/1000⟩ : Pt ℚ) = .ok (150, 0) ∧
    Region.scalePoint 100 (⟨25000000, 1⟩ : Pt ℚ) = .ub := by decide +kernel

/-! ### C49 -/

/-- C49: if the library returns exactly one path, the outline becomes that path (scaled back) and
the hole is not stored; an exception is thrown exactly when the new outline intersects itself. -/
theorem C49_crossing (tol : K) (scale : Int) (hs : scale ≠ 0) (clip : Region.Clip) (r : Region K)
    (h : Hole K) (a b path : List (Int × Int)) (ha : Region.scalePath scale r.p = .ok a)
    (hb : Region.scalePath scale h.points = .ok b) (hc : clip a b = [path]) :
    ∃ r' thrown, r.addHole tol scale clip h = .ok (r', thrown) ∧
      r'.p = path.map (fun v => (⟨(v.1 : K) / scale, (v.2 : K) / scale⟩ : Pt K)) ∧
      resolve r'.p r'.poly.points = .ok r'.p ∧
      r'.holes = r.holes ∧ r'.seeds = r.seeds ∧
      (thrown = true ↔ isSelfIntersecting tol r'.p = true) := by
  refine ⟨(r.mutate tol (path.map (Region.unscale scale))).1,
    (r.mutate tol (path.map (Region.unscale scale))).2, ?_, ?_, ?_, ?_, ?_, ?_⟩
  · unfold Region.addHole
    rw [ha, hb]
    simp only [Outcome.bind_ok, hc, hs, if_false, Outcome.pure_eq]
  · rfl
  · have e : (r.mutate tol (path.map (Region.unscale scale))).1.poly.points =
        trivialIndex (path.map (Region.unscale scale : _ → Pt K)).length := poly_mutate_points tol r.poly _
    have e2 : (r.mutate tol (path.map (Region.unscale scale))).1.p = path.map (Region.unscale scale) := rfl
    rw [e, e2]
    exact resolve_trivial _
  · rfl
  · rfl
  · have e2 : (r.mutate tol (path.map (Region.unscale scale))).1.p = path.map (Region.unscale scale) := rfl
    rw [e2]
    unfold Region.mutate Poly.mutate
    dsimp only
    by_cases hi : isSelfIntersecting tol (path.map (Region.unscale scale : _ → Pt K)) = true
    · rw [if_pos hi]; simp [hi]
    · rw [if_neg hi]; simp [hi]

/-- C49: otherwise the hole is appended if its center is in the region, and if not the region is
left alone and an exception is thrown. -/
theorem C49_otherwise (tol : K) (scale : Int) (clip : Region.Clip) (r : Region K) (hw : r.WF)
    (h : Hole K) (a b : List (Int × Int)) (ha : Region.scalePath scale r.p = .ok a)
    (hb : Region.scalePath scale h.points = .ok b) (hc : (clip a b).length ≠ 1) :
    (r.containsPoint tol h.center = .ok true ∧
      r.addHole tol scale clip h = .ok ({ r with holes := r.holes ++ [h] }, false)) ∨
    (r.containsPoint tol h.center = .ok false ∧ r.addHole tol scale clip h = .ok (r, true)) := by
  obtain ⟨c, hcp⟩ := region_contains_total tol r hw h.center
  have key : r.addHole tol scale clip h =
      if c then .ok ({ r with holes := r.holes ++ [h] }, false) else .ok (r, true) := by
    unfold Region.addHole
    rw [ha, hb]
    simp only [Outcome.bind_ok]
    split
    · rename_i path hp
      rw [hp] at hc; exact absurd rfl hc
    · rw [hcp]; rfl
  cases c with
  | true => exact Or.inl ⟨hcp, key⟩
  | false => exact Or.inr ⟨hcp, key⟩

/-- C49: in no case are the seeds altered or is more than one hole added. -/
theorem C49_seeds_kept (tol : K) (scale : Int) (clip : Region.Clip) (r : Region K) (h : Hole K)
    (x : Region K × Bool) (hx : r.addHole tol scale clip h = .ok x) :
    x.1.seeds = r.seeds ∧ (x.1.holes = r.holes ∨ (x.1.holes = r.holes ++ [h] ∧ x.1.p = r.p ∧ x.2 = false)) := by
  unfold Region.addHole at hx
  cases hp : Region.scalePath scale r.p with
  | exn => rw [hp] at hx; cases hx
  | ub => rw [hp] at hx; cases hx
  | ok a =>
    cases hq : Region.scalePath scale h.points with
    | exn => rw [hp, hq] at hx; cases hx
    | ub => rw [hp, hq] at hx; cases hx
    | ok b =>
      rw [hp, hq] at hx
      simp only [Outcome.bind_ok] at hx
      split at hx
      · split at hx
        · cases hx
        · rw [← Outcome.ok.inj hx]
          exact ⟨rfl, Or.inl rfl⟩
      · cases hc : r.containsPoint tol h.center with
        | exn => rw [hc] at hx; cases hx
        | ub => rw [hc] at hx; cases hx
        | ok c =>
          rw [hc] at hx
          simp only [Outcome.bind_ok] at hx
          split at hx
          · rw [← Outcome.ok.inj hx]; exact ⟨rfl, Or.inr ⟨rfl, rfl, rfl⟩⟩
          · rw [← Outcome.ok.inj hx]; exact ⟨rfl, Or.inl rfl⟩

/-- C49: the call is defined exactly when all coordinates of the outline and of the hole fit the
grid (for a well formed region and a non-zero scale). -/
theorem C49_defined_iff (tol : K) (scale : Int) (hs : scale ≠ 0) (clip : Region.Clip) (r : Region K)
    (hw : r.WF) (h : Hole K) :
    (∃ x, r.addHole tol scale clip h = .ok x) ↔
      ∀ q ∈ r.p ++ h.points, (-2147483649 < scale * q.x ∧ scale * q.x < 2147483648) ∧
        (-2147483649 < scale * q.y ∧ scale * q.y < 2147483648) := by
  have hpt : ∀ q : Pt K, (∃ a, Region.scalePoint scale q = .ok a) ↔
      (-2147483649 < scale * q.x ∧ scale * q.x < 2147483648) ∧
        (-2147483649 < scale * q.y ∧ scale * q.y < 2147483648) := by
    intro q
    rw [← C50_toInt_defined, ← C50_toInt_defined]
    unfold Region.scalePoint
    constructor
    · rintro ⟨a, ha⟩
      cases hx : Region.toInt ((scale : K) * q.x) with
      | exn => rw [hx] at ha; cases ha
      | ub => rw [hx] at ha; cases ha
      | ok zx =>
        cases hy : Region.toInt ((scale : K) * q.y) with
        | exn => rw [hx, hy] at ha; cases ha
        | ub => rw [hx, hy] at ha; cases ha
        | ok zy => exact ⟨⟨zx, rfl⟩, zy, rfl⟩
    · rintro ⟨⟨x, hx⟩, y, hy⟩
      rw [hx, hy]; exact ⟨_, rfl⟩
  have hpath : ∀ l : List (Pt K), (∃ a, Region.scalePath scale l = .ok a) ↔
      ∀ q ∈ l, ∃ a, Region.scalePoint scale q = .ok a := by
    intro l
    induction l with
    | nil => exact Iff.intro (fun _ q hq => absurd hq (by simp)) (fun _ => Exists.intro [] rfl)
    | cons q l ih =>
      constructor
      · rintro ⟨a, ha⟩
        unfold Region.scalePath at ha
        cases h1 : Region.scalePoint scale q with
        | exn => rw [h1] at ha; cases ha
        | ub => rw [h1] at ha; cases ha
        | ok u =>
          cases h2 : Region.scalePath scale l with
          | exn => rw [h1, h2] at ha; cases ha
          | ub => rw [h1, h2] at ha; cases ha
          | ok v =>
            intro y hy
            rcases List.mem_cons.1 hy with rfl | hy
            · exact ⟨u, h1⟩
            · exact ih.1 ⟨v, h2⟩ y hy
      · intro hh
        obtain ⟨u, hu⟩ := hh q (by simp)
        obtain ⟨v, hv⟩ := ih.2 (fun y hy => hh y (by simp [hy]))
        exact ⟨u :: v, by unfold Region.scalePath; rw [hu, hv]; rfl⟩
  have main : (∃ x, r.addHole tol scale clip h = .ok x) ↔
      (∃ a, Region.scalePath scale r.p = .ok a) ∧ ∃ b, Region.scalePath scale h.points = .ok b := by
    constructor
    · rintro ⟨x, hx⟩
      unfold Region.addHole at hx
      cases hp : Region.scalePath scale r.p with
      | exn => rw [hp] at hx; cases hx
      | ub => rw [hp] at hx; cases hx
      | ok a =>
        cases hq : Region.scalePath scale h.points with
        | exn => rw [hp, hq] at hx; cases hx
        | ub => rw [hp, hq] at hx; cases hx
        | ok b => exact ⟨⟨a, rfl⟩, b, rfl⟩
    · rintro ⟨⟨a, ha⟩, b, hb⟩
      by_cases hl : (clip a b).length = 1
      · obtain ⟨path, hp⟩ := List.length_eq_one_iff.1 hl
        obtain ⟨r', t, hr, _⟩ := C49_crossing tol scale hs clip r h a b path ha hb hp
        exact ⟨_, hr⟩
      · rcases C49_otherwise tol scale clip r hw h a b ha hb hl with ⟨_, h1⟩ | ⟨_, h1⟩ <;> exact ⟨_, h1⟩
  rw [main, hpath, hpath]
  constructor
  · rintro ⟨h1, h2⟩ q hq
    rcases List.mem_append.1 hq with hq | hq
    · exact (hpt q).1 (h1 q hq)
    · exact (hpt q).1 (h2 q hq)
  · intro hh
    exact ⟨fun q hq => (hpt q).2 (hh q (by simp [hq])), fun q hq => (hpt q).2 (hh q (by simp [hq]))⟩

example : (exRegion.addHole (1/100000) 100 (fun s _ => [s.take 3]) (Hole.ofBoundary [⟨9, 9⟩, ⟨12, 9⟩, ⟨9, 12⟩] ⟨10, 10⟩))
    >>= (fun x => .ok (x.1.p, x.1.holes.length, x.2)) = .ok ([⟨0, 0⟩, ⟨10, 0⟩, ⟨10, 10⟩], 1, false) ∧
  (exRegion.addHole (1/100000) 100 (fun s c => [s, c]) (Hole.ofBoundary [⟨1, 1⟩, ⟨2, 1⟩, ⟨1, 2⟩] ⟨1, 1⟩))
    >>= (fun x => .ok (x.1.p.length, x.1.holes.length, x.2)) = .ok (4, 2, false) ∧
  (exRegion.addHole (1/100000) 100 (fun s c => [s, c]) (Hole.ofBoundary [⟨11, 1⟩, ⟨12, 1⟩, ⟨11, 2⟩] ⟨11, 1⟩))
    >>= (fun x => .ok (x.1.p.length, x.1.holes.length, x.2)) = .ok (4, 1, true) := by
  decide +kernel

/-! ### C51 -/

/-- C51, what the code does: every polygonal hole gets the origin as its center. -/
theorem C51_center_is_origin (tol : K) (p : List (Pt K)) :
    ∃ h, Hole.polygonal tol p = .ok h ∧ h.center = ⟨0, 0⟩ ∧ h.points = p ∧ h.WF :=
  ⟨_, rfl, rfl, rfl, hole_wf_ofBoundary p ⟨0, 0⟩⟩

/-- C51 is false: the center of this hole is not in the hole. -/
theorem C51_refuted : ∃ (p : List (Pt ℚ)) (h : Hole ℚ), Hole.polygonal (1/100000) p = .ok h ∧
    h.containsPoint (1/100000) h.center = .ok false ∧ calculateCentroid p = some ⟨13, 13⟩ ∧
    h.containsPoint (1/100000) ⟨13, 13⟩ = .ok true := by
  refine ⟨[⟨12, 12⟩, ⟨14, 12⟩, ⟨14, 14⟩, ⟨12, 14⟩],
    Hole.ofBoundary [⟨12, 12⟩, ⟨14, 12⟩, ⟨14, 14⟩, ⟨12, 14⟩] ⟨0, 0⟩, rfl, by decide +kernel, by decide +kernel,
    by decide +kernel⟩

/-- C51, consequence: whatever the clipping library answers (other than a single path), a region
that does not contain the origin rejects every polygonal hole, even one strictly inside. -/
theorem C51_addHole_rejects (tol : K) (scale : Int) (clip : Region.Clip) (r : Region K) (hw : r.WF)
    (p : List (Pt K)) (h : Hole K) (hh : Hole.polygonal tol p = .ok h) (a b : List (Int × Int))
    (ha : Region.scalePath scale r.p = .ok a) (hb : Region.scalePath scale p = .ok b)
    (hc : (clip a b).length ≠ 1) (h0 : r.containsPoint tol ⟨0, 0⟩ = .ok false) :
    r.addHole tol scale clip h = .ok (r, true) := by
  obtain ⟨h', e, e1, e2, _⟩ := C51_center_is_origin tol p
  rw [hh] at e
  have e := Outcome.ok.inj e
  subst e
  rcases C49_otherwise tol scale clip r hw h a b ha (by rw [e2]; exact hb) hc with ⟨h1, _⟩ | ⟨_, h1⟩
  · rw [e1, h0] at h1; cases h1
  · exact h1

/-- C51, the part that holds: if the hole's polygon contains the origin, so does the answer. -/
theorem C51_origin_partial (tol : K) (p : List (Pt K)) (h0 : containsPoint tol p ⟨0, 0⟩ = true) :
    ∃ h, Hole.polygonal tol p = .ok h ∧ h.containsPoint tol h.center = .ok true := by
  refine ⟨Hole.ofBoundary p ⟨0, 0⟩, rfl, ?_⟩
  rw [C30_hole_containsPoint]
  exact congrArg _ h0

end Delynoi
