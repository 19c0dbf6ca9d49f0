import Verif.Proofs.ExpGrid
/-! The macro `Square`, and sums of two products. -/
namespace Delynoi.Ex
set_option linter.unusedVariables false

/-- `Square` on a full significand. -/
theorem square_spec {e : Int} (he : -1074 ≤ e) (hef : -1074 ≤ e + e) (A : Int)
    (hA1 : 4503599627370496 ≤ |A|) (hA2 : |A| < 9007199254740992) :
    (square spl ((A : ℚ) * (2 : ℚ) ^ e)).2 =
      (A : ℚ) * (2 : ℚ) ^ e * ((A : ℚ) * (2 : ℚ) ^ e) - fl ((A : ℚ) * (2 : ℚ) ^ e * ((A : ℚ) * (2 : ℚ) ^ e)) := by
  obtain ⟨h, l, hs, hh, hl, hAe⟩ := split_spec he A hA1 hA2
  have hP : ∀ x y : Int, (x : ℚ) * (2 : ℚ) ^ e * ((y : ℚ) * (2 : ℚ) ^ e) = ((x * y : Int) : ℚ) * (2 : ℚ) ^ (e + e) := by
    intro x y; rw [two_zpow_add]; push_cast; ring
  have hsub : ∀ x y : Int, (x : ℚ) * (2 : ℚ) ^ (e + e) - (y : ℚ) * (2 : ℚ) ^ (e + e) = ((x - y : Int) : ℚ) * (2 : ℚ) ^ (e + e) := by
    intro x y; push_cast; ring
  obtain ⟨X, hX, hXe⟩ := fl_scaled_round hef 52 53 (A * A)
    (by rw [abs_mul]; norm_num
        calc (20282409603651670423947251286016 : Int) = 4503599627370496 * 4503599627370496 := by norm_num
          _ ≤ |A| * |A| := by gcongr
          _ = A * A := abs_mul_abs_self A)
    (by rw [abs_mul]; norm_num
        calc A * A = |A| * |A| := (abs_mul_abs_self A).symm
          _ ≤ 9007199254740992 * 9007199254740992 := by gcongr
          _ = 81129638414606681695789005144064 := by norm_num)
  have bnd : ∀ x y : Int, |x| ≤ 67108864 → |y| ≤ 67108864 → |x * y| ≤ 4503599627370496 := by
    intro x y hx hy
    rw [abs_mul]
    calc |x| * |y| ≤ 67108864 * 67108864 := by gcongr
      _ = _ := by norm_num
  have b1 := bnd h h hh hh
  have b2 := bnd h l hh hl
  have b4 := bnd l l hl hl
  have hAB : A * A = 18014398509481984 * (h * h) + 268435456 * (h * l) + l * l := by
    rw [hAe]; ring
  have d1 : fl (((2 ^ 27 * h : Int) : ℚ) * (2 : ℚ) ^ e + ((2 ^ 27 * h : Int) : ℚ) * (2 : ℚ) ^ e) = ((2 ^ 28 * h : Int) : ℚ) * (2 : ℚ) ^ e := by
    rw [show ((2 ^ 27 * h : Int) : ℚ) * (2 : ℚ) ^ e + ((2 ^ 27 * h : Int) : ℚ) * (2 : ℚ) ^ e = ((2 ^ 28 * h : Int) : ℚ) * (2 : ℚ) ^ e by
      push_cast; ring]
    exact fl_scaled he 28 h (by omega)
  unfold square
  dsimp only
  rw [hs]
  dsimp only
  rw [d1, hP A A, hX, hP (2 ^ 27 * h) (2 ^ 27 * h), hP (2 ^ 28 * h) l, hP l l]
  norm_num at hXe
  generalize hg : A * A = AB at *
  generalize e1 : h * h = u1 at *
  generalize e3 : h * l = u3 at *
  generalize e4 : l * l = u4 at *
  have hXe' : |4503599627370496 * X - AB| ≤ 4503599627370496 := by omega
  clear hXe
  rw [show (2 ^ 27 * h * (2 ^ 27 * h) : Int) = 2 ^ 54 * u1 by rw [← e1]; ring,
    show (2 ^ 28 * h * l : Int) = 2 ^ 28 * u3 by rw [← e3]; ring]
  rw [fl_scaled hef 54 u1 (by omega), fl_scaled hef 28 u3 (by omega)]
  have f0 : ∀ k : Int, |k| ≤ 9007199254740992 → fl ((k : ℚ) * (2 : ℚ) ^ (e + e)) = (k : ℚ) * (2 : ℚ) ^ (e + e) := by
    intro k hk
    have := fl_scaled hef 0 k hk
    simpa using this
  rw [f0 u4 (by omega), hsub]
  have g1 : |X - 4 * u1| ≤ 9007199254740992 := by rw [abs_le] at *; constructor <;> omega
  have g3 : |268435456 * (16777216 * (X - 4 * u1) - u3)| ≤ 9007199254740992 := by
    rw [abs_le] at *; constructor <;> omega
  have g4 : |u4 - 268435456 * (16777216 * (X - 4 * u1) - u3)| ≤ 9007199254740992 := by
    rw [abs_le] at *; constructor <;> omega
  rw [show (2 ^ 52 * X - 2 ^ 54 * u1 : Int) = 2 ^ 52 * (X - 4 * u1) by ring, fl_scaled hef 52 _ g1, hsub,
    show (2 ^ 52 * (X - 4 * u1) - 2 ^ 28 * u3 : Int) = 268435456 * (16777216 * (X - 4 * u1) - u3) by ring,
    f0 _ g3, hsub, f0 _ g4, hsub]
  congr 2
  rw [hAB]; ring

/-- `Square` computes the error of the square, if nothing underflows. -/
theorem square_exact {a : ℚ} {g : Int} (ha : IsDouble a) (hm : MultOf g a) (hg : -485 ≤ g) :
    (square spl a).2 = a * a - fl (a * a) := by
  by_cases ha0 : a = 0
  · subst ha0
    have h0 : split spl 0 = (0, 0) := by
      unfold split; simp [fl_zero]
    unfold square
    simp [h0, fl_zero]
  obtain ⟨A, ea, hA1, hA2, hA⟩ := ha.normal ha0
  have low : g ≤ ea + 52 := by
    have h1 := hm.le_abs ha0
    rw [hA, abs_scaled] at h1
    have h2 : ((|A| : Int) : ℚ) < ((9007199254740992 : Int) : ℚ) := by exact_mod_cast hA2
    have h3 : (2 : ℚ) ^ g < (2 : ℚ) ^ (53 + ea) := by
      rw [two_zpow_add]
      refine h1.trans_lt (mul_lt_mul_of_pos_right (h2.trans_le (by norm_num)) (two_zpow_pos ea))
    have := (zpow_lt_zpow_iff_right₀ (by norm_num : (1 : ℚ) < 2)).1 h3
    omega
  rw [hA]
  exact square_spec (by omega) (by omega) A hA1 hA2

theorem twoTwoSum_eq (a1 a0 b1 b0 : ℚ) : twoTwoSum a1 a0 b1 b0 = twoTwoDiff a1 a0 (-b1) (-b0) := by
  unfold twoTwoSum twoTwoDiff twoOneSum twoOneDiff
  simp only [twoDiff_eq, neg_neg]

theorem plusExpansion_eq {a b c d : ℚ} (d3 : IsDouble c) (d4 : IsDouble d) (m3 : MultOf (-440) c) (m4 : MultOf (-440) d) :
    plusExpansion spl a b c d = crossExpansion spl a b (-c) d := by
  have t2 : (twoProduct spl c d).2 = c * d - fl (c * d) :=
    twoProduct_exact d3 d4 m3 m4 (by norm_num) (by norm_num) (by norm_num)
  have t3 : (twoProduct spl (-c) d).2 = -c * d - fl (-c * d) :=
    twoProduct_exact d3.neg d4 m3.neg m4 (by norm_num) (by norm_num) (by norm_num)
  have e1 : (twoProduct spl c d).1 = fl (c * d) := rfl
  have e2 : (twoProduct spl (-c) d).1 = fl (-c * d) := rfl
  unfold plusExpansion crossExpansion
  dsimp only
  rw [twoTwoSum_eq, t2, t3, e1, e2, neg_mul, fl_neg]
  congr 1
  ring

theorem squareExpansion_eq {x y : ℚ} (d1 : IsDouble x) (d2 : IsDouble y) (m1 : MultOf (-440) x) (m2 : MultOf (-440) y) :
    squareExpansion spl x y = crossExpansion spl x x (-y) y := by
  rw [← plusExpansion_eq d2 d2 m2 m2]
  have s1 : square spl x = twoProduct spl x x := by
    refine Prod.ext rfl ?_
    rw [square_exact d1 m1 (by norm_num), twoProduct_exact d1 d1 m1 m1 (by norm_num) (by norm_num) (by norm_num)]
  have s2 : square spl y = twoProduct spl y y := by
    refine Prod.ext rfl ?_
    rw [square_exact d2 m2 (by norm_num), twoProduct_exact d2 d2 m2 m2 (by norm_num) (by norm_num) (by norm_num)]
  unfold squareExpansion plusExpansion
  rw [s1, s2]

theorem crossExpansion_grid {g : Int} {a b c d : ℚ} (d1 : IsDouble a) (d2 : IsDouble b) (d3 : IsDouble c) (d4 : IsDouble d)
    (m1 : MultOf (-440) a) (m2 : MultOf (-440) b) (m3 : MultOf (-440) c) (m4 : MultOf (-440) d)
    (h1 : MultOf g (a * b)) (h2 : MultOf g (c * d)) : ∀ x ∈ crossExpansion spl a b c d, MultOf g x := by
  have t1 : (twoProduct spl a b).2 = a * b - fl (a * b) :=
    twoProduct_exact d1 d2 m1 m2 (by norm_num) (by norm_num) (by norm_num)
  have t2 : (twoProduct spl c d).2 = c * d - fl (c * d) :=
    twoProduct_exact d3 d4 m3 m4 (by norm_num) (by norm_num) (by norm_num)
  have p1 : MultOf g (twoProduct spl a b).1 := h1.fl
  have p2 : MultOf g (twoProduct spl a b).2 := by rw [t1]; exact h1.sub h1.fl
  have p3 : MultOf g (twoProduct spl c d).1 := h2.fl
  have p4 : MultOf g (twoProduct spl c d).2 := by rw [t2]; exact h2.sub h2.fl
  have d : ∀ {a b : ℚ}, MultOf g a → MultOf g b → MultOf g (twoDiff a b).1 ∧ MultOf g (twoDiff a b).2 := by
    intro a b ha hb
    rw [twoDiff_eq]; exact twoSum_mult ha hb.neg
  have q1 := d p2 p4
  have q2 := twoSum_mult p1 q1.1
  have q3 := d q2.2 p3
  have q4 := twoSum_mult q2.1 q3.1
  intro x hx
  unfold crossExpansion twoTwoDiff twoOneDiff at hx
  simp only [List.mem_cons, List.not_mem_nil, or_false] at hx
  rcases hx with rfl | rfl | rfl | rfl
  · exact q1.2
  · exact q3.2
  · exact q4.2
  · exact q4.1

theorem good_cross {a b c d : ℚ} (d1 : IsDouble a) (d2 : IsDouble b) (d3 : IsDouble c) (d4 : IsDouble d)
    (m1 : MultOf (-240) a) (m2 : MultOf (-240) b) (m3 : MultOf (-240) c) (m4 : MultOf (-240) d) :
    Good (-480) (a * b - c * d) (crossExpansion spl a b c d) := by
  have n : ∀ {x : ℚ}, MultOf (-240) x → MultOf (-440) x := fun h => h.mono (by norm_num)
  obtain ⟨h1, h2, h3⟩ := crossExpansion_exp' d1 d2 d3 d4 (n m1) (n m2) (n m3) (n m4)
  exact ⟨h1, h3, h2, crossExpansion_grid d1 d2 d3 d4 (n m1) (n m2) (n m3) (n m4) (m1.mul m2) (m3.mul m4)⟩

theorem good_plus {a b c d : ℚ} (d1 : IsDouble a) (d2 : IsDouble b) (d3 : IsDouble c) (d4 : IsDouble d)
    (m1 : MultOf (-240) a) (m2 : MultOf (-240) b) (m3 : MultOf (-240) c) (m4 : MultOf (-240) d) :
    Good (-480) (a * b + c * d) (plusExpansion spl a b c d) := by
  rw [plusExpansion_eq d3 d4 (m3.mono (by norm_num)) (m4.mono (by norm_num))]
  have := good_cross d1 d2 d3.neg d4 m1 m2 m3.neg m4
  rwa [neg_mul, sub_neg_eq_add] at this

theorem good_square {x y : ℚ} (d1 : IsDouble x) (d2 : IsDouble y) (m1 : MultOf (-240) x) (m2 : MultOf (-240) y) :
    Good (-480) (x * x + y * y) (squareExpansion spl x y) := by
  rw [squareExpansion_eq d1 d2 (m1.mono (by norm_num)) (m2.mono (by norm_num)),
    ← plusExpansion_eq d2 d2 (m2.mono (by norm_num)) (m2.mono (by norm_num))]
  exact good_plus d1 d1 d2 d2 m1 m1 m2 m2

end Delynoi.Ex
