import Verif.Proofs.ExpSquare
/-! The last stage of `incircleadapt` is exact. -/
namespace Delynoi.Ex
set_option linter.unusedVariables false

/-- A number which is not too small. -/
structure Num (x : ℚ) : Prop where
  d : IsDouble x
  m : MultOf (-240) x

theorem Num.neg {x : ℚ} (h : Num x) : Num (-x) := ⟨h.d.neg, h.m.neg⟩

theorem Num.two {x : ℚ} (h : Num x) : Num (fl (2 * x)) ∧ fl (2 * x) = 2 * x := by
  have e : fl (2 * x) = 2 * x := fl_of_double h.d.two_mul
  rw [e]
  refine ⟨⟨h.d.two_mul, ?_⟩, rfl⟩
  rw [two_mul]; exact h.m.add h.m

theorem Good.by2 {v b : ℚ} {e : List ℚ} (h : Good (-480) v e) (n : Num b) :
    ∃ L, scaleExpansion spl e b = .ok L ∧ Good (-720) (b * v) L := by
  obtain ⟨L, a, b, -⟩ := h.scale n.d n.m ⟨by norm_num, by norm_num, by norm_num⟩
  exact ⟨L, a, b⟩

theorem Good.by3 {v b : ℚ} {e : List ℚ} (h : Good (-720) v e) (n : Num b) :
    ∃ L, scaleExpansion spl e b = .ok L ∧ Good (-960) (b * v) L := by
  obtain ⟨L, a, b, -⟩ := h.scale n.d n.m ⟨by norm_num, by norm_num, by norm_num⟩
  exact ⟨L, a, b⟩

/-- A sum so far. -/
def Fin' (v : ℚ) (L : List ℚ) : Prop := Good (-960) v L ∧ Trim L

theorem Fin'.cast {v w : ℚ} {L : List ℚ} (h : Fin' v L) (e : v = w) : Fin' w L := e ▸ h

theorem Fin'.add {v w : ℚ} {e f : List ℚ} (n m : Nat) (h : Good (-960) v e) (k : Good (-960) w f) :
    ∃ L, laxSum n m e f = .ok L ∧ Fin' (v + w) L := h.add n m k

theorem lift_lax {x y v : ℚ} {bc : List ℚ} (nx : Num x) (ny : Num y) (h : Good (-480) v bc) :
    ∃ L, liftExpansion laxSum spl x y bc = .ok L ∧ Fin' ((x * x + y * y) * v) L := by
  obtain ⟨a, ea, ga⟩ := h.by2 nx
  obtain ⟨b, eb, gb⟩ := ga.by3 nx
  obtain ⟨c, ec, gc⟩ := h.by2 ny
  obtain ⟨d, ed, gd⟩ := gc.by3 ny
  obtain ⟨L, eL, gL⟩ := Fin'.add 16 16 gb gd
  refine ⟨L, ?_, gL.cast (by ring)⟩
  unfold liftExpansion
  rw [ea, Outcome.bind_ok, eb, Outcome.bind_ok, ec, Outcome.bind_ok, ed, Outcome.bind_ok, eL]

theorem addFirst_lax {v t d p q vbc vf vg : ℚ} {fin bc f g : List ℚ} (hf : Fin' v fin) (nt : Num t) (nd : Num d) (np : Num p)
    (nq : Num q) (hbc : Good (-480) vbc bc) (hf' : Good (-480) vf f) (hg : Good (-480) vg g) :
    ∃ r, addFirst laxSum spl fin t d bc f p g q = .ok r ∧ Fin' (v + t * (2 * d * vbc + p * vf + q * vg)) r.1 ∧
      (t ≠ 0 → Good (-720) (t * vbc) r.2) := by
  unfold addFirst
  by_cases h0 : t = 0
  · rw [if_neg (by simp [h0])]
    exact ⟨_, rfl, hf.cast (by rw [h0]; ring), fun h => absurd h0 h⟩
  · rw [if_pos h0]
    obtain ⟨n2, e2⟩ := nd.two
    obtain ⟨a, ea, ga⟩ := hbc.by2 nt
    obtain ⟨b, eb, gb⟩ := ga.by3 n2
    obtain ⟨c, ec, gc⟩ := hf'.by2 nt
    obtain ⟨d', ed, gd⟩ := gc.by3 np
    obtain ⟨e, ee, ge⟩ := hg.by2 nt
    obtain ⟨f', ef, gf⟩ := ge.by3 nq
    obtain ⟨s1, es1, gs1⟩ := Fin'.add 16 16 gb gd
    obtain ⟨s2, es2, gs2⟩ := Fin'.add 16 32 gf gs1.1
    obtain ⟨s3, es3, gs3⟩ := Fin'.add 1152 48 hf.1 gs2.1
    rw [ea, Outcome.bind_ok, eb, Outcome.bind_ok, ec, Outcome.bind_ok, ed, Outcome.bind_ok, ee, Outcome.bind_ok, ef,
      Outcome.bind_ok, es1, Outcome.bind_ok, es2, Outcome.bind_ok, es3, Outcome.bind_ok]
    exact ⟨_, rfl, gs3.cast (by rw [e2]; ring), fun _ => ga⟩

theorem tail_lax {bx bxt by' byt cx cxt cy cyt : ℚ} (n1 : Num bx) (n2 : Num bxt) (n3 : Num by') (n4 : Num byt)
    (n5 : Num cx) (n6 : Num cxt) (n7 : Num cy) (n8 : Num cyt) :
    ∃ r, tailExpansions laxSum spl bx bxt by' byt cx cxt cy cyt = .ok r ∧
      Good (-480) (bxt * cy + bx * cyt - cxt * by' - cx * byt) r.1 ∧ Good (-480) (bxt * cyt - cxt * byt) r.2 := by
  unfold tailExpansions
  split_ifs with h0
  · have g1 := good_plus n2.d n7.d n1.d n8.d n2.m n7.m n1.m n8.m
    have g2 := good_plus n6.d n3.d.neg n5.d n4.d.neg n6.m n3.m.neg n5.m n4.m.neg
    have g3 := good_cross n2.d n8.d n6.d n4.d n2.m n8.m n6.m n4.m
    obtain ⟨L, eL, gL, -⟩ := g1.add 4 4 g2
    rw [eL, Outcome.bind_ok]
    refine ⟨_, rfl, ?_, g3⟩
    dsimp only
    rw [show bxt * cy + bx * cyt - cxt * by' - cx * byt = bxt * cy + bx * cyt + (cxt * -by' + cx * -byt) by ring]
    exact gL
  · push Not at h0
    obtain ⟨e1, e2, e3, e4⟩ := h0
    have z : Good (-480) 0 [0] := ⟨⟨isDouble_zero, Or.inl ⟨rfl, trivial⟩⟩, by simp, by simp, by
      intro x hx; rw [List.mem_singleton.1 hx]; exact MultOf.zero⟩
    refine ⟨_, rfl, ?_, ?_⟩
    · dsimp only
      rw [e1, e2, e3, e4]; simpa using z
    · dsimp only
      rw [e1, e2, e3, e4]; simpa using z

theorem addSecond_lax {v t d vbc vbct : ℚ} {fin xtbc bct : List ℚ} (hf : Fin' v fin) (nt : Num t) (nd : Num d)
    (hx : Good (-720) (t * vbc) xtbc) (hb : Good (-480) vbct bct) :
    ∃ r, addSecond laxSum spl fin t d xtbc bct = .ok r ∧ Fin' (v + (t * t * vbc + 2 * d * t * vbct)) r.1 ∧
      Good (-720) (t * vbct) r.2 := by
  obtain ⟨n2, e2⟩ := nd.two
  obtain ⟨a, ea, ga⟩ := hx.by3 nt
  obtain ⟨b, eb, gb⟩ := hb.by2 nt
  obtain ⟨c, ec, gc⟩ := gb.by3 n2
  obtain ⟨s1, es1, gs1⟩ := Fin'.add 16 32 ga gc
  obtain ⟨s2, es2, gs2⟩ := Fin'.add 1152 48 hf.1 gs1.1
  unfold addSecond
  rw [ea, Outcome.bind_ok, eb, Outcome.bind_ok, ec, Outcome.bind_ok, es1, Outcome.bind_ok, es2, Outcome.bind_ok]
  exact ⟨_, rfl, gs2.cast (by rw [e2]; ring), gb⟩

theorem addPair_lax {v t u vf : ℚ} {fin f : List ℚ} (hf : Fin' v fin) (nt : Num t) (nu : Num u) (h : Good (-480) vf f) :
    ∃ r, addPair laxSum spl fin f t u = .ok r ∧ Fin' (v + t * u * vf) r := by
  unfold addPair
  by_cases h0 : u = 0
  · rw [if_neg (by simp [h0])]
    exact ⟨_, rfl, hf.cast (by rw [h0]; ring)⟩
  · rw [if_pos h0]
    obtain ⟨a, ea, ga⟩ := h.by2 nt
    obtain ⟨b, eb, gb⟩ := ga.by3 nu
    obtain ⟨s, es, gs⟩ := Fin'.add 1152 16 hf.1 gb
    rw [ea, Outcome.bind_ok, eb, Outcome.bind_ok, es]
    exact ⟨_, rfl, gs.cast (by ring)⟩

theorem addThird_lax {v t d vbct vbctt : ℚ} {fin xtbct bctt : List ℚ} (hf : Fin' v fin) (nt : Num t) (nd : Num d)
    (hx : Good (-720) (t * vbct) xtbct) (hb : Good (-480) vbctt bctt) :
    ∃ r, addThird laxSum spl fin t d xtbct bctt = .ok r ∧ Fin' (v + (t * t * vbct + (2 * d * t + t * t) * vbctt)) r := by
  obtain ⟨n2, e2⟩ := nd.two
  obtain ⟨a, ea, ga⟩ := hx.by3 nt
  obtain ⟨b, eb, gb⟩ := hb.by2 nt
  obtain ⟨c, ec, gc⟩ := gb.by3 n2
  obtain ⟨d', ed, gd⟩ := gb.by3 nt
  obtain ⟨s1, es1, gs1⟩ := Fin'.add 16 16 gc gd
  obtain ⟨s2, es2, gs2⟩ := Fin'.add 32 32 ga gs1.1
  obtain ⟨s3, es3, gs3⟩ := Fin'.add 1152 64 hf.1 gs2.1
  unfold addThird
  rw [ea, Outcome.bind_ok, eb, Outcome.bind_ok, ec, Outcome.bind_ok, ed, Outcome.bind_ok, es1, Outcome.bind_ok, es2,
    Outcome.bind_ok, es3]
  exact ⟨_, rfl, gs3.cast (by rw [e2]; ring)⟩

theorem addX_lax {v t d byt cyt vbc vbct vbctt vcc vbb : ℚ} {fin xtbc bct bctt cc bb : List ℚ} (hf : Fin' v fin) (nt : Num t)
    (nd : Num d) (nb : Num byt) (nc : Num cyt) (hx : t ≠ 0 → Good (-720) (t * vbc) xtbc) (hb : Good (-480) vbct bct)
    (hbt : Good (-480) vbctt bctt) (hcc : Good (-480) vcc cc) (hbb : Good (-480) vbb bb) :
    ∃ r, addX laxSum spl fin t d xtbc bct bctt cc byt bb cyt = .ok r ∧
      Fin' (v + (t * t * vbc + 2 * d * t * vbct + t * byt * vcc - t * cyt * vbb + t * t * vbct + (2 * d * t + t * t) * vbctt)) r := by
  unfold addX
  by_cases h0 : t = 0
  · rw [if_neg (by simp [h0])]
    exact ⟨_, rfl, hf.cast (by rw [h0]; ring)⟩
  · rw [if_pos h0]
    obtain ⟨r1, e1, g1, k1⟩ := addSecond_lax hf nt nd (hx h0) hb
    obtain ⟨r2, e2, g2⟩ := addPair_lax g1 nt nb hcc
    obtain ⟨r3, e3, g3⟩ := addPair_lax g2 nt.neg nc hbb
    obtain ⟨r4, e4, g4⟩ := addThird_lax g3 nt nd k1 hbt
    rw [e1, Outcome.bind_ok, e2, Outcome.bind_ok, e3, Outcome.bind_ok, e4]
    exact ⟨_, rfl, g4.cast (by ring)⟩

theorem addY_lax {v t d vbc vbct vbctt : ℚ} {fin xtbc bct bctt : List ℚ} (hf : Fin' v fin) (nt : Num t)
    (nd : Num d) (hx : t ≠ 0 → Good (-720) (t * vbc) xtbc) (hb : Good (-480) vbct bct) (hbt : Good (-480) vbctt bctt) :
    ∃ r, addY laxSum spl fin t d xtbc bct bctt = .ok r ∧
      Fin' (v + (t * t * vbc + 2 * d * t * vbct + t * t * vbct + (2 * d * t + t * t) * vbctt)) r := by
  unfold addY
  by_cases h0 : t = 0
  · rw [if_neg (by simp [h0])]
    exact ⟨_, rfl, hf.cast (by rw [h0]; ring)⟩
  · rw [if_pos h0]
    obtain ⟨r1, e1, g1, k1⟩ := addSecond_lax hf nt nd (hx h0) hb
    obtain ⟨r4, e4, g4⟩ := addThird_lax g1 nt nd k1 hbt
    rw [e1, Outcome.bind_ok, e4]
    exact ⟨_, rfl, g4.cast (by ring)⟩

/-- The terms of second order and higher of one point. -/
def termPoint (ax ay axt ayt bx bxt by' byt cx cxt cy cyt vbc vbb vcc : ℚ) : ℚ :=
  let m := bxt * cy + bx * cyt - cxt * by' - cx * byt
  let n := bxt * cyt - cxt * byt
  (axt * axt * vbc + 2 * ax * axt * m + axt * byt * vcc - axt * cyt * vbb + axt * axt * m + (2 * ax * axt + axt * axt) * n) +
  (ayt * ayt * vbc + 2 * ay * ayt * m + ayt * ayt * m + (2 * ay * ayt + ayt * ayt) * n)

theorem addPoint_lax {v ax ay axt ayt bx bxt by' byt cx cxt cy cyt vbc vbb vcc : ℚ} {fin axtbc aytbc bb cc : List ℚ} (hf : Fin' v fin)
    (n1 : Num bx) (n2 : Num bxt) (n3 : Num by') (n4 : Num byt) (n5 : Num cx) (n6 : Num cxt) (n7 : Num cy) (n8 : Num cyt)
    (m1 : Num ax) (m2 : Num ay) (m3 : Num axt) (m4 : Num ayt) (hx : axt ≠ 0 → Good (-720) (axt * vbc) axtbc)
    (hy : ayt ≠ 0 → Good (-720) (ayt * vbc) aytbc) (hbb : Good (-480) vbb bb) (hcc : Good (-480) vcc cc) :
    ∃ r, addPoint laxSum spl fin axt ayt ax ay axtbc aytbc bx bxt by' byt cx cxt cy cyt bb cc = .ok r ∧
      Fin' (v + termPoint ax ay axt ayt bx bxt by' byt cx cxt cy cyt vbc vbb vcc) r := by
  unfold addPoint termPoint
  dsimp only
  split_ifs with h0
  · obtain ⟨r, e, g1, g2⟩ := tail_lax n1 n2 n3 n4 n5 n6 n7 n8
    obtain ⟨r1, e1, k1⟩ := addX_lax hf m3 m1 n4 n8 hx g1 g2 hcc hbb
    obtain ⟨r2, e2, k2⟩ := addY_lax k1 m4 m2 hy g1 g2
    rw [e, Outcome.bind_ok, e1, Outcome.bind_ok, e2]
    exact ⟨_, rfl, k2.cast (by ring)⟩
  · push Not at h0
    obtain ⟨h1, h2⟩ := h0
    exact ⟨_, rfl, hf.cast (by rw [h1, h2]; ring)⟩

/-- The determinant which `incircle` computes, of the differences to `d`. -/
def det6 (ax ay bx by' cx cy : ℚ) : ℚ :=
  (ax * ax + ay * ay) * (bx * cy - cx * by') + (bx * bx + by' * by') * (cx * ay - ax * cy) +
    (cx * cx + cy * cy) * (ax * by' - bx * ay)

/-- The last stage is exact. -/
theorem last_lax {ax ay bx by' cx cy axt ayt bxt byt cxt cyt : ℚ} {fin : List ℚ} (n1 : Num ax) (n2 : Num ay) (n3 : Num bx)
    (n4 : Num by') (n5 : Num cx) (n6 : Num cy) (m1 : Num axt) (m2 : Num ayt) (m3 : Num bxt) (m4 : Num byt) (m5 : Num cxt)
    (m6 : Num cyt) (hf : Fin' (det6 ax ay bx by' cx cy) fin) :
    ∃ d, incircleLast laxSum spl (crossExpansion spl bx cy cx by') (crossExpansion spl cx ay ax cy)
      (crossExpansion spl ax by' bx ay) fin ax ay bx by' cx cy axt ayt bxt byt cxt cyt = .ok d ∧
      SameSign d (det6 (ax + axt) (ay + ayt) (bx + bxt) (by' + byt) (cx + cxt) (cy + cyt)) := by
  have hbc := good_cross n3.d n6.d n5.d n4.d n3.m n6.m n5.m n4.m
  have hca := good_cross n5.d n2.d n1.d n6.d n5.m n2.m n1.m n6.m
  have hab := good_cross n1.d n4.d n3.d n2.d n1.m n4.m n3.m n2.m
  have haa := good_square n1.d n2.d n1.m n2.m
  have hbb := good_square n3.d n4.d n3.m n4.m
  have hcc := good_square n5.d n6.d n5.m n6.m
  obtain ⟨a1, ea1, fa1, ga1⟩ := addFirst_lax hf m1 n1 n4 n6.neg hbc hcc hbb
  obtain ⟨a2, ea2, fa2, ga2⟩ := addFirst_lax fa1 m2 n2 n5 n3.neg hbc hbb hcc
  obtain ⟨b1, eb1, fb1, gb1⟩ := addFirst_lax fa2 m3 n3 n6 n2.neg hca haa hcc
  obtain ⟨b2, eb2, fb2, gb2⟩ := addFirst_lax fb1 m4 n4 n1 n5.neg hca hcc haa
  obtain ⟨c1, ec1, fc1, gc1⟩ := addFirst_lax fb2 m5 n5 n2 n4.neg hab hbb haa
  obtain ⟨c2, ec2, fc2, gc2⟩ := addFirst_lax fc1 m6 n6 n3 n1.neg hab haa hbb
  obtain ⟨p1, ep1, fp1⟩ := addPoint_lax fc2 n3 m3 n4 m4 n5 m5 n6 m6 n1 n2 m1 m2 ga1 ga2 hbb hcc
  obtain ⟨p2, ep2, fp2⟩ := addPoint_lax fp1 n5 m5 n6 m6 n1 m1 n2 m2 n3 n4 m3 m4 gb1 gb2 hcc haa
  obtain ⟨p3, ep3, fp3⟩ := addPoint_lax fp2 n1 m1 n2 m2 n3 m3 n4 m4 n5 n6 m5 m6 gc1 gc2 haa hbb
  obtain ⟨d, hd, hs⟩ := fp3.1.last fp3.2
  unfold incircleLast
  dsimp only
  rw [ea1, Outcome.bind_ok, ea2, Outcome.bind_ok, eb1, Outcome.bind_ok, eb2, Outcome.bind_ok, ec1, Outcome.bind_ok, ec2,
    Outcome.bind_ok, ep1, Outcome.bind_ok, ep2, Outcome.bind_ok, ep3, Outcome.bind_ok, hd]
  refine ⟨d, rfl, ?_⟩
  convert hs using 1
  unfold det6 termPoint
  ring

end Delynoi.Ex
