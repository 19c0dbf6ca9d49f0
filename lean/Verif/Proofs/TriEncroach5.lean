import Verif.Proofs.TriEncroach4
import Verif.Props.TriInsert
/-! # Encroached subsegments: the loop -/
set_option linter.unusedSectionVars false
namespace Delynoi.Tri
variable {K : Type} [Field K] [LinearOrder K] [IsStrictOrderedRing K]

/-- What holds between the steps. -/
structure Good (st : Refine K) (L : Nat → Prop) : Prop where
  mesh : SegMesh st.segs L
  flat : Flat st.segs.mesh L st.pos
  settled : ∀ y, L y.1 → Settled true st.segs.mesh L st.pos y
  bare : Bare st.segs.mesh L
  chained : Chained st.segs
  tri : ∀ t, L t → t ≤ st.ntri
  vert : ∀ v w, st.segs.mesh.Adj L v w → v < st.nvert
  sides : ∀ c ∈ st.bad, c.ss.1 ≠ 0 ∧ ∃ z, L z.1 ∧ st.segs.mesh.sub z = c.ss
  queued : ∀ y, Encroached st.segs.mesh L st.pos y → Queued st.segs.mesh L st.bad (st.segs.mesh.sub y).1

theorem SubSplit.chained {s s' : Segs} {L L' : Nat → Prop} {ss : Osub} {r l nv : Nat} (P : SubSplit s L s' L' ss r l nv) (C : Chained s)
    (h0 : ss.1 ≠ 0) (hle : ss.1 ≤ s.count) : Chained s' ∧ ∃ z, s'.mesh.Dir L' z r nv ∧ (s'.mesh.sub z).1 = s.count + 1 ∧ s'.slink (ssym ss) = s'.mesh.sub z := by
  obtain ⟨z, z1, z2, -⟩ := P.right
  obtain ⟨k1, k2⟩ := C (ssym ss) h0 hle
  obtain ⟨l1, l2, l3, l4, l5⟩ := P.links z z1 k1 k2
  refine ⟨?_, z, z1, z2, l1⟩
  have e1 : (ssym (s'.mesh.sub z)).1 = s.count + 1 := z2
  have e2 : (ssym ss).1 ≤ s.count := hle
  intro o o0 ho
  rw [P.count] at ho ⊢
  by_cases c1 : o = ssym ss
  · rw [c1, l1]
    refine ⟨by omega, fun h => ?_⟩
    rw [← h, z2] at e2; omega
  by_cases c2 : o = s'.mesh.sub z
  · rw [c2, l2]
    refine ⟨by omega, fun h => ?_⟩
    rw [h, z2] at e2; omega
  by_cases c3 : o = ssym (s'.mesh.sub z)
  · rw [c3, l3]
    refine ⟨by omega, fun h => ?_⟩
    rw [h, e1] at k1; omega
  by_cases c4 : o = s.slink (ssym ss)
  · rw [c4, l4]
    refine ⟨by omega, fun h => ?_⟩
    rw [← h, e1] at k1; omega
  have ho' : o.1 ≤ s.count := by
    by_contra hgt
    have he : o.1 = (s'.mesh.sub z).1 := by rw [z2]; omega
    have : o = s'.mesh.sub z ∨ o = ssym (s'.mesh.sub z) := by
      rcases o with ⟨n, t⟩
      simp only at he
      subst he
      cases hc : (s'.mesh.sub z).2 <;> cases t <;> simp [ssym, Prod.ext_iff, hc]
    rcases this with k | k
    exacts [c2 k, c3 k]
  rw [l5 o ho' c1 c4]
  obtain ⟨j1, j2⟩ := C o o0 ho'
  exact ⟨by omega, j2⟩

variable {sqrt : K → K} {fuel : Nat} {st : Refine K} {L : Nat → Prop}

/-- An entry that is out of date. -/
theorem Good.drop (G : Good st L) {c : Enc} {bad : List Enc} (h1 : ∀ c' ∈ bad, c' ∈ st.bad) (h2 : ∀ c' ∈ st.bad, c' ≠ c → c' ∈ bad)
    (hc : ¬ (st.segs.sorg c.ss = some c.org ∧ st.segs.sdest c.ss = some c.dest)) : Good { st with bad := bad } L where
  mesh := G.mesh
  flat := G.flat
  settled := G.settled
  bare := G.bare
  chained := G.chained
  tri := G.tri
  vert := G.vert
  sides c' hc' := G.sides c' (h1 c' hc')
  queued y hy := by
    obtain ⟨c', k1, k2, k3⟩ := G.queued y hy
    refine ⟨c', h2 c' k1 ?_, k2, k3⟩
    rintro rfl
    obtain ⟨k0, z, z1, z2⟩ := k2
    have := G.mesh.endpointed.ends z _ _ z1 (by rw [z2]; exact k0)
    rw [z2] at this
    exact hc this

/-- One step. -/
theorem splitOne_spec (hsq : ∀ x, 0 < x → 0 < sqrt x) (G : Good st L) {c : Enc} {bad : List Enc} (hc : c ∈ st.bad)
    (h1 : ∀ c' ∈ bad, c' ∈ st.bad) (h2 : ∀ c' ∈ st.bad, c' ≠ c → c' ∈ bad) :
    splitOne sqrt fuel st c bad = .ok none ∨ ∃ st' L', splitOne sqrt fuel st c bad = .ok (some st') ∧ Good st' L' ∧
      Refined st.segs.mesh L st.pos st'.segs.mesh L' st'.pos := by
  unfold splitOne
  by_cases hcur : st.segs.sorg c.ss = some c.org ∧ st.segs.sdest c.ss = some c.dest
  swap
  · right
    simp only [if_neg hcur]
    exact ⟨_, L, rfl, G.drop h1 h2 hcur, Refined.refl⟩
  simp only [if_pos hcur]
  obtain ⟨c0, e, he, hsub⟩ := G.sides c hc
  have h := G.mesh.linked
  have g := G.mesh.segmented
  have hs : (st.segs.mesh.sub e).1 ≠ 0 := by rw [hsub]; exact c0
  have hstri : st.segs.mesh.stri c.ss = e := by rw [← hsub]; exact g.back e he hs
  obtain ⟨b, r, l, T⟩ := h.tri he
  obtain ⟨rfl, rfl⟩ : l = c.org ∧ r = c.dest := by
    have := G.mesh.endpointed.ends e r l (Tri3.dirs T).1 hs
    rw [hsub] at this
    have i1 := this.1.symm.trans hcur.1
    have i2 := this.2.symm.trans hcur.2
    cases i1; cases i2; exact ⟨rfl, rfl⟩
  cases hr : splitRatio sqrt fuel (st.pos c.org) (st.pos c.dest) (acuteEnds st.segs.mesh (st.segs.mesh.stri c.ss)).1
    (acuteEnds st.segs.mesh (st.segs.mesh.stri c.ss)).2 with
  | none => exact Or.inl rfl
  | some t =>
    right
    simp only []
    obtain ⟨A1, A2, A3⟩ := Tri3.adj T
    have hne : st.pos c.org ≠ st.pos c.dest := by
      intro h0
      have := G.flat.ccw _ _ _ _ T
      rw [h0] at this
      simp only [turn] at this
      ring_nf at this
      exact lt_irrefl _ this
    have hpos : 0 < ((st.pos c.dest).x - (st.pos c.org).x) * ((st.pos c.dest).x - (st.pos c.org).x) +
        ((st.pos c.dest).y - (st.pos c.org).y) * ((st.pos c.dest).y - (st.pos c.org).y) := by
      by_contra hle
      have h1 := mul_self_nonneg ((st.pos c.dest).x - (st.pos c.org).x)
      have h2 := mul_self_nonneg ((st.pos c.dest).y - (st.pos c.org).y)
      have e1 : (st.pos c.dest).x - (st.pos c.org).x = 0 := mul_self_eq_zero.1 (by linarith)
      have e2 : (st.pos c.dest).y - (st.pos c.org).y = 0 := mul_self_eq_zero.1 (by linarith)
      apply hne
      generalize st.pos c.org = p at *
      generalize st.pos c.dest = q at *
      rcases p with ⟨px, py⟩
      rcases q with ⟨qx, qy⟩
      simp only at e1 e2
      simp only [Pt.mk.injEq]
      exact ⟨by linarith, by linarith⟩
    obtain ⟨t1, t2, -⟩ := splitRatio_spec (hsq _ hpos) hr
    have hmid : Amid (st.pos c.org) (st.pos c.dest) (splitPoint (st.pos c.org) (st.pos c.dest) t) := by
      rw [splitPoint_eq]
      exact ⟨t, by linarith, by linarith, rfl, rfl⟩
    set p := splitPoint (st.pos c.org) (st.pos c.dest) t with hp
    set nv := st.nvert with hnv
    set pos := Function.update st.pos nv p with hpos'
    have hplace : ∀ v w, st.segs.mesh.Adj L v w → pos v = st.pos v := by
      intro v w hv
      exact Function.update_of_ne (ne_of_lt (G.vert v w hv)) _ _
    have po : pos c.org = st.pos c.org := hplace _ _ A3
    have pd : pos c.dest = st.pos c.dest := hplace _ _ A2
    have pn : pos nv = p := Function.update_self ..
    rw [← po, ← pd, ← pn] at hmid
    have hne' := Amid.ne hmid (by rw [po, pd]; exact hne)
    rw [if_neg (by rw [pn] at hne'; rintro (k | k); exacts [hne'.1 k, hne'.2 k])]
    set s0 : Segs := { st.segs with vmark := Function.update st.segs.vmark nv (st.segs.smark c.ss.1) } with hs0
    have M0 : SegMesh s0 L := ⟨h, g, G.mesh.proper, G.mesh.endpointed.made, G.mesh.endpointed.ends⟩
    have f0 : Flat s0.mesh L pos := G.flat.move hplace
    have hfresh : Fresh s0.mesh L nv := by
      intro x w
      exact ⟨fun hx => absurd (G.vert nv w ⟨x, Or.inl hx⟩) (lt_irrefl _), fun hx => absurd (G.vert nv w ⟨x, Or.inr hx⟩) (lt_irrefl _)⟩
    have n1 : ¬ L (st.ntri + 1) := fun h0 => absurd (G.tri _ h0) (by omega)
    have n2 : ¬ L (st.ntri + 2) := fun h0 => absurd (G.tri _ h0) (by omega)
    obtain ⟨d, tp, E, htp⟩ : ∃ d tp, EdgeAt s0.mesh L e (st.ntri + 1) (st.ntri + 2) nv b c.dest c.org d tp ∧ (tp = false → s0.mesh.nbr e = (0, 0)) := by
      rcases edgeAt_of (m := s0.mesh) h f0 T n1 n2 (by omega) (by omega) (by omega) hfresh with ⟨h0, E⟩ | ⟨h0, d, -, E⟩
      · exact ⟨_, _, E, fun _ => h0⟩
      · exact ⟨_, _, E, fun h => by simp at h⟩
    obtain ⟨s', x, bad', r1, r2, r3, r4, r5, r6, r7, r8, r9, r10⟩ := insertEnc_spec (pos := pos) M0 E hs f0 hmid.symm G.bare
      (fun y hy => (G.settled y hy).move hplace) (List.range' 1 st.ntri) (by
        intro t ht
        rw [List.mem_range'_1]
        have := G.tri t ht
        have : t ≠ 0 := fun h0 => h.dummy (h0 ▸ ht)
        omega) (2 * st.ntri + 1) (by simp) bad
    rw [show s0.mesh.sub e = c.ss from hsub] at r1 r4
    rw [hstri]
    simp only [r1, Outcome.bind_ok]
    have hcle : c.ss.1 ≤ st.segs.count := by rw [← hsub]; exact G.mesh.endpointed.made e he
    obtain ⟨C', zr, zr1, zr2, zr3⟩ := SubSplit.chained r4 (C := (G.chained : Chained s0)) c0 hcle
    obtain ⟨zl, zl1, zl2⟩ := r4.left
    -- the first check
    obtain ⟨m1, b1, q1, q2, q3, q4⟩ := checkEnc_spec (pos := pos) r3 r7 (o := c.ss) (y := zl) zl1.1 (by rw [zl2]; exact c0) (by rw [zl2]) bad'
    obtain ⟨m2, b2, p1, p2, p3, p4⟩ := checkEnc_spec (pos := pos) r3 r7 (o := s'.snext c.ss) (y := zr) zr1.1 (by rw [zr2]; omega)
      (by show (s'.slink (ssym c.ss)).1 = _; rw [zr3]) b1
    have hsn : (s'.snext c.ss).1 = st.segs.count + 1 := by show (s'.slink (ssym c.ss)).1 = _; rw [zr3]; exact zr2
    simp only [q1, p1, Outcome.bind_ok]
    have key : ∀ v w, v ≠ nv → s'.mesh.Adj (WithE L (st.ntri + 1) (st.ntri + 2) tp) v w → ∃ w', st.segs.mesh.Adj L v w' := by
      intro v w hv ⟨x, hx⟩
      have : ∃ y u w', s'.mesh.Tri3 (WithE L (st.ntri + 1) (st.ntri + 2) tp) y u v w' := by
        have hx1 : WithE L (st.ntri + 1) (st.ntri + 2) tp x.1 := by rcases hx with k | k <;> exact k.1
        obtain ⟨u, A, B, T'⟩ := r3.linked.tri hx1
        rcases hx with k | k
        · have i1 := k.2.1.symm.trans (Tri3.dirs T').1.2.1
          cases i1
          exact ⟨x, u, B, T'⟩
        · have i1 := k.2.2.symm.trans (Tri3.dirs T').1.2.2
          cases i1
          exact ⟨lnext x, A, u, (Tri3.rot T').1⟩
      obtain ⟨y, u, w', T'⟩ := this
      obtain ⟨a1, a2, -⟩ := Tri3.adj T'
      by_cases hw : w' = nv
      · have hu : u ≠ nv := by rintro rfl; exact (r2.flat.distinct T').2.2 hw.symm
        rcases r2.adj _ _ (Adj.symm a1) with k | k | k
        exacts [absurd k hv, absurd k hu, ⟨_, k⟩]
      · rcases r2.adj _ _ a2 with k | k | k
        exacts [absurd k hv, absurd k hw, ⟨_, k⟩]
    have bn : Between (st.pos c.org) (st.pos c.dest) (pos nv) := by
      rw [po, pd] at hmid
      obtain ⟨t, h1, h2, h3, h4⟩ := hmid
      refine ⟨t, le_of_lt h1, le_of_lt h2, ?_⟩
      generalize pos nv = z at *
      rcases z with ⟨zx, zy⟩
      simp only at h3 h4
      simp only [lineAt, Pt.mk.injEq]
      exact ⟨by rw [h3]; ring, by rw [h4]; ring⟩
    have hold : HasSub st.segs.mesh L c.org c.dest := ⟨e, Or.inr (Tri3.dirs T).1, hs⟩
    refine ⟨_, WithE L (st.ntri + 1) (st.ntri + 2) tp, rfl, ?_, ?_⟩
    · refine ⟨r3, r2.flat, r6, r7, C', ?_, ?_, ?_, ?_⟩
      · rintro t (ht | rfl | ⟨-, rfl⟩)
        · have := G.tri t ht
          show t ≤ st.ntri + 2; omega
        · show st.ntri + 1 ≤ st.ntri + 2; omega
        · exact le_refl _
      · intro v w hvw
        show v < nv + 1
        by_cases hv : v = nv
        · omega
        · obtain ⟨w', hw'⟩ := key v w hv hvw
          have := G.vert v w' hw'
          omega
      · intro c' hc'
        have hA : ∀ c', Actual s'.mesh (WithE L (st.ntri + 1) (st.ntri + 2) tp) c' →
            c'.ss.1 ≠ 0 ∧ ∃ z, WithE L (st.ntri + 1) (st.ntri + 2) tp z.1 ∧ s'.mesh.sub z = c'.ss :=
          fun c' ⟨k0, z, k1, k2⟩ => ⟨k0, z, k1.1, k2⟩
        rcases p3 c' hc' with k | k
        swap
        · exact hA c' k.1
        rcases q3 c' k with k | k
        swap
        · exact hA c' k.1
        rcases r9 c' k with k | k
        swap
        · exact hA c' k
        obtain ⟨k0, z, k1, k2⟩ := G.sides c' (h1 c' k)
        refine ⟨k0, ?_⟩
        by_cases hss : c'.ss.1 = c.ss.1
        · rcases g.same e z he k1 hs (by rw [hsub, k2, hss]) with rfl | rfl
          · exact ⟨zl, zl1.1, by rw [zl2, ← hsub, k2]⟩
          · have hn : s0.mesh.nbr e ≠ (0, 0) := fun h0 => h.dummy (by
              have k1 : L (s0.mesh.nbr e).1 := k1
              rw [h0] at k1; exact k1)
            have hnl : ¬ Lone s'.mesh (WithE L (st.ntri + 1) (st.ntri + 2) tp) nv c.org := by
              intro hl
              rcases (r5 _ _).1 hl with ⟨⟨⟨w, hw⟩, -⟩, -⟩ | ⟨k, -⟩
              · exact (hfresh w c.org).1 hw
              · exact hn k
            have hzn : s'.mesh.nbr zl ≠ (0, 0) := fun h0 => hnl ((nbr_lone r3.linked zl1).1 h0)
            have hzl := (r3.linked.across zl1.1 hzn).1
            refine ⟨_, hzl, ?_⟩
            rw [r3.segmented.both zl zl1.1 hzl (by rw [zl2]; exact c0), zl2, ← k2, g.both e he k1 hs, hsub]
        · obtain ⟨u, A, B, T'⟩ := h.tri k1
          obtain ⟨z', j1, j2⟩ := r4.kept z A B (Tri3.dirs T').1 (by rw [show s0.mesh.sub z = c'.ss from k2]; exact k0)
            (by rw [show s0.mesh.sub z = c'.ss from k2]; exact hss)
          exact ⟨z', j1.1, j2.trans k2⟩
      · intro y hE
        have up : ∀ n, Queued s'.mesh (WithE L (st.ntri + 1) (st.ntri + 2) tp) bad' n → Queued s'.mesh (WithE L (st.ntri + 1) (st.ntri + 2) tp) b2 n := by
          rintro n ⟨c', k1, k2, k3⟩
          exact ⟨c', p2 _ (q2 _ k1), k2, k3⟩
        obtain ⟨e0, v, A, B, T', hd⟩ := hE
        have D := (Tri3.dirs T').1
        rcases r4.only y A B D e0 with ⟨y0, hy0, hy1, hy2⟩ | ⟨-, k⟩ | ⟨-, k⟩
        · by_cases hv : v = nv
          · subst hv
            exact up _ (r10 y T'.1 T'.2.1 ⟨e0, _, A, B, T', hd⟩)
          · have hA : A ≠ nv := fun hh => (hfresh y0 B).1 (hh ▸ hy0)
            have hB : B ≠ nv := fun hh => (hfresh y0 A).2 (hh ▸ hy0)
            rcases r2.tri y v A B T' with k | k | k | ⟨y1, T1⟩
            · exact absurd k hv
            · exact absurd k hA
            · exact absurd k hB
            · have : y1 = y0 := h.once y1 y0 A B (Tri3.dirs T1).1 hy0
              subst this
              have hE0 : Encroached s0.mesh L pos y1 := ⟨by rw [hy1]; exact e0, v, A, B, T1, hd⟩
              obtain ⟨c', k1, k2, k3⟩ := G.queued y1 (hE0.move hplace)
              have k3 : c'.ss.1 = (s0.mesh.sub y1).1 := k3
              have hcc : c' ≠ c := by
                rintro rfl
                exact hy2 k3.symm
              refine up _ ⟨c', r8 _ (h2 c' k1 hcc), ?_, by rw [k3, hy1]⟩
              obtain ⟨k0, z, z1, z2⟩ := k2
              obtain ⟨z', j1, j2⟩ := r4.kept z _ _ z1 (by rw [show s0.mesh.sub z = c'.ss from z2]; exact k0)
                (by rw [show s0.mesh.sub z = c'.ss from z2, k3]; exact hy2)
              exact ⟨k0, z', j1, j2.trans z2⟩
        · obtain ⟨c', k1, k2, k3⟩ := q4 y k ⟨e0, v, A, B, T', hd⟩
          exact ⟨c', p2 _ k1, k2, by rw [k3]; exact k.symm⟩
        · have k' : (s'.mesh.sub y).1 = (s'.snext c.ss).1 := by rw [hsn]; exact k
          obtain ⟨c', k1, k2, k3⟩ := p4 y k' ⟨e0, v, A, B, T', hd⟩
          exact ⟨c', k1, k2, by rw [k3]; exact k'.symm⟩
    · refine ⟨hplace, r2.verts, ?_, ?_, ?_⟩
      case refine_2 =>
        rintro v w ⟨x, hx, hx0⟩
        have main : ∀ v w, s'.mesh.Dir (WithE L (st.ntri + 1) (st.ntri + 2) tp) x v w → ∃ a b, HasSub st.segs.mesh L a b ∧
            Between (st.pos a) (st.pos b) (pos v) ∧ Between (st.pos a) (st.pos b) (pos w) := by
          intro v w hd
          rcases r4.only x v w hd hx0 with ⟨y, j1, j2, -⟩ | ⟨⟨rfl, rfl⟩ | ⟨rfl, rfl⟩, -⟩ | ⟨⟨rfl, rfl⟩ | ⟨rfl, rfl⟩, -⟩
          · refine ⟨v, w, ⟨y, Or.inl j1, by rw [show st.segs.mesh.sub y = _ from j2]; exact hx0⟩, ?_⟩
            rw [hplace v w ⟨y, Or.inl j1⟩, hplace w v ⟨y, Or.inr j1⟩]
            exact ⟨Between.left _ _, Between.right _ _⟩
          · exact ⟨_, _, hold, bn, by rw [po]; exact Between.left _ _⟩
          · exact ⟨_, _, hold, by rw [po]; exact Between.left _ _, bn⟩
          · exact ⟨_, _, hold, by rw [pd]; exact Between.right _ _, bn⟩
          · exact ⟨_, _, hold, bn, by rw [pd]; exact Between.right _ _⟩
        rcases hx with k | k
        · exact main v w k
        · obtain ⟨a, b, i1, i2, i3⟩ := main w v k
          exact ⟨a, b, i1, i3, i2⟩
      case refine_3 =>
        intro v w hvw
        by_cases hv : v = nv
        · right
          rw [hv]
          exact ⟨_, _, hold, bn⟩
        · exact Or.inl (key v w hv hvw)
      intro v w hvw
      by_cases hcut : (v = c.dest ∧ w = c.org) ∨ (v = c.org ∧ w = c.dest)
      · have sl : HasSub s'.mesh (WithE L (st.ntri + 1) (st.ntri + 2) tp) nv c.org := ⟨zl, Or.inl zl1, by rw [zl2]; exact c0⟩
        have sr : HasSub s'.mesh (WithE L (st.ntri + 1) (st.ntri + 2) tp) c.dest nv := ⟨zr, Or.inl zr1, by rw [zr2]; omega⟩
        have sl' : HasSub s'.mesh (WithE L (st.ntri + 1) (st.ntri + 2) tp) c.org nv := ⟨zl, Or.inr zl1, by rw [zl2]; exact c0⟩
        have sr' : HasSub s'.mesh (WithE L (st.ntri + 1) (st.ntri + 2) tp) nv c.dest := ⟨zr, Or.inr zr1, by rw [zr2]; omega⟩
        rcases hcut with ⟨rfl, rfl⟩ | ⟨rfl, rfl⟩
        · exact .join (.edge sr) (.edge sl) hmid.symm
        · exact .join (.edge sl') (.edge sr') hmid
      · obtain ⟨x, hx, hx0⟩ := hvw
        have hD := (Tri3.dirs T).1
        have hxn : (st.segs.mesh.sub x).1 ≠ c.ss.1 := by
          intro hh
          have hxl : L x.1 := by rcases hx with k | k <;> exact k.1
          rcases g.same e x he hxl hs (by rw [hsub, hh]) with rfl | rfl
          · rcases hx with k | k
            · have i1 := k.2.1.symm.trans hD.2.1
              have i2 := k.2.2.symm.trans hD.2.2
              cases i1; cases i2; exact hcut (Or.inl ⟨rfl, rfl⟩)
            · have i1 := k.2.1.symm.trans hD.2.1
              have i2 := k.2.2.symm.trans hD.2.2
              cases i1; cases i2; exact hcut (Or.inr ⟨rfl, rfl⟩)
          · have hn : st.segs.mesh.nbr e ≠ (0, 0) := fun h0 => h.dummy (by rw [h0] at hxl; exact hxl)
            obtain ⟨-, -, v', w', j1, j2⟩ := h.across he hn
            have i1 := j1.2.1.symm.trans hD.2.1
            have i2 := j1.2.2.symm.trans hD.2.2
            cases i1; cases i2
            rcases hx with k | k
            · have i1 := k.2.1.symm.trans j2.2.1
              have i2 := k.2.2.symm.trans j2.2.2
              cases i1; cases i2; exact hcut (Or.inr ⟨rfl, rfl⟩)
            · have i1 := k.2.1.symm.trans j2.2.1
              have i2 := k.2.2.symm.trans j2.2.2
              cases i1; cases i2; exact hcut (Or.inl ⟨rfl, rfl⟩)
        rcases hx with k | k
        · obtain ⟨z, z1, z2⟩ := r4.kept x v w k hx0 hxn
          exact .edge ⟨z, Or.inl z1, by rw [z2]; exact hx0⟩
        · obtain ⟨z, z1, z2⟩ := r4.kept x w v k hx0 hxn
          exact .edge ⟨z, Or.inr z1, by rw [z2]; exact hx0⟩

theorem mem_eraseIdx_of_ne {α : Type} : ∀ {l : List α} {i : Nat} {a c : α}, l[i]? = some c → a ∈ l → a ≠ c → a ∈ l.eraseIdx i
  | [], _, _, _, _, h, _ => by simp at h
  | x :: l, 0, a, c, hc, h, hne => by
    simp only [List.getElem?_cons_zero, Option.some.injEq] at hc
    subst hc
    rcases List.mem_cons.1 h with k | k
    · exact absurd k hne
    · exact k
  | x :: l, i + 1, a, c, hc, h, hne => by
    simp only [List.getElem?_cons_succ] at hc
    rcases List.mem_cons.1 h with k | k
    · simp [k]
    · exact List.mem_cons_of_mem _ (mem_eraseIdx_of_ne hc k hne)

/-- The loop. -/
theorem splitencsegs_spec (hsq : ∀ x, 0 < x → 0 < sqrt x) (pick : List Enc → Nat) :
    ∀ (fuel : Nat) (st : Refine K) (L : Nat → Prop), Good st L → splitencsegs sqrt pick fuel st = .ok none ∨
      ∃ st' L', splitencsegs sqrt pick fuel st = .ok (some st') ∧ Good st' L' ∧ st'.bad = [] ∧ Refined st.segs.mesh L st.pos st'.segs.mesh L' st'.pos := by
  intro fuel
  induction fuel with
  | zero => intro st L _; exact Or.inl rfl
  | succ fuel ih =>
    intro st L G
    simp only [splitencsegs]
    by_cases hb : st.bad.length = 0
    · rw [dif_pos hb]
      exact Or.inr ⟨st, L, rfl, G, List.length_eq_zero_iff.1 hb, Refined.refl⟩
    · rw [dif_neg hb]
      have hi : pick st.bad % st.bad.length < st.bad.length := Nat.mod_lt _ (Nat.pos_of_ne_zero hb)
      have hg : st.bad[pick st.bad % st.bad.length]? = some (st.bad.get ⟨pick st.bad % st.bad.length, hi⟩) := by
        rw [List.getElem?_eq_getElem hi]; rfl
      rcases splitOne_spec (fuel := fuel) hsq G (c := st.bad.get ⟨pick st.bad % st.bad.length, hi⟩) (List.get_mem _ _)
        (fun c' hc' => List.mem_of_mem_eraseIdx hc') (fun c' hc' hne => mem_eraseIdx_of_ne hg hc' hne) with h0 | ⟨st', L', h0, G', R⟩
      · left
        simp only [h0, Outcome.bind_ok]
      · simp only [h0, Outcome.bind_ok]
        rcases ih st' L' G' with k | ⟨st'', L'', k, G'', hb', R'⟩
        · exact Or.inl k
        · exact Or.inr ⟨st'', L'', k, G'', hb', R.trans R'⟩

theorem tallyencs_spec {s : Segs} {pos : Nat → Pt K} (M : SegMesh s L) (B : Bare s.mesh L) : ∀ (live : List Nat) (bad : List Enc),
    (∀ n ∈ live, n ≠ 0 ∧ ∃ y, L y.1 ∧ (s.mesh.sub y).1 = n) → ∃ bad', s.tallyencs pos live bad = .ok bad' ∧ (∀ c ∈ bad, c ∈ bad') ∧
      (∀ c ∈ bad', c ∈ bad ∨ Actual s.mesh L c) ∧ ∀ x, (s.mesh.sub x).1 ∈ live → Encroached s.mesh L pos x → Queued s.mesh L bad' (s.mesh.sub x).1 := by
  intro live
  induction live with
  | nil => intro bad _; exact ⟨bad, rfl, fun c h => h, fun c h => Or.inl h, fun x h => by simp at h⟩
  | cons n live ih =>
    intro bad hl
    obtain ⟨h0, y, hy, hn⟩ := hl n (by simp)
    obtain ⟨k, b1, q1, q2, q3, q4⟩ := checkEnc_spec (pos := pos) M B (o := (n, false)) hy (by rw [hn]; exact h0) hn.symm bad
    obtain ⟨b2, r1, r2, r3, r4⟩ := ih b1 (fun n hn => hl n (by simp [hn]))
    refine ⟨b2, by simp only [Segs.tallyencs, q1, Outcome.bind_ok, r1], fun c hc => r2 c (q2 c hc), ?_, ?_⟩
    · intro c hc
      rcases r3 c hc with k | k
      · rcases q3 c k with k | k
        exacts [Or.inl k, Or.inr k.1]
      · exact Or.inr k
    · intro x hx hE
      rcases List.mem_cons.1 hx with k | k
      · obtain ⟨c, c1, c2, c3⟩ := q4 x k hE
        exact ⟨c, r2 c c1, c2, by rw [c3]; exact k.symm⟩
      · exact r4 x k hE

end Delynoi.Tri
