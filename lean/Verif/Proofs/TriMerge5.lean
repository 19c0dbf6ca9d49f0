import Verif.Proofs.TriMerge4
/-!
# Knitting two triangulations together: the beginning and the end
-/
set_option linter.unusedSectionVars false
namespace Delynoi.Tri
variable {K : Type} [Field K] [LinearOrder K] [IsStrictOrderedRing K] {pos : Nat → Pt K}
variable {m m' : Heap} {A : Nat → Prop} {m0 : Heap} {V : Nat → Prop} {s : Knit} {ll lr ul ur : Nat} {n : Nat} {E E' : List Otri}

theorem Shut.grow (h : Shut m A E) (hn : ¬ A n) (hE : ∀ x : Otri, x ∈ E' ↔ x ∈ E ∨ x.1 = n)
    (hnb : ∀ x : Otri, A x.1 → x ∉ E → m'.nbr x = m.nbr x) (hc : ∀ x : Otri, x.1 ≠ n → m'.corner x = m.corner x) :
    Shut m' (fun t => A t ∨ t = n) E' := by
  intro x hx hxE
  have h1 : x ∉ E := fun k => hxE ((hE x).mpr (Or.inl k))
  have h2 : x.1 ≠ n := fun k => hxE ((hE x).mpr (Or.inr k))
  have hA : A x.1 := hx.resolve_right h2
  obtain ⟨a, b, c, d⟩ := h x hA h1
  have h3 : (m.nbr x).1 ≠ n := fun k => hn (k ▸ a)
  rw [hnb x hA h1]
  refine ⟨Or.inl a, fun k => ((hE _).mp k).elim b h3, by rw [hnb _ a b]; exact c, fits_mk ?_ ?_⟩
  · rw [hc (lnext (m.nbr x)) h3, hc (lprev x) h2]; exact d.next
  · rw [hc (lprev (m.nbr x)) h3, hc (lnext x) h2]; exact d.prev

theorem Shut.sewn (h : Shut m A []) (h0 : ¬ A 0) (hp : Proper m A) : Sewn m A where
  dummy := h0
  proper := hp
  inside x hx := (h x hx (by simp)).1
  back x hx := (h x hx (by simp)).2.2.1
  fits x hx := (h x hx (by simp)).2.2.2

theorem Sewn.shut (h : Sewn m A) : Shut m A [] := fun x hx _ => ⟨h.inside x hx, by simp, h.back x hx, h.fits x hx⟩

theorem otri_cases {n : Nat} {x : Otri} (h : x.1 = n) : x = (n, 0) ∨ x = (n, 1) ∨ x = (n, 2) := by
  rcases x with ⟨t, o⟩
  obtain rfl : t = n := h
  rcases (by decide : ∀ o : Fin 3, o = 0 ∨ o = 1 ∨ o = 2) o with rfl | rfl | rfl <;> simp

/-- The top bounding triangle closes the gap. -/
theorem Gap.close (G : Gap m0 A V s ll lr ul ur) (hn : ¬ A n) (h0 : n ≠ 0) :
    Sewn (s.close n) (fun t => A t ∨ t = n) ∧ (∀ v, V v ↔ IsCorner (s.close n) (fun t => A t ∨ t = n) v) ∧
      (∀ x : Otri, ¬ (A x.1 ∨ x.1 = n) → (s.close n).nbr x = m0.nbr x ∧ (s.close n).corner x = m0.corner x) ∧
      (∀ x : Otri, x.1 ≠ n → (s.close n).corner x = s.mesh.corner x) ∧ (s.close n).corner (n, 0) = none := by
  obtain ⟨m', hm⟩ : ∃ m', m' = s.close n := ⟨_, rfl⟩
  rw [← hm]
  have cf : m'.corner = Function.update (Function.update (s.mesh.maketriangle n).corner (n, 1) (some ll)) (n, 2) (some lr) := by
    rw [hm, ← G.vll, ← G.vlr]; rfl
  have nf : m'.nbr = Function.update (Function.update (Function.update (Function.update (Function.update (Function.update (s.mesh.maketriangle n).nbr (n, 0) s.base) s.base (n, 0)) (n, 1) s.right) s.right (n, 1)) (n, 2) s.left) s.left (n, 2) := by
    rw [hm]; rfl
  have nA : ∀ {y : Otri} {o : Fin 3}, A y.1 → y ≠ (n, o) := fun hy e => hn (by rw [e] at hy; exact hy)
  have b0 := nA (o := 0) G.ab
  have b1 := nA (o := 1) G.ab
  have b2 := nA (o := 2) G.ab
  have l0 := nA (o := 0) G.al
  have l1 := nA (o := 1) G.al
  have l2 := nA (o := 2) G.al
  have r0 := nA (o := 0) G.ar
  have r1 := nA (o := 1) G.ar
  have r2 := nA (o := 2) G.ar
  have bl := G.base_ne_left
  have br := G.base_ne_right
  have lr' := G.left_ne_right
  have d01 : ((n, 0) : Otri) ≠ (n, 1) := by simp
  have d02 : ((n, 0) : Otri) ≠ (n, 2) := by simp
  have d12 : ((n, 1) : Otri) ≠ (n, 2) := by simp
  obtain ⟨N1, N2, N3, N4, N5, N6, N7⟩ := upd6 (s.mesh.maketriangle n).nbr (a1 := (n, 0)) (a2 := s.base) (a3 := (n, 1)) (a4 := s.right) (a5 := (n, 2)) (a6 := s.left)
    (v1 := s.base) (v2 := (n, 0)) (v3 := s.right) (v4 := (n, 1)) (v5 := s.left) (v6 := (n, 2)) (by nodup)
  rw [← nf] at N1 N2 N3 N4 N5 N6 N7
  have c0 : m'.corner (n, 0) = none := by
    rw [cf, Function.update_of_ne d02, Function.update_of_ne d01]; simp [Heap.maketriangle]
  have c1 : m'.corner (n, 1) = some ll := by rw [cf, Function.update_of_ne d12, Function.update_self]
  have c2 : m'.corner (n, 2) = some lr := by rw [cf, Function.update_self]
  have co : ∀ x : Otri, x.1 ≠ n → m'.corner x = s.mesh.corner x := fun x hx => by
    rw [cf, Function.update_of_ne (fun e => hx (by have := congrArg Prod.fst e; exact this)), Function.update_of_ne (fun e => hx (by have := congrArg Prod.fst e; exact this))]
    simp [Heap.maketriangle, hx]
  have hb : s.base.1 ≠ n := fun e => hn (e ▸ G.ab)
  have hl : s.left.1 ≠ n := fun e => hn (e ▸ G.al)
  have hr : s.right.1 ≠ n := fun e => hn (e ▸ G.ar)
  have S1 : Shut m' (fun t => A t ∨ t = n) ((n, 0) :: s.base :: ((n, 1) :: s.right :: ((n, 2) :: s.left :: []))) := by
    refine G.shut.grow hn (fun x => ?_) (fun x hx hE => ?_) co
    · constructor
      · intro h
        simp only [List.mem_cons, List.not_mem_nil, or_false] at h ⊢
        rcases h with h | h | h | h | h | h <;> simp [h]
      · rintro (h | h)
        · simp only [List.mem_cons, List.not_mem_nil, or_false] at h ⊢
          rcases h with h | h | h <;> simp [h]
        · rcases otri_cases h with h | h | h <;> simp [h]
    · simp only [List.mem_cons, List.not_mem_nil, or_false, not_or] at hE
      rw [N7 x (nA hx) hE.1 (nA hx) hE.2.2 (nA hx) hE.2.1]
      simp only [Heap.maketriangle, if_neg (fun e : x.1 = n => hn (e ▸ hx))]
  have S2 := S1.seal (Or.inr rfl) (Or.inl G.ab) (by notin) (by notin) N1 N2 (by
    refine fits_mk ?_ ?_
    · rw [co (lnext s.base) hb, G.b1]; exact c2.symm
    · rw [co (lprev s.base) hb, G.b2]; exact c1.symm)
  have S3 := S2.seal (Or.inr rfl) (Or.inl G.ar) (by notin) (by notin) N3 N4 (by
    refine fits_mk ?_ ?_
    · rw [co (lnext s.right) hr, G.r2]; exact c0.symm
    · rw [co (lprev s.right) hr, G.r1]; exact c2.symm)
  have S4 := S3.seal (Or.inr rfl) (Or.inl G.al) (by simp) (by simp) N5 N6 (by
    refine fits_mk ?_ ?_
    · rw [co (lnext s.left) hl, G.l1]; exact c1.symm
    · rw [co (lprev s.left) hl, G.l2]; exact c0.symm)
  refine ⟨S4.sewn (fun h => h.elim G.dummy (Ne.symm h0)) ?_, ?_, ?_, co, c0⟩
  · intro t ht o o' e
    by_cases h : t = n
    · subst h
      exact proper_tri (m := m') (x := (t, 0)) (by rw [c0]; show _ ≠ m'.corner (t, 1); rw [c1]; simp) (by rw [c0]; show _ ≠ m'.corner (t, 2); rw [c2]; simp)
        (by show m'.corner (t, 1) ≠ m'.corner (t, 2); rw [c1, c2]; simpa using G.ll_ne) o o' e
    · rw [co (t, o) h, co (t, o') h] at e
      exact G.proper t (ht.resolve_right h) o o' e
  · intro v
    rw [G.verts v]
    constructor
    · rintro ⟨x, hx, e⟩
      exact ⟨x, Or.inl hx, by rw [co x (fun h => hn (h ▸ hx))]; exact e⟩
    · rintro ⟨x, hx, e⟩
      by_cases h : x.1 = n
      · rcases otri_cases h with rfl | rfl | rfl
        · rw [c0] at e; cases e
        · rw [c1] at e; exact ⟨lprev s.base, G.ab, G.b2.trans e⟩
        · rw [c2] at e; exact ⟨lnext s.base, G.ab, G.b1.trans e⟩
      · rw [co x h] at e
        exact ⟨x, hx.resolve_right h, e⟩
  · intro x hx
    have hA : ¬ A x.1 := fun h => hx (Or.inl h)
    have hN : x.1 ≠ n := fun h => hx (Or.inr h)
    have z : ∀ y : Otri, A y.1 → x ≠ y := fun y hy e => hA (e ▸ hy)
    have w : ∀ o : Fin 3, x ≠ (n, o) := fun o e => hN (by have := congrArg Prod.fst e; exact this)
    refine ⟨?_, (co x hN).trans (G.frame x hA).2⟩
    rw [N7 x (w 0) (z _ G.ab) (w 1) (z _ G.ar) (w 2) (z _ G.al)]
    simp only [Heap.maketriangle, if_neg hN]
    exact (G.frame x hA).1

/-- The bottom bounding triangle opens the gap. -/
theorem Sewn.start {il ir : Otri} {x y : Nat} (S : Sewn m A) (hn : ¬ A n) (h0 : n ≠ 0) (ai : A il.1) (ar : A ir.1)
    (o1 : m.org il = none) (e1 : m.dest il = some x) (e2 : m.org ir = some y) (o2 : m.dest ir = none) (hxy : x ≠ y) (d1 : il ≠ ir) (d2 : il ≠ m.nbr ir) :
    ∃ ul ur, Gap m (fun t => A t ∨ t = n) (IsCorner m A) (Knit.start m n il ir) x y ul ur ∧
      (∀ x : Otri, x.1 ≠ n → (Knit.start m n il ir).mesh.corner x = m.corner x) ∧ (Knit.start m n il ir).mesh.corner (n, 2) = none := by
  obtain ⟨s, hs⟩ : ∃ s, s = Knit.start m n il ir := ⟨_, rfl⟩
  have o1 : m.corner (lnext il) = none := o1
  have e1 : m.corner (lprev il) = some x := e1
  have e2 : m.corner (lnext ir) = some y := e2
  have o2 : m.corner (lprev ir) = none := o2
  obtain ⟨l, hl⟩ : ∃ l, l = m.nbr il := ⟨_, rfl⟩
  obtain ⟨r, hr⟩ : ∃ r, r = m.nbr ir := ⟨_, rfl⟩
  have al : A l.1 := hl ▸ S.inside il ai
  have ar' : A r.1 := hr ▸ S.inside ir ar
  have fl : Fits m il l := hl ▸ S.fits il ai
  have fr : Fits m ir r := hr ▸ S.fits ir ar
  have bl : m.nbr l = il := hl ▸ S.back il ai
  have br : m.nbr r = ir := hr ▸ S.back ir ar
  rw [← hr] at d2
  have d3 : l ≠ il := fun e => fits_other S.proper ai fl (by rw [e])
  have d4 : r ≠ ir := fun e => fits_other S.proper ar fr (by rw [e])
  have d5 : l ≠ ir := fun e => d2 (by rw [← bl, e, hr])
  have d6 : l ≠ r := fun e => d1 (by rw [← bl, e, br])
  have cf : s.mesh.corner = Function.update (Function.update (m.maketriangle n).corner (n, 0) (some y)) (n, 1) (some x) := by
    rw [hs, ← e1, ← e2]; simp [Knit.start, Heap.setorg, Heap.setdest, Heap.org, Heap.dest, lnext, lprev, Heap.bond]
  have nf : s.mesh.nbr = Function.update (Function.update (Function.update (Function.update (m.maketriangle n).nbr (n, 0) il) il (n, 0)) (n, 1) ir) ir (n, 1) := by
    rw [hs]; rfl
  have nA : ∀ {y : Otri} {o : Fin 3}, A y.1 → y ≠ (n, o) := fun hy e => hn (by rw [e] at hy; exact hy)
  have i0 := nA (o := 0) ai
  have i1 := nA (o := 1) ai
  have i2 := nA (o := 2) ai
  have j0 := nA (o := 0) ar
  have j1 := nA (o := 1) ar
  have j2 := nA (o := 2) ar
  have l0 := nA (o := 0) al
  have l1 := nA (o := 1) al
  have l2 := nA (o := 2) al
  have r0 := nA (o := 0) ar'
  have r1 := nA (o := 1) ar'
  have r2 := nA (o := 2) ar'
  have d01 : ((n, 0) : Otri) ≠ (n, 1) := by simp
  have d02 : ((n, 0) : Otri) ≠ (n, 2) := by simp
  have d12 : ((n, 1) : Otri) ≠ (n, 2) := by simp
  have N1 : s.mesh.nbr (n, 0) = il := by rw [nf, Function.update_of_ne (Ne.symm j0), Function.update_of_ne d01, Function.update_of_ne (Ne.symm i0), Function.update_self]
  have N2 : s.mesh.nbr il = (n, 0) := by rw [nf, Function.update_of_ne d1, Function.update_of_ne i1, Function.update_self]
  have N3 : s.mesh.nbr (n, 1) = ir := by rw [nf, Function.update_of_ne (Ne.symm j1), Function.update_self]
  have N4 : s.mesh.nbr ir = (n, 1) := by rw [nf, Function.update_self]
  have N5 : ∀ x : Otri, x.1 ≠ n → x ≠ il → x ≠ ir → s.mesh.nbr x = m.nbr x := fun x hx h1 h2 => by
    have w : ∀ o : Fin 3, x ≠ (n, o) := fun o e => hx (by have := congrArg Prod.fst e; exact this)
    rw [nf, upd4 _ (w 0) h1 (w 1) h2]
    simp [Heap.maketriangle, hx]
  have c0 : s.mesh.corner (n, 0) = some y := by rw [cf, Function.update_of_ne d01, Function.update_self]
  have c1 : s.mesh.corner (n, 1) = some x := by rw [cf, Function.update_self]
  have c2 : s.mesh.corner (n, 2) = none := by
    rw [cf, Function.update_of_ne (Ne.symm d12), Function.update_of_ne (Ne.symm d02)]; simp [Heap.maketriangle]
  have co : ∀ x : Otri, x.1 ≠ n → s.mesh.corner x = m.corner x := fun x hx => by
    rw [cf, Function.update_of_ne (fun e => hx (by have := congrArg Prod.fst e; exact this)), Function.update_of_ne (fun e => hx (by have := congrArg Prod.fst e; exact this))]
    simp [Heap.maketriangle, hx]
  have nil : il.1 ≠ n := fun e => hn (e ▸ ai)
  have nir : ir.1 ≠ n := fun e => hn (e ▸ ar)
  have nl : l.1 ≠ n := fun e => hn (e ▸ al)
  have nr : r.1 ≠ n := fun e => hn (e ▸ ar')
  have cl1 : m.corner (lnext l) = some x := by rw [fl.next, e1]
  have cl2 : m.corner (lprev l) = none := by rw [fl.prev, o1]
  have cr1 : m.corner (lprev r) = some y := by rw [fr.prev, e2]
  have cr2 : m.corner (lnext r) = none := by rw [fr.next, o2]
  obtain ⟨ul, hul⟩ : ∃ u, m.corner l = some u := by
    cases h : m.corner l with
    | some w => exact ⟨w, rfl⟩
    | none => exact absurd (by rw [h, cl2]) (S.proper.ne (x := lprev l) (y := l) al rfl (Ne.symm prev_ne))
  obtain ⟨ur, hur⟩ : ∃ u, m.corner r = some u := by
    cases h : m.corner r with
    | some w => exact ⟨w, rfl⟩
    | none => exact absurd (by rw [h, cr2]) (S.proper.ne (x := lnext r) (y := r) ar' rfl (Ne.symm next_ne))
  have eb : s.base = (n, 2) := by rw [hs]; rfl
  have el : s.left = l := by rw [hs, hl]; rfl
  have er : s.right = r := by rw [hs, hr]; rfl
  have S1 : Shut s.mesh (fun t => A t ∨ t = n) ((n, 0) :: il :: ((n, 1) :: ir :: [(n, 2), l, r])) := by
    have T := S.shut.cut (x := il) ai (by simp)
    rw [← hl] at T
    have T := T.cut (x := ir) ar (by notin)
    rw [← hr] at T
    refine T.grow hn (fun x => ?_) (fun x hx hE => ?_) co
    · constructor
      · intro h
        simp only [List.mem_cons, List.not_mem_nil, or_false] at h ⊢
        rcases h with h | h | h | h | h | h | h <;> simp [h]
      · rintro (h | h)
        · simp only [List.mem_cons, List.not_mem_nil, or_false] at h ⊢
          rcases h with h | h | h | h <;> simp [h]
        · rcases otri_cases h with h | h | h <;> simp [h]
    · simp only [List.mem_cons, List.not_mem_nil, or_false, not_or] at hE
      exact N5 x (fun e => hn (e ▸ hx)) hE.2.2.1 hE.1
  have S2 := S1.seal (Or.inr rfl) (Or.inl ai) (by notin) (by notin) N1 N2 (by
    refine fits_mk ?_ ?_
    · rw [co (lnext il) nil, o1]; exact c2.symm
    · rw [co (lprev il) nil, e1]; exact c1.symm)
  have S3 := S2.seal (Or.inr rfl) (Or.inl ar) (by notin) (by notin) N3 N4 (by
    refine fits_mk ?_ ?_
    · rw [co (lnext ir) nir, e2]; exact c0.symm
    · rw [co (lprev ir) nir, o2]; exact c2.symm)
  rw [← hs]
  refine ⟨ul, ur, ?_, co, c2⟩
  refine Gap.mk (dummy := fun h => h.elim S.dummy (Ne.symm h0)) (proper := ?gp) (shut := by rw [eb, el, er]; exact S3) (ab := by rw [eb]; exact Or.inr rfl) (al := by rw [el]; exact Or.inl al) (ar := by rw [er]; exact Or.inl ar')
    (vll := by rw [hs, ← e1]; rfl) (vlr := by rw [hs, ← e2]; rfl)
    (vul := ?gul) (vur := ?gur)
    (b1 := by rw [eb]; exact c0) (b2 := by rw [eb]; exact c1) (l0 := by rw [el, co l nl]; exact hul) (l1 := by rw [el, co (lnext l) nl]; exact cl1) (l2 := by rw [el, co (lprev l) nl]; exact cl2)
    (r0 := by rw [er, co r nr]; exact hur) (r1 := by rw [er, co (lprev r) nr]; exact cr1) (r2 := by rw [er, co (lnext r) nr]; exact cr2) (verts := ?gv) (frame := ?gf)
  case gul =>
    have : s.upperleft = s.mesh.corner s.left := by rw [hs]; rfl
    rw [this, el, co l nl]; exact hul
  case gur =>
    have : s.upperright = s.mesh.corner s.right := by rw [hs]; rfl
    rw [this, er, co r nr]; exact hur
  case gp =>
    intro t ht o o' e
    by_cases h : t = n
    · subst h
      exact proper_tri (m := s.mesh) (x := (t, 0)) (by rw [c0]; show _ ≠ s.mesh.corner (t, 1); rw [c1]; simpa using Ne.symm hxy) (by rw [c0]; show _ ≠ s.mesh.corner (t, 2); rw [c2]; simp)
        (by show s.mesh.corner (t, 1) ≠ s.mesh.corner (t, 2); rw [c1, c2]; simp) o o' e
    · rw [co (t, o) h, co (t, o') h] at e
      exact S.proper t (ht.resolve_right h) o o' e
  case gv =>
    intro v
    constructor
    · rintro ⟨x, hx, e⟩
      exact ⟨x, Or.inl hx, by rw [co x (fun h => hn (h ▸ hx))]; exact e⟩
    · rintro ⟨z, hz, e⟩
      by_cases h : z.1 = n
      · rcases otri_cases h with rfl | rfl | rfl
        · rw [c0] at e; exact ⟨lnext ir, ar, e2.trans e⟩
        · rw [c1] at e; exact ⟨lprev il, ai, e1.trans e⟩
        · rw [c2] at e; cases e
      · rw [co z h] at e
        exact ⟨z, hz.resolve_right h, e⟩
  case gf =>
    intro z hz
    have hA : ¬ A z.1 := fun h => hz (Or.inl h)
    have hN : z.1 ≠ n := fun h => hz (Or.inr h)
    exact ⟨N5 z hN (fun e => hA (e ▸ ai)) (fun e => hA (e ▸ ar)), co z hN⟩

theorem Upright.grow {z : Otri} (U : Upright pos m A) (h : ∀ x : Otri, x.1 ≠ z.1 → m'.corner x = m.corner x) (hz : m'.corner z = none) :
    Upright pos m' (fun t => A t ∨ t = z.1) := by
  intro x hx a b c ea eb ec
  have ea : m'.corner (lnext x) = some a := ea
  have eb : m'.corner (lprev x) = some b := eb
  have hx' : x.1 ≠ z.1 := fun e => by
    rcases edge_cases e.symm with k | k | k <;> rw [k] at hz
    · rw [ec] at hz; cases hz
    · rw [ea] at hz; cases hz
    · rw [eb] at hz; cases hz
  exact U x (hx.resolve_right hx') a b c ((h (lnext x) hx').symm.trans ea) ((h (lprev x) hx').symm.trans eb) ((h x hx').symm.trans ec)

theorem ccwV_some (a b c : Nat) : ccwV pos (some a) (some b) (some c) = .ok (turn (pos a) (pos b) (pos c)) := by
  simp [ccwV, deref, ccwDet_turn]

theorem incircle_other (a b c d : Pt K) : incircleDet a b d c = - incircleDet c a b d := by
  simp only [incircleDet]; ring

theorem incircle_cycle (a b c d : Pt K) : incircleDet a b c d = incircleDet c a b d := by
  simp only [incircleDet]; ring

/-- What a triangle on the right does. -/
theorem Gap.stitchRight (G : Gap m0 A V s ll lr ul ur) (U : Upright pos s.mesh A) (hp : 0 < turn (pos ur) (pos ll) (pos lr))
    (hw : ∀ w, s.mesh.corner (s.mesh.nbr (lnext s.right)) = some w → incircleDet (pos ll) (pos lr) (pos ur) (pos w) ≤ 0) :
    ∃ ur', Gap m0 A V s.knitRight ll ur ul ur' ∧ Upright pos s.knitRight.mesh A ∧ s.knitRight.mesh.corner s.knitRight.base = some lr ∧
      ∀ w, s.knitRight.mesh.corner (s.knitRight.mesh.nbr (lprev s.knitRight.base)) = some w → incircleDet (pos ll) (pos lr) (pos ur) (pos w) ≤ 0 := by
  have hne : ur ≠ ll := by rintro rfl; simp [turn] at hp
  have hne' : ur ≠ lr := by rintro rfl; simp [turn] at hp
  obtain ⟨w, hg⟩ := G.knitRight hne
  have ec : s.knitRight.mesh.corner = Function.update s.mesh.corner (lnext s.right) (some ll) := by
    rw [← pp, ← G.vll]; rfl
  have en : s.knitRight.mesh.nbr = Function.update (Function.update s.mesh.nbr s.base s.right) s.right s.base := rfl
  have eb : s.knitRight.base = lprev s.right := rfl
  refine ⟨w, hg, G.upRight U hp, ?_, ?_⟩
  · rw [eb, ec, Function.update_of_ne prev_ne_next]; exact G.r1
  · intro w h
    obtain ⟨-, k1, k2⟩ := G.behindRight hne
    have hb : lnext s.right ≠ s.base := fun e => by
      have := G.b2; rw [← e, pn, G.r0] at this; exact hne (Option.some.inj this)
    rw [eb, pp, en, Function.update_of_ne next_ne, Function.update_of_ne hb, ec, Function.update_of_ne] at h
    · exact hw w h
    · intro e
      rw [e, pn, G.r0] at k1
      exact hne' (Option.some.inj k1)

/-- What a triangle on the left does. -/
theorem Gap.stitchLeft (G : Gap m0 A V s ll lr ul ur) (U : Upright pos s.mesh A) (hp : 0 < turn (pos ul) (pos ll) (pos lr))
    (hw : ∀ w, s.mesh.corner (s.mesh.nbr (lprev s.left)) = some w → incircleDet (pos ll) (pos lr) (pos ul) (pos w) ≤ 0) :
    ∃ ul', Gap m0 A V s.knitLeft ul lr ul' ur ∧ Upright pos s.knitLeft.mesh A ∧ s.knitLeft.mesh.corner s.knitLeft.base = some ll ∧
      ∀ w, s.knitLeft.mesh.corner (s.knitLeft.mesh.nbr (lnext s.knitLeft.base)) = some w → incircleDet (pos ll) (pos lr) (pos ul) (pos w) ≤ 0 := by
  have hne : ul ≠ lr := by rintro rfl; simp [turn] at hp
  have hne' : ul ≠ ll := by rintro rfl; simp [turn] at hp
  obtain ⟨w, hg⟩ := G.knitLeft hne
  have ec : s.knitLeft.mesh.corner = Function.update s.mesh.corner (lprev s.left) (some lr) := by
    rw [← nn, ← G.vlr]; rfl
  have en : s.knitLeft.mesh.nbr = Function.update (Function.update s.mesh.nbr s.base s.left) s.left s.base := rfl
  have eb : s.knitLeft.base = lnext s.left := rfl
  refine ⟨w, hg, G.upLeft U hp, ?_, ?_⟩
  · rw [eb, ec, Function.update_of_ne (Ne.symm prev_ne_next)]; exact G.l1
  · intro w h
    obtain ⟨-, k1, k2⟩ := G.behindLeft hne
    have hb : lprev s.left ≠ s.base := fun e => by
      have := G.b1; rw [← e, np, G.l0] at this; exact hne (Option.some.inj this)
    rw [eb, nn, en, Function.update_of_ne prev_ne, Function.update_of_ne hb, ec, Function.update_of_ne] at h
    · exact hw w h
    · intro e
      rw [e, np, G.l0] at k1
      exact hne' (Option.some.inj k1)

/-- One round of the loop. -/
theorem Gap.round (fuel : Nat) (G : Gap m0 A V s ll lr ul ur) (U : Upright pos s.mesh A)
    (hnot : ¬ (turn (pos ul) (pos ll) (pos lr) ≤ 0 ∧ turn (pos ur) (pos ll) (pos lr) ≤ 0)) :
    ∃ r, s.round pos fuel (decide (turn (pos ul) (pos ll) (pos lr) ≤ 0)) (decide (turn (pos ur) (pos ll) (pos lr) ≤ 0)) = .ok r ∧
      ∀ s', r = some s' → ∃ ll' lr' ul' ur', Gap m0 A V s' ll' lr' ul' ur' ∧ Upright pos s'.mesh A ∧
        ((ll' = ll ∧ s'.mesh.corner s'.base = some lr ∧ 0 < turn (pos ll) (pos lr) (pos lr') ∧
            (∀ w, s'.mesh.corner (s'.mesh.nbr (lprev s'.base)) = some w → incircleDet (pos ll) (pos lr) (pos lr') (pos w) ≤ 0) ∧
            (0 < turn (pos ul) (pos ll) (pos lr) → incircleDet (pos ll) (pos lr) (pos lr') (pos ul') ≤ 0)) ∨
         (lr' = lr ∧ s'.mesh.corner s'.base = some ll ∧ 0 < turn (pos ll) (pos lr) (pos ll') ∧
            (∀ w, s'.mesh.corner (s'.mesh.nbr (lnext s'.base)) = some w → incircleDet (pos ll) (pos lr) (pos ll') (pos w) ≤ 0) ∧
            (0 < turn (pos ur) (pos ll) (pos lr) → incircleDet (pos ll) (pos lr) (pos ll') (pos ur') ≤ 0))) := by
  obtain ⟨fl, hfl⟩ : ∃ b, b = decide (turn (pos ul) (pos ll) (pos lr) ≤ 0) := ⟨_, rfl⟩
  obtain ⟨fr, hfr⟩ : ∃ b, b = decide (turn (pos ur) (pos ll) (pos lr) ≤ 0) := ⟨_, rfl⟩
  have il : fl = false ↔ 0 < turn (pos ul) (pos ll) (pos lr) := by rw [hfl]; simp
  have ir : fr = false ↔ 0 < turn (pos ur) (pos ll) (pos lr) := by rw [hfr]; simp
  have hnot' : fl = true → fr = false := fun h => by
    rw [ir]; by_contra k
    exact hnot ⟨by rw [h] at hfl; simpa using hfl.symm, not_lt.mp k⟩
  rw [← hfl, ← hfr]
  have rot : ∀ {a b c : Pt K}, 0 < turn c a b → 0 < turn a b c := fun h => by unfold turn at h ⊢; linarith
  unfold Knit.round
  obtain ⟨r1, e1, k1⟩ := G.trimLeft fuel fl U il.mp
  rw [e1]
  simp only [Outcome.bind_ok]
  cases r1 with
  | none => exact ⟨none, rfl, fun m' h => by cases h⟩
  | some s1 =>
    obtain ⟨ul1, u1, G1, U1, calm1, -⟩ := k1 s1 rfl
    obtain ⟨r2, e2, k2⟩ := G1.trimRight fuel fr U1 ir.mp
    simp only []
    rw [e2]
    simp only [Outcome.bind_ok]
    cases r2 with
    | none => exact ⟨none, rfl, fun m' h => by cases h⟩
    | some s2 =>
      obtain ⟨ur2, u2, G2, U2, calm2, keep2⟩ := k2 s2 rfl
      simp only []
      have right : fr = false → (fl = false → incircleDet (pos ll) (pos lr) (pos ur2) (pos ul1) ≤ 0) → ∃ ll' lr' ul' ur', Gap m0 A V s2.knitRight ll' lr' ul' ur' ∧ Upright pos s2.knitRight.mesh A ∧
          ll' = ll ∧ s2.knitRight.mesh.corner s2.knitRight.base = some lr ∧ 0 < turn (pos ll) (pos lr) (pos lr') ∧
            (∀ w, s2.knitRight.mesh.corner (s2.knitRight.mesh.nbr (lprev s2.knitRight.base)) = some w → incircleDet (pos ll) (pos lr) (pos lr') (pos w) ≤ 0) ∧
            (0 < turn (pos ul) (pos ll) (pos lr) → incircleDet (pos ll) (pos lr) (pos lr') (pos ul') ≤ 0) := fun h hd => by
        obtain ⟨w, g1, g2, g3, g4⟩ := G2.stitchRight U2 (u2 h) (calm2 h)
        exact ⟨ll, ur2, ul1, w, g1, g2, rfl, g3, rot (u2 h), g4, fun k => hd (il.mpr k)⟩
      have left : fl = false → (fr = false → incircleDet (pos ll) (pos lr) (pos ul1) (pos ur2) ≤ 0) → ∃ ll' lr' ul' ur', Gap m0 A V s2.knitLeft ll' lr' ul' ur' ∧ Upright pos s2.knitLeft.mesh A ∧
          lr' = lr ∧ s2.knitLeft.mesh.corner s2.knitLeft.base = some ll ∧ 0 < turn (pos ll) (pos lr) (pos ll') ∧
            (∀ w, s2.knitLeft.mesh.corner (s2.knitLeft.mesh.nbr (lnext s2.knitLeft.base)) = some w → incircleDet (pos ll) (pos lr) (pos ll') (pos w) ≤ 0) ∧
            (0 < turn (pos ur) (pos ll) (pos lr) → incircleDet (pos ll) (pos lr) (pos ll') (pos ur') ≤ 0) := fun h hd => by
        have hp := u1 h
        have hne : ul1 ≠ lr := by rintro rfl; simp [turn] at hp
        obtain ⟨w, g1, g2, g3, g4⟩ := G2.stitchLeft U2 hp (fun w hw => calm1 h w (by rw [← keep2 hne]; exact hw))
        exact ⟨ul1, lr, w, ur2, g1, g2, rfl, g3, rot hp, g4, fun k => hd (ir.mpr k)⟩
      unfold Knit.advance
      cases fl with
      | true =>
        obtain ⟨a, b, c, d, g⟩ := right (hnot' rfl) (fun h => by cases h)
        refine ⟨_, rfl, fun s' h => ?_⟩
        obtain rfl := Option.some.inj h
        exact ⟨a, b, c, d, g.1, g.2.1, Or.inl g.2.2⟩
      | false =>
        cases fr with
        | true =>
          obtain ⟨a, b, c, d, g⟩ := left rfl (fun h => by cases h)
          refine ⟨_, rfl, fun s' h => ?_⟩
          obtain rfl := Option.some.inj h
          exact ⟨a, b, c, d, g.1, g.2.1, Or.inr g.2.2⟩
        | false =>
          rw [if_neg (by simp), if_neg (by simp), G2.vul, G2.vll, G2.vlr, G2.vur]
          simp only [incircleV, deref, Outcome.bind_ok]
          by_cases hc : 0 < incircleDet (pos ul1) (pos ll) (pos lr) (pos ur2)
          · rw [if_pos hc]
            obtain ⟨a, b, c, d, g⟩ := right rfl (fun _ => by rw [incircle_other]; linarith)
            refine ⟨_, rfl, fun s' h => ?_⟩
            obtain rfl := Option.some.inj h
            exact ⟨a, b, c, d, g.1, g.2.1, Or.inl g.2.2⟩
          · rw [if_neg hc]
            obtain ⟨a, b, c, d, g⟩ := left rfl (fun _ => by rw [incircle_cycle]; exact not_lt.mp hc)
            refine ⟨_, rfl, fun s' h => ?_⟩
            obtain rfl := Option.some.inj h
            exact ⟨a, b, c, d, g.1, g.2.1, Or.inr g.2.2⟩

theorem Gap.loop (hn : ¬ A n) (h0 : n ≠ 0) : ∀ (fuel : Nat) (s : Knit) (ll lr ul ur : Nat), Gap m0 A V s ll lr ul ur → Upright pos s.mesh A →
    ∃ r, s.loop pos n fuel = .ok r ∧ ∀ m', r = some m' →
      Sewn m' (fun t => A t ∨ t = n) ∧ (∀ v, V v ↔ IsCorner m' (fun t => A t ∨ t = n) v) ∧
      (∀ x : Otri, ¬ (A x.1 ∨ x.1 = n) → m'.nbr x = m0.nbr x ∧ m'.corner x = m0.corner x) ∧ Upright pos m' (fun t => A t ∨ t = n) := by
  intro fuel
  induction fuel with
  | zero => intro s ll lr ul ur G U; exact ⟨none, rfl, fun m' h => by cases h⟩
  | succ fuel ih =>
    intro s ll lr ul ur G U
    unfold Knit.loop
    rw [G.vul, G.vll, G.vlr, G.vur, ccwV_some, ccwV_some]
    simp only [Outcome.bind_ok]
    by_cases hfin : turn (pos ul) (pos ll) (pos lr) ≤ 0 ∧ turn (pos ur) (pos ll) (pos lr) ≤ 0
    · rw [if_pos (by simpa using hfin)]
      refine ⟨_, rfl, fun m' h => ?_⟩
      obtain rfl := Option.some.inj h
      obtain ⟨h1, h2, h3, h4, h5⟩ := G.close hn h0
      exact ⟨h1, h2, h3, U.grow (z := (n, 0)) h4 h5⟩
    · rw [if_neg (by simpa using hfin)]
      obtain ⟨r, e, k⟩ := G.round fuel U hfin
      rw [e]
      simp only [Outcome.bind_ok]
      cases r with
      | none => exact ⟨none, rfl, fun m' h => by cases h⟩
      | some s' =>
        obtain ⟨a, b, c, d, G', U', -⟩ := k s' rfl
        exact ih s' a b c d G' U'

end Delynoi.Tri
