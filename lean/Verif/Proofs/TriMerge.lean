import Verif.Proofs.TriGhost
import Verif.Model.TriMerge
import Verif.Spec.TriMerge
import Mathlib.Tactic.Ring
/-!
# Meshes with a few open edges
-/
set_option linter.unusedSectionVars false
namespace Delynoi.Tri

theorem nn {x : Otri} : lnext (lnext x) = lprev x := by
  rcases x with ⟨t, o⟩
  exact Prod.ext rfl ((by decide : ∀ o : Fin 3, o + 1 + 1 = o + 2) o)
theorem pp {x : Otri} : lprev (lprev x) = lnext x := lprev_ghost
theorem np {x : Otri} : lnext (lprev x) = x := lnext_lprev'
theorem pn {x : Otri} : lprev (lnext x) = x := by
  rcases x with ⟨t, o⟩
  exact Prod.ext rfl ((by decide : ∀ o : Fin 3, o + 1 + 2 = o) o)
theorem next_ne {x : Otri} : lnext x ≠ x := fun h => (by decide : ∀ o : Fin 3, o + 1 ≠ o) x.2 (congrArg Prod.snd h)
theorem prev_ne {x : Otri} : lprev x ≠ x := fun h => (by decide : ∀ o : Fin 3, o + 2 ≠ o) x.2 (congrArg Prod.snd h)
theorem prev_ne_next {x : Otri} : lprev x ≠ lnext x := fun h => (by decide : ∀ o : Fin 3, o + 2 ≠ o + 1) x.2 (congrArg Prod.snd h)
theorem next_inj {x y : Otri} : lnext x = lnext y ↔ x = y := ⟨fun h => by rw [← pn (x := x), h, pn], fun h => by rw [h]⟩
theorem prev_inj {x y : Otri} : lprev x = lprev y ↔ x = y := ⟨fun h => by rw [← np (x := x), h, np], fun h => by rw [h]⟩

theorem edge_cases {x y : Otri} (h : y.1 = x.1) : y = x ∨ y = lnext x ∨ y = lprev x := by
  rcases x with ⟨t, o⟩
  rcases y with ⟨t', o'⟩
  obtain rfl : t' = t := h
  rcases (by decide : ∀ o o' : Fin 3, o' = o ∨ o' = o + 1 ∨ o' = o + 2) o o' with rfl | rfl | rfl
  exacts [Or.inl rfl, Or.inr (Or.inl rfl), Or.inr (Or.inr rfl)]

theorem fits_mk {m : Heap} {x y : Otri} (h1 : m.corner (lnext y) = m.corner (lprev x)) (h2 : m.corner (lprev y) = m.corner (lnext x)) : Fits m x y := ⟨h1, h2⟩
theorem fits_mk' {m : Heap} {x y : Otri} (h2 : m.corner (lprev y) = m.corner (lnext x)) (h1 : m.corner (lnext y) = m.corner (lprev x)) : Fits m x y := ⟨h1, h2⟩
theorem Fits.next {m : Heap} {x y : Otri} (h : Fits m x y) : m.corner (lnext y) = m.corner (lprev x) := h.1
theorem Fits.prev {m : Heap} {x y : Otri} (h : Fits m x y) : m.corner (lprev y) = m.corner (lnext x) := h.2
theorem Fits.flip {m : Heap} {x y : Otri} (h : Fits m x y) : Fits m y x := ⟨h.2.symm, h.1.symm⟩

theorem Proper.ne {m : Heap} {A : Nat → Prop} (P : Proper m A) {x y : Otri} (hx : A x.1) (h : y.1 = x.1) (hne : y ≠ x) : m.corner y ≠ m.corner x := by
  intro e
  refine hne (Prod.ext h (P x.1 hx y.2 x.2 ?_))
  rw [← h]
  show m.corner y = _
  rw [e, h]

theorem fits_other {m : Heap} {A : Nat → Prop} (P : Proper m A) {x y : Otri} (hx : A x.1) (h : Fits m x y) : y.1 ≠ x.1 := by
  intro e
  rcases edge_cases e with rfl | rfl | rfl
  · exact P.ne (x := lprev y) (y := lnext y) hx rfl (Ne.symm prev_ne_next) h.next
  · have := h.prev
    rw [pn] at this
    exact P.ne (x := lnext x) (y := x) hx rfl (Ne.symm next_ne) this
  · have := h.next
    rw [np] at this
    exact P.ne (x := lprev x) (y := x) hx rfl (Ne.symm prev_ne) this

variable {m m' : Heap} {A : Nat → Prop} {E E' : List Otri}

theorem Shut.congr (h : Shut m A E) (he : ∀ x, x ∈ E ↔ x ∈ E') : Shut m A E' := by
  intro x hx hn
  obtain ⟨a, b, c⟩ := h x hx (fun k => hn ((he x).mp k))
  exact ⟨a, fun k => b ((he _).mpr k), c⟩

theorem Shut.free (h : Shut m A E) (hn : ∀ x : Otri, A x.1 → x ∉ E → m'.nbr x = m.nbr x)
    (hc : ∀ x : Otri, A x.1 → x ∉ E → m'.corner (lnext x) = m.corner (lnext x) ∧ m'.corner (lprev x) = m.corner (lprev x)) : Shut m' A E := by
  intro x hx hE
  obtain ⟨a, b, c, d⟩ := h x hx hE
  rw [hn x hx hE]
  refine ⟨a, b, by rw [hn _ a b]; exact c, ?_⟩
  obtain ⟨c1, c2⟩ := hc x hx hE
  obtain ⟨c3, c4⟩ := hc _ a b
  exact fits_mk (by rw [c3, c2]; exact d.next) (by rw [c4, c1]; exact d.prev)

theorem Shut.cut (h : Shut m A E) {x : Otri} (hx : A x.1) (hE : x ∉ E) : Shut m A (x :: m.nbr x :: E) := by
  intro z hz hn
  simp only [List.mem_cons, not_or] at hn
  obtain ⟨h1, h2, h3⟩ := hn
  obtain ⟨a, b, c, d⟩ := h z hz h3
  obtain ⟨-, -, c', -⟩ := h x hx hE
  refine ⟨a, ?_, c, d⟩
  simp only [List.mem_cons, not_or]
  refine ⟨fun e => h2 ?_, fun e => h1 ?_, b⟩
  · rw [← c, e]
  · rw [← c, e, c']

theorem Shut.seal {x y : Otri} (h : Shut m A (x :: y :: E)) (hx : A x.1) (hy : A y.1) (hxE : x ∉ E) (hyE : y ∉ E)
    (h1 : m.nbr x = y) (h2 : m.nbr y = x) (hf : Fits m x y) : Shut m A E := by
  intro z hz hn
  by_cases e1 : z = x
  · subst e1
    rw [h1]
    exact ⟨hy, hyE, h2, hf⟩
  by_cases e2 : z = y
  · subst e2
    rw [h2]
    exact ⟨hx, hxE, h1, hf.flip⟩
  obtain ⟨a, b, c, d⟩ := h z hz (by simp only [List.mem_cons, not_or]; exact ⟨e1, e2, hn⟩)
  simp only [List.mem_cons, not_or] at b
  exact ⟨a, b.2.2, c, d⟩

section
variable {m0 : Heap} {V : Nat → Prop} {s : Knit} {ll lr ul ur : Nat}

theorem Gap.ll_ne (G : Gap m0 A V s ll lr ul ur) : ll ≠ lr := by
  rintro rfl
  exact G.proper.ne (x := lprev s.base) (y := lnext s.base) G.ab rfl (Ne.symm prev_ne_next) (by rw [G.b1, G.b2])

theorem Gap.base_ne_left (G : Gap m0 A V s ll lr ul ur) : s.base ≠ s.left := fun h => by
  have := G.b2; rw [h, G.l2] at this; cases this

theorem Gap.base_ne_right (G : Gap m0 A V s ll lr ul ur) : s.base ≠ s.right := fun h => by
  have := G.b1; rw [h, G.r2] at this; cases this

theorem Gap.left_ne_right (G : Gap m0 A V s ll lr ul ur) : s.left ≠ s.right := fun h => by
  have := G.l1; rw [h, G.r2] at this; cases this

/-- If both candidates belong to the same triangle, then its corners are the ends of the base edge. -/
theorem Gap.same (G : Gap m0 A V s ll lr ul ur) (h : s.left.1 = s.right.1) : ul = lr ∧ ur = ll := by
  have e : lprev s.left = lnext s.right := by
    by_contra hne
    exact G.proper.ne (x := lnext s.right) (y := lprev s.left) G.ar h hne (by rw [G.l2, G.r2])
  have e1 : lnext s.left = s.right := by rw [← pp, e, pn]
  have e2 : s.left = lprev s.right := by rw [← nn, ← e, np]
  constructor
  · have := G.l0; rw [e2, G.r1] at this; exact (Option.some.inj this).symm
  · have := G.l1; rw [e1, G.r0] at this; exact Option.some.inj this

end

end Delynoi.Tri
