import Verif.Proofs.TriMerge
import Mathlib.Tactic.Tauto
/-!
# Knitting two triangulations together: one edge
-/
set_option linter.unusedSectionVars false
namespace Delynoi.Tri
variable {m m' : Heap} {A : Nat → Prop} {m0 : Heap} {V : Nat → Prop} {s : Knit} {ll lr ul ur : Nat}

theorem proper_tri {x : Otri} (h1 : m.corner x ≠ m.corner (lnext x)) (h2 : m.corner x ≠ m.corner (lprev x)) (h3 : m.corner (lnext x) ≠ m.corner (lprev x)) :
    ∀ o o', m.corner (x.1, o) = m.corner (x.1, o') → o = o' := by
  intro o o' e
  have key : ∀ y z : Otri, y.1 = x.1 → z.1 = x.1 → m.corner y = m.corner z → y = z := by
    intro y z hy hz e
    rcases edge_cases hy with rfl | rfl | rfl <;> rcases edge_cases hz with rfl | rfl | rfl <;> first | rfl | exact absurd e (by assumption) | exact absurd e.symm (by assumption)
  exact congrArg Prod.snd (key (x.1, o) (x.1, o') rfl rfl e)

theorem Gap.knitRight (G : Gap m0 A V s ll lr ul ur) (hne : ur ≠ ll) : ∃ ur', Gap m0 A V s.knitRight ll ur ul ur' := by
  have hlr : s.left.1 ≠ s.right.1 := fun h => hne (G.same h).2
  have hrb : s.base ≠ lprev s.right := fun h => by
    have := G.b2; rw [h, pp, G.r2] at this; cases this
  have hb1 : s.base.1 ≠ s.right.1 := fun h => by
    rcases edge_cases h with e | e | e
    · exact G.base_ne_right e
    · have := G.b2; rw [e, pn, G.r0] at this; exact hne (Option.some.inj this)
    · exact hrb e
  have hrE : lprev s.right ∉ [s.base, s.left, s.right] := by
    simp only [List.mem_cons, List.not_mem_nil, or_false, not_or]
    exact ⟨Ne.symm hrb, fun h => hlr (by rw [← h]; rfl), prev_ne⟩
  obtain ⟨qa, qE, qb, qf⟩ := G.shut (lprev s.right) G.ar hrE
  have S1 := G.shut.cut (x := lprev s.right) G.ar hrE
  have hq : (s.mesh.nbr (lprev s.right)).1 ≠ s.right.1 := fits_other G.proper (x := lprev s.right) G.ar qf
  obtain ⟨q, hqe⟩ : ∃ q, q = s.mesh.nbr (lprev s.right) := ⟨_, rfl⟩
  rw [← hqe] at qa qE qb qf S1 hq
  simp only [List.mem_cons, List.not_mem_nil, or_false, not_or] at qE
  -- the new mesh
  obtain ⟨m', hm⟩ : ∃ m', m' = s.knitRight.mesh := ⟨_, rfl⟩
  have hm' : m' = (s.mesh.bond s.base s.right).setdest (lprev s.right) s.lowerleft := hm
  have nb : m'.nbr s.base = s.right := by
    rw [hm']; show Function.update (Function.update s.mesh.nbr s.base s.right) s.right s.base s.base = _
    rw [Function.update_of_ne G.base_ne_right, Function.update_self]
  have nr : m'.nbr s.right = s.base := by
    rw [hm']; show Function.update (Function.update s.mesh.nbr s.base s.right) s.right s.base s.right = _
    rw [Function.update_self]
  have no : ∀ y, y ≠ s.base → y ≠ s.right → m'.nbr y = s.mesh.nbr y := fun y h1 h2 => by
    rw [hm']; show Function.update (Function.update s.mesh.nbr s.base s.right) s.right s.base y = _
    rw [Function.update_of_ne h2, Function.update_of_ne h1]
  have c0 : m'.corner (lnext s.right) = some ll := by
    rw [hm', ← pp, ← G.vll]; exact Function.update_self ..
  have co : ∀ y, y ≠ lnext s.right → m'.corner y = s.mesh.corner y := fun y h => by
    rw [hm']; exact Function.update_of_ne (by rw [pp]; exact h) _ _
  have co1 : ∀ y : Otri, y.1 ≠ s.right.1 → m'.corner y = s.mesh.corner y := fun y h => co y (fun e => h (by rw [e]; rfl))
  have hq' : m'.nbr (lprev s.right) = q := by rw [hqe]; exact no _ (Ne.symm hrb) prev_ne
  have es : s.knitRight = { s with mesh := m', base := lprev s.right, lowerright := s.upperright, right := q, upperright := m'.corner q } := by
    rw [← hq', hm]; rfl
  have hnone : s.mesh.corner (lnext q) = none := by rw [qf.next, pp, G.r2]
  have hqr : s.mesh.corner (lprev q) = some ur := by rw [qf.prev, np, G.r0]
  obtain ⟨w, hw⟩ : ∃ w, m'.corner q = some w := by
    rw [co1 q hq]
    cases h : s.mesh.corner q with
    | some w => exact ⟨w, rfl⟩
    | none => exact absurd (by rw [h, hnone]) (G.proper.ne (x := lnext q) (y := q) qa rfl (Ne.symm next_ne))
  have cr : m'.corner s.right = some ur := by rw [co _ (Ne.symm next_ne)]; exact G.r0
  have crp : m'.corner (lprev s.right) = some lr := by rw [co _ (prev_ne_next)]; exact G.r1
  have hurlr : ur ≠ lr := by
    rintro rfl
    exact G.proper.ne (x := s.right) (y := lprev s.right) G.ar rfl prev_ne (by rw [G.r0, G.r1])
  refine ⟨w, ?_⟩
  rw [es]
  refine Gap.mk (dummy := G.dummy) (proper := ?gp) (shut := ?gs) (ab := G.ar) (al := G.al) (ar := qa) (vll := G.vll) (vlr := G.vur) (vul := G.vul) (vur := hw)
    (b1 := ?gb1) (b2 := ?gb2) (l0 := ?gl0) (l1 := ?gl1) (l2 := ?gl2) (r0 := hw) (r1 := ?gr1) (r2 := ?gr2) (verts := ?gv) (frame := ?gf)
  case gp =>
    intro t ht o o' e
    simp only at e
    by_cases h : t = s.right.1
    · subst h
      exact proper_tri (x := s.right) (by rw [cr, c0]; simpa using hne) (by rw [cr, crp]; simpa using hurlr)
        (by rw [c0, crp]; simpa using G.ll_ne) o o' e
    · rw [co1 (t, o) h, co1 (t, o') h] at e
      exact G.proper t ht o o' e
  case gs =>
    have S2 : Shut m' A (lprev s.right :: q :: [s.base, s.left, s.right]) := by
      refine S1.free (fun x _ hx => ?_) (fun x _ hx => ?_) <;> simp only [List.mem_cons, List.not_mem_nil, or_false, not_or] at hx
      · exact no x hx.2.2.1 hx.2.2.2.2
      · have z1 : x ≠ s.right := hx.2.2.2.2
        have z2 : x ≠ lprev s.right := hx.1
        exact ⟨co _ (fun h => z1 (next_inj.mp h)), co _ (fun h => z2 (prev_inj.mp (by rw [h, pp])))⟩
    have S3 : Shut m' A (s.base :: s.right :: [lprev s.right, s.left, q]) := S2.congr (fun x => by simp only [List.mem_cons, List.not_mem_nil, or_false]; tauto)
    refine S3.seal G.ab G.ar ?_ ?_ nb nr ?_
    · simp only [List.mem_cons, List.not_mem_nil, or_false, not_or]
      exact ⟨hrb, G.base_ne_left, Ne.symm qE.1⟩
    · simp only [List.mem_cons, List.not_mem_nil, or_false, not_or]
      exact ⟨Ne.symm prev_ne, Ne.symm G.left_ne_right, Ne.symm qE.2.2⟩
    · refine fits_mk ?_ ?_
      · rw [c0, co1 (lprev s.base) hb1, G.b2]
      · rw [crp, co1 (lnext s.base) hb1, G.b1]
  case gb1 =>
    show m'.corner (lnext (lprev s.right)) = _
    rw [np]; exact cr
  case gb2 =>
    show m'.corner (lprev (lprev s.right)) = _
    rw [pp]; exact c0
  case gl0 =>
    exact (co1 s.left hlr).trans G.l0
  case gl1 =>
    exact (co1 (lnext s.left) hlr).trans G.l1
  case gl2 =>
    exact (co1 (lprev s.left) hlr).trans G.l2
  case gr1 =>
    exact (co1 (lprev q) hq).trans hqr
  case gr2 =>
    exact (co1 (lnext q) hq).trans hnone
  case gv =>
    intro v
    rw [G.verts v]
    constructor
    · rintro ⟨x, hx, e⟩
      refine ⟨x, hx, ?_⟩
      show m'.corner x = _
      rw [co x (fun h => by rw [h, G.r2] at e; cases e)]
      exact e
    · rintro ⟨x, hx, e⟩
      have e : m'.corner x = some v := e
      by_cases h : x = lnext s.right
      · rw [h, c0] at e
        exact ⟨lprev s.base, G.ab, by rw [G.b2]; exact e⟩
      · rw [co x h] at e
        exact ⟨x, hx, e⟩
  case gf =>
    intro x hx
    have h1 : x ≠ s.base := fun h => hx (h ▸ G.ab)
    have h2 : x.1 ≠ s.right.1 := fun h => hx (h ▸ G.ar)
    exact ⟨(no x h1 (fun h => h2 (by rw [h]))).trans (G.frame x hx).1, (co1 x h2).trans (G.frame x hx).2⟩

theorem Gap.knitLeft (G : Gap m0 A V s ll lr ul ur) (hne : ul ≠ lr) : ∃ ul', Gap m0 A V s.knitLeft ul lr ul' ur := by
  have hlr : s.right.1 ≠ s.left.1 := fun h => hne (G.same h.symm).1
  have hrb : s.base ≠ lnext s.left := fun h => by
    have := G.b1; rw [h, nn, G.l2] at this; cases this
  have hb1 : s.base.1 ≠ s.left.1 := fun h => by
    rcases edge_cases h with e | e | e
    · exact G.base_ne_left e
    · exact hrb e
    · have := G.b1; rw [e, np, G.l0] at this; exact hne (Option.some.inj this)
  have hrE : lnext s.left ∉ [s.base, s.left, s.right] := by
    simp only [List.mem_cons, List.not_mem_nil, or_false, not_or]
    exact ⟨Ne.symm hrb, next_ne, fun h => hlr (by rw [← h]; rfl)⟩
  obtain ⟨qa, qE, qb, qf⟩ := G.shut (lnext s.left) G.al hrE
  have S1 := G.shut.cut (x := lnext s.left) G.al hrE
  have hq : (s.mesh.nbr (lnext s.left)).1 ≠ s.left.1 := fits_other G.proper (x := lnext s.left) G.al qf
  obtain ⟨q, hqe⟩ : ∃ q, q = s.mesh.nbr (lnext s.left) := ⟨_, rfl⟩
  rw [← hqe] at qa qE qb qf S1 hq
  simp only [List.mem_cons, List.not_mem_nil, or_false, not_or] at qE
  -- the new mesh
  obtain ⟨m', hm⟩ : ∃ m', m' = s.knitLeft.mesh := ⟨_, rfl⟩
  have hm' : m' = (s.mesh.bond s.base s.left).setorg (lnext s.left) s.lowerright := hm
  have nb : m'.nbr s.base = s.left := by
    rw [hm']; show Function.update (Function.update s.mesh.nbr s.base s.left) s.left s.base s.base = _
    rw [Function.update_of_ne G.base_ne_left, Function.update_self]
  have nr : m'.nbr s.left = s.base := by
    rw [hm']; show Function.update (Function.update s.mesh.nbr s.base s.left) s.left s.base s.left = _
    rw [Function.update_self]
  have no : ∀ y, y ≠ s.base → y ≠ s.left → m'.nbr y = s.mesh.nbr y := fun y h1 h2 => by
    rw [hm']; show Function.update (Function.update s.mesh.nbr s.base s.left) s.left s.base y = _
    rw [Function.update_of_ne h2, Function.update_of_ne h1]
  have c0 : m'.corner (lprev s.left) = some lr := by
    rw [hm', ← nn, ← G.vlr]; exact Function.update_self ..
  have co : ∀ y, y ≠ lprev s.left → m'.corner y = s.mesh.corner y := fun y h => by
    rw [hm']; exact Function.update_of_ne (by rw [nn]; exact h) _ _
  have co1 : ∀ y : Otri, y.1 ≠ s.left.1 → m'.corner y = s.mesh.corner y := fun y h => co y (fun e => h (by rw [e]; rfl))
  have hq' : m'.nbr (lnext s.left) = q := by rw [hqe]; exact no _ (Ne.symm hrb) next_ne
  have es : s.knitLeft = { s with mesh := m', base := lnext s.left, lowerleft := s.upperleft, left := q, upperleft := m'.corner q } := by
    rw [← hq', hm]; rfl
  have hnone : s.mesh.corner (lprev q) = none := by rw [qf.prev, nn, G.l2]
  have hqr : s.mesh.corner (lnext q) = some ul := by rw [qf.next, pn, G.l0]
  obtain ⟨w, hw⟩ : ∃ w, m'.corner q = some w := by
    rw [co1 q hq]
    cases h : s.mesh.corner q with
    | some w => exact ⟨w, rfl⟩
    | none => exact absurd (by rw [h, hnone]) (G.proper.ne (x := lprev q) (y := q) qa rfl (Ne.symm prev_ne))
  have cr : m'.corner s.left = some ul := by rw [co _ (Ne.symm prev_ne)]; exact G.l0
  have crp : m'.corner (lnext s.left) = some ll := by rw [co _ (Ne.symm prev_ne_next)]; exact G.l1
  have hurlr : ul ≠ ll := by
    rintro rfl
    exact G.proper.ne (x := s.left) (y := lnext s.left) G.al rfl next_ne (by rw [G.l0, G.l1])
  refine ⟨w, ?_⟩
  rw [es]
  refine Gap.mk (dummy := G.dummy) (proper := ?gp) (shut := ?gs) (ab := G.al) (ar := G.ar) (al := qa) (vlr := G.vlr) (vll := G.vul) (vur := G.vur) (vul := hw)
    (b2 := ?gb2) (b1 := ?gb1) (r0 := ?gr0) (r1 := ?gr1) (r2 := ?gr2) (l0 := hw) (l1 := ?gl1) (l2 := ?gl2) (verts := ?gv) (frame := ?gf)
  case gp =>
    intro t ht o o' e
    simp only at e
    by_cases h : t = s.left.1
    · subst h
      exact proper_tri (x := s.left) (by rw [cr, crp]; simpa using hurlr) (by rw [cr, c0]; simpa using hne)
        (by rw [crp, c0]; simpa using G.ll_ne) o o' e
    · rw [co1 (t, o) h, co1 (t, o') h] at e
      exact G.proper t ht o o' e
  case gs =>
    have S2 : Shut m' A (lnext s.left :: q :: [s.base, s.left, s.right]) := by
      refine S1.free (fun x _ hx => ?_) (fun x _ hx => ?_) <;> simp only [List.mem_cons, List.not_mem_nil, or_false, not_or] at hx
      · exact no x hx.2.2.1 hx.2.2.2.1
      · have z1 : x ≠ s.left := hx.2.2.2.1
        have z2 : x ≠ lnext s.left := hx.1
        exact ⟨co _ (fun h => z2 (next_inj.mp (by rw [h, nn]))), co _ (fun h => z1 (prev_inj.mp h))⟩
    have S3 : Shut m' A (s.base :: s.left :: [lnext s.left, q, s.right]) := S2.congr (fun x => by simp only [List.mem_cons, List.not_mem_nil, or_false]; tauto)
    refine S3.seal G.ab G.al ?_ ?_ nb nr ?_
    · simp only [List.mem_cons, List.not_mem_nil, or_false, not_or]
      exact ⟨hrb, Ne.symm qE.1, G.base_ne_right⟩
    · simp only [List.mem_cons, List.not_mem_nil, or_false, not_or]
      exact ⟨Ne.symm next_ne, Ne.symm qE.2.1, G.left_ne_right⟩
    · refine fits_mk' ?_ ?_
      · rw [c0, co1 (lnext s.base) hb1, G.b1]
      · rw [crp, co1 (lprev s.base) hb1, G.b2]
  case gb2 =>
    show m'.corner (lprev (lnext s.left)) = _
    rw [pn]; exact cr
  case gb1 =>
    show m'.corner (lnext (lnext s.left)) = _
    rw [nn]; exact c0
  case gr0 =>
    exact (co1 s.right hlr).trans G.r0
  case gr1 =>
    exact (co1 (lprev s.right) hlr).trans G.r1
  case gr2 =>
    exact (co1 (lnext s.right) hlr).trans G.r2
  case gl1 =>
    exact (co1 (lnext q) hq).trans hqr
  case gl2 =>
    exact (co1 (lprev q) hq).trans hnone
  case gv =>
    intro v
    rw [G.verts v]
    constructor
    · rintro ⟨x, hx, e⟩
      refine ⟨x, hx, ?_⟩
      show m'.corner x = _
      rw [co x (fun h => by rw [h, G.l2] at e; cases e)]
      exact e
    · rintro ⟨x, hx, e⟩
      have e : m'.corner x = some v := e
      by_cases h : x = lprev s.left
      · rw [h, c0] at e
        exact ⟨lnext s.base, G.ab, by rw [G.b1]; exact e⟩
      · rw [co x h] at e
        exact ⟨x, hx, e⟩
  case gf =>
    intro x hx
    have h1 : x ≠ s.base := fun h => hx (h ▸ G.ab)
    have h2 : x.1 ≠ s.left.1 := fun h => hx (h ▸ G.al)
    exact ⟨(no x h1 (fun h => h2 (by rw [h]))).trans (G.frame x hx).1, (co1 x h2).trans (G.frame x hx).2⟩

end Delynoi.Tri
