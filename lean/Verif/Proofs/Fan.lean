import Verif.Spec.Triangulation
import Mathlib.Data.Set.Card
import Mathlib.Tactic.Tauto
/-! Helper lemmas: walking around a vertex of a triangulation (no code involved). -/
namespace Delynoi

/-- Triangle number `t` has the side `va`. -/
def HasSide (tris : List (Int × Int × Int)) (v a : Int) (t : Nat) : Prop :=
  ∃ tt, tris[t]? = some tt ∧ s(v, a) ∈ sides tt

/-- Vertices of each triangle are different. -/
def ProperTris (tris : List (Int × Int × Int)) : Prop :=
  ∀ t ∈ tris, t.1 ≠ t.2.1 ∧ t.2.1 ≠ t.2.2 ∧ t.2.2 ≠ t.1

/-- Of three triangles with the same side two are equal. -/
def TwoSided (tris : List (Int × Int × Int)) : Prop :=
  ∀ (v x : Int) (t1 t2 t3 : Nat), HasSide tris v x t1 → HasSide tris v x t2 → HasSide tris v x t3 →
    t1 = t2 ∨ t2 = t3 ∨ t1 = t3

theorem mem_sides_iff {tt : Int × Int × Int} (hp : tt.1 ≠ tt.2.1 ∧ tt.2.1 ≠ tt.2.2 ∧ tt.2.2 ≠ tt.1)
    (v a : Int) : s(v, a) ∈ sides tt ↔ v ∈ verts tt ∧ a ∈ verts tt ∧ v ≠ a := by
  obtain ⟨x, y, z⟩ := tt
  simp only at hp
  obtain ⟨h1, h2, h3⟩ := hp
  simp only [sides, verts, List.mem_cons, List.not_mem_nil, or_false, Sym2.eq_iff]
  constructor
  · rintro ((⟨rfl, rfl⟩ | ⟨rfl, rfl⟩) | (⟨rfl, rfl⟩ | ⟨rfl, rfl⟩) | (⟨rfl, rfl⟩ | ⟨rfl, rfl⟩)) <;>
      simp [*, Ne.symm, h1.symm, h2.symm, h3.symm]
  · rintro ⟨rfl | rfl | rfl, rfl | rfl | rfl, h⟩ <;> first | exact absurd rfl h | tauto

theorem Fan3.side {tris : List (Int × Int × Int)} (hp : ProperTris tris) {v a b : Int} {t : Nat}
    (h : Fan3 tris v a b t) (x : Int) : HasSide tris v x t ↔ x = a ∨ x = b := by
  obtain ⟨h1, h2, h3, tt, ht, hm⟩ := h
  have hpt := hp tt (List.mem_of_getElem? ht)
  constructor
  · rintro ⟨tt', ht', hs⟩
    rw [ht] at ht'; obtain rfl := Option.some.inj ht'
    obtain ⟨_, hx, hne⟩ := (mem_sides_iff hpt v x).1 hs
    rcases (hm x).1 hx with h | h | h
    · exact absurd h.symm hne
    · exact Or.inl h
    · exact Or.inr h
  · intro hx
    refine ⟨tt, ht, (mem_sides_iff hpt v x).2 ⟨(hm v).2 (Or.inl rfl), (hm x).2 (Or.inr hx), ?_⟩⟩
    rcases hx with rfl | rfl
    · exact h1
    · exact h2

theorem Fan3.symm {tris : List (Int × Int × Int)} {v a b : Int} {t : Nat} (h : Fan3 tris v a b t) :
    Fan3 tris v b a t := by
  obtain ⟨h1, h2, h3, tt, ht, hm⟩ := h
  exact ⟨h2, h1, h3.symm, tt, ht, fun x => (hm x).trans (by tauto)⟩

/-- A triangle with the side `va` has a third vertex. -/
theorem HasSide.third {tris : List (Int × Int × Int)} (hp : ProperTris tris) {v a : Int} {t : Nat}
    (h : HasSide tris v a t) : ∃ b, Fan3 tris v a b t := by
  obtain ⟨tt, ht, hs⟩ := h
  have hpt := hp tt (List.mem_of_getElem? ht)
  obtain ⟨hv, ha, hne⟩ := (mem_sides_iff hpt v a).1 hs
  obtain ⟨x, y, z⟩ := tt
  simp only [verts, List.mem_cons, List.not_mem_nil, or_false] at hv ha hpt
  obtain ⟨h1, h2, h3⟩ := hpt
  rcases hv with rfl | rfl | rfl <;> rcases ha with rfl | rfl | rfl <;>
    first
    | exact absurd rfl hne
    | (refine ⟨x, hne, ?_, ?_, _, ht, ?_⟩ <;> first | tauto | (intro w; simp only [verts, List.mem_cons, List.not_mem_nil, or_false] <;> tauto))
    | (refine ⟨y, hne, ?_, ?_, _, ht, ?_⟩ <;> first | tauto | (intro w; simp only [verts, List.mem_cons, List.not_mem_nil, or_false] <;> tauto))
    | (refine ⟨z, hne, ?_, ?_, _, ht, ?_⟩ <;> first | tauto | (intro w; simp only [verts, List.mem_cons, List.not_mem_nil, or_false] <;> tauto))

/-- A walk around `v` that entered triangle `t0` over the edge `v a0`: the flags visited, latest
first, and the neighbour at the far side of the latest triangle. -/
inductive Fan (tris : List (Int × Int × Int)) (v a0 : Int) (t0 : Nat) :
    List (Int × Nat) → Int → Prop
  | one {b : Int} : Fan3 tris v a0 b t0 → Fan tris v a0 t0 [(a0, t0)] b
  | step {a b c : Int} {t t' : Nat} {p : List (Int × Nat)} : Fan tris v a0 t0 ((a, t) :: p) b →
      b ≠ a0 → t' ≠ t → Fan3 tris v b c t' → Fan tris v a0 t0 ((b, t') :: (a, t) :: p) c

section
variable {tris : List (Int × Int × Int)} {v a0 : Int} {t0 : Nat}

theorem Fan.head {a b : Int} {t : Nat} {p : List (Int × Nat)}
    (h : Fan tris v a0 t0 ((a, t) :: p) b) : Fan3 tris v a b t := by
  cases h with
  | one h => exact h
  | step _ _ _ h => exact h

/-- Invariant of walks. -/
structure FanInv (tris : List (Int × Int × Int)) (v a0 : Int) (t0 : Nat) (p : List (Int × Nat))
    (b : Int) : Prop where
  nodup : (p.map Prod.snd).Nodup
  fresh : ∀ x ∈ p.map Prod.fst, x = b → x = a0
  far : ∀ f ∈ p, ∃ y, Fan3 tris v f.1 y f.2 ∧ ((p.head? = some f ∧ y = b) ∨
    (y ∈ p.map Prod.fst ∧ y ≠ a0))
  two : ∀ x ∈ p.map Prod.fst, x ≠ a0 → ∃ t ∈ p.map Prod.snd, ∃ t' ∈ p.map Prod.snd, t ≠ t' ∧
    HasSide tris v x t ∧ HasSide tris v x t'
  start : (a0, t0) ∈ p

theorem Fan.inv (hp : ProperTris tris) (h2 : TwoSided tris) {p : List (Int × Nat)} {b : Int}
    (h : Fan tris v a0 t0 p b) : FanInv tris v a0 t0 p b := by
  induction h with
  | one h =>
    refine ⟨by simp, ?_, ?_, ?_, by simp⟩
    · intro x hx hb; simp at hx; exact hx
    · intro f hf; simp at hf; subst hf; exact ⟨_, h, Or.inl ⟨rfl, rfl⟩⟩
    · intro x hx hne; simp at hx; exact absurd hx hne
  | @step a b c t t' p hF hne htne h3 ih =>
    have hhead := hF.head
    have hside : HasSide tris v b t' := (h3.side hp b).2 (Or.inl rfl)
    have hnew : t' ∉ ((a, t) :: p).map Prod.snd := by
      intro hm
      obtain ⟨f, hf, hft⟩ := List.mem_map.1 hm
      obtain ⟨y, hy, hcase⟩ := ih.far f hf
      rw [hft] at hy
      rcases (hy.side hp b).1 hside with hb | hb
      · exact hne (hb.trans (ih.fresh f.1 (List.mem_map_of_mem hf) hb.symm))
      · rcases hcase with ⟨hh, _⟩ | ⟨hh, hh0⟩
        · simp at hh; rw [← hh] at hft; exact htne hft.symm
        · rw [← hb] at hh; exact hne (ih.fresh b hh rfl)
    refine ⟨?_, ?_, ?_, ?_, by simp [ih.start]⟩
    · simp only [List.map_cons]
      rw [List.nodup_cons]
      exact ⟨hnew, ih.nodup⟩
    · intro x hx hxc
      rw [List.map_cons, List.mem_cons] at hx
      rcases hx with hx | hx
      · simp only at hx; exact absurd (hx.symm.trans hxc) h3.2.2.1
      · by_contra hxa
        obtain ⟨s1, hs1, s2, hs2, hs12, g1, g2⟩ := ih.two x hx hxa
        have g3 : HasSide tris v x t' := (h3.side hp x).2 (Or.inr hxc)
        rcases h2 v x s1 s2 t' g1 g2 g3 with h | h | h
        · exact hs12 h
        · exact hnew (h ▸ hs2)
        · exact hnew (h ▸ hs1)
    · intro f hf
      rcases List.mem_cons.1 hf with rfl | hf
      · exact ⟨c, h3, Or.inl ⟨rfl, rfl⟩⟩
      · obtain ⟨y, hy, hcase⟩ := ih.far f hf
        refine ⟨y, hy, Or.inr ?_⟩
        rcases hcase with ⟨_, hh⟩ | ⟨hh, hh0⟩
        · rw [hh]; exact ⟨by simp, hne⟩
        · exact ⟨by rw [List.map_cons]; exact List.mem_cons_of_mem _ hh, hh0⟩
    · intro x hx hxa
      rw [List.map_cons, List.mem_cons] at hx
      rcases hx with hx | hx
      · simp only at hx
        subst hx
        refine ⟨t, by simp, t', by simp, htne.symm, (hhead.side hp _).2 (Or.inr rfl), hside⟩
      · obtain ⟨s1, hs1, s2, hs2, hs12, g1, g2⟩ := ih.two x hx hxa
        exact ⟨s1, by rw [List.map_cons]; exact List.mem_cons_of_mem _ hs1, s2,
          by rw [List.map_cons]; exact List.mem_cons_of_mem _ hs2, hs12, g1, g2⟩

theorem Fan3.lt {a b : Int} {t : Nat} (h : Fan3 tris v a b t) : t < tris.length := by
  obtain ⟨_, _, _, tt, ht, _⟩ := h
  exact (List.getElem?_eq_some_iff.1 ht).1

theorem FanInv.length_le {p : List (Int × Nat)} {b : Int} (h : FanInv tris v a0 t0 p b) :
    p.length ≤ tris.length := by
  have hsub : (p.map Prod.snd) ⊆ List.range tris.length := by
    intro t ht
    obtain ⟨f, hf, rfl⟩ := List.mem_map.1 ht
    obtain ⟨y, hy, _⟩ := h.far f hf
    exact List.mem_range.2 hy.lt
  have := (List.subperm_of_subset h.nodup hsub).length_le
  simpa using this

/-- Triangles `t` and `t'` share an edge at `v`. -/
def AdjAt (tris : List (Int × Int × Int)) (v : Int) (t t' : Nat) : Prop :=
  ∃ x, HasSide tris v x t ∧ HasSide tris v x t'

/-- A finished walk: back at the first edge, or at an edge with a single triangle. -/
def FanDone (tris : List (Int × Int × Int)) (v a0 : Int) (t0 : Nat) (p : List (Int × Nat))
    (b : Int) : Prop :=
  b = a0 ∨ ((∀ t, HasSide tris v b t → (p.map Prod.snd).head? = some t) ∧
    ∀ t, HasSide tris v a0 t → t = t0)

/-- What is visited by a finished walk is closed under adjacency. -/
theorem Fan.closed (hp : ProperTris tris) (h2 : TwoSided tris) {p : List (Int × Nat)} {b : Int}
    (h : Fan tris v a0 t0 p b) (hd : FanDone tris v a0 t0 p b) {t t' : Nat}
    (ht : t ∈ p.map Prod.snd) (hadj : AdjAt tris v t t') : t' ∈ p.map Prod.snd := by
  have hi := h.inv hp h2
  obtain ⟨x, hx, hx'⟩ := hadj
  obtain ⟨f, hf, rfl⟩ := List.mem_map.1 ht
  obtain ⟨y, hy, hcase⟩ := hi.far f hf
  -- an inner edge
  have inner : ∀ x ∈ p.map Prod.fst, x ≠ a0 → HasSide tris v x t' → t' ∈ p.map Prod.snd := by
    intro x hxm hxa hxs
    obtain ⟨s1, hs1, s2, hs2, hs12, g1, g2⟩ := hi.two x hxm hxa
    rcases h2 v x s1 s2 t' g1 g2 hxs with h | h | h
    · exact absurd h hs12
    · exact h ▸ hs2
    · exact h ▸ hs1
  -- the head of the walk
  obtain ⟨a, tm, p', rfl⟩ : ∃ a tm p', p = (a, tm) :: p' := by
    cases h with
    | one _ => exact ⟨_, _, _, rfl⟩
    | step _ _ _ _ => exact ⟨_, _, _, rfl⟩
  have hhead := h.head
  have t0mem : t0 ∈ ((a, tm) :: p').map Prod.snd := by
    have := List.mem_map_of_mem (f := Prod.snd) hi.start
    exact this
  -- the far edge
  have farEdge : HasSide tris v b t' → t' ∈ ((a, tm) :: p').map Prod.snd := by
    intro hs
    rcases hd with hd | ⟨hd, _⟩
    · -- closed: the edge `v a0` belongs to the first and the last triangle
      subst hd
      obtain ⟨y0, hy0, hc0⟩ := hi.far _ hi.start
      have s0 : HasSide tris v b t0 := (hy0.side hp b).2 (Or.inl rfl)
      have sm : HasSide tris v b tm := (hhead.side hp b).2 (Or.inr rfl)
      have hne : t0 ≠ tm := by
        intro he
        have hb : a ≠ b := hhead.2.2.1
        have hmem := hi.start
        rcases List.mem_cons.1 hmem with hm | hm
        · exact hb (congrArg Prod.fst hm).symm
        · have hn := hi.nodup
          rw [List.map_cons, List.nodup_cons] at hn
          apply hn.1
          have := List.mem_map_of_mem (f := Prod.snd) hm
          simp only at this
          rw [he] at this; exact this
      rcases h2 v b t0 tm t' s0 sm hs with h | h | h
      · exact absurd h hne
      · rw [← h]; simp
      · rw [← h]; exact t0mem
    · have := hd t' hs
      simp at this
      rw [← this]; simp
  have nearEdge : HasSide tris v a0 t' → t' ∈ ((a, tm) :: p').map Prod.snd := by
    intro hs
    rcases hd with hd | ⟨_, hd⟩
    · rw [← hd] at hs; exact farEdge hs
    · rw [hd t' hs]; exact t0mem
  rcases (hy.side hp x).1 hx with rfl | rfl
  · by_cases hxa : f.1 = a0
    · rw [hxa] at hx'; exact nearEdge hx'
    · exact inner _ (List.mem_map_of_mem hf) hxa hx'
  · rcases hcase with ⟨_, rfl⟩ | ⟨hm, hm0⟩
    · exact farEdge hx'
    · exact inner _ hm hm0 hx'

theorem IsFan.snoc {v : Int} : ∀ {ns : List Int} {ts : List Nat} {b c : Int} {t : Nat},
    IsFan tris v (ns ++ [b]) ts → Fan3 tris v b c t → IsFan tris v (ns ++ [b, c]) (ts ++ [t]) := by
  intro ns
  induction ns with
  | nil =>
    intro ts b c t h h3
    cases ts with
    | nil => exact ⟨h3, trivial⟩
    | cons t' ts => exact absurd h (by simp [IsFan])
  | cons n ns ih =>
    intro ts b c t h h3
    cases ts with
    | nil =>
      cases ns with
      | nil => exact absurd h (by simp [IsFan])
      | cons m ns => exact absurd h (by simp [IsFan])
    | cons t' ts =>
      cases ns with
      | nil =>
        have h : Fan3 tris v n b t' ∧ IsFan tris v [b] ts := h
        exact ⟨h.1, ih h.2 h3⟩
      | cons m ns =>
        have h : Fan3 tris v n m t' ∧ IsFan tris v (m :: ns ++ [b]) ts := h
        exact ⟨h.1, ih h.2 h3⟩

/-- The walk in order of time is a fan. -/
theorem Fan.isFan {p : List (Int × Nat)} {b : Int} (h : Fan tris v a0 t0 p b) :
    IsFan tris v ((p.map Prod.fst).reverse ++ [b]) (p.map Prod.snd).reverse := by
  induction h with
  | one h => exact ⟨h, trivial⟩
  | @step a b c t t' p hF hne htne h3 ih =>
    simp only [List.map_cons, List.reverse_cons] at ih ⊢
    have := IsFan.snoc (ns := (p.map Prod.fst).reverse ++ [a]) ih h3
    simpa using this

theorem Fan.first {p : List (Int × Nat)} {b : Int} (h : Fan tris v a0 t0 p b) :
    ∃ p', p = p' ++ [(a0, t0)] := by
  induction h with
  | one h => exact ⟨[], rfl⟩
  | @step a b c t t' p hF hne htne h3 ih =>
    obtain ⟨p', hp'⟩ := ih
    exact ⟨(b, t') :: p', by rw [hp']; rfl⟩

end
end Delynoi
