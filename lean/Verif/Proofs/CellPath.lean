import Verif.Proofs.CellLog
import Verif.Proofs.Cyc
/-! Helper lemmas: the sides of a Voronoi cell and the recorded edges. -/
set_option linter.unusedSectionVars false
namespace Delynoi
variable {K : Type} [Field K] [LinearOrder K] [IsStrictOrderedRing K]

theorem dropRepeats_cons2 (a b : Int) (l : List Int) : dropRepeats (a :: b :: l) =
    if a = b then dropRepeats (b :: l) else a :: dropRepeats (b :: l) := rfl

theorem hops_cons2 (a b : Int) (l : List Int) :
    hops (a :: b :: l) = (if a = b then [] else [(a, b)]) ++ hops (b :: l) := rfl

theorem dropRepeats_head : ∀ (l : List Int), (dropRepeats l).head? = l.head? := by
  intro l
  induction l with
  | nil => rfl
  | cons a l ih =>
    cases l with
    | nil => rfl
    | cons b l =>
      rw [dropRepeats_cons2]
      split
      · rename_i h; rw [ih, h]; rfl
      · rfl

theorem dropRepeats_ne {l : List Int} (h : l ≠ []) : dropRepeats l ≠ [] := by
  intro hc
  have := dropRepeats_head l
  rw [hc] at this
  cases l with
  | nil => exact h rfl
  | cons a l => simp at this

theorem dropRepeats_last : ∀ (l : List Int), (dropRepeats l).getLast? = l.getLast? := by
  intro l
  induction l with
  | nil => rfl
  | cons a l ih =>
    cases l with
    | nil => rfl
    | cons b l =>
      rw [dropRepeats_cons2]
      split
      · rw [ih]; simp
      · rw [List.getLast?_cons, ih, List.getLast?_cons (a := a) (l := b :: l)]

theorem dropRepeats_snoc : ∀ (l : List Int) (x : Int), dropRepeats (l ++ [x]) =
    if l.getLast? = some x then dropRepeats l else dropRepeats l ++ [x] := by
  intro l
  induction l with
  | nil => intro x; simp [dropRepeats]
  | cons a l ih =>
    intro x
    cases l with
    | nil =>
      show dropRepeats [a, x] = _
      rw [dropRepeats_cons2]
      by_cases h : a = x
      · rw [if_pos h, if_pos (by simp [h])]; subst h; rfl
      · rw [if_neg h, if_neg (by simpa using h)]; rfl
    | cons b l =>
      have e : (a :: b :: l) ++ [x] = a :: b :: (l ++ [x]) := rfl
      have e' : (b :: l) ++ [x] = b :: (l ++ [x]) := rfl
      have hl : (a :: b :: l).getLast? = (b :: l).getLast? := by simp
      rw [e, dropRepeats_cons2, ← e', ih, hl, dropRepeats_cons2]
      split <;> split <;> rfl

theorem hops_eq : ∀ (l : List Int), hops l = (dropRepeats l).zip (dropRepeats l).tail := by
  intro l
  induction l with
  | nil => rfl
  | cons a l ih =>
    cases l with
    | nil => rfl
    | cons b l =>
      rw [hops_cons2, dropRepeats_cons2, ih]
      split
      · rfl
      · have h := dropRepeats_head (b :: l)
        cases hd : dropRepeats (b :: l) with
        | nil => rw [hd] at h; simp at h
        | cons c D =>
          rw [hd] at h; simp at h; subst h
          rfl

theorem addNew_idem (acc : List Int) (a : Int) : addNew (addNew acc a) a = addNew acc a :=
  addNew_mem ((mem_addNew _ _ _).2 (Or.inr rfl))

theorem foldl_dropRepeats : ∀ (l acc : List Int), (dropRepeats l).foldl addNew acc = l.foldl addNew acc := by
  intro l
  induction l with
  | nil => intro acc; rfl
  | cons a l ih =>
    intro acc
    cases l with
    | nil => rfl
    | cons b l =>
      rw [dropRepeats_cons2]
      split
      · rename_i h
        rw [ih, h]
        simp only [List.foldl_cons]
        rw [addNew_idem]
      · rw [List.foldl_cons, ih]; rfl

theorem firsts_dropRepeats (l : List Int) : firsts (dropRepeats l) = firsts l := foldl_dropRepeats l []

theorem firsts_nodup {l : List Int} (h : l.Nodup) : firsts l = l := by
  induction l using List.reverseRecOn with
  | nil => rfl
  | append_singleton l x ih =>
    have hn := List.nodup_append.1 h
    rw [firsts_append, ih hn.1]
    unfold addNew
    rw [if_neg]
    intro hx
    exact hn.2.2 x hx x (by simp) rfl

theorem zip_tail_snoc : ∀ (D : List Int) (z x : Int), D.getLast? = some z →
    (D ++ [x]).zip (D ++ [x]).tail = D.zip D.tail ++ [(z, x)] := by
  intro D
  induction D with
  | nil => intro z x h; simp at h
  | cons a D ih =>
    intro z x h
    cases D with
    | nil => simp at h; subst h; rfl
    | cons b D =>
      have h' : (b :: D).getLast? = some z := by simpa using h
      have := ih z x h'
      simp only [List.cons_append, List.tail_cons, List.zip_cons_cons] at this ⊢
      rw [this]

/-- The sides of a polygon. -/
theorem cycPairs_zip {D : List Int} {a z : Int} (h : D.head? = some a) (hz : D.getLast? = some z) :
    cycPairs D = D.zip D.tail ++ [(z, a)] := by
  rw [← zip_tail_snoc D z a hz]
  cases D with
  | nil => simp at h
  | cons b D =>
    simp at h; subst h
    rw [cycPairs_cons]
    simp only [List.cons_append, List.tail_cons]
    rw [← List.cons_append]
    have hl : (b :: D).length = (D ++ [b]).length := by simp
    have := List.zip_append (l₁ := b :: D) (r₁ := [b]) (l₂ := D ++ [b]) (r₂ := []) hl
    rw [List.append_nil] at this
    rw [this]; simp

section
variable {tol : K} {out : TriOut K} {d : DelInfo K}

/-- All sides of a cell are recorded. -/
theorem shape_sides {l : List (Pt K)} {v a0 b : Int} {t0 : Nat} {p : List (Int × Nat)} {P : List Int}
    {ks : List (Int × Int)} (hsh : Shape tol out d l v a0 t0 p b P ks) {ns : List Int}
    (h0 : ns.head? = some a0) (hl : ns.getLast? = some b) (hn : NoReturn ns P) {e : Int × Int}
    (he : e ∈ cycPairs (firsts P)) (hne : e.1 ≠ e.2) : e ∈ ks := by
  unfold NoReturn at hn
  rw [h0, hl] at hn
  rw [← firsts_dropRepeats] at he
  cases hsh with
  | closed tm hb htm =>
    rw [if_pos (by rw [hb])] at hn
    rw [hops_eq]
    set P := circIx d tm :: (p.map Prod.snd).reverse.map (circIx d) with hP
    have hhead : (dropRepeats P).head? = some (circIx d tm) := by rw [dropRepeats_head, hP]; rfl
    have hlast : (dropRepeats P).getLast? = some (circIx d tm) := by
      rw [dropRepeats_last, hP]
      cases hp : p with
      | nil => rw [hp] at htm; simp at htm
      | cons f q =>
        rw [hp] at htm; simp at htm
        rw [List.map_cons, List.reverse_cons, List.map_append, htm, ← List.cons_append,
          List.getLast?_append]
        rfl
    cases hD : dropRepeats P with
    | nil => rw [hD] at hhead; simp at hhead
    | cons c R =>
      rw [hD] at hhead hn hlast he
      simp only [List.head?_cons, Option.some.injEq] at hhead
      subst hhead
      simp only [List.tail_cons] at hn
      rcases List.eq_nil_or_concat R with rfl | ⟨R', x, rfl⟩
      · exfalso
        simp [firsts, addNew, cycPairs] at he
        rw [he] at hne; exact hne rfl
      · have hx : x = circIx d tm := by
          rw [List.concat_eq_append, ← List.cons_append, List.getLast?_append] at hlast
          simpa using hlast
        subst hx
        rw [List.concat_eq_append] at he hn ⊢
        have hnd : (circIx d tm :: R').Nodup := by
          have := List.nodup_append.1 hn
          refine List.nodup_cons.2 ⟨fun hm => this.2.2 _ hm _ (by simp) rfl, this.1⟩
        have hf : firsts (circIx d tm :: (R' ++ [circIx d tm])) = circIx d tm :: R' := by
          rw [← List.cons_append, firsts_append, firsts_nodup hnd, addNew_mem (by simp)]
        rw [hf, cycPairs_cons] at he
        rw [List.tail_cons, ← List.cons_append]
        have : (circIx d tm :: R' ++ [circIx d tm]).zip (R' ++ [circIx d tm]) =
            (circIx d tm :: R').zip (R' ++ [circIx d tm]) := by
          have := List.zip_append (l₁ := circIx d tm :: R') (r₁ := [circIx d tm])
            (l₂ := R' ++ [circIx d tm]) (r₂ := []) (by simp)
          simpa using this
        rw [this]; exact he
  | flat i2 m last T Q qf ql c hb hs hm hg hT hT' hQ hlast =>
    rw [if_neg (by intro h; exact hb (Option.some.inj h).symm)] at hn
    rw [firsts_nodup hn] at he
    rw [← firsts_dropRepeats, firsts_nodup hn] at hlast
    have hhead : (dropRepeats P).head? = some i2 := by rw [dropRepeats_head, hQ]; rfl
    rw [cycPairs_zip hhead hlast, ← hops_eq] at he
    exact he
  | corner i2 m last ri T Q qf ql c q hb hs hm hg hT hT' hQ hlast =>
    rw [if_neg (by intro h; exact hb (Option.some.inj h).symm)] at hn
    rw [firsts_nodup hn] at he
    have hhead : (dropRepeats Q).head? = some i2 := by rw [dropRepeats_head, hQ]; rfl
    rw [dropRepeats_snoc] at he hn
    split at he
    · rename_i hl'
      rw [if_pos hl'] at hn
      rw [← firsts_dropRepeats, firsts_nodup hn, dropRepeats_last, hl'] at hlast
      obtain rfl := Option.some.inj hlast
      rw [cycPairs_zip hhead (by rw [dropRepeats_last, hl']), ← hops_eq] at he
      rcases List.mem_append.1 he with h | h
      · exact List.mem_append_left _ h
      · simp at h; subst h; simp
    · rename_i hl'
      rw [if_neg hl'] at hn
      rw [← firsts_dropRepeats, firsts_nodup (List.nodup_append.1 hn).1] at hlast
      rw [cycPairs_zip (a := i2) (z := ri) ?_ (by simp), zip_tail_snoc _ _ _ hlast, ← hops_eq] at he
      · rcases List.mem_append.1 he with h | h
        · rcases List.mem_append.1 h with h | h
          · exact List.mem_append_left _ h
          · simp at h; subst h; simp
        · simp at h; subst h; simp
      · cases hd : dropRepeats Q with
        | nil => rw [hd] at hhead; simp at hhead
        | cons x D => rw [hd] at hhead; simpa using hhead

/-- Everything recorded for a cell is one of its sides. -/
theorem shape_recorded {l : List (Pt K)} {v a0 b : Int} {t0 : Nat} {p : List (Int × Nat)} {P : List Int}
    {ks : List (Int × Int)} (hsh : Shape tol out d l v a0 t0 p b P ks) {ns : List Int}
    (h0 : ns.head? = some a0) (hl : ns.getLast? = some b) (hn : NoReturn ns P) {e : Int × Int}
    (he : e ∈ ks) (hne : e.1 ≠ e.2) : e ∈ cycPairs (firsts P) := by
  unfold NoReturn at hn
  rw [h0, hl] at hn
  rw [← firsts_dropRepeats]
  cases hsh with
  | closed tm hb htm =>
    rw [if_pos (by rw [hb])] at hn
    rw [hops_eq] at he
    set P := circIx d tm :: (p.map Prod.snd).reverse.map (circIx d) with hP
    have hhead : (dropRepeats P).head? = some (circIx d tm) := by rw [dropRepeats_head, hP]; rfl
    have hlast : (dropRepeats P).getLast? = some (circIx d tm) := by
      rw [dropRepeats_last, hP]
      cases hp : p with
      | nil => rw [hp] at htm; simp at htm
      | cons f q =>
        rw [hp] at htm; simp at htm
        rw [List.map_cons, List.reverse_cons, List.map_append, htm, ← List.cons_append,
          List.getLast?_append]
        rfl
    cases hD : dropRepeats P with
    | nil => rw [hD] at hhead; simp at hhead
    | cons c R =>
      rw [hD] at hhead hn hlast he
      simp only [List.head?_cons, Option.some.injEq] at hhead
      subst hhead
      simp only [List.tail_cons] at hn
      rcases List.eq_nil_or_concat R with rfl | ⟨R', x, rfl⟩
      · simp at he
      · have hx : x = circIx d tm := by
          rw [List.concat_eq_append, ← List.cons_append, List.getLast?_append] at hlast
          simpa using hlast
        subst hx
        rw [List.concat_eq_append] at he hn ⊢
        have hnd : (circIx d tm :: R').Nodup := by
          have := List.nodup_append.1 hn
          refine List.nodup_cons.2 ⟨fun hm => this.2.2 _ hm _ (by simp) rfl, this.1⟩
        have hf : firsts (circIx d tm :: (R' ++ [circIx d tm])) = circIx d tm :: R' := by
          rw [← List.cons_append, firsts_append, firsts_nodup hnd, addNew_mem (by simp)]
        rw [hf, cycPairs_cons]
        rw [List.tail_cons, ← List.cons_append] at he
        have : (circIx d tm :: R' ++ [circIx d tm]).zip (R' ++ [circIx d tm]) =
            (circIx d tm :: R').zip (R' ++ [circIx d tm]) := by
          have := List.zip_append (l₁ := circIx d tm :: R') (r₁ := [circIx d tm])
            (l₂ := R' ++ [circIx d tm]) (r₂ := []) (by simp)
          simpa using this
        rw [this] at he; exact he
  | flat i2 m last T Q qf ql c hb hs hm hg hT hT' hQ hlast =>
    rw [if_neg (by intro h; exact hb (Option.some.inj h).symm)] at hn
    rw [firsts_nodup hn]
    rw [← firsts_dropRepeats, firsts_nodup hn] at hlast
    have hhead : (dropRepeats P).head? = some i2 := by rw [dropRepeats_head, hQ]; rfl
    rw [cycPairs_zip hhead hlast, ← hops_eq]
    exact he
  | corner i2 m last ri T Q qf ql c q hb hs hm hg hT hT' hQ hlast =>
    rw [if_neg (by intro h; exact hb (Option.some.inj h).symm)] at hn
    rw [firsts_nodup hn]
    have hhead : (dropRepeats Q).head? = some i2 := by rw [dropRepeats_head, hQ]; rfl
    rw [dropRepeats_snoc] at hn ⊢
    split
    · rename_i hl'
      rw [if_pos hl'] at hn
      rw [← firsts_dropRepeats, firsts_nodup hn, dropRepeats_last, hl'] at hlast
      obtain rfl := Option.some.inj hlast
      rw [cycPairs_zip hhead (by rw [dropRepeats_last, hl']), ← hops_eq]
      rcases List.mem_append.1 he with h | h
      · exact List.mem_append_left _ h
      · simp only [List.mem_cons, List.not_mem_nil, or_false] at h
        rcases h with rfl | rfl
        · exact absurd rfl hne
        · simp
    · rename_i hl'
      rw [if_neg hl'] at hn
      rw [← firsts_dropRepeats, firsts_nodup (List.nodup_append.1 hn).1] at hlast
      rw [cycPairs_zip (a := i2) (z := ri) ?_ (by simp), zip_tail_snoc _ _ _ hlast, ← hops_eq]
      · rcases List.mem_append.1 he with h | h
        · exact List.mem_append_left _ (List.mem_append_left _ h)
        · simp only [List.mem_cons, List.not_mem_nil, or_false] at h
          rcases h with rfl | rfl <;> simp
      · cases hd : dropRepeats Q with
        | nil => rw [hd] at hhead; simp at hhead
        | cons x D => rw [hd] at hhead; simpa using hhead

theorem hops_infix : ∀ (l1 : List Int) {a b : Int} (l2 : List Int), a ≠ b →
    (a, b) ∈ hops (l1 ++ a :: b :: l2) := by
  intro l1
  induction l1 with
  | nil => intro a b l2 h; rw [List.nil_append, hops_cons2, if_neg h]; simp
  | cons x l1 ih =>
    intro a b l2 h
    have := ih l2 h
    cases l1 with
    | nil =>
      show _ ∈ hops (x :: a :: b :: l2)
      rw [hops_cons2]; exact List.mem_append_right _ this
    | cons y l1 =>
      show _ ∈ hops (x :: y :: (l1 ++ a :: b :: l2))
      rw [hops_cons2]; exact List.mem_append_right _ this

/-- Two consecutive triangles of a fan share an edge. -/
theorem Fan.adj {tris : List (Int × Int × Int)} (hp : ProperTris tris) {v a0 : Int} {t0 : Nat}
    {p : List (Int × Nat)} {b : Int} (h : Fan tris v a0 t0 p b) :
    ∀ x ∈ p.map Prod.fst, x ≠ a0 → ∃ l1 l2 y t t', p = l1 ++ (x, t') :: (y, t) :: l2 ∧ t' ≠ t ∧
      HasSide tris v x t ∧ HasSide tris v x t' := by
  induction h with
  | one h => intro x hx hne; simp at hx; exact absurd hx hne
  | @step a b c t t' p hF hne htne h3 ih =>
    intro x hx hxa
    rw [List.map_cons] at hx
    rcases List.mem_cons.1 hx with rfl | hx
    · exact ⟨[], p, a, t, t', rfl, htne, (hF.head.side hp _).2 (Or.inr rfl),
        (h3.side hp _).2 (Or.inl rfl)⟩
    · obtain ⟨l1, l2, y, s, s', h1, h2⟩ := ih x hx hxa
      exact ⟨(b, t') :: l1, l2, y, s, s', by rw [h1]; rfl, h2⟩

end
end Delynoi
