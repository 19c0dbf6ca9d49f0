import Verif.Model.Polygon
/-! Lemmas about index resolution. -/
namespace Delynoi
variable {α : Type}

theorem vecGet_ok_iff {v : List α} {i : Int} {a : α} :
    vecGet v i = .ok a ↔ 0 ≤ i ∧ v[i.toNat]? = some a := by
  unfold vecGet
  split
  · rename_i h
    cases hv : v[i.toNat]? with
    | none => simp
    | some b => simp [h]
  · rename_i h; simp [h]

theorem resolve_cons_ok {p : List α} {i : Int} {is : List Int} {l : List α} :
    resolve p (i :: is) = .ok l ↔
      ∃ a as, vecGet p i = .ok a ∧ resolve p is = .ok as ∧ l = a :: as := by
  simp only [resolve]
  cases hv : vecGet p i with
  | exn => simp
  | ub => simp
  | ok a =>
    cases hr : resolve p is with
    | exn => simp
    | ub => simp
    | ok as => simp [eq_comm]

theorem resolve_length {p : List α} : ∀ {is : List Int} {l : List α},
    resolve p is = .ok l → l.length = is.length := by
  intro is
  induction is with
  | nil => intro l h; simp only [resolve, Outcome.ok.injEq] at h; simp [← h]
  | cons i is ih =>
    intro l h
    obtain ⟨a, as, _, h2, rfl⟩ := resolve_cons_ok.1 h
    simp [ih h2]

theorem resolve_append {p : List α} : ∀ {is js : List Int} {l m : List α},
    resolve p is = .ok l → resolve p js = .ok m → resolve p (is ++ js) = .ok (l ++ m) := by
  intro is
  induction is with
  | nil => intro js l m h1 h2; simp only [resolve, Outcome.ok.injEq] at h1; simpa [← h1] using h2
  | cons i is ih =>
    intro js l m h1 h2
    obtain ⟨a, as, ha, has, rfl⟩ := resolve_cons_ok.1 h1
    exact resolve_cons_ok.2 ⟨a, as ++ m, ha, ih has h2, rfl⟩

theorem resolve_reverse {p : List α} : ∀ {is : List Int} {l : List α},
    resolve p is = .ok l → resolve p is.reverse = .ok l.reverse := by
  intro is
  induction is with
  | nil => intro l h; simp only [resolve, Outcome.ok.injEq] at h; simp [← h, resolve]
  | cons i is ih =>
    intro l h
    obtain ⟨a, as, ha, has, rfl⟩ := resolve_cons_ok.1 h
    rw [List.reverse_cons, List.reverse_cons]
    exact resolve_append (ih has) (resolve_cons_ok.2 ⟨a, [], ha, rfl, rfl⟩)

theorem resolve_getElem? {p : List α} : ∀ {is : List Int} {l : List α},
    resolve p is = .ok l → ∀ {k : Nat} {i : Int}, is[k]? = some i →
      ∃ a, l[k]? = some a ∧ vecGet p i = .ok a := by
  intro is
  induction is with
  | nil => intro l _ k i h; simp at h
  | cons j is ih =>
    intro l h k i hk
    obtain ⟨a, as, ha, has, rfl⟩ := resolve_cons_ok.1 h
    cases k with
    | zero =>
      have : j = i := by simpa using hk
      subst this
      exact ⟨a, by simp, ha⟩
    | succ k =>
      obtain ⟨b, hb, hb'⟩ := ih has (by simpa using hk)
      exact ⟨b, by simpa using hb, hb'⟩

/-- Resolution succeeds exactly when all indices are in range. -/
theorem resolve_ok_iff {p : List α} {is : List Int} :
    (∃ l, resolve p is = .ok l) ↔ ∀ i ∈ is, 0 ≤ i ∧ i < p.length := by
  induction is with
  | nil => simp [resolve]
  | cons i is ih =>
    constructor
    · rintro ⟨l, h⟩
      obtain ⟨a, as, ha, has, rfl⟩ := resolve_cons_ok.1 h
      intro j hj
      rcases List.mem_cons.1 hj with rfl | hj
      · obtain ⟨h0, h1⟩ := vecGet_ok_iff.1 ha
        obtain ⟨h2, _⟩ := List.getElem?_eq_some_iff.1 h1
        omega
      · exact ih.1 ⟨as, has⟩ j hj
    · intro h
      obtain ⟨as, has⟩ := ih.2 (fun j hj => h j (by simp [hj]))
      obtain ⟨h0, h1⟩ := h i (by simp)
      have h2 : i.toNat < p.length := by omega
      exact ⟨p[i.toNat] :: as, resolve_cons_ok.2
        ⟨p[i.toNat], as, vecGet_ok_iff.2 ⟨h0, List.getElem?_eq_getElem h2⟩, has, rfl⟩⟩

theorem resolve_trivial (p : List α) : resolve p (trivialIndex p.length) = .ok p := by
  have key : ∀ (q s : List α), resolve (q ++ s) ((List.range' q.length s.length).map Int.ofNat) =
      .ok s := by
    intro q s
    induction s generalizing q with
    | nil => simp [resolve]
    | cons a s ih =>
      simp only [List.length_cons, List.range'_succ, List.map_cons]
      refine resolve_cons_ok.2 ⟨a, s, ?_, ?_, rfl⟩
      · rw [vecGet_ok_iff]; simp
      · have := ih (q ++ [a])
        simpa using this
  have := key [] p
  simpa [trivialIndex, List.range_eq_range'] using this

end Delynoi
