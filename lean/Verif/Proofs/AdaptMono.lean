import Verif.Proofs.Adapt
/-! `incircleadapt` on different machines: where the abstract machine of C returns, it returns what the
machine with harmless over-reads returns; and no array overflows. -/
namespace Delynoi.Ex
set_option linter.unusedVariables false

/-- The first has undefined behaviour or both agree. -/
def LeOut {α : Type} (x y : Outcome α) : Prop := x = .ub ∨ x = y

theorem LeOut.rfl' {α : Type} (x : Outcome α) : LeOut x x := Or.inr rfl

theorem LeOut.bind {α β : Type} {x y : Outcome α} {f g : α → Outcome β} (h : LeOut x y) (k : ∀ a, LeOut (f a) (g a)) :
    LeOut (x >>= f) (y >>= g) := by
  rcases h with h | h
  · subst h; exact Or.inl rfl
  · subst h
    cases x with
    | ok a => exact k a
    | exn => exact Or.inr rfl
    | ub => exact Or.inl rfl

/-- One routine for sums has undefined behaviour or agrees with the other. -/
def LeSum (s t : Summer) : Prop := ∀ ce cf e f, LeOut (s ce cf e f) (t ce cf e f)

theorem strict_le_lax : LeSum strictSum laxSum := by
  intro ce cf e f
  unfold strictSum laxSum fastExpansionSumAt
  split_ifs
  · exact Or.inr rfl
  · exact Or.inl rfl

section
variable {s t : Summer} (h : LeSum s t)
include h

theorem lift_le (k x y : ℚ) (bc : List ℚ) : LeOut (liftExpansion s k x y bc) (liftExpansion t k x y bc) := by
  unfold liftExpansion
  exact .bind (.rfl' _) fun _ => .bind (.rfl' _) fun _ => .bind (.rfl' _) fun _ => .bind (.rfl' _) fun _ => h _ _ _ _

theorem addFirst_le (k : ℚ) (fin : List ℚ) (u d : ℚ) (bc f : List ℚ) (p : ℚ) (g : List ℚ) (q : ℚ) :
    LeOut (addFirst s k fin u d bc f p g q) (addFirst t k fin u d bc f p g q) := by
  unfold addFirst
  split_ifs
  · exact .bind (.rfl' _) fun _ => .bind (.rfl' _) fun _ => .bind (.rfl' _) fun _ => .bind (.rfl' _) fun _ =>
      .bind (.rfl' _) fun _ => .bind (.rfl' _) fun _ => .bind (h _ _ _ _) fun _ => .bind (h _ _ _ _) fun _ =>
      .bind (h _ _ _ _) fun _ => .rfl' _
  · exact .rfl' _

theorem tail_le (k bx bxt by' byt cx cxt cy cyt : ℚ) :
    LeOut (tailExpansions s k bx bxt by' byt cx cxt cy cyt) (tailExpansions t k bx bxt by' byt cx cxt cy cyt) := by
  unfold tailExpansions
  split_ifs
  · exact .bind (h _ _ _ _) fun _ => .rfl' _
  · exact .rfl' _

theorem addSecond_le (k : ℚ) (fin : List ℚ) (u d : ℚ) (xtbc bct : List ℚ) :
    LeOut (addSecond s k fin u d xtbc bct) (addSecond t k fin u d xtbc bct) := by
  unfold addSecond
  exact .bind (.rfl' _) fun _ => .bind (.rfl' _) fun _ => .bind (.rfl' _) fun _ => .bind (h _ _ _ _) fun _ =>
    .bind (h _ _ _ _) fun _ => .rfl' _

theorem addPair_le (k : ℚ) (fin f : List ℚ) (u v : ℚ) : LeOut (addPair s k fin f u v) (addPair t k fin f u v) := by
  unfold addPair
  split_ifs
  · exact .bind (.rfl' _) fun _ => .bind (.rfl' _) fun _ => h _ _ _ _
  · exact .rfl' _

theorem addThird_le (k : ℚ) (fin : List ℚ) (u d : ℚ) (xtbct bctt : List ℚ) :
    LeOut (addThird s k fin u d xtbct bctt) (addThird t k fin u d xtbct bctt) := by
  unfold addThird
  exact .bind (.rfl' _) fun _ => .bind (.rfl' _) fun _ => .bind (.rfl' _) fun _ => .bind (.rfl' _) fun _ =>
    .bind (h _ _ _ _) fun _ => .bind (h _ _ _ _) fun _ => h _ _ _ _

theorem addX_le (k : ℚ) (fin : List ℚ) (u d : ℚ) (xtbc bct bctt cc : List ℚ) (byt : ℚ) (bb : List ℚ) (cyt : ℚ) :
    LeOut (addX s k fin u d xtbc bct bctt cc byt bb cyt) (addX t k fin u d xtbc bct bctt cc byt bb cyt) := by
  unfold addX
  split_ifs
  · exact .bind (addSecond_le h ..) fun _ => .bind (addPair_le h ..) fun _ => .bind (addPair_le h ..) fun _ => addThird_le h ..
  · exact .rfl' _

theorem addY_le (k : ℚ) (fin : List ℚ) (u d : ℚ) (ytbc bct bctt : List ℚ) :
    LeOut (addY s k fin u d ytbc bct bctt) (addY t k fin u d ytbc bct bctt) := by
  unfold addY
  split_ifs
  · exact .bind (addSecond_le h ..) fun _ => addThird_le h ..
  · exact .rfl' _

theorem addPoint_le (k : ℚ) (fin : List ℚ) (axt ayt ax ay : ℚ) (axtbc aytbc : List ℚ)
    (bx bxt by' byt cx cxt cy cyt : ℚ) (bb cc : List ℚ) :
    LeOut (addPoint s k fin axt ayt ax ay axtbc aytbc bx bxt by' byt cx cxt cy cyt bb cc)
      (addPoint t k fin axt ayt ax ay axtbc aytbc bx bxt by' byt cx cxt cy cyt bb cc) := by
  unfold addPoint
  split_ifs
  · exact .bind (tail_le h ..) fun _ => .bind (addX_le h ..) fun _ => addY_le h ..
  · exact .rfl' _

theorem last_le (k : ℚ) (bc ca ab fin : List ℚ) (adx ady bdx bdy cdx cdy adxt adyt bdxt bdyt cdxt cdyt : ℚ) :
    LeOut (incircleLast s k bc ca ab fin adx ady bdx bdy cdx cdy adxt adyt bdxt bdyt cdxt cdyt)
      (incircleLast t k bc ca ab fin adx ady bdx bdy cdx cdy adxt adyt bdxt bdyt cdxt cdyt) := by
  unfold incircleLast
  exact .bind (addFirst_le h ..) fun _ => .bind (addFirst_le h ..) fun _ => .bind (addFirst_le h ..) fun _ =>
    .bind (addFirst_le h ..) fun _ => .bind (addFirst_le h ..) fun _ => .bind (addFirst_le h ..) fun _ =>
    .bind (addPoint_le h ..) fun _ => .bind (addPoint_le h ..) fun _ => .bind (addPoint_le h ..) fun _ => .rfl' _

theorem adapt_le (k : Consts) (pa pb pc pd : Pt ℚ) (p : ℚ) :
    LeOut (incircleAdapt s k pa pb pc pd p) (incircleAdapt t k pa pb pc pd p) := by
  unfold incircleAdapt
  dsimp only
  refine .bind (lift_le h ..) fun _ => .bind (lift_le h ..) fun _ => .bind (lift_le h ..) fun _ =>
    .bind (h ..) fun _ => .bind (h ..) fun fin => ?_
  cases estimate fin with
  | none => exact .rfl' _
  | some det =>
    dsimp only
    split_ifs <;> first | exact .rfl' _ | exact last_le h ..
end

/-! ## Lengths -/

/-- Both agree, and a result has the property. -/
def Both {α : Type} (P : α → Prop) (x y : Outcome α) : Prop := x = y ∧ ∀ r, y = .ok r → P r

theorem Both.bind {α β : Type} {P : α → Prop} {Q : β → Prop} {x y : Outcome α} {f g : α → Outcome β} (h : Both P x y)
    (k : ∀ a, P a → Both Q (f a) (g a)) : Both Q (x >>= f) (y >>= g) := by
  obtain ⟨rfl, h⟩ := h
  cases x with
  | ok a => exact k a (h a rfl)
  | exn => exact ⟨rfl, fun r hr => by cases hr⟩
  | ub => exact ⟨rfl, fun r hr => by cases hr⟩

theorem Both.ok {α : Type} {P : α → Prop} {a : α} (h : P a) : Both P (.ok a) (.ok a) :=
  ⟨rfl, fun r hr => by cases hr; exact h⟩

theorem Both.mono {α : Type} {P Q : α → Prop} {x y : Outcome α} (h : Both P x y) (k : ∀ a, P a → Q a) : Both Q x y :=
  ⟨h.1, fun r hr => k r (h.2 r hr)⟩

theorem sumLoops_length : ∀ (n : Nat) (Q : ℚ) (H es fs : List ℚ), es.length + fs.length = n →
    (sumLoops Q H es fs).2.length ≤ H.length + n := by
  intro n
  induction n with
  | zero =>
    intro Q H es fs h
    have h1 : es = [] := List.length_eq_zero_iff.1 (by omega)
    have h2 : fs = [] := List.length_eq_zero_iff.1 (by omega)
    subst h1; subst h2
    simp [sumLoops]
  | succ n ih =>
    intro Q H es fs h
    have step : ∀ (Q' x : ℚ) (es' fs' : List ℚ), es'.length + fs'.length = n →
        (sumLoops Q' (put H x) es' fs').2.length ≤ H.length + (n + 1) := by
      intro Q' x es' fs' h'
      have h1 := ih Q' (put H x) es' fs' h'
      have h2 := put_length H x
      omega
    cases es with
    | nil =>
      cases fs with
      | nil => simp at h
      | cons f fs =>
        simp only [sumLoops]
        exact step _ _ _ _ (by simpa using h)
    | cons e es =>
      cases fs with
      | nil =>
        simp only [sumLoops]
        exact step _ _ _ _ (by simpa using h)
      | cons f fs =>
        simp only [List.length_cons] at h
        simp only [sumLoops]
        split_ifs
        · exact step _ _ _ _ (by simp only [List.length_cons]; omega)
        · exact step _ _ _ _ (by simp only [List.length_cons]; omega)

theorem sumSecond_length (Q : ℚ) (es fs : List ℚ) : (sumSecond Q es fs).2.length ≤ es.length + fs.length := by
  have base : ∀ es fs : List ℚ, (sumLoops Q [] es fs).2.length ≤ es.length + fs.length := by
    intro es fs
    have := sumLoops_length _ Q [] es fs rfl
    simpa using this
  have step : ∀ (Q' x : ℚ) (es' fs' : List ℚ), (sumLoops Q' (put [] x) es' fs').2.length ≤ es'.length + fs'.length + 1 := by
    intro Q' x es' fs'
    have h1 := sumLoops_length _ Q' (put [] x) es' fs' rfl
    have h2 := put_length [] x
    simp only [List.length_nil] at h2
    omega
  cases es with
  | nil => simp only [sumSecond]; exact base [] fs
  | cons e es =>
    cases fs with
    | nil => simp only [sumSecond]; exact base (e :: es) []
    | cons f fs =>
      simp only [sumSecond]
      split_ifs
      · refine (step _ _ _ _).trans ?_
        simp only [List.length_cons]; omega
      · refine (step _ _ _ _).trans ?_
        simp only [List.length_cons]; omega

theorem fes_length {e f h : List ℚ} (hh : fastExpansionSum e f = some h) : h.length ≤ e.length + f.length := by
  cases e with
  | nil => simp [fastExpansionSum] at hh
  | cons e0 es =>
    cases f with
    | nil => simp [fastExpansionSum] at hh
    | cons f0 fs =>
      have fin : ∀ r : ℚ × List ℚ, r.2.length ≤ es.length + fs.length + 1 →
          (if r.1 ≠ 0 ∨ r.2 = [] then r.2 ++ [r.1] else r.2) = h → h.length ≤ (e0 :: es).length + (f0 :: fs).length := by
        intro r h3 h4
        simp only [List.length_cons]
        split_ifs at h4 with hc
        · subst h4
          rw [List.length_append, List.length_singleton]; omega
        · subst h4
          omega
      unfold fastExpansionSum at hh
      dsimp only at hh
      rw [Option.some.injEq] at hh
      refine fin _ ?_ hh
      split_ifs
      · have := sumSecond_length e0 es (f0 :: fs)
        simp only [List.length_cons] at this; omega
      · have := sumSecond_length f0 (e0 :: es) fs
        simp only [List.length_cons] at this; omega

theorem scaleLoop_length (s b bhi blo : ℚ) : ∀ (es : List ℚ) (Q : ℚ) (H : List ℚ),
    (scaleLoop s b bhi blo Q H es).2.length ≤ H.length + 2 * es.length := by
  intro es
  induction es with
  | nil => intro Q H; simp [scaleLoop]
  | cons e es ih =>
    intro Q H
    simp only [scaleLoop]
    refine (ih _ _).trans ?_
    have h1 := put_length H (twoSum Q (twoProductPresplit s e b bhi blo).2).2
    have h2 := put_length (put H (twoSum Q (twoProductPresplit s e b bhi blo).2).2)
      (fastTwoSum (twoProductPresplit s e b bhi blo).1 (twoSum Q (twoProductPresplit s e b bhi blo).2).1).2
    simp only [List.length_cons]
    omega

theorem scale_length {s : ℚ} {e h : List ℚ} {b : ℚ} (hh : scaleExpansion s e b = .ok h) : h.length ≤ 2 * e.length := by
  cases e with
  | nil => simp [scaleExpansion] at hh
  | cons x xs =>
    simp only [scaleExpansion, Outcome.ok.injEq] at hh
    have h1 := scaleLoop_length s b (split s b).1 (split s b).2 xs
      (twoProductPresplit s x b (split s b).1 (split s b).2).1 (put [] (twoProductPresplit s x b (split s b).1 (split s b).2).2)
    have h2 := put_length [] (twoProductPresplit s x b (split s b).1 (split s b).2).2
    rw [← hh]
    split_ifs
    · simp only [List.length_append, List.length_cons, List.length_nil] at *; omega
    · simp only [List.length_cons, List.length_nil] at *; omega

/-! ## No array overflows -/

theorem both_scale (s : ℚ) {e : List ℚ} (b : ℚ) {n : Nat} (h : e.length ≤ n) :
    Both (fun r => r.length ≤ 2 * n) (scaleExpansion s e b) (scaleExpansion s e b) :=
  ⟨rfl, fun r hr => (scale_length hr).trans (by omega)⟩

theorem both_sum {ce cf n m : Nat} {e f : List ℚ} (he : e.length ≤ n) (hf : f.length ≤ m) (h1 : n ≤ ce) (h2 : m ≤ cf)
    (h3 : n + m ≤ 1152) : Both (fun r => r.length ≤ n + m) (capSum ce cf e f) (laxSum ce cf e f) := by
  unfold capSum laxSum
  cases hs : fastExpansionSum e f with
  | none => exact ⟨rfl, fun r hr => by cases hr⟩
  | some h =>
    have hl := fes_length hs
    dsimp only
    rw [if_pos ⟨by omega, by omega, le_min (by omega) (by omega)⟩]
    exact .ok (by omega)

theorem cross_length (s a b c d : ℚ) : (crossExpansion s a b c d).length ≤ 4 := by
  simp [crossExpansion, twoTwoDiff]

theorem plus_length (s a b c d : ℚ) : (plusExpansion s a b c d).length ≤ 4 := by
  simp [plusExpansion, twoTwoSum]

theorem square_length (s a b : ℚ) : (squareExpansion s a b).length ≤ 4 := by
  simp [squareExpansion, twoTwoSum]

theorem lift_cap (k x y : ℚ) {bc : List ℚ} (h : bc.length ≤ 4) :
    Both (fun r => r.length ≤ 32) (liftExpansion capSum k x y bc) (liftExpansion laxSum k x y bc) := by
  unfold liftExpansion
  exact .bind (both_scale k x h) fun a ha => .bind (both_scale k x ha) fun b hb => .bind (both_scale k y h) fun c hc =>
    .bind (both_scale k y hc) fun d hd => both_sum hb hd (by omega) (by omega) (by omega)

theorem addFirst_cap (k : ℚ) {fin : List ℚ} (u d : ℚ) {bc f : List ℚ} (p : ℚ) {g : List ℚ} (q : ℚ) {n : Nat}
    (hn : fin.length ≤ n) (h : n + 48 ≤ 1152) (hb : bc.length ≤ 4) (hf : f.length ≤ 4) (hg : g.length ≤ 4) :
    Both (fun r => r.1.length ≤ n + 48 ∧ r.2.length ≤ 8) (addFirst capSum k fin u d bc f p g q)
      (addFirst laxSum k fin u d bc f p g q) := by
  unfold addFirst
  split_ifs
  · exact .bind (both_scale k u hb) fun a ha => .bind (both_scale k _ ha) fun b hb => .bind (both_scale k u hf) fun c hc =>
      .bind (both_scale k p hc) fun d hd => .bind (both_scale k u hg) fun e he => .bind (both_scale k q he) fun f hf =>
      .bind (both_sum hb hd (by omega) (by omega) (by omega)) fun g hg =>
      .bind (both_sum hf hg (by omega) (by omega) (by omega)) fun i hi =>
      .bind (both_sum hn hi (by omega) (by omega) (by omega)) fun j hj => .ok ⟨by dsimp only; omega, by dsimp only; omega⟩
  · exact .ok ⟨by dsimp only; omega, by simp⟩

theorem tail_cap (k bx bxt by' byt cx cxt cy cyt : ℚ) :
    Both (fun r => r.1.length ≤ 8 ∧ r.2.length ≤ 4) (tailExpansions capSum k bx bxt by' byt cx cxt cy cyt)
      (tailExpansions laxSum k bx bxt by' byt cx cxt cy cyt) := by
  unfold tailExpansions
  split_ifs
  · exact .bind (both_sum (plus_length ..) (plus_length ..) (by omega) (by omega) (by omega)) fun a ha =>
      .ok ⟨by dsimp only; omega, cross_length ..⟩
  · exact .ok ⟨by simp, by simp⟩

theorem addSecond_cap (k : ℚ) {fin : List ℚ} (u d : ℚ) {xtbc bct : List ℚ} {n : Nat} (hn : fin.length ≤ n)
    (h : n + 48 ≤ 1152) (h1 : xtbc.length ≤ 8) (h2 : bct.length ≤ 8) :
    Both (fun r => r.1.length ≤ n + 48 ∧ r.2.length ≤ 16) (addSecond capSum k fin u d xtbc bct)
      (addSecond laxSum k fin u d xtbc bct) := by
  unfold addSecond
  exact .bind (both_scale k u h1) fun a ha => .bind (both_scale k u h2) fun b hb => .bind (both_scale k _ hb) fun c hc =>
    .bind (both_sum ha hc (by omega) (by omega) (by omega)) fun e he =>
    .bind (both_sum hn he (by omega) (by omega) (by omega)) fun f hf => .ok ⟨by dsimp only; omega, by dsimp only; omega⟩

theorem addPair_cap (k : ℚ) {fin f : List ℚ} (u v : ℚ) {n : Nat} (hn : fin.length ≤ n) (h : n + 16 ≤ 1152) (hf : f.length ≤ 4) :
    Both (fun r => r.length ≤ n + 16) (addPair capSum k fin f u v) (addPair laxSum k fin f u v) := by
  unfold addPair
  split_ifs
  · exact .bind (both_scale k u hf) fun a ha => .bind (both_scale k v ha) fun b hb =>
      both_sum hn hb (by omega) (by omega) (by omega)
  · exact .ok (by omega)

theorem addThird_cap (k : ℚ) {fin : List ℚ} (u d : ℚ) {xtbct bctt : List ℚ} {n : Nat} (hn : fin.length ≤ n)
    (h : n + 64 ≤ 1152) (h1 : xtbct.length ≤ 16) (h2 : bctt.length ≤ 4) :
    Both (fun r => r.length ≤ n + 64) (addThird capSum k fin u d xtbct bctt) (addThird laxSum k fin u d xtbct bctt) := by
  unfold addThird
  exact .bind (both_scale k u h1) fun a ha => .bind (both_scale k u h2) fun b hb => .bind (both_scale k _ hb) fun c hc =>
    .bind (both_scale k u hb) fun e he => .bind (both_sum hc he (by omega) (by omega) (by omega)) fun f hf =>
    .bind (both_sum ha hf (by omega) (by omega) (by omega)) fun g hg =>
    both_sum hn hg (by omega) (by omega) (by omega)

theorem addX_cap (k : ℚ) {fin : List ℚ} (u d : ℚ) {xtbc bct bctt cc : List ℚ} (byt : ℚ) {bb : List ℚ} (cyt : ℚ) {n : Nat}
    (hn : fin.length ≤ n) (h : n + 144 ≤ 1152) (h1 : xtbc.length ≤ 8) (h2 : bct.length ≤ 8) (h3 : bctt.length ≤ 4)
    (h4 : cc.length ≤ 4) (h5 : bb.length ≤ 4) :
    Both (fun r => r.length ≤ n + 144) (addX capSum k fin u d xtbc bct bctt cc byt bb cyt)
      (addX laxSum k fin u d xtbc bct bctt cc byt bb cyt) := by
  unfold addX
  split_ifs
  · exact .bind (addSecond_cap k u d hn (by omega) h1 h2) fun a ha => .bind (addPair_cap k u byt ha.1 (by omega) h4) fun b hb =>
      .bind (addPair_cap k (-u) cyt hb (by omega) h5) fun c hc =>
      (addThird_cap k u d hc (by omega) ha.2 h3).mono fun r hr => by omega
  · exact .ok (by omega)

theorem addY_cap (k : ℚ) {fin : List ℚ} (u d : ℚ) {ytbc bct bctt : List ℚ} {n : Nat}
    (hn : fin.length ≤ n) (h : n + 112 ≤ 1152) (h1 : ytbc.length ≤ 8) (h2 : bct.length ≤ 8) (h3 : bctt.length ≤ 4) :
    Both (fun r => r.length ≤ n + 112) (addY capSum k fin u d ytbc bct bctt) (addY laxSum k fin u d ytbc bct bctt) := by
  unfold addY
  split_ifs
  · exact .bind (addSecond_cap k u d hn (by omega) h1 h2) fun a ha =>
      (addThird_cap k u d ha.1 (by omega) ha.2 h3).mono fun r hr => by omega
  · exact .ok (by omega)

theorem addPoint_cap (k : ℚ) {fin : List ℚ} (axt ayt ax ay : ℚ) {axtbc aytbc : List ℚ}
    (bx bxt by' byt cx cxt cy cyt : ℚ) {bb cc : List ℚ} {n : Nat} (hn : fin.length ≤ n) (h : n + 256 ≤ 1152)
    (h1 : axtbc.length ≤ 8) (h2 : aytbc.length ≤ 8) (h3 : bb.length ≤ 4) (h4 : cc.length ≤ 4) :
    Both (fun r => r.length ≤ n + 256) (addPoint capSum k fin axt ayt ax ay axtbc aytbc bx bxt by' byt cx cxt cy cyt bb cc)
      (addPoint laxSum k fin axt ayt ax ay axtbc aytbc bx bxt by' byt cx cxt cy cyt bb cc) := by
  unfold addPoint
  split_ifs
  · exact .bind (tail_cap ..) fun a ha => .bind (addX_cap k axt ax byt cyt hn (by omega) h1 ha.1 ha.2 h4 h3) fun b hb =>
      (addY_cap k ayt ay hb (by omega) h2 ha.1 ha.2).mono fun r hr => by omega
  · exact .ok (by omega)

theorem last_cap (k : ℚ) {bc ca ab fin : List ℚ} (adx ady bdx bdy cdx cdy adxt adyt bdxt bdyt cdxt cdyt : ℚ)
    (hn : fin.length ≤ 96) (h1 : bc.length ≤ 4) (h2 : ca.length ≤ 4) (h3 : ab.length ≤ 4) :
    Both (fun _ => True) (incircleLast capSum k bc ca ab fin adx ady bdx bdy cdx cdy adxt adyt bdxt bdyt cdxt cdyt)
      (incircleLast laxSum k bc ca ab fin adx ady bdx bdy cdx cdy adxt adyt bdxt bdyt cdxt cdyt) := by
  unfold incircleLast
  have q := square_length k
  exact .bind (addFirst_cap k _ _ _ _ hn (by omega) h1 (q ..) (q ..)) fun a1 ha1 =>
    .bind (addFirst_cap k _ _ _ _ ha1.1 (by omega) h1 (q ..) (q ..)) fun a2 ha2 =>
    .bind (addFirst_cap k _ _ _ _ ha2.1 (by omega) h2 (q ..) (q ..)) fun b1 hb1 =>
    .bind (addFirst_cap k _ _ _ _ hb1.1 (by omega) h2 (q ..) (q ..)) fun b2 hb2 =>
    .bind (addFirst_cap k _ _ _ _ hb2.1 (by omega) h3 (q ..) (q ..)) fun c1 hc1 =>
    .bind (addFirst_cap k _ _ _ _ hc1.1 (by omega) h3 (q ..) (q ..)) fun c2 hc2 =>
    .bind (addPoint_cap k _ _ _ _ _ _ _ _ _ _ _ _ hc2.1 (by omega) ha1.2 ha2.2 (q ..) (q ..)) fun fa hfa =>
    .bind (addPoint_cap k _ _ _ _ _ _ _ _ _ _ _ _ hfa (by omega) hb1.2 hb2.2 (q ..) (q ..)) fun fb hfb =>
    .bind (addPoint_cap k _ _ _ _ _ _ _ _ _ _ _ _ hfb (by omega) hc1.2 hc2.2 (q ..) (q ..)) fun fc hfc =>
    ⟨rfl, fun _ _ => trivial⟩

theorem adapt_cap (k : Consts) (pa pb pc pd : Pt ℚ) (p : ℚ) :
    incircleAdapt capSum k pa pb pc pd p = incircleAdapt laxSum k pa pb pc pd p := by
  refine (show Both (fun _ => True) _ _ from ?_).1
  unfold incircleAdapt
  dsimp only
  refine .bind (lift_cap _ _ _ (cross_length ..)) fun a ha => .bind (lift_cap _ _ _ (cross_length ..)) fun b hb =>
    .bind (lift_cap _ _ _ (cross_length ..)) fun c hc => .bind (both_sum ha hb (by omega) (by omega) (by omega)) fun ab hab =>
    .bind (both_sum hab hc (by omega) (by omega) (by omega)) fun fin hfin => ?_
  cases estimate fin with
  | none => exact ⟨rfl, fun _ _ => trivial⟩
  | some det =>
    dsimp only
    split_ifs
    · exact ⟨rfl, fun _ _ => trivial⟩
    · exact ⟨rfl, fun _ _ => trivial⟩
    · exact ⟨rfl, fun _ _ => trivial⟩
    · exact last_cap _ _ _ _ _ _ _ _ _ _ _ _ _ hfin (cross_length ..) (cross_length ..) (cross_length ..)

end Delynoi.Ex
