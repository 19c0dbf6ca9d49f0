import Verif.Proofs.ClipperPath
import Verif.Props.ClipperGeom
/-!
# C113, C114: what Clipper does to the vertices of paths

C113 is about the first three stages of `ClipperBase::AddPath` (clipper.cpp:1045-1151) on closed
paths, C114 about `Clipper::FixupOutPolygon` (3136-3174).
-/
set_option linter.unusedSectionVars false
namespace Delynoi
open Clip

/-! ### The vocabulary -/

/-- `c` is strictly between `p` and `n`. -/
def StrictlyBetween (p c n : IPt) : Prop :=
  turn p.toPt c.toPt n.toPt = 0 ∧ (p.X - c.X) * (n.X - c.X) + (p.Y - c.Y) * (n.Y - c.Y) < 0

/-- No two consecutive vertices are equal, no vertex is collinear with its neighbours; with `keep`
it may be strictly between them. -/
def CleanCorner (keep : Bool) (a b c : IPt) : Prop :=
  b ≠ c ∧ (turn a.toPt b.toPt c.toPt = 0 → keep = true ∧ StrictlyBetween a b c)

/-- The two paths go around every point of the plane equally often and have the same area. -/
def SameRegion (l m : List IPt) : Prop :=
  twiceArea l = twiceArea m ∧ ∀ q : Pt ℚ, winding (l.map IPt.toPt) q = winding (m.map IPt.toPt) q

/-- The path encloses nothing. -/
def EnclosesNothing (l : List IPt) : Prop :=
  twiceArea l = 0 ∧ ∀ q : Pt ℚ, winding (l.map IPt.toPt) q = 0

/-- All coordinates are 64-bit numbers other than the least one. -/
def Path64 (l : List IPt) : Prop := ∀ p ∈ l, Is64 p.X ∧ Is64 p.Y ∧ p.X ≠ -2 ^ 63 ∧ p.Y ≠ -2 ^ 63

private theorem flat_area : FlatSum (fun a b : Pt ℚ => a.x * b.y - b.x * a.y) :=
  ⟨fun a b => by ring, fun a b c h => by unfold turn at h; linarith⟩

private theorem flat_wnd (q : Pt ℚ) : FlatSum (wnd q) :=
  ⟨wnd_swap q, fun a b c h => by have := cov_flat q h; unfold cov at this; exact this⟩

private theorem sameRegion_of {l m : List IPt} (h : ∀ g, FlatSum g → ringSumOf g l = ringSumOf g m) : SameRegion l m := by
  constructor
  · have := h _ flat_area
    unfold ringSumOf at this
    rw [← shoe_eq_edgeSum, ← shoe_eq_edgeSum, ← twiceArea_shoe, ← twiceArea_shoe] at this
    exact_mod_cast this
  · intro q
    have := h _ (flat_wnd q)
    unfold ringSumOf at this
    rw [← winding_edgeSum, ← winding_edgeSum] at this
    exact_mod_cast this

private theorem enclosesNothing_of {l : List IPt} (h : ∀ g, FlatSum g → ringSumOf g l = 0) : EnclosesNothing l := by
  constructor
  · have := h _ flat_area
    unfold ringSumOf at this
    rw [← shoe_eq_edgeSum, ← twiceArea_shoe] at this
    exact_mod_cast this
  · intro q
    have := h _ (flat_wnd q)
    unfold ringSumOf at this
    rw [← winding_edgeSum] at this
    exact_mod_cast this

private theorem sign_flip {a b s t : Int} (h : a * t = b * s) (ha : a ≠ 0) (hb : b ≠ 0) :
    a * b + s * t < 0 ↔ a * b < 0 := by
  have h1 : (a * b + s * t) * (a * b) = (a * b) ^ 2 + (a * t) ^ 2 := by
    have : s * t * (a * b) = (a * t) * (b * s) := by ring
    rw [add_mul, this, ← h]; ring
  have h2 : 0 < (a * b + s * t) * (a * b) := by
    rw [h1]; have : 0 < (a * b) ^ 2 := by positivity
    nlinarith [sq_nonneg (a * t)]
  constructor
  · intro h3; by_contra h4; push Not at h4
    nlinarith
  · intro h3; by_contra h4; push Not at h4
    nlinarith

private theorem bool_sign {a b : Int} (ha : a ≠ 0) (hb : b ≠ 0) :
    ((decide (a < 0) == decide (0 < b)) = true) ↔ a * b < 0 := by
  rw [beq_iff_eq, decide_eq_decide]
  rcases lt_or_gt_of_ne ha with h1 | h1 <;> rcases lt_or_gt_of_ne hb with h2 | h2
  · have := mul_pos_of_neg_of_neg h1 h2
    constructor <;> intro h
    · exact absurd (h.1 h1) (by omega)
    · omega
  · exact ⟨fun _ => mul_neg_of_neg_of_pos h1 h2, fun _ => ⟨fun _ => h2, fun _ => h1⟩⟩
  · exact ⟨fun _ => mul_neg_of_pos_of_neg h1 h2, fun _ => ⟨fun _ => by omega, fun _ => by omega⟩⟩
  · have := mul_pos h1 h2
    constructor <;> intro h
    · exact absurd (h.2 h2) (by omega)
    · omega

/-! ### C113: `AddPath` -/

/-- For collinear points `Pt2IsBetweenPt1AndPt3` answers whether the second one is strictly between
the others. -/
theorem C113_between (p c n : IPt) (h : turn p.toPt c.toPt n.toPt = 0) :
    isBetween p c n = true ↔ StrictlyBetween p c n := by
  unfold StrictlyBetween
  rw [turn_int_zero] at h
  obtain ⟨px, py⟩ := p
  obtain ⟨cx, cy⟩ := c
  obtain ⟨nx, ny⟩ := n
  have h0 : turn (⟨px, py⟩ : IPt).toPt (⟨cx, cy⟩ : IPt).toPt (⟨nx, ny⟩ : IPt).toPt = 0 := by rw [turn_int_zero]; exact h
  simp only [h0, true_and]
  simp only at h
  unfold isBetween
  simp only [IPt.mk.injEq]
  have hcr : (px - cx) * (ny - cy) = (nx - cx) * (py - cy) := by linarith
  by_cases hc : (px = nx ∧ py = ny) ∨ (px = cx ∧ py = cy) ∨ nx = cx ∧ ny = cy
  · rw [if_pos hc]
    simp only [Bool.false_eq_true, false_iff, not_lt]
    rcases hc with ⟨rfl, rfl⟩ | ⟨rfl, rfl⟩ | ⟨rfl, rfl⟩
    · exact add_nonneg (mul_self_nonneg _) (mul_self_nonneg _)
    · simp
    · simp
  · rw [if_neg hc]
    push Not at hc
    obtain ⟨h1, h2, h3⟩ := hc
    by_cases hx : px = nx
    · subst hx
      have hy : py ≠ ny := h1 rfl
      have : (px - cx) * (ny - py) = 0 := by linarith
      rcases mul_eq_zero.1 this with h4 | h4
      · have h5 : px = cx := by omega
        subst h5
        have a1 : py - cy ≠ 0 := fun h => h2 rfl (by omega)
        have a2 : ny - cy ≠ 0 := fun h => h3 rfl (by omega)
        rw [if_neg (by simp)]
        have e1 : (cy > py) = (py - cy < 0) := by apply propext; omega
        have e2 : (cy < ny) = (0 < ny - cy) := by apply propext; omega
        simp only [e1, e2]
        rw [bool_sign a1 a2]; simp
      · omega
    · have a1 : px - cx ≠ 0 := by
        intro h4
        rw [h4, zero_mul] at hcr
        rcases mul_eq_zero.1 hcr.symm with h5 | h5
        · omega
        · exact h2 (by omega) (by omega)
      have a2 : nx - cx ≠ 0 := by
        intro h4
        rw [h4, zero_mul] at hcr
        rcases mul_eq_zero.1 hcr with h5 | h5
        · omega
        · exact h3 (by omega) (by omega)
      rw [if_pos (by simpa using hx)]
      have e1 : (cx > px) = (px - cx < 0) := by apply propext; omega
      have e2 : (cx < nx) = (0 < nx - cx) := by apply propext; omega
      simp only [e1, e2]
      rw [bool_sign a1 a2, sign_flip hcr a1 a2]

example : turn (⟨0, 0⟩ : IPt).toPt (⟨2, 1⟩ : IPt).toPt (⟨6, 3⟩ : IPt).toPt = 0 ∧
    StrictlyBetween ⟨0, 0⟩ ⟨2, 1⟩ ⟨6, 3⟩ ∧ ¬ StrictlyBetween ⟨0, 0⟩ ⟨6, 3⟩ ⟨2, 1⟩ := by
  unfold StrictlyBetween; decide +kernel

private theorem clean_of_good {keep : Bool} {a b c : IPt} (h : GoodTriple keep a b c) : CleanCorner keep a b c := by
  refine ⟨h.1, fun ht => ?_⟩
  have h2 := h.2
  by_contra hc
  apply h2
  refine ⟨ht, fun hk => ?_⟩
  cases hb : isBetween a b c with
  | false => rfl
  | true => exact absurd ⟨hk, (C113_between a b c ht).1 hb⟩ hc

private theorem good_of_clean {keep : Bool} {a b c : IPt} (h : CleanCorner keep a b c) : GoodTriple keep a b c := by
  refine ⟨h.1, fun ⟨ht, hk⟩ => ?_⟩
  obtain ⟨h1, h2⟩ := h.2 ht
  have := hk h1
  rw [(C113_between a b c ht).2 h2] at this
  cases this

private theorem mem_order {l : List IPt} (p : IPt) : p ∈ l.take 1 ++ (l.drop 1).reverse ↔ p ∈ l := by
  rw [List.mem_append, List.mem_reverse, ← List.mem_append, List.take_append_drop]

/-- The edges of a closed path, with their lower and upper ends. -/
def EdgesOf (es : List PathEdge) : Prop :=
  ∀ i e e', es[i % es.length]? = some e → es[(i + 1) % es.length]? = some e' →
    e.top.Y ≤ e.bot.Y ∧ ((e.bot = e.curr ∧ e.top = e'.curr) ∨ (e.bot = e'.curr ∧ e.top = e.curr))

private theorem zip_next (pts : List IPt) : pts.length = (pts.drop 1 ++ pts.take 1).length := by
  rw [List.length_append, List.length_drop, List.length_take]; omega

private theorem next_get (pts : List IPt) (i : Nat) (hi : i < pts.length) :
    (pts.drop 1 ++ pts.take 1)[i]? = pts[(i + 1) % pts.length]? := by
  have h1 : pts.drop 1 ++ pts.take 1 = pts.rotate 1 := by
    rcases pts with _ | ⟨a, l⟩
    · rfl
    · simp
  rw [h1, List.getElem?_rotate hi]

private theorem edges_curr (pts : List IPt) :
    ((pts.zip (pts.drop 1 ++ pts.take 1)).map (fun e => initEdge e.1 e.2)).map PathEdge.curr = pts := by
  rw [List.map_map]
  have : (PathEdge.curr ∘ fun e : IPt × IPt => initEdge e.1 e.2) = Prod.fst := by
    funext e
    simp only [Function.comp]
    unfold initEdge; split <;> rfl
  rw [this]
  exact List.map_fst_zip (by rw [← zip_next])

private theorem edges_ok (pts : List IPt) :
    EdgesOf ((pts.zip (pts.drop 1 ++ pts.take 1)).map (fun e => initEdge e.1 e.2)) := by
  intro i e e' h1 h2
  have hlen : ((pts.zip (pts.drop 1 ++ pts.take 1)).map (fun e => initEdge e.1 e.2)).length = pts.length := by
    rw [List.length_map, List.length_zip, ← zip_next, Nat.min_self]
  rw [hlen] at h1 h2
  have hc' : pts[(i + 1) % pts.length]? = some e'.curr := by
    have := congrArg (fun l : List IPt => l[(i + 1) % pts.length]?) (edges_curr pts)
    rw [← this, List.getElem?_map, h2]; rfl
  have hpos : 0 < pts.length := by
    rcases pts with _ | ⟨a, l⟩
    · simp at hc'
    · simp
  rw [List.getElem?_map, Option.map_eq_some_iff] at h1
  obtain ⟨⟨a, b⟩, h3, rfl⟩ := h1
  obtain ⟨_, h5⟩ := List.getElem?_zip_eq_some.1 h3
  rw [next_get _ _ (Nat.mod_lt _ hpos), Nat.mod_add_mod, hc'] at h5
  simp only [Option.some.injEq] at h5
  subst h5
  unfold initEdge
  split
  · rename_i h; exact ⟨h, Or.inl ⟨rfl, rfl⟩⟩
  · rename_i h; simp only at h; exact ⟨by simp only; omega, Or.inr ⟨rfl, rfl⟩⟩

private theorem prepare_core {keep full : Bool} {pg : List IPt} {f : Bool}
    (hR : ∀ p ∈ trim pg, CoordsWithin (RangeOf f) p) (hlen : 3 ≤ (trim pg).length)
    (hf : rangeTests ((trim pg).take 1 ++ ((trim pg).drop 1).reverse) full = .ok f) :
    (preparePath keep full pg = .ok (none, f) ∧ EnclosesNothing pg) ∨
    ∃ pts : List IPt, preparePath keep full pg =
        .ok (some ((pts.zip (pts.drop 1 ++ pts.take 1)).map (fun e => initEdge e.1 e.2)), f) ∧
      3 ≤ pts.length ∧ pts.Sublist pg ∧ SameRegion pts pg ∧
      ∀ a b c, Corner pts a b c → GoodTriple keep a b c := by
  have hne : trim pg ≠ [] := by intro hc; rw [hc] at hlen; simp at hlen
  obtain ⟨tp, ts⟩ := trim_spec pg
  obtain ⟨t, t1, t2, t3, t4, t5⟩ := pathLoop_points (keep := keep) hne hR (Nat.le_refl _)
  unfold preparePath
  simp only
  rw [if_neg (by omega), hf, Outcome.bind_ok, t1, Outcome.bind_ok]
  by_cases h3 : t.ring.length < 3
  · left
    rw [if_pos h3]
    refine ⟨rfl, enclosesNothing_of (fun g hg => ?_)⟩
    rw [← ts g hg, ← t4 g hg]
    exact ringSumOf_short hg _ (by rw [List.length_map, t3]; exact h3)
  · right
    rw [if_neg h3]
    push Not at h3
    have hl3 : 3 ≤ ((fromNode t.start t.ring).map Prod.snd).length := by rw [List.length_map, t3]; exact h3
    have h5 := t5 h3
    refine ⟨(fromNode t.start t.ring).map Prod.snd, ?_, hl3, t2.trans tp.sublist,
      sameRegion_of (fun g hg => by rw [t4 g hg, ts g hg]), h5⟩
    rw [if_neg]
    · rfl
    · intro hflat
      generalize hpts : (fromNode t.start t.ring).map Prod.snd = pts at *
      obtain ⟨a, l, rfl⟩ := List.exists_cons_of_ne_nil (show pts ≠ [] by rintro rfl; simp at hl3)
      apply not_flat (l := a :: l) (keep := keep) (by simp) a.Y _ h5
      intro p hp
      rw [List.all_eq_true] at hflat
      have := hflat p (by rw [List.mem_append, or_comm, ← List.mem_append, List.take_append_drop]; exact hp)
      simpa using this

/-- `AddPath` never runs forever and never goes wrong on closed paths with 64-bit coordinates: it
throws exactly if a coordinate (of the points that are left after trimming equal points at the end,
which have the same points) is out of range. -/
theorem C113_outcome (keep full : Bool) (pg : List IPt) (h64 : Path64 pg) :
    ((∀ p ∈ pg, CoordsWithin (RangeOf true) p) → ∃ r, preparePath keep full pg = .ok r) ∧
    ((∃ p ∈ pg, ¬ CoordsWithin (RangeOf true) p) → 3 ≤ (trim pg).length → preparePath keep full pg = .exn) := by
  obtain ⟨tp, _⟩ := trim_spec pg
  have h64' : ∀ p ∈ (trim pg).take 1 ++ ((trim pg).drop 1).reverse, Is64 p.X ∧ Is64 p.Y ∧
      p.X ≠ -2 ^ 63 ∧ p.Y ≠ -2 ^ 63 := fun p hp => h64 p (tp.subset ((mem_order p).1 hp))
  obtain ⟨r1, r2, r3⟩ := C109_rangeTests _ full h64'
  constructor
  · intro hin
    by_cases hlen : (trim pg).length < 3
    · exact ⟨_, by unfold preparePath; simp only; rw [if_pos hlen]⟩
    · obtain ⟨f, hf⟩ := r2 (fun p hp => hin p (tp.subset ((mem_order p).1 hp)))
      have hR : ∀ p ∈ trim pg, CoordsWithin (RangeOf f) p := fun p hp => (r1 f hf).2 p ((mem_order p).2 hp)
      rcases prepare_core (keep := keep) hR (by omega) hf with ⟨h, _⟩ | ⟨pts, h, _⟩
      · exact ⟨_, h⟩
      · exact ⟨_, h⟩
  · rintro ⟨p, hp, hout⟩ hlen
    unfold preparePath
    simp only
    rw [if_neg (by omega), r3 ⟨p, (mem_order p).2 ((trim_mem pg p).2 hp), hout⟩]
    rfl

/-- Two different points are too few: the only paths on which `AddPath` stops before looking at the
coordinates have at most two points after equal points at the end have been dropped. -/
theorem C113_short (keep full : Bool) (pg : List IPt) (h : (trim pg).length < 3) :
    preparePath keep full pg = .ok (none, full) ∧ EnclosesNothing pg := by
  constructor
  · unfold preparePath; simp only; rw [if_pos h]
  · apply enclosesNothing_of
    intro g hg
    rw [← (trim_spec pg).2 g hg]
    exact ringSumOf_short hg _ h

/-- The paths `AddPath` rejects enclose nothing: their area is zero and they go around no point of
the plane. -/
theorem C113_rejected (keep full : Bool) (pg : List IPt) (h64 : Path64 pg) (f : Bool)
    (h : preparePath keep full pg = .ok (none, f)) : EnclosesNothing pg := by
  by_cases hlen : (trim pg).length < 3
  · exact (C113_short keep full pg hlen).2
  · obtain ⟨tp, _⟩ := trim_spec pg
    have h64' : ∀ p ∈ (trim pg).take 1 ++ ((trim pg).drop 1).reverse, Is64 p.X ∧ Is64 p.Y ∧
        p.X ≠ -2 ^ 63 ∧ p.Y ≠ -2 ^ 63 := fun p hp => h64 p (tp.subset ((mem_order p).1 hp))
    obtain ⟨r1, r2, r3⟩ := C109_rangeTests _ full h64'
    by_cases hin : ∀ p ∈ pg, CoordsWithin (RangeOf true) p
    · obtain ⟨f', hf⟩ := r2 (fun p hp => hin p (tp.subset ((mem_order p).1 hp)))
      have hR : ∀ p ∈ trim pg, CoordsWithin (RangeOf f') p := fun p hp => (r1 f' hf).2 p ((mem_order p).2 hp)
      rcases prepare_core (keep := keep) hR (by omega) hf with ⟨_, h'⟩ | ⟨pts, h', _⟩
      · exact h'
      · rw [h'] at h; cases h
    · push Not at hin
      rw [(C113_outcome keep full pg h64).2 hin (by omega)] at h
      cases h

/-- The edges `AddPath` builds: their starting points are a subsequence of the path with at least
three points, in which no two neighbours are equal and no corner is flat (with `PreserveCollinear` a
corner strictly between its neighbours stays), and which has the area of the path and goes around
every point of the plane as often as the path does; every edge goes from its lower end to its upper
end, which are consecutive points; the flag says which range the coordinates are in. -/
theorem C113_edges (keep full : Bool) (pg : List IPt) (h64 : Path64 pg) (es : List PathEdge) (f : Bool)
    (h : preparePath keep full pg = .ok (some es, f)) :
    3 ≤ es.length ∧ (es.map PathEdge.curr).Sublist pg ∧ SameRegion (es.map PathEdge.curr) pg ∧
    (∀ a b c, Corner (es.map PathEdge.curr) a b c → CleanCorner keep a b c) ∧
    EdgesOf es ∧ (∀ p ∈ pg, CoordsWithin (RangeOf f) p) ∧ (full = true → f = true) := by
  have hlen : ¬ (trim pg).length < 3 := by
    intro hc; rw [(C113_short keep full pg hc).1] at h; cases h
  obtain ⟨tp, _⟩ := trim_spec pg
  have h64' : ∀ p ∈ (trim pg).take 1 ++ ((trim pg).drop 1).reverse, Is64 p.X ∧ Is64 p.Y ∧
      p.X ≠ -2 ^ 63 ∧ p.Y ≠ -2 ^ 63 := fun p hp => h64 p (tp.subset ((mem_order p).1 hp))
  obtain ⟨r1, r2, r3⟩ := C109_rangeTests _ full h64'
  have hin : ∀ p ∈ pg, CoordsWithin (RangeOf true) p := by
    by_contra hc
    push Not at hc
    rw [(C113_outcome keep full pg h64).2 hc (by omega)] at h
    cases h
  obtain ⟨f', hf⟩ := r2 (fun p hp => hin p (tp.subset ((mem_order p).1 hp)))
  have hR : ∀ p ∈ trim pg, CoordsWithin (RangeOf f') p := fun p hp => (r1 f' hf).2 p ((mem_order p).2 hp)
  rcases prepare_core (keep := keep) hR (by omega) hf with ⟨h', _⟩ | ⟨pts, h', c1, c2, c3, c4⟩
  · rw [h'] at h; cases h
  · rw [h'] at h
    rw [Outcome.ok.injEq, Prod.mk.injEq, Option.some.injEq] at h
    obtain ⟨rfl, rfl⟩ := h
    rw [edges_curr]
    refine ⟨?_, c2, c3, fun a b c hc => clean_of_good (c4 a b c hc), edges_ok pts, fun p hp => ?_, (r1 _ hf).1⟩
    · rw [List.length_map, List.length_zip, ← zip_next, Nat.min_self]; exact c1
    · exact hR p ((trim_mem pg p).2 hp)

example : Path64 [⟨0, 0⟩, ⟨4, 0⟩, ⟨4, 0⟩, ⟨4, 2⟩, ⟨4, 4⟩, ⟨0, 4⟩, ⟨0, 0⟩] ∧
    preparePath false false [⟨0, 0⟩, ⟨4, 0⟩, ⟨4, 0⟩, ⟨4, 2⟩, ⟨4, 4⟩, ⟨0, 4⟩, ⟨0, 0⟩] = .ok (some
      [⟨⟨0, 0⟩, ⟨0, 0⟩, ⟨4, 0⟩⟩, ⟨⟨4, 0⟩, ⟨4, 4⟩, ⟨4, 0⟩⟩, ⟨⟨4, 4⟩, ⟨4, 4⟩, ⟨0, 4⟩⟩, ⟨⟨0, 4⟩, ⟨0, 4⟩, ⟨0, 0⟩⟩], false) := by
  unfold Path64 Is64; decide +kernel

private theorem consecutive_ne {keep : Bool} {pg : List IPt} (hc : ∀ a b c, Corner pg a b c → CleanCorner keep a b c)
    (i : Nat) {b c : IPt} (h1 : pg[i % pg.length]? = some b) (h2 : pg[(i + 1) % pg.length]? = some c) : b ≠ c := by
  have hpos : 0 < pg.length := by
    rcases pg with _ | ⟨a, l⟩
    · simp at h1
    · simp
  apply (hc (pg[(i + (pg.length - 1)) % pg.length]'(Nat.mod_lt _ hpos)) b c ?_).1
  refine ⟨i + (pg.length - 1), List.getElem?_eq_getElem _, ?_, ?_⟩
  · rw [show i + (pg.length - 1) + 1 = i + pg.length by omega, Nat.add_mod_right]; exact h1
  · rw [show i + (pg.length - 1) + 2 = i + 1 + pg.length by omega, Nat.add_mod_right]; exact h2

private theorem trim_clean {keep : Bool} {pg : List IPt} (hlen : 3 ≤ pg.length)
    (hc : ∀ a b c, Corner pg a b c → CleanCorner keep a b c) : trim pg = pg := by
  obtain ⟨r, hr⟩ : ∃ r, pg.reverse = r := ⟨_, rfl⟩
  have hpg : pg = r.reverse := by rw [← hr, List.reverse_reverse]
  have hrl : r.length = pg.length := by rw [← hr, List.length_reverse]
  match r, hrl with
  | [], hrl => simp at hrl; omega
  | [_], hrl => simp at hrl; omega
  | z :: y :: r, hrl =>
    have hz : pg[pg.length - 1]? = some z := by
      rw [hpg]; simp
    have hy : pg[pg.length - 2]? = some y := by
      rw [hpg]; simp [List.getElem?_append]
    have h1 : y ≠ z := by
      apply consecutive_ne hc (pg.length - 2)
      · rw [Nat.mod_eq_of_lt (by omega)]; exact hy
      · rw [show pg.length - 2 + 1 = pg.length - 1 by omega, Nat.mod_eq_of_lt (by omega)]; exact hz
    unfold trim
    match pg, hlen, hr, hz, hc with
    | [], hlen, _, _, _ => simp at hlen
    | p :: l, hlen, hr, hz, hc =>
      have h2 : z ≠ p := by
        apply consecutive_ne hc ((p :: l).length - 1)
        · rw [Nat.mod_eq_of_lt (by omega)]; exact hz
        · rw [show (p :: l).length - 1 + 1 = (p :: l).length by omega, Nat.mod_self]; rfl
      simp only
      rw [hr]
      unfold trimFirst
      rw [if_neg h2]
      unfold trimLast
      rw [if_neg (Ne.symm h1), ← hr, List.reverse_reverse]

/-- A path without equal neighbours and flat corners is taken as it is. -/
theorem C113_clean (keep full : Bool) (pg : List IPt) (h64 : Path64 pg)
    (hin : ∀ p ∈ pg, CoordsWithin (RangeOf true) p) (hlen : 3 ≤ pg.length)
    (hc : ∀ a b c, Corner pg a b c → CleanCorner keep a b c) :
    ∃ es f, preparePath keep full pg = .ok (some es, f) ∧ es.map PathEdge.curr = pg := by
  have htr := trim_clean hlen hc
  have h64' : ∀ p ∈ pg.take 1 ++ (pg.drop 1).reverse, Is64 p.X ∧ Is64 p.Y ∧
      p.X ≠ -2 ^ 63 ∧ p.Y ≠ -2 ^ 63 := fun p hp => h64 p ((mem_order p).1 hp)
  obtain ⟨r1, r2, _⟩ := C109_rangeTests _ full h64'
  obtain ⟨f, hf⟩ := r2 (fun p hp => hin p ((mem_order p).1 hp))
  have hR : ∀ p ∈ pg, CoordsWithin (RangeOf f) p := fun p hp => (r1 f hf).2 p ((mem_order p).2 hp)
  have hne : pg ≠ [] := by rintro rfl; simp at hlen
  obtain ⟨t, t1, _⟩ := pathLoop_points (keep := keep) hne hR (Nat.le_refl _)
  have hL := nodes_nodup pg
  have hIR : InRange f ((List.range pg.length).zip pg) := by
    intro v hv
    apply hR
    rw [← nodes_snd pg]
    exact List.mem_map_of_mem hv
  have hzne : (List.range pg.length).zip pg ≠ [] := by
    intro h
    have := congrArg List.length h
    rw [List.length_zip, List.length_range, Nat.min_self, List.length_nil] at this
    omega
  obtain ⟨A, B, c1, c2, c3, c4⟩ := pathLoop_steady (keep := keep) (start := 0) hL hIR (by simpa using hlen)
    (by rw [nodes_snd]; exact fun a b c h => good_of_clean (hc a b c h)) _ [] _ 0 t (by simp) hzne
    (by rw [List.append_nil]; exact t1)
  have hhd : (A ++ B).head?.map Prod.fst = some 0 := by
    rw [c1]
    obtain ⟨a, l, rfl⟩ := List.exists_cons_of_ne_nil hne
    simp [List.range_succ_eq_map]
  have hfrom : fromNode t.start t.ring = (List.range pg.length).zip pg := by
    rw [c3, c4, fromNode_eq (by rw [c1]; exact hL) hhd c2, c1]
  have hring : t.ring.length = pg.length := by
    rw [c3, List.length_append, Nat.add_comm, ← List.length_append, c1]; simp
  refine ⟨(pg.zip (pg.drop 1 ++ pg.take 1)).map (fun e => initEdge e.1 e.2), f, ?_, edges_curr pg⟩
  unfold preparePath
  simp only [htr]
  rw [if_neg (show ¬ pg.length < 3 by omega), hf, Outcome.bind_ok, t1, Outcome.bind_ok,
    if_neg (show ¬ t.ring.length < 3 by omega), hfrom, nodes_snd, if_neg]
  · rfl
  · intro hflat
    obtain ⟨a, l, rfl⟩ := List.exists_cons_of_ne_nil hne
    apply not_flat (l := a :: l) (keep := keep) (by simp) a.Y _ (fun a b c h => good_of_clean (hc a b c h))
    intro p hp
    rw [List.all_eq_true] at hflat
    have := hflat p (by rw [List.mem_append, or_comm, ← List.mem_append, List.take_append_drop]; exact hp)
    simpa using this

private theorem corner_cases {l : List IPt} {P : IPt → IPt → IPt → Prop} (h : ∀ i < l.length, ∀ a b c,
      l[i]? = some a → l[(i + 1) % l.length]? = some b → l[(i + 2) % l.length]? = some c → P a b c)
    (a b c : IPt) (hc : Corner l a b c) : P a b c := by
  obtain ⟨i, h1, h2, h3⟩ := hc
  have hpos : 0 < l.length := by
    rcases l with _ | ⟨x, l⟩
    · simp at h1
    · simp
  refine h (i % l.length) (Nat.mod_lt _ hpos) a b c h1 ?_ ?_
  · rw [Nat.mod_add_mod]; exact h2
  · rw [Nat.mod_add_mod]; exact h3

example : let pg : List IPt := [⟨0, 0⟩, ⟨5000000000, 0⟩, ⟨5000000000, 3⟩, ⟨1, 3⟩]
    Path64 pg ∧ (∀ p ∈ pg, CoordsWithin (RangeOf true) p) ∧ 3 ≤ pg.length ∧
      ∀ a b c, Corner pg a b c → CleanCorner false a b c := by
  refine ⟨by unfold Path64 Is64; decide +kernel, by decide +kernel, by decide, ?_⟩
  apply corner_cases
  intro i hi a b c
  have : i = 0 ∨ i = 1 ∨ i = 2 ∨ i = 3 := by simp only [List.length_cons, List.length_nil] at hi; omega
  rcases this with rfl | rfl | rfl | rfl <;>
  · simp only [List.length_cons, List.length_nil]
    rintro ⟨⟩ ⟨⟩ ⟨⟩
    refine ⟨by decide, fun h => absurd h (by decide +kernel)⟩

/-! ### C114: `FixupOutPolygon` -/

/-- `FixupOutPolygon` ends on every ring whose coordinates are in the range of the flag, and what it
leaves is either nothing, and the ring encloses nothing, or a ring of at least three points, a
subsequence of the given ring up to the point it is looked at from, without equal neighbours and flat
corners (with `PreserveCollinear` or `StrictlySimple` a corner strictly between its neighbours stays)
that has the same area and goes around every point of the plane equally often. -/
theorem C114_fixup (keep full : Bool) (pts : List IPt) (hne : pts ≠ [])
    (hR : ∀ p ∈ pts, CoordsWithin (RangeOf full) p) :
    ∃ out, fixupOutPolygon keep full pts = .ok out ∧
      ((out = [] ∧ EnclosesNothing pts) ∨
       (3 ≤ out.length ∧ (∃ (sub : List IPt) (k : Nat), sub.Sublist pts ∧ out = sub.rotate k) ∧ SameRegion out pts ∧
        ∀ a b c, Corner out a b c → CleanCorner keep a b c)) := by
  have hL := nodes_nodup pts
  have hIR : InRange full ((List.range pts.length).zip pts) := by
    intro v hv
    apply hR
    rw [← nodes_snd pts]
    exact List.mem_map_of_mem hv
  have hpos := List.length_pos_of_ne_nil hne
  have hzl : ((List.range pts.length).zip pts).length = pts.length := by simp
  have hzne : (List.range pts.length).zip pts ≠ [] := by
    intro h; rw [h] at hzl; simp at hzl; omega
  obtain ⟨t, t1, t2⟩ := fixLoop_spec (keep := keep) hL hIR (2 * pts.length * (pts.length + 1) + 1)
    ⟨(List.range pts.length).zip pts, none⟩ 0
    ⟨⟨[], (List.range pts.length).zip pts, by simp, by simp⟩, hzne, by omega, fun _ => rfl, fun h => by omega, fun i hi => by omega, fun _ _ => rfl⟩
    (by simp only [hzl]; nlinarith)
  refine ⟨t.ring.map Prod.snd, by unfold fixupOutPolygon; rw [t1]; rfl, ?_⟩
  rw [FixFinal, nodes_snd] at t2
  rcases t2 with ⟨h1, h2⟩ | ⟨⟨A, B, p1, p2⟩, h1, h2, h3⟩
  · exact Or.inl ⟨by rw [h1]; rfl, enclosesNothing_of h2⟩
  · refine Or.inr ⟨by rw [List.length_map]; exact h1, ⟨(A ++ B).map Prod.snd, A.length, ?_, ?_⟩,
      sameRegion_of h3, fun a b c hc => clean_of_good (corners_good h2 hc)⟩
    · have := p2.map Prod.snd
      rwa [nodes_snd] at this
    · rw [p1, List.map_append, List.map_append]
      conv_rhs => rw [← List.length_map (f := Prod.snd) (as := A)]
      rw [List.rotate_append_length_eq]

example : fixupOutPolygon false false [⟨0, 0⟩, ⟨4, 0⟩, ⟨4, 0⟩, ⟨4, 2⟩, ⟨4, 4⟩, ⟨0, 4⟩] =
    .ok [⟨4, 0⟩, ⟨4, 4⟩, ⟨0, 4⟩, ⟨0, 0⟩] ∧
    fixupOutPolygon true false [⟨0, 0⟩, ⟨4, 0⟩, ⟨4, 0⟩, ⟨4, 2⟩, ⟨4, 4⟩, ⟨0, 4⟩] =
    .ok [⟨0, 0⟩, ⟨4, 0⟩, ⟨4, 2⟩, ⟨4, 4⟩, ⟨0, 4⟩] ∧
    fixupOutPolygon true false [⟨0, 0⟩, ⟨4, 0⟩, ⟨2, 0⟩] = .ok [] := by decide +kernel

/-- A ring that goes around some point, or has an area, is not deleted. -/
theorem C114_kept (keep full : Bool) (pts : List IPt) (hne : pts ≠ [])
    (hR : ∀ p ∈ pts, CoordsWithin (RangeOf full) p)
    (h : twiceArea pts ≠ 0 ∨ ∃ q : Pt ℚ, winding (pts.map IPt.toPt) q ≠ 0) :
    ∃ out, fixupOutPolygon keep full pts = .ok out ∧ 3 ≤ out.length ∧ twiceArea out = twiceArea pts := by
  obtain ⟨out, o1, ⟨rfl, o2⟩ | ⟨o2, _, o4, _⟩⟩ := C114_fixup keep full pts hne hR
  · rcases h with h | ⟨q, h⟩
    · exact absurd o2.1 h
    · exact absurd (o2.2 q) h
  · exact ⟨out, o1, o2, o4.1⟩

example : twiceArea [⟨0, 0⟩, ⟨4, 0⟩, ⟨4, 2⟩, ⟨4, 4⟩] ≠ 0 := by decide

end Delynoi
