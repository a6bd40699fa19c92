import Verif.Model.Box
import Mathlib.Algebra.BigOperators.Fin
import Mathlib.Algebra.Order.BigOperators.Group.Finset
import Mathlib.Algebra.Order.Ring.Abs
import Mathlib.Tactic.Linarith
import Mathlib.Tactic.NormNum
import Mathlib.Tactic.Ring
import Mathlib.Tactic.FieldSimp
import Mathlib.Tactic.Positivity
import Mathlib.Data.Rat.Cast.Order
import Mathlib.Algebra.Order.Ring.Rat

/-!
# C35, C36: boxes
-/
namespace Verif
namespace Box
variable {D : Nat} {K : Type*} [Field K] [LinearOrder K] [IsStrictOrderedRing K]

theorem allDims_iff {c : Fin D → Bool} : allDims D c = true ↔ ∀ d, c d = true := by
  simp [allDims]

theorem foldl_sum (l : List (Fin D)) (f : Fin D → K) (x : K) :
    l.foldl (fun a i => a + f i) x = x + (l.map f).sum := by
  induction l generalizing x with
  | nil => simp
  | cons a l ih => rw [List.foldl_cons, ih, List.map_cons, List.sum_cons, add_assoc]

theorem sqDistLoop_eq (a b : Vec D K) : sqDistLoop a b = ∑ i, (a i - b i) * (a i - b i) := by
  rw [sqDistLoop, foldl_sum, zero_add, List.sum_ofFn.symm, List.ofFn_eq_map]

/-- The points of a box. -/
def pts (b : Box D K) : Set (Vec D K) := {p | ∀ d, b.low d ≤ p d ∧ p d ≤ b.high d}

/-- **C35.** Point containment is membership. -/
theorem C35_contains_point (b : Box D K) (p : Vec D K) :
    b.containsPoint p = true ↔ ∀ d, b.low d ≤ p d ∧ p d ≤ b.high d := by
  simp [containsPoint, allDims_iff]

/-- **C35.** Box containment is inclusion of the points (for a non-empty inner box). -/
theorem C35_contains_box (b c : Box D K) (hc : ∀ d, c.low d ≤ c.high d) :
    b.containsBox c = true ↔ c.pts ⊆ b.pts := by
  simp only [containsBox, allDims_iff, decide_eq_true_eq]
  constructor
  · intro h p hp d
    exact ⟨(h d).1.trans (hp d).1, (hp d).2.trans (h d).2⟩
  · intro h d
    exact ⟨(h (a := c.low) (fun d => ⟨le_refl _, hc d⟩) d).1,
      (h (a := c.high) (fun d => ⟨hc d, le_refl _⟩) d).2⟩

theorem sq_le_of_sum {x : Fin D → K} {r : K} (hr : 0 ≤ r)
    (h : ∑ i, x i * x i ≤ r * r) (d : Fin D) : |x d| ≤ r := by
  have h1 : x d * x d ≤ ∑ i, x i * x i :=
    Finset.single_le_sum (f := fun i => x i * x i) (fun i _ => mul_self_nonneg _) (Finset.mem_univ d)
  exact abs_le_of_sq_le_sq (by simpa [pow_two] using h1.trans h) hr

theorem sq_lt_of_sum {x : Fin D → K} {r : K} (hr : 0 ≤ r)
    (h : ∑ i, x i * x i < r * r) (d : Fin D) : |x d| < r := by
  have h1 : x d * x d ≤ ∑ i, x i * x i :=
    Finset.single_le_sum (f := fun i => x i * x i) (fun i _ => mul_self_nonneg _) (Finset.mem_univ d)
  exact abs_lt_of_sq_lt_sq (by simpa [pow_two] using h1.trans_lt h) hr

theorem sqDist_update (c : Vec D K) (d : Fin D) (y : K) :
    ∑ i, (c i - Function.update c d y i) * (c i - Function.update c d y i) =
      (c d - y) * (c d - y) := by
  rw [Finset.sum_eq_single d]
  · simp
  · intro i _ hi
    simp [Function.update_of_ne hi]
  · simp

theorem containsSphere_iff (b : Box D K) (s : Sphere D K) (hr : 0 ≤ s.radius) :
    b.containsSphere s = true ↔
      ∀ d, b.low d + s.radius ≤ s.center d ∧ s.center d + s.radius ≤ b.high d := by
  unfold containsSphere
  simp only
  split
  case isFalse hf =>
    simp only [allDims_iff, decide_eq_true_eq, not_forall] at hf
    obtain ⟨d, hd⟩ := hf
    constructor
    · simp
    · intro h
      exact absurd ⟨by linarith [(h d).1], by linarith [(h d).2]⟩ hd
  case isTrue ht =>
    simp only [allDims_iff, decide_eq_true_eq, Bool.not_eq_true', decide_eq_false_iff_not, not_lt,
      sqDistLoop_eq, sqDist_update] at ht ⊢
    refine forall_congr' fun d => ?_
    have h1 := (ht d).1
    have h2 := (ht d).2
    split
    case isTrue hlt =>
      rw [lt_div_iff₀ (by norm_num)] at hlt
      constructor
      · intro h
        have : s.radius ≤ s.center d - b.low d :=
          le_of_sq_le_sq (by simpa [pow_two] using h) (by linarith)
        constructor <;> linarith
      · rintro ⟨h, _⟩
        exact mul_self_le_mul_self hr (by linarith)
    case isFalse hlt =>
      rw [not_lt, div_le_iff₀ (by norm_num)] at hlt
      constructor
      · intro h
        have : s.radius ≤ b.high d - s.center d := by
          refine le_of_sq_le_sq ?_ (by linarith)
          nlinarith
        constructor <;> linarith
      · rintro ⟨_, h⟩
        nlinarith [mul_self_le_mul_self hr (by linarith : s.radius ≤ b.high d - s.center d)]

/-- **C35.** `contains(sphere)` holds exactly if the closed ball lies in the box. -/
theorem C35_contains_closed_ball (b : Box D K) (s : Sphere D K) (hr : 0 ≤ s.radius) :
    b.containsSphere s = true ↔
      ∀ p : Vec D K, ∑ i, (p i - s.center i) * (p i - s.center i) ≤ s.radius * s.radius →
        ∀ d, b.low d ≤ p d ∧ p d ≤ b.high d := by
  rw [containsSphere_iff b s hr]
  constructor
  · intro h p hp d
    have := abs_le.mp (sq_le_of_sum hr hp d)
    have := h d
    constructor <;> linarith
  · intro h d
    have key : ∀ y : K, (s.center d - y) * (s.center d - y) = s.radius * s.radius →
        b.low d ≤ y ∧ y ≤ b.high d := by
      intro y hy
      have := h (Function.update s.center d y) (by
        have := sqDist_update s.center d y
        rw [hy] at this
        refine le_of_eq (Eq.trans (Finset.sum_congr rfl fun i _ => ?_) this)
        ring) d
      simpa using this
    have k1 := key (s.center d - s.radius) (by ring)
    have k2 := key (s.center d + s.radius) (by ring)
    constructor <;> linarith

/-- **C35.** For a positive radius this is the same as containment of the open ball. -/
theorem C35_contains_open_ball (b : Box D K) (s : Sphere D K) (hr : 0 < s.radius) :
    b.containsSphere s = true ↔
      ∀ p : Vec D K, ∑ i, (p i - s.center i) * (p i - s.center i) < s.radius * s.radius →
        ∀ d, b.low d ≤ p d ∧ p d ≤ b.high d := by
  constructor
  · intro h p hp
    exact (C35_contains_closed_ball b s hr.le).mp h p hp.le
  · intro h
    rw [containsSphere_iff b s hr.le]
    intro d
    have key : ∀ y : K, (s.center d - y) * (s.center d - y) < s.radius * s.radius →
        b.low d ≤ y ∧ y ≤ b.high d := by
      intro y hy
      have := h (Function.update s.center d y) (by
        have := sqDist_update s.center d y
        refine lt_of_eq_of_lt (Eq.trans (Finset.sum_congr rfl fun i _ => ?_) this) hy
        ring) d
      simpa using this
    by_contra hcon
    rw [not_and_or, not_le, not_le] at hcon
    have k0 := key (s.center d) (by nlinarith)
    rcases hcon with hc | hc
    · have := (key ((s.center d - s.radius + b.low d) / 2) (by nlinarith)).1
      linarith
    · have := (key ((s.center d + s.radius + b.high d) / 2) (by nlinarith)).2
      linarith

/-- Distance of a coordinate from an interval. -/
theorem excess_le {l h c y : K} (h1 : l ≤ y) (h2 : y ≤ h) :
    max (l - c) 0 + max (c - h) 0 ≤ |y - c| := by
  rcases le_total l c with h3 | h3 <;> rcases le_total c h with h4 | h4
  · rw [max_eq_right (by linarith), max_eq_right (by linarith)]; simp
  · rw [max_eq_right (by linarith), max_eq_left (by linarith), abs_sub_comm]
    exact le_trans (by linarith) (le_abs_self _)
  · rw [max_eq_left (by linarith), max_eq_right (by linarith)]
    exact le_trans (by linarith) (le_abs_self _)
  · rw [max_eq_left (by linarith), max_eq_left (by linarith)]
    linarith [le_abs_self (y - c)]

theorem excess_attained {l h c : K} (hlh : l ≤ h) :
    ∃ y, l ≤ y ∧ y ≤ h ∧ |y - c| = max (l - c) 0 + max (c - h) 0 := by
  rcases le_total l c with h3 | h3
  · rcases le_total c h with h4 | h4
    · exact ⟨c, h3, h4, by rw [max_eq_right (by linarith), max_eq_right (by linarith)]; simp⟩
    · exact ⟨h, hlh, le_refl _, by
        rw [max_eq_right (by linarith), max_eq_left (by linarith), abs_sub_comm,
          abs_of_nonneg (by linarith)]; ring⟩
  · exact ⟨l, le_refl _, hlh, by
      rw [max_eq_left (by linarith), max_eq_right (by linarith), abs_of_nonneg (by linarith)]; ring⟩

theorem excess_nonneg {l h c : K} : 0 ≤ max (l - c) 0 + max (c - h) 0 :=
  add_nonneg (le_max_right _ _) (le_max_right _ _)

theorem intersectsLoop_spec (b : Box D K) (s : Sphere D K) (ds : List (Fin D)) (x : K) :
    intersectsLoop b s ds x =
      if ∃ d ∈ ds, s.radius < max (b.low d - s.center d) 0 + max (s.center d - b.high d) 0 then none
      else some (x + (ds.map fun d => (max (b.low d - s.center d) 0 + max (s.center d - b.high d) 0) *
        (max (b.low d - s.center d) 0 + max (s.center d - b.high d) 0)).sum) := by
  induction ds generalizing x with
  | nil => simp [intersectsLoop]
  | cons d ds ih =>
    simp only [intersectsLoop]
    split
    case isTrue h => rw [if_pos ⟨d, by simp, h⟩]
    case isFalse h =>
      rw [ih]
      by_cases h2 : ∃ d ∈ ds, s.radius < max (b.low d - s.center d) 0 + max (s.center d - b.high d) 0
      · rw [if_pos h2, if_pos]
        obtain ⟨d, hd, h2⟩ := h2
        exact ⟨d, by simp [hd], h2⟩
      · rw [if_neg h2, if_neg]
        · simp [add_assoc]
        · rintro ⟨e, he, h3⟩
          rcases List.mem_cons.mp he with rfl | he
          · exact h h3
          · exact h2 ⟨e, he, h3⟩

/-- **C35.** `intersects(sphere)` holds exactly if some point of the (non-empty) box has at most the
distance `radius` from the centre. -/
theorem C35_intersects (b : Box D K) (s : Sphere D K) (hr : 0 ≤ s.radius)
    (hb : ∀ d, b.low d ≤ b.high d) :
    b.intersects s = true ↔
      ∃ p : Vec D K, (∀ d, b.low d ≤ p d ∧ p d ≤ b.high d) ∧
        ∑ i, (p i - s.center i) * (p i - s.center i) ≤ s.radius * s.radius := by
  unfold intersects
  simp only [intersectsLoop_spec]
  set e : Fin D → K := fun d => max (b.low d - s.center d) 0 + max (s.center d - b.high d) 0 with he
  have hsum : ((List.finRange D).map fun d => e d * e d).sum = ∑ i, e i * e i := by
    rw [List.sum_ofFn.symm, List.ofFn_eq_map]
  constructor
  · intro h
    split at h
    · simp at h
    case h_2 dist hd =>
      split at hd
      · simp at hd
      · rw [zero_add, Option.some.injEq] at hd
        simp only [decide_eq_true_eq] at h
        choose p hp1 hp2 hp3 using fun d => excess_attained (c := s.center d) (hb d)
        refine ⟨p, fun d => ⟨hp1 d, hp2 d⟩, ?_⟩
        rw [← hd] at h
        refine le_trans (le_of_eq ?_) h
        rw [hsum]
        refine Finset.sum_congr rfl fun i _ => ?_
        rw [← abs_mul_abs_self, hp3]
  · rintro ⟨p, hp, hd⟩
    have hle : ∀ d, e d ≤ |p d - s.center d| := fun d => excess_le (hp d).1 (hp d).2
    rw [if_neg]
    · simp only [zero_add, decide_eq_true_eq]
      rw [hsum]
      refine le_trans (Finset.sum_le_sum fun i _ => ?_) hd
      rw [← abs_mul_abs_self (p i - s.center i)]
      exact mul_self_le_mul_self excess_nonneg (hle i)
    · rintro ⟨d, _, hlt⟩
      exact absurd (lt_of_lt_of_le hlt (hle d)) (not_lt.mpr (sq_le_of_sum hr hd d))

/-- **C35.** Equality of boxes is equality of both corners. -/
theorem C35_eq (a o : Box D K) : a.beq o = true ↔ a = o := by
  cases a; cases o
  simp [beq, allDims_iff, funext_iff]

/-- Non-trivial instances: a unit square, a circle touching it from outside at a corner region, and a
circle just missing it although it meets the square's extension in each dimension. -/
example : (⟨![0, 0], ![1, 1]⟩ : Box 2 ℚ).intersects ⟨![4, 5], 5⟩ = true ∧
    (⟨![0, 0], ![1, 1]⟩ : Box 2 ℚ).intersects ⟨![4, 5], 9/2⟩ = false ∧
    (⟨![0, 0], ![1, 1]⟩ : Box 2 ℚ).containsSphere ⟨![1/2, 1/2], 1/2⟩ = true ∧
    (⟨![0, 0], ![1, 1]⟩ : Box 2 ℚ).containsSphere ⟨![1/2, 3/4], 1/2⟩ = false := by
  decide +kernel

/-! ### C36 -/

theorem foldl_subStep (a o : Box D K) : ∀ (l : List (Fin D)) (r : Box D K), l.Nodup →
    ∀ d, ((l.foldl (subStep a o) r).low d =
        if d ∈ l ∧ a.high d ≠ o.high d then o.high d else r.low d) ∧
      ((l.foldl (subStep a o) r).high d =
        if d ∈ l ∧ a.low d ≠ o.low d then o.low d else r.high d) := by
  intro l
  induction l with
  | nil => intro r _ d; simp
  | cons e l ih =>
    intro r hn d
    rw [List.nodup_cons] at hn
    rw [List.foldl_cons, (ih _ hn.2 d).1, (ih _ hn.2 d).2]
    have hstep : (subStep a o r e).low d = (if d = e ∧ a.high d ≠ o.high d then o.high d else r.low d) ∧
        (subStep a o r e).high d = (if d = e ∧ a.low d ≠ o.low d then o.low d else r.high d) := by
      unfold subStep
      by_cases hde : d = e
      · subst hde
        by_cases h1 : a.low d = o.low d <;> by_cases h2 : a.high d = o.high d <;> simp [h1, h2]
      · by_cases h1 : a.low e = o.low e <;> by_cases h2 : a.high e = o.high e <;> simp [h1, h2, hde]
    rw [hstep.1, hstep.2]
    by_cases hde : d = e
    · subst hde
      simp [hn.1]
    · simp [hde]

theorem sub_low (a o : Box D K) (d : Fin D) :
    (a.sub o).low d = if a.high d ≠ o.high d then o.high d else a.low d := by
  have := (foldl_subStep a o _ a (List.nodup_finRange D) d).1
  simpa [sub] using this

theorem sub_high (a o : Box D K) (d : Fin D) :
    (a.sub o).high d = if a.low d ≠ o.low d then o.low d else a.high d := by
  have := (foldl_subStep a o _ a (List.nodup_finRange D) d).2
  simpa [sub] using this

/-- **C36.** If `o` is a non-empty box inside `a` that agrees with `a` except on one side of one
dimension `e`, then `a - o` is the rest of `a`: together they cover exactly `a`, and they only meet in
the hyperplane of the cut. -/
theorem C36_subtraction (a o : Box D K) (e : Fin D) (hin : ∀ d, a.low d ≤ o.low d ∧ o.high d ≤ a.high d)
    (hne : ∀ d, o.low d ≤ o.high d)
    (hothers : ∀ d, d ≠ e → o.low d = a.low d ∧ o.high d = a.high d)
    (hone : (o.low e = a.low e ∧ o.high e ≠ a.high e) ∨ (o.low e ≠ a.low e ∧ o.high e = a.high e)) :
    o.pts ∪ (a.sub o).pts = a.pts ∧
      (∀ d, (a.sub o).low d ≤ (a.sub o).high d) ∧
      ∀ p ∈ o.pts, p ∈ (a.sub o).pts →
        p e = (if o.low e = a.low e then o.high e else o.low e) := by
  have hl : ∀ d, d ≠ e → (a.sub o).low d = a.low d ∧ (a.sub o).high d = a.high d := by
    intro d hd
    rw [sub_low, sub_high, if_neg (by simp [(hothers d hd).2]), if_neg (by simp [(hothers d hd).1])]
    exact ⟨rfl, rfl⟩
  have hlh : ∀ d, a.low d ≤ a.high d := fun d => (hin d).1.trans ((hne d).trans (hin d).2)
  rcases hone with ⟨h1, h2⟩ | ⟨h1, h2⟩
  · have e1 : (a.sub o).low e = o.high e := by rw [sub_low, if_pos (Ne.symm h2)]
    have e2 : (a.sub o).high e = a.high e := by rw [sub_high, if_neg (by simp [h1])]
    refine ⟨?_, ?_, ?_⟩
    · ext p
      simp only [Set.mem_union, pts, Set.mem_setOf_eq]
      constructor
      · rintro (h | h) d
        · exact ⟨(hin d).1.trans (h d).1, (h d).2.trans (hin d).2⟩
        · by_cases hd : d = e
          · subst hd
            have := h d
            rw [e1, e2] at this
            exact ⟨(hin d).1.trans ((hne d).trans this.1), this.2⟩
          · have := h d
            rwa [(hl d hd).1, (hl d hd).2] at this
      · intro h
        rcases le_total (p e) (o.high e) with hp | hp
        · left
          intro d
          by_cases hd : d = e
          · subst hd; exact ⟨h1 ▸ (h d).1, hp⟩
          · rw [(hothers d hd).1, (hothers d hd).2]; exact h d
        · right
          intro d
          by_cases hd : d = e
          · subst hd; rw [e1, e2]; exact ⟨hp, (h d).2⟩
          · rw [(hl d hd).1, (hl d hd).2]; exact h d
    · intro d
      by_cases hd : d = e
      · subst hd; rw [e1, e2]; exact (hin d).2
      · rw [(hl d hd).1, (hl d hd).2]; exact hlh d
    · intro p hp hq
      rw [if_pos h1]
      have := hq e
      rw [e1] at this
      exact le_antisymm (hp e).2 this.1
  · have e1 : (a.sub o).low e = a.low e := by rw [sub_low, if_neg (by simp [h2])]
    have e2 : (a.sub o).high e = o.low e := by rw [sub_high, if_pos (Ne.symm h1)]
    refine ⟨?_, ?_, ?_⟩
    · ext p
      simp only [Set.mem_union, pts, Set.mem_setOf_eq]
      constructor
      · rintro (h | h) d
        · exact ⟨(hin d).1.trans (h d).1, (h d).2.trans (hin d).2⟩
        · by_cases hd : d = e
          · subst hd
            have := h d
            rw [e1, e2] at this
            exact ⟨this.1, this.2.trans ((hne d).trans (hin d).2)⟩
          · have := h d
            rwa [(hl d hd).1, (hl d hd).2] at this
      · intro h
        rcases le_total (o.low e) (p e) with hp | hp
        · left
          intro d
          by_cases hd : d = e
          · subst hd; exact ⟨hp, h2 ▸ (h d).2⟩
          · rw [(hothers d hd).1, (hothers d hd).2]; exact h d
        · right
          intro d
          by_cases hd : d = e
          · subst hd; rw [e1, e2]; exact ⟨(h d).1, hp⟩
          · rw [(hl d hd).1, (hl d hd).2]; exact h d
    · intro d
      by_cases hd : d = e
      · subst hd; rw [e1, e2]; exact (hin d).1
      · rw [(hl d hd).1, (hl d hd).2]; exact hlh d
    · intro p hp hq
      rw [if_neg h1]
      have := hq e
      rw [e2] at this
      exact le_antisymm this.2 (hp e).1

/-- Cutting off the right half of a rectangle. -/
example : ((⟨![0, 0], ![4, 1]⟩ : Box 2 ℚ).sub ⟨![0, 0], ![2, 1]⟩).beq ⟨![2, 0], ![4, 1]⟩ = true := by
  decide +kernel

end Box
end Verif
