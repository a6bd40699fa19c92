import Verif.Model.SlowTests
import Verif.Props.ExactTests
import Verif.Props.Compress
import Verif.Props.FesArr

/-!
# The tests with differences and without filters are exact (C127)
-/
namespace Verif
namespace FP

/-! ### Components that are not adjacent -/

/-- There is a digit between `x` and `y` that neither has. -/
private def Gap (x y : ℚ) : Prop := Below (2 * x) y

private theorem Gap.of_mul {x y : ℚ} {k : Int} (h : |2 * x| < 2 ^ k) (h' : Mul k y) : Gap x y := by
  obtain ⟨r, hr⟩ := h'
  exact ⟨k, r, hr, h⟩

private theorem gap_zero {p : Nat} {y : ℚ} (h : Rep p y) : Gap 0 y := by
  unfold Gap; rw [mul_zero]; exact below_zero h

private theorem Gap.mono {x x' y : ℚ} (h : Gap x y) (hx : |x'| ≤ |x|) : Gap x' y := by
  refine Below.mono h ?_
  rw [abs_mul, abs_mul]
  exact mul_le_mul_of_nonneg_left hx (abs_nonneg _)

private theorem gap_iff {p : Nat} {l : List ℚ} (hr : ∀ x ∈ l, Rep p x) : Nonadjacent l ↔ l.Pairwise Gap := by
  induction l with
  | nil => simp [Nonadjacent]
  | cons x l ih =>
    have ih := ih fun y hy => hr y (by simp [hy])
    unfold Nonadjacent at ih ⊢
    by_cases h0 : x = 0
    · subst h0
      rw [List.filter_cons_of_neg (by simp), ih, List.pairwise_cons]
      exact ⟨fun h => ⟨fun y hy => gap_zero (hr y (by simp [hy])), h⟩, fun h => h.2⟩
    · rw [List.filter_cons_of_pos (by simpa using h0), List.pairwise_cons, List.pairwise_cons, ih]
      refine and_congr_left fun _ => ⟨fun h y hy => ?_, fun h y hy => h y (List.mem_filter.mp hy).1⟩
      by_cases hy0 : y = 0
      · rw [hy0]; exact below_zero_right _
      · exact h y (List.mem_filter.mpr ⟨hy, by simpa using hy0⟩)

private theorem gap_all {p : Nat} {x : ℚ} {l : List ℚ} (hl : ∀ y ∈ l, Rep p y) (h : x ≠ 0 → ∃ k, |2 * x| < 2 ^ k ∧ ∀ y ∈ l, Mul k y) :
    ∀ y ∈ l, Gap x y :=
  below_all hl fun h0 => h (by rintro rfl; simp at h0)

/-- The error of a rounded number and the number itself. -/
private theorem rnd_gap (p : Nat) (s : ℚ) : ∃ k, |2 * (s - rnd p s)| < 2 ^ k ∧ Mul k (rnd p s) ∧ k ≤ grid p s + 1 := by
  have h := rnd_err p s
  rw [abs_sub_comm] at h
  have e : |2 * (s - rnd p s)| = 2 * |s - rnd p s| := by rw [abs_mul]; norm_num
  rcases lt_or_eq_of_le h with h | h
  · exact ⟨grid p s, by rw [e]; linarith, rnd_mul_grid p s, by omega⟩
  · refine ⟨grid p s + 1, ?_, rnd_tie p s (by rw [abs_sub_comm]; exact h), le_refl _⟩
    have := two_zpow_pos (grid p s)
    rw [e, two_zpow_succ]; linarith

/-- `grow_expansion` leaves a gap. -/
private theorem grow_gap {p : Nat} (hp : 2 ≤ p) (e : List ℚ) : ∀ b, (∀ x ∈ e, Rep p x) → Rep p b → e.Pairwise Gap → (grow p e b).Pairwise Gap := by
  induction e with
  | nil => intro b _ _ _; simp [grow, growLoop]
  | cons a e ih =>
    intro b he hb hpw
    have hp0 : 0 < p := by omega
    have ha := he a (by simp)
    have he' : ∀ y ∈ e, Rep p y := fun y hy => he y (by simp [hy])
    rw [List.pairwise_cons] at hpw
    rw [grow_cons, twoSum_eq hp hb ha, List.pairwise_cons]
    refine ⟨gap_all (grow_rep hp e _ he' (rep_rnd hp0 _)) fun h0 => ?_, ih _ he' (rep_rnd hp0 _) hpw.2⟩
    obtain ⟨k, h1, h2, h3⟩ := all_mul (x := 2 * (b + a - rnd p (b + a))) (by simpa using h0) (l := e)
      fun y hy => (show Gap a y from hpw.1 y hy).mono (sum_err_le hp0 hb)
    obtain ⟨j, j1, j2, _⟩ := rnd_gap p (b + a)
    exact ⟨k, h1, grow_mul hp e _ he' (rep_rnd hp0 _) h3 (j2.mono (h2 j j1))⟩

private theorem sumLoop_gap {p : Nat} (hp : 2 ≤ p) (fs : List ℚ) : ∀ h0 hs, (∀ x ∈ h0 :: hs, Rep p x) → (∀ x ∈ fs, Rep p x) →
    (h0 :: hs).Pairwise Gap → fs.Pairwise Gap → (∀ f ∈ fs, Gap h0 f) → (sumLoop p fs (h0 :: hs)).Pairwise Gap := by
  induction fs with
  | nil => intro h0 hs _ _ h _ _; simpa only [sumLoop] using h
  | cons f fs ih =>
    intro h0 hs hr hf hpw hpf hb
    have hf0 := hf f (by simp)
    have hs' : ∀ x ∈ hs, Rep p x := fun x hx => hr x (by simp [hx])
    have hf' : ∀ x ∈ fs, Rep p x := fun x hx => hf x (by simp [hx])
    have hg := grow_rep hp hs f hs' hf0
    obtain ⟨g0, gs, hg0, hle⟩ := grow_head hp hs' hf0
    rw [List.pairwise_cons] at hpw hpf
    have hgp := grow_gap hp hs f hs' hf0 hpw.2
    have hok := sumLoop_ok hp fs _ hg hf' (by rw [hg0]; simp)
    simp only [sumLoop, List.pairwise_cons]
    refine ⟨gap_all hok.2.1 fun h => ?_, ?_⟩
    · obtain ⟨k, k1, _, k3⟩ := all_mul (x := 2 * h0) (by simpa using h) (l := hs ++ f :: fs) (by
        intro y hy
        rw [List.mem_append] at hy
        rcases hy with hy | hy
        · exact hpw.1 y hy
        · exact hb y hy)
      exact ⟨k, k1, hok.2.2.2 k (grow_mul hp hs f hs' hf0 (fun y hy => k3 y (by simp [hy])) (k3 f (by simp))) fun y hy => k3 y (by simp [hy])⟩
    · rw [hg0] at hg hgp ⊢
      exact ih g0 gs hg hf' hgp hpf.2 fun y hy => (hpf.1 y hy).mono hle

/-- **C127**: `grow_expansion` and `expansion_sum` keep components apart. -/
theorem C127_grow {p : Nat} (hp : 2 ≤ p) {e : List ℚ} {b : ℚ} (he : ∀ x ∈ e, IsFloat p x) (hb : IsFloat p b) (h : Nonadjacent e) :
    Nonadjacent (grow p e b) := by
  simp only [isFloat_iff] at he hb
  exact (gap_iff (grow_rep hp e b he hb)).mpr (grow_gap hp e b he hb ((gap_iff he).mp h))

theorem C127_sum {p : Nat} (hp : 2 ≤ p) {e f : List ℚ} (he : ∀ x ∈ e, IsFloat p x) (hf : ∀ x ∈ f, IsFloat p x) (hne : f ≠ [])
    (h : Nonadjacent e) (h' : Nonadjacent f) : Nonadjacent (expansionSum p e f) := by
  simp only [isFloat_iff] at he hf
  have hr := (expansionSum_ok hp he hf hne).2.1
  obtain ⟨f0, fs, rfl⟩ := List.exists_cons_of_ne_nil hne
  have hf0 := hf f0 (by simp)
  have hf' : ∀ x ∈ fs, Rep p x := fun x hx => hf x (by simp [hx])
  have hg := grow_rep hp e f0 he hf0
  obtain ⟨g0, gs, hg0, hle⟩ := grow_head hp he hf0
  rw [gap_iff hr, expansionSum]
  have hpf := (gap_iff hf).mp h'
  rw [List.pairwise_cons] at hpf
  have hgp := grow_gap hp e f0 he hf0 ((gap_iff he).mp h)
  rw [hg0] at hg hgp ⊢
  exact sumLoop_gap hp fs g0 gs hg hf' hgp hpf.2 fun y hy => (hpf.1 y hy).mono hle

private theorem gap_expn {p : Nat} {l : List ℚ} (hr : ∀ x ∈ l, Rep p x) (h : l.Pairwise Gap) (hne : l ≠ []) : Expn p l.sum l := by
  have hn : Nonadjacent l := (gap_iff hr).mpr h
  have hb : ∀ {x y : ℚ}, Below (2 * x) y → Below x y := by
    intro x y hxy
    refine Below.mono hxy ?_
    rw [abs_mul, abs_two]
    linarith [abs_nonneg x]
  refine strong_expn (fun x hx => isFloat_iff.mpr (hr x hx)) ⟨hn.imp hb, hn.imp fun hxy ha => absurd hxy ha, ?_⟩ hne
  intro x y z hs ha
  have := hn.sublist hs
  rw [List.pairwise_cons] at this
  exact ha.1 (this.1 y (by simp))

/-! ### `Two_Two_Product` -/

/-- A number and its tail. -/
private structure Pair (p : Nat) (a : ℚ × ℚ) (V : ℚ) : Prop where
  hi : Rep p a.1
  lo : Rep p a.2
  sum : a.2 + a.1 = V
  gap : Gap a.2 a.1

private theorem diff_pair {p : Nat} (hp : 2 ≤ p) {a b : ℚ} (ha : Rep p a) (hb : Rep p b) : Pair p (twoDiff p a b) (a - b) := by
  have hp0 : 0 < p := by omega
  rw [twoDiff_eq hp ha hb]
  refine ⟨rep_rnd hp0 _, ?_, by ring, ?_⟩
  · rw [sub_eq_add_neg a b]; exact sum_err_rep hp0 ha hb.neg
  · obtain ⟨k, h1, h2, _⟩ := rnd_gap p (a - b)
    exact Gap.of_mul h1 h2

private theorem Pair.neg {p : Nat} {a : ℚ × ℚ} {V : ℚ} (h : Pair p a V) : Pair p (-a.1, -a.2) (-V) := by
  refine ⟨h.hi.neg, h.lo.neg, by rw [← h.sum]; ring, ?_⟩
  obtain ⟨k, r, h1, h2⟩ := h.gap
  refine ⟨k, -r, ?_, ?_⟩
  · rw [h1]; push_cast; ring
  · rwa [mul_neg, abs_neg]

/-- The product of a number with a tail and a number, as in `Two_One_Product`. -/
private def prod4 (p : Nat) (a1 a0 b : ℚ) : List ℚ :=
  let t := a1 * b - rnd p (a1 * b)
  let S := rnd p (rnd p (a0 * b) + t)
  [a0 * b - rnd p (a0 * b), rnd p (a0 * b) + t - S, rnd p (a1 * b) + S - rnd p (rnd p (a1 * b) + S), rnd p (rnd p (a1 * b) + S)]

private theorem prod4_rep {p : Nat} (hp : 0 < p) {a1 a0 b : ℚ} (h1 : Rep p a1) (h0 : Rep p a0) (hb : Rep p b) : ∀ x ∈ prod4 p a1 a0 b, Rep p x := by
  intro x hx
  simp only [prod4, List.mem_cons, List.not_mem_nil, or_false] at hx
  rcases hx with rfl | rfl | rfl | rfl
  · exact prod_err_rep hp h0 hb
  · exact sum_err_rep hp (rep_rnd hp _) (prod_err_rep hp h1 hb)
  · exact sum_err_rep hp (rep_rnd hp _) (rep_rnd hp _)
  · exact rep_rnd hp _

private theorem prod4_sum (p : Nat) (a1 a0 b : ℚ) : (prod4 p a1 a0 b).sum = (a0 + a1) * b := by
  simp only [prod4, List.sum_cons, List.sum_nil]; ring

private theorem prod4_mul {p : Nat} {a1 a0 b : ℚ} {k : Int} (h1 : Mul k (a1 * b)) (h0 : Mul k (a0 * b)) : ∀ x ∈ prod4 p a1 a0 b, Mul k x := by
  have hS := rnd_mul (p := p) ((rnd_mul (p := p) h0).add (sum_err_mul (p := p) h1))
  intro x hx
  simp only [prod4, List.mem_cons, List.not_mem_nil, or_false] at hx
  rcases hx with rfl | rfl | rfl | rfl
  · exact sum_err_mul h0
  · exact sum_err_mul ((rnd_mul h0).add (sum_err_mul h1))
  · exact sum_err_mul ((rnd_mul h1).add hS)
  · exact rnd_mul ((rnd_mul h1).add hS)

/-- The lowest part of a product with a tail. -/
private theorem low_prod {p : Nat} {a0 b : ℚ} (hb : Rep p b) {k : Int} (ha : |2 * a0| < 2 ^ k) (h0 : a0 * b - rnd p (a0 * b) ≠ 0) :
    ∃ β : Int, Mul β b ∧ grid p (a0 * b) + 1 ≤ k + β := by
  obtain ⟨β, hβ, hlt⟩ := hb
  refine ⟨β, hβ, ?_⟩
  have hne : a0 * b ≠ 0 := by
    intro h; rw [h, rnd_zero] at h0; simp at h0
  have ha' : |a0| < 2 ^ (k - 1) := by
    rw [abs_mul, abs_two] at ha
    have : (2 : ℚ) ^ k = 2 * 2 ^ (k - 1) := by rw [show k = (k - 1) + 1 by ring, two_zpow_succ]; ring_nf
    linarith
  have : grid p (a0 * b) ≤ k - 1 + β := by
    refine grid_le hne ?_
    rw [abs_mul, show k - 1 + β + p = (k - 1) + (β + p) by ring, zpow_add₀ (by norm_num : (2 : ℚ) ≠ 0)]
    exact mul_lt_mul'' ha' hlt (abs_nonneg _) (abs_nonneg _)
  omega

private theorem prod4_gap {p : Nat} (hp : 0 < p) {a1 a0 b : ℚ} (h1 : Rep p a1) (h0 : Rep p a0) (hb : Rep p b) (hg : Gap a0 a1) :
    (prod4 p a1 a0 b).Pairwise Gap := by
  have hr := prod4_rep hp h1 h0 hb
  have hr' := hr
  unfold prod4 at hr ⊢
  simp only at hr ⊢
  set P := rnd p (a1 * b)
  set t := a1 * b - P
  set Q := rnd p (a0 * b)
  set S := rnd p (Q + t)
  rw [List.pairwise_cons, List.pairwise_cons, List.pairwise_cons]
  refine ⟨gap_all (fun y hy => hr y (by simp only [List.mem_cons] at hy ⊢; tauto)) fun hx => ?_,
    gap_all (fun y hy => hr y (by simp only [List.mem_cons] at hy ⊢; tauto)) fun hx => ?_, ?_, by simp⟩
  · obtain ⟨k, r, hk, hlt⟩ := hg
    obtain ⟨β, hβ, hle⟩ := low_prod hb hlt hx
    obtain ⟨j, j1, j2, j3⟩ := rnd_gap p (a0 * b)
    refine ⟨j, j1, ?_⟩
    have hm : Mul j (a1 * b) := (Mul.mul (show Mul k a1 from ⟨r, hk⟩) hβ).mono (by omega)
    have hP : Mul j P := rnd_mul hm
    have ht : Mul j t := sum_err_mul hm
    have hS : Mul j S := rnd_mul (j2.add ht)
    intro y hy
    simp only [List.mem_cons, List.not_mem_nil, or_false] at hy
    rcases hy with rfl | rfl | rfl
    · exact sum_err_mul (j2.add ht)
    · exact sum_err_mul (hP.add hS)
    · exact rnd_mul (hP.add hS)
  · obtain ⟨j, j1, j2, _⟩ := rnd_gap p (Q + t)
    obtain ⟨i, i1, i2, _⟩ := rnd_gap p (a1 * b)
    have hle : |Q + t - S| ≤ |t| := sum_err_le hp (rep_rnd hp _)
    have hi : |2 * (Q + t - S)| < 2 ^ i := by
      refine lt_of_le_of_lt ?_ i1
      rw [abs_mul, abs_mul]
      exact mul_le_mul_of_nonneg_left hle (abs_nonneg _)
    have key : ∃ l, |2 * (Q + t - S)| < 2 ^ l ∧ Mul l P ∧ Mul l S := by
      rcases le_total i j with h | h
      · exact ⟨i, hi, i2, j2.mono h⟩
      · exact ⟨j, j1, i2.mono h, j2⟩
    obtain ⟨l, l1, l2, l3⟩ := key
    refine ⟨l, l1, ?_⟩
    intro y hy
    simp only [List.mem_cons, List.not_mem_nil, or_false] at hy
    rcases hy with rfl | rfl
    · exact sum_err_mul (l2.add l3)
    · exact rnd_mul (l2.add l3)
  · intro y hy
    simp only [List.mem_cons, List.not_mem_nil, or_false] at hy
    subst hy
    obtain ⟨k, k1, k2, _⟩ := rnd_gap p (P + S)
    exact Gap.of_mul k1 k2

/-- The precondition of the `Fast_Two_Sum`. -/
private theorem prod_fast {p : Nat} (hp : 4 ≤ p) {a1 a0 b : ℚ} (hb : Rep p b) (hg : Gap a0 a1) :
    |rnd p (rnd p (a0 * b) + (a1 * b - rnd p (a1 * b)))| ≤ |rnd p (a1 * b)| ∨ rnd p (a1 * b) = 0 := by
  have hp0 : 0 < p := by omega
  by_cases h1 : a1 * b = 0
  · right; rw [h1, rnd_zero]
  · left
    obtain ⟨k, r, hk, hlt⟩ := hg
    have ha1 : a1 ≠ 0 := fun h => h1 (by rw [h, zero_mul])
    have hge : 2 ^ k ≤ |a1| := Mul.le_abs ⟨r, hk⟩ ha1
    have hrep : ∀ j : Int, Rep p (|b| * 2 ^ j) := fun j => hb.abs.scale j
    have hb0 := abs_nonneg b
    have e : (2 : ℚ) ^ k = 2 * 2 ^ (k - 1) := by rw [show k = (k - 1) + 1 by ring, two_zpow_succ]; ring_nf
    have hQ : |rnd p (a0 * b)| ≤ |b| * 2 ^ (k - 1) := by
      refine abs_rnd_le hp0 (hrep _) ?_
      rw [abs_mul, mul_comm]
      refine mul_le_mul_of_nonneg_left ?_ hb0
      rw [abs_mul, abs_two] at hlt
      linarith
    have hP : |b| * 2 ^ k ≤ |rnd p (a1 * b)| := by
      refine le_abs_rnd hp0 (hrep _) ?_
      rw [abs_mul, mul_comm]
      exact mul_le_mul_of_nonneg_right hge hb0
    have hG : (2 : ℚ) ^ (grid p (a1 * b) + p - 1) ≤ |rnd p (a1 * b)| := le_abs_rnd hp0 (Rep.pow p hp0 _) (grid_spec p h1).1
    have ht := rnd_err p (a1 * b)
    rw [abs_sub_comm] at ht
    have hpw := two_zpow_le (show grid p (a1 * b) ≤ grid p (a1 * b) + p - 1 by omega)
    refine abs_rnd_le hp0 (rep_rnd hp0 _).abs ?_
    have := abs_add_le (rnd p (a0 * b)) (a1 * b - rnd p (a1 * b))
    rw [e] at hP
    nlinarith

private theorem ts_rep {p : Nat} (hp : 2 ≤ p) {a b : ℚ} (ha : Rep p a) (hb : Rep p b) : Rep p (twoSum p a b).1 ∧ Rep p (twoSum p a b).2 := by
  rw [twoSum_eq hp ha hb]
  exact ⟨rep_rnd (by omega) _, sum_err_rep (by omega) ha hb⟩

private theorem two_comm {p : Nat} (hp : 2 ≤ p) {a b : ℚ} (ha : Rep p a) (hb : Rep p b) : twoSum p a b = twoSum p b a := by
  rw [twoSum_eq hp ha hb, twoSum_eq hp hb ha, add_comm a b]

private theorem grow3 {p : Nat} (hp : 2 ≤ p) {a b c f : ℚ} (ha : Rep p a) (hb : Rep p b) (hc : Rep p c) (hf : Rep p f) :
    grow p [a, b, c] f = [(twoSum p a f).2, (twoSum p b (twoSum p a f).1).2, (twoSum p c (twoSum p b (twoSum p a f).1).1).2,
      (twoSum p c (twoSum p b (twoSum p a f).1).1).1] := by
  have h1 := ts_rep hp ha hf
  have h2 := ts_rep hp hb h1.1
  rw [grow_cons, two_comm hp hf ha, grow_cons, two_comm hp h1.1 hb, grow_cons, two_comm hp h2.1 hc]
  rfl

/-- `Two_Two_Product` is a sum of two expansions. -/
private theorem ttp_eq {p : Nat} (hp : 4 ≤ p) {a b : ℚ × ℚ} {V W : ℚ} (ha : Pair p a V) (hb : Pair p b W) :
    twoTwoProduct p (2 ^ half p + 1) a.1 a.2 b.1 b.2 = sumLoop p (prod4 p a.1 a.2 b.1) (prod4 p a.1 a.2 b.2) := by
  have hp0 : 0 < p := by omega
  have hp2 : 2 ≤ p := by omega
  have hR := fun x => rep_rnd hp0 (p := p) x
  have re := prod4_rep hp0 ha.hi ha.lo hb.lo
  have rf := prod4_rep hp0 ha.hi ha.lo hb.hi
  have e1 : prod4 p a.1 a.2 b.2 = [(twoProduct p (2 ^ half p + 1) a.2 b.2).2,
      (twoSum p (twoProduct p (2 ^ half p + 1) a.2 b.2).1 (twoProduct p (2 ^ half p + 1) a.1 b.2).2).2,
      (fastTwoSum p (twoProduct p (2 ^ half p + 1) a.1 b.2).1
        (twoSum p (twoProduct p (2 ^ half p + 1) a.2 b.2).1 (twoProduct p (2 ^ half p + 1) a.1 b.2).2).1).2,
      (fastTwoSum p (twoProduct p (2 ^ half p + 1) a.1 b.2).1
        (twoSum p (twoProduct p (2 ^ half p + 1) a.2 b.2).1 (twoProduct p (2 ^ half p + 1) a.1 b.2).2).1).1] := by
    rw [twoProduct_eq hp ha.lo hb.lo, twoProduct_eq hp ha.hi hb.lo, twoSum_eq hp2 (hR _) (prod_err_rep hp0 ha.hi hb.lo),
      fastTwoSum_eq hp0 (hR _) (hR _) (prod_fast hp hb.lo ha.gap)]
    rfl
  have e2 : prod4 p a.1 a.2 b.1 = [(twoProduct p (2 ^ half p + 1) a.2 b.1).2,
      (twoSum p (twoProduct p (2 ^ half p + 1) a.2 b.1).1 (twoProduct p (2 ^ half p + 1) a.1 b.1).2).2,
      (twoSum p (twoProduct p (2 ^ half p + 1) a.1 b.1).1
        (twoSum p (twoProduct p (2 ^ half p + 1) a.2 b.1).1 (twoProduct p (2 ^ half p + 1) a.1 b.1).2).1).2,
      (twoSum p (twoProduct p (2 ^ half p + 1) a.1 b.1).1
        (twoSum p (twoProduct p (2 ^ half p + 1) a.2 b.1).1 (twoProduct p (2 ^ half p + 1) a.1 b.1).2).1).1] := by
    rw [twoProduct_eq hp ha.lo hb.hi, twoProduct_eq hp ha.hi hb.hi, twoSum_eq hp2 (hR _) (prod_err_rep hp0 ha.hi hb.hi),
      twoSum_eq hp2 (hR _) (hR _)]
    rfl
  rw [e1] at re ⊢
  rw [e2] at rf ⊢
  unfold twoTwoProduct
  simp only
  generalize (twoProduct p (2 ^ half p + 1) a.2 b.2).2 = x0 at *
  generalize twoSum p (twoProduct p (2 ^ half p + 1) a.2 b.2).1 (twoProduct p (2 ^ half p + 1) a.1 b.2).2 = s1 at *
  generalize fastTwoSum p (twoProduct p (2 ^ half p + 1) a.1 b.2).1 s1.1 = s2 at *
  generalize (twoProduct p (2 ^ half p + 1) a.2 b.1).2 = f0 at *
  generalize twoSum p (twoProduct p (2 ^ half p + 1) a.2 b.1).1 (twoProduct p (2 ^ half p + 1) a.1 b.1).2 = n at *
  generalize twoSum p (twoProduct p (2 ^ half p + 1) a.1 b.1).1 n.1 = k at *
  have r1 := re s1.2 (by simp)
  have r2 := re s2.2 (by simp)
  have r3 := re s2.1 (by simp)
  have g0 := rf f0 (by simp)
  have g1 := rf n.2 (by simp)
  have g2 := rf k.2 (by simp)
  have g3 := rf k.1 (by simp)
  have t1 := ts_rep hp2 r1 g0
  have t2 := ts_rep hp2 r2 t1.1
  have t3 := ts_rep hp2 r3 t2.1
  have u1 := ts_rep hp2 t2.2 g1
  have u2 := ts_rep hp2 t3.2 u1.1
  have u3 := ts_rep hp2 t3.1 u2.1
  have v1 := ts_rep hp2 u2.2 g2
  have v2 := ts_rep hp2 u3.2 v1.1
  have v3 := ts_rep hp2 u3.1 v2.1
  rw [sumLoop, grow3 hp2 r1 r2 r3 g0, sumLoop, grow3 hp2 t2.2 t3.2 t3.1 g1, sumLoop, grow3 hp2 u2.2 u3.2 u3.1 g2, sumLoop,
    grow3 hp2 v2.2 v3.2 v3.1 g3, sumLoop]

/-- The components of `Two_Two_Product`. -/
private theorem ttp_ok {p : Nat} (hp : 4 ≤ p) {a b : ℚ × ℚ} {V W : ℚ} (ha : Pair p a V) (hb : Pair p b W) :
    let l := twoTwoProduct p (2 ^ half p + 1) a.1 a.2 b.1 b.2
    l.sum = V * W ∧ (∀ x ∈ l, Rep p x) ∧ l.length = 8 ∧ l.Pairwise Gap := by
  have hp0 : 0 < p := by omega
  have hp2 : 2 ≤ p := by omega
  have re := prod4_rep hp0 ha.hi ha.lo hb.lo
  have rf := prod4_rep hp0 ha.hi ha.lo hb.hi
  have ge := prod4_gap hp0 ha.hi ha.lo hb.lo ha.gap
  have gf := prod4_gap hp0 ha.hi ha.lo hb.hi ha.gap
  have hlow : ∀ f ∈ prod4 p a.1 a.2 b.1, Gap (a.2 * b.2 - rnd p (a.2 * b.2)) f := by
    refine gap_all rf fun hx => ?_
    obtain ⟨k, r, hk, hlt⟩ := hb.gap
    rw [mul_comm a.2 b.2] at hx ⊢
    obtain ⟨α, hα, hle⟩ := low_prod ha.lo hlt hx
    obtain ⟨j, j1, _, j3⟩ := rnd_gap p (b.2 * a.2)
    have hα1 : Mul α a.1 := by
      by_cases h1 : a.1 = 0
      · rw [h1]; exact Mul.zero _
      · obtain ⟨i, s, hi, hlt'⟩ := ha.gap
        have h0 : a.2 ≠ 0 := by rintro h; rw [h] at hx; simp [rnd_zero] at hx
        have := hα.le_abs h0
        rw [abs_mul, abs_two] at hlt'
        have := lt_of_two_zpow (show (2 : ℚ) ^ α < 2 ^ i by have := two_zpow_pos α; linarith)
        exact Mul.mono ⟨s, hi⟩ this.le
    have hm : ∀ x, Mul α x → Mul j (x * b.1) := fun x hx' => (Mul.mul hx' (show Mul k b.1 from ⟨r, hk⟩)).mono (by omega)
    exact ⟨j, j1, prod4_mul (hm _ hα1) (hm _ hα)⟩
  have hlen : ∀ x y z, (prod4 p x y z).length = 4 := fun _ _ _ => rfl
  have hne : prod4 p a.1 a.2 b.2 ≠ [] := by simp [prod4]
  obtain ⟨k1, k2, k3, _⟩ := sumLoop_ok hp2 _ _ re rf hne
  simp only
  rw [ttp_eq hp ha hb]
  refine ⟨?_, k2, by rw [k3, hlen, hlen], ?_⟩
  · rw [k1, prod4_sum, prod4_sum, ← ha.sum, ← hb.sum]; ring
  · exact sumLoop_gap hp2 _ _ _ re rf ge gf hlow

/-- **C127**: for numbers with tails as from `Two_Diff`, the eight components of `Two_Two_Product` are floating point numbers that are
not adjacent, and their sum is the product. -/
theorem C127_product {p : Nat} (hp : 11 ≤ p) {k : Consts} (hk : Returns (init p) k) {a1 a0 b1 b0 : ℚ} (h1 : IsFloat p a1) (h2 : IsFloat p a0)
    (h3 : IsFloat p b1) (h4 : IsFloat p b0) (ha : Below (2 * a0) a1) (hb : Below (2 * b0) b1) :
    let l := twoTwoProduct p k.splitter a1 a0 b1 b0
    l.sum = (a1 + a0) * (b1 + b0) ∧ (∀ x ∈ l, IsFloat p x) ∧ l.length = 8 ∧ Nonadjacent l := by
  obtain ⟨k', h1', h2'⟩ := consts_ok hp
  obtain rfl : k = k' := hk.unique h1'
  rw [h2'.splitter]
  simp only [isFloat_iff] at h1 h2 h3 h4 ⊢
  obtain ⟨i1, i2, i3, i4⟩ := ttp_ok (show 4 ≤ p by omega) (a := (a1, a0)) (b := (b1, b0)) ⟨h1, h2, rfl, ha⟩ ⟨h3, h4, rfl, hb⟩
  exact ⟨by rw [i1]; ring, i2, i3, (gap_iff i2).mpr i4⟩

/-! ### Numbers of components -/

private theorem emit_len (x : ℚ) (l : List ℚ) : (emit x l).length ≤ l.length + 1 := by
  unfold emit; split_ifs <;> simp

private theorem fesLoop_len (p : Nat) (es fs : List ℚ) (Q : ℚ) : (fesLoop p es fs Q).1.length ≤ es.length + fs.length := by
  induction es, fs, Q using fesLoop.induct p with
  | case1 Q => simp [fesLoop]
  | case2 e es Q r ih =>
    rw [fesLoop]
    have := emit_len r.2 (fesLoop p es [] r.1).1
    simp only [List.length_cons, List.length_nil] at *
    exact this.trans (by omega)
  | case3 f fs Q r ih =>
    rw [fesLoop]
    have := emit_len r.2 (fesLoop p [] fs r.1).1
    simp only [List.length_cons, List.length_nil] at *
    exact this.trans (by omega)
  | case4 e es f fs Q h r ih =>
    rw [fesLoop, if_pos h]
    have := emit_len r.2 (fesLoop p es (f :: fs) r.1).1
    simp only [List.length_cons] at *
    exact this.trans (by omega)
  | case5 e es f fs Q h r ih =>
    rw [fesLoop, if_neg h]
    have := emit_len r.2 (fesLoop p (e :: es) fs r.1).1
    simp only [List.length_cons] at *
    exact this.trans (by omega)

private theorem fesRest_len (p : Nat) (es fs : List ℚ) (Q : ℚ) : (fesRest p es fs Q).1.length ≤ es.length + fs.length := by
  unfold fesRest
  split
  · rename_i e es f fs
    split_ifs
    · have := emit_len (fastTwoSum p e Q).2 (fesLoop p es (f :: fs) (fastTwoSum p e Q).1).1
      have := fesLoop_len p es (f :: fs) (fastTwoSum p e Q).1
      simp only [List.length_cons] at *
      omega
    · have := emit_len (fastTwoSum p f Q).2 (fesLoop p (e :: es) fs (fastTwoSum p f Q).1).1
      have := fesLoop_len p (e :: es) fs (fastTwoSum p f Q).1
      simp only [List.length_cons] at *
      omega
  · exact fesLoop_len p _ _ Q

private theorem finish_len (r : List ℚ × ℚ) : (finish r).length ≤ r.1.length + 1 := by
  unfold finish; split_ifs <;> simp

private theorem fes_len {p : Nat} {e f : List ℚ} {n m : Nat} (he : e.length ≤ n) (hf : f.length ≤ m) : (fes p e f).length ≤ n + m := by
  refine le_trans ?_ (Nat.add_le_add he hf)
  unfold fes
  split
  · rename_i e0 es f0 fs
    refine (finish_len _).trans ?_
    split_ifs
    · have := fesRest_len p es (f0 :: fs) e0
      simp only [List.length_cons] at *
      omega
    · have := fesRest_len p (e0 :: es) fs f0
      simp only [List.length_cons] at *
      omega
  · simp

private theorem scaleLoop_len (p : Nat) (s b : ℚ) (es : List ℚ) : ∀ Q, (scaleLoop p s b es Q).1.length ≤ 2 * es.length := by
  induction es with
  | nil => intro Q; simp [scaleLoop]
  | cons e es ih =>
    intro Q
    simp only [scaleLoop, List.length_cons]
    refine (emit_len _ _).trans ?_
    refine (Nat.succ_le_succ (emit_len _ _)).trans ?_
    have := ih (fastTwoSum p (twoProduct p s e b).1 (twoSum p Q (twoProduct p s e b).2).1).1
    omega

private theorem scale_len {p : Nat} {s b : ℚ} {e : List ℚ} {n : Nat} (he : e.length ≤ n) : (scale p s e b).length ≤ 2 * n := by
  refine le_trans ?_ (Nat.mul_le_mul_left 2 he)
  unfold scale
  split
  · rename_i e0 es
    refine (finish_len _).trans ?_
    refine (Nat.succ_le_succ (emit_len _ _)).trans ?_
    have := scaleLoop_len p s b es (twoProduct p s e0 b).1
    simp only [List.length_cons]
    omega
  · simp

/-! ### The tests -/

/-- An expansion with value `V` and at most `n` components. -/
private structure Ex (p n : Nat) (V : ℚ) (l : List ℚ) : Prop where
  expn : ExpnZ p V l
  len : l.length ≤ n

private theorem Ex.cast {p n m : Nat} {V W : ℚ} {l : List ℚ} (h : Ex p n V l) (e : V = W) (hm : n = m) : Ex p m W l := e ▸ hm ▸ h

private theorem Ex.fes {p n m : Nat} (hp : 11 ≤ p) {V W : ℚ} {e f : List ℚ} (he : Ex p n V e) (hf : Ex p m W f) : Ex p (n + m) (V + W) (fes p e f) :=
  ⟨fes_ok (by omega) he.expn.toExpn hf.expn.toExpn, fes_len he.len hf.len⟩

private theorem Ex.scale {p n : Nat} (hp : 11 ≤ p) {V b : ℚ} {e : List ℚ} (he : Ex p n V e) (hb : Rep p b) :
    Ex p (2 * n) (V * b) (scale p (2 ^ half p + 1) e b) := ⟨scale_ok hp he.expn.toExpn hb, scale_len he.len⟩

private theorem goodFrom_two {l : List ℚ} : ∀ {S : ℚ}, GoodFrom S l → GoodFrom (2 * S) (l.map fun y => y * 2) := by
  induction l with
  | nil => intro S _; trivial
  | cons y l ih =>
    intro S h
    refine ⟨fun k hk => ?_, ?_⟩
    · obtain ⟨m, hm, he⟩ := hk
      have := h.1 (k - 1) ⟨m, hm, ?_⟩
      · have e : (2 : ℚ) ^ k = 2 * 2 ^ (k - 1) := by rw [show k = (k - 1) + 1 by ring, two_zpow_succ]; ring_nf
        rw [e]; linarith
      · have e : (2 : ℚ) ^ k = 2 ^ (k - 1) * 2 := by rw [show k = (k - 1) + 1 by ring, two_zpow_succ]; ring_nf
        rw [e] at he
        linarith
    · have := ih h.2
      rwa [show 2 * (S + |y|) = 2 * S + |y * 2| by rw [abs_mul, abs_two]; ring] at this

private theorem Ex.two {p n : Nat} {V : ℚ} {e : List ℚ} (he : Ex p n V e) : Ex p n (V * 2) (e.map fun y => rnd p (y * 2)) := by
  have e1 : (e.map fun y => rnd p (y * 2)) = e.map fun y => y * 2 := by
    refine List.map_congr_left fun y hy => ?_
    rw [mul_comm]; exact rnd_two (he.expn.rep y hy)
  rw [e1]
  refine ⟨⟨⟨?_, ?_, ?_, ?_⟩, ?_⟩, by simpa using he.len⟩
  · simpa using goodFrom_two he.expn.good
  · intro y hy
    obtain ⟨x, hx, rfl⟩ := List.mem_map.mp hy
    rw [mul_comm]; exact rep_two (he.expn.rep x hx)
  · rw [List.sum_map_mul_right, List.map_id', he.expn.sum]
  · simpa using he.expn.ne
  · intro h
    rw [he.expn.zero ?_, zero_mul]
    rcases List.eq_nil_or_concat e with h' | ⟨m, y, h'⟩
    · rw [h']; rfl
    · rw [List.concat_eq_append] at h'
      subst h'
      simp only [top, List.map_append, List.map_cons, List.map_nil, List.getLastD_concat] at h ⊢
      linarith

variable {p : Nat}

private theorem cross_ok (hp : 11 ≤ p) {ax ay bx bY : ℚ × ℚ} {X Y X' Y' : ℚ} (h1 : Pair p ax X) (h2 : Pair p ay Y) (h3 : Pair p bx X')
    (h4 : Pair p bY Y') : Ex p 16 (X * Y' - X' * Y) (slowCross p (2 ^ half p + 1) ax ay bx bY) := by
  obtain ⟨i1, i2, i3, i4⟩ := ttp_ok (show 4 ≤ p by omega) h1 h4
  obtain ⟨j1, j2, j3, j4⟩ := ttp_ok (show 4 ≤ p by omega) h3 h2.neg
  have hne : ∀ {l : List ℚ}, l.length = 8 → l ≠ [] := fun h => by rintro rfl; simp at h
  refine ⟨(fes_ok (by omega) (gap_expn i2 i4 (hne i3)) (gap_expn j2 j4 (hne j3))).cast ?_, fes_len i3.le j3.le⟩
  rw [i1, j1]; ring

private theorem square_ok (hp : 11 ≤ p) {n : Nat} {e : List ℚ} {V X : ℚ} {x : ℚ × ℚ} (he : Ex p n V e) (hx : Pair p x X) :
    Ex p (12 * n) (V * (X * X)) (slowSquare p (2 ^ half p + 1) e x) := by
  have h := (((he.scale hp hx.hi).scale hp hx.hi).fes hp ((he.scale hp hx.lo).scale hp hx.hi).two).fes hp
    ((he.scale hp hx.lo).scale hp hx.lo)
  exact h.cast (by rw [← hx.sum]; ring) (by ring)

private theorem lift2_ok (hp : 11 ≤ p) {n : Nat} {e : List ℚ} {V X Y : ℚ} {x y : ℚ × ℚ} (he : Ex p n V e) (hx : Pair p x X) (hy : Pair p y Y) :
    Ex p (24 * n) (V * (X * X + Y * Y)) (slowLift2 p (2 ^ half p + 1) e x y) :=
  ((square_ok hp he hx).fes hp (square_ok hp he hy)).cast (by ring) (by ring)

private theorem times_ok (hp : 11 ≤ p) {n : Nat} {e : List ℚ} {V X : ℚ} {x : ℚ × ℚ} (he : Ex p n V e) (hx : Pair p x X) :
    Ex p (4 * n) (V * X) (slowTimes p (2 ^ half p + 1) e x) :=
  ((he.scale hp hx.hi).fes hp (he.scale hp hx.lo)).cast (by rw [← hx.sum]; ring) (by ring)

private theorem minor_ok (hp : 11 ≤ p) {e f g : List ℚ} {V W U X Y Z : ℚ} {x y z : ℚ × ℚ} (he : Ex p 16 V e) (hf : Ex p 16 W f) (hg : Ex p 16 U g)
    (hx : Pair p x X) (hy : Pair p y Y) (hz : Pair p z Z) : Ex p 192 (V * X + W * Y + U * Z) (slowMinor p (2 ^ half p + 1) e x f y g z) :=
  ((times_ok hp hg hz).fes hp ((times_ok hp he hx).fes hp (times_ok hp hf hy))).cast (by ring) rfl

private theorem lift3_ok (hp : 11 ≤ p) {e : List ℚ} {V X Y Z : ℚ} {x y z : ℚ × ℚ} (he : Ex p 192 V e) (hx : Pair p x X) (hy : Pair p y Y)
    (hz : Pair p z Z) : Ex p 6912 (V * (X * X + Y * Y + Z * Z)) (slowLift3 p (2 ^ half p + 1) e x y z) :=
  ((square_ok hp he hz).fes hp ((square_ok hp he hx).fes hp (square_ok hp he hy))).cast (by ring) rfl

private theorem Ex.result {n : Nat} {V : ℚ} {l : List ℚ} (h : Ex p n V l) :
    l.sum = V ∧ (∀ x ∈ l, IsFloat p x) ∧ l.length ≤ n ∧ SignType.sign (l.getLastD 0) = SignType.sign V :=
  ⟨h.expn.sum, fun x hx => isFloat_iff.mpr (h.expn.rep x hx), h.len, h.expn.sign⟩

/-- **C127**, plane, orientation: the components are floating point numbers with the determinant as sum, not more than the array has
place for, and the returned last one has its sign. -/
theorem C127_orient2d (hp : 11 ≤ p) {k : Consts} (hk : Returns (init p) k) {a b c : ℚ × ℚ} (ha : IsPoint2 p a) (hb : IsPoint2 p b)
    (hc : IsPoint2 p c) :
    let l := slowOrient2 p k.splitter a b c
    let V := Geom.orient2 ![a.1, a.2] ![b.1, b.2] ![c.1, c.2]
    l.sum = V ∧ (∀ x ∈ l, IsFloat p x) ∧ l.length ≤ 16 ∧ SignType.sign (l.getLastD 0) = SignType.sign V := by
  obtain ⟨k', h1, h2⟩ := consts_ok hp
  obtain rfl : k = k' := hk.unique h1
  simp only [h2.splitter]
  have hp2 : 2 ≤ p := by omega
  simp only [IsPoint2, isFloat_iff] at ha hb hc
  refine Ex.result (Ex.cast (cross_ok hp (diff_pair hp2 ha.1 hc.1) (diff_pair hp2 ha.2 hc.2) (diff_pair hp2 hb.1 hc.1)
    (diff_pair hp2 hb.2 hc.2)) ?_ rfl)
  simp only [Geom.orient2, Matrix.cons_val_zero, Matrix.cons_val_one]; ring

/-- **C127**, plane, incircle test. -/
theorem C127_insphere2d (hp : 11 ≤ p) {k : Consts} (hk : Returns (init p) k) {a b c d : ℚ × ℚ} (ha : IsPoint2 p a) (hb : IsPoint2 p b)
    (hc : IsPoint2 p c) (hd : IsPoint2 p d) :
    let l := slowInsphere2 p k.splitter a b c d
    let V := Geom.insphereDet2 ![a.1, a.2] ![b.1, b.2] ![c.1, c.2] ![d.1, d.2]
    l.sum = V ∧ (∀ x ∈ l, IsFloat p x) ∧ l.length ≤ 1152 ∧ SignType.sign (l.getLastD 0) = SignType.sign V := by
  obtain ⟨k', h1, h2⟩ := consts_ok hp
  obtain rfl : k = k' := hk.unique h1
  simp only [h2.splitter]
  have hp2 : 2 ≤ p := by omega
  simp only [IsPoint2, isFloat_iff] at ha hb hc hd
  have ax := diff_pair hp2 ha.1 hd.1
  have ay := diff_pair hp2 ha.2 hd.2
  have bx := diff_pair hp2 hb.1 hd.1
  have bY := diff_pair hp2 hb.2 hd.2
  have cx := diff_pair hp2 hc.1 hd.1
  have cy := diff_pair hp2 hc.2 hd.2
  refine Ex.result (Ex.cast (((lift2_ok hp (cross_ok hp bx bY cx cy) ax ay).fes hp (lift2_ok hp (cross_ok hp cx cy ax ay) bx bY)).fes hp
    (lift2_ok hp (cross_ok hp ax ay bx bY) cx cy)) ?_ rfl)
  simp only [Geom.insphereDet2, Matrix.cons_val_zero, Matrix.cons_val_one]; ring

/-- **C127**, space, orientation. -/
theorem C127_orient3d (hp : 11 ≤ p) {k : Consts} (hk : Returns (init p) k) {a b c d : ℚ × ℚ × ℚ} (ha : IsPoint3 p a) (hb : IsPoint3 p b)
    (hc : IsPoint3 p c) (hd : IsPoint3 p d) :
    let l := slowOrient3 p k.splitter a b c d
    let V := Geom.orient3 ![a.1, a.2.1, a.2.2] ![b.1, b.2.1, b.2.2] ![c.1, c.2.1, c.2.2] ![d.1, d.2.1, d.2.2]
    l.sum = V ∧ (∀ x ∈ l, IsFloat p x) ∧ l.length ≤ 192 ∧ SignType.sign (l.getLastD 0) = SignType.sign V := by
  obtain ⟨k', h1, h2⟩ := consts_ok hp
  obtain rfl : k = k' := hk.unique h1
  simp only [h2.splitter]
  have hp2 : 2 ≤ p := by omega
  have ax := diff_pair hp2 ha.rep.x hd.rep.x
  have ay := diff_pair hp2 ha.rep.y hd.rep.y
  have az := diff_pair hp2 ha.rep.z hd.rep.z
  have bx := diff_pair hp2 hb.rep.x hd.rep.x
  have bY := diff_pair hp2 hb.rep.y hd.rep.y
  have bz := diff_pair hp2 hb.rep.z hd.rep.z
  have cx := diff_pair hp2 hc.rep.x hd.rep.x
  have cy := diff_pair hp2 hc.rep.y hd.rep.y
  have cz := diff_pair hp2 hc.rep.z hd.rep.z
  refine Ex.result (Ex.cast (((times_ok hp (cross_ok hp bx bY cx cy) az).fes hp (times_ok hp (cross_ok hp cx cy ax ay) bz)).fes hp
    (times_ok hp (cross_ok hp ax ay bx bY) cz)) ?_ rfl)
  simp only [Geom.orient3, Matrix.cons_val]; ring

/-- **C127**, space, insphere test. -/
theorem C127_insphere3d (hp : 11 ≤ p) {k : Consts} (hk : Returns (init p) k) {a b c d e : ℚ × ℚ × ℚ} (ha : IsPoint3 p a)
    (hb : IsPoint3 p b) (hc : IsPoint3 p c) (hd : IsPoint3 p d) (he : IsPoint3 p e) :
    let l := slowInsphere3 p k.splitter a b c d e
    let V := Geom.insphereDet3 ![a.1, a.2.1, a.2.2] ![b.1, b.2.1, b.2.2] ![c.1, c.2.1, c.2.2] ![d.1, d.2.1, d.2.2] ![e.1, e.2.1, e.2.2]
    l.sum = V ∧ (∀ x ∈ l, IsFloat p x) ∧ l.length ≤ 27648 ∧ SignType.sign (l.getLastD 0) = SignType.sign V := by
  obtain ⟨k', h1, h2⟩ := consts_ok hp
  obtain rfl : k = k' := hk.unique h1
  simp only [h2.splitter]
  have hp2 : 2 ≤ p := by omega
  have ax := diff_pair hp2 ha.rep.x he.rep.x
  have ay := diff_pair hp2 ha.rep.y he.rep.y
  have az := diff_pair hp2 ha.rep.z he.rep.z
  have bx := diff_pair hp2 hb.rep.x he.rep.x
  have bY := diff_pair hp2 hb.rep.y he.rep.y
  have bz := diff_pair hp2 hb.rep.z he.rep.z
  have cx := diff_pair hp2 hc.rep.x he.rep.x
  have cy := diff_pair hp2 hc.rep.y he.rep.y
  have cz := diff_pair hp2 hc.rep.z he.rep.z
  have dx := diff_pair hp2 hd.rep.x he.rep.x
  have dy := diff_pair hp2 hd.rep.y he.rep.y
  have dz := diff_pair hp2 hd.rep.z he.rep.z
  have ab := cross_ok hp ax ay bx bY
  have bc := cross_ok hp bx bY cx cy
  have cd := cross_ok hp cx cy dx dy
  have da := cross_ok hp dx dy ax ay
  have ac := cross_ok hp ax ay cx cy
  have bd := cross_ok hp bx bY dx dy
  have h := ((lift3_ok hp (minor_ok hp cd bd bc bz.neg cz dz.neg) ax ay az).fes hp
      (lift3_ok hp (minor_ok hp da ac cd cz dz az) bx bY bz)).fes hp
    ((lift3_ok hp (minor_ok hp ab bd da dz.neg az.neg bz.neg) cx cy cz).fes hp
      (lift3_ok hp (minor_ok hp bc ac ab az bz.neg cz) dx dy dz))
  refine Ex.result (Ex.cast h ?_ rfl)
  simp only [Geom.insphereDet3, Matrix.cons_val]; ring

/-- In `orient_slow` of the plane the arrays `axby` and `bxay` are full, so `fast_expansion_sum_zeroelim` always reads beyond the end of
one of them. -/
theorem C127_reads_violated (s : ℚ) (a b : ℚ × ℚ) (c d : ℚ × ℚ) :
    fesA p 8 (twoTwoProduct p s a.1 a.2 b.1 b.2) 8 (twoTwoProduct p s c.1 c.2 d.1 d.2) = .ub :=
  C92_full_violated (by norm_num) (by norm_num) (by simp [twoTwoProduct]) (by simp [twoTwoProduct]) (.inl (by simp [twoTwoProduct]))

/-- The components of 1 and 4 are apart, also after adding 2 ^ 60 + 2 ^ 8. -/
example : Nonadjacent (grow 53 [1, 4] (2 ^ 60 + 2 ^ 8)) ∧ Nonadjacent (expansionSum 53 [1, 4] [2 ^ 60, 2 ^ 62]) := by
  have h1 : IsFloat 53 1 := ⟨1, 0, by norm_num, by norm_num⟩
  have h4 : IsFloat 53 4 := ⟨4, 0, by norm_num, by norm_num⟩
  have h60 : IsFloat 53 (2 ^ 60) := ⟨2 ^ 52, 8, by norm_num, by norm_num⟩
  have h62 : IsFloat 53 (2 ^ 62) := ⟨2 ^ 52, 10, by norm_num, by norm_num⟩
  have hb : IsFloat 53 (2 ^ 60 + 2 ^ 8) := ⟨2 ^ 52 + 1, 8, by norm_num, by norm_num⟩
  have e : Nonadjacent [1, 4] := by
    have : ([1, 4] : List ℚ).filter (· ≠ 0) = [1, 4] := by norm_num [List.filter]
    rw [Nonadjacent, this]
    simp only [List.pairwise_cons, List.mem_singleton, forall_eq, List.not_mem_nil, IsEmpty.forall_iff, implies_true, List.Pairwise.nil, and_true]
    exact ⟨2, 1, by norm_num, by norm_num⟩
  have f : Nonadjacent [2 ^ 60, 2 ^ 62] := by
    have : ([2 ^ 60, 2 ^ 62] : List ℚ).filter (· ≠ 0) = [2 ^ 60, 2 ^ 62] := by norm_num [List.filter]
    rw [Nonadjacent, this]
    simp only [List.pairwise_cons, List.mem_singleton, forall_eq, List.not_mem_nil, IsEmpty.forall_iff, implies_true, List.Pairwise.nil, and_true]
    exact ⟨62, 1, by norm_num, by norm_num⟩
  have he : ∀ x ∈ ([1, 4] : List ℚ), IsFloat 53 x := by simp [h1, h4]
  have hf : ∀ x ∈ ([2 ^ 60, 2 ^ 62] : List ℚ), IsFloat 53 x := by
    intro x hx
    simp only [List.mem_cons, List.not_mem_nil, or_false] at hx
    rcases hx with rfl | rfl <;> assumption
  exact ⟨C127_grow (by norm_num) he hb e, C127_sum (by norm_num) he hf (by simp) e f⟩

/-- Tails that are not zero: `(2 ^ 53 + 2 + 1/2) * (2 ^ 53 + 4 + 1/4)`. -/
example : ∃ k, Returns (init 53) k ∧
    (twoTwoProduct 53 k.splitter (2 ^ 53 + 2) (1 / 2) (2 ^ 53 + 4) (1 / 4)).sum = (2 ^ 53 + 2 + 1 / 2) * (2 ^ 53 + 4 + 1 / 4) := by
  obtain ⟨k, h, _⟩ := consts_ok (p := 53) (by norm_num)
  exact ⟨k, h, (C127_product (by norm_num) h ⟨2 ^ 52 + 1, 1, by norm_num, by norm_num⟩ ⟨1, -1, by norm_num, by norm_num⟩
    ⟨2 ^ 51 + 1, 2, by norm_num, by norm_num⟩ ⟨1, -2, by norm_num, by norm_num⟩ ⟨1, 2 ^ 52 + 1, by norm_num, by norm_num⟩
    ⟨2, 2 ^ 51 + 1, by norm_num, by norm_num⟩).1⟩

/-- The same points as for the adaptive tests. -/
example : ∃ k, Returns (init 53) k ∧
    SignType.sign ((slowOrient2 53 k.splitter (0, 0) (2 ^ 53 - 1, 2 ^ 53 - 2) (2 ^ 53 - 3, 2 ^ 53 - 4)).getLastD 0) = -1 ∧
    SignType.sign ((slowInsphere2 53 k.splitter (2 ^ 53 - 1, 0) (0, 2 ^ 53 - 1) (-(2 ^ 53 - 1), 0) (0, -(2 ^ 53 - 2))).getLastD 0) = 1 ∧
    SignType.sign ((slowOrient3 53 k.splitter (2 ^ 53 - 1, 2 ^ 53 - 2, 5) (2 ^ 53 - 3, 2 ^ 53 - 4, 5) (0, 0, 4) (0, 0, 3)).getLastD 0) = -1 ∧
    SignType.sign ((slowInsphere3 53 k.splitter (2 ^ 53 - 1, 0, 0) (0, 2 ^ 53 - 1, 0) (-(2 ^ 53 - 1), 0, 0) (0, 0, 2 ^ 53 - 1)
      (0, 0, -(2 ^ 53 - 2))).getLastD 0) = -1 := by
  obtain ⟨k, h, _⟩ := consts_ok (p := 53) (by norm_num)
  have f0 : IsFloat 53 0 := ⟨0, 0, by norm_num, by norm_num⟩
  have f3 : IsFloat 53 3 := ⟨3, 0, by norm_num, by norm_num⟩
  have f4 : IsFloat 53 4 := ⟨4, 0, by norm_num, by norm_num⟩
  have f5 : IsFloat 53 5 := ⟨5, 0, by norm_num, by norm_num⟩
  have g1 : IsFloat 53 (2 ^ 53 - 1) := ⟨2 ^ 53 - 1, 0, by norm_num, by norm_num⟩
  have g2 : IsFloat 53 (2 ^ 53 - 2) := ⟨2 ^ 53 - 2, 0, by norm_num, by norm_num⟩
  have g3 : IsFloat 53 (2 ^ 53 - 3) := ⟨2 ^ 53 - 3, 0, by norm_num, by norm_num⟩
  have g4 : IsFloat 53 (2 ^ 53 - 4) := ⟨2 ^ 53 - 4, 0, by norm_num, by norm_num⟩
  have n1 : IsFloat 53 (-(2 ^ 53 - 1)) := ⟨-(2 ^ 53 - 1), 0, by norm_num, by norm_num⟩
  have n2 : IsFloat 53 (-(2 ^ 53 - 2)) := ⟨-(2 ^ 53 - 2), 0, by norm_num, by norm_num⟩
  refine ⟨k, h, ?_, ?_, ?_, ?_⟩
  · rw [(C127_orient2d (by norm_num) h ⟨f0, f0⟩ ⟨g1, g2⟩ ⟨g3, g4⟩).2.2.2, sign_neg]
    norm_num [Geom.orient2]
  · rw [(C127_insphere2d (by norm_num) h ⟨g1, f0⟩ ⟨f0, g1⟩ ⟨n1, f0⟩ ⟨f0, n2⟩).2.2.2, sign_pos]
    norm_num [Geom.insphereDet2]
  · rw [(C127_orient3d (by norm_num) h ⟨g1, g2, f5⟩ ⟨g3, g4, f5⟩ ⟨f0, f0, f4⟩ ⟨f0, f0, f3⟩).2.2.2, sign_neg]
    norm_num [Geom.orient3, Matrix.vecHead, Matrix.vecTail, Matrix.cons_val_two]
  · rw [(C127_insphere3d (by norm_num) h ⟨g1, f0, f0⟩ ⟨f0, g1, f0⟩ ⟨n1, f0, f0⟩ ⟨f0, f0, g1⟩ ⟨f0, f0, n2⟩).2.2.2, sign_neg]
    norm_num [Geom.insphereDet3, Matrix.vecHead, Matrix.vecTail, Matrix.cons_val_two]

end FP
end Verif
