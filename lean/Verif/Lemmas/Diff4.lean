import Verif.Lemmas.Expansion
import Verif.Model.Orient2

/-!
# Differences of products
-/
namespace Verif
namespace FP

/-- Lowest digits of the error and of the result of a sum. -/
theorem sum_step {p : Nat} {A x y : ℚ} (hA0 : 0 ≤ A) (hx : Rep p x) (hy : Rep p y)
    (hAx : ∀ k, IsLsb k x → A ≤ 2 ^ k / 2) (hAy : ∀ k, IsLsb k y → A ≤ 2 ^ k / 2) :
    (∀ k, IsLsb k (x + y - rnd p (x + y)) → A ≤ 2 ^ k / 2) ∧
    ∀ k, IsLsb k (rnd p (x + y)) → A + |x + y - rnd p (x + y)| ≤ 2 ^ k / 2 := by
  have hmin : ∀ z, (∀ j, Mul j x → Mul j y → Mul j z) → ∀ k, IsLsb k z → A ≤ 2 ^ k / 2 := by
    intro z hz k hk
    by_cases hx0 : x = 0
    · by_cases hy0 : y = 0
      · have := hk.max (hz (k + 1) (by rw [hx0]; exact Mul.zero _) (by rw [hy0]; exact Mul.zero _))
        omega
      · obtain ⟨l, hl⟩ := hy.lsb hy0
        have h1 := two_zpow_le (hk.max (hz l (by rw [hx0]; exact Mul.zero _) hl.mul))
        linarith [hAy l hl]
    · obtain ⟨q, hq⟩ := hx.lsb hx0
      by_cases hy0 : y = 0
      · have h1 := two_zpow_le (hk.max (hz q hq.mul (by rw [hy0]; exact Mul.zero _)))
        linarith [hAx q hq]
      · obtain ⟨l, hl⟩ := hy.lsb hy0
        rcases le_total q l with hql | hql
        · have h3 := two_zpow_le (hk.max (hz q hq.mul (hl.mul.mono hql)))
          linarith [hAx q hq]
        · have h3 := two_zpow_le (hk.max (hz l (hq.mul.mono hql) hl.mul))
          linarith [hAy l hl]
  have hhl : ∀ k, IsLsb k (x + y - rnd p (x + y)) → A ≤ 2 ^ k / 2 := hmin _ fun j h1 h2 => sum_err_mul (h1.add h2)
  refine ⟨hhl, ?_⟩
  intro k hk
  by_cases hh : x + y - rnd p (x + y) = 0
  · rw [hh, abs_zero, add_zero]
    have e : rnd p (x + y) = x + y := by linarith
    rw [e] at hk
    exact hmin _ (fun j h1 h2 => h1.add h2) k hk
  · obtain ⟨kx, hkx, _⟩ := hx
    obtain ⟨ky, hky, _⟩ := hy
    have hsm : Mul (min kx ky) (x + y) := (hkx.mono (min_le_left _ _)).add (hky.mono (min_le_right _ _))
    obtain ⟨j, hj, _⟩ := exists_lsb (sum_err_mul (p := p) hsm) hh
    have h1 := hhl j hj
    set s := x + y with hs
    have herr : |s - rnd p s| ≤ 2 ^ grid p s / 2 := by rw [abs_sub_comm]; exact rnd_err p s
    have h2 : (2 : ℚ) ^ grid p s = 2 * 2 ^ (grid p s - 1) := by rw [← two_zpow_succ]; congr 1; ring
    have hjh := hj.le_abs
    have hjg : j ≤ grid p s - 1 := by
      by_contra hc
      have h1 := two_zpow_le (show grid p s ≤ j by omega)
      have := two_zpow_pos (grid p s)
      linarith
    have h5 := two_zpow_le hjg
    rcases lt_or_eq_of_le herr with h4 | h4
    · rw [show (2 : ℚ) ^ grid p s / 2 = 2 ^ (grid p s - 1) by rw [h2]; ring] at h4
      have h3 := Mul.le_sub hj.mul.abs (Mul.pow hjg) h4
      have h6 := two_zpow_le (hk.max (rnd_mul_grid p s))
      have := two_zpow_pos j
      linarith
    · have h6 := two_zpow_le (hk.max (rnd_tie p s (by rw [abs_sub_comm]; exact h4)))
      rw [two_zpow_succ] at h6
      have := two_zpow_pos (grid p s)
      linarith

/-- The error of a rounded number is small compared to its lowest digit. -/
theorem rnd_lsb {p : Nat} {s : ℚ} {k : Int} (hk : IsLsb k (rnd p s)) : |s - rnd p s| ≤ 2 ^ k / 2 := by
  have h1 := rnd_err p s
  have h2 := two_zpow_le (hk.max (rnd_mul_grid p s))
  rw [abs_sub_comm]
  linarith

/-- Result of `Two_Two_Diff`. -/
structure Four (p : Nat) (V : ℚ) (l : List ℚ) : Prop where
  shape : ∃ w0 w1 s, l = [w0, w1, s - rnd p s, rnd p s] ∧ V = w0 + w1 + s ∧ Rep p w0 ∧ Rep p w1 ∧ Rep p (s - rnd p s) ∧
    (∀ k, IsLsb k w1 → |w0| ≤ 2 ^ k / 2) ∧ (∀ k, IsLsb k (s - rnd p s) → |w0| + |w1| ≤ 2 ^ k / 2) ∧
    (∀ k, IsLsb k (rnd p s) → |w0| + |w1| + |s - rnd p s| ≤ 2 ^ k / 2)

theorem Four.expn {p : Nat} (hp : 0 < p) {V : ℚ} {l : List ℚ} (h : Four p V l) : Expn p V l := by
  obtain ⟨w0, w1, s, rfl, rfl, r0, r1, r2, h1, h2, h3⟩ := h.shape
  refine ⟨⟨?_, ?_, ?_, ?_, trivial⟩, ?_, ?_, by simp⟩
  · intro k _; have := two_zpow_pos k; linarith
  · intro k hk; have := two_zpow_pos k; linarith [h1 k hk]
  · intro k hk; have := two_zpow_pos k; linarith [h2 k hk]
  · intro k hk; have := two_zpow_pos k; linarith [h3 k hk]
  · intro y hy
    simp only [List.mem_cons, List.not_mem_nil, or_false] at hy
    rcases hy with rfl | rfl | rfl | rfl
    · exact r0
    · exact r1
    · exact r2
    · exact rep_rnd hp _
  · simp only [List.sum_cons, List.sum_nil]; ring

/-- `Two_Two_Diff` yields an expansion of the difference. -/
theorem twoTwoDiff_ok {p : Nat} (hp : 2 ≤ p) {a1 a0 b1 b0 : ℚ} (ra1 : Rep p a1) (ra0 : Rep p a0) (rb1 : Rep p b1) (rb0 : Rep p b0)
    (ha : ∀ k, IsLsb k a1 → |a0| ≤ 2 ^ k / 2) (hb : ∀ k, IsLsb k b1 → |b0| ≤ 2 ^ k / 2) :
    Four p (a1 + a0 - (b1 + b0)) (twoTwoDiff p a1 a0 b1 b0) := by
  have hp0 : 0 < p := by omega
  have h0 : ∀ x : ℚ, ∀ k, IsLsb k x → (0 : ℚ) ≤ 2 ^ k / 2 := fun _ k _ => by have := two_zpow_pos k; linarith
  -- first subtraction
  have d1 : twoDiff p a0 b0 = (rnd p (a0 + -b0), a0 + -b0 - rnd p (a0 + -b0)) := by
    rw [twoDiff_eq_twoSum, twoSum_eq hp ra0 rb0.neg]
  have s1 := sum_step (p := p) (le_refl 0) ra0 rb0.neg (h0 _) (h0 _)
  have rQ1 : Rep p (rnd p (a0 + -b0)) := rep_rnd hp0 _
  have rh0 := sum_err_rep hp0 ra0 rb0.neg
  have ba : |a0 + -b0 - rnd p (a0 + -b0)| ≤ |a0| := by
    have := sum_err_le hp0 (b := a0) rb0.neg
    rwa [add_comm (-b0) a0] at this
  have bb : |a0 + -b0 - rnd p (a0 + -b0)| ≤ |b0| := by
    have := sum_err_le hp0 (b := -b0) ra0
    rwa [abs_neg] at this
  set Q1 := rnd p (a0 + -b0) with hQ1
  set h0' := a0 + -b0 - Q1 with hh0
  -- first addition
  have d2 : twoSum p a1 Q1 = (rnd p (a1 + Q1), a1 + Q1 - rnd p (a1 + Q1)) := twoSum_eq hp ra1 rQ1
  have s2 := sum_step (p := p) (abs_nonneg h0') ra1 rQ1 (fun k hk => ba.trans (ha k hk)) (fun k hk => by have := s1.2 k hk; linarith)
  have rQ2 : Rep p (rnd p (a1 + Q1)) := rep_rnd hp0 _
  have rh1 := sum_err_rep hp0 ra1 rQ1
  set Q2 := rnd p (a1 + Q1) with hQ2
  set h1 := a1 + Q1 - Q2 with hh1
  -- second subtraction
  have d3 : twoDiff p h1 b1 = (rnd p (h1 + -b1), h1 + -b1 - rnd p (h1 + -b1)) := by
    rw [twoDiff_eq_twoSum, twoSum_eq hp rh1 rb1.neg]
  have s3 := sum_step (p := p) (abs_nonneg h0') rh1 rb1.neg s2.1 (fun k hk => bb.trans (hb k (by simpa using hk.neg)))
  have rR1 : Rep p (rnd p (h1 + -b1)) := rep_rnd hp0 _
  have rx1 := sum_err_rep hp0 rh1 rb1.neg
  have bx1 : |h1 + -b1 - rnd p (h1 + -b1)| ≤ |h1| := by
    have := sum_err_le hp0 (b := h1) rb1.neg
    rwa [add_comm (-b1) h1] at this
  set R1 := rnd p (h1 + -b1) with hR1
  set x1 := h1 + -b1 - R1 with hx1
  -- second addition
  have d4 : twoSum p Q2 R1 = (rnd p (Q2 + R1), Q2 + R1 - rnd p (Q2 + R1)) := twoSum_eq hp rQ2 rR1
  have s4 := sum_step (p := p) (add_nonneg (abs_nonneg h0') (abs_nonneg x1)) rQ2 rR1 (fun k hk => by have := s2.2 k hk; linarith)
    (fun k hk => s3.2 k hk)
  have e : twoTwoDiff p a1 a0 b1 b0 = [h0', x1, Q2 + R1 - rnd p (Q2 + R1), rnd p (Q2 + R1)] := by
    simp only [twoTwoDiff, twoOneDiff, d1, d2, d3, d4]
  rw [e]
  refine ⟨⟨h0', x1, Q2 + R1, rfl, ?_, rh0, rx1, sum_err_rep hp0 rQ2 rR1, s3.1, s4.1, s4.2⟩⟩
  simp only [hx1, hh1, hh0]; ring

/-- `diff4` is an expansion of the difference of the products. -/
theorem diff4_ok {p : Nat} (hp : 4 ≤ p) {a b c d : ℚ} (ha : Rep p a) (hb : Rep p b) (hc : Rep p c) (hd : Rep p d) :
    Four p (a * b - c * d) (diff4 p (2 ^ half p + 1) a b c d) := by
  have hp0 : 0 < p := by omega
  have h := twoTwoDiff_ok (show 2 ≤ p by omega) (rep_rnd hp0 (a * b)) (prod_err_rep hp0 ha hb) (rep_rnd hp0 (c * d))
    (prod_err_rep hp0 hc hd) (fun k hk => rnd_lsb hk) (fun k hk => rnd_lsb hk)
  simp only [diff4, twoProduct_eq hp ha hb, twoProduct_eq hp hc hd]
  convert h using 1
  ring

/-- The estimate of such an expansion has a small relative error. -/
theorem Four.estimate {p : Nat} (hp : 5 ≤ p) {V : ℚ} {l : List ℚ} (h : Four p V l) :
    |V - FP.estimate p l| ≤ 2 * eps p * |FP.estimate p l| := by
  have hp0 : 0 < p := by omega
  obtain ⟨w0, w1, s, rfl, rfl, r0, r1, r2, h1, h2, h3⟩ := h.shape
  simp only [FP.estimate, List.foldl_cons, List.foldl_nil]
  set x3 := rnd p s with hx3
  set x2 := s - x3 with hx2
  have hs : s = x2 + x3 := by rw [hx2]; ring
  set q1 := rnd p (w0 + w1) with hq1
  set q2 := rnd p (q1 + x2) with hq2
  set q3 := rnd p (q2 + x3) with hq3
  have e1 : |q1 - (w0 + w1)| ≤ eps p * |q1| := rnd_rel' hp0 _
  have e2 : |q2 - (q1 + x2)| ≤ eps p * |q2| := rnd_rel' hp0 _
  have e3 : |q3 - (q2 + x3)| ≤ eps p * |q3| := rnd_rel' hp0 _
  have hε := eps_pos p
  have rq1 : Rep p q1 := rep_rnd hp0 _
  have rq2 : Rep p q2 := rep_rnd hp0 _
  have rx3 : Rep p x3 := rep_rnd hp0 _
  have ha1 := abs_add_le w0 w1
  have hsplit : w0 + w1 + s - q3 = -(q1 - (w0 + w1)) - (q2 - (q1 + x2)) - (q3 - (q2 + x3)) := by rw [hs]; ring
  by_cases h20 : x2 = 0
  · have hq21 : q2 = q1 := by rw [hq2, h20, add_zero, rnd_rep rq1]
    have hle : |q1| ≤ |q3| := by
      rw [hq3, hq21]
      refine le_abs_rnd hp0 rq1.abs ?_
      by_cases h30 : x3 = 0
      · rw [h30, add_zero]
      · obtain ⟨k, hk⟩ := rx3.lsb h30
        have h4 := h3 k hk
        rw [h20, abs_zero, add_zero] at h4
        have h5 : |q1| ≤ 2 ^ k / 2 := by
          refine abs_rnd_le hp0 ?_ (ha1.trans h4)
          have := Rep.pow p hp0 (k - 1)
          rwa [show (2 : ℚ) ^ k / 2 = 2 ^ (k - 1) by rw [zpow_sub_one₀ (by norm_num)]; ring]
        have h6 := hk.le_abs
        have h7 : |x3| ≤ |q1 + x3| + |q1| := by
          have := abs_sub (q1 + x3) q1
          rwa [add_sub_cancel_left] at this
        linarith
    have e2' : q2 - (q1 + x2) = 0 := by rw [hq21, h20]; ring
    rw [hsplit, e2', sub_zero]
    refine (abs_sub _ _).trans ?_
    rw [abs_neg]
    nlinarith
  · have hs0 : s ≠ 0 := by
      rintro hs0
      rw [hs0, rnd_zero] at hx3
      rw [hx2, hx3, hs0] at h20
      simp at h20
    have hg := grid_spec p hs0
    set g := grid p s with hgd
    have hx2' : |x2| ≤ 2 ^ g / 2 := by rw [hx2, abs_sub_comm]; exact rnd_err p s
    obtain ⟨k, hk⟩ := r2.lsb h20
    have h4 := h2 k hk
    have h5 := hk.le_abs
    have h6 : |w0| + |w1| ≤ 2 ^ g / 4 := by linarith
    have hu := two_zpow_pos g
    have h16 : (16 : ℚ) * 2 ^ g ≤ |x3| := by
      refine le_trans ?_ (le_abs_rnd hp0 (Rep.pow p hp0 _) hg.1)
      have h8 : (2 : ℚ) ^ (g + (4 : Nat)) ≤ 2 ^ (g + p - 1) := two_zpow_le (by push_cast; omega)
      rw [zpow_add_nat] at h8
      linarith
    have hq1le : |q1| ≤ 2 ^ g := abs_rnd_le hp0 (Rep.pow p hp0 _) (by linarith)
    have hq2le : |q2| ≤ 2 ^ (g + 1) := abs_rnd_le hp0 (Rep.pow p hp0 _) (by
      rw [two_zpow_succ]
      have := abs_add_le q1 x2
      linarith)
    rw [two_zpow_succ] at hq2le
    have hq3le : |q1| + |q2| ≤ |q3| := by
      have h9 : 8 * 2 ^ g ≤ |q3| := by
        have h10 := le_abs_rnd hp0 (x := q2 + x3) (Rep.pow p hp0 (g + (3 : Nat))) (by
          rw [zpow_add_nat]
          have h7 : |x3| ≤ |q2 + x3| + |q2| := by
            have := abs_sub (q2 + x3) q2
            rwa [add_sub_cancel_left] at this
          linarith)
        rw [zpow_add_nat] at h10
        linarith
      linarith
    rw [hsplit]
    have b1 := abs_sub (-(q1 - (w0 + w1)) - (q2 - (q1 + x2))) (q3 - (q2 + x3))
    have b2 := abs_sub (-(q1 - (w0 + w1))) (q2 - (q1 + x2))
    rw [abs_neg] at b2
    nlinarith

end FP
end Verif
