import Verif.Lemmas.FP

/-!
# Error-free transformations
-/
namespace Verif
namespace FP

theorem rep_of_abs_eq {p : Nat} (hp : 0 < p) {k : Int} {x : ℚ} (h : |x| = 2 ^ k) : Rep p x := by
  rcases abs_choice x with e | e
  · rw [← e, h]; exact Rep.pow p hp _
  · rw [show x = -|x| by rw [e]; ring, h]; exact (Rep.pow p hp _).neg

/-! ### Sums -/

theorem rep_sub_of_le {p : Nat} (hp : 0 < p) {a b : ℚ} (ha : Rep p a) (hb : Rep p b) (h : |b| ≤ |a|) : Rep p (rnd p (a + b) - a) := by
  by_cases hb0 : b = 0
  · subst hb0; rw [add_zero, rnd_rep ha, sub_self]; exact Rep.zero p
  have ha0 : a ≠ 0 := by
    rintro rfl
    rw [abs_zero] at h
    exact hb0 (abs_eq_zero.mp (le_antisymm h (abs_nonneg b)))
  by_cases hx : Rep p (a + b)
  · rw [rnd_rep hx]; simpa using hb
  have hs0 : a + b ≠ 0 := by intro h; rw [h] at hx; exact hx (Rep.zero p)
  have ga := grid_spec p ha0
  have gb := grid_spec p hb0
  have gs := grid_spec p hs0
  have hba : grid p b ≤ grid p a := grid_le hb0 (h.trans_lt ga.2)
  have hgb : grid p b < grid p (a + b) := by
    by_contra hc
    exact hx ⟨_, ((ha.grid.mono hba).add hb.grid).mono (not_lt.mp hc), gs.2⟩
  have herr := rnd_err p (a + b)
  have hxa : |rnd p (a + b) - a| ≤ |b| + 2 ^ grid p (a + b) / 2 := by
    have : rnd p (a + b) - a = (rnd p (a + b) - (a + b)) + b := by ring
    rw [this]
    refine (abs_add_le _ _).trans ?_
    linarith
  rcases le_or_gt (grid p (a + b)) (grid p a) with hg | hg
  · refine Rep.of_le (k := grid p (a + b)) ((rnd_mul_grid p _).sub (ha.grid.mono hg)) (hxa.trans ?_) hp
    have h1 : (2 : ℚ) ^ (grid p b + p) ≤ 2 ^ (grid p (a + b) + p - 1) := two_zpow_le (by omega)
    have h2 : (2 : ℚ) ^ grid p (a + b) ≤ 2 ^ (grid p (a + b) + p - 1) := two_zpow_le (by omega)
    have h3 : (2 : ℚ) ^ (grid p (a + b) + p) = 2 * 2 ^ (grid p (a + b) + p - 1) := by rw [← two_zpow_succ]; congr 1; ring
    have h4 := two_zpow_pos (grid p (a + b))
    linarith [gb.2]
  · have hgl : grid p (a + b) ≤ grid p a + 1 := by
      refine grid_le hs0 ?_
      rw [show grid p a + 1 + p = grid p a + p + 1 by ring, two_zpow_succ]
      have := abs_add_le a b
      linarith [ga.2]
    have hge : grid p (a + b) = grid p a + 1 := by omega
    refine Rep.of_le (k := grid p a) (((rnd_mul_grid p _).mono (by omega)).sub ha.grid) (hxa.trans ?_) hp
    rw [hge, two_zpow_succ]
    have := Mul.le_sub ha.grid.abs (Mul.pow (show grid p a ≤ grid p a + p by omega)) ga.2
    linarith

/-- `Fast_Two_Sum` is exact when the first summand is the larger one, or zero. -/
theorem fastTwoSum_eq {p : Nat} (hp : 0 < p) {a b : ℚ} (ha : Rep p a) (hb : Rep p b) (h : |b| ≤ |a| ∨ a = 0) :
    fastTwoSum p a b = (rnd p (a + b), a + b - rnd p (a + b)) := by
  have h1 : rnd p (rnd p (a + b) - a) = rnd p (a + b) - a := by
    apply rnd_rep
    rcases h with h | h
    · exact rep_sub_of_le hp ha hb h
    · subst h; simpa [rnd_rep hb] using hb
  have h2 : b - (rnd p (a + b) - a) = a + b - rnd p (a + b) := by ring
  simp only [fastTwoSum, h1, h2, rnd_rep (sum_err_rep hp ha hb)]

/-- `Two_Sum` is exact. -/
theorem twoSum_eq {p : Nat} (hp : 2 ≤ p) {a b : ℚ} (ha : Rep p a) (hb : Rep p b) :
    twoSum p a b = (rnd p (a + b), a + b - rnd p (a + b)) := by
  have hp0 : 0 < p := by omega
  have herr := sum_err_rep hp0 ha hb
  suffices h : twoSumTail p a b (rnd p (a + b)) = a + b - rnd p (a + b) by rw [twoSum, h]
  unfold twoSumTail
  rcases le_or_gt |b| |a| with hab | hab
  · have h1 : rnd p (rnd p (a + b) - a) = rnd p (a + b) - a := rnd_rep (rep_sub_of_le hp0 ha hb hab)
    have h2 : rnd p (a + b) - (rnd p (a + b) - a) = a := by ring
    have h3 : b - (rnd p (a + b) - a) = a + b - rnd p (a + b) := by ring
    simp only [h1, h2, rnd_rep ha, sub_self, rnd_zero, zero_add, h3, rnd_rep herr]
  · have hb0 : b ≠ 0 := by
      rintro rfl
      rw [abs_zero] at hab
      exact absurd hab (not_lt.mpr (abs_nonneg a))
    by_cases hx : Rep p (a + b)
    · have h1 : a + b - a = b := by ring
      have h2 : a + b - b = a := by ring
      simp only [rnd_rep hx, h1, rnd_rep hb, h2, rnd_rep ha, sub_self, rnd_zero, add_zero]
    · have hs0 : a + b ≠ 0 := by intro h; rw [h] at hx; exact hx (Rep.zero p)
      have ha0 : a ≠ 0 := by rintro rfl; rw [zero_add] at hx; exact hx hb
      have ga := grid_spec p ha0
      have gb := grid_spec p hb0
      have gs := grid_spec p hs0
      have hba : grid p a ≤ grid p b := grid_le ha0 (hab.le.trans_lt gb.2)
      have hxa : |a| ≤ |rnd p (a + b)| := by
        refine le_abs_rnd hp0 ha.abs ?_
        by_contra hc
        exact hx ⟨grid p a, ha.grid.add (hb.grid.mono hba), (not_le.mp hc).trans ga.2⟩
      set x := rnd p (a + b) with hxdef
      have hxr : Rep p x := rep_rnd hp0 _
      have e1 : Rep p (rnd p (x - a) - x) := by
        have := rep_sub_of_le hp0 hxr ha.neg (by rwa [abs_neg])
        rwa [← sub_eq_add_neg] at this
      have h1 : rnd p (x - rnd p (x - a)) = x - rnd p (x - a) := by
        apply rnd_rep
        rw [← neg_sub]; exact e1.neg
      have h2 : rnd p (a - (x - rnd p (x - a))) = a - (x - rnd p (x - a)) := by
        apply rnd_rep
        have := (sum_err_rep hp0 hxr ha.neg).neg
        rw [← sub_eq_add_neg] at this
        convert this using 1
        ring
      have hgl : grid p (a + b) ≤ grid p b + 1 := by
        refine grid_le hs0 ?_
        rw [show grid p b + 1 + p = grid p b + p + 1 by ring, two_zpow_succ]
        have := abs_add_le a b
        linarith [gb.2]
      have herr1 : |x - (a + b)| ≤ 2 ^ grid p b := by
        refine (rnd_err p (a + b)).trans ?_
        have := two_zpow_le hgl
        rw [two_zpow_succ] at this
        linarith
      have hup := Mul.le_sub hb.grid.abs (Mul.pow (show grid p b ≤ grid p b + p by omega)) gb.2
      have hxa1 : |x - a| ≤ 2 ^ (grid p b + p) := by
        have : x - a = (x - (a + b)) + b := by ring
        rw [this]
        refine (abs_add_le _ _).trans ?_
        linarith
      have hxa2 : 2 ^ (grid p b - 1 + p - 1) ≤ |x - a| := by
        have h3 : |b| ≤ |x - a| + |x - (a + b)| := by
          have : b = (x - a) - (x - (a + b)) := by ring
          calc |b| = |(x - a) - (x - (a + b))| := by rw [← this]
            _ ≤ _ := abs_sub _ _
        have h4 : (2 : ℚ) ^ (grid p b + p - 1) = 2 * 2 ^ (grid p b - 1 + p - 1) := by rw [← two_zpow_succ]; congr 1; ring
        have h5 : (2 : ℚ) ^ grid p b ≤ 2 ^ (grid p b - 1 + p - 1) := two_zpow_le (by omega)
        linarith [gb.1]
      have e2 : |rnd p (x - a) - (x - a)| ≤ 2 ^ grid p b / 2 := by
        rcases lt_or_eq_of_le hxa1 with h | h
        · have h0 : x - a ≠ 0 := by
            intro h0
            rw [h0, abs_zero] at hxa2
            exact absurd hxa2 (not_le.mpr (two_zpow_pos _))
          have h1 := rnd_err p (x - a)
          have h2 := two_zpow_le (grid_le h0 h)
          linarith
        · have hr : Rep p (x - a) := rep_of_abs_eq hp0 h
          rw [rnd_rep hr, sub_self, abs_zero]
          have := two_zpow_pos (grid p b)
          linarith
      have h3 : rnd p (b - rnd p (x - a)) = b - rnd p (x - a) := by
        refine rnd_of_mul hp0 (k := grid p b - 1) ((hb.grid.mono (by omega)).sub ((rnd_mul_grid p _).mono (le_grid hxa2))) ?_
        have h6 : b - rnd p (x - a) = -(rnd p (x - a) - (x - a)) - (x - (a + b)) := by ring
        rw [h6]
        refine (abs_sub _ _).trans ?_
        rw [abs_neg]
        have h7 : (2 : ℚ) ^ (grid p b + 1) ≤ 2 ^ (grid p b - 1 + p) := two_zpow_le (by omega)
        rw [two_zpow_succ] at h7
        have := two_zpow_pos (grid p b)
        linarith
      have h4 : a - (x - rnd p (x - a)) + (b - rnd p (x - a)) = a + b - x := by ring
      simp only [h1, h2, h3, h4]
      exact rnd_rep herr

/-- `Two_Diff` is `Two_Sum` of the negated number. -/
theorem twoDiff_eq_twoSum (p : Nat) (a b : ℚ) : twoDiff p a b = twoSum p a (-b) := by
  have h1 : ∀ x, rnd p (a - x) = -rnd p (x - a) := fun x => rnd_sub_comm p a x
  have h2 : ∀ x, -rnd p (x - a) - b = -b - rnd p (x - a) := fun x => by ring
  simp only [twoDiff, twoSum, twoDiffTail, twoSumTail, ← sub_eq_add_neg]
  simp only [h1, h2, ← sub_eq_add_neg]

/-- `Two_Diff` is exact. -/
theorem twoDiff_eq {p : Nat} (hp : 2 ≤ p) {a b : ℚ} (ha : Rep p a) (hb : Rep p b) :
    twoDiff p a b = (rnd p (a - b), a - b - rnd p (a - b)) := by
  rw [twoDiff_eq_twoSum, twoSum_eq hp ha hb.neg, ← sub_eq_add_neg]

/-! ### Products -/

/-- Number of digits cut off by `Split`. -/
def half (p : Nat) : Nat := (p + 1) / 2

theorem zpow_add_nat (k : Int) (n : Nat) : (2 : ℚ) ^ (k + n) = 2 ^ k * 2 ^ n := by rw [zpow_add₀ (by norm_num), zpow_natCast]

/-- `Split` cuts a number into two halves. -/
theorem split_spec {p : Nat} (hp : 3 ≤ p) {a : ℚ} (ha : Rep p a) :
    ∃ k : Int, Mul k a ∧ |a| < 2 ^ (k + p) ∧ (a = 0 ∨ 2 ^ (k + p - 1) ≤ |a|) ∧
      (split p (2 ^ half p + 1) a).1 + (split p (2 ^ half p + 1) a).2 = a ∧
      Mul (k + half p) (split p (2 ^ half p + 1) a).1 ∧ |(split p (2 ^ half p + 1) a).1| ≤ 2 ^ (k + p) ∧
      Mul k (split p (2 ^ half p + 1) a).2 ∧ |(split p (2 ^ half p + 1) a).2| ≤ 2 ^ (k + half p - 1) := by
  have hp0 : 0 < p := by omega
  by_cases h0 : a = 0
  · subst h0
    refine ⟨0, Mul.zero _, by simpa using two_zpow_pos _, Or.inl rfl, ?_⟩
    simp only [split, mul_zero, sub_self, rnd_zero, add_zero]
    exact ⟨trivial, Mul.zero _, by simpa using (two_zpow_pos _).le, Mul.zero _, by simpa using (two_zpow_pos _).le⟩
  have ga := grid_spec p h0
  set k := grid p a with hk
  set s := half p with hs
  have hs1 : s < p := by simp only [hs, half]; omega
  have hs2 : 2 ≤ s := by simp only [hs, half]; omega
  refine ⟨k, ha.grid, ga.2, Or.inr ga.1, ?_⟩
  set t : ℚ := (2 ^ s + 1) * a with ht
  have hS : (2 : ℚ) ^ s = 2 ^ (s : Int) := (zpow_natCast _ _).symm
  have hSpos : (0 : ℚ) < 2 ^ s := by positivity
  have htabs : |t| = 2 ^ s * |a| + |a| := by rw [ht, abs_mul, abs_of_pos (by positivity)]; ring
  have hup := Mul.le_sub ha.grid.abs (Mul.pow (show k ≤ k + p by omega)) ga.2
  -- c
  have hmt : Mul k t := by
    rw [ht, add_mul, one_mul]
    refine Mul.add ?_ ha.grid
    have := (Mul.self (s : Int)).mul ha.grid
    rw [hS]
    exact this.mono (by omega)
  have ht0 : t ≠ 0 := by
    intro h
    rw [h, abs_zero] at htabs
    have := abs_pos.mpr h0
    nlinarith
  have hg1 : k + s ≤ grid p t := by
    refine le_grid ?_
    rw [htabs, show k + s + p - 1 = (k + p - 1) + s by ring, zpow_add_nat]
    have := mul_le_mul_of_nonneg_right ga.1 hSpos.le
    linarith [abs_nonneg a]
  have hg2 : grid p t ≤ k + s + 1 := by
    refine grid_le ht0 ?_
    rw [htabs, show k + s + 1 + p = (k + p) + s + 1 by ring, two_zpow_succ, zpow_add_nat]
    have h1 : (1 : ℚ) ≤ 2 ^ s := one_le_pow₀ (by norm_num)
    have h2 := mul_lt_mul_of_pos_left ga.2 hSpos
    have h3 : |a| ≤ 2 ^ s * |a| := by nlinarith [abs_nonneg a]
    linarith
  set c := rnd p t with hc
  have hcm : Mul (k + s) c := (rnd_mul_grid p t).mono hg1
  have hce : |c - t| ≤ 2 ^ (k + s) := by
    have h1 := rnd_err p t
    have h2 := two_zpow_le hg2
    rw [two_zpow_succ] at h2
    linarith
  -- c - a
  have hca : c - a = 2 ^ s * a + (c - t) := by rw [ht]; ring
  have hca1 : |c - a| ≤ 2 ^ (k + s + p) := by
    rw [hca]
    refine (abs_add_le _ _).trans ?_
    rw [abs_mul, abs_of_pos hSpos]
    have h1 := mul_le_mul_of_nonneg_left hup hSpos.le
    rw [show k + s + p = (k + p) + s by ring, zpow_add_nat]
    rw [zpow_add_nat] at hce
    linarith
  have hca2 : 2 ^ (k + s + p - 1) ≤ |c - a| := by
    rcases lt_or_eq_of_le ga.1 with h | h
    · have h1 := Mul.le_sub (Mul.pow (show k ≤ k + p - 1 by omega)) ha.grid.abs h
      have h2 : 2 ^ s * |a| ≤ |c - a| + |c - t| := by
        have : 2 ^ s * a = (c - a) - (c - t) := by rw [hca]; ring
        calc 2 ^ s * |a| = |2 ^ s * a| := by rw [abs_mul, abs_of_pos hSpos]
          _ = |(c - a) - (c - t)| := by rw [this]
          _ ≤ _ := abs_sub _ _
      have h3 := mul_le_mul_of_nonneg_left h1 hSpos.le
      rw [show k + s + p - 1 = (k + p - 1) + s by ring, zpow_add_nat]
      rw [zpow_add_nat] at hce
      linarith
    · have hr : Rep p t := by
        have h5 : Mul (k + p - 1) a := by
          rcases abs_choice a with e | e
          · rw [← e, ← h]; exact Mul.self _
          · rw [show a = -|a| by rw [e]; ring, ← h]; exact (Mul.self _).neg
        refine ⟨k + p - 1, ?_, ?_⟩
        · rw [ht, add_mul, one_mul]
          refine Mul.add ?_ h5
          rw [hS]
          exact ((Mul.self (s : Int)).mul h5).mono (by omega)
        · rw [htabs, ← h, zpow_add_nat _ p]
          have h6 : (2 : ℚ) ^ s + 1 < 2 ^ p := by
            have h7 : (2 : ℚ) ^ (s + 1) ≤ 2 ^ p := pow_le_pow_right₀ (by norm_num) (by omega)
            have h8 : (2 : ℚ) ^ 1 ≤ 2 ^ s := pow_le_pow_right₀ (by norm_num) (by omega)
            rw [pow_succ] at h7
            linarith
          have := mul_lt_mul_of_pos_left h6 (two_zpow_pos (k + p - 1))
          linarith
      have hct : c = t := rnd_rep hr
      rw [hca, hct, sub_self, add_zero, abs_mul, abs_of_pos hSpos, ← h, show k + s + p - 1 = (k + p - 1) + s by ring, zpow_add_nat]
      linarith
  set abig := rnd p (c - a) with hab
  have hbm : Mul (k + s) abig := (rnd_mul_grid p _).mono (le_grid hca2)
  have hbe : |abig - (c - a)| ≤ 2 ^ (k + s - 1) := by
    have h2 : (2 : ℚ) ^ (k + s) = 2 * 2 ^ (k + s - 1) := by rw [← two_zpow_succ]; congr 1; ring
    rcases lt_or_eq_of_le hca1 with h | h
    · have hn : c - a ≠ 0 := by
        intro hn
        rw [hn, abs_zero] at hca2
        exact absurd hca2 (not_le.mpr (two_zpow_pos _))
      have h1 := rnd_err p (c - a)
      have h3 := two_zpow_le (grid_le hn h)
      linarith
    · have hr : Rep p (c - a) := rep_of_abs_eq hp0 h
      rw [hab, rnd_rep hr, sub_self, abs_zero]
      exact (two_zpow_pos _).le
  -- ahi
  have hhi : rnd p (c - abig) = c - abig := by
    refine rnd_of_mul hp0 (hcm.sub hbm) ?_
    have h1 : c - abig = a - (abig - (c - a)) := by ring
    rw [h1]
    refine (abs_sub _ _).trans ?_
    have h2 : (2 : ℚ) ^ (k + p) ≤ 2 ^ (k + s + p - 1) := two_zpow_le (by omega)
    have h3 : (2 : ℚ) ^ (k + s - 1) ≤ 2 ^ (k + s + p - 1) := two_zpow_le (by omega)
    have h4 : (2 : ℚ) ^ (k + s + p) = 2 * 2 ^ (k + s + p - 1) := by rw [← two_zpow_succ]; congr 1; ring
    linarith [ga.2]
  have hlom : Mul k (a - (c - abig)) := ha.grid.sub ((hcm.sub hbm).mono (by omega))
  have hloe : |a - (c - abig)| ≤ 2 ^ (k + s - 1) := by
    have h1 : a - (c - abig) = abig - (c - a) := by ring
    rw [h1]; exact hbe
  have hlo : rnd p (a - (c - abig)) = a - (c - abig) := rnd_of_mul hp0 hlom (hloe.trans (two_zpow_le (by omega)))
  have hsplit : split p (2 ^ s + 1) a = (c - abig, a - (c - abig)) := by
    simp only [split, ← ht, ← hc, ← hab, hhi, hlo]
  rw [hsplit]
  refine ⟨by ring, hcm.sub hbm, ?_, hlom, hloe⟩
  by_contra hcon
  have h1 := Mul.le_sub (Mul.pow (show k + s ≤ k + p by omega)) (hcm.sub hbm).abs (not_le.mp hcon)
  have h2 : |c - abig| ≤ |a| + |a - (c - abig)| := by
    have : c - abig = a - (a - (c - abig)) := by ring
    calc |c - abig| = |a - (a - (c - abig))| := by rw [← this]
      _ ≤ _ := abs_sub _ _
  have h3 : (2 : ℚ) ^ (k + s) = 2 * 2 ^ (k + s - 1) := by rw [← two_zpow_succ]; congr 1; ring
  have h4 := two_zpow_pos (k + s - 1)
  linarith [ga.2]

/-- The last lines of `Two_Product_Tail` compute the error of the product. -/
theorem productTail_eq {p : Nat} (hp : 4 ≤ p) {a b ahi alo bhi blo : ℚ} {k l : Int} (ha : Mul k a) (ha1 : |a| < 2 ^ (k + p))
    (ha2 : a = 0 ∨ 2 ^ (k + p - 1) ≤ |a|) (hb : Mul l b) (hb1 : |b| < 2 ^ (l + p))
    (hb2 : b = 0 ∨ 2 ^ (l + p - 1) ≤ |b|) (hae : ahi + alo = a) (hah : Mul (k + half p) ahi) (hah' : |ahi| ≤ 2 ^ (k + p))
    (hal : Mul k alo) (hal' : |alo| ≤ 2 ^ (k + half p - 1)) (hbe : bhi + blo = b) (hbh : Mul (l + half p) bhi)
    (hbh' : |bhi| ≤ 2 ^ (l + p)) (hbl : Mul l blo) (hbl' : |blo| ≤ 2 ^ (l + half p - 1)) :
    productTail p (rnd p (a * b)) ahi alo bhi blo = a * b - rnd p (a * b) := by
  have hp0 : 0 < p := by omega
  set s := half p with hs
  have hs1 : s + 1 < p ∨ p = 4 := by simp only [hs, half]; omega
  have hs1' : s + 2 ≤ p := by simp only [hs, half]; omega
  have hs2 : 2 ≤ s := by simp only [hs, half]; omega
  have hs3 : p ≤ 2 * s := by simp only [hs, half]; omega
  have hs4 : 2 * s ≤ p + 1 := by simp only [hs, half]; omega
  have habm : Mul (k + l) (a * b) := ha.mul hb
  have hmulle : ∀ {x y : ℚ} {i j : Int}, |x| ≤ 2 ^ i → |y| ≤ 2 ^ j → |x * y| ≤ 2 ^ (i + j) := by
    intro x y i j hx hy
    rw [abs_mul, zpow_add₀ (by norm_num)]
    exact mul_le_mul hx hy (abs_nonneg _) (two_zpow_pos _).le
  -- the rounded product
  have hx : Mul (k + l + p - 1) (rnd p (a * b)) ∧ |rnd p (a * b) - a * b| ≤ 2 ^ (k + l + p - 1) := by
    by_cases h0 : a * b = 0
    · rw [h0, rnd_zero]; exact ⟨Mul.zero _, by simpa using (two_zpow_pos _).le⟩
    · have h1 : a ≠ 0 := left_ne_zero_of_mul h0
      have h2 : b ≠ 0 := right_ne_zero_of_mul h0
      have h3 := ha2.resolve_left h1
      have h4 := hb2.resolve_left h2
      constructor
      · refine (rnd_mul_grid p _).mono (le_grid ?_)
        rw [abs_mul, show k + l + p - 1 + p - 1 = (k + p - 1) + (l + p - 1) by ring, zpow_add₀ (by norm_num)]
        exact mul_le_mul h3 h4 (two_zpow_pos _).le (abs_nonneg _)
      · have h5 : grid p (a * b) ≤ k + l + p := by
          refine grid_le h0 ?_
          rw [abs_mul, show k + l + p + p = (k + p) + (l + p) by ring, zpow_add₀ (by norm_num)]
          exact mul_lt_mul'' ha1 hb1 (abs_nonneg _) (abs_nonneg _)
        have h6 := two_zpow_le h5
        have h7 : (2 : ℚ) ^ (k + l + p) = 2 * 2 ^ (k + l + p - 1) := by rw [← two_zpow_succ]; congr 1; ring
        have h8 := rnd_err p (a * b)
        linarith
  obtain ⟨hxm, hxe⟩ := hx
  set x := rnd p (a * b) with hxdef
  -- partial products
  have p1 : rnd p (ahi * bhi) = ahi * bhi :=
    rnd_of_mul hp0 (hah.mul hbh) ((hmulle hah' hbh').trans (two_zpow_le (by omega)))
  have p2 : rnd p (alo * bhi) = alo * bhi :=
    rnd_of_mul hp0 (hal.mul hbh) ((hmulle hal' hbh').trans (two_zpow_le (by omega)))
  have p3 : rnd p (ahi * blo) = ahi * blo :=
    rnd_of_mul hp0 (hah.mul hbl) ((hmulle hah' hbl').trans (two_zpow_le (by omega)))
  have p4 : rnd p (alo * blo) = alo * blo :=
    rnd_of_mul hp0 (hal.mul hbl) ((hmulle hal' hbl').trans (two_zpow_le (by omega)))
  -- partial differences
  have m1 : Mul (k + l + p - 1) (x - ahi * bhi) := hxm.sub ((hah.mul hbh).mono (by omega))
  have m2 : Mul (k + l + s) (x - ahi * bhi - alo * bhi) := (m1.mono (by omega)).sub ((hal.mul hbh).mono (by omega))
  have m3 : Mul (k + l + s) (x - ahi * bhi - alo * bhi - ahi * blo) := m2.sub ((hah.mul hbl).mono (by omega))
  have b1 : |alo * b| ≤ 2 ^ (k + l + s + p - 1) := (hmulle hal' hb1.le).trans (two_zpow_le (by omega))
  have b2 : |ahi * blo| ≤ 2 ^ (k + l + s + p - 1) := (hmulle hah' hbl').trans (two_zpow_le (by omega))
  have b3 : |a * blo| ≤ 2 ^ (k + l + s + p - 1) := (hmulle ha1.le hbl').trans (two_zpow_le (by omega))
  have b4 : |alo * blo| ≤ 2 ^ (k + l + s + p - 1) := (hmulle hal' hbl').trans (two_zpow_le (by omega))
  have hle : (2 : ℚ) ^ (k + l + p - 1) ≤ 2 ^ (k + l + s + p - 1) := two_zpow_le (by omega)
  have hdbl : (2 : ℚ) ^ (k + l + s + p) = 2 * 2 ^ (k + l + s + p - 1) := by rw [← two_zpow_succ]; congr 1; ring
  have q1 : rnd p (x - ahi * bhi) = x - ahi * bhi := by
    refine rnd_of_mul hp0 m1 ?_
    have h1 : x - ahi * bhi = (x - a * b) + alo * b + ahi * blo := by rw [← hae, ← hbe]; ring
    rw [h1]
    have h2 := abs_add_le (x - a * b + alo * b) (ahi * blo)
    have h3 := abs_add_le (x - a * b) (alo * b)
    have h4 : (2 : ℚ) ^ (k + l + s + p + 1) ≤ 2 ^ (k + l + p - 1 + p) := two_zpow_le (by omega)
    rw [two_zpow_succ] at h4
    have := two_zpow_pos (k + l + s + p - 1)
    linarith
  have q2 : rnd p (x - ahi * bhi - alo * bhi) = x - ahi * bhi - alo * bhi := by
    refine rnd_of_mul hp0 m2 ?_
    have h1 : x - ahi * bhi - alo * bhi = (x - a * b) + a * blo := by rw [← hae, ← hbe]; ring
    rw [h1]
    have h3 := abs_add_le (x - a * b) (a * blo)
    linarith
  have q3 : rnd p (x - ahi * bhi - alo * bhi - ahi * blo) = x - ahi * bhi - alo * bhi - ahi * blo := by
    refine rnd_of_mul hp0 m3 ?_
    have h1 : x - ahi * bhi - alo * bhi - ahi * blo = (x - a * b) + alo * blo := by rw [← hae, ← hbe]; ring
    rw [h1]
    have h3 := abs_add_le (x - a * b) (alo * blo)
    linarith
  have q4 : alo * blo - (x - ahi * bhi - alo * bhi - ahi * blo) = a * b - x := by rw [← hae, ← hbe]; ring
  simp only [productTail, p1, p2, p3, p4, q1, q2, q3, q4]
  refine rnd_of_mul hp0 (sum_err_mul habm) ?_
  rw [abs_sub_comm]
  exact hxe.trans (two_zpow_le (by omega))

/-- `Two_Product` is exact. -/
theorem twoProduct_eq {p : Nat} (hp : 4 ≤ p) {a b : ℚ} (ha : Rep p a) (hb : Rep p b) :
    twoProduct p (2 ^ half p + 1) a b = (rnd p (a * b), a * b - rnd p (a * b)) := by
  obtain ⟨k, a1, a2, a3, a4, a5, a6, a7, a8⟩ := split_spec (by omega) ha
  obtain ⟨l, b1, b2, b3, b4, b5, b6, b7, b8⟩ := split_spec (by omega) hb
  simp only [twoProduct, productTail_eq hp a1 a2 a3 b1 b2 b3 a4 a5 a6 a7 a8 b4 b5 b6 b7 b8]

/-- The error of a product has `p` digits. -/
theorem prod_err_rep {p : Nat} (hp : 0 < p) {a b : ℚ} (ha : Rep p a) (hb : Rep p b) : Rep p (a * b - rnd p (a * b)) := by
  by_cases h0 : a * b = 0
  · rw [h0, rnd_zero]; simpa using Rep.zero p
  obtain ⟨k, ha1, ha2⟩ := ha
  obtain ⟨l, hb1, hb2⟩ := hb
  refine Rep.of_le (sum_err_mul (ha1.mul hb1)) ?_ hp
  have h5 : grid p (a * b) ≤ k + l + p := by
    refine grid_le h0 ?_
    rw [abs_mul, show k + l + p + p = (k + p) + (l + p) by ring, zpow_add₀ (by norm_num)]
    exact mul_lt_mul'' ha2 hb2 (abs_nonneg _) (abs_nonneg _)
  have h6 := two_zpow_le h5
  have h8 := rnd_err p (a * b)
  have := two_zpow_pos (k + l + p)
  rw [abs_sub_comm]
  linarith

/-- `Square` is exact. -/
theorem square_eq {p : Nat} (hp : 4 ≤ p) {a : ℚ} (ha : Rep p a) :
    square p (2 ^ half p + 1) a = (rnd p (a * a), a * a - rnd p (a * a)) := by
  have hp0 : 0 < p := by omega
  obtain ⟨k, a1, a2, a3, a4, a5, a6, a7, a8⟩ := split_spec (by omega) ha
  set ahi := (split p (2 ^ half p + 1) a).1 with hahi
  set alo := (split p (2 ^ half p + 1) a).2 with halo
  set s := half p with hs
  have hs1' : s + 2 ≤ p := by simp only [hs, half]; omega
  have hs2 : 2 ≤ s := by simp only [hs, half]; omega
  have hs3 : p ≤ 2 * s := by simp only [hs, half]; omega
  have hs4 : 2 * s ≤ p + 1 := by simp only [hs, half]; omega
  have hmulle : ∀ {x y : ℚ} {i j : Int}, |x| ≤ 2 ^ i → |y| ≤ 2 ^ j → |x * y| ≤ 2 ^ (i + j) := by
    intro x y i j hx hy
    rw [abs_mul, zpow_add₀ (by norm_num)]
    exact mul_le_mul hx hy (abs_nonneg _) (two_zpow_pos _).le
  have hx : Mul (k + k + p - 1) (rnd p (a * a)) ∧ |rnd p (a * a) - a * a| ≤ 2 ^ (k + k + p - 1) := by
    by_cases h0 : a = 0
    · rw [h0, mul_zero, rnd_zero]; exact ⟨Mul.zero _, by simpa using (two_zpow_pos _).le⟩
    · have h3 := a3.resolve_left h0
      constructor
      · refine (rnd_mul_grid p _).mono (le_grid ?_)
        rw [abs_mul, show k + k + p - 1 + p - 1 = (k + p - 1) + (k + p - 1) by ring, zpow_add₀ (by norm_num)]
        exact mul_le_mul h3 h3 (two_zpow_pos _).le (abs_nonneg _)
      · have h5 : grid p (a * a) ≤ k + k + p := by
          refine grid_le (mul_ne_zero h0 h0) ?_
          rw [abs_mul, show k + k + p + p = (k + p) + (k + p) by ring, zpow_add₀ (by norm_num)]
          exact mul_lt_mul'' a2 a2 (abs_nonneg _) (abs_nonneg _)
        have h6 := two_zpow_le h5
        have h7 : (2 : ℚ) ^ (k + k + p) = 2 * 2 ^ (k + k + p - 1) := by rw [← two_zpow_succ]; congr 1; ring
        have h8 := rnd_err p (a * a)
        linarith
  obtain ⟨hxm, hxe⟩ := hx
  set x := rnd p (a * a) with hxdef
  have p0 : rnd p (ahi + ahi) = ahi + ahi := by
    refine rnd_of_mul hp0 (a5.add a5) ?_
    have h1 := abs_add_le ahi ahi
    have h2 : (2 : ℚ) ^ (k + p + 1) ≤ 2 ^ (k + s + p) := two_zpow_le (by omega)
    rw [two_zpow_succ] at h2
    linarith
  have p1 : rnd p (ahi * ahi) = ahi * ahi :=
    rnd_of_mul hp0 (a5.mul a5) ((hmulle a6 a6).trans (two_zpow_le (by omega)))
  have b0 : |ahi * alo| ≤ 2 ^ (k + k + s + p - 1) := (hmulle a6 a8).trans (two_zpow_le (by omega))
  have hdbl : (2 : ℚ) ^ (k + k + s + p) = 2 * 2 ^ (k + k + s + p - 1) := by rw [← two_zpow_succ]; congr 1; ring
  have e2 : (ahi + ahi) * alo = ahi * alo + ahi * alo := by ring
  have mm : Mul (k + k + s) (ahi * alo) := (a5.mul a7).mono (by omega)
  have p2 : rnd p ((ahi + ahi) * alo) = (ahi + ahi) * alo := by
    refine rnd_of_mul hp0 (k := k + k + s) (by rw [e2]; exact mm.add mm) ?_
    rw [e2]
    have h1 := abs_add_le (ahi * alo) (ahi * alo)
    linarith
  have p4 : rnd p (alo * alo) = alo * alo :=
    rnd_of_mul hp0 (a7.mul a7) ((hmulle a8 a8).trans (two_zpow_le (by omega)))
  have m1 : Mul (k + k + p - 1) (x - ahi * ahi) := hxm.sub ((a5.mul a5).mono (by omega))
  have m3 : Mul (k + k + s) (x - ahi * ahi - (ahi + ahi) * alo) := by
    rw [e2]; exact (m1.mono (by omega)).sub (mm.add mm)
  have b1 : |alo * a| ≤ 2 ^ (k + k + s + p - 1) := (hmulle a8 a2.le).trans (two_zpow_le (by omega))
  have b4 : |alo * alo| ≤ 2 ^ (k + k + s + p - 1) := (hmulle a8 a8).trans (two_zpow_le (by omega))
  have hle : (2 : ℚ) ^ (k + k + p - 1) ≤ 2 ^ (k + k + s + p - 1) := two_zpow_le (by omega)
  have q1 : rnd p (x - ahi * ahi) = x - ahi * ahi := by
    refine rnd_of_mul hp0 m1 ?_
    have h1 : x - ahi * ahi = (x - a * a) + alo * a + ahi * alo := by rw [← a4]; ring
    rw [h1]
    have h2 := abs_add_le (x - a * a + alo * a) (ahi * alo)
    have h3 := abs_add_le (x - a * a) (alo * a)
    have h4 : (2 : ℚ) ^ (k + k + s + p + 1) ≤ 2 ^ (k + k + p - 1 + p) := two_zpow_le (by omega)
    rw [two_zpow_succ] at h4
    have := two_zpow_pos (k + k + s + p - 1)
    linarith
  have q3 : rnd p (x - ahi * ahi - (ahi + ahi) * alo) = x - ahi * ahi - (ahi + ahi) * alo := by
    refine rnd_of_mul hp0 m3 ?_
    have h1 : x - ahi * ahi - (ahi + ahi) * alo = (x - a * a) + alo * alo := by rw [← a4]; ring
    rw [h1]
    have h3 := abs_add_le (x - a * a) (alo * alo)
    linarith
  have q4 : alo * alo - (x - ahi * ahi - (ahi + ahi) * alo) = a * a - x := by rw [← a4]; ring
  simp only [square, ← hahi, ← halo, ← hxdef, p0, p1, p2, p4, q1, q3, q4, rnd_rep (prod_err_rep hp0 ha ha)]
  rw [hxdef, rnd_rep (prod_err_rep hp0 ha ha)]

end FP
end Verif
