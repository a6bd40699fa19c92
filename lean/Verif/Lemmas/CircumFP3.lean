import Verif.Lemmas.CircumFP

/-!
# Errors of the circumsphere and of the box test in space
-/
namespace Verif
namespace FPM
open FP (Mul Rep rnd grid eps eps_pos two_zpow_pos)

variable {p : Nat} {rd sq rt : ℚ → ℚ}

/-! ### The numerators are exact -/

theorem rh_mul (hp : 0 < p) (h : Good p rd) {N : Nat} (hN : ∀ k d, k ≤ 100 → 1 ≤ d → d ≤ 4 → k * N ^ d ≤ 2 ^ p) {k l d e : Nat} {x y x' y' : ℚ}
    (hx : RI (k * N ^ d) x' x) (hy : RI (l * N ^ e) y' y) (hb : k * l ≤ 100 ∧ 1 ≤ d + e ∧ d + e ≤ 4) : RI (k * l * N ^ (d + e)) (mulR rd x' y') (x * y) := by
  have e1 : k * l * N ^ (d + e) = k * N ^ d * (l * N ^ e) := by rw [pow_add]; ring
  rw [e1]
  exact hx.mul hp h hy (by rw [← e1]; exact hN _ _ hb.1 hb.2.1 hb.2.2)

theorem rh_add (hp : 0 < p) (h : Good p rd) {N : Nat} (hN : ∀ k d, k ≤ 100 → 1 ≤ d → d ≤ 4 → k * N ^ d ≤ 2 ^ p) {k l d e : Nat} {x y x' y' : ℚ}
    (hx : RI (k * N ^ d) x' x) (hy : RI (l * N ^ e) y' y) (hb : k + l ≤ 100 ∧ 1 ≤ d ∧ d ≤ 4 ∧ e = d) : RI ((k + l) * N ^ d) (addR rd x' y') (x + y) := by
  obtain ⟨h1, h2, h3, rfl⟩ := hb
  have := hN _ _ h1 h2 h3
  rw [add_mul] at this ⊢
  exact hx.add hp h hy this

theorem rh_sub (hp : 0 < p) (h : Good p rd) {N : Nat} (hN : ∀ k d, k ≤ 100 → 1 ≤ d → d ≤ 4 → k * N ^ d ≤ 2 ^ p) {k l d e : Nat} {x y x' y' : ℚ}
    (hx : RI (k * N ^ d) x' x) (hy : RI (l * N ^ e) y' y) (hb : k + l ≤ 100 ∧ 1 ≤ d ∧ d ≤ 4 ∧ e = d) : RI ((k + l) * N ^ d) (subR rd x' y') (x - y) := by
  obtain ⟨h1, h2, h3, rfl⟩ := hb
  have := hN _ _ h1 h2 h3
  rw [add_mul] at this ⊢
  exact hx.sub hp h hy this

theorem rh_fin {N k d K D : Nat} {x x' : ℚ} (hx : RI (k * N ^ d) x' x) (h : k ≤ K ∧ d = D) : RI (K * N ^ D) x' x := by
  obtain ⟨h1, rfl⟩ := h
  exact hx.mono (Nat.mul_le_mul_right _ h1)

theorem den3_ri (hp : 0 < p) (h : Good p rd) {N : Nat} (hN : ∀ k d, k ≤ 100 → 1 ≤ d → d ≤ 4 → k * N ^ d ≤ 2 ^ p) {s0 s1 s2 s3 : Vec 3 ℚ}
    (a0 : ∀ i, RI (1 * N ^ 1) (s0 i) (s0 i)) (a1 : ∀ i, RI (1 * N ^ 1) (s1 i) (s1 i)) (a2 : ∀ i, RI (1 * N ^ 1) (s2 i) (s2 i))
    (a3 : ∀ i, RI (1 * N ^ 1) (s3 i) (s3 i)) :
    RI (48 * N ^ 3) (circumDen3R rd s0 s1 s2 s3) (Geom.circumDen3 s0 s1 s2 s3) := by
  have two : RI (2 * N ^ 0) 2 2 := ⟨rfl, 2, by norm_num, by norm_num⟩
  unfold circumDen3R Geom.circumDen3
  apply rh_fin
  · repeat' first
      | exact two
      | exact a0 _
      | exact a1 _
      | exact a2 _
      | exact a3 _
      | apply rh_mul hp h hN
      | apply rh_add hp h hN
      | apply rh_sub hp h hN
      | apply RI.neg
    all_goals decide
  · decide

theorem num3_ri_0 (hp : 0 < p) (h : Good p rd) {N : Nat} (hN : ∀ k d, k ≤ 100 → 1 ≤ d → d ≤ 4 → k * N ^ d ≤ 2 ^ p) {s0 s1 s2 s3 : Vec 3 ℚ}
    (a0 : ∀ i, RI (1 * N ^ 1) (s0 i) (s0 i)) (a1 : ∀ i, RI (1 * N ^ 1) (s1 i) (s1 i)) (a2 : ∀ i, RI (1 * N ^ 1) (s2 i) (s2 i))
    (a3 : ∀ i, RI (1 * N ^ 1) (s3 i) (s3 i)) (q0 : ∀ i, RI (1 * N ^ 2) (sq (s0 i)) (s0 i ^ 2)) (q1 : ∀ i, RI (1 * N ^ 2) (sq (s1 i)) (s1 i ^ 2))
    (q2 : ∀ i, RI (1 * N ^ 2) (sq (s2 i)) (s2 i ^ 2)) (q3 : ∀ i, RI (1 * N ^ 2) (sq (s3 i)) (s3 i ^ 2)) :
    RI (72 * N ^ 4) (circumNum3R_0 rd sq s0 s1 s2 s3) (Geom.circumNum3_0 s0 s1 s2 s3) := by
  have two : RI (2 * N ^ 0) 2 2 := ⟨rfl, 2, by norm_num, by norm_num⟩
  unfold circumNum3R_0 Geom.circumNum3_0
  apply rh_fin
  · repeat' first
      | exact two
      | exact q0 _ | exact q1 _ | exact q2 _ | exact q3 _ | exact a0 _
      | exact a1 _
      | exact a2 _
      | exact a3 _
      | apply rh_mul hp h hN
      | apply rh_add hp h hN
      | apply rh_sub hp h hN
      | apply RI.neg
    all_goals decide
  · decide

theorem num3_ri_1 (hp : 0 < p) (h : Good p rd) {N : Nat} (hN : ∀ k d, k ≤ 100 → 1 ≤ d → d ≤ 4 → k * N ^ d ≤ 2 ^ p) {s0 s1 s2 s3 : Vec 3 ℚ}
    (a0 : ∀ i, RI (1 * N ^ 1) (s0 i) (s0 i)) (a1 : ∀ i, RI (1 * N ^ 1) (s1 i) (s1 i)) (a2 : ∀ i, RI (1 * N ^ 1) (s2 i) (s2 i))
    (a3 : ∀ i, RI (1 * N ^ 1) (s3 i) (s3 i)) (q0 : ∀ i, RI (1 * N ^ 2) (sq (s0 i)) (s0 i ^ 2)) (q1 : ∀ i, RI (1 * N ^ 2) (sq (s1 i)) (s1 i ^ 2))
    (q2 : ∀ i, RI (1 * N ^ 2) (sq (s2 i)) (s2 i ^ 2)) (q3 : ∀ i, RI (1 * N ^ 2) (sq (s3 i)) (s3 i ^ 2)) :
    RI (72 * N ^ 4) (circumNum3R_1 rd sq s0 s1 s2 s3) (Geom.circumNum3_1 s0 s1 s2 s3) := by
  have two : RI (2 * N ^ 0) 2 2 := ⟨rfl, 2, by norm_num, by norm_num⟩
  unfold circumNum3R_1 Geom.circumNum3_1
  apply rh_fin
  · repeat' first
      | exact two
      | exact q0 _ | exact q1 _ | exact q2 _ | exact q3 _ | exact a0 _
      | exact a1 _
      | exact a2 _
      | exact a3 _
      | apply rh_mul hp h hN
      | apply rh_add hp h hN
      | apply rh_sub hp h hN
      | apply RI.neg
    all_goals decide
  · decide

theorem num3_ri_2 (hp : 0 < p) (h : Good p rd) {N : Nat} (hN : ∀ k d, k ≤ 100 → 1 ≤ d → d ≤ 4 → k * N ^ d ≤ 2 ^ p) {s0 s1 s2 s3 : Vec 3 ℚ}
    (a0 : ∀ i, RI (1 * N ^ 1) (s0 i) (s0 i)) (a1 : ∀ i, RI (1 * N ^ 1) (s1 i) (s1 i)) (a2 : ∀ i, RI (1 * N ^ 1) (s2 i) (s2 i))
    (a3 : ∀ i, RI (1 * N ^ 1) (s3 i) (s3 i)) (q0 : ∀ i, RI (1 * N ^ 2) (sq (s0 i)) (s0 i ^ 2)) (q1 : ∀ i, RI (1 * N ^ 2) (sq (s1 i)) (s1 i ^ 2))
    (q2 : ∀ i, RI (1 * N ^ 2) (sq (s2 i)) (s2 i ^ 2)) (q3 : ∀ i, RI (1 * N ^ 2) (sq (s3 i)) (s3 i ^ 2)) :
    RI (72 * N ^ 4) (circumNum3R_2 rd sq s0 s1 s2 s3) (Geom.circumNum3_2 s0 s1 s2 s3) := by
  have two : RI (2 * N ^ 0) 2 2 := ⟨rfl, 2, by norm_num, by norm_num⟩
  unfold circumNum3R_2 Geom.circumNum3_2
  apply rh_fin
  · repeat' first
      | exact two
      | exact q0 _ | exact q1 _ | exact q2 _ | exact q3 _ | exact a0 _
      | exact a1 _
      | exact a2 _
      | exact a3 _
      | apply rh_mul hp h hN
      | apply rh_add hp h hN
      | apply rh_sub hp h hN
      | apply RI.neg
    all_goals decide
  · decide

/-! ### Radius and box -/

theorem factors3 {e : ℚ} (he : 0 ≤ e) (h1 : e ≤ 1 / 4) : 1 - 9 * e ≤ (1 - e) ^ 7 * (1 - 2 * e) ∧ 1 - 9 * e ≤ (1 - e) ^ 6 * (1 - 2 * e) := by
  have b7 : 1 - 7 * e ≤ (1 - e) ^ 7 := by
    have := one_add_mul_le_pow (a := -e) (by linarith) 7
    push_cast at this
    rw [← sub_eq_add_neg] at this
    linarith
  have b6 : (1 - e) ^ 7 ≤ (1 - e) ^ 6 := pow_le_pow_of_le_one (by linarith) (by linarith) (by norm_num)
  have b9 : 1 - 9 * e ≤ (1 - e) ^ 7 * (1 - 2 * e) := by
    have := mul_le_mul_of_nonneg_right b7 (show 0 ≤ 1 - 2 * e by linarith)
    nlinarith
  exact ⟨b9, b9.trans (mul_le_mul_of_nonneg_right b6 (by linarith))⟩

/-- The squared radius. -/
theorem radius_lo3 (hp : 10 ≤ p) (h : Wide p rd) (hsq : PowOk p sq) (hrt : SqrtOk p rt) {x0 x1 x2 : ℚ} (m0 : Mul (-(2 * p) + 1) x0) (m1 : Mul (-(2 * p) + 1) x1)
    (m2 : Mul (-(2 * p) + 1) x2) (b0 : |x0| ≤ 2 ^ p) (b1 : |x1| ≤ 2 ^ p) (b2 : |x2| ≤ 2 ^ p) (hpos : 0 < x0 ^ 2 + x1 ^ 2 + x2 ^ 2) (r : ℚ)
    (hr : r = rt (addR rd (addR rd (sq (rd x0)) (sq (rd x1))) (sq (rd x2)))) :
    0 ≤ r ∧ (x0 ^ 2 + x1 ^ 2 + x2 ^ 2) * (1 - 9 * eps p) ≤ r ^ 2 ∧ (x0 ^ 2 + x1 ^ 2 + x2 ^ 2) * (1 - 9 * eps p) ≤ mulR rd r r := by
  have he := eps_pos p
  have he10 := eps_le10 hp
  have hbig := pow_big hp
  have hP : (1 : ℚ) ≤ 2 ^ p := one_le_pow₀ (by norm_num)
  have hPP : (2 : ℚ) ^ p ≤ 2 ^ p * 2 ^ p := by nlinarith
  have hL := two_zpow_pos (-(4 * p))
  have e4 : (2 : ℚ) ^ (-(2 * p) + 1 + (-(2 * p) + 1) : Int) = 4 * 2 ^ (-(4 * p) : Int) := by
    rw [show (-(2 * p) + 1 + (-(2 * p) + 1) : Int) = 2 + -(4 * p) by ring, zpow_add₀ (by norm_num)]
    norm_num
  have e1 : (1 + eps p) ^ 2 ≤ 2 := by nlinarith
  -- one square
  have one : ∀ x : ℚ, Mul (-(2 * p) + 1) x → |x| ≤ 2 ^ p → (1 - 2 * eps p) * ((1 - eps p) ^ 2 * x ^ 2) ≤ sq (rd x) ∧ sq (rd x) ≤ 2 ^ p * 2 ^ p * 4 ∧
      (sq (rd x) = 0 ∨ 3 * 2 ^ (-(4 * p) : Int) ≤ sq (rd x)) ∧ (x ≠ 0 → 3 * 2 ^ (-(4 * p) : Int) ≤ sq (rd x)) := by
    intro x hm hb
    obtain ⟨r0, n0⟩ := h.mul (k := -(2 * p) + 1) (by omega) hm (by linarith)
    obtain ⟨l0, u0⟩ := sq_bounds r0 he.le (by linarith)
    have q0 := abs_mul_self_le hb
    have hne : x ≠ 0 → rd x ≠ 0 := by
      intro hx hz
      rw [hz] at l0
      have h2 : (0 : ℚ) < (1 - eps p) ^ 2 * x ^ 2 := by
        have : 0 < 1 - eps p := by linarith
        positivity
      rw [zero_pow two_ne_zero] at l0
      linarith
    generalize rd x = y at *
    have hy : y ^ 2 ≤ 2 ^ p * 2 ^ p * 2 := by
      have := mul_le_mul e1 q0 (sq_nonneg _) (by norm_num)
      linarith
    have hlo : y ≠ 0 → 4 * 2 ^ (-(4 * p) : Int) ≤ y ^ 2 := by
      intro h0
      rw [pow_two, ← e4]
      have := (n0.mul n0).le_abs (mul_ne_zero h0 h0)
      rwa [abs_of_nonneg (mul_self_nonneg y)] at this
    have s0 := hsq.rel y (by
      by_cases hz : y = 0
      · exact Or.inl hz
      · exact Or.inr (by linarith [hlo hz])) (by linarith)
    rw [abs_le] at s0
    have hsq3 : y ≠ 0 → 3 * 2 ^ (-(4 * p) : Int) ≤ sq y := by
      intro h0
      have := mul_le_mul (show (3 / 4 : ℚ) ≤ 1 - 2 * eps p by linarith) (hlo h0) (by linarith) (by linarith)
      linarith [s0.1]
    refine ⟨?_, ?_, ?_, fun hx => hsq3 (hne hx)⟩
    · have := mul_le_mul_of_nonneg_left l0 (show 0 ≤ 1 - 2 * eps p by linarith)
      linarith [s0.1]
    · have := mul_le_mul (show 1 + 2 * eps p ≤ 2 by linarith) hy (sq_nonneg _) (by norm_num)
      linarith [s0.2]
    · by_cases hz : y = 0
      · left
        rw [hz] at s0 ⊢
        simp only [ne_eq, OfNat.ofNat_ne_zero, not_false_eq_true, zero_pow, mul_zero, sub_zero, neg_zero] at s0
        exact le_antisymm s0.2 s0.1
      · exact Or.inr (hsq3 hz)
  obtain ⟨o0, v0, w0, z0⟩ := one x0 m0 b0
  obtain ⟨o1, v1, w1, z1⟩ := one x1 m1 b1
  obtain ⟨o2, v2, w2, z2⟩ := one x2 m2 b2
  have hx : x0 ≠ 0 ∨ x1 ≠ 0 ∨ x2 ≠ 0 := by
    by_contra hc
    simp only [ne_eq, not_or, not_not] at hc
    obtain ⟨rfl, rfl, rfl⟩ := hc
    norm_num at hpos
  unfold addR at hr
  generalize sq (rd x0) = S0 at *
  generalize sq (rd x1) = S1 at *
  generalize sq (rd x2) = S2 at *
  have nn : ∀ {S : ℚ}, S = 0 ∨ 3 * 2 ^ (-(4 * p) : Int) ≤ S → 0 ≤ S := by
    intro S hS
    rcases hS with rfl | hS
    · exact le_rfl
    · linarith
  have p0 := nn w0
  have p1 := nn w1
  have p2 := nn w2
  -- the first sum
  have hu := h.rel (x := S0 + S1) (by
    rw [abs_of_nonneg (add_nonneg p0 p1)]
    rcases w0 with w | w
    · rcases w1 with w' | w'
      · left; rw [w, w', add_zero]
      · right; linarith
    · right; linarith) (by rw [abs_of_nonneg (add_nonneg p0 p1)]; linarith)
  rw [abs_of_nonneg (add_nonneg p0 p1), abs_le] at hu
  generalize rd (S0 + S1) = u at *
  have u1 : (1 - eps p) * (S0 + S1) ≤ u := by linarith [hu.1]
  have u2 : u ≤ (1 + eps p) * (S0 + S1) := by linarith [hu.2]
  have u3 : u ≤ 2 ^ p * 2 ^ p * 16 := by
    have := mul_le_mul (show 1 + eps p ≤ 2 by linarith) (show S0 + S1 ≤ 2 ^ p * 2 ^ p * 8 by linarith) (add_nonneg p0 p1) (by norm_num)
    linarith
  have u4 : 2 / 3 * (S0 + S1) ≤ u := by
    have := mul_le_mul_of_nonneg_right (show (2 / 3 : ℚ) ≤ 1 - eps p by linarith) (add_nonneg p0 p1)
    linarith
  have t3 : 2 * 2 ^ (-(4 * p) : Int) ≤ u + S2 := by
    rcases hx with hx | hx | hx
    · linarith [z0 hx]
    · linarith [z1 hx]
    · linarith [z2 hx]
  have ht := h.rel (x := u + S2) (Or.inr (by rw [abs_of_pos (by linarith)]; linarith)) (by rw [abs_of_pos (by linarith)]; linarith)
  have t1 : (1 - eps p) * ((1 - 2 * eps p) * ((1 - eps p) ^ 2 * (x0 ^ 2 + x1 ^ 2 + x2 ^ 2))) ≤ u + S2 := by
    have a1 := mul_le_mul_of_nonneg_left (add_le_add o0 o1) (show 0 ≤ 1 - eps p by linarith)
    have a2 : (1 - eps p) * S2 ≤ S2 := mul_le_of_le_one_left p2 (by linarith)
    have a3 := mul_le_mul_of_nonneg_left o2 (show 0 ≤ 1 - eps p by linarith)
    linarith
  have t4 : u + S2 ≤ 2 ^ p * 2 ^ p * 20 := by linarith
  generalize x0 ^ 2 + x1 ^ 2 + x2 ^ 2 = R at *
  generalize u + S2 = t at *
  rw [abs_of_pos (show 0 < t by linarith), abs_le] at ht
  generalize rd t = X at *
  have x1' : (1 - eps p) * t ≤ X := by linarith [ht.1]
  have x3' : 3 / 2 * 2 ^ (-(4 * p) : Int) ≤ X := by
    have := mul_le_mul (show (3 / 4 : ℚ) ≤ 1 - eps p by linarith) t3 (by linarith) (by linarith)
    linarith
  have x4' : X ≤ 2 ^ p * 2 ^ p * 40 := by
    have := mul_le_mul (show 1 + eps p ≤ 2 by linarith) t4 (by linarith) (by norm_num)
    linarith [ht.2]
  have hr0 := hrt.nonneg X (by linarith)
  have hr1 := hrt.lo X (by linarith) (by linarith)
  have hr2 := hrt.hi X (by linarith) (by linarith)
  rw [← hr] at hr0 hr1 hr2
  have r3 : 2 ^ (-(4 * p) : Int) ≤ r ^ 2 := by
    have h5 : (2 / 3 : ℚ) ≤ (1 - eps p) ^ 2 := by nlinarith
    have := mul_le_mul h5 x3' (by linarith) (by positivity)
    linarith
  have r4 : r ^ 2 ≤ 2 ^ p * 2 ^ p * 80 := by
    have := mul_le_mul e1 x4' (by linarith) (by norm_num)
    linarith
  have hm := h.rel (x := r * r) (Or.inr (by rw [← pow_two, abs_of_nonneg (sq_nonneg r)]; exact r3))
    (by rw [← pow_two, abs_of_nonneg (sq_nonneg r)]; linarith)
  rw [← pow_two, abs_of_nonneg (sq_nonneg r), abs_le] at hm
  unfold mulR
  rw [← pow_two]
  have c1 : (1 - eps p) * ((1 - eps p) * ((1 - 2 * eps p) * ((1 - eps p) ^ 2 * R))) ≤ X :=
    (mul_le_mul_of_nonneg_left t1 (show 0 ≤ 1 - eps p by linarith)).trans x1'
  have c2 : (1 - eps p) ^ 2 * ((1 - eps p) * ((1 - eps p) * ((1 - 2 * eps p) * ((1 - eps p) ^ 2 * R)))) ≤ r ^ 2 :=
    (mul_le_mul_of_nonneg_left c1 (sq_nonneg _)).trans hr1
  have c3 : (1 - eps p) * ((1 - eps p) ^ 2 * ((1 - eps p) * ((1 - eps p) * ((1 - 2 * eps p) * ((1 - eps p) ^ 2 * R))))) ≤ rd (r ^ 2) := by
    have := mul_le_mul_of_nonneg_left c2 (show 0 ≤ 1 - eps p by linarith)
    linarith [hm.1]
  obtain ⟨b9, b9'⟩ := factors3 he.le (by linarith)
  refine ⟨hr0, ?_, ?_⟩
  · refine (mul_le_mul_of_nonneg_left b9' hpos.le).trans (le_of_eq_of_le ?_ c2)
    ring
  · refine (mul_le_mul_of_nonneg_left b9 hpos.le).trans (le_of_eq_of_le ?_ c3)
    ring

theorem factors_up3 {e : ℚ} (he : 0 ≤ e) (h1 : e ≤ 1 / 1024) : (1 + e) ^ 4 ≤ 1 + 9 * e ∧ (1 + e) ^ 8 ≤ 1 + 9 * e := by
  have h2 : (1 + e) ^ 2 ≤ 1 + (2 + 1 / 1024) * e := by nlinarith
  have h4 : (1 + e) ^ 4 ≤ 1 + (4 + 1 / 64) * e := by
    have : (1 + e) ^ 4 ≤ (1 + (2 + 1 / 1024) * e) ^ 2 := by
      rw [show (1 + e) ^ 4 = ((1 + e) ^ 2) ^ 2 by ring]
      exact pow_le_pow_left₀ (by positivity) h2 2
    nlinarith
  refine ⟨by nlinarith, ?_⟩
  rw [show (1 + e) ^ 8 = (1 + e) ^ 4 * (1 + e) ^ 4 by ring]
  have := mul_le_mul h4 h4 (by positivity) (by positivity)
  nlinarith

/-- The test of a box that contains a point near the sphere. -/
theorem box_hit3 (hp : 10 ≤ p) (h : Wide p rd) {b : Box 3 ℚ} {s : Sphere 3 ℚ} {q : Vec 3 ℚ} (ml : ∀ d, Mul (-(2 * p) + 1) (b.low d))
    (mh : ∀ d, Mul (-(2 * p) + 1) (b.high d)) (mc : ∀ d, Mul (-(2 * p) + 1) (s.center d)) (h1 : ∀ d, b.low d ≤ q d) (h2 : ∀ d, q d ≤ b.high d)
    (bl : ∀ d, |b.low d| ≤ 2 ^ p) (bh : ∀ d, |b.high d| ≤ 2 ^ p) (bc : ∀ d, |s.center d| ≤ 2 ^ p) (hr : 0 ≤ s.radius)
    (hr1 : (1 + 9 * eps p) * ((q 0 - s.center 0) ^ 2 + (q 1 - s.center 1) ^ 2 + (q 2 - s.center 2) ^ 2) ≤ s.radius ^ 2)
    (hr2 : (1 + 9 * eps p) * ((q 0 - s.center 0) ^ 2 + (q 1 - s.center 1) ^ 2 + (q 2 - s.center 2) ^ 2) ≤ mulR rd s.radius s.radius) :
    intersectsR rd b s = true := by
  have he := eps_pos p
  have he10 := eps_le10 hp
  have hbig := pow_big hp
  have hP : (1 : ℚ) ≤ 2 ^ p := one_le_pow₀ (by norm_num)
  have hPP : (2 : ℚ) ^ p ≤ 2 ^ p * 2 ^ p := by nlinarith
  obtain ⟨f4, f8⟩ := factors_up3 he.le he10
  have e4 : (1 + eps p) ^ 4 ≤ 2 := by linarith
  have hone : 0 ≤ 1 - eps p := by linarith
  have hone' : 1 + eps p ≤ 2 := by linarith
  have k2 : (-(4 * p) : Int) ≤ -(2 * p) + 1 + (-(2 * p) + 1) := by omega
  -- one dimension
  have one : ∀ d, ∃ E, E = addR rd (max (subR rd (b.low d) (s.center d)) 0) (max (subR rd (s.center d) (b.high d)) 0) ∧ 0 ≤ E ∧
      E ^ 2 ≤ (1 + eps p) ^ 4 * (q d - s.center d) ^ 2 ∧ Mul (-(2 * p) + 1 + (-(2 * p) + 1)) (rd (E * E)) ∧ 0 ≤ rd (E * E) ∧
      rd (E * E) ≤ 2 ^ p * 2 ^ p * 16 ∧ rd (E * E) ≤ (1 + eps p) ^ 5 * (q d - s.center d) ^ 2 := by
    intro d
    obtain ⟨a1, a2, a3⟩ := edge_dist hp h (k := -(2 * p) + 1) (by omega) (ml d) (mh d) (mc d) (h1 d) (h2 d) (bl d) (bh d) (bc d) _ rfl
    refine ⟨_, rfl, a1, ?_⟩
    generalize addR rd (max (subR rd (b.low d) (s.center d)) 0) (max (subR rd (s.center d) (b.high d)) 0) = E at *
    have bq : |q d - s.center d| ≤ 2 * 2 ^ p := by
      have e1 := abs_le.1 (bl d)
      have e2 := abs_le.1 (bh d)
      have e3 := abs_le.1 (bc d)
      exact abs_le.2 ⟨by linarith [h1 d], by linarith [h2 d]⟩
    have t0 := abs_mul_self_le bq
    generalize q d - s.center d = x at *
    have s0 : E ^ 2 ≤ (1 + eps p) ^ 4 * x ^ 2 := by
      have := pow_le_pow_left₀ a1 a2 2
      rw [mul_pow, sq_abs, ← pow_mul] at this
      exact this
    have u0 : E * E ≤ 2 ^ p * 2 ^ p * 8 := by
      have := mul_le_mul e4 t0 (sq_nonneg _) (by norm_num)
      rw [← pow_two]; linarith
    obtain ⟨w1, w2, w3⟩ := h.bounds k2 (a3.mul a3) (mul_self_nonneg E) (by linarith)
    refine ⟨s0, w3, (mul_nonneg (mul_self_nonneg E) hone).trans w1, ?_, ?_⟩
    · have := mul_le_mul u0 hone' (by linarith) (by positivity)
      linarith
    · rw [← pow_two] at w2 ⊢
      have := mul_le_mul_of_nonneg_right s0 (show 0 ≤ 1 + eps p by linarith)
      calc _ ≤ _ := w2
        _ ≤ _ := this
        _ = _ := by ring
  obtain ⟨E0, hE0, p0, s0, m0, n0, l0, g0⟩ := one 0
  obtain ⟨E1, hE1, p1, s1, m1, n1, l1, g1⟩ := one 1
  obtain ⟨E2, hE2, p2, s2, m2, n2, l2, g2⟩ := one 2
  unfold intersectsR
  rw [show List.finRange 3 = [0, 1, 2] from rfl]
  simp only [intersectsLoopR]
  rw [← hE0, ← hE1, ← hE2]
  generalize q 0 - s.center 0 = x0 at *
  generalize q 1 - s.center 1 = x1 at *
  generalize q 2 - s.center 2 = x2 at *
  have inr : ∀ {E x : ℚ}, 0 ≤ E → E ^ 2 ≤ (1 + eps p) ^ 4 * x ^ 2 → x ^ 2 ≤ x0 ^ 2 + x1 ^ 2 + x2 ^ 2 → E ≤ s.radius := by
    intro E x _ h5 h6
    refine le_of_sq_le_sq ?_ hr
    have h7 : (1 + eps p) ^ 4 * x ^ 2 ≤ (1 + 9 * eps p) * x ^ 2 := mul_le_mul_of_nonneg_right f4 (sq_nonneg _)
    have h8 := mul_le_mul_of_nonneg_left h6 (show 0 ≤ 1 + 9 * eps p by linarith)
    linarith
  have i0 : E0 ≤ s.radius := inr p0 s0 (by linarith [sq_nonneg x1, sq_nonneg x2])
  have i1 : E1 ≤ s.radius := inr p1 s1 (by linarith [sq_nonneg x0, sq_nonneg x2])
  have i2 : E2 ≤ s.radius := inr p2 s2 (by linarith [sq_nonneg x0, sq_nonneg x1])
  rw [if_neg (not_lt.2 i0), if_neg (not_lt.2 i1), if_neg (not_lt.2 i2)]
  unfold addR mulR
  unfold mulR at hr2
  rw [zero_add]
  generalize rd (E0 * E0) = F0 at *
  generalize rd (E1 * E1) = F1 at *
  generalize rd (E2 * E2) = F2 at *
  obtain ⟨y1, y2, y3⟩ := h.bounds k2 m0 n0 (by linarith)
  have y0 : 0 ≤ rd F0 := (mul_nonneg n0 hone).trans y1
  have y4 : rd F0 ≤ 2 ^ p * 2 ^ p * 32 := by
    have := mul_le_mul l0 hone' (by linarith) (by positivity)
    linarith
  obtain ⟨z1, z2, z3⟩ := h.bounds k2 (y3.add m1) (add_nonneg y0 n1) (by linarith)
  have z0 : 0 ≤ rd (rd F0 + F1) := (mul_nonneg (add_nonneg y0 n1) hone).trans z1
  have z4 : rd (rd F0 + F1) ≤ 2 ^ p * 2 ^ p * 96 := by
    have := mul_le_mul (show rd F0 + F1 ≤ 2 ^ p * 2 ^ p * 48 by linarith) hone' (by linarith) (by positivity)
    linarith
  obtain ⟨-, v2, -⟩ := h.bounds k2 (z3.add m2) (add_nonneg z0 n2) (by linarith)
  simp only [decide_eq_true_eq]
  refine v2.trans (le_trans ?_ hr2)
  have hq : 1 ≤ 1 + eps p := by linarith
  have hq0 : 0 ≤ 1 + eps p := by linarith
  have c1 : F1 ≤ F1 * (1 + eps p) := le_mul_of_one_le_right n1 hq
  have c2 : F2 ≤ F2 * (1 + eps p) := le_mul_of_one_le_right n2 hq
  have c2' : F2 * (1 + eps p) ≤ F2 * (1 + eps p) * (1 + eps p) := le_mul_of_one_le_right (by positivity) hq
  have d1 : rd (rd F0 + F1) ≤ (F0 + F1) * (1 + eps p) * (1 + eps p) := by
    refine z2.trans (mul_le_mul_of_nonneg_right ?_ hq0)
    linarith
  have d2 : rd (rd F0 + F1) + F2 ≤ (F0 + F1 + F2) * (1 + eps p) * (1 + eps p) := by
    have : (F0 + F1 + F2) * (1 + eps p) * (1 + eps p) = (F0 + F1) * (1 + eps p) * (1 + eps p) + F2 * (1 + eps p) * (1 + eps p) := by ring
    linarith
  have d3 : F0 + F1 + F2 ≤ (1 + eps p) ^ 5 * (x0 ^ 2 + x1 ^ 2 + x2 ^ 2) := by linarith
  calc _ ≤ (F0 + F1 + F2) * (1 + eps p) * (1 + eps p) * (1 + eps p) := mul_le_mul_of_nonneg_right d2 hq0
    _ = (F0 + F1 + F2) * (1 + eps p) ^ 3 := by ring
    _ ≤ (1 + eps p) ^ 5 * (x0 ^ 2 + x1 ^ 2 + x2 ^ 2) * (1 + eps p) ^ 3 := mul_le_mul_of_nonneg_right d3 (by positivity)
    _ = (1 + eps p) ^ 8 * (x0 ^ 2 + x1 ^ 2 + x2 ^ 2) := by ring
    _ ≤ _ := mul_le_mul_of_nonneg_right f8 (by positivity)

/-- The errors are smaller than the distance of an integer point from the sphere. -/
theorem margin3 {e δ N R P err : ℚ} (he : 0 < e) (hδ : 1 ≤ δ) (hN : 0 ≤ N) (hN58 : N ^ 5 ≤ N ^ 8) (heN : 1000000 * N ^ 8 * e ≤ 1)
    (hR : R ≤ 3 * (7 / 4 * (72 * N ^ 4 / δ)) ^ 2) (hP : P ≤ -(1 / δ)) (herr : |err| ≤ 2 * (3 * (e * (72 * N ^ 4 / δ) * (2 * N)))) :
    P + err < 0 ∧ 18 * e * R ≤ -(P + err) := by
  have hδ0 : 0 < δ := by linarith
  have h1 : 18 * e * R ≤ 857304 * N ^ 8 * e / δ := by
    have a1 : 18 * e * R ≤ 18 * e * (3 * (7 / 4 * (72 * N ^ 4 / δ)) ^ 2) := mul_le_mul_of_nonneg_left hR (by positivity)
    have a2 : 18 * e * (3 * (7 / 4 * (72 * N ^ 4 / δ)) ^ 2) = 857304 * N ^ 8 * e / δ / δ := by ring
    rw [a2] at a1
    exact a1.trans (div_le_self (by positivity) hδ)
  have h2 : 2 * (3 * (e * (72 * N ^ 4 / δ) * (2 * N))) = 864 * N ^ 5 * e / δ := by ring
  have h3 : 864 * N ^ 5 * e / δ ≤ 864 * N ^ 8 * e / δ := by
    apply div_le_div_of_nonneg_right _ hδ0.le
    nlinarith
  rw [h2] at herr
  have h4 := (abs_le.1 herr).2
  have h5 : 857304 * N ^ 8 * e / δ + 864 * N ^ 8 * e / δ + 141832 * N ^ 8 * e / δ ≤ 1 / δ := by
    rw [← add_div, ← add_div]
    apply div_le_div_of_nonneg_right _ hδ0.le
    linarith
  have h6 : 0 ≤ 141832 * N ^ 8 * e / δ := by positivity
  have h7 : 0 < 1 / δ := by positivity
  have h8 : 864 * N ^ 8 * e / δ ≤ 1 / δ / 2 := by
    rw [div_div, div_le_div_iff₀ hδ0 (by positivity)]
    nlinarith
  constructor
  · linarith
  · linarith

theorem finds3 (hp : 10 ≤ p) (h : Wide p rd) (hsq : PowOk p sq) (hrt : SqrtOk p rt) {N : Nat} (hN : 1000000 * N ^ 8 ≤ 2 ^ p) {q s0 s1 s2 s3 c : Vec 3 ℚ} {R : ℚ}
    {b : Box 3 ℚ} (hq : IntPt N q) (h0 : IntPt N s0) (h1 : IntPt N s1) (h2 : IntPt N s2) (h3 : IntPt N s3) (hl : IntPt N b.low) (hh : IntPt N b.high)
    (hnd : Geom.NonDeg3 s0 s1 s2 s3) (c0 : (s0 0 - c 0) ^ 2 + (s0 1 - c 1) ^ 2 + (s0 2 - c 2) ^ 2 = R)
    (c1 : (s1 0 - c 0) ^ 2 + (s1 1 - c 1) ^ 2 + (s1 2 - c 2) ^ 2 = R) (c2 : (s2 0 - c 0) ^ 2 + (s2 1 - c 1) ^ 2 + (s2 2 - c 2) ^ 2 = R)
    (c3 : (s3 0 - c 0) ^ 2 + (s3 1 - c 1) ^ 2 + (s3 2 - c 2) ^ 2 = R) (hin : (q 0 - c 0) ^ 2 + (q 1 - c 1) ^ 2 + (q 2 - c 2) ^ 2 < R)
    (hlq : ∀ d, b.low d ≤ q d) (hqh : ∀ d, q d ≤ b.high d) : intersectsR rd b (circumsphere3R rd sq rt s0 s1 s2 s3) = true := by
  have hp0 : 0 < p := by omega
  have hg := h.good
  have hNk : ∀ k, 1 ≤ k → k ≤ 8 → N ^ k ≤ N ^ 8 := by
    intro k hk hk8
    rcases Nat.eq_zero_or_pos N with h | h
    · rw [h, zero_pow (by omega), zero_pow (by omega)]
    · exact Nat.pow_le_pow_right h hk8
  have hN1 := hNk 1 (by norm_num) (by norm_num)
  have hN2 := hNk 2 (by norm_num) (by norm_num)
  have hN3 := hNk 3 (by norm_num) (by norm_num)
  have hN4 := hNk 4 (by norm_num) (by norm_num)
  have hN5 := hNk 5 (by norm_num) (by norm_num)
  rw [pow_one] at hN1
  have hNb : ∀ k d, k ≤ 100 → 1 ≤ d → d ≤ 4 → k * N ^ d ≤ 2 ^ p := by
    intro k d hk h5 h6
    have := Nat.mul_le_mul hk (hNk d h5 (by omega))
    omega
  have at1 : ∀ {v : Vec 3 ℚ}, IntPt N v → ∀ i, RI (1 * N ^ 1) (v i) (v i) := by
    intro v hv i
    obtain ⟨n, hn, hb⟩ := hv i
    rw [one_mul, pow_one]
    exact ⟨rfl, n, hn, hb⟩
  have at2 : ∀ {v : Vec 3 ℚ}, IntPt N v → ∀ i, RI (1 * N ^ 2) (sq (v i)) (v i ^ 2) := by
    intro v hv i
    obtain ⟨n, hn, hb⟩ := hv i
    have h5 : n ^ 2 ≤ (N : Int) ^ 2 := by
      rw [← sq_abs]; exact pow_le_pow_left₀ (abs_nonneg _) hb 2
    have h6 : ((N : Int) ^ 2) ≤ 2 ^ p := by
      have : N ^ 2 ≤ 2 ^ p := by omega
      exact_mod_cast this
    rw [one_mul, hn, hsq.int n (h5.trans h6)]
    refine ⟨rfl, n ^ 2, by push_cast; rfl, ?_⟩
    rw [abs_of_nonneg (sq_nonneg _)]
    push_cast
    exact h5
  obtain ⟨eden, den, hden, hdenb⟩ := den3_ri hp0 hg hNb (at1 h0) (at1 h1) (at1 h2) (at1 h3)
  obtain ⟨en0, n0, hn0, hn0b⟩ := num3_ri_0 hp0 hg hNb (at1 h0) (at1 h1) (at1 h2) (at1 h3) (at2 h0) (at2 h1) (at2 h2) (at2 h3)
  obtain ⟨en1, n1, hn1, hn1b⟩ := num3_ri_1 hp0 hg hNb (at1 h0) (at1 h1) (at1 h2) (at1 h3) (at2 h0) (at2 h1) (at2 h2) (at2 h3)
  obtain ⟨en2, n2, hn2, hn2b⟩ := num3_ri_2 hp0 hg hNb (at1 h0) (at1 h1) (at1 h2) (at1 h3) (at2 h0) (at2 h1) (at2 h2) (at2 h3)
  have ho := Geom.orient3_ne hnd
  have hden0 : den ≠ 0 := by
    intro hz
    apply ho
    rw [hz] at hden
    simp only [Geom.orient3]
    unfold Geom.circumDen3 at hden
    push_cast at hden
    linear_combination hden / 2
  have hdq : (den : ℚ) ≠ 0 := by exact_mod_cast hden0
  have k0 : (n0 : ℚ) / den = c 0 := by
    rw [div_eq_iff hdq, ← hden, ← hn0]
    unfold Geom.circumDen3 Geom.circumNum3_0
    linear_combination (s2 1 * s3 2 + s1 1 * (s2 2 - s3 2) - s3 1 * s2 2 - (s2 1 - s3 1) * s1 2) * c0 +
      (-s0 1 * (s2 2 - s3 2) + s0 2 * (s2 1 - s3 1) - (s2 1 * s3 2 - s3 1 * s2 2)) * c1 +
      (-s0 1 * (s3 2 - s1 2) + s1 1 * s3 2 + s0 2 * (s3 1 - s1 1) - s1 2 * s3 1) * c2 +
      (-s0 1 * (s1 2 - s2 2) - s1 1 * s2 2 + s0 2 * (s1 1 - s2 1) + s1 2 * s2 1) * c3
  have k1 : (n1 : ℚ) / den = c 1 := by
    rw [div_eq_iff hdq, ← hden, ← hn1]
    unfold Geom.circumDen3 Geom.circumNum3_1
    linear_combination -(s2 0 * s3 2 + s1 0 * (s2 2 - s3 2) - s3 0 * s2 2 - (s2 0 - s3 0) * s1 2) * c0 -
      (-s0 0 * (s2 2 - s3 2) + s0 2 * (s2 0 - s3 0) - (s2 0 * s3 2 - s3 0 * s2 2)) * c1 -
      (-s0 0 * (s3 2 - s1 2) + s1 0 * s3 2 + s0 2 * (s3 0 - s1 0) - s1 2 * s3 0) * c2 -
      (-s0 0 * (s1 2 - s2 2) - s1 0 * s2 2 + s0 2 * (s1 0 - s2 0) + s1 2 * s2 0) * c3
  have k2 : (n2 : ℚ) / den = c 2 := by
    rw [div_eq_iff hdq, ← hden, ← hn2]
    unfold Geom.circumDen3 Geom.circumNum3_2
    linear_combination (s2 0 * s3 1 + s1 0 * (s2 1 - s3 1) - s3 0 * s2 1 - (s2 0 - s3 0) * s1 1) * c0 +
      (-s0 0 * (s2 1 - s3 1) + s0 1 * (s2 0 - s3 0) - (s2 0 * s3 1 - s3 0 * s2 1)) * c1 +
      (-s0 0 * (s3 1 - s1 1) + s1 0 * s3 1 + s0 1 * (s3 0 - s1 0) - s1 1 * s3 0) * c2 +
      (-s0 0 * (s1 1 - s2 1) - s1 0 * s2 1 + s0 1 * (s1 0 - s2 0) + s1 1 * s2 0) * c3
  have hP2 : 1000000 * (N : ℚ) ^ 8 ≤ 2 ^ p := by exact_mod_cast hN
  have hPi : (1000000 * N ^ 8 : Int) ≤ 2 ^ p := by exact_mod_cast hN
  have iN3 : (N : Int) ^ 3 ≤ N ^ 8 := by exact_mod_cast hN3
  have iN4 : (N : Int) ^ 4 ≤ N ^ 8 := by exact_mod_cast hN4
  have qN4 : (N : ℚ) ^ 4 ≤ N ^ 8 := by exact_mod_cast hN4
  have qN5 : (N : ℚ) ^ 5 ≤ N ^ 8 := by exact_mod_cast hN5
  have qN1 : (N : ℚ) ≤ N ^ 8 := by exact_mod_cast hN1
  have iN0 : (0 : Int) ≤ N ^ 8 := by positivity
  push_cast at hdenb hn0b hn1b hn2b
  obtain ⟨v0, w0⟩ := center_ok hp h (n := n0) hden0 (by omega) (by omega)
  obtain ⟨v1, w1⟩ := center_ok hp h (n := n1) hden0 (by omega) (by omega)
  obtain ⟨v2, w2⟩ := center_ok hp h (n := n2) hden0 (by omega) (by omega)
  obtain ⟨x0, ex0, bx0⟩ := h0 0
  obtain ⟨y0, ey0, by0⟩ := h0 1
  obtain ⟨z0, ez0, bz0⟩ := h0 2
  obtain ⟨xq, exq, bxq⟩ := hq 0
  obtain ⟨yq, eyq, byq⟩ := hq 1
  obtain ⟨zq, ezq, bzq⟩ := hq 2
  -- the computed sphere
  have hs : circumsphere3R rd sq rt s0 s1 s2 s3 = ⟨![rd ((n0 : ℚ) / den), rd ((n1 : ℚ) / den), rd ((n2 : ℚ) / den)],
      rt (addR rd (addR rd (sq (rd (rd ((n0 : ℚ) / den) - x0))) (sq (rd (rd ((n1 : ℚ) / den) - y0)))) (sq (rd (rd ((n2 : ℚ) / den) - z0))))⟩ := by
    unfold circumsphere3R
    simp only [eden, en0, en1, en2, hden, hn0, hn1, hn2, ex0, ey0, ez0, Matrix.cons_val_zero, Matrix.cons_val_one, Matrix.cons_val_two, Matrix.cons_val]
    rfl
  rw [hs]
  rw [ex0, ey0, ez0] at c0
  rw [exq, eyq, ezq] at hin
  rw [k0] at v0 w0
  rw [k1] at v1 w1
  rw [k2] at v2 w2
  rw [k0, k1, k2]
  generalize rd (c 0) = C0 at *
  generalize rd (c 1) = C1 at *
  generalize rd (c 2) = C2 at *
  have he := eps_pos p
  have he10 := eps_le10 hp
  have hδ : (1 : ℚ) ≤ |(den : ℚ)| := by exact_mod_cast Int.one_le_abs hden0
  have hδ2 : |(den : ℚ)| ≤ 48 * (N : ℚ) ^ 3 := by exact_mod_cast hdenb
  have hNq : (0 : ℚ) ≤ N := by positivity
  -- bounds of the centre
  have bnd : ∀ {n : Int} {x : ℚ}, (n : ℚ) / den = x → |n| ≤ 72 * (N : Int) ^ 4 → |x| ≤ 72 * (N : ℚ) ^ 4 / |(den : ℚ)| := by
    intro n x hx hb
    rw [← hx, abs_div]
    apply div_le_div_of_nonneg_right _ (by linarith)
    exact_mod_cast hb
  have a0 := bnd k0 hn0b
  have a1 := bnd k1 hn1b
  have a2 := bnd k2 hn2b
  have aN : (N : ℚ) ≤ 2 / 3 * (72 * (N : ℚ) ^ 4 / |(den : ℚ)|) := by
    rw [← mul_div_assoc, le_div_iff₀ (by linarith)]
    have := mul_le_mul_of_nonneg_left hδ2 hNq
    linarith
  have aP : 72 * (N : ℚ) ^ 4 / |(den : ℚ)| ≤ 72 * (N : ℚ) ^ 4 := div_le_self (by positivity) hδ
  -- distance of the integer point
  have hPint : ∃ m : Int, (((xq : ℚ) - c 0) ^ 2 + ((yq : ℚ) - c 1) ^ 2 + ((zq : ℚ) - c 2) ^ 2 - R) * den = m := by
    refine ⟨den * (xq ^ 2 + yq ^ 2 + zq ^ 2 - x0 ^ 2 - y0 ^ 2 - z0 ^ 2) - 2 * (n0 * (xq - x0) + n1 * (yq - y0) + n2 * (zq - z0)), ?_⟩
    push_cast
    rw [← c0]
    have e0 : (n0 : ℚ) = c 0 * den := by rw [← k0]; field_simp
    have e1 : (n1 : ℚ) = c 1 * den := by rw [← k1]; field_simp
    have e2 : (n2 : ℚ) = c 2 * den := by rw [← k2]; field_simp
    rw [e0, e1, e2]
    ring
  obtain ⟨m, hm⟩ := hPint
  have hPneg : ((xq : ℚ) - c 0) ^ 2 + ((yq : ℚ) - c 1) ^ 2 + ((zq : ℚ) - c 2) ^ 2 - R < 0 := by linarith
  have hPle : ((xq : ℚ) - c 0) ^ 2 + ((yq : ℚ) - c 1) ^ 2 + ((zq : ℚ) - c 2) ^ 2 - R ≤ -(1 / |(den : ℚ)|) := by
    have h5 : m ≠ 0 := by
      intro hz
      rw [hz, Int.cast_zero] at hm
      exact (mul_ne_zero hPneg.ne hdq) hm
    have h6 : (1 : ℚ) ≤ |(m : ℚ)| := by exact_mod_cast Int.one_le_abs h5
    rw [← hm, abs_mul, abs_of_neg hPneg] at h6
    rw [le_neg, div_le_iff₀ (by linarith)]
    exact h6
  -- the errors of the centre
  have bq : ∀ {a b : Int}, |a| ≤ N → |b| ≤ N → |(a : ℚ) - b| ≤ 2 * N := by
    intro a b ha hb
    have h5 : |(a : ℚ)| ≤ N := by exact_mod_cast ha
    have h6 : |(b : ℚ)| ≤ N := by exact_mod_cast hb
    exact (abs_sub _ _).trans (by linarith)
  generalize hA : 72 * (N : ℚ) ^ 4 / |(den : ℚ)| = A at *
  have hA0 : 0 ≤ A := by linarith
  have f0 : |C0 - c 0| ≤ eps p * A := v0.trans (mul_le_mul_of_nonneg_left a0 he.le)
  have f1 : |C1 - c 1| ≤ eps p * A := v1.trans (mul_le_mul_of_nonneg_left a1 he.le)
  have f2 : |C2 - c 2| ≤ eps p * A := v2.trans (mul_le_mul_of_nonneg_left a2 he.le)
  have herr : |2 * ((c 0 - C0) * (xq - x0) + (c 1 - C1) * (yq - y0) + (c 2 - C2) * (zq - z0))| ≤ 2 * (3 * (eps p * A * (2 * N))) := by
    have g : ∀ {x C : ℚ} {a b : Int}, |C - x| ≤ eps p * A → |a| ≤ N → |b| ≤ N → |(x - C) * ((a : ℚ) - b)| ≤ eps p * A * (2 * N) := by
      intro x C a b hx ha hb
      rw [abs_mul, abs_sub_comm x]
      exact mul_le_mul hx (bq ha hb) (abs_nonneg _) (by positivity)
    have g0 := g f0 bxq bx0
    have g1 := g f1 byq by0
    have g2 := g f2 bzq bz0
    rw [abs_mul, abs_of_pos (show (0 : ℚ) < 2 by norm_num)]
    have l1 := abs_add_le ((c 0 - C0) * (xq - x0) + (c 1 - C1) * (yq - y0)) ((c 2 - C2) * (zq - z0))
    have l2 := abs_add_le ((c 0 - C0) * (xq - x0)) ((c 1 - C1) * (yq - y0))
    linarith
  have qx : ∀ {C c' : ℚ} {a : Int}, |C - c'| ≤ eps p * A → |c'| ≤ A → |a| ≤ N → |C| ≤ 13 / 12 * A ∧ |C - a| ≤ 7 / 4 * A := by
    intro C c' a h5 h6 h7
    have h8 : |(a : ℚ)| ≤ N := by exact_mod_cast h7
    have h9 : eps p * A ≤ 1 / 12 * A := mul_le_mul_of_nonneg_right (by linarith) hA0
    have h10 : |C| ≤ |C - c'| + |c'| := by
      have := abs_add_le (C - c') c'
      rwa [sub_add_cancel] at this
    have h11 := abs_sub C (a : ℚ)
    constructor
    · linarith
    · linarith
  obtain ⟨u0, u0'⟩ := qx f0 a0 bx0
  obtain ⟨u1, u1'⟩ := qx f1 a1 by0
  obtain ⟨u2, u2'⟩ := qx f2 a2 bz0
  have hA' : 3 * A ≤ 2 ^ p := by
    have : 0 ≤ (N : ℚ) ^ 8 := by positivity
    linarith
  have hR2 : (C0 - x0) ^ 2 + (C1 - y0) ^ 2 + (C2 - z0) ^ 2 ≤ 3 * (7 / 4 * A) ^ 2 := by
    have h5 := abs_mul_self_le u0'
    have h6 := abs_mul_self_le u1'
    have h7 := abs_mul_self_le u2'
    rw [← pow_two] at h5 h6 h7
    linarith
  have heN : 1000000 * (N : ℚ) ^ 8 * eps p ≤ 1 := by
    have : eps p = ((2 : ℚ) ^ p)⁻¹ := by unfold eps; rw [zpow_neg, zpow_natCast]
    rw [this, ← div_eq_mul_inv, div_le_one (by positivity)]
    exact hP2
  rw [← hA] at hR2 herr
  obtain ⟨g1, g2⟩ := margin3 he hδ hNq qN5 heN hR2 hPle herr
  have hQ : ((xq : ℚ) - C0) ^ 2 + ((yq : ℚ) - C1) ^ 2 + ((zq : ℚ) - C2) ^ 2 = ((C0 - x0) ^ 2 + (C1 - y0) ^ 2 + (C2 - z0) ^ 2) +
      ((((xq : ℚ) - c 0) ^ 2 + ((yq : ℚ) - c 1) ^ 2 + ((zq : ℚ) - c 2) ^ 2 - R) +
        2 * ((c 0 - C0) * (xq - x0) + (c 1 - C1) * (yq - y0) + (c 2 - C2) * (zq - z0))) := by
    rw [← c0]; ring
  generalize (((xq : ℚ) - c 0) ^ 2 + ((yq : ℚ) - c 1) ^ 2 + ((zq : ℚ) - c 2) ^ 2 - R) +
    2 * ((c 0 - C0) * (xq - x0) + (c 1 - C1) * (yq - y0) + (c 2 - C2) * (zq - z0)) = P at *
  have hpos : 0 < (C0 - x0) ^ 2 + (C1 - (y0 : ℚ)) ^ 2 + (C2 - (z0 : ℚ)) ^ 2 := by
    have : 0 ≤ ((xq : ℚ) - C0) ^ 2 + ((yq : ℚ) - C1) ^ 2 + ((zq : ℚ) - C2) ^ 2 := by positivity
    linarith
  have mint : ∀ a : Int, Mul (-(2 * p) + 1) (a : ℚ) := fun a => Mul.mono (k := 0) ⟨a, by simp⟩ (by omega)
  obtain ⟨r1, r2, r3⟩ := radius_lo3 hp h hsq hrt (w0.sub (mint x0)) (w1.sub (mint y0)) (w2.sub (mint z0)) (by linarith) (by linarith) (by linarith)
    hpos _ rfl
  have hfin : (1 + 9 * eps p) * (((xq : ℚ) - C0) ^ 2 + ((yq : ℚ) - C1) ^ 2 + ((zq : ℚ) - C2) ^ 2) ≤
      ((C0 - x0) ^ 2 + (C1 - y0) ^ 2 + (C2 - z0) ^ 2) * (1 - 9 * eps p) := by
    rw [hQ]
    generalize (C0 - x0) ^ 2 + (C1 - (y0 : ℚ)) ^ 2 + (C2 - (z0 : ℚ)) ^ 2 = R' at *
    have : 9 * eps p * P ≤ 0 := mul_nonpos_of_nonneg_of_nonpos (by positivity) g1.le
    linarith
  have mpt : ∀ {v : Vec 3 ℚ}, IntPt N v → ∀ d, Mul (-(2 * p) + 1) (v d) ∧ |v d| ≤ 2 ^ p := by
    intro v hv d
    obtain ⟨a, ha, hb⟩ := hv d
    rw [ha]
    refine ⟨mint a, ?_⟩
    have : |(a : ℚ)| ≤ N := by exact_mod_cast hb
    have : 0 ≤ (N : ℚ) ^ 8 := by positivity
    linarith
  refine box_hit3 hp h (q := q) (fun d => (mpt hl d).1) (fun d => (mpt hh d).1) ?_ hlq hqh (fun d => (mpt hl d).2) (fun d => (mpt hh d).2) ?_ r1 ?_ ?_
  · intro d
    fin_cases d
    · exact w0
    · exact w1
    · exact w2
  · intro d
    fin_cases d
    · exact u0.trans (by linarith)
    · exact u1.trans (by linarith)
    · exact u2.trans (by linarith)
  · rw [exq, eyq, ezq]
    exact hfin.trans r2
  · rw [exq, eyq, ezq]
    exact hfin.trans r3

end FPM
end Verif
