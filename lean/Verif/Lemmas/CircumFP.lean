import Verif.Model.CircumFP
import Verif.Lemmas.InSimplexFP

/-!
# Errors of the circumsphere and of the box test
-/
namespace Verif
namespace FPM
open FP (Mul Rep rnd grid eps eps_pos two_zpow_pos)

/-- `rd` rounds to `p` digits, except for numbers that are too large or too small. -/
def Wide (p : Nat) (rd : ℚ → ℚ) : Prop := ∀ x : ℚ, x = 0 ∨ 2 ^ (-(4 * p) : Int) ≤ |x| → |x| ≤ 2 ^ (4 * p : Int) → rd x = rnd p x

theorem wide_ieee {p : Nat} (hp : 0 < p) {lo hi : Int} {inf : ℚ → ℚ} (h1 : lo ≤ -(5 * p)) (h2 : (4 * p : Int) < hi - 1) : Wide p (ieee p lo hi inf) := by
  intro x hx hb
  have e : rndB p lo x = rnd p x := by
    rcases hx with rfl | hx
    · exact rndB_eq (Mul.zero _)
    · have h0 : x ≠ 0 := by
        rintro rfl
        have := two_zpow_pos (-(4 * p) : Int)
        rw [abs_zero] at hx
        linarith
      have hg := (FP.grid_spec p h0).2
      have : (-(4 * p) : Int) < grid p x + p := by
        by_contra hc
        rw [not_lt] at hc
        have : (2 : ℚ) ^ (grid p x + p) ≤ 2 ^ (-(4 * p) : Int) := zpow_le_zpow_right₀ (by norm_num) hc
        linarith
      unfold rndB rnd
      rw [max_eq_left (by omega)]
  unfold ieee
  rw [e, if_neg]
  rw [not_le]
  have := FP.abs_rnd_le hp (Rep.pow p hp (4 * p)) hb
  exact this.trans_lt (FP.two_zpow_lt (by omega))

theorem wide_double (inf : ℚ → ℚ) : Wide 53 (double inf) := wide_ieee (by norm_num) (by norm_num) (by norm_num)

variable {p : Nat} {rd sq rt : ℚ → ℚ}

theorem Wide.good (h : Wide p rd) : Good p rd := by
  intro x hx hb
  refine h x ?_ (hb.trans (FP.two_zpow_le (by omega)))
  rcases hx with hx | hx
  · exact Or.inl hx
  · exact Or.inr ((FP.two_zpow_le (by omega)).trans hx)

/-- `pow(_, 2)` is exact on integers whose square is at most `2 ^ p`, and has a relative error of at most `2 ε`. -/
structure PowOk (p : Nat) (sq : ℚ → ℚ) : Prop where
  int : ∀ n : Int, n ^ 2 ≤ 2 ^ p → sq n = n ^ 2
  rel : ∀ x : ℚ, x = 0 ∨ 2 ^ (-(4 * p) : Int) ≤ x ^ 2 → x ^ 2 ≤ 2 ^ (4 * p : Int) → |sq x - x ^ 2| ≤ 2 * eps p * x ^ 2

/-- `sqrt` has a relative error of at most `ε`. -/
structure SqrtOk (p : Nat) (rt : ℚ → ℚ) : Prop where
  nonneg : ∀ x : ℚ, 0 ≤ x → 0 ≤ rt x
  lo : ∀ x : ℚ, 2 ^ (-(4 * p) : Int) ≤ x → x ≤ 2 ^ (4 * p : Int) → (1 - eps p) ^ 2 * x ≤ rt x ^ 2
  hi : ∀ x : ℚ, 2 ^ (-(4 * p) : Int) ≤ x → x ≤ 2 ^ (4 * p : Int) → rt x ^ 2 ≤ (1 + eps p) ^ 2 * x

theorem Wide.rel (h : Wide p rd) {x : ℚ} (hx : x = 0 ∨ 2 ^ (-(4 * p) : Int) ≤ |x|) (hb : |x| ≤ 2 ^ (4 * p : Int)) : |rd x - x| ≤ eps p * |x| := by
  rw [h x hx hb]; exact FP.rnd_rel p x

theorem Wide.mul (h : Wide p rd) {x : ℚ} {k : Int} (hk : -(4 * p) ≤ k) (hx : Mul k x) (hb : |x| ≤ 2 ^ (4 * p : Int)) :
    |rd x - x| ≤ eps p * |x| ∧ Mul k (rd x) := by
  have h0 : x = 0 ∨ 2 ^ (-(4 * p) : Int) ≤ |x| := by
    by_cases hz : x = 0
    · exact Or.inl hz
    · exact Or.inr ((FP.two_zpow_le hk).trans (hx.le_abs hz))
  refine ⟨h.rel h0 hb, ?_⟩
  rw [h x h0 hb]
  exact FP.rnd_mul hx

theorem Wide.bounds (h : Wide p rd) {x : ℚ} {k : Int} (hk : -(4 * p) ≤ k) (hx : Mul k x) (h0 : 0 ≤ x) (hb : x ≤ 2 ^ (4 * p : Int)) :
    x * (1 - eps p) ≤ rd x ∧ rd x ≤ x * (1 + eps p) ∧ Mul k (rd x) := by
  obtain ⟨h1, h2⟩ := h.mul hk hx (by rwa [abs_of_nonneg h0])
  rw [abs_of_nonneg h0, abs_le] at h1
  exact ⟨by linarith [h1.1], by linarith [h1.2], h2⟩

theorem eps_le10 (hp : 10 ≤ p) : eps p ≤ 1 / 1024 := by
  have he : eps p = ((2 : ℚ) ^ p)⁻¹ := by unfold eps; rw [zpow_neg, zpow_natCast]
  have hP : (1024 : ℚ) ≤ 2 ^ p := by
    calc (1024 : ℚ) = 2 ^ 10 := by norm_num
      _ ≤ 2 ^ p := pow_le_pow_right₀ (by norm_num) hp
  rw [he, one_div]; exact inv_anti₀ (by norm_num) hP

theorem pow_big (hp : 10 ≤ p) : (2 : ℚ) ^ p * 2 ^ p * 1024 ≤ 2 ^ (4 * p : Int) := by
  have hP : (1024 : ℚ) ≤ 2 ^ p := by
    calc (1024 : ℚ) = 2 ^ 10 := by norm_num
      _ ≤ 2 ^ p := pow_le_pow_right₀ (by norm_num) hp
  have e : (2 : ℚ) ^ (4 * p : Int) = 2 ^ p * 2 ^ p * (2 ^ p * 2 ^ p) := by
    rw [← pow_add, ← pow_add, ← zpow_natCast]; congr 1; push_cast; ring
  rw [e]
  exact mul_le_mul_of_nonneg_left (by nlinarith) (by positivity)

theorem abs_mul_self_le {x b : ℚ} (h : |x| ≤ b) : x ^ 2 ≤ b * b := by
  rw [← sq_abs, sq]
  exact mul_le_mul h h (abs_nonneg _) ((abs_nonneg _).trans h)

/-- A rounded number, squared. -/
theorem sq_bounds {x y e : ℚ} (h : |y - x| ≤ e * |x|) (h0 : 0 ≤ e) (h1 : e ≤ 1) : (1 - e) ^ 2 * x ^ 2 ≤ y ^ 2 ∧ y ^ 2 ≤ (1 + e) ^ 2 * x ^ 2 := by
  have h2 : (1 - e) * |x| ≤ |y| := by
    have := abs_sub_abs_le_abs_sub x y
    rw [abs_sub_comm] at this
    linarith
  have h3 : |y| ≤ (1 + e) * |x| := by
    have := abs_sub_abs_le_abs_sub y x
    linarith
  rw [← sq_abs x, ← sq_abs y, ← mul_pow, ← mul_pow]
  exact ⟨pow_le_pow_left₀ (mul_nonneg (by linarith) (abs_nonneg _)) h2 2, pow_le_pow_left₀ (abs_nonneg _) h3 2⟩

theorem factors {e : ℚ} (he : 0 ≤ e) (h1 : e ≤ 1 / 4) : 1 - 8 * e ≤ (1 - e) ^ 6 * (1 - 2 * e) ∧ 1 - 8 * e ≤ (1 - e) ^ 5 * (1 - 2 * e) := by
  have b6 : 1 - 6 * e ≤ (1 - e) ^ 6 := by
    have := one_add_mul_le_pow (a := -e) (by linarith) 6
    push_cast at this
    rw [← sub_eq_add_neg] at this
    linarith
  have b5 : (1 - e) ^ 6 ≤ (1 - e) ^ 5 := pow_le_pow_of_le_one (by linarith) (by linarith) (by norm_num)
  have b8 : 1 - 8 * e ≤ (1 - e) ^ 6 * (1 - 2 * e) := by
    have := mul_le_mul_of_nonneg_right b6 (show 0 ≤ 1 - 2 * e by linarith)
    nlinarith
  have b8' : 1 - 8 * e ≤ (1 - e) ^ 5 * (1 - 2 * e) :=
    b8.trans (mul_le_mul_of_nonneg_right b5 (by linarith))
  exact ⟨b8, b8'⟩

/-- The squared radius. -/
theorem radius_lo (hp : 10 ≤ p) (h : Wide p rd) (hsq : PowOk p sq) (hrt : SqrtOk p rt) {x0 x1 : ℚ} (m0 : Mul (-(2 * p) + 1) x0) (m1 : Mul (-(2 * p) + 1) x1)
    (b0 : |x0| ≤ 2 ^ p) (b1 : |x1| ≤ 2 ^ p) (hpos : 0 < x0 ^ 2 + x1 ^ 2) (r : ℚ) (hr : r = rt (addR rd (sq (rd x0)) (sq (rd x1)))) :
    0 ≤ r ∧ (x0 ^ 2 + x1 ^ 2) * (1 - 8 * eps p) ≤ r ^ 2 ∧ (x0 ^ 2 + x1 ^ 2) * (1 - 8 * eps p) ≤ mulR rd r r := by
  have he := eps_pos p
  have he10 := eps_le10 hp
  have hbig := pow_big hp
  have hP : (1 : ℚ) ≤ 2 ^ p := one_le_pow₀ (by norm_num)
  have hPP : (2 : ℚ) ^ p ≤ 2 ^ p * 2 ^ p := by nlinarith
  obtain ⟨r0, n0⟩ := h.mul (k := -(2 * p) + 1) (by omega) m0 (by linarith)
  obtain ⟨r1, n1⟩ := h.mul (k := -(2 * p) + 1) (by omega) m1 (by linarith)
  obtain ⟨l0, u0⟩ := sq_bounds r0 he.le (by linarith)
  obtain ⟨l1, u1⟩ := sq_bounds r1 he.le (by linarith)
  have q0 := abs_mul_self_le b0
  have q1 := abs_mul_self_le b1
  generalize rd x0 = y0 at *
  generalize rd x1 = y1 at *
  have hL := two_zpow_pos (-(4 * p))
  have e4 : (2 : ℚ) ^ (-(2 * p) + 1 + (-(2 * p) + 1) : Int) = 4 * 2 ^ (-(4 * p) : Int) := by
    rw [show (-(2 * p) + 1 + (-(2 * p) + 1) : Int) = 2 + -(4 * p) by ring, zpow_add₀ (by norm_num)]
    norm_num
  have hin : ∀ y : ℚ, Mul (-(2 * p) + 1) y → y ≠ 0 → 4 * 2 ^ (-(4 * p) : Int) ≤ y ^ 2 := by
    intro y hy h0
    rw [pow_two, ← e4]
    have := (hy.mul hy).le_abs (mul_ne_zero h0 h0)
    rwa [abs_of_nonneg (mul_self_nonneg y)] at this
  have e1 : (1 + eps p) ^ 2 ≤ 2 := by nlinarith
  have hR : x0 ^ 2 + x1 ^ 2 ≤ 2 ^ p * 2 ^ p * 2 := by linarith
  have hy0 : y0 ^ 2 ≤ 2 ^ p * 2 ^ p * 2 := by
    have := mul_le_mul e1 q0 (sq_nonneg _) (by norm_num)
    linarith
  have hy1 : y1 ^ 2 ≤ 2 ^ p * 2 ^ p * 2 := by
    have := mul_le_mul e1 q1 (sq_nonneg _) (by norm_num)
    linarith
  -- squares
  have s0 := hsq.rel y0 (by
    by_cases hz : y0 = 0
    · exact Or.inl hz
    · exact Or.inr (by linarith [hin y0 n0 hz])) (by linarith)
  have s1 := hsq.rel y1 (by
    by_cases hz : y1 = 0
    · exact Or.inl hz
    · exact Or.inr (by linarith [hin y1 n1 hz])) (by linarith)
  rw [abs_le] at s0 s1
  have hY : 4 * 2 ^ (-(4 * p) : Int) ≤ y0 ^ 2 + y1 ^ 2 := by
    by_cases hz : y0 = 0
    · have hz1 : y1 ≠ 0 := by
        rintro rfl
        have h2 : (0 : ℚ) < (1 - eps p) ^ 2 := by
          have : 0 < 1 - eps p := by linarith
          positivity
        rw [hz] at l0
        have := mul_pos h2 hpos
        linarith
      linarith [hin y1 n1 hz1, sq_nonneg y0]
    · linarith [hin y0 n0 hz, sq_nonneg y1]
  have hYR : (1 - eps p) ^ 2 * (x0 ^ 2 + x1 ^ 2) ≤ y0 ^ 2 + y1 ^ 2 := by linarith
  have hYU : y0 ^ 2 + y1 ^ 2 ≤ 2 ^ p * 2 ^ p * 4 := by linarith
  have t1 : (1 - 2 * eps p) * (y0 ^ 2 + y1 ^ 2) ≤ sq y0 + sq y1 := by linarith [s0.1, s1.1]
  have t2 : sq y0 + sq y1 ≤ (1 + 2 * eps p) * (y0 ^ 2 + y1 ^ 2) := by linarith [s0.2, s1.2]
  generalize y0 ^ 2 + y1 ^ 2 = Y at *
  generalize x0 ^ 2 + x1 ^ 2 = R at *
  have t3 : 3 * 2 ^ (-(4 * p) : Int) ≤ sq y0 + sq y1 := by
    have := mul_le_mul (show (3 / 4 : ℚ) ≤ 1 - 2 * eps p by linarith) hY (by linarith) (by linarith)
    linarith
  have t4 : sq y0 + sq y1 ≤ 2 ^ p * 2 ^ p * 8 := by
    have := mul_le_mul (show 1 + 2 * eps p ≤ 2 by linarith) hYU (by linarith) (by norm_num)
    linarith
  have ht := h.rel (x := sq y0 + sq y1) (Or.inr (by rw [abs_of_pos (by linarith)]; linarith)) (by rw [abs_of_pos (by linarith)]; linarith)
  unfold addR at hr
  generalize sq y0 + sq y1 = t at *
  rw [abs_of_pos (show 0 < t by linarith), abs_le] at ht
  generalize rd t = X at *
  have x1' : (1 - eps p) * t ≤ X := by linarith [ht.1]
  have x2' : X ≤ (1 + eps p) * t := by linarith [ht.2]
  have x3' : 2 * 2 ^ (-(4 * p) : Int) ≤ X := by
    have := mul_le_mul (show (2 / 3 : ℚ) ≤ 1 - eps p by linarith) t3 (by linarith) (by linarith)
    linarith
  have x4' : X ≤ 2 ^ p * 2 ^ p * 16 := by
    have := mul_le_mul (show 1 + eps p ≤ 2 by linarith) t4 (by linarith) (by norm_num)
    linarith
  have hr0 := hrt.nonneg X (by linarith)
  have hr1 := hrt.lo X (by linarith) (by linarith)
  have hr2 := hrt.hi X (by linarith) (by linarith)
  rw [← hr] at hr0 hr1 hr2
  have r3 : 2 ^ (-(4 * p) : Int) ≤ r ^ 2 := by
    have h5 : (1 / 2 : ℚ) ≤ (1 - eps p) ^ 2 := by nlinarith
    have := mul_le_mul h5 x3' (by linarith) (by positivity)
    linarith
  have r4 : r ^ 2 ≤ 2 ^ p * 2 ^ p * 32 := by
    have := mul_le_mul e1 x4' (by linarith) (by norm_num)
    linarith
  have hm := h.rel (x := r * r) (Or.inr (by rw [← pow_two, abs_of_nonneg (sq_nonneg r)]; exact r3))
    (by rw [← pow_two, abs_of_nonneg (sq_nonneg r)]; linarith)
  rw [← pow_two, abs_of_nonneg (sq_nonneg r), abs_le] at hm
  unfold mulR
  rw [← pow_two]
  -- the product of the factors
  have c1 : (1 - eps p) * ((1 - 2 * eps p) * ((1 - eps p) ^ 2 * R)) ≤ X := by
    have a1 := mul_le_mul_of_nonneg_left hYR (show 0 ≤ 1 - 2 * eps p by linarith)
    have a2 := mul_le_mul_of_nonneg_left (a1.trans t1) (show 0 ≤ 1 - eps p by linarith)
    exact a2.trans x1'
  have c2 : (1 - eps p) ^ 2 * ((1 - eps p) * ((1 - 2 * eps p) * ((1 - eps p) ^ 2 * R))) ≤ r ^ 2 :=
    (mul_le_mul_of_nonneg_left c1 (sq_nonneg _)).trans hr1
  have c3 : (1 - eps p) * ((1 - eps p) ^ 2 * ((1 - eps p) * ((1 - 2 * eps p) * ((1 - eps p) ^ 2 * R)))) ≤ rd (r ^ 2) := by
    have := mul_le_mul_of_nonneg_left c2 (show 0 ≤ 1 - eps p by linarith)
    linarith [hm.1]
  obtain ⟨b8, b8'⟩ := factors he.le (by linarith)
  refine ⟨hr0, ?_, ?_⟩
  · refine (mul_le_mul_of_nonneg_left b8' hpos.le).trans (le_of_eq_of_le ?_ c2)
    ring
  · refine (mul_le_mul_of_nonneg_left b8 hpos.le).trans (le_of_eq_of_le ?_ c3)
    ring

theorem factors_up {e : ℚ} (he : 0 ≤ e) (h1 : e ≤ 1 / 1024) : (1 + e) ^ 4 ≤ 1 + 8 * e ∧ (1 + e) ^ 7 ≤ 1 + 8 * e := by
  have h2 : (1 + e) ^ 2 ≤ 1 + (2 + 1 / 1024) * e := by nlinarith
  have h4 : (1 + e) ^ 4 ≤ 1 + (4 + 1 / 64) * e := by
    have : (1 + e) ^ 4 ≤ (1 + (2 + 1 / 1024) * e) ^ 2 := by
      rw [show (1 + e) ^ 4 = ((1 + e) ^ 2) ^ 2 by ring]
      exact pow_le_pow_left₀ (by positivity) h2 2
    nlinarith
  have h3 : (1 + e) ^ 3 ≤ 1 + (3 + 1 / 128) * e := by
    rw [show (1 + e) ^ 3 = (1 + e) ^ 2 * (1 + e) by ring]
    have := mul_le_mul_of_nonneg_right h2 (show 0 ≤ 1 + e by linarith)
    nlinarith
  refine ⟨by nlinarith, ?_⟩
  rw [show (1 + e) ^ 7 = (1 + e) ^ 4 * (1 + e) ^ 3 by ring]
  have := mul_le_mul h4 h3 (by positivity) (by positivity)
  nlinarith

/-- One of the two differences. -/
theorem max_part (h : Wide p rd) {k : Int} (hk : -(4 * p) ≤ k) {x : ℚ} (hx : Mul k x) (hb : |x| ≤ 2 ^ (4 * p : Int)) (he : eps p ≤ 1) :
    0 ≤ max (rd x) 0 ∧ max (rd x) 0 ≤ (1 + eps p) * max x 0 ∧ Mul k (max (rd x) 0) := by
  obtain ⟨h1, h2⟩ := h.mul hk hx hb
  refine ⟨le_max_right _ _, ?_, ?_⟩
  · have he0 := eps_pos p
    rw [abs_le] at h1
    rcases le_total x 0 with h0 | h0
    · rw [abs_of_nonpos h0] at h1
      rw [max_eq_right h0, mul_zero]
      apply max_le _ le_rfl
      nlinarith [h1.2]
    · rw [abs_of_nonneg h0] at h1
      rw [max_eq_left h0]
      apply max_le _ (by positivity)
      linarith [h1.2]
  · rcases le_total (rd x) 0 with h0 | h0
    · rw [max_eq_right h0]; exact Mul.zero k
    · rw [max_eq_left h0]; exact h2

/-- The distance in one dimension. -/
theorem edge_dist (hp : 10 ≤ p) (h : Wide p rd) {k : Int} (hk : -(4 * p) ≤ k) {lo hi q c : ℚ} (ml : Mul k lo) (mh : Mul k hi) (mc : Mul k c) (h1 : lo ≤ q) (h2 : q ≤ hi)
    (bl : |lo| ≤ 2 ^ p) (bh : |hi| ≤ 2 ^ p) (bc : |c| ≤ 2 ^ p) (E : ℚ) (hE : E = addR rd (max (subR rd lo c) 0) (max (subR rd c hi) 0)) :
    0 ≤ E ∧ E ≤ (1 + eps p) ^ 2 * |q - c| ∧ Mul k E := by
  have he := eps_pos p
  have he10 := eps_le10 hp
  have hbig := pow_big hp
  have hP : (1 : ℚ) ≤ 2 ^ p := one_le_pow₀ (by norm_num)
  have hPP : (2 : ℚ) ^ p ≤ 2 ^ p * 2 ^ p := by nlinarith
  have b1 : |lo - c| ≤ 2 * 2 ^ p := (abs_sub _ _).trans (by linarith)
  have b2 : |c - hi| ≤ 2 * 2 ^ p := (abs_sub _ _).trans (by linarith)
  obtain ⟨a1, a2, a3⟩ := max_part h hk (ml.sub mc) (by linarith) (by linarith)
  obtain ⟨c1, c2, c3⟩ := max_part h hk (mc.sub mh) (by linarith) (by linarith)
  have hs : max (lo - c) 0 + max (c - hi) 0 ≤ |q - c| := by
    have e1 := le_abs_self (q - c)
    have e2 := neg_abs_le (q - c)
    have e3 := abs_nonneg (q - c)
    rcases le_total (lo - c) 0 with h | h
    · rw [max_eq_right h, zero_add]
      exact max_le (by linarith) e3
    · rw [max_eq_left h, max_eq_right (by linarith)]; linarith
  have hs2 : max (lo - c) 0 + max (c - hi) 0 ≤ 4 * 2 ^ p := by
    have e1 := max_le (le_abs_self (lo - c)) (abs_nonneg (lo - c))
    have e2 := max_le (le_abs_self (c - hi)) (abs_nonneg (c - hi))
    linarith
  unfold addR subR at hE
  have hsum : max (rd (lo - c)) 0 + max (rd (c - hi)) 0 ≤ (1 + eps p) * (max (lo - c) 0 + max (c - hi) 0) := by linarith
  have hm : 0 ≤ max (lo - c) 0 + max (c - hi) 0 := add_nonneg (le_max_right _ _) (le_max_right _ _)
  generalize max (lo - c) 0 + max (c - hi) 0 = M at *
  have hb : max (rd (lo - c)) 0 + max (rd (c - hi)) 0 ≤ 2 ^ (4 * p : Int) := by
    have : (1 + eps p) * M ≤ 2 * (4 * 2 ^ p) := mul_le_mul (by linarith) hs2 hm (by norm_num)
    linarith
  obtain ⟨d1, d2, d3⟩ := h.bounds hk (a3.add c3) (add_nonneg a1 c1) hb
  rw [← hE] at d1 d2 d3
  refine ⟨?_, ?_, d3⟩
  · have := mul_nonneg (add_nonneg a1 c1) (show 0 ≤ 1 - eps p by linarith)
    linarith
  · have h5 := mul_le_mul_of_nonneg_right (hsum.trans (mul_le_mul_of_nonneg_left hs (show 0 ≤ 1 + eps p by linarith))) (show 0 ≤ 1 + eps p by linarith)
    calc E ≤ _ := d2
      _ ≤ _ := h5
      _ = _ := by ring

/-- The test of a box that contains a point near the sphere. -/
theorem box_hit (hp : 10 ≤ p) (h : Wide p rd) {b : Box 2 ℚ} {s : Sphere 2 ℚ} {q : Vec 2 ℚ} (ml : ∀ d, Mul (-(2 * p) + 1) (b.low d))
    (mh : ∀ d, Mul (-(2 * p) + 1) (b.high d)) (mc : ∀ d, Mul (-(2 * p) + 1) (s.center d)) (h1 : ∀ d, b.low d ≤ q d) (h2 : ∀ d, q d ≤ b.high d)
    (bl : ∀ d, |b.low d| ≤ 2 ^ p) (bh : ∀ d, |b.high d| ≤ 2 ^ p) (bc : ∀ d, |s.center d| ≤ 2 ^ p) (hr : 0 ≤ s.radius)
    (hr1 : (1 + 8 * eps p) * ((q 0 - s.center 0) ^ 2 + (q 1 - s.center 1) ^ 2) ≤ s.radius ^ 2)
    (hr2 : (1 + 8 * eps p) * ((q 0 - s.center 0) ^ 2 + (q 1 - s.center 1) ^ 2) ≤ mulR rd s.radius s.radius) : intersectsR rd b s = true := by
  have he := eps_pos p
  have he10 := eps_le10 hp
  have hbig := pow_big hp
  have hP : (1 : ℚ) ≤ 2 ^ p := one_le_pow₀ (by norm_num)
  have hPP : (2 : ℚ) ^ p ≤ 2 ^ p * 2 ^ p := by nlinarith
  obtain ⟨f4, f7⟩ := factors_up he.le he10
  obtain ⟨a1, a2, a3⟩ := edge_dist hp h (k := -(2 * p) + 1) (by omega) (ml 0) (mh 0) (mc 0) (h1 0) (h2 0) (bl 0) (bh 0) (bc 0) _ rfl
  obtain ⟨c1, c2, c3⟩ := edge_dist hp h (k := -(2 * p) + 1) (by omega) (ml 1) (mh 1) (mc 1) (h1 1) (h2 1) (bl 1) (bh 1) (bc 1) _ rfl
  have bq : ∀ d, |q d - s.center d| ≤ 2 * 2 ^ p := by
    intro d
    have e1 := abs_le.1 (bl d)
    have e2 := abs_le.1 (bh d)
    have e3 := abs_le.1 (bc d)
    exact abs_le.2 ⟨by linarith [h1 d], by linarith [h2 d]⟩
  unfold intersectsR
  rw [show List.finRange 2 = [0, 1] from rfl]
  simp only [intersectsLoopR]
  generalize addR rd (max (subR rd (b.low 0) (s.center 0)) 0) (max (subR rd (s.center 0) (b.high 0)) 0) = E0 at *
  generalize addR rd (max (subR rd (b.low 1) (s.center 1)) 0) (max (subR rd (s.center 1) (b.high 1)) 0) = E1 at *
  have sqE : ∀ E x : ℚ, 0 ≤ E → E ≤ (1 + eps p) ^ 2 * |x| → E ^ 2 ≤ (1 + eps p) ^ 4 * x ^ 2 := by
    intro E x hE hx
    have := pow_le_pow_left₀ hE hx 2
    rw [mul_pow, sq_abs, ← pow_mul] at this
    exact this
  have s0 := sqE _ _ a1 a2
  have s1 := sqE _ _ c1 c2
  have t0 := abs_mul_self_le (bq 0)
  have t1 := abs_mul_self_le (bq 1)
  generalize q 0 - s.center 0 = x0 at *
  generalize q 1 - s.center 1 = x1 at *
  have g0 : E0 ≤ s.radius := by
    refine le_of_sq_le_sq ?_ hr
    have : (1 + eps p) ^ 4 * x0 ^ 2 ≤ (1 + 8 * eps p) * x0 ^ 2 := mul_le_mul_of_nonneg_right f4 (sq_nonneg _)
    have : 0 ≤ (1 + 8 * eps p) * x1 ^ 2 := by positivity
    linarith
  have g1 : E1 ≤ s.radius := by
    refine le_of_sq_le_sq ?_ hr
    have : (1 + eps p) ^ 4 * x1 ^ 2 ≤ (1 + 8 * eps p) * x1 ^ 2 := mul_le_mul_of_nonneg_right f4 (sq_nonneg _)
    have : 0 ≤ (1 + 8 * eps p) * x0 ^ 2 := by positivity
    linarith
  rw [if_neg (not_lt.2 g0), if_neg (not_lt.2 g1)]
  have k2 : (-(4 * p) : Int) ≤ -(2 * p) + 1 + (-(2 * p) + 1) := by omega
  have e4 : (1 + eps p) ^ 4 ≤ 2 := by linarith
  have u0 : E0 * E0 ≤ 2 ^ p * 2 ^ p * 8 := by
    have := mul_le_mul e4 t0 (sq_nonneg _) (by norm_num)
    rw [← pow_two]; linarith
  have u1 : E1 * E1 ≤ 2 ^ p * 2 ^ p * 8 := by
    have := mul_le_mul e4 t1 (sq_nonneg _) (by norm_num)
    rw [← pow_two]; linarith
  have hone : 0 ≤ 1 - eps p := by linarith
  have hone' : 1 + eps p ≤ 2 := by linarith
  obtain ⟨w1, w2, w3⟩ := h.bounds k2 (a3.mul a3) (mul_self_nonneg E0) (by linarith)
  obtain ⟨v1, v2, v3⟩ := h.bounds k2 (c3.mul c3) (mul_self_nonneg E1) (by linarith)
  unfold addR mulR
  unfold mulR at hr2
  rw [zero_add]
  rw [← pow_two] at w1 w2 w3 v1 v2 v3 u0 u1 hr2
  rw [← pow_two E0, ← pow_two E1, ← pow_two s.radius]
  have w0 : 0 ≤ rd (E0 ^ 2) := (mul_nonneg (sq_nonneg _) hone).trans w1
  have v0 : 0 ≤ rd (E1 ^ 2) := (mul_nonneg (sq_nonneg _) hone).trans v1
  have w4 : rd (E0 ^ 2) ≤ 2 ^ p * 2 ^ p * 16 := by
    have := mul_le_mul u0 hone' (by linarith) (by positivity)
    linarith
  have v4 : rd (E1 ^ 2) ≤ 2 ^ p * 2 ^ p * 16 := by
    have := mul_le_mul u1 hone' (by linarith) (by positivity)
    linarith
  obtain ⟨y1, y2, y3⟩ := h.bounds k2 w3 w0 (by linarith)
  have y0 : 0 ≤ rd (rd (E0 ^ 2)) := (mul_nonneg w0 hone).trans y1
  have y4 : rd (rd (E0 ^ 2)) ≤ 2 ^ p * 2 ^ p * 32 := by
    have := mul_le_mul w4 hone' (by linarith) (by positivity)
    linarith
  obtain ⟨-, z2, -⟩ := h.bounds k2 (y3.add v3) (add_nonneg y0 v0) (by linarith)
  simp only [decide_eq_true_eq]
  refine z2.trans (le_trans ?_ hr2)
  have n1 : rd (rd (E0 ^ 2)) ≤ (1 + eps p) ^ 2 * E0 ^ 2 := by
    have := mul_le_mul_of_nonneg_right w2 (show 0 ≤ 1 + eps p by linarith)
    calc _ ≤ _ := y2
      _ ≤ _ := this
      _ = _ := by ring
  have n2 : rd (E1 ^ 2) ≤ (1 + eps p) ^ 2 * E1 ^ 2 := by
    have h5 : E1 ^ 2 * (1 + eps p) ≤ E1 ^ 2 * (1 + eps p) * (1 + eps p) := le_mul_of_one_le_right (by positivity) (by linarith)
    calc _ ≤ _ := v2
      _ ≤ _ := h5
      _ = _ := by ring
  have n3 : (1 + eps p) ^ 2 * E0 ^ 2 + (1 + eps p) ^ 2 * E1 ^ 2 ≤ (1 + eps p) ^ 6 * (x0 ^ 2 + x1 ^ 2) := by
    have := mul_le_mul_of_nonneg_left (add_le_add s0 s1) (show 0 ≤ (1 + eps p) ^ 2 by positivity)
    calc _ = (1 + eps p) ^ 2 * (E0 ^ 2 + E1 ^ 2) := by ring
      _ ≤ _ := this
      _ = _ := by ring
  calc _ ≤ (1 + eps p) ^ 6 * (x0 ^ 2 + x1 ^ 2) * (1 + eps p) := mul_le_mul_of_nonneg_right (by linarith) (by linarith)
    _ = (1 + eps p) ^ 7 * (x0 ^ 2 + x1 ^ 2) := by ring
    _ ≤ _ := mul_le_mul_of_nonneg_right f7 (by positivity)

/-- A rounded quotient of integers. -/
theorem center_ok (hp : 10 ≤ p) (h : Wide p rd) {n den : Int} (hd : den ≠ 0) (hd' : |den| * 4 ≤ 2 ^ p) (hn : |n| ≤ 2 ^ p) :
    |rd ((n : ℚ) / den) - n / den| ≤ eps p * |(n : ℚ) / den| ∧ Mul (-(2 * p) + 1) (rd ((n : ℚ) / den)) := by
  have hbig := pow_big hp
  have hP : (1 : ℚ) ≤ 2 ^ p := one_le_pow₀ (by norm_num)
  have hPP : (2 : ℚ) ^ p ≤ 2 ^ p * 2 ^ p := by nlinarith
  have hdq : (1 : ℚ) ≤ |(den : ℚ)| := by exact_mod_cast Int.one_le_abs hd
  have hdq' : |(den : ℚ)| * 4 ≤ 2 ^ p := by exact_mod_cast hd'
  have hnq : |(n : ℚ)| ≤ 2 ^ p := by exact_mod_cast hn
  have hb : |(n : ℚ) / den| ≤ 2 ^ (4 * p : Int) := by
    rw [abs_div]
    have := div_le_self (abs_nonneg (n : ℚ)) hdq
    linarith
  by_cases h0 : n = 0
  · rw [h0, Int.cast_zero, zero_div, h 0 (Or.inl rfl) (by rw [abs_zero]; positivity), FP.rnd_zero]
    exact ⟨by simp, Mul.zero _⟩
  · have hnq1 : (1 : ℚ) ≤ |(n : ℚ)| := by exact_mod_cast Int.one_le_abs h0
    have hlo : (2 : ℚ) ^ (-p + 1 : Int) ≤ |(n : ℚ) / den| := by
      rw [abs_div, le_div_iff₀ (by linarith)]
      have e : (2 : ℚ) ^ (-p + 1 : Int) = 2 * (2 ^ p)⁻¹ := by
        rw [zpow_add₀ (by norm_num), zpow_neg, zpow_natCast, zpow_one]; ring
      rw [e]
      have : (2 : ℚ) * (2 ^ p)⁻¹ * |(den : ℚ)| = (|(den : ℚ)| * 2) / 2 ^ p := by ring
      rw [this]
      refine le_trans ?_ hnq1
      rw [div_le_one (by positivity)]
      linarith
    have hin : 2 ^ (-(4 * p) : Int) ≤ |(n : ℚ) / den| := (FP.two_zpow_le (by omega)).trans hlo
    refine ⟨h.rel (Or.inr hin) hb, ?_⟩
    rw [h _ (Or.inr hin) hb]
    refine (FP.rnd_mul_grid p _).mono ?_
    apply FP.le_grid
    refine (FP.two_zpow_le ?_).trans hlo
    omega

theorem RI.ofInt {b : Nat} {n : Int} (h : |n| ≤ b) : RI b (n : ℚ) n := ⟨rfl, n, rfl, h⟩

/-- The errors are smaller than the distance of an integer point from the circle. -/
theorem margin {e δ N R P err : ℚ} (he : 0 < e) (hδ : 1 ≤ δ) (hN : 0 ≤ N) (hN46 : N ^ 4 ≤ N ^ 6) (heN : 20480 * N ^ 6 * e ≤ 1)
    (hR : R ≤ 2 * (25 / 12 * (12 * N ^ 3 / δ)) ^ 2) (hP : P ≤ -(1 / δ)) (herr : |err| ≤ 2 * (2 * (e * (12 * N ^ 3 / δ) * (2 * N)))) :
    P + err < 0 ∧ 16 * e * R ≤ -(P + err) := by
  have hδ0 : 0 < δ := by linarith
  have h1 : 16 * e * R ≤ 20000 * N ^ 6 * e / δ := by
    have a1 : 16 * e * R ≤ 16 * e * (2 * (25 / 12 * (12 * N ^ 3 / δ)) ^ 2) := mul_le_mul_of_nonneg_left hR (by positivity)
    have a2 : 16 * e * (2 * (25 / 12 * (12 * N ^ 3 / δ)) ^ 2) = 20000 * N ^ 6 * e / δ / δ := by ring
    rw [a2] at a1
    exact a1.trans (div_le_self (by positivity) hδ)
  have h2 : 2 * (2 * (e * (12 * N ^ 3 / δ) * (2 * N))) = 96 * N ^ 4 * e / δ := by ring
  have h3 : 96 * N ^ 4 * e / δ ≤ 96 * N ^ 6 * e / δ := by
    apply div_le_div_of_nonneg_right _ hδ0.le
    nlinarith
  rw [h2] at herr
  have h4 := (abs_le.1 herr).2
  have h5 : 20000 * N ^ 6 * e / δ + 96 * N ^ 6 * e / δ + 384 * N ^ 6 * e / δ ≤ 1 / δ := by
    rw [← add_div, ← add_div]
    apply div_le_div_of_nonneg_right _ hδ0.le
    linarith
  have h6 : 0 ≤ 384 * N ^ 6 * e / δ := by positivity
  have h7 : 0 < 1 / δ := by positivity
  have h8 : 96 * N ^ 6 * e / δ ≤ 1 / δ / 2 := by
    rw [div_div, div_le_div_iff₀ hδ0 (by positivity)]
    nlinarith
  constructor
  · linarith
  · linarith

theorem finds2 (hp : 10 ≤ p) (h : Wide p rd) (hsq : PowOk p sq) (hrt : SqrtOk p rt) {N : Nat} (hN : 20480 * N ^ 6 ≤ 2 ^ p) {q s0 s1 s2 c : Vec 2 ℚ} {R : ℚ}
    {b : Box 2 ℚ} (hq : IntPt N q) (h0 : IntPt N s0) (h1 : IntPt N s1) (h2 : IntPt N s2) (hl : IntPt N b.low) (hh : IntPt N b.high)
    (hnd : Geom.NonDeg2 s0 s1 s2) (c0 : (s0 0 - c 0) ^ 2 + (s0 1 - c 1) ^ 2 = R) (c1 : (s1 0 - c 0) ^ 2 + (s1 1 - c 1) ^ 2 = R)
    (c2 : (s2 0 - c 0) ^ 2 + (s2 1 - c 1) ^ 2 = R) (hin : (q 0 - c 0) ^ 2 + (q 1 - c 1) ^ 2 < R) (hlq : ∀ d, b.low d ≤ q d) (hqh : ∀ d, q d ≤ b.high d) :
    intersectsR rd b (circumsphere2R rd sq rt s0 s1 s2) = true := by
  have hp0 : 0 < p := by omega
  have hg := h.good
  have hN1 : N ≤ N ^ 6 := Nat.le_self_pow (by norm_num) N
  have hNk : ∀ k, 1 ≤ k → k ≤ 6 → N ^ k ≤ N ^ 6 := by
    intro k hk hk6
    rcases Nat.eq_zero_or_pos N with h | h
    · rw [h, zero_pow (by omega), zero_pow (by omega)]
    · exact Nat.pow_le_pow_right h hk6
  have hN2 := hNk 2 (by norm_num) (by norm_num)
  have hN3 := hNk 3 (by norm_num) (by norm_num)
  have hN4 := hNk 4 (by norm_num) (by norm_num)
  obtain ⟨x0, ex0, bx0⟩ := h0 0
  obtain ⟨y0, ey0, by0⟩ := h0 1
  obtain ⟨x1, ex1, bx1⟩ := h1 0
  obtain ⟨y1, ey1, by1⟩ := h1 1
  obtain ⟨x2, ex2, bx2⟩ := h2 0
  obtain ⟨y2, ey2, by2⟩ := h2 1
  obtain ⟨xq, exq, bxq⟩ := hq 0
  obtain ⟨yq, eyq, byq⟩ := hq 1
  have df : ∀ {a b : Int}, |a| ≤ N → |b| ≤ N → RI (2 * N) (subR rd a b) ((a : ℚ) - b) := by
    intro a b ha hb
    rw [two_mul]
    exact (RI.ofInt ha).sub hp0 hg (RI.ofInt hb) (by omega)
  have sqr : ∀ {a : Int}, |a| ≤ N → RI (N ^ 2) (sq a) ((a : ℚ) ^ 2) := by
    intro a ha
    have h5 : a ^ 2 ≤ (N : Int) ^ 2 := by
      rw [← sq_abs]; exact pow_le_pow_left₀ (abs_nonneg _) ha 2
    have h6 : ((N : Int) ^ 2) ≤ 2 ^ p := by
      have : N ^ 2 ≤ 2 ^ p := by omega
      exact_mod_cast this
    rw [hsq.int a (h5.trans h6)]
    refine ⟨rfl, a ^ 2, by push_cast; rfl, ?_⟩
    rw [abs_of_nonneg (sq_nonneg _)]
    push_cast
    exact h5
  have nrm : ∀ {a b : Int}, |a| ≤ N → |b| ≤ N → RI (2 * N ^ 2) (addR rd (sq a) (sq b)) ((a : ℚ) ^ 2 + (b : ℚ) ^ 2) := by
    intro a b ha hb
    rw [two_mul]
    exact (sqr ha).add hp0 hg (sqr hb) (by omega)
  have pr : ∀ {a b d : Int}, |a| ≤ N → |b| ≤ N → |d| ≤ N → RI (2 * N ^ 2) (mulR rd a (subR rd b d)) ((a : ℚ) * (b - d)) := by
    intro a b d ha hb hd
    rw [show 2 * N ^ 2 = N * (2 * N) by ring]
    exact (RI.ofInt ha).mul hp0 hg (df hb hd) (by rw [show N * (2 * N) = 2 * N ^ 2 by ring]; omega)
  have pr3 : ∀ {a b d f : Int}, |a| ≤ N → |b| ≤ N → |d| ≤ N → |f| ≤ N →
      RI (4 * N ^ 3) (mulR rd (addR rd (sq a) (sq b)) (subR rd d f)) (((a : ℚ) ^ 2 + (b : ℚ) ^ 2) * (d - f)) := by
    intro a b d f ha hb hd hf
    rw [show 4 * N ^ 3 = (2 * N ^ 2) * (2 * N) by ring]
    exact (nrm ha hb).mul hp0 hg (df hd hf) (by rw [show (2 * N ^ 2) * (2 * N) = 4 * N ^ 3 by ring]; omega)
  have two : RI 2 2 2 := ⟨rfl, 2, by norm_num, by norm_num⟩
  have rden := two.mul hp0 hg (((pr bx0 by1 by2).add hp0 hg (pr bx1 by2 by0) (by omega)).add hp0 hg (pr bx2 by0 by1) (by omega)) (by omega)
  have rn0 := ((pr3 bx0 by0 by1 by2).add hp0 hg (pr3 bx1 by1 by2 by0) (by omega)).add hp0 hg (pr3 bx2 by2 by0 by1) (by omega)
  have rn1 := ((pr3 bx0 by0 bx2 bx1).add hp0 hg (pr3 bx1 by1 bx0 bx2) (by omega)).add hp0 hg (pr3 bx2 by2 bx1 bx0) (by omega)
  have rden := rden.mono (show _ ≤ 12 * N ^ 2 by omega)
  have rn0 := rn0.mono (show _ ≤ 12 * N ^ 3 by omega)
  have rn1 := rn1.mono (show _ ≤ 12 * N ^ 3 by omega)
  obtain ⟨eden, den, hden, hdenb⟩ := rden
  obtain ⟨en0, n0, hn0, hn0b⟩ := rn0
  obtain ⟨en1, n1, hn1, hn1b⟩ := rn1
  have ho := Geom.orient2_ne hnd
  have hden0 : den ≠ 0 := by
    intro hz
    apply ho
    rw [hz] at hden
    simp only [Geom.orient2, ex0, ey0, ex1, ey1, ex2, ey2]
    push_cast at hden
    linear_combination hden / 2
  have hdq : (den : ℚ) ≠ 0 := by exact_mod_cast hden0
  rw [ex0, ey0] at c0
  rw [ex1, ey1] at c1
  rw [ex2, ey2] at c2
  rw [exq, eyq] at hin
  have k0 : (n0 : ℚ) / den = c 0 := by
    rw [div_eq_iff hdq, ← hden, ← hn0]
    linear_combination ((y1 : ℚ) - y2) * c0 + ((y2 : ℚ) - y0) * c1 + ((y0 : ℚ) - y1) * c2
  have k1 : (n1 : ℚ) / den = c 1 := by
    rw [div_eq_iff hdq, ← hden, ← hn1]
    linear_combination ((x2 : ℚ) - x1) * c0 + ((x0 : ℚ) - x2) * c1 + ((x1 : ℚ) - x0) * c2
  have hP2 : 20480 * (N : ℚ) ^ 6 ≤ 2 ^ p := by exact_mod_cast hN
  have hPi : (20480 * N ^ 6 : Int) ≤ 2 ^ p := by exact_mod_cast hN
  have iN2 : (N : Int) ^ 2 ≤ N ^ 6 := by exact_mod_cast hN2
  have iN3 : (N : Int) ^ 3 ≤ N ^ 6 := by exact_mod_cast hN3
  have qN3 : (N : ℚ) ^ 3 ≤ N ^ 6 := by exact_mod_cast hN3
  have qN4 : (N : ℚ) ^ 4 ≤ N ^ 6 := by exact_mod_cast hN4
  have qN1 : (N : ℚ) ≤ N ^ 6 := by exact_mod_cast hN1
  have iN0 : (0 : Int) ≤ N ^ 6 := by positivity
  push_cast at hdenb hn0b hn1b
  obtain ⟨v0, w0⟩ := center_ok hp h (n := n0) hden0 (by omega) (by omega)
  obtain ⟨v1, w1⟩ := center_ok hp h (n := n1) hden0 (by omega) (by omega)
  -- the computed sphere
  have hs : circumsphere2R rd sq rt s0 s1 s2 = ⟨![rd ((n0 : ℚ) / den), rd ((n1 : ℚ) / den)],
      rt (addR rd (sq (rd (rd ((n0 : ℚ) / den) - x0))) (sq (rd (rd ((n1 : ℚ) / den) - y0))))⟩ := by
    unfold circumsphere2R
    simp only [ex0, ey0, ex1, ey1, ex2, ey2, eden, en0, en1, hden, hn0, hn1, Matrix.cons_val_zero, Matrix.cons_val_one]
    rfl
  rw [hs]
  rw [k0] at v0
  rw [k1] at v1
  rw [k0] at w0
  rw [k1] at w1
  rw [k0, k1]
  generalize rd (c 0) = C0 at *
  generalize rd (c 1) = C1 at *
  have he := eps_pos p
  have he10 := eps_le10 hp
  have hδ : (1 : ℚ) ≤ |(den : ℚ)| := by exact_mod_cast Int.one_le_abs hden0
  have hδ2 : |(den : ℚ)| ≤ 12 * (N : ℚ) ^ 2 := by exact_mod_cast hdenb
  have hNq : (0 : ℚ) ≤ N := by positivity
  -- bounds of the centre
  have a0 : |c 0| ≤ 12 * (N : ℚ) ^ 3 / |(den : ℚ)| := by
    rw [← k0, abs_div]
    apply div_le_div_of_nonneg_right _ (by linarith)
    exact_mod_cast hn0b
  have a1 : |c 1| ≤ 12 * (N : ℚ) ^ 3 / |(den : ℚ)| := by
    rw [← k1, abs_div]
    apply div_le_div_of_nonneg_right _ (by linarith)
    exact_mod_cast hn1b
  have aN : (N : ℚ) ≤ 12 * (N : ℚ) ^ 3 / |(den : ℚ)| := by
    rw [le_div_iff₀ (by linarith)]
    have := mul_le_mul_of_nonneg_left hδ2 hNq
    linarith
  have aP : 12 * (N : ℚ) ^ 3 / |(den : ℚ)| ≤ 12 * (N : ℚ) ^ 3 := div_le_self (by positivity) hδ
  -- distance of the integer point
  have hPint : ∃ m : Int, (((xq : ℚ) - c 0) ^ 2 + ((yq : ℚ) - c 1) ^ 2 - R) * den = m := by
    refine ⟨den * (xq ^ 2 + yq ^ 2 - x0 ^ 2 - y0 ^ 2) - 2 * (n0 * (xq - x0) + n1 * (yq - y0)), ?_⟩
    push_cast
    rw [← c0]
    have e0 : (n0 : ℚ) = c 0 * den := by rw [← k0]; field_simp
    have e1 : (n1 : ℚ) = c 1 * den := by rw [← k1]; field_simp
    rw [e0, e1]
    ring
  obtain ⟨m, hm⟩ := hPint
  have hPneg : ((xq : ℚ) - c 0) ^ 2 + ((yq : ℚ) - c 1) ^ 2 - R < 0 := by linarith
  have hPle : ((xq : ℚ) - c 0) ^ 2 + ((yq : ℚ) - c 1) ^ 2 - R ≤ -(1 / |(den : ℚ)|) := by
    have h5 : m ≠ 0 := by
      intro hz
      rw [hz, Int.cast_zero] at hm
      exact (mul_ne_zero hPneg.ne hdq) hm
    have h6 : (1 : ℚ) ≤ |(m : ℚ)| := by exact_mod_cast Int.one_le_abs h5
    rw [← hm, abs_mul, abs_of_neg hPneg] at h6
    rw [le_neg, div_le_iff₀ (by linarith)]
    exact h6
  -- the errors of the centre
  have bq : ∀ {a b : Int}, |a| ≤ N → |b| ≤ N → |(a : ℚ) - b| ≤ 2 * N := by
    intro a b ha hb
    have h5 : |(a : ℚ)| ≤ N := by exact_mod_cast ha
    have h6 : |(b : ℚ)| ≤ N := by exact_mod_cast hb
    exact (abs_sub _ _).trans (by linarith)
  generalize hA : 12 * (N : ℚ) ^ 3 / |(den : ℚ)| = A at *
  have hA0 : 0 ≤ A := hNq.trans aN
  have f0 : |C0 - c 0| ≤ eps p * A := v0.trans (mul_le_mul_of_nonneg_left a0 he.le)
  have f1 : |C1 - c 1| ≤ eps p * A := v1.trans (mul_le_mul_of_nonneg_left a1 he.le)
  have herr : |2 * ((c 0 - C0) * (xq - x0) + (c 1 - C1) * (yq - y0))| ≤ 2 * (2 * (eps p * A * (2 * N))) := by
    have g0 : |(c 0 - C0) * (xq - x0)| ≤ eps p * A * (2 * N) := by
      rw [abs_mul, abs_sub_comm]
      exact mul_le_mul f0 (bq bxq bx0) (abs_nonneg _) (by positivity)
    have g1 : |(c 1 - C1) * (yq - y0)| ≤ eps p * A * (2 * N) := by
      rw [abs_mul, abs_sub_comm]
      exact mul_le_mul f1 (bq byq by0) (abs_nonneg _) (by positivity)
    rw [abs_mul, abs_of_pos (show (0 : ℚ) < 2 by norm_num)]
    have := abs_add_le ((c 0 - C0) * (xq - x0)) ((c 1 - C1) * (yq - y0))
    linarith
  have qx : ∀ {C c' : ℚ} {a : Int}, |C - c'| ≤ eps p * A → |c'| ≤ A → |a| ≤ N → |C| ≤ 13 / 12 * A ∧ |C - a| ≤ 25 / 12 * A := by
    intro C c' a h5 h6 h7
    have h8 : |(a : ℚ)| ≤ N := by exact_mod_cast h7
    have h9 : eps p * A ≤ 1 / 12 * A := mul_le_mul_of_nonneg_right (by linarith) hA0
    have h10 : |C| ≤ |C - c'| + |c'| := by
      have := abs_add_le (C - c') c'
      rwa [sub_add_cancel] at this
    have h11 := abs_sub C (a : ℚ)
    constructor
    · linarith
    · linarith
  obtain ⟨z0, z0'⟩ := qx f0 a0 bx0
  obtain ⟨z1, z1'⟩ := qx f1 a1 by0
  have hA' : 3 * A ≤ 2 ^ p := by
    have : 0 ≤ (N : ℚ) ^ 6 := by positivity
    linarith
  have hR2 : (C0 - x0) ^ 2 + (C1 - y0) ^ 2 ≤ 2 * (25 / 12 * A) ^ 2 := by
    have h5 := abs_mul_self_le z0'
    have h6 := abs_mul_self_le z1'
    rw [← pow_two] at h5 h6
    linarith
  have heN : 20480 * (N : ℚ) ^ 6 * eps p ≤ 1 := by
    have : eps p = ((2 : ℚ) ^ p)⁻¹ := by unfold eps; rw [zpow_neg, zpow_natCast]
    rw [this, ← div_eq_mul_inv, div_le_one (by positivity)]
    exact hP2
  rw [← hA] at hR2 herr
  obtain ⟨g1, g2⟩ := margin he hδ hNq qN4 heN hR2 hPle herr
  have hQ : ((xq : ℚ) - C0) ^ 2 + ((yq : ℚ) - C1) ^ 2 = ((C0 - x0) ^ 2 + (C1 - y0) ^ 2) +
      ((((xq : ℚ) - c 0) ^ 2 + ((yq : ℚ) - c 1) ^ 2 - R) + 2 * ((c 0 - C0) * (xq - x0) + (c 1 - C1) * (yq - y0))) := by
    rw [← c0]; ring
  generalize (((xq : ℚ) - c 0) ^ 2 + ((yq : ℚ) - c 1) ^ 2 - R) + 2 * ((c 0 - C0) * (xq - x0) + (c 1 - C1) * (yq - y0)) = P at *
  have hpos : 0 < (C0 - x0) ^ 2 + (C1 - (y0 : ℚ)) ^ 2 := by
    have : 0 ≤ ((xq : ℚ) - C0) ^ 2 + ((yq : ℚ) - C1) ^ 2 := by positivity
    linarith
  have mint : ∀ a : Int, Mul (-(2 * p) + 1) (a : ℚ) := fun a => Mul.mono (k := 0) ⟨a, by simp⟩ (by omega)
  obtain ⟨r1, r2, r3⟩ := radius_lo hp h hsq hrt (w0.sub (mint x0)) (w1.sub (mint y0)) (by linarith) (by linarith) hpos _ rfl
  have hfin : (1 + 8 * eps p) * (((xq : ℚ) - C0) ^ 2 + ((yq : ℚ) - C1) ^ 2) ≤ ((C0 - x0) ^ 2 + (C1 - y0) ^ 2) * (1 - 8 * eps p) := by
    rw [hQ]
    generalize (C0 - x0) ^ 2 + (C1 - (y0 : ℚ)) ^ 2 = R' at *
    have : 8 * eps p * P ≤ 0 := mul_nonpos_of_nonneg_of_nonpos (by positivity) g1.le
    linarith
  have mpt : ∀ {v : Vec 2 ℚ}, IntPt N v → ∀ d, Mul (-(2 * p) + 1) (v d) ∧ |v d| ≤ 2 ^ p := by
    intro v hv d
    obtain ⟨a, ha, hb⟩ := hv d
    rw [ha]
    refine ⟨mint a, ?_⟩
    have : |(a : ℚ)| ≤ N := by exact_mod_cast hb
    have : 0 ≤ (N : ℚ) ^ 6 := by positivity
    linarith
  refine box_hit hp h (q := q) (fun d => (mpt hl d).1) (fun d => (mpt hh d).1) ?_ hlq hqh (fun d => (mpt hl d).2) (fun d => (mpt hh d).2) ?_ r1 ?_ ?_
  · intro d
    fin_cases d
    · exact w0
    · exact w1
  · intro d
    fin_cases d
    · exact z0.trans (by linarith)
    · exact z1.trans (by linarith)
  · rw [exq, eyq]
    exact hfin.trans r2
  · rw [exq, eyq]
    exact hfin.trans r3

end FPM
end Verif
