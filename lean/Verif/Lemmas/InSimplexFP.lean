import Verif.Model.InSimplexFP
import Verif.Lemmas.IEEE
import Verif.Props.GeomCore

/-!
# Exactness of the point in simplex test on small integers
-/
namespace Verif
namespace FPM
open FP (Mul Rep rnd grid eps eps_pos two_zpow_pos)

/-- `rd` rounds to `p` digits, except for numbers that are too large or too small. -/
def Good (p : Nat) (rd : ℚ → ℚ) : Prop := ∀ x : ℚ, x = 0 ∨ 2 ^ (-(2 * p) : Int) ≤ |x| → |x| ≤ 2 ^ (2 * p : Int) → rd x = rnd p x

theorem good_ieee {p : Nat} (hp : 0 < p) {lo hi : Int} {inf : ℚ → ℚ} (h1 : lo ≤ -(3 * p)) (h2 : (2 * p : Int) < hi - 1) : Good p (ieee p lo hi inf) := by
  intro x hx hb
  have e : rndB p lo x = rnd p x := by
    rcases hx with rfl | hx
    · exact rndB_eq (Mul.zero _)
    · have h0 : x ≠ 0 := by
        rintro rfl
        have := two_zpow_pos (-(2 * p) : Int)
        rw [abs_zero] at hx
        linarith
      have hg := (FP.grid_spec p h0).2
      have : (-(2 * p) : Int) < grid p x + p := by
        by_contra hc
        rw [not_lt] at hc
        have : (2 : ℚ) ^ (grid p x + p) ≤ 2 ^ (-(2 * p) : Int) := zpow_le_zpow_right₀ (by norm_num) hc
        linarith
      unfold rndB
      rw [max_eq_left (by omega)]
      rfl
  have hlt : |x| < 2 ^ (hi - 1) := lt_of_le_of_lt hb (zpow_lt_zpow_right₀ (by norm_num) h2)
  have hle : |rnd p x| ≤ 2 ^ (hi - 1) := by
    rw [FP.abs_rnd hp]
    exact FP.rnd_le hp (Rep.pow p hp _) hlt.le
  unfold ieee
  rw [e, if_neg]
  rw [not_le]
  exact lt_of_le_of_lt hle (zpow_lt_zpow_right₀ (by norm_num) (by omega))

theorem good_double (inf : ℚ → ℚ) : Good 53 (double inf) := good_ieee (by norm_num) (by norm_num) (by norm_num)
theorem good_single (inf : ℚ → ℚ) : Good 24 (single inf) := good_ieee (by norm_num) (by norm_num) (by norm_num)

/-- The computed number is the exact one, an integer of absolute value at most `b`. -/
structure RI (b : Nat) (y x : ℚ) : Prop where
  eq : y = x
  int : ∃ n : Int, x = n ∧ |n| ≤ b

variable {p : Nat} {rd : ℚ → ℚ}

theorem good_int (hp : 0 < p) (h : Good p rd) {n : Int} (hn : |n| ≤ 2 ^ p) : rd n = n := by
  have hq : |(n : ℚ)| ≤ 2 ^ p := by exact_mod_cast hn
  rw [h]
  · refine FP.rnd_of_mul hp (k := 0) ⟨n, by simp⟩ ?_
    simpa using hq
  · by_cases h0 : n = 0
    · left; rw [h0]; rfl
    · right
      have h1 : (1 : ℚ) ≤ |(n : ℚ)| := by exact_mod_cast Int.one_le_abs h0
      exact le_trans (zpow_le_one_of_nonpos₀ (by norm_num) (by omega)) h1
  · refine le_trans hq ?_
    rw [← zpow_natCast]
    exact zpow_le_zpow_right₀ (by norm_num) (by omega)

theorem RI.of (hp : 0 < p) (h : Good p rd) {b : Nat} {x : ℚ} (hx : ∃ n : Int, x = n ∧ |n| ≤ b) (hb : b ≤ 2 ^ p) : RI b (rd x) x := by
  obtain ⟨n, rfl, hn⟩ := hx
  refine ⟨good_int hp h (le_trans hn ?_), n, rfl, hn⟩
  exact_mod_cast hb

theorem RI.mul (hp : 0 < p) (h : Good p rd) {a b : Nat} {x y x' y' : ℚ} (hx : RI a x' x) (hy : RI b y' y) (hb : a * b ≤ 2 ^ p) :
    RI (a * b) (mulR rd x' y') (x * y) := by
  obtain ⟨rfl, n, rfl, hn⟩ := hx
  obtain ⟨rfl, m, rfl, hm⟩ := hy
  refine RI.of hp h ⟨n * m, by push_cast; rfl, ?_⟩ hb
  rw [abs_mul]
  push_cast
  exact mul_le_mul hn hm (abs_nonneg _) (by positivity)

theorem RI.add (hp : 0 < p) (h : Good p rd) {a b : Nat} {x y x' y' : ℚ} (hx : RI a x' x) (hy : RI b y' y) (hb : a + b ≤ 2 ^ p) :
    RI (a + b) (addR rd x' y') (x + y) := by
  obtain ⟨rfl, n, rfl, hn⟩ := hx
  obtain ⟨rfl, m, rfl, hm⟩ := hy
  refine RI.of hp h ⟨n + m, by push_cast; rfl, ?_⟩ hb
  push_cast
  exact (abs_add_le n m).trans (add_le_add hn hm)

theorem RI.sub (hp : 0 < p) (h : Good p rd) {a b : Nat} {x y x' y' : ℚ} (hx : RI a x' x) (hy : RI b y' y) (hb : a + b ≤ 2 ^ p) :
    RI (a + b) (subR rd x' y') (x - y) := by
  obtain ⟨rfl, n, rfl, hn⟩ := hx
  obtain ⟨rfl, m, rfl, hm⟩ := hy
  refine RI.of hp h ⟨n - m, by push_cast; rfl, ?_⟩ hb
  push_cast
  exact (abs_sub n m).trans (add_le_add hn hm)

theorem RI.neg {a : Nat} {x x' : ℚ} (hx : RI a x' x) : RI a (-x') (-x) := by
  obtain ⟨rfl, n, rfl, hn⟩ := hx
  exact ⟨rfl, -n, by push_cast; rfl, by rwa [abs_neg]⟩

theorem RI.mono {a b : Nat} {x x' : ℚ} (hx : RI a x' x) (h : a ≤ b) : RI b x' x := by
  obtain ⟨h1, n, h2, h3⟩ := hx
  exact ⟨h1, n, h2, h3.trans (by exact_mod_cast h)⟩

/-- A quotient of integers, computed as product with the rounded reciprocal. -/
theorem quot (hp : 4 ≤ p) (h : Good p rd) {den m : Int} (hd : den ≤ -1) (hd' : -den * 8 ≤ 2 ^ p) (hm : |m| ≤ 2 ^ p) :
    |(-mulR rd m (rd (1 / (den : ℚ)))) - (-((m : ℚ) / den))| ≤ (2 * eps p + eps p ^ 2) * |(m : ℚ) / den| := by
  have he : eps p = ((2 : ℚ) ^ p)⁻¹ := by unfold eps; rw [zpow_neg, zpow_natCast]
  have hP : (16 : ℚ) ≤ 2 ^ p := by
    calc (16 : ℚ) = 2 ^ 4 := by norm_num
      _ ≤ 2 ^ p := pow_le_pow_right₀ (by norm_num) hp
  have he0 := eps_pos p
  have he1 : eps p ≤ 1 / 16 := by rw [he, one_div]; exact inv_anti₀ (by norm_num) hP
  have hdq : (den : ℚ) ≤ -1 := by exact_mod_cast hd
  have hdq' : -(den : ℚ) * 8 ≤ 2 ^ p := by exact_mod_cast hd'
  have hmq : |(m : ℚ)| ≤ 2 ^ p := by exact_mod_cast hm
  have hdn : (den : ℚ) ≠ 0 := by linarith
  have hinv : |1 / (den : ℚ)| = 1 / (-den) := by rw [abs_div, abs_one, abs_of_neg (by linarith)]
  have hi1 : eps p ≤ |1 / (den : ℚ)| := by
    rw [hinv, he, ← one_div]
    exact one_div_le_one_div_of_le (by linarith) (by linarith)
  have hi2 : |1 / (den : ℚ)| ≤ 1 := by
    rw [hinv, div_le_one (by linarith)]; linarith
  have hee : (2 : ℚ) ^ (-(2 * p) : Int) ≤ eps p / 2 := by
    have : (2 : ℚ) ^ (-(2 * p) : Int) = eps p * eps p := by
      unfold eps; rw [← zpow_add₀ (by norm_num)]; congr 1; ring
    rw [this]; nlinarith
  have hbig : (2 : ℚ) ^ p * 2 ≤ 2 ^ (2 * p : Int) := by
    have : (2 : ℚ) ^ (2 * p : Int) = 2 ^ p * 2 ^ p := by
      rw [← pow_add, ← two_mul, ← zpow_natCast]; push_cast; rfl
    rw [this]; nlinarith
  have hr : rd (1 / (den : ℚ)) = rnd p (1 / (den : ℚ)) := h _ (Or.inr (by linarith)) (by linarith)
  have hrel := FP.rnd_rel p (1 / (den : ℚ))
  rw [← hr] at hrel
  set i := rd (1 / (den : ℚ)) with hidef
  have hil : |1 / (den : ℚ)| * (1 - eps p) ≤ |i| := by
    have := abs_sub_abs_le_abs_sub (1 / (den : ℚ)) i
    rw [abs_sub_comm] at this
    linarith
  have hiu : |i| ≤ |1 / (den : ℚ)| * (1 + eps p) := by
    have := abs_sub_abs_le_abs_sub i (1 / (den : ℚ))
    linarith
  have hmi : rd (m * i) = rnd p (m * i) := by
    refine h _ ?_ ?_
    · by_cases h0 : m = 0
      · left; rw [h0]; simp
      · right
        have h1 : (1 : ℚ) ≤ |(m : ℚ)| := by exact_mod_cast Int.one_le_abs h0
        rw [abs_mul]
        have h2 : eps p / 2 ≤ |i| := by nlinarith
        nlinarith [abs_nonneg i]
    · rw [abs_mul]
      have h2 : |i| ≤ 2 := by nlinarith
      have := mul_le_mul hmq h2 (abs_nonneg _) (by positivity)
      linarith
  have hrel2 := FP.rnd_rel p (m * i)
  rw [← hmi] at hrel2
  unfold mulR
  have hq : (m : ℚ) / den = m * (1 / den) := by ring
  have e1 : -rd (m * i) - -((m : ℚ) / den) = -((rd (m * i) - m * i) + m * (i - 1 / den)) := by rw [hq]; ring
  rw [e1, abs_neg]
  refine (abs_add_le _ _).trans ?_
  rw [abs_mul (m : ℚ) (i - 1 / den)]
  have h5 : |(m : ℚ) * i| ≤ |(m : ℚ)| * (|1 / (den : ℚ)| * (1 + eps p)) := by
    rw [abs_mul]; exact mul_le_mul_of_nonneg_left hiu (abs_nonneg _)
  have h6 : |(m : ℚ)| * |i - 1 / den| ≤ |(m : ℚ)| * (eps p * |1 / (den : ℚ)|) := mul_le_mul_of_nonneg_left hrel (abs_nonneg _)
  have h7 : eps p * |(m : ℚ) * i| ≤ eps p * (|(m : ℚ)| * (|1 / (den : ℚ)| * (1 + eps p))) := mul_le_mul_of_nonneg_left h5 he0.le
  rw [hq, abs_mul]
  nlinarith

/-- Consequences for signs and sums. -/
structure Appr (p : Nat) (x b : ℚ) : Prop where
  err : |x - b| ≤ (2 * eps p + eps p ^ 2) * |b|

theorem eps_le4 (hp : 4 ≤ p) : eps p ≤ 1 / 16 := by
  have he : eps p = ((2 : ℚ) ^ p)⁻¹ := by unfold eps; rw [zpow_neg, zpow_natCast]
  have hP : (16 : ℚ) ≤ 2 ^ p := by
    calc (16 : ℚ) = 2 ^ 4 := by norm_num
      _ ≤ 2 ^ p := pow_le_pow_right₀ (by norm_num) hp
  rw [he, one_div]; exact inv_anti₀ (by norm_num) hP

theorem Appr.neg (hp : 4 ≤ p) {x b : ℚ} (h : Appr p x b) (hb : b < 0) : x < 0 := by
  have h1 := h.err
  rw [abs_of_neg hb] at h1
  have h2 := (abs_le.1 h1).2
  have h3 := eps_le4 hp
  have h4 := eps_pos p
  have h5 : 2 * eps p + eps p ^ 2 ≤ 1 / 2 := by nlinarith
  have := mul_le_mul_of_nonneg_right h5 (show 0 ≤ -b by linarith)
  linarith

theorem Appr.bounds (hp : 4 ≤ p) {x b : ℚ} (h : Appr p x b) (hb : 0 ≤ b) : b * (1 - 3 * eps p) ≤ x ∧ x ≤ b * (1 + eps p) ^ 2 := by
  have h1 := h.err
  rw [abs_of_nonneg hb] at h1
  obtain ⟨h2, h3⟩ := abs_le.1 h1
  have h5 := eps_le4 hp
  have h6 := eps_pos p
  have h8 : eps p ^ 2 ≤ eps p := by nlinarith
  have h9 : b * eps p ^ 2 ≤ b * eps p := mul_le_mul_of_nonneg_left h8 hb
  exact ⟨by nlinarith, by nlinarith⟩

theorem Appr.nonneg (hp : 4 ≤ p) {x b : ℚ} (h : Appr p x b) (hb : 0 ≤ b) : 0 ≤ x := by
  have h1 := (h.bounds hp hb).1
  have h5 := eps_le4 hp
  have : 0 ≤ b * (1 - 3 * eps p) := mul_nonneg hb (by linarith)
  linarith

theorem range_lo (hp : 4 ≤ p) : (2 : ℚ) ^ (-(2 * p) : Int) ≤ eps p / 2 := by
  have : (2 : ℚ) ^ (-(2 * p) : Int) = eps p * eps p := by
    unfold eps; rw [← zpow_add₀ (by norm_num)]; congr 1; ring
  have := eps_le4 hp
  have := eps_pos p
  nlinarith

theorem range_hi (hp : 4 ≤ p) : (2 : ℚ) ^ p * 8 ≤ 2 ^ (2 * p : Int) := by
  have : (2 : ℚ) ^ (2 * p : Int) = 2 ^ p * 2 ^ p := by
    rw [← pow_add, ← two_mul, ← zpow_natCast]; push_cast; rfl
  have hP : (16 : ℚ) ≤ 2 ^ p := by
    calc (16 : ℚ) = 2 ^ 4 := by norm_num
      _ ≤ 2 ^ p := pow_le_pow_right₀ (by norm_num) hp
  nlinarith

/-- Rounding of a number of moderate size. -/
theorem round_mid (hp : 4 ≤ p) (h : Good p rd) {x : ℚ} (h1 : x = 0 ∨ eps p / 2 ≤ x) (h2 : x ≤ 2 ^ p * 8) :
    rd x = rnd p x ∧ x * (1 - eps p) ≤ rd x ∧ rd x ≤ x * (1 + eps p) := by
  have he := eps_pos p
  have hx0 : 0 ≤ x := by
    rcases h1 with h | h
    · exact h.ge
    · linarith
  have hr : rd x = rnd p x := by
    refine h x ?_ ?_
    · rcases h1 with h1 | h1
      · exact Or.inl h1
      · right
        rw [abs_of_nonneg hx0]
        exact (range_lo hp).trans h1
    · rw [abs_of_nonneg hx0]
      exact h2.trans (range_hi hp)
  have hrel := FP.rnd_rel p x
  rw [← hr, abs_of_nonneg hx0] at hrel
  obtain ⟨h3, h4⟩ := abs_le.1 hrel
  exact ⟨hr, by linarith, by linarith⟩

theorem rep_one (hp : 4 ≤ p) : Rep p 1 := by simpa using Rep.pow p (by omega) 0

theorem rep_next (hp : 4 ≤ p) : Rep p (1 + 2 * eps p) := by
  have e : 2 * eps p = 2 ^ (1 - p : Int) := by unfold eps; rw [sub_eq_add_neg, zpow_add₀ (by norm_num), zpow_one]
  refine ⟨1 - p, ⟨2 ^ (p - 1) + 1, ?_⟩, ?_⟩
  · rw [e]
    push_cast
    rw [add_mul, one_mul]
    congr 1
    rw [← zpow_natCast, ← zpow_add₀ (by norm_num)]
    have : ((p - 1 : Nat) : Int) + (1 - p) = 0 := by omega
    rw [this, zpow_zero]
  · have := eps_le4 hp
    have h0 := eps_pos p
    rw [abs_of_pos (by linarith), show (1 - p + p : Int) = 1 by ring, zpow_one]
    linarith

theorem final_le (hp : 4 ≤ p) (h : Good p rd) {x : ℚ} (h1 : x = 0 ∨ eps p / 2 ≤ x) (h2 : x ≤ 1) : rd x ≤ 1 := by
  have hP : (1 : ℚ) ≤ 2 ^ p := one_le_pow₀ (by norm_num)
  rw [(round_mid hp h h1 (by linarith)).1]
  exact FP.rnd_le (by omega) (rep_one hp) h2

theorem final_gt (hp : 4 ≤ p) (h : Good p rd) {x : ℚ} (h1 : 1 + 2 * eps p ≤ x) (h2 : x ≤ 2 ^ p * 8) : 1 < rd x := by
  have h0 := eps_pos p
  have := eps_le4 hp
  rw [(round_mid hp h (Or.inr (by linarith)) h2).1]
  have := FP.le_rnd (p := p) (by omega) (rep_next hp) h1
  linarith

/-- Integer coordinates of absolute value at most `N`. -/
def IntPt {D : Nat} (N : Nat) (s : Vec D ℚ) : Prop := ∀ i, ∃ n : Int, s i = n ∧ |n| ≤ N

theorem vsubR_ri (hp : 0 < p) (h : Good p rd) {D N : Nat} (hN : N + N ≤ 2 ^ p) {a b : Vec D ℚ} (ha : IntPt N a) (hb : IntPt N b) (d : Fin D) :
    RI (N + N) (vsubR rd a b d) (Geom.vsub a b d) :=
  RI.sub hp h ⟨rfl, hb d⟩ ⟨rfl, ha d⟩ hN

theorem dotR2_ri (hp : 0 < p) (h : Good p rd) {M : Nat} (hM : 2 * M ^ 2 ≤ 2 ^ p) {a b a' b' : Vec 2 ℚ} (ha : ∀ i, RI M (a' i) (a i))
    (hb : ∀ i, RI M (b' i) (b i)) : RI (2 * M ^ 2) (dotR rd a' b') (Geom.dot a b) := by
  have h0 : RI 0 0 0 := ⟨rfl, 0, by simp, by simp⟩
  have := (h0.add hp h ((ha 0).mul hp h (hb 0) (by nlinarith)) (by nlinarith)).add hp h ((ha 1).mul hp h (hb 1) (by nlinarith)) (by nlinarith)
  refine RI.mono (a := 0 + M * M + M * M) ?_ (by nlinarith)
  have e1 : dotR rd a' b' = addR rd (addR rd 0 (mulR rd (a' 0) (b' 0))) (mulR rd (a' 1) (b' 1)) := by
    simp [dotR, List.finRange_succ]
  have e2 : Geom.dot a b = 0 + a 0 * b 0 + a 1 * b 1 := by rw [Geom.dot2]; ring
  rw [e1, e2]
  exact this

theorem dotR3_ri (hp : 0 < p) (h : Good p rd) {M : Nat} (hM : 3 * M ^ 2 ≤ 2 ^ p) {a b a' b' : Vec 3 ℚ} (ha : ∀ i, RI M (a' i) (a i))
    (hb : ∀ i, RI M (b' i) (b i)) : RI (3 * M ^ 2) (dotR rd a' b') (Geom.dot a b) := by
  have h0 : RI 0 0 0 := ⟨rfl, 0, by simp, by simp⟩
  have := ((h0.add hp h ((ha 0).mul hp h (hb 0) (by nlinarith)) (by nlinarith)).add hp h ((ha 1).mul hp h (hb 1) (by nlinarith)) (by nlinarith)).add
    hp h ((ha 2).mul hp h (hb 2) (by nlinarith)) (by nlinarith)
  refine RI.mono (a := 0 + M * M + M * M + M * M) ?_ (by nlinarith)
  have e1 : dotR rd a' b' = addR rd (addR rd (addR rd 0 (mulR rd (a' 0) (b' 0))) (mulR rd (a' 1) (b' 1))) (mulR rd (a' 2) (b' 2)) := by
    simp [dotR, List.finRange_succ]
  have e2 : Geom.dot a b = 0 + a 0 * b 0 + a 1 * b 1 + a 2 * b 2 := by rw [Geom.dot3]; ring
  rw [e1, e2]
  exact this

/-- A quotient is approximated, it is 0 or not too small, and its distance from 1 is not too small. -/
theorem quot_appr (hp : 4 ≤ p) (h : Good p rd) {den m : Int} {b : ℚ} (hd : den ≤ -1) (hd' : -den * 8 ≤ 2 ^ p) (hm : |m| ≤ 2 ^ p)
    (hb : -((m : ℚ) / den) = b) : Appr p (-mulR rd m (rd (1 / (den : ℚ)))) b ∧ |b| ≤ 2 ^ p := by
  have h1 := quot hp h hd hd' hm
  have hdq : (den : ℚ) ≤ -1 := by exact_mod_cast hd
  have hmq : |(m : ℚ)| ≤ 2 ^ p := by exact_mod_cast hm
  refine ⟨⟨?_⟩, ?_⟩
  · rw [hb] at h1
    have : |(m : ℚ) / den| = |b| := by rw [← hb, abs_neg]
    rwa [this] at h1
  · rw [← hb, abs_neg, abs_div]
    have : 1 ≤ |(den : ℚ)| := by rw [abs_of_neg (by linarith)]; linarith
    exact (div_le_self (abs_nonneg _) this).trans hmq

/-- Numbers with denominator `den` that are positive are not too small. -/
theorem gap {den m : Int} (hd : den ≤ -1) (hd' : -den * 8 ≤ 2 ^ p) {b : ℚ} (hb : -((m : ℚ) / den) = b) (h0 : 0 < b) : 8 * eps p ≤ b := by
  have hdq : (den : ℚ) ≤ -1 := by exact_mod_cast hd
  have hdq' : -(den : ℚ) * 8 ≤ 2 ^ p := by exact_mod_cast hd'
  have e : b = m / (-den) := by rw [← hb, div_neg]
  have hm : 0 < m := by
    rw [e] at h0
    have := (div_pos_iff_of_pos_right (show (0 : ℚ) < -den by linarith)).1 h0
    exact_mod_cast this
  have hm1 : (1 : ℚ) ≤ m := by exact_mod_cast hm
  have he : eps p = ((2 : ℚ) ^ p)⁻¹ := by unfold eps; rw [zpow_neg, zpow_natCast]
  rw [e, le_div_iff₀ (by linarith), he]
  have hP : (0 : ℚ) < 2 ^ p := by positivity
  rw [show 8 * ((2 : ℚ) ^ p)⁻¹ * -(den : ℚ) = (-den * 8) / 2 ^ p by ring]
  exact ((div_le_one hP).2 hdq').trans hm1

/-- Halfway above one is rounded to one. -/
theorem rnd_half (hp : 4 ≤ p) {x : ℚ} (h : x ≤ 1 + eps p) : rnd p x ≤ 1 := by
  have he := eps_pos p
  have he4 := eps_le4 hp
  by_cases hx : x ≤ 1
  · exact FP.rnd_le (by omega) (rep_one hp) hx
  rw [not_le] at hx
  by_contra hc
  rw [not_le] at hc
  have hx0 : x ≠ 0 := by linarith
  have e2 : 2 * eps p = 2 ^ (1 - p : Int) := by unfold eps; rw [sub_eq_add_neg, zpow_add₀ (by norm_num), zpow_one]
  have hg : grid p x = 1 - p := by
    apply le_antisymm
    · apply FP.grid_le hx0
      rw [abs_of_pos (by linarith), show (1 - p + p : Int) = 1 by ring, zpow_one]; linarith
    · apply FP.le_grid
      rw [abs_of_pos (by linarith), show (1 - p + p - 1 : Int) = 0 by ring, zpow_zero]; exact hx.le
  have hm := FP.rnd_mul_grid p x
  rw [hg] at hm
  have h1 : ∀ k : Int, k ≤ 0 → Mul k 1 := fun k hk => by simpa using Mul.pow (l := k) (k := 0) hk
  have hge := Mul.le_sub (h1 (1 - p) (by omega)) hm hc
  rw [← e2] at hge
  have hn := FP.rnd_nearest (p := p) (by omega) x (rep_one hp)
  rw [abs_of_neg (show 1 - x < 0 by linarith), abs_of_nonneg (by linarith)] at hn
  have hxe : x = 1 + eps p := by linarith
  have hre : rnd p x = 1 + 2 * eps p := by linarith
  have ht := FP.rnd_tie p x (by rw [hg, ← e2, hre, hxe, abs_of_pos (by linarith)]; ring)
  rw [hg, hre] at ht
  have h3 := (ht.sub (h1 (1 - p + 1) (by omega))).eq_zero (by
    rw [show 1 + 2 * eps p - 1 = 2 * eps p by ring, FP.two_zpow_succ, ← e2, abs_of_pos (by linarith)]; linarith)
  linarith

/-- The coordinate one is computed as at most one. -/
theorem quot_one (hp : 4 ≤ p) (h : Good p rd) {den m : Int} (hd : den ≤ -1) (hd' : -den * 8 ≤ 2 ^ p) (hm : -((m : ℚ) / den) = 1) :
    -mulR rd m (rd (1 / (den : ℚ))) ≤ 1 := by
  have he0 := eps_pos p
  have he1 := eps_le4 hp
  have he : eps p = ((2 : ℚ) ^ p)⁻¹ := by unfold eps; rw [zpow_neg, zpow_natCast]
  have hP : (16 : ℚ) ≤ 2 ^ p := by
    calc (16 : ℚ) = 2 ^ 4 := by norm_num
      _ ≤ 2 ^ p := pow_le_pow_right₀ (by norm_num) hp
  have hdq : (den : ℚ) ≤ -1 := by exact_mod_cast hd
  have hdq' : -(den : ℚ) * 8 ≤ 2 ^ p := by exact_mod_cast hd'
  have hdn : (den : ℚ) ≠ 0 := by linarith
  have hmd : (m : ℚ) = -den := by
    rw [← neg_div, div_eq_iff hdn] at hm; linarith
  have hinv : |1 / (den : ℚ)| = 1 / (-den) := by rw [abs_div, abs_one, abs_of_neg (by linarith)]
  have hi1 : eps p ≤ |1 / (den : ℚ)| := by
    rw [hinv, he, ← one_div]
    exact one_div_le_one_div_of_le (by linarith) (by linarith)
  have hi2 : |1 / (den : ℚ)| ≤ 1 := by
    rw [hinv, div_le_one (by linarith)]; linarith
  have hlo := range_lo hp
  have hhi := range_hi hp
  have hr : rd (1 / (den : ℚ)) = rnd p (1 / (den : ℚ)) := h _ (Or.inr (by linarith)) (by linarith)
  have hrel := FP.rnd_rel p (1 / (den : ℚ))
  rw [← hr, hinv] at hrel
  obtain ⟨h1, h2⟩ := abs_le.1 hrel
  have hprod : ∀ t : ℚ, -(den : ℚ) * (t / -den) = t := fun t => mul_div_cancel₀ t (by linarith)
  have hd0 : (0 : ℚ) ≤ -den := by linarith
  have e1 := mul_le_mul_of_nonneg_left h1 hd0
  have e2 := mul_le_mul_of_nonneg_left h2 hd0
  have e3 : -(den : ℚ) * (eps p * (1 / -den)) = eps p := by rw [mul_one_div]; exact hprod _
  have e4 : -(den : ℚ) * (rd (1 / (den : ℚ)) - 1 / den) = -den * rd (1 / (den : ℚ)) + 1 := by
    rw [mul_sub, neg_mul (den : ℚ) (1 / (den : ℚ)), mul_one_div_cancel hdn]; ring
  rw [mul_neg, e3, e4] at e1
  rw [e3, e4] at e2
  unfold mulR
  rw [hmd]
  set y := -(den : ℚ) * rd (1 / (den : ℚ)) with hy
  have hr2 : rd y = rnd p y := by
    have : |y| = -y := abs_of_neg (by linarith)
    exact h _ (Or.inr (by rw [this]; linarith)) (by rw [this]; linarith)
  rw [hr2, ← FP.rnd_neg]
  exact rnd_half hp (by linarith)

/-- The coordinate zero is exact. -/
theorem quot_zero (hp : 4 ≤ p) (h : Good p rd) {den m : Int} (hd : den ≤ -1) (hm : -((m : ℚ) / den) = 0) (x : ℚ) : -mulR rd m x = 0 := by
  have hdq : (den : ℚ) ≤ -1 := by exact_mod_cast hd
  have : (m : ℚ) = 0 := by
    rw [neg_eq_zero, div_eq_zero_iff] at hm
    rcases hm with h | h
    · exact h
    · linarith
  unfold mulR
  rw [this, zero_mul, h 0 (Or.inl rfl) (by rw [abs_zero]; positivity), FP.rnd_zero, neg_zero]

/-- Decision with two rounded coordinates. -/
theorem decide2 (hp : 4 ≤ p) (h : Good p rd) {den m1 m2 : Int} {b c : ℚ} (hd : den ≤ -1) (hd' : -den * 8 ≤ 2 ^ p) (hm1 : |m1| ≤ 2 ^ p) (hm2 : |m2| ≤ 2 ^ p)
    (hb : -((m1 : ℚ) / den) = b) (hc : -((m2 : ℚ) / den) = c) (u v : ℚ) (hu : u = -mulR rd m1 (rd (1 / (den : ℚ))))
    (hv : v = -mulR rd m2 (rd (1 / (den : ℚ)))) :
    (b < 0 ∨ c < 0 ∨ 1 < b + c → (decide (u ≥ 0) && decide (v ≥ 0) && decide (addR rd u v ≤ 1)) = false) ∧
    (0 ≤ b → 0 ≤ c → b + c < 1 → (decide (u ≥ 0) && decide (v ≥ 0) && decide (addR rd u v ≤ 1)) = true) ∧
    (b = 1 ∧ c = 0 ∨ b = 0 ∧ c = 1 → (decide (u ≥ 0) && decide (v ≥ 0) && decide (addR rd u v ≤ 1)) = true) := by
  obtain ⟨au, bu⟩ := quot_appr hp h hd hd' hm1 hb
  obtain ⟨av, bv⟩ := quot_appr hp h hd hd' hm2 hc
  rw [← hu] at au
  rw [← hv] at av
  have hden : (den : ℚ) ≠ 0 := by
    have : (den : ℚ) ≤ -1 := by exact_mod_cast hd
    linarith
  have he := eps_pos p
  have he4 := eps_le4 hp
  refine ⟨?_, ?_, ?_⟩
  · intro hh
    by_cases hb0 : b < 0
    · have := au.neg hp hb0
      simp [not_le.2 this]
    by_cases hc0 : c < 0
    · have := av.neg hp hc0
      simp [not_le.2 this]
    rw [not_lt] at hb0 hc0
    have hbc : 1 < b + c := by
      rcases hh with h | h | h
      · linarith
      · linarith
      · exact h
    have hg : 8 * eps p ≤ b + c - 1 := by
      refine gap (m := m1 + m2 + den) hd hd' ?_ (by linarith)
      push_cast
      rw [← hb, ← hc]
      field_simp
      ring
    obtain ⟨u1, u2⟩ := au.bounds hp hb0
    obtain ⟨v1, v2⟩ := av.bounds hp hc0
    rw [abs_of_nonneg hb0] at bu
    rw [abs_of_nonneg hc0] at bv
    have h4 : (1 + eps p) ^ 2 ≤ 2 := by nlinarith
    have h5 : b * (1 + eps p) ^ 2 ≤ b * 2 := mul_le_mul_of_nonneg_left h4 hb0
    have h6 : c * (1 + eps p) ^ 2 ≤ c * 2 := mul_le_mul_of_nonneg_left h4 hc0
    have h7 : 1 + 2 * eps p ≤ u + v := by
      have : (b + c) * (1 - 3 * eps p) ≤ u + v := by linarith
      have h8 : (1 + 8 * eps p) * (1 - 3 * eps p) ≤ (b + c) * (1 - 3 * eps p) := mul_le_mul_of_nonneg_right (by linarith) (by linarith)
      nlinarith
    have := final_gt hp h h7 (by linarith)
    unfold addR
    simp [not_le.2 this]
  · intro hb0 hc0 hbc
    have hg : 8 * eps p ≤ 1 - (b + c) := by
      refine gap (m := -(m1 + m2) - den) hd hd' ?_ (by linarith)
      push_cast
      rw [← hb, ← hc]
      field_simp
      ring
    obtain ⟨u1, u2⟩ := au.bounds hp hb0
    obtain ⟨v1, v2⟩ := av.bounds hp hc0
    have hu0 := au.nonneg hp hb0
    have hv0 := av.nonneg hp hc0
    have h7 : u + v ≤ 1 := by
      have : u + v ≤ (b + c) * (1 + eps p) ^ 2 := by linarith
      have h8 : (b + c) * (1 + eps p) ^ 2 ≤ (1 - 8 * eps p) * (1 + eps p) ^ 2 := mul_le_mul_of_nonneg_right (by linarith) (by positivity)
      nlinarith
    have h9 : u + v = 0 ∨ eps p / 2 ≤ u + v := by
      by_cases hz : 0 < b + c
      · right
        have : 8 * eps p ≤ b + c := by
          refine gap (m := m1 + m2) hd hd' ?_ hz
          push_cast
          rw [← hb, ← hc]
          field_simp
          ring
        have : (b + c) * (1 - 3 * eps p) ≤ u + v := by linarith
        nlinarith
      · left
        have hb' : b = 0 := by linarith
        have hc' : c = 0 := by linarith
        rw [hb'] at u2
        rw [hc'] at v2
        linarith
    have := final_le hp h h9 h7
    unfold addR
    simp [hu0, hv0, this]
  · have key : ∀ x : ℚ, Appr p x 1 → x ≤ 1 → 0 ≤ x ∧ rd x ≤ 1 := by
      intro x ax hx
      obtain ⟨x1, -⟩ := ax.bounds hp (by norm_num)
      exact ⟨by linarith, final_le hp h (Or.inr (by linarith)) hx⟩
    unfold addR
    rintro (⟨rfl, rfl⟩ | ⟨rfl, rfl⟩)
    · have h1 := quot_one hp h hd hd' hb
      have h2 := quot_zero hp h hd hc (rd (1 / (den : ℚ)))
      rw [← hu] at h1
      rw [← hv] at h2
      obtain ⟨h3, h4⟩ := key u au h1
      rw [h2, add_zero]
      simp [h3, h4]
    · have h1 := quot_one hp h hd hd' hc
      have h2 := quot_zero hp h hd hb (rd (1 / (den : ℚ)))
      rw [← hv] at h1
      rw [← hu] at h2
      obtain ⟨h3, h4⟩ := key v av h1
      rw [h2, zero_add]
      simp [h3, h4]

/-- The test in the plane. -/
theorem simplex2 (hp : 10 ≤ p) (h : Good p rd) {N : Nat} (hN : 1024 * N ^ 4 ≤ 2 ^ p) {q s0 s1 s2 : Vec 2 ℚ} (hq : IntPt N q) (h0 : IntPt N s0)
    (h1 : IntPt N s1) (h2 : IntPt N s2) (hnd : Geom.NonDeg2 s0 s1 s2) {b c : ℚ}
    (hbc : ∀ i, q i = (1 - b - c) * s0 i + b * s1 i + c * s2 i) :
    (b < 0 ∨ c < 0 ∨ 1 < b + c → inSimplex2 rd q s0 s1 s2 = false) ∧ (0 ≤ b → 0 ≤ c → b + c < 1 → inSimplex2 rd q s0 s1 s2 = true) ∧
      (b = 1 ∧ c = 0 ∨ b = 0 ∧ c = 1 → inSimplex2 rd q s0 s1 s2 = true) := by
  have hp0 : 0 < p := by omega
  have hN2 : N ^ 2 ≤ N ^ 4 ∨ N = 0 := by
    rcases Nat.eq_zero_or_pos N with h | h
    · exact Or.inr h
    · exact Or.inl (Nat.pow_le_pow_right h (by norm_num))
  have hN1 : N ≤ N ^ 4 := Nat.le_self_pow (by norm_num) N
  have hN2 : N ^ 2 ≤ N ^ 4 := by
    rcases Nat.eq_zero_or_pos N with h | h
    · rw [h]; norm_num
    · exact Nat.pow_le_pow_right h (by norm_num)
  have r1 := fun d => vsubR_ri hp0 h (by omega) h1 h0 d
  have r2 := fun d => vsubR_ri hp0 h (by omega) h2 h0 d
  have rp := fun d => vsubR_ri hp0 h (by omega) hq h0 d
  have hM : 2 * (N + N) ^ 2 ≤ 2 ^ p := by nlinarith
  have d11 := dotR2_ri hp0 h hM r1 r1
  have d12 := dotR2_ri hp0 h hM r1 r2
  have d1p := dotR2_ri hp0 h hM r1 rp
  have d22 := dotR2_ri hp0 h hM r2 r2
  have d2p := dotR2_ri hp0 h hM r2 rp
  have eM : (2 * (N + N) ^ 2) * (2 * (N + N) ^ 2) = 64 * N ^ 4 := by ring
  have hb1 : (2 * (N + N) ^ 2) * (2 * (N + N) ^ 2) ≤ 2 ^ p := by rw [eM]; omega
  have hb2 : (2 * (N + N) ^ 2) * (2 * (N + N) ^ 2) + (2 * (N + N) ^ 2) * (2 * (N + N) ^ 2) ≤ 2 ^ p := by rw [eM]; omega
  have rden := (d12.mul hp0 h d12 hb1).sub hp0 h (d11.mul hp0 h d22 hb1) hb2
  have ru := (d1p.mul hp0 h d22 hb1).sub hp0 h (d12.mul hp0 h d2p hb1) hb2
  have rv := (d12.neg.mul hp0 h d1p hb1).add hp0 h (d11.mul hp0 h d2p hb1) hb2
  rw [eM] at rden ru rv
  obtain ⟨eden, den, hden, hdenb⟩ := rden
  obtain ⟨eu, m1, hm1, hm1b⟩ := ru
  obtain ⟨ev, m2, hm2, hm2b⟩ := rv
  have ho := Geom.orient2_ne hnd
  have hdet : Geom.dot (Geom.vsub s1 s0) (Geom.vsub s2 s0) * Geom.dot (Geom.vsub s1 s0) (Geom.vsub s2 s0) -
      Geom.dot (Geom.vsub s1 s0) (Geom.vsub s1 s0) * Geom.dot (Geom.vsub s2 s0) (Geom.vsub s2 s0) = -(Geom.orient2 s0 s1 s2) ^ 2 := by
    simp only [Geom.dot2, Geom.vsub, Geom.orient2]; ring
  have hdneg : den ≤ -1 := by
    have : (den : ℚ) < 0 := by
      rw [← hden, hdet]
      have : 0 < (Geom.orient2 s0 s1 s2) ^ 2 := by positivity
      linarith
    have : den < 0 := by exact_mod_cast this
    omega
  have hdq : (den : ℚ) ≠ 0 := by
    have : (den : ℚ) ≤ -1 := by exact_mod_cast hdneg
    linarith
  have hP : (1024 * N ^ 4 : Int) ≤ 2 ^ p := by exact_mod_cast hN
  push_cast at hdenb hm1b hm2b
  have e1 : Geom.dot (Geom.vsub s1 s0) (Geom.vsub q s0) =
      b * Geom.dot (Geom.vsub s1 s0) (Geom.vsub s1 s0) + c * Geom.dot (Geom.vsub s1 s0) (Geom.vsub s2 s0) := by
    simp only [Geom.dot2, Geom.vsub, hbc]; ring
  have e2 : Geom.dot (Geom.vsub s2 s0) (Geom.vsub q s0) =
      b * Geom.dot (Geom.vsub s1 s0) (Geom.vsub s2 s0) + c * Geom.dot (Geom.vsub s2 s0) (Geom.vsub s2 s0) := by
    simp only [Geom.dot2, Geom.vsub, hbc]; ring
  have hb : -((m1 : ℚ) / den) = b := by
    rw [← neg_div, div_eq_iff hdq, ← hden, ← hm1, e1, e2]; ring
  have hc : -((m2 : ℚ) / den) = c := by
    rw [← neg_div, div_eq_iff hdq, ← hden, ← hm2, e1, e2]; ring
  have hN4 : (0 : Int) ≤ N ^ 4 := by positivity
  have := decide2 (p := p) (by omega) h hdneg (by rw [abs_of_neg (by omega)] at hdenb; omega) (hm1b.trans (by omega)) (hm2b.trans (by omega)) hb hc
    (-mulR rd (subR rd (mulR rd (dotR rd (vsubR rd s1 s0) (vsubR rd q s0)) (dotR rd (vsubR rd s2 s0) (vsubR rd s2 s0)))
      (mulR rd (dotR rd (vsubR rd s1 s0) (vsubR rd s2 s0)) (dotR rd (vsubR rd s2 s0) (vsubR rd q s0))))
      (rd (1 / subR rd (mulR rd (dotR rd (vsubR rd s1 s0) (vsubR rd s2 s0)) (dotR rd (vsubR rd s1 s0) (vsubR rd s2 s0)))
        (mulR rd (dotR rd (vsubR rd s1 s0) (vsubR rd s1 s0)) (dotR rd (vsubR rd s2 s0) (vsubR rd s2 s0))))))
    (-mulR rd (addR rd (mulR rd (-dotR rd (vsubR rd s1 s0) (vsubR rd s2 s0)) (dotR rd (vsubR rd s1 s0) (vsubR rd q s0)))
      (mulR rd (dotR rd (vsubR rd s1 s0) (vsubR rd s1 s0)) (dotR rd (vsubR rd s2 s0) (vsubR rd q s0))))
      (rd (1 / subR rd (mulR rd (dotR rd (vsubR rd s1 s0) (vsubR rd s2 s0)) (dotR rd (vsubR rd s1 s0) (vsubR rd s2 s0)))
        (mulR rd (dotR rd (vsubR rd s1 s0) (vsubR rd s1 s0)) (dotR rd (vsubR rd s2 s0) (vsubR rd s2 s0))))))
    (by rw [eu, eden, hden, hm1]) (by rw [ev, eden, hden, hm2])
  exact this

end FPM
end Verif
