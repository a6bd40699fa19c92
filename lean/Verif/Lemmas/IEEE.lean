import Verif.Model.IEEE
import Verif.Lemmas.RangeInsphere3
import Verif.Props.EFT

/-!
# Rounding with bounded exponents
-/
namespace Verif
namespace FPM
open FP (rne grid Consts InitSt Mul Rep rnd)

/-- Without small digits there is no underflow. -/
theorem rndB_eq {p : Nat} {lo : Int} {x : ℚ} (hx : Mul lo x) : rndB p lo x = rnd p x := by
  unfold rndB
  rcases le_total lo (grid p x) with h | h
  · rw [max_eq_left h]; rfl
  · rw [max_eq_right h]
    have h1 : rnd p x = x := by
      by_cases h0 : x = 0
      · rw [h0]; exact FP.rnd_zero p
      · exact FP.rnd_rep ⟨grid p x, hx.mono h, (FP.grid_spec p h0).2⟩
    rw [h1]
    obtain ⟨n, hn⟩ := hx
    have : x / 2 ^ lo = n := by rw [div_eq_iff (FP.two_zpow_pos _).ne']; exact hn
    rw [this, FP.rne_int, ← hn]

/-- In the range of the exponents there is no difference. -/
theorem ieee_eq {p : Nat} (hp : 0 < p) {lo hi : Int} {inf : ℚ → ℚ} {x : ℚ} (hx : Mul lo x) (h : |x| < 2 ^ (hi - 1)) : ieee p lo hi inf x = rnd p x := by
  unfold ieee
  rw [rndB_eq hx, if_neg]
  rw [not_le]
  have h1 := FP.abs_rnd_le hp (Rep.pow p hp (hi - 1)) h.le
  exact lt_of_le_of_lt h1 (FP.two_zpow_lt (by omega))

theorem rng_ieee {p : Nat} (hp : 13 ≤ p) {lo hi q m : Int} {inf : ℚ → ℚ} {D S : Nat} (hq : q ≤ 0) (hm : 0 ≤ m) (h1 : lo ≤ D * q - 3 * p)
    (h2 : D * m + S + p + 1 < hi) : Rng p (ieee p lo hi inf) q m D S :=
  ⟨hp, fun _ hx h => ieee_eq (by omega) (hx.mono h1) (lt_of_le_of_lt h (FP.two_zpow_lt (by omega))), hq, hm⟩

/-! ### Constants -/

/-- Numbers with `p` digits in a certain range are not rounded. -/
def Fix (p : Nat) (rd : ℚ → ℚ) : Prop := ∀ x, Rep p x → Mul (-(3 * p)) x → |x| ≤ 2 ^ (p : Int) → rd x = x

theorem fix_ieee {p r : Nat} (hp : 0 < p) (hr : p ≤ r) {lo hi : Int} {inf : ℚ → ℚ} (h1 : lo ≤ -(3 * p)) (h2 : p + 1 < hi) : Fix p (ieee r lo hi inf) := by
  intro x hx hk h
  rw [ieee_eq (by omega) (hk.mono h1) (lt_of_le_of_lt h (FP.two_zpow_lt (by omega)))]
  obtain ⟨k, h3, h4⟩ := hx
  exact FP.rnd_rep ⟨k, h3, lt_of_lt_of_le h4 (FP.two_zpow_le (by omega))⟩

section
variable {p : Nat} {rd w : ℚ → ℚ}

private def st (p i : Nat) : InitSt :=
  ⟨2 ^ (-i : Int), 2 ^ ((i + 1) / 2), i % 2 == 0, if i = 0 ∨ p ≤ i then 1 else 1 + 2 ^ (-i : Int)⟩

private theorem pow_le_p {k : Nat} (h : k ≤ p) : |(2 : ℚ) ^ k| ≤ 2 ^ (p : Int) := by
  rw [abs_of_pos (by positivity), ← zpow_natCast]
  exact FP.two_zpow_le (by omega)

private theorem initRound_st {i : Nat} (hp : 2 ≤ p) (hr : Fix p rd) (hw : Fix p w) (h1 : rd (w (1 + 2 ^ (-p : Int))) = 1) (hi : i < p) :
    initRound rd w (st p i) = (st p (i + 1), decide (i + 1 < p)) := by
  have hp0 : 0 < p := by omega
  have hpos := FP.two_zpow_pos (-(i + 1 : Nat) : Int)
  have hle : (2 : ℚ) ^ (-(i + 1 : Nat) : Int) ≤ 2 ^ (0 : Int) := FP.two_zpow_le (by omega)
  have e1 : rd ((2 : ℚ) ^ (-i : Int) * (1 / 2)) = 2 ^ (-(i + 1 : Nat) : Int) := by
    have : (2 : ℚ) ^ (-i : Int) * (1 / 2) = 2 ^ (-(i + 1 : Nat) : Int) := by
      rw [show (-i : Int) = -(i + 1 : Nat) + 1 by push_cast; ring, FP.two_zpow_succ]; ring
    rw [this]
    refine hr _ (Rep.pow p hp0 _) (Mul.pow (by push_cast; omega)) ?_
    rw [abs_of_pos hpos]
    exact FP.two_zpow_le (by omega)
  have e2 : (if (i % 2 == 0) = true then rd (w ((2 : ℚ) ^ ((i + 1) / 2) * 2)) else 2 ^ ((i + 1) / 2)) = 2 ^ ((i + 1 + 1) / 2) := by
    by_cases h : i % 2 = 0
    · have g1 : Rep p ((2 : ℚ) ^ ((i + 1) / 2 + 1)) := by rw [← zpow_natCast]; exact Rep.pow p hp0 _
      have g2 : Mul (-(3 * p)) ((2 : ℚ) ^ ((i + 1) / 2 + 1)) := by rw [← zpow_natCast]; exact Mul.pow (by omega)
      have g3 : |(2 : ℚ) ^ ((i + 1) / 2 + 1)| ≤ 2 ^ (p : Int) := pow_le_p (by omega)
      rw [if_pos (by simpa using h), ← pow_succ, hw _ g1 g2 g3, hr _ g1 g2 g3]
      congr 1; omega
    · rw [if_neg (by simpa using h)]
      congr 1; omega
  have e3 : rd (w (1 + 2 ^ (-(i + 1 : Nat) : Int))) = if p ≤ i + 1 then 1 else 1 + 2 ^ (-(i + 1 : Nat) : Int) := by
    split_ifs with h
    · rw [show i + 1 = p by omega]; exact h1
    · have g2 : Mul (-(i + 1 : Nat)) (1 + (2 : ℚ) ^ (-(i + 1 : Nat) : Int)) := by
        refine Mul.add ?_ (Mul.self _)
        simpa using Mul.pow (k := 0) (l := -(i + 1 : Nat)) (by omega)
      have g4 : |1 + (2 : ℚ) ^ (-(i + 1 : Nat) : Int)| ≤ 2 ^ (1 : Int) := by
        rw [abs_of_pos (by linarith)]
        rw [zpow_zero] at hle
        rw [zpow_one]
        linarith
      have g1 : Rep p (1 + (2 : ℚ) ^ (-(i + 1 : Nat) : Int)) := Rep.of_le g2 (g4.trans (FP.two_zpow_le (by omega))) hp0
      have g3 := g4.trans (FP.two_zpow_le (show (1 : Int) ≤ p by omega))
      rw [hw _ g1 (g2.mono (by omega)) g3, hr _ g1 (g2.mono (by omega)) g3]
  have e4 : (!(i % 2 == 0)) = ((i + 1) % 2 == 0) := by
    rcases Nat.mod_two_eq_zero_or_one i with h | h
    · have h' : (i + 1) % 2 = 1 := by omega
      simp [h, h']
    · have h' : (i + 1) % 2 = 0 := by omega
      simp [h, h']
  have hdbl : (2 : ℚ) ^ (-i : Int) = 2 * 2 ^ (-(i + 1 : Nat) : Int) := by rw [← FP.two_zpow_succ]; congr 1; push_cast; ring
  unfold initRound st
  simp only [e1, e2, e3, e4]
  congr 1
  · simp
  · rw [decide_eq_decide]
    by_cases h : p ≤ i + 1
    · rw [if_pos h]; simp; omega
    · rw [if_neg h]
      constructor
      · intro _; omega
      · intro _
        refine ⟨by linarith, ?_⟩
        split_ifs with h2
        · linarith
        · linarith

private theorem initLoop_st (hp : 2 ≤ p) (hr : Fix p rd) (hw : Fix p w) (h1 : rd (w (1 + 2 ^ (-p : Int))) = 1) : ∀ (n i fuel : Nat),
    i + n + 1 = p → n < fuel → initLoop rd w fuel (st p i) = .done (st p p) := by
  intro n
  induction n with
  | zero =>
    intro i fuel h hf
    obtain ⟨fuel, rfl⟩ : ∃ f, fuel = f + 1 := ⟨fuel - 1, by omega⟩
    rw [initLoop, initRound_st hp hr hw h1 (by omega)]
    have : i + 1 = p := by omega
    simp [this]
  | succ n ih =>
    intro i fuel h hf
    obtain ⟨fuel, rfl⟩ : ∃ f, fuel = f + 1 := ⟨fuel - 1, by omega⟩
    rw [initLoop, initRound_st hp hr hw h1 (by omega)]
    have : i + 1 < p := by omega
    simp only [this, decide_true, if_true]
    exact ih (i + 1) fuel (by omega) (by omega)

private theorem bound_exact (j : Nat) (hp : 11 ≤ p) (hr : Fix p rd) (hw : Fix p w) {a b : Nat} (c : Nat) (hj : j ≤ p) (hb : b = c * 2 ^ j) (ha : a + 1 ≤ 2 ^ j)
    (hbp : b ≤ 2 ^ p) :
    bound1 rd w (2 ^ (-p : Int)) a b = (a + b * 2 ^ (-p : Int)) * 2 ^ (-p : Int) ∧
    bound2 rd w (2 ^ (-p : Int)) a b = (a + b * 2 ^ (-p : Int)) * (2 ^ (-p : Int)) ^ 2 := by
  have hp0 : 0 < p := by omega
  have hP : (2 : ℚ) ^ (-p : Int) * 2 ^ p = 1 := by
    rw [← zpow_natCast, ← zpow_add₀ (by norm_num)]; simp
  have hpos := FP.two_zpow_pos (-p : Int)
  have hb' : (b : ℚ) ≤ 2 ^ p := by exact_mod_cast hbp
  have hbe : (b : ℚ) * 2 ^ (-p : Int) ≤ 1 := by nlinarith
  have hb0 : (0 : ℚ) ≤ b * 2 ^ (-p : Int) := by positivity
  have hpp : (1 : ℚ) ≤ 2 ^ (p : Int) := by
    have := FP.two_zpow_le (show (0 : Int) ≤ p by omega)
    rwa [zpow_zero] at this
  have k1 : Mul (-p) ((b : ℚ) * 2 ^ (-p : Int)) := ⟨b, by push_cast; ring⟩
  have h1 : w (b * 2 ^ (-p : Int)) = b * 2 ^ (-p : Int) := by
    refine hw _ (Rep.of_le k1 ?_ hp0) (k1.mono (by omega)) ?_
    · rw [abs_of_nonneg hb0]
      simpa using hbe
    · rw [abs_of_nonneg hb0]
      linarith
  have hs : (a : ℚ) + b * 2 ^ (-p : Int) ≤ 2 ^ (j : Int) := by
    have : (a : ℚ) + 1 ≤ 2 ^ j := by exact_mod_cast ha
    rw [zpow_natCast]
    linarith
  have hj' : (2 : ℚ) ^ (j : Int) ≤ 2 ^ (p : Int) := FP.two_zpow_le (by omega)
  have hrp : Rep p (a + b * 2 ^ (-p : Int)) := by
    refine Rep.of_le (k := j - p) ?_ ?_ hp0
    · refine Mul.add ?_ ⟨c, ?_⟩
      · exact (show Mul 0 (a : ℚ) from ⟨a, by simp⟩).mono (by omega)
      · rw [hb, zpow_sub₀ (by norm_num), zpow_neg]; push_cast; simp only [zpow_natCast]; ring
    · rw [abs_of_nonneg (by positivity), sub_add_cancel]
      exact hs
  have k2 : Mul (-p) ((a : ℚ) + b * 2 ^ (-p : Int)) := ((show Mul 0 (a : ℚ) from ⟨a, by simp⟩).mono (by omega)).add k1
  have k3 := k2.mul (Mul.self (-p))
  have k4 := k3.mul (Mul.self (-p))
  have g2 : |(a : ℚ) + b * 2 ^ (-p : Int)| ≤ 2 ^ (p : Int) := by
    rw [abs_of_nonneg (by positivity)]; linarith
  have hle1 : (2 : ℚ) ^ (-p : Int) ≤ 1 := by
    have := FP.two_zpow_le (show (-p : Int) ≤ 0 by omega)
    rwa [zpow_zero] at this
  have g3 : |((a : ℚ) + b * 2 ^ (-p : Int)) * 2 ^ (-p : Int)| ≤ 2 ^ (p : Int) := by
    rw [abs_mul, abs_of_pos hpos]
    exact (mul_le_of_le_one_right (abs_nonneg _) hle1).trans g2
  have g4 : |((a : ℚ) + b * 2 ^ (-p : Int)) * 2 ^ (-p : Int) * 2 ^ (-p : Int)| ≤ 2 ^ (p : Int) := by
    rw [abs_mul, abs_of_pos hpos]
    exact (mul_le_of_le_one_right (abs_nonneg _) hle1).trans g3
  simp only [bound1, bound2, h1, hw _ hrp (k2.mono (by omega)) g2, hw _ (hrp.scale _) (k3.mono (by omega)) g3,
    hr _ (hrp.scale _) (k3.mono (by omega)) g3, hw _ ((hrp.scale _).scale _) (k4.mono (by omega)) g4,
    hr _ ((hrp.scale _).scale _) (k4.mono (by omega)) g4, true_and]
  ring

/-- The constructor computes the same constants as with unbounded exponents. -/
theorem init_eq (hp : 11 ≤ p) (hr : Fix p rd) (hw : Fix p w) (h1 : rd (w (1 + 2 ^ (-p : Int))) = 1) {c : Consts} (hc : Returns (FP.init p) c) :
    Returns (init rd w) c := by
  obtain ⟨c', h, g0, g1, g2, g3, g4, g5, g6, g7, g8, g9, g10, g11, g12, g13, g14⟩ := FP.C89_constants hp
  have : c = c' := hc.unique h
  subst this
  have h0 : st p 0 = ⟨1, 1, true, 1⟩ := by simp [st]
  have hp0 : 0 < p := by omega
  have hbig : 2048 ≤ 2 ^ p := by
    calc 2048 = 2 ^ 11 := by norm_num
      _ ≤ 2 ^ p := Nat.pow_le_pow_right (by norm_num) hp
  have hs : rd (w ((2 : ℚ) ^ ((p + 1) / 2) + 1)) = 2 ^ ((p + 1) / 2) + 1 := by
    have k : Mul 0 ((2 : ℚ) ^ ((p + 1) / 2) + 1) := ⟨2 ^ ((p + 1) / 2) + 1, by push_cast; simp⟩
    have h3 : |(2 : ℚ) ^ ((p + 1) / 2) + 1| ≤ 2 ^ (p : Int) := by
      rw [abs_of_pos (by positivity), zpow_natCast]
      have h1 : (2 : ℚ) ^ ((p + 1) / 2 + 1) ≤ 2 ^ p := pow_le_pow_right₀ (by norm_num) (by omega)
      have h2 : (1 : ℚ) ≤ 2 ^ ((p + 1) / 2) := one_le_pow₀ (by norm_num)
      rw [pow_succ] at h1
      linarith
    have h4 : Rep p ((2 : ℚ) ^ ((p + 1) / 2) + 1) := Rep.of_le k (by simpa using h3) hp0
    rw [hw _ h4 (k.mono (by omega)) h3, hr _ h4 (k.mono (by omega)) h3]
  refine ⟨p, fun fuel hf => ?_⟩
  rw [init, ← h0, initLoop_st (by omega) hr hw h1 (p - 1) 0 fuel (by omega) (by omega)]
  simp only [Res.bind_done, st]
  rw [hs, (bound_exact 3 hp hr hw (a := 3) (b := 8) 1 (by omega) (by norm_num) (by norm_num) (by omega)).1,
    (bound_exact 4 hp hr hw (a := 3) (b := 16) 1 (by omega) (by norm_num) (by norm_num) (by omega)).1,
    (bound_exact 2 hp hr hw (a := 2) (b := 12) 3 (by omega) (by norm_num) (by norm_num) (by omega)).1,
    (bound_exact 4 hp hr hw (a := 9) (b := 64) 4 (by omega) (by norm_num) (by norm_num) (by omega)).2,
    (bound_exact 3 hp hr hw (a := 7) (b := 56) 7 (by omega) (by norm_num) (by norm_num) (by omega)).1,
    (bound_exact 2 hp hr hw (a := 3) (b := 28) 7 (by omega) (by norm_num) (by norm_num) (by omega)).1,
    (bound_exact 5 hp hr hw (a := 26) (b := 288) 9 (by omega) (by norm_num) (by norm_num) (by omega)).2,
    (bound_exact 4 hp hr hw (a := 10) (b := 96) 6 (by omega) (by norm_num) (by norm_num) (by omega)).1,
    (bound_exact 3 hp hr hw (a := 4) (b := 48) 6 (by omega) (by norm_num) (by norm_num) (by omega)).1,
    (bound_exact 6 hp hr hw (a := 44) (b := 576) 9 (by omega) (by norm_num) (by norm_num) (by omega)).2,
    (bound_exact 5 hp hr hw (a := 16) (b := 224) 7 (by omega) (by norm_num) (by norm_num) (by omega)).1,
    (bound_exact 3 hp hr hw (a := 5) (b := 72) 9 (by omega) (by norm_num) (by norm_num) (by omega)).1,
    (bound_exact 7 hp hr hw (a := 71) (b := 1408) 11 (by omega) (by norm_num) (by norm_num) (by omega)).2]
  obtain ⟨c0, c1, c2, c3, c4, c5, c6, c7, c8, c9, c10, c11, c12, c13, c14⟩ := c
  dsimp only at g0 g1 g2 g3 g4 g5 g6 g7 g8 g9 g10 g11 g12 g13 g14
  subst g0
  subst g1 g2 g3 g4 g5 g6 g7 g8 g9 g10 g11 g12 g13 g14
  push_cast
  rfl

end

end FPM
end Verif
