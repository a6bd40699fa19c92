import Verif.Lemmas.EFT

/-!
# Error-free transformations and the constants of the predicates (C88, C89)
-/
namespace Verif
namespace FP

/-- `x` is a floating point number with `p` digits: `m * 2 ^ k` with `|m| < 2 ^ p`. -/
def IsFloat (p : Nat) (x : ℚ) : Prop := ∃ m k : Int, |m| < 2 ^ p ∧ x = m * 2 ^ k

theorem isFloat_iff {p : Nat} {x : ℚ} : IsFloat p x ↔ Rep p x := by
  have key : ∀ m k : Int, |m| < 2 ^ p ↔ |(m : ℚ) * 2 ^ k| < 2 ^ (k + p) := by
    intro m k
    rw [abs_mul, abs_of_pos (two_zpow_pos k), zpow_add_nat, mul_comm, mul_lt_mul_iff_right₀ (two_zpow_pos k)]
    constructor
    · intro h; exact_mod_cast h
    · intro h; exact_mod_cast h
  constructor
  · rintro ⟨m, k, h, rfl⟩
    exact ⟨k, ⟨m, rfl⟩, (key m k).mp h⟩
  · rintro ⟨k, ⟨m, rfl⟩, h⟩
    exact ⟨m, k, (key m k).mpr h, rfl⟩

/-- `y` is `x` rounded to `p` digits, to nearest: it is a floating point number and none is nearer. -/
def IsNearest (p : Nat) (x y : ℚ) : Prop := IsFloat p y ∧ ∀ z, IsFloat p z → |y - x| ≤ |z - x|

/-- The model of rounding yields a nearest floating point number; if there are two, the one whose last digit is zero. -/
theorem C88_rounding {p : Nat} (hp : 0 < p) (x : ℚ) :
    IsNearest p x (rnd p x) ∧
    ∀ z, IsFloat p z → z ≠ rnd p x → |z - x| = |rnd p x - x| →
      ∃ m k : Int, Even m ∧ 2 ^ (p - 1) ≤ |m| ∧ |m| ≤ 2 ^ p ∧ rnd p x = m * 2 ^ k := by
  refine ⟨⟨isFloat_iff.mpr (rep_rnd hp x), fun z hz => rnd_nearest hp x (isFloat_iff.mp hz)⟩, ?_⟩
  intro z hz hne htie
  rw [isFloat_iff] at hz
  have h0 : x ≠ 0 := by
    rintro rfl
    rw [rnd_zero] at htie hne
    simp at htie
    exact hne htie
  have hg := grid_spec p h0
  have hm : Mul (grid p x) z := by
    by_contra hm
    have hsmall : |z| < 2 ^ (grid p x + p - 1) := by
      obtain ⟨k, h1, h2⟩ := hz
      have : k < grid p x := by
        by_contra hc
        exact hm (h1.mono (not_lt.mp hc))
      exact lt_of_lt_of_le h2 (two_zpow_le (by omega))
    rcases lt_or_gt_of_ne h0 with hneg | hpos
    · have h1 := rnd_nearest hp x (Rep.pow p hp (grid p x + p - 1)).neg
      rw [← htie] at h1
      rw [abs_of_neg hneg] at hg
      rw [abs_lt] at hsmall
      rw [abs_of_nonneg (by linarith [hg.1, hsmall.1]), abs_of_nonneg (by linarith [hg.1])] at h1
      linarith [hsmall.1]
    · have h1 := rnd_nearest hp x (Rep.pow p hp (grid p x + p - 1))
      rw [← htie] at h1
      rw [abs_of_pos hpos] at hg
      rw [abs_lt] at hsmall
      rw [abs_of_nonpos (by linarith [hg.1, hsmall.2]), abs_of_nonpos (by linarith [hg.1])] at h1
      linarith [hsmall.2]
  have h1 := (hm.sub (rnd_mul_grid p x)).le_abs (sub_ne_zero.mpr hne)
  have h2 := rnd_err p x
  have h3 : |z - rnd p x| ≤ |z - x| + |rnd p x - x| := by
    have := abs_sub_le z x (rnd p x)
    rwa [abs_sub_comm x] at this
  obtain ⟨m, hm⟩ := rnd_tie p x (by linarith)
  have hx1 := le_abs_rnd hp (Rep.pow p hp _) hg.1
  have hx2 := abs_rnd_le hp (Rep.pow p hp _) hg.2.le
  have e : rnd p x = ((2 * m : Int) : ℚ) * 2 ^ grid p x := by rw [hm, two_zpow_succ]; push_cast; ring
  rw [e, abs_mul, abs_of_pos (two_zpow_pos _)] at hx1 hx2
  refine ⟨2 * m, grid p x, even_two_mul m, ?_, ?_, e⟩
  · rw [show grid p x + p - 1 = grid p x + ((p - 1 : Nat) : Int) by omega, zpow_add_nat, mul_comm] at hx1
    have := le_of_mul_le_mul_right hx1 (two_zpow_pos _)
    exact_mod_cast this
  · rw [zpow_add_nat, mul_comm (2 ^ grid p x)] at hx2
    have := le_of_mul_le_mul_right hx2 (two_zpow_pos _)
    exact_mod_cast this

/-- `Two_Sum` and `Two_Diff` split the exact result into the rounded result and a floating point number. -/
theorem C88_sum {p : Nat} (hp : 2 ≤ p) {a b : ℚ} (ha : IsFloat p a) (hb : IsFloat p b) :
    (twoSum p a b).1 = rnd p (a + b) ∧ (twoSum p a b).1 + (twoSum p a b).2 = a + b ∧ IsFloat p (twoSum p a b).2 ∧
    (twoDiff p a b).1 = rnd p (a - b) ∧ (twoDiff p a b).1 + (twoDiff p a b).2 = a - b ∧ IsFloat p (twoDiff p a b).2 := by
  rw [isFloat_iff] at ha hb
  have h := sum_err_rep (show 0 < p by omega) ha hb.neg
  rw [← sub_eq_add_neg] at h
  rw [twoSum_eq hp ha hb, twoDiff_eq hp ha hb, isFloat_iff, isFloat_iff]
  exact ⟨rfl, by ring, sum_err_rep (by omega) ha hb, rfl, by ring, h⟩

example : twoSum 53 1 (1 / 2 ^ 60) = (1, 1 / 2 ^ 60) := by decide +kernel

/-- So does `Fast_Two_Sum` if the first summand is not smaller than the second. -/
theorem C88_fast_sum {p : Nat} (hp : 1 ≤ p) {a b : ℚ} (ha : IsFloat p a) (hb : IsFloat p b) (hab : |b| ≤ |a|) :
    (fastTwoSum p a b).1 = rnd p (a + b) ∧ (fastTwoSum p a b).1 + (fastTwoSum p a b).2 = a + b ∧
    IsFloat p (fastTwoSum p a b).2 := by
  rw [isFloat_iff] at ha hb
  rw [fastTwoSum_eq hp ha hb (.inl hab), isFloat_iff]
  exact ⟨rfl, by ring, sum_err_rep (by omega) ha hb⟩

example : (fastTwoSum 53 3 1).1 + (fastTwoSum 53 3 1).2 = 4 := by
  rw [(C88_fast_sum (p := 53) (by norm_num) (a := 3) (b := 1) ⟨3, 0, by norm_num, by norm_num⟩ ⟨1, 0, by norm_num, by norm_num⟩
    (by norm_num)).2.1]
  norm_num

/-- `Split` cuts a number into a part whose lower half is empty and a part that fills less than the lower half. -/
theorem C88_split {p : Nat} (hp : 3 ≤ p) {a : ℚ} (ha : IsFloat p a) :
    let r := split p (2 ^ ((p + 1) / 2) + 1) a
    r.1 + r.2 = a ∧ IsFloat (p / 2) r.1 ∧ IsFloat ((p + 1) / 2 - 1) r.2 := by
  rw [isFloat_iff] at ha
  obtain ⟨k, a1, a2, a3, a4, a5, a6, a7, a8⟩ := split_spec hp ha
  refine ⟨a4, ?_, ?_⟩
  · rw [isFloat_iff]
    refine Rep.of_le a5 ?_ (by omega)
    rw [show k + (half p : Int) + (p / 2 : Nat) = k + p by unfold half; omega]
    exact a6
  · rw [isFloat_iff]
    refine Rep.of_le a7 ?_ (by omega)
    rw [show k + (((p + 1) / 2 - 1 : Nat) : Int) = k + half p - 1 by unfold half; omega]
    exact a8

example : let r := split 53 (2 ^ 27 + 1) (2 ^ 53 - 1); r.1 + r.2 = 2 ^ 53 - 1 :=
  (C88_split (p := 53) (by norm_num) (a := 2 ^ 53 - 1) ⟨2 ^ 53 - 1, 0, by norm_num, by norm_num⟩).1

/-- `Two_Product` and `Square` split the exact product into the rounded product and a floating point number. -/
theorem C88_product {p : Nat} (hp : 4 ≤ p) {a b : ℚ} (ha : IsFloat p a) (hb : IsFloat p b) :
    let r := twoProduct p (2 ^ ((p + 1) / 2) + 1) a b
    let q := square p (2 ^ ((p + 1) / 2) + 1) a
    r.1 = rnd p (a * b) ∧ r.1 + r.2 = a * b ∧ IsFloat p r.2 ∧ q.1 = rnd p (a * a) ∧ q.1 + q.2 = a * a ∧ IsFloat p q.2 := by
  rw [isFloat_iff] at ha hb
  have e1 := twoProduct_eq hp ha hb
  have e2 := square_eq hp ha
  unfold half at e1 e2
  rw [e1, e2]
  dsimp only
  rw [isFloat_iff, isFloat_iff]
  exact ⟨rfl, by ring, prod_err_rep (by omega) ha hb, rfl, by ring, prod_err_rep (by omega) ha ha⟩

example : let r := twoProduct 24 (2 ^ 12 + 1) 16777215 16777213; r.1 + r.2 = 16777215 * 16777213 :=
  (C88_product (p := 24) (by norm_num) (a := 16777215) (b := 16777213) ⟨16777215, 0, by norm_num, by norm_num⟩
    ⟨16777213, 0, by norm_num, by norm_num⟩).2.1

/-! ### Constants -/

/-- State of the loop after `i` rounds. -/
private def st (p i : Nat) : InitSt :=
  ⟨2 ^ (-i : Int), 2 ^ ((i + 1) / 2), i % 2 == 0, if i = 0 ∨ p ≤ i then 1 else 1 + 2 ^ (-i : Int)⟩

theorem rnd_one_add {p i : Nat} (hp : 2 ≤ p) (hi : i ≤ p) (hi0 : 0 < i) :
    rnd p (1 + 2 ^ (-i : Int)) = if p ≤ i then 1 else 1 + 2 ^ (-i : Int) := by
  have hp0 : 0 < p := by omega
  have h1 : (2 : ℚ) ^ (-i : Int) < 1 := by
    have := two_zpow_lt (show (-i : Int) < 0 by omega)
    rwa [zpow_zero] at this
  have h1' := two_zpow_pos (-i : Int)
  split_ifs with h
  · have hip : i = p := by omega
    subst hip
    have h0 : (1 : ℚ) + 2 ^ (-i : Int) ≠ 0 := by linarith
    have hg : grid i (1 + 2 ^ (-i : Int)) = 1 - i := by
      apply le_antisymm
      · refine grid_le h0 ?_
        rw [abs_of_pos (by linarith), show (1 - (i : Int) + i) = 1 by ring, zpow_one]; linarith
      · refine le_grid ?_
        rw [abs_of_pos (by linarith), show (1 - (i : Int) + i - 1) = 0 by ring, zpow_zero]; linarith
    have hgr : (2 : ℚ) ^ (1 - i : Int) = 2 * 2 ^ (-i : Int) := by rw [← two_zpow_succ]; congr 1; ring
    have he := rnd_err i (1 + 2 ^ (-i : Int))
    have hm := rnd_mul_grid i (1 + 2 ^ (-i : Int))
    rw [hg] at he hm
    have hle : 1 ≤ rnd i (1 + 2 ^ (-i : Int)) := le_rnd hp0 (by simpa using Rep.pow i hp0 0) (by linarith)
    by_contra hne
    have hlt : (1 : ℚ) < rnd i (1 + 2 ^ (-i : Int)) := lt_of_le_of_ne hle (Ne.symm hne)
    have hone : Mul (1 - i) 1 := by simpa using Mul.pow (k := 0) (l := 1 - i) (by omega)
    have h2 := Mul.le_sub hone hm hlt
    have htie : |rnd i (1 + 2 ^ (-i : Int)) - (1 + 2 ^ (-i : Int))| = 2 ^ (1 - i : Int) / 2 := by
      apply le_antisymm he
      rw [abs_of_nonneg (by linarith)]; linarith
    have hm2 := rnd_tie i _ (by rw [hg]; exact htie)
    rw [hg] at hm2
    have hone2 : Mul (1 - i + 1) 1 := by simpa using Mul.pow (k := 0) (l := 1 - i + 1) (by omega)
    have h3 := Mul.le_sub hone2 hm2 hlt
    rw [two_zpow_succ] at h3
    rw [abs_le] at he
    linarith [he.2]
  · refine rnd_of_mul hp0 (k := -i) ?_ ?_
    · refine Mul.add ?_ (Mul.self _)
      simpa using Mul.pow (k := 0) (l := -i) (by omega)
    · rw [abs_of_pos (by linarith)]
      have h2 := two_zpow_le (show (1 : Int) ≤ -i + p by omega)
      rw [zpow_one] at h2
      linarith

private theorem initRound_st {p i : Nat} (hp : 2 ≤ p) (hi : i < p) :
    initRound p (st p i) = (st p (i + 1), decide (i + 1 < p)) := by
  have hp0 : 0 < p := by omega
  have e1 : rnd p ((2 : ℚ) ^ (-i : Int) * (1 / 2)) = 2 ^ (-(i + 1 : Nat) : Int) := by
    have : (2 : ℚ) ^ (-i : Int) * (1 / 2) = 2 ^ (-(i + 1 : Nat) : Int) := by
      rw [show (-i : Int) = -(i + 1 : Nat) + 1 by push_cast; ring, two_zpow_succ]; ring
    rw [this, rnd_rep (Rep.pow p hp0 _)]
  have e2 : (if (i % 2 == 0) = true then rnd p ((2 : ℚ) ^ ((i + 1) / 2) * 2) else 2 ^ ((i + 1) / 2)) = 2 ^ ((i + 1 + 1) / 2) := by
    by_cases h : i % 2 = 0
    · rw [if_pos (by simpa using h), ← pow_succ, ← zpow_natCast, rnd_rep (Rep.pow p hp0 _), zpow_natCast]
      congr 1; omega
    · rw [if_neg (by simpa using h)]
      congr 1; omega
  have e3 := rnd_one_add hp (show i + 1 ≤ p by omega) (by omega)
  have e4 : (!(i % 2 == 0)) = ((i + 1) % 2 == 0) := by
    rcases Nat.mod_two_eq_zero_or_one i with h | h
    · have h' : (i + 1) % 2 = 1 := by omega
      simp [h, h']
    · have h' : (i + 1) % 2 = 0 := by omega
      simp [h, h']
  have hpos := two_zpow_pos (-(i + 1 : Nat) : Int)
  have hdbl : (2 : ℚ) ^ (-i : Int) = 2 * 2 ^ (-(i + 1 : Nat) : Int) := by rw [← two_zpow_succ]; congr 1; push_cast; ring
  unfold initRound st
  simp only [e1, e2, e3, e4]
  congr 1
  · simp
  · rw [decide_eq_decide]
    by_cases h : p ≤ i + 1
    · rw [if_pos h]; simp; omega
    · rw [if_neg h]
      constructor
      · intro _; omega
      · intro _
        refine ⟨by linarith, ?_⟩
        split_ifs with h2
        · linarith
        · linarith

private theorem initLoop_st {p : Nat} (hp : 2 ≤ p) : ∀ (n i fuel : Nat), i + n + 1 = p → n < fuel → initLoop p fuel (st p i) = .done (st p p) := by
  intro n
  induction n with
  | zero =>
    intro i fuel h hf
    obtain ⟨fuel, rfl⟩ : ∃ f, fuel = f + 1 := ⟨fuel - 1, by omega⟩
    rw [initLoop, initRound_st hp (by omega)]
    have : i + 1 = p := by omega
    simp [this]
  | succ n ih =>
    intro i fuel h hf
    obtain ⟨fuel, rfl⟩ : ∃ f, fuel = f + 1 := ⟨fuel - 1, by omega⟩
    rw [initLoop, initRound_st hp (by omega)]
    have : i + 1 < p := by omega
    simp only [this, decide_true, if_true]
    exact ih (i + 1) fuel (by omega) (by omega)

private theorem bound_exact {p : Nat} (j : Nat) (hp : 0 < p) {a b : Nat} (c : Nat) (hj : j ≤ p) (hb : b = c * 2 ^ j) (ha : a + 1 ≤ 2 ^ j)
    (hbp : b ≤ 2 ^ p) :
    bound1 p (2 ^ (-p : Int)) a b = (a + b * 2 ^ (-p : Int)) * 2 ^ (-p : Int) ∧
    bound2 p (2 ^ (-p : Int)) a b = (a + b * 2 ^ (-p : Int)) * 2 ^ (-p : Int) * 2 ^ (-p : Int) := by
  have hP : (2 : ℚ) ^ (-p : Int) * 2 ^ p = 1 := by
    rw [← zpow_natCast, ← zpow_add₀ (by norm_num)]; simp
  have hpos := two_zpow_pos (-p : Int)
  have hb' : (b : ℚ) ≤ 2 ^ p := by exact_mod_cast hbp
  have hbe : (b : ℚ) * 2 ^ (-p : Int) ≤ 1 := by nlinarith
  have hb0 : (0 : ℚ) ≤ b * 2 ^ (-p : Int) := by positivity
  have h1 : rnd p (b * 2 ^ (-p : Int)) = b * 2 ^ (-p : Int) := by
    refine rnd_of_mul hp (k := -p) ⟨b, by push_cast; ring⟩ ?_
    rw [abs_of_nonneg hb0]
    simpa using hbe
  have hr : Rep p (a + b * 2 ^ (-p : Int)) := by
    refine Rep.of_le (k := j - p) ?_ ?_ hp
    · refine Mul.add ?_ ⟨c, ?_⟩
      · exact (show Mul 0 (a : ℚ) from ⟨a, by simp⟩).mono (by omega)
      · rw [hb, zpow_sub₀ (by norm_num), zpow_neg]; push_cast; simp only [zpow_natCast]; ring
    · rw [abs_of_nonneg (by positivity), sub_add_cancel, zpow_natCast]
      have : (a : ℚ) + 1 ≤ 2 ^ j := by exact_mod_cast ha
      linarith
  simp only [bound1, bound2, h1, rnd_rep hr, rnd_rep (hr.scale _), rnd_rep ((hr.scale _).scale _), and_self]

/-- The constructor ends. `epsilon` is half a unit in the last place of one, `splitter` is a power of two with half as many digits as
the mantissa, plus one, and the error bounds are those of the formulas, without rounding errors. -/
theorem C89_constants {p : Nat} (hp : 11 ≤ p) : ∃ c : Consts, Returns (init p) c ∧
    c.epsilon = 2 ^ (-p : Int) ∧ c.splitter = 2 ^ ((p + 1) / 2) + 1 ∧
    c.resulterrbound = (3 + 8 * c.epsilon) * c.epsilon ∧
    c.ccwerrboundA = (3 + 16 * c.epsilon) * c.epsilon ∧
    c.ccwerrboundB = (2 + 12 * c.epsilon) * c.epsilon ∧
    c.ccwerrboundC = (9 + 64 * c.epsilon) * c.epsilon ^ 2 ∧
    c.o3derrboundA = (7 + 56 * c.epsilon) * c.epsilon ∧
    c.o3derrboundB = (3 + 28 * c.epsilon) * c.epsilon ∧
    c.o3derrboundC = (26 + 288 * c.epsilon) * c.epsilon ^ 2 ∧
    c.iccerrboundA = (10 + 96 * c.epsilon) * c.epsilon ∧
    c.iccerrboundB = (4 + 48 * c.epsilon) * c.epsilon ∧
    c.iccerrboundC = (44 + 576 * c.epsilon) * c.epsilon ^ 2 ∧
    c.isperrboundA = (16 + 224 * c.epsilon) * c.epsilon ∧
    c.isperrboundB = (5 + 72 * c.epsilon) * c.epsilon ∧
    c.isperrboundC = (71 + 1408 * c.epsilon) * c.epsilon ^ 2 := by
  have h0 : st p 0 = ⟨1, 1, true, 1⟩ := by simp [st]
  have hp0 : 0 < p := by omega
  have hs : rnd p ((2 : ℚ) ^ ((p + 1) / 2) + 1) = 2 ^ ((p + 1) / 2) + 1 := by
    refine rnd_of_mul hp0 (k := 0) ⟨2 ^ ((p + 1) / 2) + 1, by push_cast; simp⟩ ?_
    rw [abs_of_pos (by positivity), zero_add, zpow_natCast]
    have h1 : (2 : ℚ) ^ ((p + 1) / 2 + 1) ≤ 2 ^ p := pow_le_pow_right₀ (by norm_num) (by omega)
    have h2 : (1 : ℚ) ≤ 2 ^ ((p + 1) / 2) := one_le_pow₀ (by norm_num)
    rw [pow_succ] at h1
    linarith
  have hbig : 2048 ≤ 2 ^ p := by
    calc 2048 = 2 ^ 11 := by norm_num
      _ ≤ 2 ^ p := Nat.pow_le_pow_right (by norm_num) hp
  refine ⟨
    { epsilon := 2 ^ (-p : Int)
      splitter := rnd p (2 ^ ((p + 1) / 2) + 1)
      resulterrbound := bound1 p (2 ^ (-p : Int)) 3 8
      ccwerrboundA := bound1 p (2 ^ (-p : Int)) 3 16
      ccwerrboundB := bound1 p (2 ^ (-p : Int)) 2 12
      ccwerrboundC := bound2 p (2 ^ (-p : Int)) 9 64
      o3derrboundA := bound1 p (2 ^ (-p : Int)) 7 56
      o3derrboundB := bound1 p (2 ^ (-p : Int)) 3 28
      o3derrboundC := bound2 p (2 ^ (-p : Int)) 26 288
      iccerrboundA := bound1 p (2 ^ (-p : Int)) 10 96
      iccerrboundB := bound1 p (2 ^ (-p : Int)) 4 48
      iccerrboundC := bound2 p (2 ^ (-p : Int)) 44 576
      isperrboundA := bound1 p (2 ^ (-p : Int)) 16 224
      isperrboundB := bound1 p (2 ^ (-p : Int)) 5 72
      isperrboundC := bound2 p (2 ^ (-p : Int)) 71 1408 }, ⟨p, fun fuel hf => ?_⟩, ?_⟩
  · rw [init, ← h0, initLoop_st (by omega) (p - 1) 0 fuel (by omega) (by omega)]
    simp only [Res.bind_done, st]
  · dsimp only
    rw [hs, (bound_exact 3 hp0 (a := 3) (b := 8) 1 (by omega) (by norm_num) (by norm_num) (by omega)).1,
      (bound_exact 4 hp0 (a := 3) (b := 16) 1 (by omega) (by norm_num) (by norm_num) (by omega)).1,
      (bound_exact 2 hp0 (a := 2) (b := 12) 3 (by omega) (by norm_num) (by norm_num) (by omega)).1,
      (bound_exact 4 hp0 (a := 9) (b := 64) 4 (by omega) (by norm_num) (by norm_num) (by omega)).2,
      (bound_exact 3 hp0 (a := 7) (b := 56) 7 (by omega) (by norm_num) (by norm_num) (by omega)).1,
      (bound_exact 2 hp0 (a := 3) (b := 28) 7 (by omega) (by norm_num) (by norm_num) (by omega)).1,
      (bound_exact 5 hp0 (a := 26) (b := 288) 9 (by omega) (by norm_num) (by norm_num) (by omega)).2,
      (bound_exact 4 hp0 (a := 10) (b := 96) 6 (by omega) (by norm_num) (by norm_num) (by omega)).1,
      (bound_exact 3 hp0 (a := 4) (b := 48) 6 (by omega) (by norm_num) (by norm_num) (by omega)).1,
      (bound_exact 6 hp0 (a := 44) (b := 576) 9 (by omega) (by norm_num) (by norm_num) (by omega)).2,
      (bound_exact 5 hp0 (a := 16) (b := 224) 7 (by omega) (by norm_num) (by norm_num) (by omega)).1,
      (bound_exact 3 hp0 (a := 5) (b := 72) 9 (by omega) (by norm_num) (by norm_num) (by omega)).1,
      (bound_exact 7 hp0 (a := 71) (b := 1408) 11 (by omega) (by norm_num) (by norm_num) (by omega)).2]
    push_cast
    refine ⟨rfl, rfl, rfl, rfl, rfl, ?_, rfl, rfl, ?_, rfl, rfl, ?_, rfl, rfl, ?_⟩ <;> ring

example : ∃ c : Consts, Returns (init 53) c ∧ c.epsilon = 2 ^ (-53 : Int) ∧ c.splitter = 134217729 := by
  obtain ⟨c, h, h1, h2, _⟩ := C89_constants (p := 53) (by norm_num)
  exact ⟨c, h, by exact_mod_cast h1, by rw [h2]; norm_num⟩

end FP
end Verif
