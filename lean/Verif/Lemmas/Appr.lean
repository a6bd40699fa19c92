import Verif.Lemmas.Orient2

/-!
# Propagation of rounding errors
-/
namespace Verif
namespace FP

/-- `x` approximates `X`, a number of magnitude at most `M`, with the error of `n` roundings. -/
structure Appr (p : Nat) (x X M : ℚ) (n : Nat) : Prop where
  err : |x - X| ≤ ((1 + eps p) ^ n - 1) * M
  le : |X| ≤ M

theorem one_le_pow_eps (p n : Nat) : 1 ≤ (1 + eps p) ^ n := one_le_pow₀ (by linarith [eps_pos p])

theorem Appr.nonneg {p : Nat} {x X M : ℚ} {n : Nat} (h : Appr p x X M n) : 0 ≤ M := (abs_nonneg X).trans h.le

theorem Appr.abs_le {p : Nat} {x X M : ℚ} {n : Nat} (h : Appr p x X M n) : |x| ≤ (1 + eps p) ^ n * M := by
  have h1 : |x| ≤ |x - X| + |X| := by
    have := abs_add_le (x - X) X
    rwa [sub_add_cancel] at this
  linarith [h.err, h.le]

theorem Appr.refl (p : Nat) (X : ℚ) : Appr p X X |X| 0 := ⟨by simp, le_refl _⟩

theorem Appr.mono {p : Nat} {x X M : ℚ} {n m : Nat} (h : Appr p x X M n) (hm : n ≤ m) : Appr p x X M m := by
  refine ⟨h.err.trans ?_, h.le⟩
  have := pow_le_pow_right₀ (show 1 ≤ 1 + eps p by linarith [eps_pos p]) hm
  exact mul_le_mul_of_nonneg_right (by linarith) h.nonneg

theorem Appr.weaken {p : Nat} {x X M N : ℚ} {n : Nat} (h : Appr p x X M n) (hM : M ≤ N) : Appr p x X N n := by
  refine ⟨h.err.trans ?_, h.le.trans hM⟩
  exact mul_le_mul_of_nonneg_left hM (by linarith [one_le_pow_eps p n])

theorem Appr.rnd {p : Nat} {x X M : ℚ} {n : Nat} (h : Appr p x X M n) : Appr p (rnd p x) X M (n + 1) := by
  refine ⟨?_, h.le⟩
  have h1 := rnd_rel p x
  have h2 : |FP.rnd p x - X| ≤ |FP.rnd p x - x| + |x - X| := by
    have := abs_add_le (FP.rnd p x - x) (x - X)
    rwa [sub_add_sub_cancel] at this
  have h3 := mul_le_mul_of_nonneg_left h.abs_le (eps_pos p).le
  have h4 := h.err
  rw [pow_succ]
  linarith

theorem Appr.mul {p : Nat} {x X M y Y N : ℚ} {n m : Nat} (h : Appr p x X M n) (h' : Appr p y Y N m) :
    Appr p (x * y) (X * Y) (M * N) (n + m) := by
  have hM := h.nonneg
  have hN := h'.nonneg
  refine ⟨?_, by rw [abs_mul]; exact mul_le_mul h.le h'.le (abs_nonneg _) hM⟩
  have e : x * y - X * Y = (x - X) * y + X * (y - Y) := by ring
  rw [e]
  refine (abs_add_le _ _).trans ?_
  rw [abs_mul, abs_mul, pow_add]
  have h1 := mul_le_mul h.err h'.abs_le (abs_nonneg _) (mul_nonneg (by linarith [one_le_pow_eps p n]) hM)
  have h2 := mul_le_mul h.le h'.err (abs_nonneg _) hM
  linarith

theorem Appr.add {p : Nat} {x X M y Y N : ℚ} {n m : Nat} (h : Appr p x X M n) (h' : Appr p y Y N m) :
    Appr p (x + y) (X + Y) (M + N) (max n m) := by
  have h1 := h.mono (le_max_left n m)
  have h2 := h'.mono (le_max_right n m)
  refine ⟨?_, (abs_add_le X Y).trans (add_le_add h.le h'.le)⟩
  have e : x + y - (X + Y) = (x - X) + (y - Y) := by ring
  rw [e]
  refine (abs_add_le _ _).trans ?_
  linarith [h1.err, h2.err]

theorem Appr.neg {p : Nat} {x X M : ℚ} {n : Nat} (h : Appr p x X M n) : Appr p (-x) (-X) M n := by
  refine ⟨?_, by rw [abs_neg]; exact h.le⟩
  have : -x - -X = -(x - X) := by ring
  rw [this, abs_neg]; exact h.err

theorem Appr.sub {p : Nat} {x X M y Y N : ℚ} {n m : Nat} (h : Appr p x X M n) (h' : Appr p y Y N m) :
    Appr p (x - y) (X - Y) (M + N) (max n m) := by
  have := h.add h'.neg
  rwa [← sub_eq_add_neg, ← sub_eq_add_neg] at this

theorem Appr.two {p : Nat} {x X M : ℚ} {n : Nat} (h : Appr p x X M n) : Appr p (2 * x) (2 * X) (2 * M) n := by
  refine ⟨?_, by rw [abs_mul]; simpa using h.le⟩
  rw [← mul_sub, abs_mul]
  have := h.err
  norm_num
  linarith

/-- The approximated number may be replaced by its rounded value. -/
theorem Appr.base {p : Nat} (hp : 0 < p) {x y : ℚ} {n : Nat} (h : Appr p x y |y| n) : Appr p x (FP.rnd p y) |FP.rnd p y| (n + 1) := by
  refine ⟨?_, le_refl _⟩
  have h1 := rnd_rel' hp y
  have h2 := abs_le_rnd_mul hp y
  have h3 : |x - FP.rnd p y| ≤ |x - y| + |FP.rnd p y - y| := by
    have := abs_sub (x - y) (FP.rnd p y - y)
    rwa [sub_sub_sub_cancel_right] at this
  have h4 := mul_le_mul_of_nonneg_left h2 (show 0 ≤ (1 + eps p) ^ n - 1 by linarith [one_le_pow_eps p n])
  have h5 := h.err
  rw [pow_succ]
  linarith

theorem Appr.cast {p : Nat} {x X M x' X' M' : ℚ} {n n' : Nat} (h : Appr p x X M n) (hx : x = x') (hX : X = X') (hM : M = M') (hn : n ≤ n') :
    Appr p x' X' M' n' := by subst hx hX hM; exact h.mono hn

theorem Appr.of_tail {p : Nat} {x t : ℚ} (h : |t| ≤ eps p * |x|) : Appr p (x + t) x |x| 1 := by
  refine ⟨?_, le_refl _⟩
  simpa using h

theorem sign_rnd {p : Nat} (hp : 0 < p) (x : ℚ) : SignType.sign (FP.rnd p x) = SignType.sign x := by
  rcases lt_trichotomy x 0 with h | h | h
  · rw [sign_neg h, sign_neg (rnd_lt_zero hp h)]
  · rw [h, rnd_zero]
  · rw [sign_pos h, sign_pos (rnd_pos hp h)]

theorem pow_eps_le {e : ℚ} (he : 0 ≤ e) (n : Nat) (hn : n * e ≤ 1 / 16) : (1 + e) ^ n ≤ 1 + n * e + (n : ℚ) ^ 2 / 2 * e ^ 2 * (17 / 16) := by
  induction n with
  | zero => simp
  | succ n ih =>
    push_cast at hn ⊢
    have hn0 : (0 : ℚ) ≤ n := by positivity
    have h1 := ih (by linarith)
    have h2 : 0 ≤ n * e := by positivity
    have h3 := mul_le_mul_of_nonneg_right h1 (show 0 ≤ 1 + e by linarith)
    rw [pow_succ]
    have h4 : (n : ℚ) * e * (n * e) * e ≤ n * e * e * (1 / 16) := by
      have : (n : ℚ) * e * (n * e) ≤ (n * e) * (1 / 16) := mul_le_mul_of_nonneg_left (by linarith) h2
      nlinarith
    nlinarith [mul_nonneg he he]

end FP
end Verif
