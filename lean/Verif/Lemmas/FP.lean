import Verif.Model.FP
import Mathlib.Tactic.Linarith
import Mathlib.Tactic.Positivity
import Mathlib.Tactic.Ring
import Mathlib.Tactic.FieldSimp
import Mathlib.Algebra.Order.Field.Power
import Mathlib.Algebra.Order.Floor.Ring

/-!
# Facts about rounding
-/
namespace Verif
namespace FP

/-- `x` is a multiple of `2 ^ k`. -/
def Mul (k : Int) (x : ℚ) : Prop := ∃ m : Int, x = m * 2 ^ k

/-- `x` has `p` binary digits. -/
def Rep (p : Nat) (x : ℚ) : Prop := ∃ k : Int, Mul k x ∧ |x| < 2 ^ (k + p)

theorem two_zpow_pos (k : Int) : (0 : ℚ) < 2 ^ k := by positivity

theorem two_zpow_succ (k : Int) : (2 : ℚ) ^ (k + 1) = 2 * 2 ^ k := by rw [zpow_add₀ (by norm_num)]; ring

theorem two_zpow_le {a b : Int} (h : a ≤ b) : (2 : ℚ) ^ a ≤ 2 ^ b := zpow_le_zpow_right₀ (by norm_num) h

theorem two_zpow_lt {a b : Int} (h : a < b) : (2 : ℚ) ^ a < 2 ^ b := zpow_lt_zpow_right₀ (by norm_num) h

theorem lt_of_two_zpow {a b : Int} (h : (2 : ℚ) ^ a < 2 ^ b) : a < b := by
  by_contra hc
  exact absurd (two_zpow_le (not_lt.mp hc)) (not_le.mpr h)

/-! ### Multiples -/

theorem Mul.zero (k : Int) : Mul k 0 := ⟨0, by simp⟩

theorem Mul.self (k : Int) : Mul k (2 ^ k) := ⟨1, by simp⟩

theorem Mul.neg {k : Int} {x : ℚ} (h : Mul k x) : Mul k (-x) := by
  obtain ⟨m, rfl⟩ := h
  exact ⟨-m, by push_cast; ring⟩

theorem Mul.add {k : Int} {x y : ℚ} (h : Mul k x) (h' : Mul k y) : Mul k (x + y) := by
  obtain ⟨m, rfl⟩ := h
  obtain ⟨n, rfl⟩ := h'
  exact ⟨m + n, by push_cast; ring⟩

theorem Mul.sub {k : Int} {x y : ℚ} (h : Mul k x) (h' : Mul k y) : Mul k (x - y) := by
  rw [sub_eq_add_neg]; exact h.add h'.neg

theorem Mul.mul {k l : Int} {x y : ℚ} (h : Mul k x) (h' : Mul l y) : Mul (k + l) (x * y) := by
  obtain ⟨m, rfl⟩ := h
  obtain ⟨n, rfl⟩ := h'
  exact ⟨m * n, by rw [zpow_add₀ (by norm_num)]; push_cast; ring⟩

theorem Mul.mono {k l : Int} {x : ℚ} (h : Mul k x) (hl : l ≤ k) : Mul l x := by
  obtain ⟨m, rfl⟩ := h
  obtain ⟨n, hn⟩ := Int.eq_ofNat_of_zero_le (sub_nonneg.mpr hl)
  refine ⟨m * 2 ^ n, ?_⟩
  have : k = n + l := by omega
  rw [this, zpow_add₀ (by norm_num)]
  push_cast
  rw [zpow_natCast]; ring

theorem Mul.pow {k l : Int} (h : l ≤ k) : Mul l ((2 : ℚ) ^ k) := (Mul.self k).mono h

theorem Mul.abs {k : Int} {x : ℚ} (h : Mul k x) : Mul k |x| := by
  rcases abs_choice x with e | e <;> rw [e]
  · exact h
  · exact h.neg

/-- A multiple that is smaller than the unit is zero. -/
theorem Mul.eq_zero {k : Int} {x : ℚ} (h : Mul k x) (hx : |x| < 2 ^ k) : x = 0 := by
  obtain ⟨m, rfl⟩ := h
  rw [abs_mul, abs_of_pos (two_zpow_pos k)] at hx
  have h1 : |(m : ℚ)| < 1 := by
    by_contra hc
    nlinarith [two_zpow_pos k]
  have h2 : |m| < 1 := by exact_mod_cast h1
  have : m = 0 := Int.abs_lt_one_iff.mp h2
  simp [this]

/-- Different multiples have at least one unit between them. -/
theorem Mul.le_sub {k : Int} {x y : ℚ} (hx : Mul k x) (hy : Mul k y) (h : x < y) : x + 2 ^ k ≤ y := by
  by_contra hc
  have h1 : |y - x| < 2 ^ k := by rw [abs_of_pos (by linarith)]; linarith
  have := (hy.sub hx).eq_zero h1
  linarith

theorem Mul.le_abs {k : Int} {x : ℚ} (h : Mul k x) (h0 : x ≠ 0) : 2 ^ k ≤ |x| := by
  by_contra hc
  exact h0 (h.eq_zero (not_le.mp hc))

/-! ### Representable numbers -/

theorem Rep.of_le {p : Nat} {k : Int} {x : ℚ} (h : Mul k x) (hx : |x| ≤ 2 ^ (k + p)) (hp : 0 < p) : Rep p x := by
  rcases lt_or_eq_of_le hx with h' | h'
  · exact ⟨k, h, h'⟩
  · refine ⟨k + p, ?_, ?_⟩
    · rcases abs_choice x with e | e
      · rw [← e, h']; exact Mul.self _
      · rw [show x = -|x| by rw [e]; ring, h']; exact (Mul.self _).neg
    · rw [h']; exact two_zpow_lt (by omega)

theorem Rep.zero (p : Nat) : Rep p 0 := ⟨0, Mul.zero 0, by simpa using two_zpow_pos _⟩

theorem Rep.neg {p : Nat} {x : ℚ} (h : Rep p x) : Rep p (-x) := by
  obtain ⟨k, h1, h2⟩ := h
  exact ⟨k, h1.neg, by rwa [abs_neg]⟩

theorem Rep.abs {p : Nat} {x : ℚ} (h : Rep p x) : Rep p |x| := by
  obtain ⟨k, h1, h2⟩ := h
  exact ⟨k, h1.abs, by rwa [abs_abs]⟩

theorem Rep.pow (p : Nat) (hp : 0 < p) (k : Int) : Rep p (2 ^ k) :=
  ⟨k, Mul.self k, by rw [abs_of_pos (two_zpow_pos k)]; exact two_zpow_lt (by omega)⟩

theorem Rep.scale {p : Nat} {x : ℚ} (h : Rep p x) (j : Int) : Rep p (x * 2 ^ j) := by
  obtain ⟨k, h1, h2⟩ := h
  refine ⟨k + j, h1.mul (Mul.self j), ?_⟩
  rw [abs_mul, abs_of_pos (two_zpow_pos j), show k + j + p = k + p + j by ring, zpow_add₀ (by norm_num) (k + p) j]
  exact mul_lt_mul_of_pos_right h2 (two_zpow_pos j)

/-- The grid of a number. -/
theorem grid_spec (p : Nat) {x : ℚ} (h : x ≠ 0) : 2 ^ (grid p x + p - 1) ≤ |x| ∧ |x| < 2 ^ (grid p x + p) := by
  have h0 : 0 < |x| := abs_pos.mpr h
  constructor
  · have := Int.zpow_log_le_self (b := 2) (by norm_num) h0
    have e : grid p x + p - 1 = Int.log 2 |x| := by simp only [grid]; ring
    rw [e]; exact_mod_cast this
  · have := Int.lt_zpow_succ_log_self (b := 2) (by norm_num) |x|
    have e : grid p x + p = Int.log 2 |x| + 1 := by simp only [grid]; ring
    rw [e]; exact_mod_cast this

theorem grid_le {p : Nat} {x : ℚ} {k : Int} (h : x ≠ 0) (hx : |x| < 2 ^ (k + p)) : grid p x ≤ k := by
  have := lt_of_two_zpow (lt_of_le_of_lt (grid_spec p h).1 hx)
  omega

theorem le_grid {p : Nat} {x : ℚ} {k : Int} (hx : 2 ^ (k + p - 1) ≤ |x|) : k ≤ grid p x := by
  have h : x ≠ 0 := by
    rintro rfl
    simp only [abs_zero] at hx
    exact absurd hx (not_le.mpr (two_zpow_pos _))
  have := lt_of_two_zpow (lt_of_le_of_lt hx (grid_spec p h).2)
  omega

/-- A number with `p` digits is a multiple of its grid. -/
theorem Rep.grid {p : Nat} {x : ℚ} (h : Rep p x) : Mul (grid p x) x := by
  by_cases h0 : x = 0
  · rw [h0]; exact Mul.zero _
  · obtain ⟨k, h1, h2⟩ := h
    exact h1.mono (grid_le h0 h2)

/-! ### Nearest integers -/

theorem rne_int (k : Int) : rne (k : ℚ) = k := by simp [rne]

theorem rne_err (q : ℚ) : |(rne q : ℚ) - q| ≤ 1 / 2 := by
  have h1 := Int.floor_le q
  have h2 := Int.lt_floor_add_one q
  unfold rne
  split_ifs with h h' h'' <;> rw [abs_le] <;> push_cast <;> constructor <;> linarith

theorem rne_tie (q : ℚ) (h : |(rne q : ℚ) - q| = 1 / 2) : Even (rne q) := by
  have h1 := Int.floor_le q
  have h2 := Int.lt_floor_add_one q
  unfold rne at h ⊢
  split_ifs at h ⊢ with ha hb hc
  · rw [abs_of_nonpos (by linarith)] at h; linarith
  · push_cast at h; rw [abs_of_nonneg (by linarith)] at h; linarith
  · exact hc
  · rw [Int.even_add_one]; exact hc

theorem rne_neg (q : ℚ) : rne (-q) = -rne q := by
  have e1 := rne_err q
  have e2 := rne_err (-q)
  rw [abs_le] at e1 e2
  by_contra hne
  have hd : |(rne (-q) + rne q : Int)| ≥ 1 := Int.one_le_abs (by omega)
  have hd' : (1 : ℚ) ≤ |(rne (-q) : ℚ) + rne q| := by exact_mod_cast hd
  have hone : |(rne (-q) + rne q : Int)| ≤ 1 := by
    have : |(rne (-q) : ℚ) + rne q| ≤ 1 := by rw [abs_le]; constructor <;> linarith [e1.1, e1.2, e2.1, e2.2]
    exact_mod_cast this
  have hodd : ¬ Even (rne (-q) + rne q) := by
    have : |(rne (-q) + rne q : Int)| = 1 := le_antisymm hone hd
    rcases abs_eq (zero_le_one) |>.mp this with h | h <;> rw [h] <;> decide
  have ht1 : |(rne q : ℚ) - q| = 1 / 2 := by
    rcases le_abs.mp hd' with h | h
    · rw [abs_of_nonneg (by linarith [e2.2])]; linarith [e1.2, e2.2]
    · rw [abs_of_nonpos (by linarith [e2.1])]; linarith [e1.1, e2.1]
  have ht2 : |(rne (-q) : ℚ) - -q| = 1 / 2 := by
    rcases le_abs.mp hd' with h | h
    · rw [abs_of_nonneg (by linarith [e1.2])]; linarith [e1.2, e2.2]
    · rw [abs_of_nonpos (by linarith [e1.1])]; linarith [e1.1, e2.1]
  exact hodd ((rne_tie _ ht2).add (rne_tie _ ht1))

/-! ### Rounding -/

theorem rnd_zero (p : Nat) : rnd p 0 = 0 := by
  have : rne (0 : ℚ) = 0 := by simpa using rne_int 0
  simp [rnd, this]

theorem grid_neg (p : Nat) (x : ℚ) : grid p (-x) = grid p x := by simp [grid]

theorem rnd_neg (p : Nat) (x : ℚ) : rnd p (-x) = -rnd p x := by
  simp only [rnd, grid_neg, neg_div, rne_neg]
  push_cast; ring

theorem rnd_sub_comm (p : Nat) (a b : ℚ) : rnd p (a - b) = -rnd p (b - a) := by
  rw [← rnd_neg]; congr 1; ring

theorem rnd_mul_grid (p : Nat) (x : ℚ) : Mul (grid p x) (rnd p x) := ⟨_, rfl⟩

theorem rnd_sub (p : Nat) (x : ℚ) : rnd p x - x = ((rne (x / 2 ^ grid p x) : ℚ) - x / 2 ^ grid p x) * 2 ^ grid p x := by
  have := (two_zpow_pos (grid p x)).ne'
  simp only [rnd]
  field_simp

/-- Rounding error. -/
theorem rnd_err (p : Nat) (x : ℚ) : |rnd p x - x| ≤ 2 ^ grid p x / 2 := by
  rw [rnd_sub, abs_mul, abs_of_pos (two_zpow_pos _)]
  have := mul_le_mul_of_nonneg_right (rne_err (x / 2 ^ grid p x)) (two_zpow_pos (grid p x)).le
  linarith

/-- Ties are rounded to even. -/
theorem rnd_tie (p : Nat) (x : ℚ) (h : |rnd p x - x| = 2 ^ grid p x / 2) : Mul (grid p x + 1) (rnd p x) := by
  rw [rnd_sub, abs_mul, abs_of_pos (two_zpow_pos _)] at h
  have h1 : |(rne (x / 2 ^ grid p x) : ℚ) - x / 2 ^ grid p x| = 1 / 2 :=
    mul_right_cancel₀ (two_zpow_pos (grid p x)).ne' (by rw [h]; ring)
  obtain ⟨m, hm⟩ := rne_tie _ h1
  refine ⟨m, ?_⟩
  rw [rnd, hm, two_zpow_succ]
  push_cast; ring

/-- Numbers with `p` digits are not changed. -/
theorem rnd_rep {p : Nat} {x : ℚ} (h : Rep p x) : rnd p x = x := by
  obtain ⟨m, hm⟩ := h.grid
  have : x / 2 ^ grid p x = m := by
    rw [div_eq_iff (two_zpow_pos _).ne']; exact hm
  rw [rnd, this, rne_int]; exact hm.symm

theorem rnd_of_mul {p : Nat} (hp : 0 < p) {k : Int} {x : ℚ} (h : Mul k x) (hx : |x| ≤ 2 ^ (k + p)) : rnd p x = x :=
  rnd_rep (Rep.of_le h hx hp)

/-- Rounding yields a nearest number. -/
theorem rnd_nearest {p : Nat} (hp : 0 < p) (x : ℚ) {y : ℚ} (hy : Rep p y) : |rnd p x - x| ≤ |y - x| := by
  by_cases h0 : x = 0
  · subst h0; rw [rnd_zero]; simp
  have hg := grid_spec p h0
  -- multiples of the grid
  have key : ∀ z : ℚ, Mul (grid p x) z → |rnd p x - x| ≤ |z - x| := by
    intro z hz
    by_cases he : z = rnd p x
    · rw [he]
    · have h1 := (hz.sub (rnd_mul_grid p x)).le_abs (sub_ne_zero.mpr he)
      have h2 := rnd_err p x
      have h3 : |z - rnd p x| ≤ |z - x| + |rnd p x - x| := by
        have := abs_sub_le z x (rnd p x)
        rwa [abs_sub_comm x] at this
      linarith
  by_cases hm : Mul (grid p x) y
  · exact key y hm
  · have hsmall : |y| < 2 ^ (grid p x + p - 1) := by
      obtain ⟨k, h1, h2⟩ := hy
      have : k < grid p x := by
        by_contra hc
        exact hm (h1.mono (not_lt.mp hc))
      exact lt_of_lt_of_le h2 (two_zpow_le (by omega))
    rcases lt_or_gt_of_ne h0 with hneg | hpos
    · refine (key (-2 ^ (grid p x + p - 1)) (Mul.pow (by omega)).neg).trans ?_
      rw [abs_of_neg hneg] at hg
      rw [abs_lt] at hsmall
      rw [abs_of_nonneg (by linarith [hg.1]), abs_of_nonneg (by linarith [hg.1, hsmall.1])]
      linarith [hsmall.1]
    · refine (key (2 ^ (grid p x + p - 1)) (Mul.pow (by omega))).trans ?_
      rw [abs_of_pos hpos] at hg
      rw [abs_lt] at hsmall
      rw [abs_of_nonpos (by linarith [hg.1]), abs_of_nonpos (by linarith [hg.1, hsmall.2])]
      linarith [hsmall.2]

theorem rnd_le {p : Nat} (hp : 0 < p) {x y : ℚ} (hy : Rep p y) (h : x ≤ y) : rnd p x ≤ y := by
  by_contra hc
  have h1 := rnd_nearest hp x hy
  rw [abs_of_pos (by linarith), abs_of_nonneg (by linarith)] at h1
  linarith

theorem le_rnd {p : Nat} (hp : 0 < p) {x y : ℚ} (hy : Rep p y) (h : y ≤ x) : y ≤ rnd p x := by
  have := rnd_le hp hy.neg (neg_le_neg h)
  rw [rnd_neg] at this
  linarith

theorem abs_rnd_le {p : Nat} (hp : 0 < p) {x y : ℚ} (hy : Rep p y) (h : |x| ≤ y) : |rnd p x| ≤ y := by
  rw [abs_le] at h ⊢
  exact ⟨le_rnd hp hy.neg h.1, rnd_le hp hy h.2⟩

theorem le_abs_rnd {p : Nat} (hp : 0 < p) {x y : ℚ} (hy : Rep p y) (h : y ≤ |x|) : y ≤ |rnd p x| := by
  rcases le_abs.mp h with h | h
  · exact (le_rnd hp hy h).trans (le_abs_self _)
  · have := le_rnd hp hy h
    rw [rnd_neg] at this
    exact this.trans (neg_le_abs _)

/-- The result has `p` digits. -/
theorem rep_rnd {p : Nat} (hp : 0 < p) (x : ℚ) : Rep p (rnd p x) := by
  by_cases h0 : x = 0
  · rw [h0, rnd_zero]; exact Rep.zero p
  · exact Rep.of_le (rnd_mul_grid p x) (abs_rnd_le hp (Rep.pow p hp _) (grid_spec p h0).2.le) hp

theorem rnd_mono {p : Nat} (hp : 0 < p) {x y : ℚ} (h : x ≤ y) : rnd p x ≤ rnd p y := by
  rcases lt_or_eq_of_le h with h | h
  · by_contra hc
    rw [not_le] at hc
    have h1 := rnd_nearest hp x (rep_rnd hp y)
    have h2 := rnd_nearest hp y (rep_rnd hp x)
    rcases le_total (rnd p x) x with a | a <;> rcases le_total (rnd p y) y with b | b <;>
    rcases le_total (rnd p y) x with c | c <;> rcases le_total (rnd p x) y with d | d <;>
    simp only [abs_of_nonneg, abs_of_nonpos, sub_nonneg, sub_nonpos, a, b, c, d] at h1 h2 <;> linarith
  · rw [h]

theorem rnd_nonneg {p : Nat} (hp : 0 < p) {x : ℚ} (h : 0 ≤ x) : 0 ≤ rnd p x := le_rnd hp (Rep.zero p) h

theorem rnd_nonpos {p : Nat} (hp : 0 < p) {x : ℚ} (h : x ≤ 0) : rnd p x ≤ 0 := rnd_le hp (Rep.zero p) h

theorem abs_rnd {p : Nat} (hp : 0 < p) (x : ℚ) : |rnd p x| = rnd p |x| := by
  rcases le_total 0 x with h | h
  · rw [abs_of_nonneg h, abs_of_nonneg (rnd_nonneg hp h)]
  · rw [abs_of_nonpos h, abs_of_nonpos (rnd_nonpos hp h), rnd_neg]

/-- Half a unit in the last place of a number with `p` digits. -/
def eps (p : Nat) : ℚ := 2 ^ (-p : Int)

theorem eps_pos (p : Nat) : 0 < eps p := two_zpow_pos _

/-- Error relative to the exact result. -/
theorem rnd_rel (p : Nat) (x : ℚ) : |rnd p x - x| ≤ eps p * |x| := by
  by_cases h0 : x = 0
  · subst h0; rw [rnd_zero]; simp
  · have h1 := rnd_err p x
    have h2 := (grid_spec p h0).1
    have h3 : eps p * 2 ^ (grid p x + p - 1) = 2 ^ grid p x / 2 := by
      rw [eps, ← zpow_add₀ (by norm_num), show -(p : Int) + (grid p x + p - 1) = grid p x - 1 by ring, zpow_sub_one₀ (by norm_num)]
      ring
    have := mul_le_mul_of_nonneg_left h2 (eps_pos p).le
    linarith

/-- Error relative to the computed result. -/
theorem rnd_rel' {p : Nat} (hp : 0 < p) (x : ℚ) : |rnd p x - x| ≤ eps p * |rnd p x| := by
  by_cases h0 : x = 0
  · subst h0; rw [rnd_zero]; simp
  · have h1 := rnd_err p x
    have h2 := le_abs_rnd hp (Rep.pow p hp _) (grid_spec p h0).1
    have h3 : eps p * 2 ^ (grid p x + p - 1) = 2 ^ grid p x / 2 := by
      rw [eps, ← zpow_add₀ (by norm_num), show -(p : Int) + (grid p x + p - 1) = grid p x - 1 by ring, zpow_sub_one₀ (by norm_num)]
      ring
    have := mul_le_mul_of_nonneg_left h2 (eps_pos p).le
    linarith

theorem rnd_eq_zero {p : Nat} (hp : 0 < p) {x : ℚ} : rnd p x = 0 ↔ x = 0 := by
  constructor
  · intro h
    have := rnd_rel' hp x
    rw [h] at this
    simpa using this
  · rintro rfl; exact rnd_zero p

theorem rnd_pos {p : Nat} (hp : 0 < p) {x : ℚ} (h : 0 < x) : 0 < rnd p x :=
  lt_of_le_of_ne (rnd_nonneg hp h.le) fun h' => h.ne' ((rnd_eq_zero hp).mp h'.symm)

theorem rnd_lt_zero {p : Nat} (hp : 0 < p) {x : ℚ} (h : x < 0) : rnd p x < 0 :=
  lt_of_le_of_ne (rnd_nonpos hp h.le) fun h' => h.ne ((rnd_eq_zero hp).mp h')

/-- The error of a sum is at most the smaller summand. -/
theorem sum_err_le {p : Nat} (hp : 0 < p) {a b : ℚ} (ha : Rep p a) : |a + b - rnd p (a + b)| ≤ |b| := by
  have := rnd_nearest hp (a + b) ha
  rw [abs_sub_comm] at this
  refine this.trans (le_of_eq ?_)
  rw [show a - (a + b) = -b by ring, abs_neg]

/-- The error of a sum has `p` digits. -/
theorem sum_err_rep {p : Nat} (hp : 0 < p) {a b : ℚ} (ha : Rep p a) (hb : Rep p b) : Rep p (a + b - rnd p (a + b)) := by
  have key : ∀ {a b : ℚ}, Rep p a → Rep p b → ∀ {k l : Int}, Mul k a → |a| < 2 ^ (k + p) → Mul l b → |b| < 2 ^ (l + p) → k ≤ l →
      Rep p (a + b - rnd p (a + b)) := by
    intro a b ha hb k l hk hk' hl hl' hkl
    by_cases hg : grid p (a + b) ≤ k
    · have h0 := rnd_mul_grid p (a + b)
      have : Mul (grid p (a + b)) (a + b) := (hk.add (hl.mono hkl)).mono hg
      by_cases hz : a + b = 0
      · rw [hz, rnd_zero]; simpa using Rep.zero p
      · rw [rnd_rep ⟨_, this, (grid_spec p hz).2⟩]; simpa using Rep.zero p
    · refine ⟨k, (hk.add (hl.mono hkl)).sub ((rnd_mul_grid p _).mono (by omega)), ?_⟩
      refine lt_of_le_of_lt ?_ hk'
      rw [add_comm a b]
      exact sum_err_le hp hb
  obtain ⟨k, hk, hk'⟩ := ha
  obtain ⟨l, hl, hl'⟩ := hb
  rcases le_total k l with h | h
  · exact key ⟨k, hk, hk'⟩ ⟨l, hl, hl'⟩ hk hk' hl hl' h
  · rw [add_comm a b]
    exact key ⟨l, hl, hl'⟩ ⟨k, hk, hk'⟩ hl hl' hk hk' h

/-- The error of a sum is a multiple of what the summands are multiples of. -/
theorem sum_err_mul {p : Nat} {k : Int} {s : ℚ} (hs : Mul k s) : Mul k (s - rnd p s) := by
  by_cases hz : s = 0
  · rw [hz, rnd_zero]; simpa using Mul.zero k
  by_cases hg : grid p s ≤ k
  · rw [rnd_rep ⟨_, hs.mono hg, (grid_spec p hz).2⟩]; simpa using Mul.zero k
  · exact hs.sub ((rnd_mul_grid p s).mono (by omega))

theorem rnd_mul {p : Nat} {k : Int} {s : ℚ} (hs : Mul k s) : Mul k (rnd p s) := by
  have := hs.sub (sum_err_mul (p := p) hs)
  simpa using this

end FP
end Verif
