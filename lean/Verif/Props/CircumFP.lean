import Verif.Lemmas.CircumFP3
import Verif.Lemmas.KernelRfl
import Mathlib.Data.Nat.Sqrt
import Mathlib.Data.Rat.Floor

/-!
# The circumcircle criterion with `double`

`getEdge` looks for the simplices of a part whose circumsphere intersects the bounds of another part. Sphere and intersection are computed with `double`.
With integer coordinates that are small enough, every triangle with an integer point of the box strictly inside of its circumcircle is found. With larger
coordinates it may be missed: the computed radius of a triangle with sides 1 and 2 can be zero.
-/
namespace Verif
namespace FPM
open FP (eps eps_pos)

/-- **C102 (2D).** If an integer point of the box is strictly inside of the circle through three integer points, then the test finds the intersection.
Missing: other coordinates. -/
theorem C102_finds2_partial (inf : ℚ → ℚ) {sq rt : ℚ → ℚ} (hsq : PowOk 53 sq) (hrt : SqrtOk 53 rt) {N : Nat} (hN : 20480 * N ^ 6 ≤ 2 ^ 53)
    {q s0 s1 s2 c : Vec 2 ℚ} {R : ℚ} {b : Box 2 ℚ} (hq : ∀ i, ∃ n : Int, q i = n ∧ |n| ≤ N) (h0 : ∀ i, ∃ n : Int, s0 i = n ∧ |n| ≤ N)
    (h1 : ∀ i, ∃ n : Int, s1 i = n ∧ |n| ≤ N) (h2 : ∀ i, ∃ n : Int, s2 i = n ∧ |n| ≤ N) (hl : ∀ i, ∃ n : Int, b.low i = n ∧ |n| ≤ N)
    (hh : ∀ i, ∃ n : Int, b.high i = n ∧ |n| ≤ N) (hnd : Geom.NonDeg2 s0 s1 s2) (c0 : (s0 0 - c 0) ^ 2 + (s0 1 - c 1) ^ 2 = R)
    (c1 : (s1 0 - c 0) ^ 2 + (s1 1 - c 1) ^ 2 = R) (c2 : (s2 0 - c 0) ^ 2 + (s2 1 - c 1) ^ 2 = R) (hin : (q 0 - c 0) ^ 2 + (q 1 - c 1) ^ 2 < R)
    (hlq : ∀ d, b.low d ≤ q d) (hqh : ∀ d, q d ≤ b.high d) :
    intersectsR (double inf) b (circumsphere2R (double inf) sq rt s0 s1 s2) = true :=
  finds2 (p := 53) (by norm_num) (wide_double inf) hsq hrt hN hq h0 h1 h2 hl hh hnd c0 c1 c2 hin hlq hqh

/-- **C102 (3D).** The same for the sphere through four integer points. Missing: other coordinates. -/
theorem C102_finds3_partial (inf : ℚ → ℚ) {sq rt : ℚ → ℚ} (hsq : PowOk 53 sq) (hrt : SqrtOk 53 rt) {N : Nat} (hN : 1000000 * N ^ 8 ≤ 2 ^ 53)
    {q s0 s1 s2 s3 c : Vec 3 ℚ} {R : ℚ} {b : Box 3 ℚ} (hq : ∀ i, ∃ n : Int, q i = n ∧ |n| ≤ N) (h0 : ∀ i, ∃ n : Int, s0 i = n ∧ |n| ≤ N)
    (h1 : ∀ i, ∃ n : Int, s1 i = n ∧ |n| ≤ N) (h2 : ∀ i, ∃ n : Int, s2 i = n ∧ |n| ≤ N) (h3 : ∀ i, ∃ n : Int, s3 i = n ∧ |n| ≤ N)
    (hl : ∀ i, ∃ n : Int, b.low i = n ∧ |n| ≤ N) (hh : ∀ i, ∃ n : Int, b.high i = n ∧ |n| ≤ N) (hnd : Geom.NonDeg3 s0 s1 s2 s3)
    (c0 : (s0 0 - c 0) ^ 2 + (s0 1 - c 1) ^ 2 + (s0 2 - c 2) ^ 2 = R) (c1 : (s1 0 - c 0) ^ 2 + (s1 1 - c 1) ^ 2 + (s1 2 - c 2) ^ 2 = R)
    (c2 : (s2 0 - c 0) ^ 2 + (s2 1 - c 1) ^ 2 + (s2 2 - c 2) ^ 2 = R) (c3 : (s3 0 - c 0) ^ 2 + (s3 1 - c 1) ^ 2 + (s3 2 - c 2) ^ 2 = R)
    (hin : (q 0 - c 0) ^ 2 + (q 1 - c 1) ^ 2 + (q 2 - c 2) ^ 2 < R) (hlq : ∀ d, b.low d ≤ q d) (hqh : ∀ d, q d ≤ b.high d) :
    intersectsR (double inf) b (circumsphere3R (double inf) sq rt s0 s1 s2 s3) = true :=
  finds3 (p := 53) (by norm_num) (wide_double inf) hsq hrt hN hq h0 h1 h2 h3 hl hh hnd c0 c1 c2 c3 hin hlq hqh

/-! ### The hypotheses about the library functions can be met -/

/-- The correctly rounded square. -/
theorem powOk_double (inf : ℚ → ℚ) : PowOk 53 (fun x => double inf (x * x)) := by
  constructor
  · intro n hn
    have : |n * n| ≤ 2 ^ 53 := by rw [abs_of_nonneg (mul_self_nonneg n), ← pow_two]; exact hn
    have h := good_int (p := 53) (by norm_num) (good_double inf) this
    push_cast at h
    rw [h, pow_two]
  · intro x hx hb
    have h := (wide_double inf).rel (x := x * x) (by
      rcases hx with rfl | hx
      · exact Or.inl (by simp)
      · exact Or.inr (by rwa [← pow_two, abs_of_nonneg (sq_nonneg x)])) (by rwa [← pow_two, abs_of_nonneg (sq_nonneg x)])
    rw [← pow_two, abs_of_nonneg (sq_nonneg x)] at h
    have he := eps_pos 53
    have := mul_nonneg he.le (sq_nonneg x)
    rw [← pow_two]
    linarith

/-- The square root, rounded down to a multiple of `2 ^ (-200)`. -/
def rootDown (x : ℚ) : ℚ := (Nat.sqrt ⌊x * 4 ^ 200⌋₊ : ℚ) / 2 ^ 200

theorem sqrtOk_rootDown : SqrtOk 53 rootDown := by
  have he := eps_pos 53
  have hev : eps 53 = 1 / 2 ^ 53 := by unfold eps; norm_num
  have sqd : ∀ x, rootDown x ^ 2 = (Nat.sqrt ⌊x * 4 ^ 200⌋₊ : ℚ) ^ 2 / 4 ^ 200 := by
    intro x
    unfold rootDown
    rw [div_pow]
    norm_num
  refine ⟨?_, ?_, ?_⟩
  · intro x _
    unfold rootDown
    positivity
  · intro x hx _
    have hx0 : 0 ≤ x := (FP.two_zpow_pos _).le.trans hx
    rw [sqd, le_div_iff₀ (by positivity)]
    set a := ⌊x * 4 ^ 200⌋₊ with ha
    have h1 : x * 4 ^ 200 < (a : ℚ) + 1 := Nat.lt_floor_add_one _
    have h2 : a < (Nat.sqrt a + 1) ^ 2 := Nat.lt_succ_sqrt' a
    have h3 : x * 4 ^ 200 ≤ ((Nat.sqrt a : ℚ) + 1) ^ 2 := by
      have : (a : ℚ) + 1 ≤ ((Nat.sqrt a : ℚ) + 1) ^ 2 := by exact_mod_cast h2
      linarith
    have h4 : (2 : ℚ) ^ 53 ≤ (Nat.sqrt a : ℚ) + 1 := by
      have h5 : ((2 : ℚ) ^ 53) ^ 2 ≤ x * 4 ^ 200 := by
        have : (2 : ℚ) ^ (-(4 * (53 : Nat)) : Int) * 4 ^ 200 ≤ x * 4 ^ 200 := mul_le_mul_of_nonneg_right hx (by positivity)
        refine le_trans ?_ this
        norm_num
      exact le_of_sq_le_sq (h5.trans h3) (by positivity)
    have h5 : (1 - eps 53) * ((Nat.sqrt a : ℚ) + 1) ≤ Nat.sqrt a := by
      rw [hev]
      have : (1 : ℚ) ≤ 1 / 2 ^ 53 * ((Nat.sqrt a : ℚ) + 1) := by
        rw [one_div_mul_eq_div, le_div_iff₀ (by positivity)]; linarith
      linarith
    have h6 := pow_le_pow_left₀ (mul_nonneg (by rw [hev]; norm_num) (by positivity)) h5 2
    rw [mul_pow] at h6
    calc (1 - eps 53) ^ 2 * x * 4 ^ 200 = (1 - eps 53) ^ 2 * (x * 4 ^ 200) := by ring
      _ ≤ _ := mul_le_mul_of_nonneg_left h3 (sq_nonneg _)
      _ ≤ _ := h6
  · intro x hx _
    have hx0 : 0 ≤ x := (FP.two_zpow_pos _).le.trans hx
    rw [sqd, div_le_iff₀ (by positivity)]
    have h1 : (⌊x * 4 ^ 200⌋₊ : ℚ) ≤ x * 4 ^ 200 := Nat.floor_le (by positivity)
    have h2 : ((Nat.sqrt ⌊x * 4 ^ 200⌋₊ : ℚ)) ^ 2 ≤ (⌊x * 4 ^ 200⌋₊ : ℚ) := by exact_mod_cast Nat.sqrt_le' _
    have h3 : 1 ≤ (1 + eps 53) ^ 2 := by nlinarith
    have h4 : 0 ≤ x * 4 ^ 200 := by positivity
    nlinarith

/-- The box of the point (80,-30) intersects the circumcircle of a triangle with coordinates up to 87. -/
example (inf : ℚ → ℚ) : intersectsR (double inf) ⟨![80, -30], ![87, 0]⟩
    (circumsphere2R (double inf) (fun x => double inf (x * x)) rootDown ![87, 0] ![0, 87] ![-87, 0]) = true := by
  refine C102_finds2_partial inf (powOk_double inf) sqrtOk_rootDown (N := 87) (by norm_num) (q := ![80, -30]) (c := ![0, 0]) (R := 87 ^ 2)
    ?_ ?_ ?_ ?_ ?_ ?_ ?_ ?_ ?_ ?_ ?_ ?_ ?_
  · intro i; fin_cases i
    · exact ⟨80, by simp, by norm_num⟩
    · exact ⟨-30, by simp, by norm_num⟩
  · intro i; fin_cases i
    · exact ⟨87, by simp, by norm_num⟩
    · exact ⟨0, by simp, by norm_num⟩
  · intro i; fin_cases i
    · exact ⟨0, by simp, by norm_num⟩
    · exact ⟨87, by simp, by norm_num⟩
  · intro i; fin_cases i
    · exact ⟨-87, by simp, by norm_num⟩
    · exact ⟨0, by simp, by norm_num⟩
  · intro i; fin_cases i
    · exact ⟨80, by simp, by norm_num⟩
    · exact ⟨-30, by simp, by norm_num⟩
  · intro i; fin_cases i
    · exact ⟨87, by simp, by norm_num⟩
    · exact ⟨0, by simp, by norm_num⟩
  · intro a b he
    have e1 := he 0
    have e2 := he 1
    simp at e1 e2
    constructor
    · linarith
    · linarith
  · simp
  · simp
  · simp
  · simp; norm_num
  · intro d; fin_cases d
    · simp
    · simp
  · intro d; fin_cases d
    · simp; norm_num
    · simp

/-- The box of the point (10,-10,9) intersects the circumsphere of a tetrahedron with coordinates up to 17. -/
example (inf : ℚ → ℚ) : intersectsR (double inf) ⟨![10, -10, 9], ![17, 0, 17]⟩
    (circumsphere3R (double inf) (fun x => double inf (x * x)) rootDown ![17, 0, 0] ![0, 17, 0] ![0, 0, 17] ![-17, 0, 0]) = true := by
  have three : ∀ {v : Vec 3 ℚ} {a b c : Int}, v = ![(a : ℚ), b, c] → |a| ≤ 17 → |b| ≤ 17 → |c| ≤ 17 → ∀ i, ∃ n : Int, v i = n ∧ |n| ≤ (17 : Nat) := by
    rintro v a b c rfl ha hb hc i
    fin_cases i
    · exact ⟨a, by simp, by exact_mod_cast ha⟩
    · exact ⟨b, by simp, by exact_mod_cast hb⟩
    · exact ⟨c, by simp, by exact_mod_cast hc⟩
  refine C102_finds3_partial inf (powOk_double inf) sqrtOk_rootDown (N := 17) (by norm_num) (q := ![10, -10, 9]) (c := ![0, 0, 0]) (R := 17 ^ 2)
    (three (a := 10) (b := -10) (c := 9) (by norm_num) (by norm_num) (by norm_num) (by norm_num))
    (three (a := 17) (b := 0) (c := 0) (by norm_num) (by norm_num) (by norm_num) (by norm_num))
    (three (a := 0) (b := 17) (c := 0) (by norm_num) (by norm_num) (by norm_num) (by norm_num))
    (three (a := 0) (b := 0) (c := 17) (by norm_num) (by norm_num) (by norm_num) (by norm_num))
    (three (a := -17) (b := 0) (c := 0) (by norm_num) (by norm_num) (by norm_num) (by norm_num))
    (three (a := 10) (b := -10) (c := 9) (by norm_num) (by norm_num) (by norm_num) (by norm_num))
    (three (a := 17) (b := 0) (c := 17) (by norm_num) (by norm_num) (by norm_num) (by norm_num)) ?_ ?_ ?_ ?_ ?_ ?_ ?_ ?_
  · intro a b c he
    have e1 := he 0
    have e2 := he 1
    have e3 := he 2
    simp at e1 e2 e3
    refine ⟨?_, ?_, ?_⟩ <;> linarith
  · simp
  · simp
  · simp
  · simp
  · simp; norm_num
  · intro d; fin_cases d <;> simp
  · intro d; fin_cases d <;> simp <;> norm_num

/-- The root is taken at the end. -/
theorem circumsphere2R_root (rd sq rt : ℚ → ℚ) (s0 s1 s2 : Vec 2 ℚ) : circumsphere2R rd sq rt s0 s1 s2 =
    ⟨(circumsphere2R rd sq id s0 s1 s2).center, rt (circumsphere2R rd sq id s0 s1 s2).radius⟩ := rfl

theorem missed2_c0 (inf : ℚ → ℚ) : (circumsphere2R (double inf) (fun x => double inf (x * x)) id ![190411364, 146236432] ![190411364, 146236431]
    ![190411362, 146236431]).center 0 = 190411364 :=
  le_antisymm (of_decide_eq_true (by kernel_rfl)) (not_lt.mp (of_decide_eq_false (by kernel_rfl)))

theorem missed2_c1 (inf : ℚ → ℚ) : (circumsphere2R (double inf) (fun x => double inf (x * x)) id ![190411364, 146236432] ![190411364, 146236431]
    ![190411362, 146236431]).center 1 = 146236432 :=
  le_antisymm (of_decide_eq_true (by kernel_rfl)) (not_lt.mp (of_decide_eq_false (by kernel_rfl)))

theorem missed2_r (inf : ℚ → ℚ) : (circumsphere2R (double inf) (fun x => double inf (x * x)) id ![190411364, 146236432] ![190411364, 146236431]
    ![190411362, 146236431]).radius = 0 :=
  of_decide_eq_true (by kernel_rfl)

theorem missed2_sphere (inf rt : ℚ → ℚ) : circumsphere2R (double inf) (fun x => double inf (x * x)) rt ![190411364, 146236432] ![190411364, 146236431]
    ![190411362, 146236431] = ⟨![190411364, 146236432], rt 0⟩ := by
  rw [circumsphere2R_root, missed2_r]
  congr 1
  funext d
  fin_cases d
  · exact missed2_c0 inf
  · exact missed2_c1 inf

theorem missed2_box (inf : ℚ → ℚ) : intersectsR (double inf) ⟨![190411363, 146236431], ![190411363, 146236431]⟩ ⟨![190411364, 146236432], 0⟩ = false := by
  kernel_rfl

/-- Not for larger integer coordinates: the computed circle of this triangle has radius zero, and does not intersect the box of the midpoint of an edge,
which is strictly inside of the circle. -/
theorem C102_missed2_violated (inf : ℚ → ℚ) {rt : ℚ → ℚ} (hrt : rt 0 = 0) : ∃ s0 s1 s2 q c : Vec 2 ℚ, ∃ R : ℚ,
    (s0 0 - c 0) ^ 2 + (s0 1 - c 1) ^ 2 = R ∧ (s1 0 - c 0) ^ 2 + (s1 1 - c 1) ^ 2 = R ∧ (s2 0 - c 0) ^ 2 + (s2 1 - c 1) ^ 2 = R ∧
    (q 0 - c 0) ^ 2 + (q 1 - c 1) ^ 2 < R ∧ Geom.NonDeg2 s0 s1 s2 ∧
    (circumsphere2R (double inf) (fun x => double inf (x * x)) rt s0 s1 s2).radius = 0 ∧
    intersectsR (double inf) ⟨q, q⟩ (circumsphere2R (double inf) (fun x => double inf (x * x)) rt s0 s1 s2) = false := by
  have hs := missed2_sphere inf rt
  refine ⟨![190411364, 146236432], ![190411364, 146236431], ![190411362, 146236431], ![190411363, 146236431], ![190411363, 146236431 + 1 / 2], 5 / 4,
    ?_, ?_, ?_, ?_, ?_, ?_, ?_⟩
  · simp; norm_num
  · simp; norm_num
  · simp; norm_num
  · simp; norm_num
  · intro a b he
    have e1 := he 0
    have e2 := he 1
    norm_num at e1 e2
    constructor
    · linarith
    · linarith
  · rw [hs, hrt]
  · rw [hs, hrt]
    exact missed2_box inf

/-- The root is taken at the end. -/
theorem circumsphere3R_root (rd sq rt : ℚ → ℚ) (s0 s1 s2 s3 : Vec 3 ℚ) : circumsphere3R rd sq rt s0 s1 s2 s3 =
    ⟨(circumsphere3R rd sq id s0 s1 s2 s3).center, rt (circumsphere3R rd sq id s0 s1 s2 s3).radius⟩ := rfl

theorem missed3_c (inf : ℚ → ℚ) (d : Fin 3) : (circumsphere3R (double inf) (fun x => double inf (x * x)) id ![348216, 229940, 343312] ![348216, 229942, 343312]
    ![348216, 229940, 343314] ![348218, 229940, 343312]).center d = ![348216, 229940, 343312] d := by
  fin_cases d
  · exact le_antisymm (of_decide_eq_true (by kernel_rfl)) (not_lt.mp (of_decide_eq_false (by kernel_rfl)))
  · exact le_antisymm (of_decide_eq_true (by kernel_rfl)) (not_lt.mp (of_decide_eq_false (by kernel_rfl)))
  · exact le_antisymm (of_decide_eq_true (by kernel_rfl)) (not_lt.mp (of_decide_eq_false (by kernel_rfl)))

theorem missed3_r (inf : ℚ → ℚ) : (circumsphere3R (double inf) (fun x => double inf (x * x)) id ![348216, 229940, 343312] ![348216, 229942, 343312]
    ![348216, 229940, 343314] ![348218, 229940, 343312]).radius = 0 :=
  of_decide_eq_true (by kernel_rfl)

theorem missed3_sphere (inf rt : ℚ → ℚ) : circumsphere3R (double inf) (fun x => double inf (x * x)) rt ![348216, 229940, 343312] ![348216, 229942, 343312]
    ![348216, 229940, 343314] ![348218, 229940, 343312] = ⟨![348216, 229940, 343312], rt 0⟩ := by
  rw [circumsphere3R_root, missed3_r]
  congr 1
  funext d
  exact missed3_c inf d

theorem missed3_box (inf : ℚ → ℚ) : intersectsR (double inf) ⟨![348217, 229941, 343313], ![348217, 229941, 343313]⟩ ⟨![348216, 229940, 343312], 0⟩ = false := by
  kernel_rfl

/-- In space this happens with much smaller coordinates: the computed sphere of this tetrahedron, a corner of a cube with sides 2, has radius zero and
does not intersect the box of the center of the cube. -/
theorem C102_missed3_violated (inf : ℚ → ℚ) {rt : ℚ → ℚ} (hrt : rt 0 = 0) : ∃ s0 s1 s2 s3 q c : Vec 3 ℚ, ∃ R : ℚ,
    (s0 0 - c 0) ^ 2 + (s0 1 - c 1) ^ 2 + (s0 2 - c 2) ^ 2 = R ∧ (s1 0 - c 0) ^ 2 + (s1 1 - c 1) ^ 2 + (s1 2 - c 2) ^ 2 = R ∧
    (s2 0 - c 0) ^ 2 + (s2 1 - c 1) ^ 2 + (s2 2 - c 2) ^ 2 = R ∧ (s3 0 - c 0) ^ 2 + (s3 1 - c 1) ^ 2 + (s3 2 - c 2) ^ 2 = R ∧
    (q 0 - c 0) ^ 2 + (q 1 - c 1) ^ 2 + (q 2 - c 2) ^ 2 < R ∧ Geom.NonDeg3 s0 s1 s2 s3 ∧
    (∀ v ∈ [s0, s1, s2, s3, q], ∀ d, ∃ n : Int, v d = n ∧ |n| ≤ 2 ^ 19) ∧
    (circumsphere3R (double inf) (fun x => double inf (x * x)) rt s0 s1 s2 s3).radius = 0 ∧
    intersectsR (double inf) ⟨q, q⟩ (circumsphere3R (double inf) (fun x => double inf (x * x)) rt s0 s1 s2 s3) = false := by
  have hs := missed3_sphere inf rt
  have three : ∀ {v : Vec 3 ℚ} (a b c : Int), v = ![(a : ℚ), b, c] → |a| ≤ 2 ^ 19 → |b| ≤ 2 ^ 19 → |c| ≤ 2 ^ 19 → ∀ i, ∃ n : Int, v i = n ∧ |n| ≤ 2 ^ 19 := by
    rintro v a b c rfl ha hb hc i
    fin_cases i
    · exact ⟨a, by simp, ha⟩
    · exact ⟨b, by simp, hb⟩
    · exact ⟨c, by simp, hc⟩
  refine ⟨![348216, 229940, 343312], ![348216, 229942, 343312], ![348216, 229940, 343314], ![348218, 229940, 343312], ![348217, 229941, 343313],
    ![348217, 229941, 343313], 3, ?_, ?_, ?_, ?_, ?_, ?_, ?_, ?_, ?_⟩
  · simp; norm_num
  · simp; norm_num
  · simp; norm_num
  · simp; norm_num
  · simp
  · intro a b c he
    have e1 := he 0
    have e2 := he 1
    have e3 := he 2
    simp at e1 e2 e3
    norm_num at e1 e2 e3
    refine ⟨?_, ?_, ?_⟩ <;> linarith
  · intro v hv
    simp only [List.mem_cons, List.not_mem_nil, or_false] at hv
    rcases hv with rfl | rfl | rfl | rfl | rfl
    · exact three 348216 229940 343312 (by norm_num) (by norm_num) (by norm_num) (by norm_num)
    · exact three 348216 229942 343312 (by norm_num) (by norm_num) (by norm_num) (by norm_num)
    · exact three 348216 229940 343314 (by norm_num) (by norm_num) (by norm_num) (by norm_num)
    · exact three 348218 229940 343312 (by norm_num) (by norm_num) (by norm_num) (by norm_num)
    · exact three 348217 229941 343313 (by norm_num) (by norm_num) (by norm_num) (by norm_num)
  · rw [hs, hrt]
  · rw [hs, hrt]
    exact missed3_box inf

end FPM
end Verif
