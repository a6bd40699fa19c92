import Verif.Lemmas.IEEE
import Verif.Props.Insphere2
import Verif.Props.Insphere3

/-!
# C97: the adaptive tests with the exponents of `double` and `float`

The statements C91, C93, C94 and C95 are about numbers with unbounded exponents. Here the code runs with the arithmetic of the machine:
gradual underflow and overflow, whatever an overflow yields. For coordinates in the stated range neither of them has an influence, and
the results have the signs of the exact determinants. For arbitrary coordinates this is wrong.
-/
namespace Verif
open FPM

/-- A floating point number with `p` digits, a multiple of `2 ^ q`, and at most `2 ^ m`. -/
def Coord (p : Nat) (q m : Int) (x : ℚ) : Prop := ∃ n k : Int, |n| < 2 ^ p ∧ q ≤ k ∧ x = n * 2 ^ k ∧ |x| ≤ 2 ^ m

def Coord2 (p : Nat) (q m : Int) (a : ℚ × ℚ) : Prop := Coord p q m a.1 ∧ Coord p q m a.2

def Coord3 (p : Nat) (q m : Int) (a : ℚ × ℚ × ℚ) : Prop := Coord p q m a.1 ∧ Coord p q m a.2.1 ∧ Coord p q m a.2.2

theorem Coord.isFloat {p : Nat} {q m : Int} {x : ℚ} (h : Coord p q m x) : FP.IsFloat p x := by
  obtain ⟨n, k, h1, -, h2, -⟩ := h
  exact ⟨n, k, h1, h2⟩

theorem Coord.b {p : Nat} {q m : Int} {x : ℚ} (h : Coord p q m x) : B q m 1 0 x := by
  obtain ⟨n, k, -, h1, h2, h3⟩ := h
  refine ⟨?_, by simpa using h3⟩
  simp only [Nat.cast_one, one_mul]
  exact FP.Mul.mono ⟨n, h2⟩ h1

theorem Coord2.isPoint {p : Nat} {q m : Int} {a : ℚ × ℚ} (h : Coord2 p q m a) : FP.IsPoint2 p a := ⟨h.1.isFloat, h.2.isFloat⟩

theorem Coord2.p2 {p : Nat} {q m : Int} {a : ℚ × ℚ} (h : Coord2 p q m a) : P2 q m a := ⟨h.1.b, h.2.b⟩

theorem Coord3.isPoint {p : Nat} {q m : Int} {a : ℚ × ℚ × ℚ} (h : Coord3 p q m a) : FP.IsPoint3 p a := ⟨h.1.isFloat, h.2.1.isFloat, h.2.2.isFloat⟩

theorem Coord3.p3 {p : Nat} {q m : Int} {a : ℚ × ℚ × ℚ} (h : Coord3 p q m a) : P3 q m a := ⟨h.1.b, h.2.1.b, h.2.2.b⟩

private theorem lt_big {x : ℚ} {n : Int} (h : x < 2) (hn : 1 ≤ n) : x < 2 ^ n := by
  have := FP.two_zpow_le hn
  rw [zpow_one] at this
  linarith

private theorem le_big {x : ℚ} {n : Int} (h : x ≤ 1) (hn : 0 ≤ n) : x ≤ 2 ^ n := by
  have := FP.two_zpow_le hn
  rw [zpow_zero] at this
  linarith

/-! ### Constants -/

/-- The constructor computes the same constants as with unbounded exponents. -/
theorem C97_constants_double (inf : ℚ → ℚ) (k : FP.Consts) : Returns (init (double inf) (double inf)) k ↔ Returns (FP.init 53) k := by
  have key : ∀ {c}, Returns (FP.init 53) c → Returns (init (double inf) (double inf)) c := by
    refine fun h => init_eq (by norm_num) ?_ ?_ ?_ h
    · exact fix_ieee (by norm_num) (by norm_num) (by norm_num) (by norm_num)
    · exact fix_ieee (by norm_num) (by norm_num) (by norm_num) (by norm_num)
    · have h1 : double inf (1 + 2 ^ (-(53 : Nat) : Int)) = 1 := by
        rw [double, ieee_eq (by norm_num), FP.rnd_one_add (by norm_num) (by norm_num) (by norm_num), if_pos le_rfl]
        · refine FP.Mul.add ?_ (FP.Mul.pow (by norm_num))
          simpa using FP.Mul.pow (k := 0) (l := -1074) (by norm_num)
        · exact lt_big (by norm_num) (by norm_num)
      have h2 : double inf 1 = 1 := by
        have h3 := FP.Rep.pow 53 (by norm_num) 0
        rw [zpow_zero] at h3
        rw [double, ieee_eq (by norm_num), FP.rnd_rep h3]
        · simpa using FP.Mul.pow (k := 0) (l := -1074) (by norm_num)
        · exact lt_big (by norm_num) (by norm_num)
      rw [h1, h2]
  refine ⟨fun h => ?_, key⟩
  obtain ⟨c, h1, -⟩ := FP.consts_ok (p := 53) (by norm_num)
  rw [h.unique (key h1)]
  exact h1

/-- The same for `float`. The operations with literals are computed as `double` and the results are rounded again. -/
theorem C97_constants_float (inf inf' : ℚ → ℚ) (k : FP.Consts) : Returns (init (single inf) (double inf')) k ↔ Returns (FP.init 24) k := by
  have key : ∀ {c}, Returns (FP.init 24) c → Returns (init (single inf) (double inf')) c := by
    refine fun h => init_eq (by norm_num) ?_ ?_ ?_ h
    · exact fix_ieee (by norm_num) (by norm_num) (by norm_num) (by norm_num)
    · exact fix_ieee (by norm_num) (by norm_num) (by norm_num) (by norm_num)
    · have h0 : ∀ l : Int, l ≤ -24 → FP.Mul l (1 + (2 : ℚ) ^ (-(24 : Nat) : Int)) := by
        refine fun l hl => FP.Mul.add ?_ (FP.Mul.pow (by push_cast; omega))
        simpa using FP.Mul.pow (k := 0) (l := l) (by omega)
      have h1 : double inf' (1 + 2 ^ (-(24 : Nat) : Int)) = 1 + 2 ^ (-(24 : Nat) : Int) := by
        rw [double, ieee_eq (by norm_num) (h0 _ (by norm_num)) (lt_big (by norm_num) (by norm_num))]
        exact FP.rnd_of_mul (by norm_num) (h0 (-24) le_rfl) (by norm_num)
      rw [h1, single, ieee_eq (by norm_num) (h0 _ (by norm_num)) (lt_big (by norm_num) (by norm_num)), FP.rnd_one_add (by norm_num) (by norm_num) (by norm_num), if_pos le_rfl]
  refine ⟨fun h => ?_, key⟩
  obtain ⟨c, h1, -⟩ := FP.consts_ok (p := 24) (by norm_num)
  rw [h.unique (key h1)]
  exact h1

private theorem csts_of {p : Nat} (hp : 13 ≤ p) {k : FP.Consts} (hk : Returns (FP.init p) k) : Csts p k := by
  obtain ⟨c, h1, h2⟩ := FP.consts_ok (p := p) (by omega)
  rw [hk.unique h1]
  exact csts hp h2

/-! ### Tests in the plane -/

/-- The orientation test with `double`. -/
theorem C97_orient2_double (inf : ℚ → ℚ) {k : FP.Consts} (hk : Returns (init (double inf) (double inf)) k) {a b c : ℚ × ℚ}
    (ha : Coord2 53 (-457) 454 a) (hb : Coord2 53 (-457) 454 b) (hc : Coord2 53 (-457) 454 c) :
    ∃ v, orient2 (double inf) k a b c = .done v ∧ SignType.sign v = SignType.sign (Geom.orient2 ![a.1, a.2] ![b.1, b.2] ![c.1, c.2]) := by
  rw [C97_constants_double] at hk
  have H : Rng 53 (double inf) (-457) 454 2 60 := rng_ieee (by norm_num) (by norm_num) (by norm_num) (by norm_num) (by norm_num)
  obtain ⟨v, h1, h2, -⟩ := orient2_E H (by norm_num) (by norm_num) (csts_of (by norm_num) hk) ha.p2 hb.p2 hc.p2
  exact ⟨v, h1, by rw [h2]; exact FP.C91_orient2d (by norm_num) hk ha.isPoint hb.isPoint hc.isPoint⟩

/-- The orientation test with `float`. -/
theorem C97_orient2_float (inf inf' : ℚ → ℚ) {k : FP.Consts} (hk : Returns (init (single inf) (double inf')) k) {a b c : ℚ × ℚ}
    (ha : Coord2 24 (-38) 21 a) (hb : Coord2 24 (-38) 21 b) (hc : Coord2 24 (-38) 21 c) :
    ∃ v, orient2 (single inf) k a b c = .done v ∧ SignType.sign v = SignType.sign (Geom.orient2 ![a.1, a.2] ![b.1, b.2] ![c.1, c.2]) := by
  rw [C97_constants_float] at hk
  have H : Rng 24 (single inf) (-38) 21 2 60 := rng_ieee (by norm_num) (by norm_num) (by norm_num) (by norm_num) (by norm_num)
  obtain ⟨v, h1, h2, -⟩ := orient2_E H (by norm_num) (by norm_num) (csts_of (by norm_num) hk) ha.p2 hb.p2 hc.p2
  exact ⟨v, h1, by rw [h2]; exact FP.C91_orient2d (by norm_num) hk ha.isPoint hb.isPoint hc.isPoint⟩

/-- The incircle test with `double`. -/
theorem C97_insphere2_double (inf : ℚ → ℚ) {k : FP.Consts} (hk : Returns (init (double inf) (double inf)) k) {a b c d : ℚ × ℚ}
    (ha : Coord2 53 (-228) 117 a) (hb : Coord2 53 (-228) 117 b) (hc : Coord2 53 (-228) 117 c) (hd : Coord2 53 (-228) 117 d) :
    ∃ v, insphere2 (double inf) k a b c d = .done v ∧
      SignType.sign v = SignType.sign (Geom.insphereDet2 ![a.1, a.2] ![b.1, b.2] ![c.1, c.2] ![d.1, d.2]) := by
  rw [C97_constants_double] at hk
  have H : Rng 53 (double inf) (-228) 117 4 500 := rng_ieee (by norm_num) (by norm_num) (by norm_num) (by norm_num) (by norm_num)
  obtain ⟨v, h1, h2, -⟩ := insphere2_E H (by norm_num) (by norm_num) (csts_of (by norm_num) hk) ha.p2 hb.p2 hc.p2 hd.p2
  exact ⟨v, h1, by rw [h2]; exact FP.C93_insphere2d (by norm_num) hk ha.isPoint hb.isPoint hc.isPoint hd.isPoint⟩

/-- `inSphere` in the plane with `double`. -/
theorem C97_inSphere2_double (inf : ℚ → ℚ) {k : FP.Consts} (hk : Returns (init (double inf) (double inf)) k) {a b c d : ℚ × ℚ}
    (ha : Coord2 53 (-179) 82 a) (hb : Coord2 53 (-179) 82 b) (hc : Coord2 53 (-179) 82 c) (hd : Coord2 53 (-179) 82 d) :
    inSphere2 (double inf) k d a b c = .done (Geom.inSphere2 ![d.1, d.2] ![a.1, a.2] ![b.1, b.2] ![c.1, c.2]) := by
  rw [C97_constants_double] at hk
  have H : Rng 53 (double inf) (-179) 82 4 500 := rng_ieee (by norm_num) (by norm_num) (by norm_num) (by norm_num) (by norm_num)
  have hC := csts_of (p := 53) (by norm_num) hk
  obtain ⟨v, h1, h2, g1⟩ := orient2_E H (by norm_num) (by norm_num) hC ha.p2 hb.p2 hc.p2
  obtain ⟨u, h3, h4, g2⟩ := insphere2_E H (by norm_num) (by norm_num) hC ha.p2 hb.p2 hc.p2 hd.p2
  have g3 := g1.mul g2
  rw [← FP.C93_inSphere2d (by norm_num) hk ha.isPoint hb.isPoint hc.isPoint hd.isPoint]
  unfold inSphere2 FP.inSphereFl2
  rw [h1, h3]
  change Res.done _ = _
  rw [h2, h4, double, ieee_eq (by norm_num) (g3.1.mono (by norm_num)) (lt_of_le_of_lt g3.2 (FP.two_zpow_lt (by norm_num)))]

/-! ### Tests in space -/

/-- The orientation test with `double`. -/
theorem C97_orient3_double (inf : ℚ → ℚ) {k : FP.Consts} (hk : Returns (init (double inf) (double inf)) k) {a b c d : ℚ × ℚ × ℚ}
    (ha : Coord3 53 (-305) 206 a) (hb : Coord3 53 (-305) 206 b) (hc : Coord3 53 (-305) 206 c) (hd : Coord3 53 (-305) 206 d) :
    ∃ v, orient3 (double inf) k a b c d = .done v ∧
      SignType.sign v = SignType.sign (Geom.orient3 ![a.1, a.2.1, a.2.2] ![b.1, b.2.1, b.2.2] ![c.1, c.2.1, c.2.2] ![d.1, d.2.1, d.2.2]) := by
  rw [C97_constants_double] at hk
  have H : Rng 53 (double inf) (-305) 206 3 350 := rng_ieee (by norm_num) (by norm_num) (by norm_num) (by norm_num) (by norm_num)
  obtain ⟨v, h1, h2, -⟩ := orient3_E H (by norm_num) (by norm_num) (csts_of (by norm_num) hk) ha.p3 hb.p3 hc.p3 hd.p3
  exact ⟨v, h1, by rw [h2]; exact FP.C94_orient3d (by norm_num) hk ha.isPoint hb.isPoint hc.isPoint hd.isPoint⟩

/-- The insphere test with `double`. -/
theorem C97_insphere3_double (inf : ℚ → ℚ) {k : FP.Consts} (hk : Returns (init (double inf) (double inf)) k) {a b c d e : ℚ × ℚ × ℚ}
    (ha : Coord3 53 (-183) 141 a) (hb : Coord3 53 (-183) 141 b) (hc : Coord3 53 (-183) 141 c) (hd : Coord3 53 (-183) 141 d)
    (he : Coord3 53 (-183) 141 e) :
    ∃ v, insphere3 (double inf) k a b c d e = .done v ∧ SignType.sign v =
      SignType.sign (Geom.insphereDet3 ![a.1, a.2.1, a.2.2] ![b.1, b.2.1, b.2.2] ![c.1, c.2.1, c.2.2] ![d.1, d.2.1, d.2.2] ![e.1, e.2.1, e.2.2]) := by
  rw [C97_constants_double] at hk
  have H : Rng 53 (double inf) (-183) 141 5 260 := rng_ieee (by norm_num) (by norm_num) (by norm_num) (by norm_num) (by norm_num)
  obtain ⟨v, h1, h2, -⟩ := insphere3_E H (by norm_num) (by norm_num) (csts_of (by norm_num) hk) ha.p3 hb.p3 hc.p3 hd.p3 he.p3
  exact ⟨v, h1, by rw [h2]; exact FP.C95_insphere3d (by norm_num) hk ha.isPoint hb.isPoint hc.isPoint hd.isPoint he.isPoint⟩

/-- `inSphere` in space with `double`. -/
theorem C97_inSphere3_double (inf : ℚ → ℚ) {k : FP.Consts} (hk : Returns (init (double inf) (double inf)) k) {a b c d e : ℚ × ℚ × ℚ}
    (ha : Coord3 53 (-134) 55 a) (hb : Coord3 53 (-134) 55 b) (hc : Coord3 53 (-134) 55 c) (hd : Coord3 53 (-134) 55 d)
    (he : Coord3 53 (-134) 55 e) :
    inSphere3 (double inf) k e a b c d =
      .done (Geom.inSphere3 ![e.1, e.2.1, e.2.2] ![a.1, a.2.1, a.2.2] ![b.1, b.2.1, b.2.2] ![c.1, c.2.1, c.2.2] ![d.1, d.2.1, d.2.2]) := by
  rw [C97_constants_double] at hk
  have H : Rng 53 (double inf) (-134) 55 5 350 := rng_ieee (by norm_num) (by norm_num) (by norm_num) (by norm_num) (by norm_num)
  have hC := csts_of (p := 53) (by norm_num) hk
  obtain ⟨v, h1, h2, g1⟩ := orient3_E H (by norm_num) (by norm_num) hC ha.p3 hb.p3 hc.p3 hd.p3
  obtain ⟨u, h3, h4, g2⟩ := insphere3_E H (by norm_num) (by norm_num) hC ha.p3 hb.p3 hc.p3 hd.p3 he.p3
  have g3 := g1.mul g2
  rw [← FP.C95_inSphere3d (by norm_num) hk ha.isPoint hb.isPoint hc.isPoint hd.isPoint he.isPoint]
  unfold inSphere3 FP.inSphereFl3
  rw [h1, h3]
  change Res.done _ = _
  rw [h2, h4, double, ieee_eq (by norm_num) (g3.1.mono (by norm_num)) (lt_of_le_of_lt g3.2 (FP.two_zpow_lt (by norm_num)))]

/-! ### Limits -/

/-- With arbitrary coordinates the orientation test is wrong: three points that are not on a line, with coordinates `2 ^ (-600)`. The
products underflow. -/
theorem C97_orient2_violated (inf : ℚ → ℚ) (k : FP.Consts) : ∃ a b c : ℚ × ℚ, Coord2 53 (-1074) 0 a ∧ Coord2 53 (-1074) 0 b ∧ Coord2 53 (-1074) 0 c ∧
    0 < Geom.orient2 ![a.1, a.2] ![b.1, b.2] ![c.1, c.2] ∧ orient2 (double inf) k a b c = .done 0 := by
  have h0 : Coord 53 (-1074) 0 0 := ⟨0, 0, by norm_num, by norm_num, by norm_num, by norm_num⟩
  have h1 : Coord 53 (-1074) 0 (2 ^ (-600 : Int)) := by
    refine ⟨1, -600, by norm_num, by norm_num, by norm_num, ?_⟩
    rw [abs_of_pos (FP.two_zpow_pos _)]
    exact FP.two_zpow_le (by norm_num)
  refine ⟨(2 ^ (-600 : Int), 0), (0, 2 ^ (-600 : Int)), (0, 0), ⟨h1, h0⟩, ⟨h0, h1⟩, ⟨h0, h0⟩, ?_, ?_⟩
  · simp only [Geom.orient2, Matrix.cons_val_zero, Matrix.cons_val_one]
    have := FP.two_zpow_pos (-600)
    nlinarith
  · have e0 : double inf 0 = 0 := by
      rw [double, ieee_eq (by norm_num) (FP.Mul.zero _) (by norm_num), FP.rnd_zero]
    have e1 : double inf (2 ^ (-600 : Int)) = 2 ^ (-600 : Int) := by
      rw [double, ieee_eq (by norm_num) (FP.Mul.pow (by norm_num)), FP.rnd_rep (FP.Rep.pow 53 (by norm_num) _)]
      rw [abs_of_pos (FP.two_zpow_pos _)]
      exact FP.two_zpow_lt (by norm_num)
    have e2 : double inf ((2 : ℚ) ^ (-600 : Int) * 2 ^ (-600 : Int)) = 0 := by
      have : rndB 53 (-1074) ((2 : ℚ) ^ (-600 : Int) * 2 ^ (-600 : Int)) = 0 := by decide +kernel
      rw [double, ieee, this, if_neg]
      rw [abs_zero, not_le]
      exact FP.two_zpow_pos _
    simp only [orient2, sub_zero, zero_sub, mul_zero, zero_mul, e0, e1, e2, lt_irrefl, if_false]

/-- Points of the unit square: two neighbours of the diagonal. -/
example (inf : ℚ → ℚ) {k : FP.Consts} (hk : Returns (init (double inf) (double inf)) k) :
    ∃ v, orient2 (double inf) k (0, 0) (1 / 3 * (1 - 2 ^ (-52 : Int)), 1 / 3 * (1 - 2 ^ (-52 : Int))) (1, 1 - 2 ^ (-53 : Int)) = .done v ∧ v < 0 := by
  obtain ⟨v, h, hs⟩ := C97_orient2_double inf hk (a := (0, 0)) (b := (1 / 3 * (1 - 2 ^ (-52 : Int)), 1 / 3 * (1 - 2 ^ (-52 : Int))))
    (c := (1, 1 - 2 ^ (-53 : Int)))
    ⟨⟨0, 0, by norm_num, by norm_num, by norm_num, by norm_num⟩, ⟨0, 0, by norm_num, by norm_num, by norm_num, by norm_num⟩⟩
    ⟨⟨1501199875790165, -52, by norm_num, by norm_num, by norm_num, le_big (by norm_num) (by norm_num)⟩,
      ⟨1501199875790165, -52, by norm_num, by norm_num, by norm_num, le_big (by norm_num) (by norm_num)⟩⟩
    ⟨⟨1, 0, by norm_num, by norm_num, by norm_num, le_big (by norm_num) (by norm_num)⟩, ⟨2 ^ 53 - 1, -53, by norm_num, by norm_num, by norm_num, le_big (by norm_num) (by norm_num)⟩⟩
  refine ⟨v, h, ?_⟩
  have h2 : SignType.sign (Geom.orient2 ![(0 : ℚ), 0] ![1 / 3 * (1 - 2 ^ (-52 : Int)), 1 / 3 * (1 - 2 ^ (-52 : Int))] ![1, 1 - 2 ^ (-53 : Int)]) = -1 := by
    rw [sign_eq_neg_one_iff]
    simp only [Geom.orient2, Matrix.cons_val_zero, Matrix.cons_val_one]
    norm_num
  rw [h2, sign_eq_neg_one_iff] at hs
  exact hs

/-- Five points near a sphere, in the grid of the unit cube. -/
example (inf : ℚ → ℚ) {k : FP.Consts} (hk : Returns (init (double inf) (double inf)) k) :
    inSphere3 (double inf) k (0, 0, 2 ^ (-100 : Int)) (1, 0, 0) (0, 1, 0) (0, 0, 1) (0, 0, 0) = .done true ∧
    inSphere3 (double inf) k (0, 0, -2 ^ (-100 : Int)) (1, 0, 0) (0, 1, 0) (0, 0, 1) (0, 0, 0) = .done false := by
  have h0 : Coord 53 (-134) 55 0 := ⟨0, 0, by norm_num, by norm_num, by norm_num, by norm_num⟩
  have h1 : Coord 53 (-134) 55 1 := ⟨1, 0, by norm_num, by norm_num, by norm_num, by norm_num⟩
  have h2 : Coord 53 (-134) 55 (2 ^ (-100 : Int)) := ⟨1, -100, by norm_num, by norm_num, by norm_num, by norm_num⟩
  have h3 : Coord 53 (-134) 55 (-2 ^ (-100 : Int)) := ⟨-1, -100, by norm_num, by norm_num, by norm_num, by norm_num⟩
  constructor
  · rw [C97_inSphere3_double inf hk ⟨h1, h0, h0⟩ ⟨h0, h1, h0⟩ ⟨h0, h0, h1⟩ ⟨h0, h0, h0⟩ ⟨h0, h0, h2⟩]
    decide +kernel
  · rw [C97_inSphere3_double inf hk ⟨h1, h0, h0⟩ ⟨h0, h1, h0⟩ ⟨h0, h0, h1⟩ ⟨h0, h0, h0⟩ ⟨h0, h0, h3⟩]
    decide +kernel

private theorem coord_int {p : Nat} {q m : Int} (n : Int) (hn : |n| < 2 ^ p) (hq : q ≤ 0) (hm : |(n : ℚ)| ≤ 2 ^ m) : Coord p q m n :=
  ⟨n, 0, hn, hq, by simp, hm⟩

/-- Three points in the grid of `float` that are nearly on a line. -/
example (inf inf' : ℚ → ℚ) {k : FP.Consts} (hk : Returns (init (single inf) (double inf')) k) :
    ∃ v, orient2 (single inf) k (0, 0) ((1048575 : Int), (1048574 : Int)) ((1048573 : Int), (1048572 : Int)) = .done v ∧ SignType.sign v = -1 := by
  obtain ⟨v, h, hs⟩ := C97_orient2_float inf inf' hk (a := (0, 0)) (b := ((1048575 : Int), (1048574 : Int))) (c := ((1048573 : Int), (1048572 : Int)))
    ⟨⟨0, 0, by norm_num, by norm_num, by norm_num, by norm_num⟩, ⟨0, 0, by norm_num, by norm_num, by norm_num, by norm_num⟩⟩
    ⟨coord_int _ (by norm_num) (by norm_num) (by norm_num), coord_int _ (by norm_num) (by norm_num) (by norm_num)⟩
    ⟨coord_int _ (by norm_num) (by norm_num) (by norm_num), coord_int _ (by norm_num) (by norm_num) (by norm_num)⟩
  refine ⟨v, h, hs.trans ?_⟩
  rw [sign_eq_neg_one_iff]
  simp only [Geom.orient2, Matrix.cons_val_zero, Matrix.cons_val_one]
  norm_num

/-- Four points on a circle, one of them moved by `2 ^ (-200)`. -/
example (inf : ℚ → ℚ) {k : FP.Consts} (hk : Returns (init (double inf) (double inf)) k) :
    ∃ v, insphere2 (double inf) k (1, 0) (0, 1) (-1, 0) (2 ^ (-200 : Int), -1) = .done v ∧ SignType.sign v = -1 := by
  have h0 : Coord 53 (-228) 117 0 := ⟨0, 0, by norm_num, by norm_num, by norm_num, by norm_num⟩
  have h1 : Coord 53 (-228) 117 1 := ⟨1, 0, by norm_num, by norm_num, by norm_num, by norm_num⟩
  have h2 : Coord 53 (-228) 117 (-1) := ⟨-1, 0, by norm_num, by norm_num, by norm_num, by norm_num⟩
  have h3 : Coord 53 (-228) 117 (2 ^ (-200 : Int)) := ⟨1, -200, by norm_num, by norm_num, by norm_num, by norm_num⟩
  obtain ⟨v, h, hs⟩ := C97_insphere2_double inf hk (a := (1, 0)) (b := (0, 1)) (c := (-1, 0)) (d := (2 ^ (-200 : Int), -1)) ⟨h1, h0⟩ ⟨h0, h1⟩ ⟨h2, h0⟩
    ⟨h3, h2⟩
  exact ⟨v, h, hs.trans (by decide +kernel)⟩

/-- Four points on a plane, one of them moved by `2 ^ (-300)`. -/
example (inf : ℚ → ℚ) {k : FP.Consts} (hk : Returns (init (double inf) (double inf)) k) :
    ∃ v, orient3 (double inf) k (1, 0, 0) (0, 1, 0) (1, 1, 0) (0, 0, 2 ^ (-300 : Int)) = .done v ∧ v ≠ 0 := by
  have h0 : Coord 53 (-305) 206 0 := ⟨0, 0, by norm_num, by norm_num, by norm_num, by norm_num⟩
  have h1 : Coord 53 (-305) 206 1 := ⟨1, 0, by norm_num, by norm_num, by norm_num, le_big (by norm_num) (by norm_num)⟩
  have h3 : Coord 53 (-305) 206 (2 ^ (-300 : Int)) := by
    refine ⟨1, -300, by norm_num, by norm_num, by norm_num, ?_⟩
    rw [abs_of_pos (FP.two_zpow_pos _)]
    exact FP.two_zpow_le (by norm_num)
  obtain ⟨v, h, hs⟩ := C97_orient3_double inf hk (a := (1, 0, 0)) (b := (0, 1, 0)) (c := (1, 1, 0)) (d := (0, 0, 2 ^ (-300 : Int))) ⟨h1, h0, h0⟩ ⟨h0, h1, h0⟩
    ⟨h1, h1, h0⟩ ⟨h0, h0, h3⟩
  refine ⟨v, h, ?_⟩
  rintro rfl
  have : SignType.sign (Geom.orient3 ![(1 : ℚ), 0, 0] ![0, 1, 0] ![1, 1, 0] ![0, 0, 2 ^ (-300 : Int)]) ≠ 0 := by decide +kernel
  rw [sign_zero] at hs
  exact this hs.symm

end Verif
