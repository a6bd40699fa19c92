import Verif.Lemmas.MachineLen
import Verif.Lemmas.EFT

/-!
# Arithmetic with bounded exponents

`B q m d s x`: `x` is a multiple of `2 ^ (d * q)` and at most `2 ^ (d * m + s)`. Numbers of the tests that are polynomials of degree `d` in the
coordinates have this property.
-/
namespace Verif
namespace FPM
open FP (Consts Side Side3 emit pickE finish top rnd Mul Rep)

def B (q m : Int) (d s : Nat) (x : ℚ) : Prop := Mul (d * q) x ∧ |x| ≤ 2 ^ (d * m + s : Int)

/-- The rounding `rd` agrees with rounding to `p` digits for all numbers that are not too large and have no digits that are too small. -/
structure Rng (p : Nat) (rd : ℚ → ℚ) (q m : Int) (D S : Nat) : Prop where
  hp : 13 ≤ p
  hr : ∀ x, Mul (D * q - 3 * p) x → |x| ≤ 2 ^ (D * m + S + p : Int) → rd x = rnd p x
  hq : q ≤ 0
  hm : 0 ≤ m

section
variable {q m : Int} {d e s t : Nat} {x y : ℚ}

theorem B.le (h : B q m d s x) (hst : s ≤ t) : B q m d t x := ⟨h.1, h.2.trans (FP.two_zpow_le (by omega))⟩

theorem B.add (hx : B q m d s x) (hy : B q m d t y) : B q m d (max s t + 1) (x + y) := by
  refine ⟨hx.1.add hy.1, ?_⟩
  have h1 := (hx.le (le_max_left s t)).2
  have h2 := (hy.le (le_max_right s t)).2
  have e : (d * m + (max s t + 1 : Nat) : Int) = (d * m + (max s t : Nat)) + 1 := by push_cast; ring
  rw [e, FP.two_zpow_succ]
  have := abs_add_le x y
  linarith

theorem B.neg (hx : B q m d s x) : B q m d s (-x) := ⟨hx.1.neg, by rw [abs_neg]; exact hx.2⟩

theorem B.sub (hx : B q m d s x) (hy : B q m d t y) : B q m d (max s t + 1) (x - y) := by
  rw [sub_eq_add_neg]; exact hx.add hy.neg

theorem B.mul (hx : B q m d s x) (hy : B q m e t y) : B q m (d + e) (s + t) (x * y) := by
  refine ⟨?_, ?_⟩
  · have := hx.1.mul hy.1
    have h : ((d + e : Nat) : Int) * q = d * q + e * q := by push_cast; ring
    rw [h]; exact this
  · have h : ((d + e : Nat) : Int) * m + (s + t : Nat) = (d * m + s) + (e * m + t) := by push_cast; ring
    rw [h, zpow_add₀ (by norm_num), abs_mul]
    exact mul_le_mul hx.2 hy.2 (abs_nonneg _) (FP.two_zpow_pos _).le

theorem B.abs (hx : B q m d s x) : B q m d s |x| := ⟨hx.1.abs, by rw [abs_abs]; exact hx.2⟩

theorem B.two (hx : B q m d s x) : B q m d (s + 1) (2 * x) := by
  have := (hx.add hx).le (t := s + 1) (by simp)
  rwa [← two_mul] at this

theorem B.rnd {p : Nat} (hp : 0 < p) (hx : B q m d s x) : B q m d s (rnd p x) :=
  ⟨FP.rnd_mul hx.1, FP.abs_rnd_le hp (Rep.pow p hp _) hx.2⟩

theorem B.zero : B q m d s 0 := ⟨Mul.zero _, by rw [abs_zero]; exact (FP.two_zpow_pos _).le⟩

end

section
variable {p : Nat} {rd : ℚ → ℚ} {q m : Int} {D S : Nat}

theorem Rng.pos (H : Rng p rd q m D S) : 0 < p := by have := H.hp; omega

theorem Rng.eq' (H : Rng p rd q m D S) {d : Nat} {x : ℚ} (h : Mul (d * q) x) (hx : |x| ≤ 2 ^ (d * m + S + p : Int)) (hd : d ≤ D) : rd x = rnd p x := by
  have h1 : (D : Int) * q ≤ d * q := by
    have : (d : Int) ≤ D := by exact_mod_cast hd
    nlinarith [H.hq]
  have h2 : (d : Int) * m ≤ D * m := by
    have : (d : Int) ≤ D := by exact_mod_cast hd
    nlinarith [H.hm]
  refine H.hr x (h.mono ?_) (hx.trans (FP.two_zpow_le ?_))
  · have : (0 : Int) ≤ p := by positivity
    linarith
  · linarith

theorem Rng.eq (H : Rng p rd q m D S) {d s : Nat} {x : ℚ} (h : B q m d s x) (hd : d ≤ D) (hs : s ≤ S + p) : rd x = rnd p x :=
  H.eq' h.1 (h.2.trans (FP.two_zpow_le (by push_cast at *; omega))) hd

/-- `x` is the number that the machine computes, `y` the one that is computed with unbounded exponents. -/
def E (q m : Int) (d s : Nat) (x y : ℚ) : Prop := x = y ∧ B q m d s y

variable {d e s t : Nat} {x y x' y' : ℚ}

theorem E.of (h : B q m d s x) : E q m d s x x := ⟨rfl, h⟩

theorem E.le (h : E q m d s x y) (hst : s ≤ t) : E q m d t x y := ⟨h.1, h.2.le hst⟩

theorem E.add (h : E q m d s x y) (h' : E q m d t x' y') : E q m d (max s t + 1) (x + x') (y + y') := ⟨by rw [h.1, h'.1], h.2.add h'.2⟩

theorem E.sub (h : E q m d s x y) (h' : E q m d t x' y') : E q m d (max s t + 1) (x - x') (y - y') := ⟨by rw [h.1, h'.1], h.2.sub h'.2⟩

theorem E.mul (h : E q m d s x y) (h' : E q m e t x' y') : E q m (d + e) (s + t) (x * x') (y * y') := ⟨by rw [h.1, h'.1], h.2.mul h'.2⟩

theorem E.mulD {f : Nat} (h : E q m d s x y) (h' : E q m e t x' y') (hf : d + e = f) : E q m f (s + t) (x * x') (y * y') := hf ▸ h.mul h'

theorem E.neg (h : E q m d s x y) : E q m d s (-x) (-y) := ⟨by rw [h.1], h.2.neg⟩

theorem E.abs (h : E q m d s x y) : E q m d s |x| |y| := ⟨by rw [h.1], h.2.abs⟩

theorem E.two (h : E q m d s x y) : E q m d (s + 1) (2 * x) (2 * y) := ⟨by rw [h.1], h.2.two⟩

theorem E.round (H : Rng p rd q m D S) (h : E q m d s x y) (hd : d ≤ D) (hs : s ≤ S) : E q m d s (rd x) (rnd p y) :=
  ⟨by rw [h.1]; exact H.eq h.2 hd (by omega), h.2.rnd H.pos⟩

/-- Proves that two terms with the same structure are equal and bounded. -/
macro "ee " H:term : tactic => `(tactic| repeat' (first
  | with_reducible (show E _ _ _ _ _ _; assumption)
  | with_reducible apply E.round $H
  | with_reducible apply E.two
  | with_reducible apply E.add
  | with_reducible apply E.sub
  | with_reducible apply E.mul
  | with_reducible apply E.mulD
  | with_reducible apply E.neg
  | with_reducible apply E.abs
  | omega))

/-- The same up to the bound. -/
macro "eb " H:term : tactic => `(tactic| exact E.le (by ee $H) (by omega))

/-! ### Macros -/

theorem fastTwoSum_E (H : Rng p rd q m D S) {a b a' b' : ℚ} (ha : E q m d s a a') (hb : E q m d s b b') (hd : d ≤ D) (hs : s + 3 ≤ S) :
    E q m d (s + 1) (fastTwoSum rd a b).1 (FP.fastTwoSum p a' b').1 ∧ E q m d (s + 3) (fastTwoSum rd a b).2 (FP.fastTwoSum p a' b').2 := by
  unfold fastTwoSum FP.fastTwoSum
  simp only []
  have h1 : E q m d (s + 1) (rd (a + b)) (rnd p (a' + b')) := by
    exact E.le (E.round H (E.add ha hb) hd (by omega)) (by omega)
  refine ⟨h1, ?_⟩
  eb H

theorem twoSumTail_E (H : Rng p rd q m D S) {a b x a' b' x' : ℚ} (ha : E q m d s a a') (hb : E q m d s b b') (hx : E q m d (s + 1) x x') (hd : d ≤ D)
    (hs : s + 5 ≤ S) : E q m d (s + 5) (twoSumTail rd a b x) (FP.twoSumTail p a' b' x') := by
  unfold twoSumTail FP.twoSumTail
  simp only []
  eb H

theorem twoSum_E (H : Rng p rd q m D S) {a b a' b' : ℚ} (ha : E q m d s a a') (hb : E q m d s b b') (hd : d ≤ D) (hs : s + 5 ≤ S) :
    E q m d (s + 1) (twoSum rd a b).1 (FP.twoSum p a' b').1 ∧ E q m d (s + 5) (twoSum rd a b).2 (FP.twoSum p a' b').2 := by
  unfold twoSum FP.twoSum
  have h1 : E q m d (s + 1) (rd (a + b)) (rnd p (a' + b')) := by
    exact E.le (E.round H (E.add ha hb) hd (by omega)) (by omega)
  exact ⟨h1, twoSumTail_E H ha hb h1 hd hs⟩

theorem twoDiffTail_E (H : Rng p rd q m D S) {a b x a' b' x' : ℚ} (ha : E q m d s a a') (hb : E q m d s b b') (hx : E q m d (s + 1) x x') (hd : d ≤ D)
    (hs : s + 5 ≤ S) : E q m d (s + 5) (twoDiffTail rd a b x) (FP.twoDiffTail p a' b' x') := by
  unfold twoDiffTail FP.twoDiffTail
  simp only []
  eb H

theorem twoDiff_E (H : Rng p rd q m D S) {a b a' b' : ℚ} (ha : E q m d s a a') (hb : E q m d s b b') (hd : d ≤ D) (hs : s + 5 ≤ S) :
    E q m d (s + 1) (twoDiff rd a b).1 (FP.twoDiff p a' b').1 ∧ E q m d (s + 5) (twoDiff rd a b).2 (FP.twoDiff p a' b').2 := by
  unfold twoDiff FP.twoDiff
  have h1 : E q m d (s + 1) (rd (a - b)) (rnd p (a' - b')) := by
    exact E.le (E.round H (E.sub ha hb) hd (by omega)) (by omega)
  exact ⟨h1, twoDiffTail_E H ha hb h1 hd hs⟩

theorem half_le (hp : 13 ≤ p) : (2 : ℚ) ^ FP.half p + 1 ≤ 2 ^ ((p : Int) - 2) := by
  have h1 : (2 : ℚ) ^ FP.half p + 1 ≤ 2 ^ (FP.half p + 1) := by
    rw [pow_succ]
    have : (1 : ℚ) ≤ 2 ^ FP.half p := one_le_pow₀ (by norm_num)
    linarith
  refine h1.trans ?_
  rw [← zpow_natCast]
  apply FP.two_zpow_le
  unfold FP.half
  omega

/-- The number `splitter` of the constructor. -/
def sp (p : Nat) : ℚ := 2 ^ FP.half p + 1

theorem split_E (H : Rng p rd q m D S) {a a' : ℚ} (ha : E q m d s a a') (hd : d ≤ D) (hs : s + 2 ≤ S) :
    E q m d (s + 1) (split rd (sp p) a).1 (FP.split p (sp p) a').1 ∧ E q m d (s + 2) (split rd (sp p) a).2 (FP.split p (sp p) a').2 := by
  obtain ⟨rfl, ha⟩ := ha
  have hp := H.pos
  have hspz : Mul 0 (sp p) := ⟨2 ^ FP.half p + 1, by simp [sp]⟩
  have hsp0 : 0 < sp p := by unfold sp; positivity
  have hsp : sp p ≤ 2 ^ ((p : Int) - 2) := half_le H.hp
  set U : ℚ := 2 ^ (d * m + s : Int) with hU
  have hU0 : 0 < U := FP.two_zpow_pos _
  have hau : |a| ≤ U := ha.2
  -- c
  have m1 : Mul (d * q) (sp p * a) := by simpa using hspz.mul ha.1
  have b1 : |sp p * a| ≤ 2 ^ (d * m + s + (p - 2) : Int) := by
    rw [abs_mul, abs_of_pos hsp0, zpow_add₀ (by norm_num), mul_comm]
    exact mul_le_mul hau hsp hsp0.le hU0.le
  have e1 : rd (sp p * a) = rnd p (sp p * a) := H.eq' m1 (b1.trans (FP.two_zpow_le (by omega))) hd
  set c := rnd p (sp p * a) with hc
  have m2 : Mul (d * q) c := FP.rnd_mul m1
  have b2 : |c| ≤ 2 ^ (d * m + s + (p - 2) : Int) := FP.abs_rnd_le hp (Rep.pow p hp _) b1
  -- abig
  have hp2 : (2 : ℚ) ^ (d * m + s : Int) ≤ 2 ^ (d * m + s + (p - 2) : Int) := FP.two_zpow_le (by have := H.hp; omega)
  have b3 : |c - a| ≤ 2 ^ (d * m + s + (p - 1) : Int) := by
    have e : (d * m + s + (p - 1) : Int) = (d * m + s + (p - 2)) + 1 := by ring
    rw [e, FP.two_zpow_succ]
    have := abs_sub c a
    linarith
  have m3 := m2.sub ha.1
  have e3 : rd (c - a) = rnd p (c - a) := H.eq' m3 (b3.trans (FP.two_zpow_le (by omega))) hd
  set g := rnd p (c - a) with hg
  have m4 : Mul (d * q) g := FP.rnd_mul m3
  have err := FP.rnd_rel p (c - a)
  have b4 : |c - g| ≤ 2 ^ (d * m + s + 1 : Int) := by
    have h1 : c - g = a - (g - (c - a)) := by ring
    have h2 : |g - (c - a)| ≤ U := by
      refine err.trans ?_
      have : FP.eps p * |c - a| ≤ FP.eps p * 2 ^ (d * m + s + (p - 1) : Int) := mul_le_mul_of_nonneg_left b3 (FP.eps_pos p).le
      refine this.trans ?_
      unfold FP.eps
      rw [← zpow_add₀ (by norm_num)]
      exact FP.two_zpow_le (by omega)
    rw [h1, FP.two_zpow_succ]
    have := abs_sub a (g - (c - a))
    linarith
  have B5 : B q m d (s + 1) (c - g) := ⟨m2.sub m4, by push_cast; rw [← add_assoc]; exact b4⟩
  have h5 : E q m d (s + 1) (rd (c - g)) (rnd p (c - g)) := (E.of B5).round H hd (by omega)
  have ha' := E.of ha
  have e6 : split rd (sp p) a = (rd (c - g), rd (a - rd (c - g))) := by
    simp only [split, e1, ← hc, e3, ← hg]
  have e7 : FP.split p (sp p) a = (rnd p (c - g), rnd p (a - rnd p (c - g))) := by
    simp only [FP.split, ← hc, ← hg]
  rw [e6, e7]
  refine ⟨h5, ?_⟩
  simp only []
  eb H

theorem productTail_E (H : Rng p rd q m D S) {x y z u v x' y' z' u' v' : ℚ} (hx : E q m (d + e) (s + t) x x') (hy : E q m d (s + 1) y y')
    (hz : E q m d (s + 2) z z') (hu : E q m e (t + 1) u u') (hv : E q m e (t + 2) v v') (hd : d + e ≤ D) (hs : s + t + 6 ≤ S) :
    E q m (d + e) (s + t + 6) (productTail rd x y z u v) (FP.productTail p x' y' z' u' v') := by
  unfold productTail FP.productTail
  simp only []
  eb H

theorem twoProduct_E (H : Rng p rd q m D S) {a b a' b' : ℚ} (ha : E q m d s a a') (hb : E q m e t b b') (hd : d + e ≤ D) (hs : s + t + 6 ≤ S) :
    E q m (d + e) (s + t) (twoProduct rd (sp p) a b).1 (FP.twoProduct p (sp p) a' b').1 ∧
    E q m (d + e) (s + t + 6) (twoProduct rd (sp p) a b).2 (FP.twoProduct p (sp p) a' b').2 := by
  have h1 := split_E H ha (by omega) (by omega)
  have h2 := split_E H hb (by omega) (by omega)
  have h3 : E q m (d + e) (s + t) (rd (a * b)) (rnd p (a' * b')) := (ha.mul hb).round H hd (by omega)
  exact ⟨h3, productTail_E H h3 h1.1 h1.2 h2.1 h2.2 hd hs⟩

theorem square_E (H : Rng p rd q m D S) {a a' : ℚ} (ha : E q m d s a a') (hd : d + d ≤ D) (hs : s + s + 7 ≤ S) :
    E q m (d + d) (s + s) (square rd (sp p) a).1 (FP.square p (sp p) a').1 ∧
    E q m (d + d) (s + s + 7) (square rd (sp p) a).2 (FP.square p (sp p) a').2 := by
  obtain ⟨h1, h2⟩ := split_E H ha (by omega) (by omega)
  have h3 : E q m (d + d) (s + s) (rd (a * a)) (rnd p (a' * a')) := (ha.mul ha).round H hd (by omega)
  refine ⟨h3, ?_⟩
  unfold square FP.square
  simp only []
  eb H

/-! ### Four components -/

/-- All components are bounded. -/
def LB (q m : Int) (d s : Nat) (l : List ℚ) : Prop := ∀ x ∈ l, B q m d s x

/-- The same for a list. -/
def EL (q m : Int) (d s : Nat) (l l' : List ℚ) : Prop := l = l' ∧ LB q m d s l'

theorem EL.nil : EL q m d s [] [] := ⟨rfl, by simp [LB]⟩

theorem EL.cons {l l' : List ℚ} (h : E q m d s x y) (hl : EL q m d s l l') : EL q m d s (x :: l) (y :: l') := by
  refine ⟨by rw [h.1, hl.1], ?_⟩
  intro z hz
  rcases List.mem_cons.mp hz with rfl | hz
  · exact h.2
  · exact hl.2 z hz

theorem E.cons' {x1 x2 x3 y1 y2 y3 : ℚ} (h : E q m d s x y) (h1 : E q m d s x1 y1) (h2 : E q m d s x2 y2) (h3 : E q m d s x3 y3) :
    EL q m d s [x, x1, x2, x3] [y, y1, y2, y3] := EL.cons h (EL.cons h1 (EL.cons h2 (EL.cons h3 EL.nil)))

theorem EL.le {l l' : List ℚ} (h : EL q m d s l l') (hst : s ≤ t) : EL q m d t l l' := ⟨h.1, fun x hx => (h.2 x hx).le hst⟩

theorem twoOneDiff_E (H : Rng p rd q m D S) {a1 a0 b a1' a0' b' : ℚ} (h1 : E q m d s a1 a1') (h0 : E q m d s a0 a0') (hb : E q m d s b b') (hd : d ≤ D)
    (hs : s + 6 ≤ S) : E q m d (s + 2) (twoOneDiff rd a1 a0 b).1 (FP.twoOneDiff p a1' a0' b').1 ∧
    E q m d (s + 6) (twoOneDiff rd a1 a0 b).2.1 (FP.twoOneDiff p a1' a0' b').2.1 ∧
    E q m d (s + 5) (twoOneDiff rd a1 a0 b).2.2 (FP.twoOneDiff p a1' a0' b').2.2 := by
  obtain ⟨r1, r2⟩ := twoDiff_E H h0 hb hd (by omega)
  obtain ⟨t1, t2⟩ := twoSum_E H (h1.le (t := s + 1) (by omega)) r1 hd (by omega)
  exact ⟨t1, t2, r2⟩

theorem twoTwoDiff_E (H : Rng p rd q m D S) {a1 a0 b1 b0 a1' a0' b1' b0' : ℚ} (h1 : E q m d s a1 a1') (h0 : E q m d s a0 a0') (g1 : E q m d s b1 b1')
    (g0 : E q m d s b0 b0') (hd : d ≤ D) (hs : s + 12 ≤ S) :
    EL q m d (s + 12) (twoTwoDiff rd a1 a0 b1 b0) (FP.twoTwoDiff p a1' a0' b1' b0') := by
  obtain ⟨r1, r2, r3⟩ := twoOneDiff_E H h1 h0 g0 hd (by omega)
  obtain ⟨t1, t2, t3⟩ := twoOneDiff_E H (r1.le (t := s + 6) (by omega)) r2 (g1.le (t := s + 6) (by omega)) hd (by omega)
  exact (r3.le (t := s + 12) (by omega)).cons' (t3.le (by omega)) (t2.le (by omega)) (t1.le (by omega))

theorem twoOneSum_E (H : Rng p rd q m D S) {a1 a0 b a1' a0' b' : ℚ} (h1 : E q m d s a1 a1') (h0 : E q m d s a0 a0') (hb : E q m d s b b') (hd : d ≤ D)
    (hs : s + 6 ≤ S) : E q m d (s + 2) (twoOneSum rd a1 a0 b).1 (FP.twoOneSum p a1' a0' b').1 ∧
    E q m d (s + 6) (twoOneSum rd a1 a0 b).2.1 (FP.twoOneSum p a1' a0' b').2.1 ∧
    E q m d (s + 5) (twoOneSum rd a1 a0 b).2.2 (FP.twoOneSum p a1' a0' b').2.2 := by
  obtain ⟨r1, r2⟩ := twoSum_E H h0 hb hd (by omega)
  obtain ⟨t1, t2⟩ := twoSum_E H (h1.le (t := s + 1) (by omega)) r1 hd (by omega)
  exact ⟨t1, t2, r2⟩

theorem twoTwoSum_E (H : Rng p rd q m D S) {a1 a0 b1 b0 a1' a0' b1' b0' : ℚ} (h1 : E q m d s a1 a1') (h0 : E q m d s a0 a0') (g1 : E q m d s b1 b1')
    (g0 : E q m d s b0 b0') (hd : d ≤ D) (hs : s + 12 ≤ S) :
    EL q m d (s + 12) (twoTwoSum rd a1 a0 b1 b0) (FP.twoTwoSum p a1' a0' b1' b0') := by
  obtain ⟨r1, r2, r3⟩ := twoOneSum_E H h1 h0 g0 hd (by omega)
  obtain ⟨t1, t2, t3⟩ := twoOneSum_E H (r1.le (t := s + 6) (by omega)) r2 (g1.le (t := s + 6) (by omega)) hd (by omega)
  exact (r3.le (t := s + 12) (by omega)).cons' (t3.le (by omega)) (t2.le (by omega)) (t1.le (by omega))

theorem diff4_E (H : Rng p rd q m D S) {a b c g a' b' c' g' : ℚ} (ha : E q m d s a a') (hb : E q m e t b b') (hc : E q m d s c c') (hg : E q m e t g g')
    (hd : d + e ≤ D) (hs : s + t + 18 ≤ S) : EL q m (d + e) (s + t + 18) (diff4 rd (sp p) a b c g) (FP.diff4 p (sp p) a' b' c' g') := by
  obtain ⟨h1, h2⟩ := twoProduct_E H ha hb hd (by omega)
  obtain ⟨h3, h4⟩ := twoProduct_E H hc hg hd (by omega)
  exact twoTwoDiff_E H (h1.le (by omega)) h2 (h3.le (by omega)) h4 hd (by omega)

theorem sum4_E (H : Rng p rd q m D S) {a b c g a' b' c' g' : ℚ} (ha : E q m d s a a') (hb : E q m e t b b') (hc : E q m d s c c') (hg : E q m e t g g')
    (hd : d + e ≤ D) (hs : s + t + 18 ≤ S) : EL q m (d + e) (s + t + 18) (sum4 rd (sp p) a b c g) (FP.sum4 p (sp p) a' b' c' g') := by
  obtain ⟨h1, h2⟩ := twoProduct_E H ha hb hd (by omega)
  obtain ⟨h3, h4⟩ := twoProduct_E H hc hg hd (by omega)
  exact twoTwoSum_E H (h1.le (by omega)) h2 (h3.le (by omega)) h4 hd (by omega)

theorem squares4_E (H : Rng p rd q m D S) {a b a' b' : ℚ} (ha : E q m d s a a') (hb : E q m d s b b') (hd : d + d ≤ D) (hs : s + s + 19 ≤ S) :
    EL q m (d + d) (s + s + 19) (squares4 rd (sp p) a b) (FP.squares4 p (sp p) a' b') := by
  obtain ⟨h1, h2⟩ := square_E H ha hd (by omega)
  obtain ⟨h3, h4⟩ := square_E H hb hd (by omega)
  exact twoTwoSum_E H (h1.le (by omega)) h2 (h3.le (by omega)) h4 hd (by omega)

theorem twoOneProduct_E (H : Rng p rd q m D S) {a1 a0 b a1' a0' b' : ℚ} (h1 : E q m d s a1 a1') (h0 : E q m d s a0 a0') (hb : E q m e t b b')
    (hd : d + e ≤ D) (hs : s + t + 11 ≤ S) :
    EL q m (d + e) (s + t + 11) (twoOneProduct rd (sp p) a1 a0 b) (FP.twoOneProduct p (sp p) a1' a0' b') := by
  obtain ⟨i1, i2⟩ := twoProduct_E H h0 hb hd (by omega)
  obtain ⟨j1, j2⟩ := twoProduct_E H h1 hb hd (by omega)
  obtain ⟨k1, k2⟩ := twoSum_E H (i1.le (t := s + t + 6) (by omega)) j2 hd (by omega)
  obtain ⟨t1, t2⟩ := fastTwoSum_E H (j1.le (t := s + t + 7) (by omega)) k1 hd (by omega)
  exact (i2.le (t := s + t + 11) (by omega)).cons' (k2.le (by omega)) (t2.le (by omega)) (t1.le (by omega))

theorem pair2_E (H : Rng p rd q m D S) {a b a' b' : ℚ} (ha : E q m d s a a') (hb : E q m e t b b') (hd : d + e ≤ D) (hs : s + t + 6 ≤ S) :
    EL q m (d + e) (s + t + 6) (pair2 rd (sp p) a b) (FP.pair2 p (sp p) a' b') := by
  obtain ⟨i1, i2⟩ := twoProduct_E H ha hb hd (by omega)
  exact EL.cons i2 (EL.cons (i1.le (by omega)) EL.nil)

end

end FPM
end Verif
