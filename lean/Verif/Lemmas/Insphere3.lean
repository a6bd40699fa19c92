import Verif.Lemmas.Wedge

/-!
# Stages of the insphere test in space
-/
namespace Verif
namespace FP

/-- A point and the wedges of the other three. -/
structure Term where
  a : Side3
  w1 : Wedge
  w2 : Wedge
  w3 : Wedge

theorem sq3_nonneg (x y z : ℚ) : 0 ≤ sq3 x y z := by
  have := mul_self_nonneg x
  have := mul_self_nonneg y
  have := mul_self_nonneg z
  unfold sq3
  linarith

theorem liftFl_nonneg {p : Nat} (hp : 0 < p) (x y z : ℚ) : 0 ≤ liftFl p x y z :=
  rnd_nonneg hp (add_nonneg (rnd_nonneg hp (add_nonneg (rnd_nonneg hp (mul_self_nonneg _)) (rnd_nonneg hp (mul_self_nonneg _))))
    (rnd_nonneg hp (mul_self_nonneg _)))

theorem liftFl_sum {p : Nat} (hp : 0 < p) (x y z : ℚ) :
    rnd p (x * x) + rnd p (y * y) + rnd p (z * z) ≤ (1 + eps p) ^ 2 * liftFl p x y z :=
  perm_sum hp (rnd_nonneg hp (mul_self_nonneg _)) (rnd_nonneg hp (mul_self_nonneg _)) (rnd_nonneg hp (mul_self_nonneg _))

theorem sq3_le {p : Nat} (hp : 0 < p) (x y z : ℚ) : sq3 x y z ≤ (1 + eps p) ^ 3 * liftFl p x y z := by
  have he := eps_pos p
  have h1 := le_rnd_mul hp (mul_self_nonneg x)
  have h2 := le_rnd_mul hp (mul_self_nonneg y)
  have h3 := le_rnd_mul hp (mul_self_nonneg z)
  refine le_pow_mul (n := 1) (m := 2) he.le ?_ (liftFl_sum hp x y z)
  unfold sq3
  linarith

theorem liftFl_appr (p : Nat) (x y z : ℚ) : Appr p (liftFl p x y z) (sq3 x y z) (sq3 x y z) 3 := by
  have M := fun x : ℚ => ((Appr.refl p x).mul (Appr.refl p x)).rnd
  exact (((M x).add (M y)).rnd.add (M z)).rnd.cast rfl rfl (by simp only [abs_mul_abs_self]; rfl) (by simp)

theorem lift_base {p : Nat} (hp : 0 < p) {a : Side3} (h : Sd p a) :
    Appr p (sq3 (a.x + a.xt) (a.y + a.yt) (a.z + a.zt)) (liftFl p a.x a.y a.z) (liftFl p a.x a.y a.z) 5 := by
  have h1 := appr_prod hp h.apx h.apx
  have h2 := appr_prod hp h.apy h.apy
  have h3 := appr_prod hp h.apz h.apz
  have n : ∀ x : ℚ, 0 ≤ rnd p (x * x) := fun x => rnd_nonneg hp (mul_self_nonneg _)
  have h4 := appr_add_pos hp (appr_add_pos hp h1 h2 (n _) (n _)) h3 (rnd_nonneg hp (add_nonneg (n _) (n _))) (n _)
  exact h4.cast rfl rfl (abs_of_nonneg (liftFl_nonneg hp _ _ _)) (by simp)

/-- The product of a vector and its tail. -/
def dotT (a : Side3) : ℚ := a.x * a.xt + a.y * a.yt + a.z * a.zt

theorem abs_tail {e x t : ℚ} (h : |t| ≤ e * |x|) : |x| * |t| ≤ e * (x * x) := by
  have := mul_le_mul_of_nonneg_left h (abs_nonneg x)
  rw [← abs_mul_abs_self x]
  linarith

theorem dotT_le {p : Nat} {a : Side3} (h : Sd p a) : |dotT a| ≤ eps p * sq3 a.x a.y a.z := by
  have h1 := abs_tail h.bx
  have h2 := abs_tail h.by_
  have h3 := abs_tail h.bz
  refine (abs_add_three _ _ _).trans ?_
  simp only [abs_mul]
  unfold sq3
  linarith

theorem liftTail_appr {p : Nat} {a : Side3} (h : Sd p a) : Appr p (liftTail p a) (dotT a) (eps p * sq3 a.x a.y a.z) 3 := by
  have M := fun x y : ℚ => ((Appr.refl p x).mul (Appr.refl p y)).rnd
  have h1 := abs_tail h.bx
  have h2 := abs_tail h.by_
  have h3 := abs_tail h.bz
  have k := (((M a.x a.xt).add (M a.y a.yt)).rnd.add (M a.z a.zt)).rnd
  refine (k.weaken ?_).cast rfl rfl rfl (by simp)
  unfold sq3
  linarith

theorem volP_appr {p : Nat} {z1 z2 z3 c1 c2 c3 Z1 Z2 Z3 C1 C2 C3 N1 N2 N3 : ℚ} {n : Nat} (h1 : |z1| ≤ Z1) (h2 : |z2| ≤ Z2) (h3 : |z3| ≤ Z3)
    (k1 : Appr p c1 C1 N1 n) (k2 : Appr p c2 C2 N2 n) (k3 : Appr p c3 C3 N3 n) :
    Appr p (volP p z1 c1 z2 c2 z3 c3) (z1 * C1 + z2 * C2 + z3 * C3) (Z1 * N1 + Z2 * N2 + Z3 * N3) (n + 3) := by
  have M : ∀ {z c Z C N : ℚ}, |z| ≤ Z → Appr p c C N n → Appr p (rnd p (z * c)) (z * C) (Z * N) (n + 1) := fun {z c Z C N} h k =>
    (((Appr.refl p z).weaken h).mul k).rnd.cast rfl rfl rfl (by simp)
  exact (((M h1 k1).add (M h2 k2)).rnd.add (M h3 k3)).rnd.cast rfl rfl rfl (by simp)

theorem volM_eq (p : Nat) (z1 c1 z2 c2 z3 c3 : ℚ) : volM p z1 c1 z2 c2 z3 c3 = volP p z1 c1 (-z2) c2 z3 c3 := by
  unfold volM volP
  rw [neg_mul, rnd_neg, ← sub_eq_add_neg]

namespace Term

/-- The exact number. -/
def T (t : Term) : ℚ := sq3 (t.a.x + t.a.xt) (t.a.y + t.a.yt) (t.a.z + t.a.zt) * (t.w1.W + t.w2.W + t.w3.W)

/-- The same of the rounded vectors. -/
def T0 (t : Term) : ℚ := sq3 t.a.x t.a.y t.a.z * (t.w1.W0 + t.w2.W0 + t.w3.W0)

/-- Magnitude. -/
def M (t : Term) : ℚ := sq3 t.a.x t.a.y t.a.z * (t.w1.m + t.w2.m + t.w3.m)

/-- Magnitude of the rounded products. -/
def Mr (p : Nat) (t : Term) : ℚ := liftFl p t.a.x t.a.y t.a.z * (t.w1.mr p + t.w2.mr p + t.w3.mr p)

/-- The computed magnitude. -/
def P (p : Nat) (t : Term) : ℚ := rnd p (rnd p (rnd p (t.w1.R p + t.w2.R p) + t.w3.R p) * liftFl p t.a.x t.a.y t.a.z)

/-- The computed number. -/
def fl (p : Nat) (t : Term) : ℚ :=
  rnd p (liftFl p t.a.x t.a.y t.a.z * volP p t.w1.z (t.w1.fl p) t.w2.z (t.w2.fl p) t.w3.z (t.w3.fl p))

/-- First part of the correction. -/
def c1 (p : Nat) (t : Term) : ℚ :=
  rnd p (liftFl p t.a.x t.a.y t.a.z * rnd p (
    volP p t.w1.z (epsFl p t.w1.u t.w1.v) t.w2.z (epsFl p t.w2.u t.w2.v) t.w3.z (epsFl p t.w3.u t.w3.v) +
    volP p t.w1.zt t.w1.c t.w2.zt t.w2.c t.w3.zt t.w3.c))

/-- Second part of the correction. -/
def c2 (p : Nat) (t : Term) : ℚ := rnd p (liftTail p t.a * volP p t.w1.z t.w1.c t.w2.z t.w2.c t.w3.z t.w3.c)

/-- First order terms of the cross products. -/
def X1 (t : Term) : ℚ := sq3 t.a.x t.a.y t.a.z * (t.w1.z * t.w1.k1 + t.w2.z * t.w2.k1 + t.w3.z * t.w3.k1)

/-- First order terms of the third coordinates. -/
def X2 (t : Term) : ℚ := sq3 t.a.x t.a.y t.a.z * (t.w1.zt * t.w1.st + t.w2.zt * t.w2.st + t.w3.zt * t.w3.st)

/-- First order terms of the squared length, halved. -/
def X3 (t : Term) : ℚ := dotT t.a * (t.w1.z * t.w1.st + t.w2.z * t.w2.st + t.w3.z * t.w3.st)

structure Ok (p : Nat) (t : Term) : Prop where
  a : Sd p t.a
  w1 : t.w1.Ok p
  w2 : t.w2.Ok p
  w3 : t.w3.Ok p

theorem M_nonneg (t : Term) : 0 ≤ t.M :=
  mul_nonneg (sq3_nonneg _ _ _) (add_nonneg (add_nonneg t.w1.m_nonneg t.w2.m_nonneg) t.w3.m_nonneg)

theorem Mr_nonneg {p : Nat} (hp : 0 < p) (t : Term) : 0 ≤ t.Mr p :=
  mul_nonneg (liftFl_nonneg hp _ _ _) (add_nonneg (add_nonneg (t.w1.mr_nonneg p) (t.w2.mr_nonneg p)) (t.w3.mr_nonneg p))

theorem P_nonneg {p : Nat} (hp : 0 < p) (t : Term) : 0 ≤ t.P p :=
  rnd_nonneg hp (mul_nonneg (rnd_nonneg hp (add_nonneg (rnd_nonneg hp (add_nonneg (t.w1.R_nonneg hp) (t.w2.R_nonneg hp))) (t.w3.R_nonneg hp)))
    (liftFl_nonneg hp _ _ _))

theorem R_le {p : Nat} (hp : 0 < p) (t : Term) :
    liftFl p t.a.x t.a.y t.a.z * (t.w1.R p + t.w2.R p + t.w3.R p) ≤ (1 + eps p) ^ 3 * t.P p := by
  have he := eps_pos p
  have hl := liftFl_nonneg hp t.a.x t.a.y t.a.z
  have n1 := t.w1.R_nonneg hp
  have n2 := t.w2.R_nonneg hp
  have n3 := t.w3.R_nonneg hp
  have h1 := mul_le_mul_of_nonneg_left (perm_sum hp n1 n2 n3) hl
  have h2 := le_rnd_mul hp (mul_nonneg (rnd_nonneg hp (add_nonneg (rnd_nonneg hp (add_nonneg n1 n2)) n3)) hl)
  refine le_pow_mul (n := 2) (m := 1) he.le (y := rnd p (rnd p (t.w1.R p + t.w2.R p) + t.w3.R p) * liftFl p t.a.x t.a.y t.a.z) ?_ ?_
  · linarith only [h1]
  · rw [pow_one]; exact h2

theorem Mr_le {p : Nat} (hp : 0 < p) (t : Term) : t.Mr p ≤ (1 + eps p) ^ 5 * t.P p := by
  have he := eps_pos p
  have h := mul_le_mul_of_nonneg_left (add_le_add (add_le_add (t.w1.mr_le hp) (t.w2.mr_le hp)) (t.w3.mr_le hp))
    (liftFl_nonneg hp t.a.x t.a.y t.a.z)
  refine le_pow_mul (n := 2) (m := 3) he.le ?_ (t.R_le hp)
  unfold Mr
  linarith only [h]

theorem M_le {p : Nat} (hp : 0 < p) (t : Term) : t.M ≤ (1 + eps p) ^ 9 * t.P p := by
  have he := eps_pos p
  refine le_pow_mul (n := 4) (m := 5) he.le ?_ (t.Mr_le hp)
  have h1 := add_le_add (add_le_add (t.w1.m_le hp) (t.w2.m_le hp)) (t.w3.m_le hp)
  have n := add_nonneg (add_nonneg t.w1.m_nonneg t.w2.m_nonneg) t.w3.m_nonneg
  have h2 := mul_le_mul (sq3_le hp t.a.x t.a.y t.a.z) h1 n ((sq3_nonneg _ _ _).trans (sq3_le hp t.a.x t.a.y t.a.z))
  unfold M Mr
  refine h2.trans (le_of_eq ?_)
  ring

/-- The rounded products stand for the exact ones. -/
def B (p : Nat) (t : Term) : ℚ := liftFl p t.a.x t.a.y t.a.z *
  (t.w1.z * (rnd p (t.w1.u.x * t.w1.v.y) - rnd p (t.w1.v.x * t.w1.u.y)) + t.w2.z * (rnd p (t.w2.u.x * t.w2.v.y) - rnd p (t.w2.v.x * t.w2.u.y)) +
    t.w3.z * (rnd p (t.w3.u.x * t.w3.v.y) - rnd p (t.w3.v.x * t.w3.u.y)))

theorem Ok.appr {p : Nat} (hp : 0 < p) {t : Term} (h : t.Ok p) : Appr p t.T (t.B p) (t.Mr p) 9 :=
  ((lift_base hp h.a).mul (((h.w1.appr hp).add (h.w2.appr hp)).add (h.w3.appr hp))).cast rfl rfl rfl (by simp)

theorem fl_appr {p : Nat} (hp : 0 < p) (t : Term) : Appr p (t.fl p) (t.B p) (t.Mr p) 5 := by
  have h1 := volP_appr (p := p) (le_refl |t.w1.z|) (le_refl |t.w2.z|) (le_refl |t.w3.z|) (t.w1.fl_appr p) (t.w2.fl_appr p) (t.w3.fl_appr p)
  have h2 := ((Appr.refl p (liftFl p t.a.x t.a.y t.a.z)).mul h1).rnd
  rw [abs_of_nonneg (liftFl_nonneg hp _ _ _)] at h2
  exact h2.cast rfl rfl rfl (by simp)

/-- Second filter. -/
theorem Ok.tight {p : Nat} (hp : 11 ≤ p) {t : Term} (h : t.Ok p) :
    |t.T - (1 + 10 * eps p ^ 2) * t.T0| ≤ (5 * eps p + 5 * eps p ^ 2 + 120 * eps p ^ 3) * ((1 + eps p) ^ 6 * t.P p) := by
  have hp0 : 0 < p := by omega
  have he := eps_pos p
  set κ := 5 * eps p + 5 * eps p ^ 2 + 120 * eps p ^ 3 with hκ
  have κ0 : 0 ≤ κ := by positivity
  have k : ∀ {w : Wedge}, w.Ok p →
      |sq3 (t.a.x + t.a.xt) (t.a.y + t.a.yt) (t.a.z + t.a.zt) * w.W - (1 + 10 * eps p ^ 2) * (sq3 t.a.x t.a.y t.a.z * w.W0)| ≤
        κ * (1 + eps p) * ((rnd p (t.a.x * t.a.x) + rnd p (t.a.y * t.a.y) + rnd p (t.a.z * t.a.z)) * w.R p) := by
    intro w hw
    have e : sq3 (t.a.x + t.a.xt) (t.a.y + t.a.yt) (t.a.z + t.a.zt) * w.W - (1 + 10 * eps p ^ 2) * (sq3 t.a.x t.a.y t.a.z * w.W0) =
      ((t.a.x + t.a.xt) * (t.a.x + t.a.xt) * w.W - (1 + 10 * eps p ^ 2) * (t.a.x * t.a.x * w.W0)) +
      ((t.a.y + t.a.yt) * (t.a.y + t.a.yt) * w.W - (1 + 10 * eps p ^ 2) * (t.a.y * t.a.y * w.W0)) +
      ((t.a.z + t.a.zt) * (t.a.z + t.a.zt) * w.W - (1 + 10 * eps p ^ 2) * (t.a.z * t.a.z * w.W0)) := by unfold sq3; ring
    rw [e]
    refine (abs_add_three _ _ _).trans ?_
    have h1 := hw.tight hp h.a.qx
    have h2 := hw.tight hp h.a.qy
    have h3 := hw.tight hp h.a.qz
    rw [← hκ] at h1 h2 h3
    linarith only [h1, h2, h3]
  have k1 := k h.w1
  have k2 := k h.w2
  have k3 := k h.w3
  have e : t.T - (1 + 10 * eps p ^ 2) * t.T0 =
    (sq3 (t.a.x + t.a.xt) (t.a.y + t.a.yt) (t.a.z + t.a.zt) * t.w1.W - (1 + 10 * eps p ^ 2) * (sq3 t.a.x t.a.y t.a.z * t.w1.W0)) +
    (sq3 (t.a.x + t.a.xt) (t.a.y + t.a.yt) (t.a.z + t.a.zt) * t.w2.W - (1 + 10 * eps p ^ 2) * (sq3 t.a.x t.a.y t.a.z * t.w2.W0)) +
    (sq3 (t.a.x + t.a.xt) (t.a.y + t.a.yt) (t.a.z + t.a.zt) * t.w3.W - (1 + 10 * eps p ^ 2) * (sq3 t.a.x t.a.y t.a.z * t.w3.W0)) := by
    unfold T T0; ring
  rw [e]
  refine (abs_add_three _ _ _).trans ?_
  have r0 := add_nonneg (add_nonneg (t.w1.R_nonneg hp0) (t.w2.R_nonneg hp0)) (t.w3.R_nonneg hp0)
  have l1 := mul_le_mul_of_nonneg_right (liftFl_sum hp0 t.a.x t.a.y t.a.z) r0
  have l2 := mul_le_mul_of_nonneg_left (t.R_le hp0) (show 0 ≤ (1 + eps p) ^ 2 by positivity)
  have l3 : (rnd p (t.a.x * t.a.x) + rnd p (t.a.y * t.a.y) + rnd p (t.a.z * t.a.z)) * (t.w1.R p + t.w2.R p + t.w3.R p) ≤ (1 + eps p) ^ 5 * t.P p := by
    refine l1.trans (le_trans (le_of_eq ?_) (l2.trans (le_of_eq ?_)))
    · ring
    · ring
  have l4 := mul_le_mul_of_nonneg_left l3 (show 0 ≤ κ * (1 + eps p) by positivity)
  have e6 : κ * ((1 + eps p) ^ 6 * t.P p) = κ * (1 + eps p) * ((1 + eps p) ^ 5 * t.P p) := by ring
  rw [e6]
  refine le_trans ?_ l4
  linarith only [k1, k2, k3]

/-- Third filter, with exact arithmetic. -/
theorem Ok.second {p : Nat} (hp : 11 ≤ p) {t : Term} (h : t.Ok p) :
    |t.T - (1 + 4 * eps p ^ 2) * t.T0 - (t.X1 + t.X2 + 2 * t.X3)| ≤
      (6 * eps p ^ 2 + 11 * eps p ^ 3 + 3 / 2 * eps p ^ 2 * (1 + 2 * eps p)) * t.M := by
  have he := eps_pos p
  set S := sq3 t.a.x t.a.y t.a.z with hS
  have S0 : 0 ≤ S := sq3_nonneg _ _ _
  have hd := dotT_le h.a
  rw [← hS] at hd
  have k : ∀ {w : Wedge}, w.Ok p →
      |sq3 (t.a.x + t.a.xt) (t.a.y + t.a.yt) (t.a.z + t.a.zt) * w.W - (1 + 4 * eps p ^ 2) * (S * w.W0) -
        (S * (w.z * w.k1 + w.zt * w.st) + 2 * dotT t.a * (w.z * w.st))| ≤
        (6 * eps p ^ 2 + 11 * eps p ^ 3 + 3 / 2 * eps p ^ 2 * (1 + 2 * eps p)) * (S * w.m) := by
    intro w hw
    have e : sq3 (t.a.x + t.a.xt) (t.a.y + t.a.yt) (t.a.z + t.a.zt) * w.W - (1 + 4 * eps p ^ 2) * (S * w.W0) -
        (S * (w.z * w.k1 + w.zt * w.st) + 2 * dotT t.a * (w.z * w.st)) =
      (((t.a.x + t.a.xt) * (t.a.x + t.a.xt) * w.W - (1 + 4 * eps p ^ 2) * (t.a.x * t.a.x * w.W0) -
        (t.a.x * t.a.x * (w.z * w.k1 + w.zt * w.k0) + 2 * (t.a.x * t.a.xt) * w.W0)) +
      ((t.a.y + t.a.yt) * (t.a.y + t.a.yt) * w.W - (1 + 4 * eps p ^ 2) * (t.a.y * t.a.y * w.W0) -
        (t.a.y * t.a.y * (w.z * w.k1 + w.zt * w.k0) + 2 * (t.a.y * t.a.yt) * w.W0)) +
      ((t.a.z + t.a.zt) * (t.a.z + t.a.zt) * w.W - (1 + 4 * eps p ^ 2) * (t.a.z * t.a.z * w.W0) -
        (t.a.z * t.a.z * (w.z * w.k1 + w.zt * w.k0) + 2 * (t.a.z * t.a.zt) * w.W0))) +
      S * (w.zt * (w.k0 - w.st)) + 2 * (dotT t.a * (w.z * (w.k0 - w.st))) := by
      rw [hS]; unfold sq3 dotT Wedge.W0; ring
    rw [e]
    have h1 := hw.second hp h.a.bx
    have h2 := hw.second hp h.a.by_
    have h3 := hw.second hp h.a.bz
    have h0 := abs_add_three ((t.a.x + t.a.xt) * (t.a.x + t.a.xt) * w.W - (1 + 4 * eps p ^ 2) * (t.a.x * t.a.x * w.W0) -
        (t.a.x * t.a.x * (w.z * w.k1 + w.zt * w.k0) + 2 * (t.a.x * t.a.xt) * w.W0))
      ((t.a.y + t.a.yt) * (t.a.y + t.a.yt) * w.W - (1 + 4 * eps p ^ 2) * (t.a.y * t.a.y * w.W0) -
        (t.a.y * t.a.y * (w.z * w.k1 + w.zt * w.k0) + 2 * (t.a.y * t.a.yt) * w.W0))
      ((t.a.z + t.a.zt) * (t.a.z + t.a.zt) * w.W - (1 + 4 * eps p ^ 2) * (t.a.z * t.a.z * w.W0) -
        (t.a.z * t.a.z * (w.z * w.k1 + w.zt * w.k0) + 2 * (t.a.z * t.a.zt) * w.W0))
    have es := hw.st_err
    have mm : ∀ {x y A B : ℚ}, |x| ≤ A → |y| ≤ B → |x * y| ≤ A * B := fun {x y A B} h h' => by
      rw [abs_mul]; exact mul_le_mul h h' (abs_nonneg _) ((abs_nonneg _).trans h)
    have i1 := mm (le_of_eq (abs_of_nonneg S0)) (mm hw.bz es)
    have i2 := mm hd (mm (le_refl |w.z|) es)
    have i3 : |2 * (dotT t.a * (w.z * (w.k0 - w.st)))| ≤ 2 * (eps p * S * (|w.z| * (eps p * (1 + 2 * eps p) / 2 * w.mc))) := by
      rw [abs_mul, abs_of_nonneg (show (0 : ℚ) ≤ 2 by norm_num)]
      exact mul_le_mul_of_nonneg_left i2 (by norm_num)
    refine (abs_add_three _ _ _).trans ?_
    have e1 : (6 * eps p ^ 2 + 11 * eps p ^ 3) * (S * w.m) = (6 * eps p ^ 2 + 11 * eps p ^ 3) * (t.a.x * t.a.x * w.m) +
      (6 * eps p ^ 2 + 11 * eps p ^ 3) * (t.a.y * t.a.y * w.m) + (6 * eps p ^ 2 + 11 * eps p ^ 3) * (t.a.z * t.a.z * w.m) := by
      rw [hS]; unfold sq3; ring
    have e2 : 3 / 2 * eps p ^ 2 * (1 + 2 * eps p) * (S * w.m) = S * (eps p * |w.z| * (eps p * (1 + 2 * eps p) / 2 * w.mc)) +
      2 * (eps p * S * (|w.z| * (eps p * (1 + 2 * eps p) / 2 * w.mc))) := by unfold Wedge.m; ring
    rw [add_mul (6 * eps p ^ 2 + 11 * eps p ^ 3), e1, e2]
    linarith only [h0, h1, h2, h3, i1, i3]
  have k1 := k h.w1
  have k2 := k h.w2
  have k3 := k h.w3
  have e : t.T - (1 + 4 * eps p ^ 2) * t.T0 - (t.X1 + t.X2 + 2 * t.X3) =
    (sq3 (t.a.x + t.a.xt) (t.a.y + t.a.yt) (t.a.z + t.a.zt) * t.w1.W - (1 + 4 * eps p ^ 2) * (S * t.w1.W0) -
        (S * (t.w1.z * t.w1.k1 + t.w1.zt * t.w1.st) + 2 * dotT t.a * (t.w1.z * t.w1.st))) +
    (sq3 (t.a.x + t.a.xt) (t.a.y + t.a.yt) (t.a.z + t.a.zt) * t.w2.W - (1 + 4 * eps p ^ 2) * (S * t.w2.W0) -
        (S * (t.w2.z * t.w2.k1 + t.w2.zt * t.w2.st) + 2 * dotT t.a * (t.w2.z * t.w2.st))) +
    (sq3 (t.a.x + t.a.xt) (t.a.y + t.a.yt) (t.a.z + t.a.zt) * t.w3.W - (1 + 4 * eps p ^ 2) * (S * t.w3.W0) -
        (S * (t.w3.z * t.w3.k1 + t.w3.zt * t.w3.st) + 2 * dotT t.a * (t.w3.z * t.w3.st))) := by
    unfold T T0 X1 X2 X3; rw [← hS]; ring
  rw [e]
  refine (abs_add_three _ _ _).trans ?_
  have e1 : t.M = S * t.w1.m + S * t.w2.m + S * t.w3.m := by unfold M; ring
  rw [e1]
  linarith only [k1, k2, k3]

end Term

/-- A sum of two numbers that approximate two numbers. -/
def Ap2 (p : Nat) (x X1 M1 : ℚ) (n1 : Nat) (X2 M2 : ℚ) (n2 : Nat) : Prop :=
  ∃ x1 x2, x = x1 + x2 ∧ Appr p x1 X1 M1 n1 ∧ Appr p x2 X2 M2 n2

theorem rnd_factor (p : Nat) (x : ℚ) : ∃ δ, |δ| ≤ eps p ∧ rnd p x = x * (1 + δ) := by
  obtain ⟨δ, h1, h2⟩ := del (eps_pos p).le (rnd_rel p x)
  exact ⟨δ, h1, by linarith⟩

theorem Appr.scale {p : Nat} {x X M δ : ℚ} {n : Nat} (h : Appr p x X M n) (hδ : |δ| ≤ eps p) : Appr p (x * (1 + δ)) X M (n + 1) := by
  refine ⟨?_, h.le⟩
  have e : x * (1 + δ) - X = x * δ + (x - X) := by ring
  rw [e]
  refine (abs_add_le _ _).trans ?_
  rw [abs_mul, pow_succ]
  have h1 := mul_le_mul h.abs_le hδ (abs_nonneg _) ((abs_nonneg _).trans h.abs_le)
  have h2 := h.err
  linarith

section
variable {p : Nat} {x y X1 M1 X2 M2 Y1 N1 Y2 N2 : ℚ} {n1 n2 : Nat}

theorem Ap2.of {X Y M N : ℚ} (h : Appr p x X M n1) (h' : Appr p y Y N n2) : Ap2 p (x + y) X M n1 Y N n2 := ⟨x, y, rfl, h, h'⟩

theorem Ap2.rnd (h : Ap2 p x X1 M1 n1 X2 M2 n2) : Ap2 p (rnd p x) X1 M1 (n1 + 1) X2 M2 (n2 + 1) := by
  obtain ⟨x1, x2, rfl, h1, h2⟩ := h
  obtain ⟨δ, hδ, e⟩ := rnd_factor p (x1 + x2)
  exact ⟨x1 * (1 + δ), x2 * (1 + δ), by rw [e]; ring, h1.scale hδ, h2.scale hδ⟩

theorem Ap2.mul {L M : ℚ} {m : Nat} (hl : Appr p y L M m) (h : Ap2 p x X1 M1 n1 X2 M2 n2) :
    Ap2 p (y * x) (L * X1) (M * M1) (m + n1) (L * X2) (M * M2) (m + n2) := by
  obtain ⟨x1, x2, rfl, h1, h2⟩ := h
  exact ⟨y * x1, y * x2, by ring, hl.mul h1, hl.mul h2⟩

theorem Ap2.add (h : Ap2 p x X1 M1 n1 X2 M2 n2) (h' : Ap2 p y Y1 N1 n1 Y2 N2 n2) :
    Ap2 p (x + y) (X1 + Y1) (M1 + N1) n1 (X2 + Y2) (M2 + N2) n2 := by
  obtain ⟨x1, x2, rfl, h1, h2⟩ := h
  obtain ⟨y1, y2, rfl, k1, k2⟩ := h'
  exact ⟨x1 + y1, x2 + y2, by ring, (h1.add k1).cast rfl rfl rfl (by simp), (h2.add k2).cast rfl rfl rfl (by simp)⟩

theorem Ap2.sub (h : Ap2 p x X1 M1 n1 X2 M2 n2) (h' : Ap2 p y Y1 N1 n1 Y2 N2 n2) :
    Ap2 p (x - y) (X1 - Y1) (M1 + N1) n1 (X2 - Y2) (M2 + N2) n2 := by
  obtain ⟨x1, x2, rfl, h1, h2⟩ := h
  obtain ⟨y1, y2, rfl, k1, k2⟩ := h'
  exact ⟨x1 - y1, x2 - y2, by ring, (h1.sub k1).cast rfl rfl rfl (by simp), (h2.sub k2).cast rfl rfl rfl (by simp)⟩

theorem Ap2.cast {X1' M1' X2' M2' : ℚ} {n1' n2' : Nat} (h : Ap2 p x X1 M1 n1 X2 M2 n2) (e1 : X1 = X1') (e2 : M1 = M1') (e3 : n1 ≤ n1')
    (e4 : X2 = X2') (e5 : M2 = M2') (e6 : n2 ≤ n2') : Ap2 p x X1' M1' n1' X2' M2' n2' := by
  obtain ⟨x1, x2, e, h1, h2⟩ := h
  exact ⟨x1, x2, e, h1.cast rfl e1 e2 e3, h2.cast rfl e4 e5 e6⟩
end

theorem Term.Ok.c1_appr {p : Nat} (hp : 11 ≤ p) {t : Term} (h : t.Ok p) :
    Ap2 p (t.c1 p) t.X1 (2 * eps p * t.M) 11 t.X2 (eps p * (1 + 2 * eps p) * t.M) 9 := by
  have v1 := volP_appr (p := p) (le_refl |t.w1.z|) (le_refl |t.w2.z|) (le_refl |t.w3.z|) h.w1.eps_appr h.w2.eps_appr h.w3.eps_appr
  have v2 := volP_appr (p := p) h.w1.bz h.w2.bz h.w3.bz (h.w1.c_appr hp) (h.w2.c_appr hp) (h.w3.c_appr hp)
  have h1 := (Ap2.mul (liftFl_appr p t.a.x t.a.y t.a.z) (Ap2.of v1 v2).rnd).rnd
  refine h1.cast rfl ?_ (by simp) rfl ?_ (by simp)
  · unfold Term.M Wedge.m; ring
  · unfold Term.M Wedge.m; ring

theorem Term.Ok.c2_appr {p : Nat} (hp : 11 ≤ p) {t : Term} (h : t.Ok p) :
    Appr p (t.c2 p) t.X3 (eps p * (1 + 2 * eps p) * t.M) 8 := by
  have v2 := volP_appr (p := p) (le_refl |t.w1.z|) (le_refl |t.w2.z|) (le_refl |t.w3.z|) (h.w1.c_appr hp) (h.w2.c_appr hp) (h.w3.c_appr hp)
  have h1 := ((liftTail_appr h.a).mul v2).rnd
  refine h1.cast rfl rfl ?_ (by simp)
  unfold Term.M Wedge.m; ring

/-- The sum of four numbers as `permanent` is computed. -/
def perm4 (p : Nat) (a b c d : ℚ) : ℚ := rnd p (rnd p (rnd p (a + b) + c) + d)

theorem perm4_le {p : Nat} (hp : 0 < p) {a b c d : ℚ} (ha : 0 ≤ a) (hb : 0 ≤ b) (hc : 0 ≤ c) (hd : 0 ≤ d) :
    a + b + c + d ≤ (1 + eps p) ^ 3 * perm4 p a b c d := by
  have he := eps_pos p
  have h1 := perm_sum hp ha hb hc
  have n := rnd_nonneg hp (add_nonneg (rnd_nonneg hp (add_nonneg ha hb)) hc)
  have h2 := le_rnd_mul hp (add_nonneg n hd)
  have h3 := mul_le_mul_of_nonneg_left h2 (show 0 ≤ (1 + eps p) ^ 2 by positivity)
  have h4 : d ≤ (1 + eps p) ^ 2 * d := by
    have := mul_le_mul_of_nonneg_right (one_le_pow_eps p 2) hd
    linarith
  unfold perm4
  refine le_trans ?_ (h3.trans (le_of_eq ?_))
  · linarith only [h1, h4]
  · ring

section
variable {p : Nat} {ta tb tc td : Term}

/-- The determinant. -/
def isDet (ta tb tc td : Term) : ℚ := (td.T - tc.T) + (tb.T - ta.T)

def isDet0 (ta tb tc td : Term) : ℚ := (td.T0 - tc.T0) + (tb.T0 - ta.T0)

/-- The computed magnitude. -/
def isPerm (p : Nat) (ta tb tc td : Term) : ℚ := perm4 p (ta.P p) (tb.P p) (tc.P p) (td.P p)

theorem isPerm_nonneg (hp : 0 < p) (ta tb tc td : Term) : 0 ≤ isPerm p ta tb tc td :=
  rnd_nonneg hp (add_nonneg (rnd_nonneg hp (add_nonneg (rnd_nonneg hp (add_nonneg (ta.P_nonneg hp) (tb.P_nonneg hp))) (tc.P_nonneg hp)))
    (td.P_nonneg hp))

theorem isPerm_le (hp : 0 < p) (ta tb tc td : Term) : ta.P p + tb.P p + tc.P p + td.P p ≤ (1 + eps p) ^ 3 * isPerm p ta tb tc td :=
  perm4_le hp (ta.P_nonneg hp) (tb.P_nonneg hp) (tc.P_nonneg hp) (td.P_nonneg hp)

theorem four_abs (a b c d : ℚ) : |(d - c) + (b - a)| ≤ |a| + |b| + |c| + |d| := by
  have h1 := abs_add_le (d - c) (b - a)
  have h2 := abs_sub d c
  have h3 := abs_sub b a
  linarith

/-- First filter. -/
theorem is_stageA (hp : 11 ≤ p) (ha : ta.Ok p) (hb : tb.Ok p) (hc : tc.Ok p) (hd : td.Ok p)
    (hle : rnd p ((16 + 224 * eps p) * eps p * isPerm p ta tb tc td) ≤
      |rnd p (rnd p (td.fl p - tc.fl p) + rnd p (tb.fl p - ta.fl p))|) :
    SignType.sign (rnd p (rnd p (td.fl p - tc.fl p) + rnd p (tb.fl p - ta.fl p))) = SignType.sign (isDet ta tb tc td) := by
  have hp0 : 0 < p := by omega
  have he := eps_pos p
  have he' := eps_le hp
  have h1 := (((hd.appr hp0).sub (hc.appr hp0)).add ((hb.appr hp0).sub (ha.appr hp0))).cast rfl rfl rfl (n' := 9) (by simp)
  have h2 := (((td.fl_appr hp0).sub (tc.fl_appr hp0)).rnd.add ((tb.fl_appr hp0).sub (ta.fl_appr hp0)).rnd).cast rfl rfl rfl (n' := 6) (by simp)
  have hM : td.Mr p + tc.Mr p + (tb.Mr p + ta.Mr p) ≤ (1 + eps p) ^ 8 * isPerm p ta tb tc td := by
    refine le_pow_mul (n := 5) (m := 3) he.le ?_ (isPerm_le hp0 ta tb tc td)
    have := ta.Mr_le hp0
    have := tb.Mr_le hp0
    have := tc.Mr_le hp0
    have := td.Mr_le hp0
    linarith
  have q9 := one_le_pow_eps p 9
  have q6 := one_le_pow_eps p 6
  refine filterA hp (α := (1 + eps p) ^ 9 - 1) (β := (1 + eps p) ^ 6 - 1) (γ := (1 + eps p) ^ 8) h1.err h2.err h1.nonneg hM
    (isPerm_nonneg hp0 _ _ _ _) (by linarith) ?_ hle
  have p9 := pow_eps_le he.le 9 (by push_cast; linarith)
  have p6 := pow_eps_le he.le 6 (by push_cast; linarith)
  push_cast at p9 p6
  have e1 : (1 + eps p) ^ 9 - 1 + ((1 + eps p) ^ 6 - 1) ≤ eps p * (15 + 64 * eps p) := by nlinarith
  have e2 : (1 + eps p) ^ 9 ≤ 1 + eps p * (91 / 10) := by nlinarith
  have e3 := mul_le_mul e1 e2 (by linarith) (by positivity)
  have e4 : (15 + 64 * eps p) * (1 + eps p * (91 / 10)) < (1 - eps p) * (16 + 224 * eps p) := by nlinarith
  have e5 := mul_lt_mul_of_pos_left e4 he
  have e6 : ((1 + eps p) ^ 9 - 1 + ((1 + eps p) ^ 6 - 1)) * (1 + eps p) ^ 8 * (1 + eps p) =
    ((1 + eps p) ^ 9 - 1 + ((1 + eps p) ^ 6 - 1)) * (1 + eps p) ^ 9 := by ring
  rw [e6]
  linarith

/-- Second filter. -/
theorem is_stageB (hp : 11 ≤ p) (ha : ta.Ok p) (hb : tb.Ok p) (hc : tc.Ok p) (hd : td.Ok p) {est : ℚ}
    (hest : |isDet0 ta tb tc td - est| ≤ 3 * eps p * (1 + 4 * eps p) * |est|)
    (hle : rnd p ((5 + 72 * eps p) * eps p * isPerm p ta tb tc td) ≤ |est|) :
    SignType.sign est = SignType.sign (isDet ta tb tc td) := by
  have hp0 : 0 < p := by omega
  have he := eps_pos p
  have he' := eps_le hp
  set κ := 5 * eps p + 5 * eps p ^ 2 + 120 * eps p ^ 3 with hκ
  have κ0 : 0 ≤ κ := by positivity
  have h1 : |isDet ta tb tc td - (1 + 10 * eps p ^ 2) * isDet0 ta tb tc td| ≤ κ * (1 + eps p) ^ 6 * (ta.P p + tb.P p + tc.P p + td.P p) := by
    have e : isDet ta tb tc td - (1 + 10 * eps p ^ 2) * isDet0 ta tb tc td =
      ((td.T - (1 + 10 * eps p ^ 2) * td.T0) - (tc.T - (1 + 10 * eps p ^ 2) * tc.T0)) +
      ((tb.T - (1 + 10 * eps p ^ 2) * tb.T0) - (ta.T - (1 + 10 * eps p ^ 2) * ta.T0)) := by unfold isDet isDet0; ring
    rw [e]
    refine (four_abs _ _ _ _).trans ?_
    have k1 := ha.tight hp
    have k2 := hb.tight hp
    have k3 := hc.tight hp
    have k4 := hd.tight hp
    rw [← hκ] at k1 k2 k3 k4
    linarith only [k1, k2, k3, k4]
  refine filterB' hp (α := κ * (1 + eps p) ^ 6) (γ := (1 + eps p) ^ 3) (lam := 1 + 10 * eps p ^ 2) (by nlinarith) h1 hest
    (add_nonneg (add_nonneg (add_nonneg (ta.P_nonneg hp0) (tb.P_nonneg hp0)) (tc.P_nonneg hp0)) (td.P_nonneg hp0))
    (isPerm_le hp0 ta tb tc td) (isPerm_nonneg hp0 _ _ _ _) (by positivity) ?_ hle
  have p10 := pow_eps_le he.le 10 (by push_cast; linarith)
  push_cast at p10
  have e2 : (1 + eps p) ^ 10 ≤ 1 + eps p * (101 / 10) := by nlinarith
  have e1 : κ ≤ eps p * (5 + eps p * (51 / 10)) := by
    have : κ = eps p * (5 + eps p * (5 + 120 * eps p)) := by rw [hκ]; ring
    rw [this]
    refine mul_le_mul_of_nonneg_left ?_ he.le
    nlinarith
  have e3 := mul_le_mul e1 e2 (by positivity) (by positivity)
  have e4 : (5 + eps p * (51 / 10)) * (1 + eps p * (101 / 10)) < (1 - 3 * eps p * (1 + 4 * eps p)) * (5 + 72 * eps p) := by nlinarith
  have e5 := mul_lt_mul_of_pos_left e4 he
  have e6 : κ * (1 + eps p) ^ 6 * (1 + eps p) ^ 3 * (1 + eps p) = κ * (1 + eps p) ^ 10 := by ring
  rw [e6]
  linarith

/-- The correction of the third stage. -/
def isCorr (p : Nat) (ta tb tc td : Term) : ℚ :=
  rnd p (rnd p (rnd p (tb.c1 p + td.c1 p) - rnd p (ta.c1 p + tc.c1 p)) + rnd p (2 * rnd p (rnd p (tb.c2 p + td.c2 p) - rnd p (ta.c2 p + tc.c2 p))))

/-- The terms of first order. -/
def isFirst (ta tb tc td : Term) : ℚ :=
  ((td.X1 + td.X2 + 2 * td.X3) - (tc.X1 + tc.X2 + 2 * tc.X3)) + ((tb.X1 + tb.X2 + 2 * tb.X3) - (ta.X1 + ta.X2 + 2 * ta.X3))

theorem isCorr_err (hp : 11 ≤ p) (ha : ta.Ok p) (hb : tb.Ok p) (hc : tc.Ok p) (hd : td.Ok p) :
    |isCorr p ta tb tc td - isFirst ta tb tc td| ≤
      (((1 + eps p) ^ 14 - 1) * (2 * eps p) + ((1 + eps p) ^ 12 - 1) * (eps p * (1 + 2 * eps p)) +
        ((1 + eps p) ^ 11 - 1) * (2 * (eps p * (1 + 2 * eps p)))) * (tb.M + td.M + (ta.M + tc.M)) := by
  have hp0 : 0 < p := by omega
  have h1 := (((hb.c1_appr hp).add (hd.c1_appr hp)).rnd.sub ((ha.c1_appr hp).add (hc.c1_appr hp)).rnd).rnd
  have h2 := (((hb.c2_appr hp).add (hd.c2_appr hp)).rnd.sub ((ha.c2_appr hp).add (hc.c2_appr hp)).rnd).rnd.two
  have h3 : Appr p (2 * rnd p (rnd p (tb.c2 p + td.c2 p) - rnd p (ta.c2 p + tc.c2 p))) (2 * (tb.X3 + td.X3 - (ta.X3 + tc.X3)))
      (2 * (eps p * (1 + 2 * eps p)) * (tb.M + td.M + (ta.M + tc.M))) 10 := h2.cast rfl rfl (by ring) (by simp)
  obtain ⟨x1, x2, e, k1, k2⟩ := h1
  unfold isCorr
  rw [rnd_two (rep_rnd hp0 _), e]
  set x3 := 2 * rnd p (rnd p (tb.c2 p + td.c2 p) - rnd p (ta.c2 p + tc.c2 p))
  obtain ⟨δ, hδ, e'⟩ := rnd_factor p (x1 + x2 + x3)
  have l1 := ((k1.scale hδ).cast rfl rfl (M' := 2 * eps p * (tb.M + td.M + (ta.M + tc.M))) (n' := 14) (by ring) (by simp)).err
  have l2 := ((k2.scale hδ).cast rfl rfl (M' := eps p * (1 + 2 * eps p) * (tb.M + td.M + (ta.M + tc.M))) (n' := 12) (by ring) (by simp)).err
  have l3 := (h3.scale hδ).err
  have e2 : rnd p (x1 + x2 + x3) - isFirst ta tb tc td =
    (x1 * (1 + δ) - (tb.X1 + td.X1 - (ta.X1 + tc.X1))) + (x2 * (1 + δ) - (tb.X2 + td.X2 - (ta.X2 + tc.X2))) +
    (x3 * (1 + δ) - 2 * (tb.X3 + td.X3 - (ta.X3 + tc.X3))) := by rw [e', isFirst]; ring
  rw [e2]
  refine (abs_add_three _ _ _).trans ?_
  refine (add_le_add (add_le_add l1 l2) l3).trans (le_of_eq ?_)
  generalize (1 + eps p) ^ 14 = q14
  generalize (1 + eps p) ^ 12 = q12
  generalize (1 + eps p) ^ (10 + 1) = q11
  ring

theorem corr_num {e : ℚ} (he : 0 ≤ e) (he' : e ≤ 1 / 2048) :
    0 ≤ ((1 + e) ^ 14 - 1) * (2 * e) + ((1 + e) ^ 12 - 1) * (e * (1 + 2 * e)) + ((1 + e) ^ 11 - 1) * (2 * (e * (1 + 2 * e))) ∧
    ((1 + e) ^ 14 - 1) * (2 * e) + ((1 + e) ^ 12 - 1) * (e * (1 + 2 * e)) + ((1 + e) ^ 11 - 1) * (2 * (e * (1 + 2 * e))) ≤ e ^ 2 * (62 + 487 * e) := by
  have p14 := pow_eps_le he 14 (by push_cast; linarith)
  have p12 := pow_eps_le he 12 (by push_cast; linarith)
  have p11 := pow_eps_le he 11 (by push_cast; linarith)
  push_cast at p14 p12 p11
  have q14 : 1 ≤ (1 + e) ^ 14 := one_le_pow₀ (by linarith)
  have q12 : 1 ≤ (1 + e) ^ 12 := one_le_pow₀ (by linarith)
  have q11 : 1 ≤ (1 + e) ^ 11 := one_le_pow₀ (by linarith)
  generalize (1 + e) ^ 14 = r14 at *
  generalize (1 + e) ^ 12 = r12 at *
  generalize (1 + e) ^ 11 = r11 at *
  have e2 : 0 ≤ e ^ 2 := by positivity
  have i1 : r14 - 1 ≤ e * (14 + 105 * e) := by linarith
  have i2 : r12 - 1 ≤ e * (12 + 77 * e) := by linarith
  have i3 : r11 - 1 ≤ e * (11 + 65 * e) := by linarith
  have j1 := mul_le_mul_of_nonneg_right i1 (show 0 ≤ 2 * e by positivity)
  have j2 := mul_le_mul_of_nonneg_right i2 (show 0 ≤ e * (1 + 2 * e) by positivity)
  have j3 := mul_le_mul_of_nonneg_right i3 (show 0 ≤ 2 * (e * (1 + 2 * e)) by positivity)
  have j4 : e ^ 2 * (e * e) ≤ e ^ 2 * (e * (1 / 2048)) := mul_le_mul_of_nonneg_left (mul_le_mul_of_nonneg_left he' he) e2
  have j5 : 0 ≤ e ^ 3 := by positivity
  constructor
  · have l1 := mul_nonneg (sub_nonneg.mpr q14) (show 0 ≤ 2 * e by positivity)
    have l2 := mul_nonneg (sub_nonneg.mpr q12) (show 0 ≤ e * (1 + 2 * e) by positivity)
    have l3 := mul_nonneg (sub_nonneg.mpr q11) (show 0 ≤ 2 * (e * (1 + 2 * e)) by positivity)
    linarith only [l1, l2, l3]
  · linarith only [j1, j2, j3, j4, j5]

theorem stageC_num {e σ : ℚ} (he : 0 < e) (he' : e ≤ 1 / 2048) (σ1 : σ ≤ e ^ 2 * (62 + 487 * e)) :
    (1 + e) ^ 2 * ((6 * e ^ 2 + 11 * e ^ 3 + 3 / 2 * e ^ 2 * (1 + 2 * e)) * (1 + e) ^ 12 + 41 * e ^ 3 + σ * (1 + e) ^ 12) +
      15 * e ^ 2 * ((5 + 72 * e) * e) < (1 - e) * ((71 + 1408 * e) * e ^ 2) := by
  have p12 := pow_eps_le he.le 12 (by push_cast; linarith)
  push_cast at p12
  have e12 : (1 + e) ^ 12 ≤ 1 + 13 * e := by nlinarith
  have q0 : 0 ≤ (1 + e) ^ 12 := by positivity
  generalize (1 + e) ^ 12 = q at *
  have a1 : 6 * e ^ 2 + 11 * e ^ 3 + 3 / 2 * e ^ 2 * (1 + 2 * e) + σ ≤ e ^ 2 * (139 / 2 + 501 * e) := by linarith only [σ1]
  have a2 := mul_le_mul a1 e12 q0 (by positivity)
  have a3 : (139 / 2 + 501 * e) * (1 + 13 * e) + 41 * e ≤ 139 / 2 + 1450 * e := by nlinarith
  have a4 := mul_le_mul_of_nonneg_left a3 (show 0 ≤ e ^ 2 by positivity)
  have a5 : (6 * e ^ 2 + 11 * e ^ 3 + 3 / 2 * e ^ 2 * (1 + 2 * e)) * q + 41 * e ^ 3 + σ * q ≤ e ^ 2 * (139 / 2 + 1450 * e) := by
    linarith only [a2, a4]
  have a6 := mul_le_mul_of_nonneg_left a5 (show 0 ≤ (1 + e) ^ 2 by positivity)
  have a7 : (1 + e) ^ 2 * (139 / 2 + 1450 * e) + 15 * ((5 + 72 * e) * e) < (1 - e) * (71 + 1408 * e) := by nlinarith
  have a8 := mul_lt_mul_of_pos_left a7 (show 0 < e ^ 2 by positivity)
  linarith only [a6, a8]

/-- Third filter. -/
theorem is_stageC (hp : 11 ≤ p) (ha : ta.Ok p) (hb : tb.Ok p) (hc : tc.Ok p) (hd : td.Ok p) {est perm eb det : ℚ}
    (hperm : perm = isPerm p ta tb tc td)
    (hest : |isDet0 ta tb tc td - est| ≤ 3 * eps p * (1 + 4 * eps p) * |est|)
    (hB : ¬ rnd p ((5 + 72 * eps p) * eps p * perm) ≤ |est|)
    (heb : eb = rnd p (rnd p ((71 + 1408 * eps p) * eps p ^ 2 * perm) + rnd p ((3 + 8 * eps p) * eps p * |est|)))
    (hdet : det = rnd p (est + isCorr p ta tb tc td)) (hle : eb ≤ |det|) :
    SignType.sign det = SignType.sign (isDet ta tb tc td) := by
  have hp0 : 0 < p := by omega
  have he := eps_pos p
  have he' := eps_le hp
  have hperm0 : 0 ≤ perm := by rw [hperm]; exact isPerm_nonneg hp0 _ _ _ _
  rw [not_le] at hB
  have hpos : 0 < perm := by
    rcases hperm0.lt_or_eq with h | h
    · exact h
    · rw [← h, mul_zero, rnd_zero] at hB
      exact absurd hB (not_lt.mpr (abs_nonneg _))
  have hB' : |est| ≤ (1 + eps p) * ((5 + 72 * eps p) * eps p * perm) := by
    have := abs_rnd_le_mul (p := p) ((5 + 72 * eps p) * eps p * perm)
    have h0 : 0 ≤ (5 + 72 * eps p) * eps p * perm := by positivity
    rw [abs_of_nonneg (rnd_nonneg hp0 h0), abs_of_nonneg h0] at this
    linarith
  have hM : tb.M + td.M + (ta.M + tc.M) ≤ (1 + eps p) ^ 12 * perm := by
    rw [hperm]
    refine le_pow_mul (n := 9) (m := 3) he.le ?_ (isPerm_le hp0 ta tb tc td)
    have := ta.M_le hp0
    have := tb.M_le hp0
    have := tc.M_le hp0
    have := td.M_le hp0
    linarith
  set MM := tb.M + td.M + (ta.M + tc.M) with hMM
  have hV : |isDet0 ta tb tc td| ≤ 2 * |est| := by
    have h1 := abs_add_le (isDet0 ta tb tc td - est) est
    rw [sub_add_cancel] at h1
    have h2 : 3 * eps p * (1 + 4 * eps p) * |est| ≤ 1 * |est| := mul_le_mul_of_nonneg_right (by nlinarith) (abs_nonneg _)
    linarith
  have h1 : |isDet ta tb tc td - isDet0 ta tb tc td - isFirst ta tb tc td| ≤
      ((6 * eps p ^ 2 + 11 * eps p ^ 3 + 3 / 2 * eps p ^ 2 * (1 + 2 * eps p)) * (1 + eps p) ^ 12 + 41 * eps p ^ 3) * perm := by
    have e : isDet ta tb tc td - isDet0 ta tb tc td - isFirst ta tb tc td =
      (((td.T - (1 + 4 * eps p ^ 2) * td.T0 - (td.X1 + td.X2 + 2 * td.X3)) - (tc.T - (1 + 4 * eps p ^ 2) * tc.T0 - (tc.X1 + tc.X2 + 2 * tc.X3))) +
      ((tb.T - (1 + 4 * eps p ^ 2) * tb.T0 - (tb.X1 + tb.X2 + 2 * tb.X3)) - (ta.T - (1 + 4 * eps p ^ 2) * ta.T0 - (ta.X1 + ta.X2 + 2 * ta.X3)))) +
      4 * eps p ^ 2 * isDet0 ta tb tc td := by unfold isDet isDet0 isFirst; ring
    rw [e]
    have k1 := ha.second hp
    have k2 := hb.second hp
    have k3 := hc.second hp
    have k4 := hd.second hp
    have k0 := four_abs (ta.T - (1 + 4 * eps p ^ 2) * ta.T0 - (ta.X1 + ta.X2 + 2 * ta.X3)) (tb.T - (1 + 4 * eps p ^ 2) * tb.T0 - (tb.X1 + tb.X2 + 2 * tb.X3))
      (tc.T - (1 + 4 * eps p ^ 2) * tc.T0 - (tc.X1 + tc.X2 + 2 * tc.X3)) (td.T - (1 + 4 * eps p ^ 2) * td.T0 - (td.X1 + td.X2 + 2 * td.X3))
    set r := 6 * eps p ^ 2 + 11 * eps p ^ 3 + 3 / 2 * eps p ^ 2 * (1 + 2 * eps p) with hr
    have r0 : 0 ≤ r := by positivity
    have k5 := mul_le_mul_of_nonneg_left hM r0
    have k6 : |4 * eps p ^ 2 * isDet0 ta tb tc td| ≤ 41 * eps p ^ 3 * perm := by
      rw [abs_mul, abs_of_nonneg (show 0 ≤ 4 * eps p ^ 2 by positivity)]
      have i1 := mul_le_mul_of_nonneg_left (hV.trans (mul_le_mul_of_nonneg_left hB' (by norm_num))) (show 0 ≤ 4 * eps p ^ 2 by positivity)
      refine i1.trans ?_
      have i2 : 8 * ((1 + eps p) * (5 + 72 * eps p)) ≤ 41 := by nlinarith
      have i3 := mul_le_mul_of_nonneg_right i2 (show 0 ≤ eps p ^ 3 * perm by positivity)
      linarith only [i3]
    refine (abs_add_le _ _).trans ?_
    rw [add_mul _ (41 * eps p ^ 3)]
    refine add_le_add ?_ k6
    have e7 : r * (1 + eps p) ^ 12 * perm = r * ((1 + eps p) ^ 12 * perm) := by ring
    rw [e7]
    refine le_trans ?_ k5
    rw [hMM]
    linarith only [k0, k1, k2, k3, k4]
  have h2 := isCorr_err hp ha hb hc hd
  rw [← hMM] at h2
  obtain ⟨σ0, σ1⟩ := corr_num he.le he'
  generalize ((1 + eps p) ^ 14 - 1) * (2 * eps p) + ((1 + eps p) ^ 12 - 1) * (eps p * (1 + 2 * eps p)) +
        ((1 + eps p) ^ 11 - 1) * (2 * (eps p * (1 + 2 * eps p))) = σ at h2 σ0 σ1
  have h3 := h2.trans (mul_le_mul_of_nonneg_left hM σ0)
  have h4 : |isCorr p ta tb tc td - isFirst ta tb tc td| ≤ (σ * (1 + eps p) ^ 12) * perm := h3.trans (le_of_eq (by rw [mul_assoc]))
  refine filterC hp (B := (5 + 72 * eps p) * eps p) (C := (71 + 1408 * eps p) * eps p ^ 2) (γ := 1) h1 h4 hest (by rw [one_mul]) hpos ?_
    (by positivity) (by positivity) hB' ?_ heb hdet hle
  · positivity
  rw [mul_one]
  exact stageC_num he he' σ1
end

end FP
end Verif
