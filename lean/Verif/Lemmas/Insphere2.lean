import Verif.Lemmas.Insphere2Exact
import Verif.Lemmas.Filter

/-!
# Stages of the incircle test
-/
namespace Verif
namespace FP

/-- The determinant. -/
def icDet (Xa Ya Xb Yb Xc Yc : ℚ) : ℚ :=
  (Xa * Xa + Ya * Ya) * (Xb * Yc - Xc * Yb) + (Xb * Xb + Yb * Yb) * (Xc * Ya - Xa * Yc) + (Xc * Xc + Yc * Yc) * (Xa * Yb - Xb * Ya)

/-- The magnitudes of its terms. -/
def icMag (xa ya xb yb xc yc : ℚ) : ℚ :=
  (xa * xa + ya * ya) * (|xb * yc| + |xc * yb|) + (xb * xb + yb * yb) * (|xc * ya| + |xa * yc|) + (xc * xc + yc * yc) * (|xa * yb| + |xb * ya|)

theorem icMag_nonneg (xa ya xb yb xc yc : ℚ) : 0 ≤ icMag xa ya xb yb xc yc := by
  unfold icMag
  have h : ∀ x y z w : ℚ, 0 ≤ (x * x + y * y) * (|z| + |w|) := fun x y z w => by
    have := mul_self_nonneg x
    have := mul_self_nonneg y
    positivity
  linarith [h xa ya (xb * yc) (xc * yb), h xb yb (xc * ya) (xa * yc), h xc yc (xa * yb) (xb * ya)]

/-- A rounded product, relative to itself. -/
theorem appr_prod {p : Nat} (hp : 0 < p) {X x Y y : ℚ} {n m : Nat} (h : Appr p X x |x| n) (h' : Appr p Y y |y| m) :
    Appr p (X * Y) (rnd p (x * y)) |rnd p (x * y)| (n + m + 1) := by
  have := h.mul h'
  rw [← abs_mul] at this
  exact this.base hp

/-- A rounded sum of nonnegative numbers, relative to itself. -/
theorem appr_add_pos {p : Nat} (hp : 0 < p) {X x Y y : ℚ} {n m : Nat} (h : Appr p X x |x| n) (h' : Appr p Y y |y| m) (hx : 0 ≤ x) (hy : 0 ≤ y) :
    Appr p (X + Y) (rnd p (x + y)) |rnd p (x + y)| (max n m + 1) := by
  have := h.add h'
  rw [abs_of_nonneg hx, abs_of_nonneg hy] at this
  exact (this.cast rfl rfl (abs_of_nonneg (add_nonneg hx hy)).symm le_rfl).base hp

theorem le_pow_mul {e x y : ℚ} {n m : Nat} {z : ℚ} (he : 0 ≤ e) (h : x ≤ (1 + e) ^ n * y) (h' : y ≤ (1 + e) ^ m * z) : x ≤ (1 + e) ^ (n + m) * z := by
  refine h.trans ?_
  rw [pow_add, mul_assoc]
  exact mul_le_mul_of_nonneg_left h' (by positivity)

/-- The sum of the magnitudes of one point, for the computed values. -/
theorem perm_term {p : Nat} (hp : 0 < p) {u v A : ℚ} (hA : 0 ≤ A) :
    A * (|u| + |v|) ≤ (1 + eps p) ^ 2 * rnd p (rnd p (|u| + |v|) * A) := by
  have he := eps_pos p
  have h1 := le_rnd_mul hp (add_nonneg (abs_nonneg u) (abs_nonneg v))
  have h2 := le_rnd_mul hp (mul_nonneg (rnd_nonneg hp (add_nonneg (abs_nonneg u) (abs_nonneg v))) hA)
  have h3 := mul_le_mul_of_nonneg_left h1 hA
  have h4 := mul_le_mul_of_nonneg_left h2 (show 0 ≤ 1 + eps p by linarith)
  linarith

theorem perm_sum {p : Nat} (hp : 0 < p) {x y z : ℚ} (hx : 0 ≤ x) (hy : 0 ≤ y) (hz : 0 ≤ z) :
    x + y + z ≤ (1 + eps p) ^ 2 * rnd p (rnd p (x + y) + z) := by
  have he := eps_pos p
  have h1 := le_rnd_mul hp (add_nonneg hx hy)
  have h2 := le_rnd_mul hp (add_nonneg (rnd_nonneg hp (add_nonneg hx hy)) hz)
  have h4 := mul_le_mul_of_nonneg_left h2 (show 0 ≤ 1 + eps p by linarith)
  have h5 : z ≤ (1 + eps p) * z := by nlinarith
  linarith

/-- The computed values of `insphere`. -/
structure IcVals where
  al : ℚ
  bl : ℚ
  cl : ℚ
  bc : ℚ
  cb : ℚ
  ca : ℚ
  ac : ℚ
  ab : ℚ
  ba : ℚ

/-- The products. -/
def icVals (p : Nat) (xa ya xb yb xc yc : ℚ) : IcVals :=
  ⟨rnd p (rnd p (xa * xa) + rnd p (ya * ya)), rnd p (rnd p (xb * xb) + rnd p (yb * yb)), rnd p (rnd p (xc * xc) + rnd p (yc * yc)),
    rnd p (xb * yc), rnd p (xc * yb), rnd p (xc * ya), rnd p (xa * yc), rnd p (xa * yb), rnd p (xb * ya)⟩

/-- The magnitudes of the computed values. -/
def IcVals.mag (v : IcVals) : ℚ := v.al * (|v.bc| + |v.cb|) + v.bl * (|v.ca| + |v.ac|) + v.cl * (|v.ab| + |v.ba|)

/-- The permanent. -/
def IcVals.perm (p : Nat) (v : IcVals) : ℚ :=
  rnd p (rnd p (rnd p (rnd p (|v.bc| + |v.cb|) * v.al) + rnd p (rnd p (|v.ca| + |v.ac|) * v.bl)) + rnd p (rnd p (|v.ab| + |v.ba|) * v.cl))

theorem lift_nonneg {p : Nat} (hp : 0 < p) (x y : ℚ) : 0 ≤ rnd p (rnd p (x * x) + rnd p (y * y)) :=
  rnd_nonneg hp (add_nonneg (rnd_nonneg hp (mul_self_nonneg x)) (rnd_nonneg hp (mul_self_nonneg y)))

theorem mag_le {p : Nat} (hp : 0 < p) {v : IcVals} (ha : 0 ≤ v.al) (hb : 0 ≤ v.bl) (hc : 0 ≤ v.cl) :
    v.mag ≤ (1 + eps p) ^ 4 * v.perm p := by
  have he := eps_pos p
  have w : ∀ {A u v : ℚ}, 0 ≤ A → 0 ≤ rnd p (rnd p (|u| + |v|) * A) := fun hA =>
    rnd_nonneg hp (mul_nonneg (rnd_nonneg hp (add_nonneg (abs_nonneg _) (abs_nonneg _))) hA)
  have h := perm_sum hp (w ha (u := v.bc) (v := v.cb)) (w hb (u := v.ca) (v := v.ac)) (w hc (u := v.ab) (v := v.ba))
  have h1 := perm_term hp ha (u := v.bc) (v := v.cb)
  have h2 := perm_term hp hb (u := v.ca) (v := v.ac)
  have h3 := perm_term hp hc (u := v.ab) (v := v.ba)
  refine le_pow_mul (n := 2) (m := 2) he.le ?_ h
  unfold IcVals.mag
  linarith

theorem perm_nonneg {p : Nat} (hp : 0 < p) {v : IcVals} (ha : 0 ≤ v.al) (hb : 0 ≤ v.bl) (hc : 0 ≤ v.cl) : 0 ≤ v.perm p := by
  have w : ∀ {A u v : ℚ}, 0 ≤ A → 0 ≤ rnd p (rnd p (|u| + |v|) * A) := fun hA =>
    rnd_nonneg hp (mul_nonneg (rnd_nonneg hp (add_nonneg (abs_nonneg _) (abs_nonneg _))) hA)
  exact rnd_nonneg hp (add_nonneg (rnd_nonneg hp (add_nonneg (w ha) (w hb))) (w hc))

theorem lift_le {p : Nat} (hp : 0 < p) (x y : ℚ) : x * x + y * y ≤ (1 + eps p) ^ 2 * rnd p (rnd p (x * x) + rnd p (y * y)) := by
  have he := eps_pos p
  have h1 := le_rnd_mul hp (mul_self_nonneg x)
  have h2 := le_rnd_mul hp (mul_self_nonneg y)
  have h3 := le_rnd_mul hp (add_nonneg (rnd_nonneg hp (mul_self_nonneg x)) (rnd_nonneg hp (mul_self_nonneg y)))
  have h4 := mul_le_mul_of_nonneg_left h3 (show 0 ≤ 1 + eps p by linarith)
  linarith

theorem icMag_term {p : Nat} (hp : 0 < p) (x y u v : ℚ) :
    (x * x + y * y) * (|u| + |v|) ≤ (1 + eps p) ^ 3 * (rnd p (rnd p (x * x) + rnd p (y * y)) * (|rnd p u| + |rnd p v|)) := by
  have he := eps_pos p
  have h1 := lift_le hp x y
  have h2 := abs_le_rnd_mul hp u
  have h3 := abs_le_rnd_mul hp v
  have h4 : |u| + |v| ≤ (1 + eps p) * (|rnd p u| + |rnd p v|) := by linarith
  have h5 := mul_le_mul h1 h4 (by positivity) (mul_nonneg (by positivity) (lift_nonneg hp x y))
  refine h5.trans (le_of_eq ?_)
  ring

theorem icMag_le {p : Nat} (hp : 0 < p) (xa ya xb yb xc yc : ℚ) :
    icMag xa ya xb yb xc yc ≤ (1 + eps p) ^ 7 * (icVals p xa ya xb yb xc yc).perm p := by
  have he := eps_pos p
  have h := mag_le hp (v := icVals p xa ya xb yb xc yc) (lift_nonneg hp xa ya) (lift_nonneg hp xb yb) (lift_nonneg hp xc yc)
  refine le_pow_mul (n := 3) (m := 4) he.le ?_ h
  have h1 := icMag_term hp xa ya (xb * yc) (xc * yb)
  have h2 := icMag_term hp xb yb (xc * ya) (xa * yc)
  have h3 := icMag_term hp xc yc (xa * yb) (xb * ya)
  unfold icMag IcVals.mag icVals
  dsimp only
  linarith

section
variable {p : Nat} {a b c : Side} {Xa Ya Xb Yb Xc Yc : ℚ} (ha : SideOk p a Xa Ya) (hb : SideOk p b Xb Yb) (hc : SideOk p c Xc Yc)

theorem SideOk.apx (h : SideOk p a Xa Ya) : Appr p Xa a.x |a.x| 1 := by rw [h.eX]; exact Appr.of_tail h.bx

theorem SideOk.apy (h : SideOk p a Xa Ya) : Appr p Ya a.y |a.y| 1 := by rw [h.eY]; exact Appr.of_tail h.by_

theorem appr_lift (hp : 0 < p) (ha : SideOk p a Xa Ya) :
    Appr p (Xa * Xa + Ya * Ya) (rnd p (rnd p (a.x * a.x) + rnd p (a.y * a.y))) (rnd p (rnd p (a.x * a.x) + rnd p (a.y * a.y))) 4 := by
  have h1 := appr_prod hp ha.apx ha.apx
  have h2 := appr_prod hp ha.apy ha.apy
  have h3 := appr_add_pos hp h1 h2 (rnd_nonneg hp (mul_self_nonneg _)) (rnd_nonneg hp (mul_self_nonneg _))
  rwa [abs_of_nonneg (lift_nonneg hp a.x a.y)] at h3

theorem appr_term (hp : 0 < p) (ha : SideOk p a Xa Ya) (hb : SideOk p b Xb Yb) (hc : SideOk p c Xc Yc) :
    Appr p ((Xa * Xa + Ya * Ya) * (Xb * Yc - Xc * Yb))
      (rnd p (rnd p (a.x * a.x) + rnd p (a.y * a.y)) * (rnd p (b.x * c.y) - rnd p (c.x * b.y)))
      (rnd p (rnd p (a.x * a.x) + rnd p (a.y * a.y)) * (|rnd p (b.x * c.y)| + |rnd p (c.x * b.y)|)) 7 :=
  (appr_lift hp ha).mul ((appr_prod hp hb.apx hc.apy).sub (appr_prod hp hc.apx hb.apy))

/-- First filter. -/
theorem ic_stageA (hp : 11 ≤ p) (ha : SideOk p a Xa Ya) (hb : SideOk p b Xb Yb) (hc : SideOk p c Xc Yc) {v : IcVals} (hv : v = icVals p a.x a.y b.x b.y c.x c.y)
    (hle : rnd p ((10 + 96 * eps p) * eps p * v.perm p) ≤
      |rnd p (rnd p (rnd p (v.al * rnd p (v.bc - v.cb)) + rnd p (v.bl * rnd p (v.ca - v.ac))) + rnd p (v.cl * rnd p (v.ab - v.ba)))|) :
    SignType.sign (rnd p (rnd p (rnd p (v.al * rnd p (v.bc - v.cb)) + rnd p (v.bl * rnd p (v.ca - v.ac))) + rnd p (v.cl * rnd p (v.ab - v.ba)))) =
      SignType.sign (icDet Xa Ya Xb Yb Xc Yc) := by
  have hp0 : 0 < p := by omega
  have he := eps_pos p
  have he' := eps_le hp
  have nal : 0 ≤ v.al := by rw [hv]; exact lift_nonneg hp0 _ _
  have nbl : 0 ≤ v.bl := by rw [hv]; exact lift_nonneg hp0 _ _
  have ncl : 0 ≤ v.cl := by rw [hv]; exact lift_nonneg hp0 _ _
  have h1 : Appr p (icDet Xa Ya Xb Yb Xc Yc) (v.al * (v.bc - v.cb) + v.bl * (v.ca - v.ac) + v.cl * (v.ab - v.ba)) v.mag 7 := by
    rw [hv]
    exact ((appr_term hp0 ha hb hc).add (appr_term hp0 hb hc ha)).add (appr_term hp0 hc ha hb)
  have t : ∀ A u w : ℚ, 0 ≤ A → Appr p (rnd p (A * rnd p (u - w))) (A * (u - w)) (A * (|u| + |w|)) 2 := fun A u w hA => by
    have := ((Appr.refl p A).mul ((Appr.refl p u).sub (Appr.refl p w)).rnd).rnd
    rwa [abs_of_nonneg hA] at this
  have h2 := (((t v.al v.bc v.cb nal).add (t v.bl v.ca v.ac nbl)).rnd.add (t v.cl v.ab v.ba ncl))
  have hm := mag_le hp0 nal nbl ncl
  have p7 := pow_eps_le he.le 7 (by push_cast; linarith)
  have p3 := pow_eps_le he.le 3 (by push_cast; linarith)
  have p5 := pow_eps_le he.le 5 (by push_cast; linarith)
  have q7 := one_le_pow_eps p 7
  have q3 := one_le_pow_eps p 3
  have q5 := one_le_pow_eps p 5
  push_cast at p7 p3 p5
  refine filterA hp (α := (1 + eps p) ^ 7 - 1) (β := (1 + eps p) ^ 3 - 1) (γ := (1 + eps p) ^ 4) h1.err h2.err h1.nonneg hm
    (perm_nonneg hp0 nal nbl ncl) (by linarith) ?_ hle
  have e1 : (1 + eps p) ^ 7 - 1 + ((1 + eps p) ^ 3 - 1) ≤ eps p * (10 + 31 * eps p) := by nlinarith
  have e2 : (1 + eps p) ^ 5 ≤ 1 + 6 * eps p - eps p * (99 / 100) := by nlinarith
  have e3 := mul_le_mul e1 e2 (by linarith) (by positivity)
  have e4 : (10 + 31 * eps p) * (1 + 6 * eps p - eps p * (99 / 100)) < (1 - eps p) * (10 + 96 * eps p) := by nlinarith
  have e5 := mul_lt_mul_of_pos_left e4 he
  have e6 : ((1 + eps p) ^ 7 - 1 + ((1 + eps p) ^ 3 - 1)) * (1 + eps p) ^ 4 * (1 + eps p) =
    ((1 + eps p) ^ 7 - 1 + ((1 + eps p) ^ 3 - 1)) * (1 + eps p) ^ 5 := by ring
  rw [e6]
  linarith

theorem appr_liftB (ha : SideOk p a Xa Ya) : Appr p (Xa * Xa + Ya * Ya) (a.x * a.x + a.y * a.y) (a.x * a.x + a.y * a.y) 2 := by
  have := (ha.apx.mul ha.apx).add (ha.apy.mul ha.apy)
  rwa [abs_mul_abs_self, abs_mul_abs_self] at this

theorem appr_termB (ha : SideOk p a Xa Ya) (hb : SideOk p b Xb Yb) (hc : SideOk p c Xc Yc) :
    Appr p ((Xa * Xa + Ya * Ya) * (Xb * Yc - Xc * Yb)) ((a.x * a.x + a.y * a.y) * (b.x * c.y - c.x * b.y))
      ((a.x * a.x + a.y * a.y) * (|b.x * c.y| + |c.x * b.y|)) 4 := by
  have := (appr_liftB ha).mul ((hb.apx.mul hc.apy).sub (hc.apx.mul hb.apy))
  rwa [← abs_mul, ← abs_mul] at this

/-- Second filter. -/
theorem ic_stageB (hp : 11 ≤ p) (ha : SideOk p a Xa Ya) (hb : SideOk p b Xb Yb) (hc : SideOk p c Xc Yc) {est : ℚ}
    (hest : |icDet a.x a.y b.x b.y c.x c.y - est| ≤ 3 * eps p * (1 + 4 * eps p) * |est|)
    (hle : rnd p ((10 + 96 * eps p) * eps p * (icVals p a.x a.y b.x b.y c.x c.y).perm p) ≤ |est|) :
    SignType.sign est = SignType.sign (icDet Xa Ya Xb Yb Xc Yc) := by
  have hp0 : 0 < p := by omega
  have he := eps_pos p
  have he' := eps_le hp
  have h1 : Appr p (icDet Xa Ya Xb Yb Xc Yc) (icDet a.x a.y b.x b.y c.x c.y) (icMag a.x a.y b.x b.y c.x c.y) 4 :=
    ((appr_termB ha hb hc).add (appr_termB hb hc ha)).add (appr_termB hc ha hb)
  have p4 := pow_eps_le he.le 4 (by push_cast; linarith)
  have p8 := pow_eps_le he.le 8 (by push_cast; linarith)
  have q4 := one_le_pow_eps p 4
  have q8 := one_le_pow_eps p 8
  push_cast at p4 p8
  refine filterB hp (α := (1 + eps p) ^ 4 - 1) (γ := (1 + eps p) ^ 7) h1.err hest h1.nonneg (icMag_le hp0 _ _ _ _ _ _)
    (perm_nonneg hp0 (lift_nonneg hp0 _ _) (lift_nonneg hp0 _ _) (lift_nonneg hp0 _ _)) (by linarith) ?_ hle
  have e1 : (1 + eps p) ^ 4 - 1 ≤ eps p * 5 := by nlinarith
  have e2 : (1 + eps p) ^ 8 ≤ 3 / 2 := by nlinarith
  have e3 := mul_le_mul e1 e2 (by linarith) (by positivity)
  have e4 : 5 * (3 / 2) < (1 - 4 * eps p) * (10 + 96 * eps p) := by nlinarith
  have e5 := mul_lt_mul_of_pos_left e4 he
  have e6 : ((1 + eps p) ^ 4 - 1) * (1 + eps p) ^ 7 * (1 + eps p) = ((1 + eps p) ^ 4 - 1) * (1 + eps p) ^ 8 := by ring
  rw [e6]
  linarith

/-- The terms of first order of one point. -/
def icFirst (a b c : Side) : ℚ :=
  (a.x * a.x + a.y * a.y) * ((b.x * c.yt + c.y * b.xt) - (b.y * c.xt + c.x * b.yt)) + 2 * (a.x * a.xt + a.y * a.yt) * (b.x * c.y - b.y * c.x)

theorem abs_mul_tail {e x y t : ℚ} (h : |t| ≤ e * |y|) : |x * t| ≤ e * |x * y| := by
  rw [abs_mul, abs_mul]
  have := mul_le_mul_of_nonneg_left h (abs_nonneg x)
  linarith

theorem lift1_le (ha : SideOk p a Xa Ya) : |a.x * a.xt| + |a.y * a.yt| ≤ eps p * (a.x * a.x + a.y * a.y) := by
  have h1 := abs_mul_tail (x := a.x) ha.bx
  have h2 := abs_mul_tail (x := a.y) ha.by_
  rw [abs_mul_self] at h1 h2
  linarith

theorem cross1_le (hb : SideOk p b Xb Yb) (hc : SideOk p c Xc Yc) :
    |b.x * c.yt| + |c.y * b.xt| + (|b.y * c.xt| + |c.x * b.yt|) ≤ 2 * eps p * (|b.x * c.y| + |c.x * b.y|) := by
  have h1 := abs_mul_tail (x := b.x) hc.by_
  have h2 := abs_mul_tail (x := c.y) hb.bx
  have h3 := abs_mul_tail (x := b.y) hc.bx
  have h4 := abs_mul_tail (x := c.x) hb.by_
  rw [mul_comm c.y b.x] at h2
  rw [mul_comm b.y c.x] at h3
  linarith

theorem corr2_appr (hp : 11 ≤ p) (ha : SideOk p a Xa Ya) (hb : SideOk p b Xb Yb) (hc : SideOk p c Xc Yc) :
    Appr p (corr2 p a b c) (icFirst a b c) (4 * eps p * ((a.x * a.x + a.y * a.y) * (|b.x * c.y| + |c.x * b.y|))) 7 := by
  have hp0 : 0 < p := by omega
  have he := eps_pos p
  have R := fun x => Appr.refl p x
  have M := fun x y : ℚ => ((Appr.refl p x).mul (Appr.refl p y)).rnd
  have l := ((M a.x a.x).add (M a.y a.y)).rnd
  have k1 := (((M b.x c.yt).add (M c.y b.xt)).rnd.sub ((M b.y c.xt).add (M c.x b.yt)).rnd).rnd
  have l1 := ((M a.x a.xt).add (M a.y a.yt)).rnd.two
  have k := ((M b.x c.y).sub (M b.y c.x)).rnd
  simp only [← abs_mul] at l k1 l1 k
  rw [abs_mul_self, abs_mul_self] at l
  have n0 := l.nonneg
  have n1 : 0 ≤ |b.x * c.y| + |c.x * b.y| := by positivity
  have t1 := (l.mul (k1.weaken (cross1_le hb hc))).rnd
  have t2 := ((l1.weaken (N := 2 * (eps p * (a.x * a.x + a.y * a.y))) (by linarith [lift1_le ha])).mul k).rnd
  have t := (t1.add t2).rnd
  unfold corr2
  rw [rnd_two (rep_rnd hp0 _)]
  refine t.cast rfl rfl ?_ (by simp)
  rw [mul_comm b.y c.x]
  ring

/-- The terms of higher order of one point. -/
theorem term_rest (ha : SideOk p a Xa Ya) (hb : SideOk p b Xb Yb) (hc : SideOk p c Xc Yc) :
    |(Xa * Xa + Ya * Ya) * (Xb * Yc - Xc * Yb) - (a.x * a.x + a.y * a.y) * (b.x * c.y - c.x * b.y) - icFirst a b c| ≤
      (6 * eps p ^ 2 + 4 * eps p ^ 3 + eps p ^ 4) * ((a.x * a.x + a.y * a.y) * (|b.x * c.y| + |c.x * b.y|)) := by
  have he := eps_pos p
  set L := a.x * a.x + a.y * a.y with hL
  set m := |b.x * c.y| + |c.x * b.y| with hm
  set L1 := 2 * (a.x * a.xt + a.y * a.yt) with hL1
  set L2 := a.xt * a.xt + a.yt * a.yt with hL2
  set K := b.x * c.y - c.x * b.y with hK
  set K1 := (b.x * c.yt + c.y * b.xt) - (b.y * c.xt + c.x * b.yt) with hK1
  set K2 := b.xt * c.yt - c.xt * b.yt with hK2
  have n0 : 0 ≤ L := by have := mul_self_nonneg a.x; have := mul_self_nonneg a.y; linarith
  have n1 : 0 ≤ m := by positivity
  have e : (Xa * Xa + Ya * Ya) * (Xb * Yc - Xc * Yb) - L * K - icFirst a b c = L1 * K1 + L * K2 + L2 * (K + K1 + K2) + L1 * K2 := by
    rw [ha.eX, ha.eY, hb.eX, hb.eY, hc.eX, hc.eY, icFirst, hL, hL1, hL2, hK, hK1, hK2]; ring
  have bL1 : |L1| ≤ 2 * eps p * L := by
    have := abs_add_le (a.x * a.xt) (a.y * a.yt)
    have := lift1_le ha
    rw [hL1, abs_mul]
    norm_num
    linarith
  have sq : ∀ {x t : ℚ}, |t| ≤ eps p * |x| → t * t ≤ eps p ^ 2 * (x * x) := fun {x t} h => by
    have := mul_le_mul h h (abs_nonneg _) (by positivity)
    rw [abs_mul_abs_self] at this
    refine this.trans (le_of_eq ?_)
    rw [mul_mul_mul_comm, abs_mul_abs_self]; ring
  have bL2 : |L2| ≤ eps p ^ 2 * L := by
    have h1 := sq ha.bx
    have h2 := sq ha.by_
    rw [abs_of_nonneg (by have := mul_self_nonneg a.xt; have := mul_self_nonneg a.yt; linarith)]
    linarith
  have bK : |K| ≤ m := abs_sub _ _
  have bK1 : |K1| ≤ 2 * eps p * m := by
    have h1 := abs_sub (b.x * c.yt + c.y * b.xt) (b.y * c.xt + c.x * b.yt)
    have h2 := abs_add_le (b.x * c.yt) (c.y * b.xt)
    have h3 := abs_add_le (b.y * c.xt) (c.x * b.yt)
    have h4 := cross1_le hb hc
    linarith
  have pr : ∀ {x y s t : ℚ}, |s| ≤ eps p * |x| → |t| ≤ eps p * |y| → |s * t| ≤ eps p ^ 2 * |x * y| := fun {x y s t} h h' => by
    rw [abs_mul, abs_mul]
    have := mul_le_mul h h' (abs_nonneg _) (by positivity)
    linarith
  have bK2 : |K2| ≤ eps p ^ 2 * m := by
    have h1 := abs_sub (b.xt * c.yt) (c.xt * b.yt)
    have h2 := pr hb.bx hc.by_
    have h3 := pr hc.bx hb.by_
    linarith
  have bKs : |K + K1 + K2| ≤ (1 + 2 * eps p + eps p ^ 2) * m := by
    have h1 := abs_add_le (K + K1) K2
    have h2 := abs_add_le K K1
    linarith
  have mm : ∀ {x y A B : ℚ}, |x| ≤ A → |y| ≤ B → |x * y| ≤ A * B := fun {x y A B} h h' => by
    rw [abs_mul]; exact mul_le_mul h h' (abs_nonneg _) ((abs_nonneg _).trans h)
  have aL : |L| ≤ L := (abs_of_nonneg n0).le
  have i1 := mm bL1 bK1
  have i2 := mm aL bK2
  have i3 := mm bL2 bKs
  have i4 := mm bL1 bK2
  rw [e]
  have j1 := abs_add_le (L1 * K1 + L * K2 + L2 * (K + K1 + K2)) (L1 * K2)
  have j2 := abs_add_le (L1 * K1 + L * K2) (L2 * (K + K1 + K2))
  have j3 := abs_add_le (L1 * K1) (L * K2)
  linarith only [i1, i2, i3, i4, j1, j2, j3]

/-- Third filter. -/
theorem ic_stageC (hp : 11 ≤ p) (ha : SideOk p a Xa Ya) (hb : SideOk p b Xb Yb) (hc : SideOk p c Xc Yc) {est perm eb det : ℚ}
    (hperm : perm = (icVals p a.x a.y b.x b.y c.x c.y).perm p)
    (hest : |icDet a.x a.y b.x b.y c.x c.y - est| ≤ 3 * eps p * (1 + 4 * eps p) * |est|)
    (hB : ¬ rnd p ((10 + 96 * eps p) * eps p * perm) ≤ |est|)
    (heb : eb = rnd p (rnd p ((44 + 576 * eps p) * eps p ^ 2 * perm) + rnd p ((3 + 8 * eps p) * eps p * |est|)))
    (hdet : det = rnd p (est + rnd p (rnd p (corr2 p a b c + corr2 p b c a) + corr2 p c a b))) (hle : eb ≤ |det|) :
    SignType.sign det = SignType.sign (icDet Xa Ya Xb Yb Xc Yc) := by
  have hp0 : 0 < p := by omega
  have he := eps_pos p
  have he' := eps_le hp
  have hperm0 : 0 ≤ perm := by
    rw [hperm]; exact perm_nonneg hp0 (lift_nonneg hp0 _ _) (lift_nonneg hp0 _ _) (lift_nonneg hp0 _ _)
  rw [not_le] at hB
  have hpos : 0 < perm := by
    rcases hperm0.lt_or_eq with h | h
    · exact h
    · rw [← h, mul_zero, rnd_zero] at hB
      exact absurd hB (not_lt.mpr (abs_nonneg _))
  have hB' : |est| ≤ (1 + eps p) * ((10 + 96 * eps p) * eps p * perm) := by
    have := abs_rnd_le_mul (p := p) ((10 + 96 * eps p) * eps p * perm)
    have h0 : 0 ≤ (10 + 96 * eps p) * eps p * perm := by positivity
    rw [abs_of_nonneg (rnd_nonneg hp0 h0), abs_of_nonneg h0] at this
    linarith
  have hM := icMag_le hp0 a.x a.y b.x b.y c.x c.y
  rw [← hperm] at hM
  have h1 : |icDet Xa Ya Xb Yb Xc Yc - icDet a.x a.y b.x b.y c.x c.y - (icFirst a b c + icFirst b c a + icFirst c a b)| ≤
      (6 * eps p ^ 2 + 4 * eps p ^ 3 + eps p ^ 4) * icMag a.x a.y b.x b.y c.x c.y := by
    have t1 := term_rest ha hb hc
    have t2 := term_rest hb hc ha
    have t3 := term_rest hc ha hb
    have e : icDet Xa Ya Xb Yb Xc Yc - icDet a.x a.y b.x b.y c.x c.y - (icFirst a b c + icFirst b c a + icFirst c a b) =
      ((Xa * Xa + Ya * Ya) * (Xb * Yc - Xc * Yb) - (a.x * a.x + a.y * a.y) * (b.x * c.y - c.x * b.y) - icFirst a b c) +
      ((Xb * Xb + Yb * Yb) * (Xc * Ya - Xa * Yc) - (b.x * b.x + b.y * b.y) * (c.x * a.y - a.x * c.y) - icFirst b c a) +
      ((Xc * Xc + Yc * Yc) * (Xa * Yb - Xb * Ya) - (c.x * c.x + c.y * c.y) * (a.x * b.y - b.x * a.y) - icFirst c a b) := by
      unfold icDet; ring
    rw [e]
    refine (abs_add_three _ _ _).trans ?_
    unfold icMag
    linarith only [t1, t2, t3]
  have h2 := (((corr2_appr hp ha hb hc).add (corr2_appr hp hb hc ha)).rnd.add (corr2_appr hp hc ha hb)).rnd
  have h2' : |rnd p (rnd p (corr2 p a b c + corr2 p b c a) + corr2 p c a b) - (icFirst a b c + icFirst b c a + icFirst c a b)| ≤
      (((1 + eps p) ^ 9 - 1) * (4 * eps p)) * icMag a.x a.y b.x b.y c.x c.y := by
    have h3 := (h2.cast rfl rfl (M' := 4 * eps p * icMag a.x a.y b.x b.y c.x c.y) (n' := 9) (by unfold icMag; ring) (by simp)).err
    refine h3.trans (le_of_eq ?_)
    rw [← mul_assoc]
  have p9 := pow_eps_le he.le 9 (by push_cast; linarith)
  have q9 := one_le_pow_eps p 9
  push_cast at p9
  refine filterC hp (B := (10 + 96 * eps p) * eps p) (C := (44 + 576 * eps p) * eps p ^ 2) h1 h2' hest hM hpos ?_ (by positivity) (by positivity) hB' ?_ heb hdet hle
  · have : 0 ≤ ((1 + eps p) ^ 9 - 1) * (4 * eps p) := mul_nonneg (by linarith) (by linarith)
    positivity
  have e1 : (1 + eps p) ^ 9 - 1 ≤ eps p * (9 + 44 * eps p) := by nlinarith
  have e2 : 6 * eps p ^ 2 + 4 * eps p ^ 3 + eps p ^ 4 + ((1 + eps p) ^ 9 - 1) * (4 * eps p) ≤ eps p ^ 2 * (42 + 181 * eps p) := by
    have := mul_le_mul_of_nonneg_right e1 (show 0 ≤ 4 * eps p by linarith)
    have h4 : eps p ^ 4 ≤ eps p ^ 3 := by
      have : eps p ^ 4 = eps p ^ 3 * eps p := by ring
      rw [this]
      exact mul_le_of_le_one_right (by positivity) (by linarith)
    nlinarith
  have e3 : (1 + eps p) ^ 9 ≤ 1 + 10 * eps p := by nlinarith
  have e4 := mul_le_mul e2 e3 (by linarith) (by positivity)
  have e5 : (42 + 181 * eps p) * (1 + 10 * eps p) + 15 * ((10 + 96 * eps p) * eps p) < (1 - eps p) * (44 + 576 * eps p) := by nlinarith
  have e6 := mul_lt_mul_of_pos_left e5 (show 0 < eps p ^ 2 by positivity)
  have e7 : (1 + eps p) ^ 2 * ((6 * eps p ^ 2 + 4 * eps p ^ 3 + eps p ^ 4 + ((1 + eps p) ^ 9 - 1) * (4 * eps p)) * (1 + eps p) ^ 7) =
    (6 * eps p ^ 2 + 4 * eps p ^ 3 + eps p ^ 4 + ((1 + eps p) ^ 9 - 1) * (4 * eps p)) * (1 + eps p) ^ 9 := by ring
  rw [e7]
  linarith only [e4, e6]
end

theorem side_x (p : Nat) (pa pd : ℚ × ℚ) : (side p pa pd).x = rnd p (pa.1 - pd.1) := rfl

theorem side_y (p : Nat) (pa pd : ℚ × ℚ) : (side p pa pd).y = rnd p (pa.2 - pd.2) := rfl

/-- `insphere_adapt` returns a number with the sign of the determinant. -/
theorem insphereAdapt2_sign {p : Nat} (hp : 11 ≤ p) {k : Consts} (hk : ConstsOk p k) {pa pb pc pd : ℚ × ℚ} (a1 : Rep p pa.1) (a2 : Rep p pa.2)
    (b1 : Rep p pb.1) (b2 : Rep p pb.2) (c1 : Rep p pc.1) (c2 : Rep p pc.2) (d1 : Rep p pd.1) (d2 : Rep p pd.2) {perm : ℚ}
    (hperm : perm = (icVals p (side p pa pd).x (side p pa pd).y (side p pb pd).x (side p pb pd).y (side p pc pd).x (side p pc pd).y).perm p) :
    SignType.sign (insphereAdapt2 p k pa pb pc pd perm) =
      SignType.sign (icDet (pa.1 - pd.1) (pa.2 - pd.2) (pb.1 - pd.1) (pb.2 - pd.2) (pc.1 - pd.1) (pc.2 - pd.2)) := by
  have hp5 : 5 ≤ p := by omega
  have he := eps_pos p
  have he' := eps_le hp
  have ha := side_ok (show 2 ≤ p by omega) a1 a2 d1 d2
  have hb := side_ok (show 2 ≤ p by omega) b1 b2 d1 d2
  have hc := side_ok (show 2 ≤ p by omega) c1 c2 d1 d2
  unfold insphereAdapt2
  simp only [or_le_abs, hk.splitter, hk.iccA, hk.iccC, hk.r]
  set a := side p pa pd
  set b := side p pb pd
  set c := side p pc pd
  have bc := cross4_ok hp hb hc
  have ca := cross4_ok hp hc ha
  have ab := cross4_ok hp ha hb
  have hf := fes_ok hp5 (fes_ok hp5 (liftDet_ok hp ha bc).toExpn (liftDet_ok hp hb ca).toExpn).toExpn (liftDet_ok hp hc ab).toExpn
  have hest := hf.toExpn.estimate hp
  set fin1 := fes p (fes p (liftDet p (2 ^ half p + 1) a (cross4 p (2 ^ half p + 1) b c)) (liftDet p (2 ^ half p + 1) b (cross4 p (2 ^ half p + 1) c a)))
    (liftDet p (2 ^ half p + 1) c (cross4 p (2 ^ half p + 1) a b))
  split_ifs with h1 h2 h3
  · rw [hperm] at h1
    exact ic_stageB hp ha hb hc hest h1
  · have : icDet (pa.1 - pd.1) (pa.2 - pd.2) (pb.1 - pd.1) (pb.2 - pd.2) (pc.1 - pd.1) (pc.2 - pd.2) = icDet a.x a.y b.x b.y c.x c.y := by
      obtain ⟨z1, z2, z3, z4, z5, z6⟩ := h2
      rw [ha.eX, ha.eY, hb.eX, hb.eY, hc.eX, hc.eY, z1, z2, z3, z4, z5, z6]
      simp only [add_zero]
    rw [this]
    exact sign_close' hest (by nlinarith)
  · exact ic_stageC hp ha hb hc hperm hest h1 rfl rfl h3
  · exact (insphereLast2_ok hp ha hb hc hf).sign

/-- `insphere` returns a number with the sign of the determinant. -/
theorem insphere2_sign {p : Nat} (hp : 11 ≤ p) {k : Consts} (hk : ConstsOk p k) {pa pb pc pd : ℚ × ℚ} (a1 : Rep p pa.1) (a2 : Rep p pa.2)
    (b1 : Rep p pb.1) (b2 : Rep p pb.2) (c1 : Rep p pc.1) (c2 : Rep p pc.2) (d1 : Rep p pd.1) (d2 : Rep p pd.2) :
    SignType.sign (insphere2 p k pa pb pc pd) =
      SignType.sign (icDet (pa.1 - pd.1) (pa.2 - pd.2) (pb.1 - pd.1) (pb.2 - pd.2) (pc.1 - pd.1) (pc.2 - pd.2)) := by
  have ha := side_ok (show 2 ≤ p by omega) a1 a2 d1 d2
  have hb := side_ok (show 2 ≤ p by omega) b1 b2 d1 d2
  have hc := side_ok (show 2 ≤ p by omega) c1 c2 d1 d2
  have hA := ic_stageA hp ha hb hc rfl
  have hB := insphereAdapt2_sign hp hk a1 a2 b1 b2 c1 c2 d1 d2 rfl
  simp only [icVals, IcVals.perm, side_x, side_y] at hA hB
  unfold insphere2
  dsimp only
  rw [hk.iccA]
  split_ifs with h
  · refine hA ?_
    rcases h with h | h
    · exact h.le.trans (le_abs_self _)
    · exact h.le.trans (neg_le_abs _)
  · exact hB

end FP
end Verif
