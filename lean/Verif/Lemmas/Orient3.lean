import Verif.Lemmas.Orient3Exact
import Verif.Lemmas.Insphere2

/-!
# Stages of the orientation test in space
-/
namespace Verif
namespace FP

/-- The determinant. -/
def o3Det (Xa Ya Za Xb Yb Zb Xc Yc Zc : ℚ) : ℚ :=
  (Xb * Yc - Xc * Yb) * Za + (Xc * Ya - Xa * Yc) * Zb + (Xa * Yb - Xb * Ya) * Zc

/-- The magnitudes of its terms. -/
def o3Mag (xa ya za xb yb zb xc yc zc : ℚ) : ℚ :=
  |za| * (|xb * yc| + |xc * yb|) + |zb| * (|xc * ya| + |xa * yc|) + |zc| * (|xa * yb| + |xb * ya|)

theorem o3Mag_nonneg (xa ya za xb yb zb xc yc zc : ℚ) : 0 ≤ o3Mag xa ya za xb yb zb xc yc zc := by unfold o3Mag; positivity

/-- The computed values of `orient`. -/
def o3Vals (p : Nat) (xa ya za xb yb zb xc yc zc : ℚ) : IcVals :=
  ⟨|za|, |zb|, |zc|, rnd p (xb * yc), rnd p (xc * yb), rnd p (xc * ya), rnd p (xa * yc), rnd p (xa * yb), rnd p (xb * ya)⟩

theorem o3Mag_le {p : Nat} (hp : 0 < p) (xa ya za xb yb zb xc yc zc : ℚ) :
    o3Mag xa ya za xb yb zb xc yc zc ≤ (1 + eps p) ^ 5 * (o3Vals p xa ya za xb yb zb xc yc zc).perm p := by
  have he := eps_pos p
  have h := mag_le hp (v := o3Vals p xa ya za xb yb zb xc yc zc) (abs_nonneg _) (abs_nonneg _) (abs_nonneg _)
  refine le_pow_mul (n := 1) (m := 4) he.le ?_ h
  have t : ∀ z u v : ℚ, |z| * (|u| + |v|) ≤ (1 + eps p) * (|z| * (|rnd p u| + |rnd p v|)) := fun z u v => by
    have h2 := abs_le_rnd_mul hp u
    have h3 := abs_le_rnd_mul hp v
    have := mul_le_mul_of_nonneg_left (show |u| + |v| ≤ (1 + eps p) * (|rnd p u| + |rnd p v|) by linarith) (abs_nonneg z)
    linarith
  have h1 := t za (xb * yc) (xc * yb)
  have h2 := t zb (xc * ya) (xa * yc)
  have h3 := t zc (xa * yb) (xb * ya)
  unfold o3Mag IcVals.mag o3Vals
  dsimp only
  rw [pow_one]
  linarith

section
variable {p : Nat} {a b c : Side3} {Xa Ya Za Xb Yb Zb Xc Yc Zc : ℚ}

theorem Side3Ok.apz (h : Side3Ok p a Xa Ya Za) : Appr p Za a.z |a.z| 1 := by rw [h.eZ]; exact Appr.of_tail h.bz

theorem o3_term (hp : 0 < p) (ha : Side3Ok p a Xa Ya Za) (hb : Side3Ok p b Xb Yb Zb) (hc : Side3Ok p c Xc Yc Zc) :
    Appr p ((Xb * Yc - Xc * Yb) * Za) (a.z * (rnd p (b.x * c.y) - rnd p (c.x * b.y)))
      (|a.z| * (|rnd p (b.x * c.y)| + |rnd p (c.x * b.y)|)) 4 :=
  (ha.apz.mul ((appr_prod hp hb.apx hc.apy).sub (appr_prod hp hc.apx hb.apy))).cast (by ring) rfl rfl (by simp)

/-- First filter. -/
theorem o3_stageA (hp : 11 ≤ p) (ha : Side3Ok p a Xa Ya Za) (hb : Side3Ok p b Xb Yb Zb) (hc : Side3Ok p c Xc Yc Zc) {v : IcVals}
    (hv : v = o3Vals p a.x a.y a.z b.x b.y b.z c.x c.y c.z)
    (hle : rnd p ((7 + 56 * eps p) * eps p * v.perm p) ≤
      |rnd p (rnd p (rnd p (a.z * rnd p (v.bc - v.cb)) + rnd p (b.z * rnd p (v.ca - v.ac))) + rnd p (c.z * rnd p (v.ab - v.ba)))|) :
    SignType.sign (rnd p (rnd p (rnd p (a.z * rnd p (v.bc - v.cb)) + rnd p (b.z * rnd p (v.ca - v.ac))) + rnd p (c.z * rnd p (v.ab - v.ba)))) =
      SignType.sign (o3Det Xa Ya Za Xb Yb Zb Xc Yc Zc) := by
  have hp0 : 0 < p := by omega
  have he := eps_pos p
  have he' := eps_le hp
  have nal : 0 ≤ v.al := by rw [hv]; exact abs_nonneg _
  have nbl : 0 ≤ v.bl := by rw [hv]; exact abs_nonneg _
  have ncl : 0 ≤ v.cl := by rw [hv]; exact abs_nonneg _
  have h1 : Appr p (o3Det Xa Ya Za Xb Yb Zb Xc Yc Zc) (a.z * (v.bc - v.cb) + b.z * (v.ca - v.ac) + c.z * (v.ab - v.ba)) v.mag 4 := by
    rw [hv]
    exact ((o3_term hp0 ha hb hc).add (o3_term hp0 hb hc ha)).add (o3_term hp0 hc ha hb)
  have t : ∀ A u w : ℚ, Appr p (rnd p (A * rnd p (u - w))) (A * (u - w)) (|A| * (|u| + |w|)) 2 := fun A u w =>
    ((Appr.refl p A).mul ((Appr.refl p u).sub (Appr.refl p w)).rnd).rnd
  have h2 := (((t a.z v.bc v.cb).add (t b.z v.ca v.ac)).rnd.add (t c.z v.ab v.ba))
  have h2' : |rnd p (rnd p (a.z * rnd p (v.bc - v.cb)) + rnd p (b.z * rnd p (v.ca - v.ac))) + rnd p (c.z * rnd p (v.ab - v.ba)) -
      (a.z * (v.bc - v.cb) + b.z * (v.ca - v.ac) + c.z * (v.ab - v.ba))| ≤ ((1 + eps p) ^ 3 - 1) * v.mag := by
    have := h2.err
    rw [hv] at this ⊢
    exact this
  have hm := mag_le hp0 nal nbl ncl
  have q4 := one_le_pow_eps p 4
  have q3 := one_le_pow_eps p 3
  have q5 := one_le_pow_eps p 5
  refine filterA hp (α := (1 + eps p) ^ 4 - 1) (β := (1 + eps p) ^ 3 - 1) (γ := (1 + eps p) ^ 4) h1.err h2' h1.nonneg hm
    (perm_nonneg hp0 nal nbl ncl) (by linarith) ?_ hle
  have p5 := pow_eps_le he.le 5 (by push_cast; linarith)
  push_cast at p5
  have e1 : (1 + eps p) ^ 4 - 1 + ((1 + eps p) ^ 3 - 1) ≤ eps p * (7 + 10 * eps p) := by
    have : (1 + eps p) ^ 4 - 1 + ((1 + eps p) ^ 3 - 1) = eps p * (7 + 9 * eps p + 5 * eps p ^ 2 + eps p ^ 3) := by ring
    rw [this]
    refine mul_le_mul_of_nonneg_left ?_ he.le
    have h3 : eps p ^ 2 ≤ eps p / 2048 := by nlinarith
    have h4 : eps p ^ 3 ≤ eps p / 2048 := by
      have : eps p ^ 3 = eps p ^ 2 * eps p := by ring
      nlinarith
    linarith
  have e2 : (1 + eps p) ^ 5 ≤ 1 + eps p * (51 / 10) := by nlinarith
  have e3 := mul_le_mul e1 e2 (by linarith) (by positivity)
  have e4 : (7 + 10 * eps p) * (1 + eps p * (51 / 10)) < (1 - eps p) * (7 + 56 * eps p) := by nlinarith
  have e5 := mul_lt_mul_of_pos_left e4 he
  have e6 : ((1 + eps p) ^ 4 - 1 + ((1 + eps p) ^ 3 - 1)) * (1 + eps p) ^ 4 * (1 + eps p) =
    ((1 + eps p) ^ 4 - 1 + ((1 + eps p) ^ 3 - 1)) * (1 + eps p) ^ 5 := by ring
  rw [e6]
  linarith

theorem SideOk.rx' {a : Side} (h : SideOk p a Xa Ya) : Ratio (1 - eps p) (1 + eps p) Xa a.x := by
  rw [h.eX]; exact Ratio.of_tail (eps_pos p).le h.bx

theorem SideOk.ry' {a : Side} (h : SideOk p a Xa Ya) : Ratio (1 - eps p) (1 + eps p) Ya a.y := by
  rw [h.eY]; exact Ratio.of_tail (eps_pos p).le h.by_

theorem Side3Ok.rz' (h : Side3Ok p a Xa Ya Za) : Ratio (1 - eps p) (1 + eps p) Za a.z := by
  rw [h.eZ]; exact Ratio.of_tail (eps_pos p).le h.bz

theorem o3_ratio (hp : 11 ≤ p) {X x Y y Z z : ℚ} (hx : Ratio (1 - eps p) (1 + eps p) X x) (hy : Ratio (1 - eps p) (1 + eps p) Y y)
    (hz : Ratio (1 - eps p) (1 + eps p) Z z) :
    |X * Y * Z - (1 + 3 * eps p ^ 2) * (x * y * z)| ≤ (3 * eps p + eps p ^ 3) * (|z| * |x * y|) := by
  have he := eps_pos p
  have he' := eps_le hp
  have h0 : 0 ≤ 1 - eps p := by linarith
  have := ((hx.mul hy h0 h0).mul hz (mul_nonneg h0 h0) h0).err (lam := 1 + 3 * eps p ^ 2) (κ := 3 * eps p + eps p ^ 3)
    (le_of_eq (by ring)) (le_of_eq (by ring))
  rwa [abs_mul (x * y) z, mul_comm |x * y| |z|] at this

theorem o3_termB (hp : 11 ≤ p) (ha : Side3Ok p a Xa Ya Za) (hb : Side3Ok p b Xb Yb Zb) (hc : Side3Ok p c Xc Yc Zc) :
    |(Xb * Yc - Xc * Yb) * Za - (1 + 3 * eps p ^ 2) * ((b.x * c.y - c.x * b.y) * a.z)| ≤
      (3 * eps p + eps p ^ 3) * (|a.z| * (|b.x * c.y| + |c.x * b.y|)) := by
  have h1 := o3_ratio hp hb.rx' hc.ry' ha.rz'
  have h2 := o3_ratio hp hc.rx' hb.ry' ha.rz'
  have e : (Xb * Yc - Xc * Yb) * Za - (1 + 3 * eps p ^ 2) * ((b.x * c.y - c.x * b.y) * a.z) =
    (Xb * Yc * Za - (1 + 3 * eps p ^ 2) * (b.x * c.y * a.z)) - (Xc * Yb * Za - (1 + 3 * eps p ^ 2) * (c.x * b.y * a.z)) := by ring
  rw [e]
  refine (abs_sub _ _).trans ?_
  linarith only [h1, h2]

/-- Second filter. -/
theorem o3_stageB (hp : 11 ≤ p) (ha : Side3Ok p a Xa Ya Za) (hb : Side3Ok p b Xb Yb Zb) (hc : Side3Ok p c Xc Yc Zc) {est : ℚ}
    (hest : |o3Det a.x a.y a.z b.x b.y b.z c.x c.y c.z - est| ≤ 3 * eps p * (1 + 4 * eps p) * |est|)
    (hle : rnd p ((3 + 28 * eps p) * eps p * (o3Vals p a.x a.y a.z b.x b.y b.z c.x c.y c.z).perm p) ≤ |est|) :
    SignType.sign est = SignType.sign (o3Det Xa Ya Za Xb Yb Zb Xc Yc Zc) := by
  have hp0 : 0 < p := by omega
  have he := eps_pos p
  have he' := eps_le hp
  have h1 : |o3Det Xa Ya Za Xb Yb Zb Xc Yc Zc - (1 + 3 * eps p ^ 2) * o3Det a.x a.y a.z b.x b.y b.z c.x c.y c.z| ≤
      (3 * eps p + eps p ^ 3) * o3Mag a.x a.y a.z b.x b.y b.z c.x c.y c.z := by
    have t1 := o3_termB hp ha hb hc
    have t2 := o3_termB hp hb hc ha
    have t3 := o3_termB hp hc ha hb
    have e : o3Det Xa Ya Za Xb Yb Zb Xc Yc Zc - (1 + 3 * eps p ^ 2) * o3Det a.x a.y a.z b.x b.y b.z c.x c.y c.z =
      ((Xb * Yc - Xc * Yb) * Za - (1 + 3 * eps p ^ 2) * ((b.x * c.y - c.x * b.y) * a.z)) +
      ((Xc * Ya - Xa * Yc) * Zb - (1 + 3 * eps p ^ 2) * ((c.x * a.y - a.x * c.y) * b.z)) +
      ((Xa * Yb - Xb * Ya) * Zc - (1 + 3 * eps p ^ 2) * ((a.x * b.y - b.x * a.y) * c.z)) := by unfold o3Det; ring
    rw [e]
    refine (abs_add_three _ _ _).trans ?_
    unfold o3Mag
    linarith only [t1, t2, t3]
  refine filterB' hp (α := 3 * eps p + eps p ^ 3) (γ := (1 + eps p) ^ 5) (lam := 1 + 3 * eps p ^ 2) (by nlinarith) h1 hest
    (o3Mag_nonneg _ _ _ _ _ _ _ _ _) (o3Mag_le hp0 _ _ _ _ _ _ _ _ _) (perm_nonneg hp0 (abs_nonneg _) (abs_nonneg _) (abs_nonneg _))
    (by positivity) ?_ hle
  have p6 := pow_eps_le he.le 6 (by push_cast; linarith)
  push_cast at p6
  have e2 : (1 + eps p) ^ 6 ≤ 1 + eps p * (601 / 100) := by nlinarith
  have e1 : 3 * eps p + eps p ^ 3 ≤ eps p * (3 + eps p / 2048) := by
    have : 3 * eps p + eps p ^ 3 = eps p * (3 + eps p * eps p) := by ring
    rw [this]
    refine mul_le_mul_of_nonneg_left ?_ he.le
    nlinarith
  have e3 := mul_le_mul e1 e2 (by positivity) (by positivity)
  have e4 : (3 + eps p / 2048) * (1 + eps p * (601 / 100)) < (1 - 3 * eps p * (1 + 4 * eps p)) * (3 + 28 * eps p) := by nlinarith
  have e5 := mul_lt_mul_of_pos_left e4 he
  have e6 : (3 * eps p + eps p ^ 3) * (1 + eps p) ^ 5 * (1 + eps p) = (3 * eps p + eps p ^ 3) * (1 + eps p) ^ 6 := by ring
  rw [e6]
  linarith

/-- The terms of first order of one point. -/
def o3First (a b c : Side3) : ℚ :=
  a.z * ((b.x * c.yt + c.y * b.xt) - (b.y * c.xt + c.x * b.yt)) + a.zt * (b.x * c.y - b.y * c.x)

theorem corr3_appr (ha : Side3Ok p a Xa Ya Za) (hb : Side3Ok p b Xb Yb Zb) (hc : Side3Ok p c Xc Yc Zc) :
    Appr p (corr3 p a b c) (o3First a b c) (3 * eps p * (|a.z| * (|b.x * c.y| + |c.x * b.y|))) 5 := by
  have he := eps_pos p
  have M := fun x y : ℚ => ((Appr.refl p x).mul (Appr.refl p y)).rnd
  have k1 := (((M b.x c.yt).add (M c.y b.xt)).rnd.sub ((M b.y c.xt).add (M c.x b.yt)).rnd).rnd
  have k := ((M b.x c.y).sub (M b.y c.x)).rnd
  simp only [← abs_mul] at k1 k
  have t1 := ((Appr.refl p a.z).mul (k1.weaken (cross1_le hb.toSideOk hc.toSideOk))).rnd
  have t2 := (((Appr.refl p a.zt).weaken ha.bz).mul k).rnd
  have t := (t1.add t2).rnd
  unfold corr3
  refine t.cast rfl rfl ?_ (by simp)
  rw [mul_comm b.y c.x]
  ring

theorem cross2_le {b c : Side} (hb : SideOk p b Xb Yb) (hc : SideOk p c Xc Yc) :
    |b.xt * c.yt - c.xt * b.yt| ≤ eps p ^ 2 * (|b.x * c.y| + |c.x * b.y|) := by
  have he := eps_pos p
  have pr : ∀ {x y s t : ℚ}, |s| ≤ eps p * |x| → |t| ≤ eps p * |y| → |s * t| ≤ eps p ^ 2 * |x * y| := fun {x y s t} h h' => by
    rw [abs_mul, abs_mul]
    have := mul_le_mul h h' (abs_nonneg _) (by positivity)
    linarith
  have h1 := abs_sub (b.xt * c.yt) (c.xt * b.yt)
  have h2 := pr hb.bx hc.by_
  have h3 := pr hc.bx hb.by_
  linarith

theorem o3_rest (ha : Side3Ok p a Xa Ya Za) (hb : Side3Ok p b Xb Yb Zb) (hc : Side3Ok p c Xc Yc Zc) :
    |(Xb * Yc - Xc * Yb) * Za - (b.x * c.y - c.x * b.y) * a.z - o3First a b c| ≤
      (3 * eps p ^ 2 + eps p ^ 3) * (|a.z| * (|b.x * c.y| + |c.x * b.y|)) := by
  have he := eps_pos p
  have c1 := cross1_le hb.toSideOk hc.toSideOk
  have c2 := cross2_le hb.toSideOk hc.toSideOk
  set m := |b.x * c.y| + |c.x * b.y| with hm
  set K1 := (b.x * c.yt + c.y * b.xt) - (b.y * c.xt + c.x * b.yt) with hK1
  set K2 := b.xt * c.yt - c.xt * b.yt with hK2
  have e : (Xb * Yc - Xc * Yb) * Za - (b.x * c.y - c.x * b.y) * a.z - o3First a b c = a.z * K2 + a.zt * K1 + a.zt * K2 := by
    rw [ha.eZ, hb.eX, hb.eY, hc.eX, hc.eY, o3First, hK1, hK2]; ring
  have bK1 : |K1| ≤ 2 * eps p * m := by
    have h1 := abs_sub (b.x * c.yt + c.y * b.xt) (b.y * c.xt + c.x * b.yt)
    have h2 := abs_add_le (b.x * c.yt) (c.y * b.xt)
    have h3 := abs_add_le (b.y * c.xt) (c.x * b.yt)
    linarith
  have mm : ∀ {x y A B : ℚ}, |x| ≤ A → |y| ≤ B → |x * y| ≤ A * B := fun {x y A B} h h' => by
    rw [abs_mul]; exact mul_le_mul h h' (abs_nonneg _) ((abs_nonneg _).trans h)
  have i1 := mm (le_refl |a.z|) c2
  have i2 := mm ha.bz bK1
  have i3 := mm ha.bz c2
  rw [e]
  refine (abs_add_three _ _ _).trans ?_
  linarith only [i1, i2, i3]

/-- Third filter. -/
theorem o3_stageC (hp : 11 ≤ p) (ha : Side3Ok p a Xa Ya Za) (hb : Side3Ok p b Xb Yb Zb) (hc : Side3Ok p c Xc Yc Zc) {est perm eb det : ℚ}
    (hperm : perm = (o3Vals p a.x a.y a.z b.x b.y b.z c.x c.y c.z).perm p)
    (hest : |o3Det a.x a.y a.z b.x b.y b.z c.x c.y c.z - est| ≤ 3 * eps p * (1 + 4 * eps p) * |est|)
    (hB : ¬ rnd p ((3 + 28 * eps p) * eps p * perm) ≤ |est|)
    (heb : eb = rnd p (rnd p ((26 + 288 * eps p) * eps p ^ 2 * perm) + rnd p ((3 + 8 * eps p) * eps p * |est|)))
    (hdet : det = rnd p (est + rnd p (rnd p (corr3 p a b c + corr3 p b c a) + corr3 p c a b))) (hle : eb ≤ |det|) :
    SignType.sign det = SignType.sign (o3Det Xa Ya Za Xb Yb Zb Xc Yc Zc) := by
  have hp0 : 0 < p := by omega
  have he := eps_pos p
  have he' := eps_le hp
  have hperm0 : 0 ≤ perm := by
    rw [hperm]; exact perm_nonneg hp0 (abs_nonneg _) (abs_nonneg _) (abs_nonneg _)
  rw [not_le] at hB
  have hpos : 0 < perm := by
    rcases hperm0.lt_or_eq with h | h
    · exact h
    · rw [← h, mul_zero, rnd_zero] at hB
      exact absurd hB (not_lt.mpr (abs_nonneg _))
  have hB' : |est| ≤ (1 + eps p) * ((3 + 28 * eps p) * eps p * perm) := by
    have := abs_rnd_le_mul (p := p) ((3 + 28 * eps p) * eps p * perm)
    have h0 : 0 ≤ (3 + 28 * eps p) * eps p * perm := by positivity
    rw [abs_of_nonneg (rnd_nonneg hp0 h0), abs_of_nonneg h0] at this
    linarith
  have hM := o3Mag_le hp0 a.x a.y a.z b.x b.y b.z c.x c.y c.z
  rw [← hperm] at hM
  have h1 : |o3Det Xa Ya Za Xb Yb Zb Xc Yc Zc - o3Det a.x a.y a.z b.x b.y b.z c.x c.y c.z - (o3First a b c + o3First b c a + o3First c a b)| ≤
      (3 * eps p ^ 2 + eps p ^ 3) * o3Mag a.x a.y a.z b.x b.y b.z c.x c.y c.z := by
    have t1 := o3_rest ha hb hc
    have t2 := o3_rest hb hc ha
    have t3 := o3_rest hc ha hb
    have e : o3Det Xa Ya Za Xb Yb Zb Xc Yc Zc - o3Det a.x a.y a.z b.x b.y b.z c.x c.y c.z - (o3First a b c + o3First b c a + o3First c a b) =
      ((Xb * Yc - Xc * Yb) * Za - (b.x * c.y - c.x * b.y) * a.z - o3First a b c) +
      ((Xc * Ya - Xa * Yc) * Zb - (c.x * a.y - a.x * c.y) * b.z - o3First b c a) +
      ((Xa * Yb - Xb * Ya) * Zc - (a.x * b.y - b.x * a.y) * c.z - o3First c a b) := by
      unfold o3Det; ring
    rw [e]
    refine (abs_add_three _ _ _).trans ?_
    unfold o3Mag
    linarith only [t1, t2, t3]
  have h2 := (((corr3_appr ha hb hc).add (corr3_appr hb hc ha)).rnd.add (corr3_appr hc ha hb)).rnd
  have h2' : |rnd p (rnd p (corr3 p a b c + corr3 p b c a) + corr3 p c a b) - (o3First a b c + o3First b c a + o3First c a b)| ≤
      (((1 + eps p) ^ 7 - 1) * (3 * eps p)) * o3Mag a.x a.y a.z b.x b.y b.z c.x c.y c.z := by
    have h3 := (h2.cast rfl rfl (M' := 3 * eps p * o3Mag a.x a.y a.z b.x b.y b.z c.x c.y c.z) (n' := 7) (by unfold o3Mag; ring) (by simp)).err
    refine h3.trans (le_of_eq ?_)
    rw [← mul_assoc]
  have p7 := pow_eps_le he.le 7 (by push_cast; linarith)
  have q7 := one_le_pow_eps p 7
  push_cast at p7
  refine filterC hp (B := (3 + 28 * eps p) * eps p) (C := (26 + 288 * eps p) * eps p ^ 2) h1 h2' hest hM hpos ?_ (by positivity) (by positivity) hB' ?_ heb hdet hle
  · have : 0 ≤ ((1 + eps p) ^ 7 - 1) * (3 * eps p) := mul_nonneg (by linarith) (by linarith)
    positivity
  have e1 : (1 + eps p) ^ 7 - 1 ≤ eps p * (7 + 27 * eps p) := by nlinarith
  have e2 : 3 * eps p ^ 2 + eps p ^ 3 + ((1 + eps p) ^ 7 - 1) * (3 * eps p) ≤ eps p ^ 2 * (24 + 82 * eps p) := by
    have := mul_le_mul_of_nonneg_right e1 (show 0 ≤ 3 * eps p by linarith)
    linarith only [this]
  have e3 : (1 + eps p) ^ 7 ≤ 1 + 8 * eps p := by nlinarith
  have e4 := mul_le_mul e2 e3 (by linarith) (by positivity)
  have e5 : (24 + 82 * eps p) * (1 + 8 * eps p) + 15 * ((3 + 28 * eps p) * eps p) < (1 - eps p) * (26 + 288 * eps p) := by nlinarith
  have e6 := mul_lt_mul_of_pos_left e5 (show 0 < eps p ^ 2 by positivity)
  have e7 : (1 + eps p) ^ 2 * ((3 * eps p ^ 2 + eps p ^ 3 + ((1 + eps p) ^ 7 - 1) * (3 * eps p)) * (1 + eps p) ^ 5) =
    (3 * eps p ^ 2 + eps p ^ 3 + ((1 + eps p) ^ 7 - 1) * (3 * eps p)) * (1 + eps p) ^ 7 := by ring
  rw [e7]
  linarith only [e4, e6]
end

/-- A point with floating point coordinates. -/
structure Rep3 (p : Nat) (a : ℚ × ℚ × ℚ) : Prop where
  x : Rep p a.1
  y : Rep p a.2.1
  z : Rep p a.2.2

theorem side3_x (p : Nat) (pa pd : ℚ × ℚ × ℚ) : (side3 p pa pd).x = rnd p (pa.1 - pd.1) := rfl

theorem side3_y (p : Nat) (pa pd : ℚ × ℚ × ℚ) : (side3 p pa pd).y = rnd p (pa.2.1 - pd.2.1) := rfl

theorem side3_z (p : Nat) (pa pd : ℚ × ℚ × ℚ) : (side3 p pa pd).z = rnd p (pa.2.2 - pd.2.2) := rfl

/-- `orient_adapt` returns a number with the sign of the determinant. -/
theorem orientAdapt3_sign {p : Nat} (hp : 11 ≤ p) {k : Consts} (hk : ConstsOk p k) {pa pb pc pd : ℚ × ℚ × ℚ} (ra : Rep3 p pa) (rb : Rep3 p pb)
    (rc : Rep3 p pc) (rd : Rep3 p pd) {perm : ℚ}
    (hperm : perm = (o3Vals p (side3 p pa pd).x (side3 p pa pd).y (side3 p pa pd).z (side3 p pb pd).x (side3 p pb pd).y (side3 p pb pd).z
      (side3 p pc pd).x (side3 p pc pd).y (side3 p pc pd).z).perm p) :
    SignType.sign (orientAdapt3 p k pa pb pc pd perm) =
      SignType.sign (o3Det (pa.1 - pd.1) (pa.2.1 - pd.2.1) (pa.2.2 - pd.2.2) (pb.1 - pd.1) (pb.2.1 - pd.2.1) (pb.2.2 - pd.2.2)
        (pc.1 - pd.1) (pc.2.1 - pd.2.1) (pc.2.2 - pd.2.2)) := by
  have hp5 : 5 ≤ p := by omega
  have he := eps_pos p
  have he' := eps_le hp
  have ha := side3_ok (show 2 ≤ p by omega) ra.x ra.y ra.z rd.x rd.y rd.z
  have hb := side3_ok (show 2 ≤ p by omega) rb.x rb.y rb.z rd.x rd.y rd.z
  have hc := side3_ok (show 2 ≤ p by omega) rc.x rc.y rc.z rd.x rd.y rd.z
  unfold orientAdapt3
  simp only [or_le_abs, hk.splitter, hk.o3dB, hk.o3dC, hk.r]
  set a := side3 p pa pd
  set b := side3 p pb pd
  set c := side3 p pc pd
  have bc := cross4_ok hp hb.toSideOk hc.toSideOk
  have ca := cross4_ok hp hc.toSideOk ha.toSideOk
  have ab := cross4_ok hp ha.toSideOk hb.toSideOk
  have hf := fes_ok hp5 (fes_ok hp5 (scale_ok hp bc ha.rz).toExpn (scale_ok hp ca hb.rz).toExpn).toExpn (scale_ok hp ab hc.rz).toExpn
  have hest := hf.toExpn.estimate hp
  set fin1 := fes p (fes p (scale p (2 ^ half p + 1) (cross4 p (2 ^ half p + 1) b.toSide c.toSide) a.z)
    (scale p (2 ^ half p + 1) (cross4 p (2 ^ half p + 1) c.toSide a.toSide) b.z))
    (scale p (2 ^ half p + 1) (cross4 p (2 ^ half p + 1) a.toSide b.toSide) c.z)
  split_ifs with h1 h2 h3
  · rw [hperm] at h1
    exact o3_stageB hp ha hb hc hest h1
  · have : o3Det (pa.1 - pd.1) (pa.2.1 - pd.2.1) (pa.2.2 - pd.2.2) (pb.1 - pd.1) (pb.2.1 - pd.2.1) (pb.2.2 - pd.2.2)
        (pc.1 - pd.1) (pc.2.1 - pd.2.1) (pc.2.2 - pd.2.2) = o3Det a.x a.y a.z b.x b.y b.z c.x c.y c.z := by
      obtain ⟨z1, z2, z3, z4, z5, z6, z7, z8, z9⟩ := h2
      rw [ha.eX, ha.eY, hb.eX, hb.eY, hc.eX, hc.eY, ha.eZ, hb.eZ, hc.eZ, z1, z2, z3, z4, z5, z6, z7, z8, z9]
      simp only [add_zero]
    rw [this]
    exact sign_close' hest (by nlinarith)
  · exact o3_stageC hp ha hb hc hperm hest h1 rfl rfl h3
  · exact (orientLast3_ok hp ha hb hc hf).sign

/-- `orient` returns a number with the sign of the determinant. -/
theorem orient3_sign {p : Nat} (hp : 11 ≤ p) {k : Consts} (hk : ConstsOk p k) {pa pb pc pd : ℚ × ℚ × ℚ} (ra : Rep3 p pa) (rb : Rep3 p pb)
    (rc : Rep3 p pc) (rd : Rep3 p pd) :
    SignType.sign (orient3 p k pa pb pc pd) =
      SignType.sign (o3Det (pa.1 - pd.1) (pa.2.1 - pd.2.1) (pa.2.2 - pd.2.2) (pb.1 - pd.1) (pb.2.1 - pd.2.1) (pb.2.2 - pd.2.2)
        (pc.1 - pd.1) (pc.2.1 - pd.2.1) (pc.2.2 - pd.2.2)) := by
  have ha := side3_ok (show 2 ≤ p by omega) ra.x ra.y ra.z rd.x rd.y rd.z
  have hb := side3_ok (show 2 ≤ p by omega) rb.x rb.y rb.z rd.x rd.y rd.z
  have hc := side3_ok (show 2 ≤ p by omega) rc.x rc.y rc.z rd.x rd.y rd.z
  have hA := o3_stageA hp ha hb hc rfl
  have hB := orientAdapt3_sign hp hk ra rb rc rd rfl
  simp only [o3Vals, IcVals.perm, side3_x, side3_y, side3_z] at hA hB
  unfold orient3
  dsimp only
  rw [hk.o3dA]
  split_ifs with h
  · refine hA ?_
    rcases h with h | h
    · exact h.le.trans (le_abs_self _)
    · exact h.le.trans (neg_le_abs _)
  · exact hB

end FP
end Verif
