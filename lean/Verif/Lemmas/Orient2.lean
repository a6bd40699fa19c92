import Verif.Lemmas.Diff4
import Verif.Lemmas.Scale

/-!
# Stages of the orientation test in the plane
-/
namespace Verif
namespace FP

theorem sign_close {D r : ℚ} (h : |D - r| < |r|) : SignType.sign r = SignType.sign D := by
  rcases lt_trichotomy r 0 with h0 | h0 | h0
  · rw [abs_of_neg h0, abs_lt] at h
    rw [sign_neg h0, sign_neg (by linarith [h.2])]
  · rw [h0, abs_zero] at h; exact absurd h (not_lt.mpr (abs_nonneg _))
  · rw [abs_of_pos h0, abs_lt] at h
    rw [sign_pos h0, sign_pos (by linarith [h.1])]

theorem sign_close' {D r c : ℚ} (h : |D - r| ≤ c * |r|) (hc : c < 1) : SignType.sign r = SignType.sign D := by
  by_cases h0 : r = 0
  · rw [h0, abs_zero, mul_zero, sub_zero] at h
    have : D = 0 := abs_eq_zero.mp (le_antisymm h (abs_nonneg D))
    rw [h0, this]
  · have := abs_pos.mpr h0
    exact sign_close (by nlinarith)

theorem le_rnd_mul {p : Nat} (hp : 0 < p) {x : ℚ} (h : 0 ≤ x) : x ≤ (1 + eps p) * rnd p x := by
  have h1 := rnd_rel' hp x
  rw [abs_of_nonneg (rnd_nonneg hp h), abs_le] at h1
  linarith [h1.1]

theorem abs_le_rnd_mul {p : Nat} (hp : 0 < p) (x : ℚ) : |x| ≤ (1 + eps p) * |rnd p x| := by
  rw [abs_rnd hp]
  exact le_rnd_mul hp (abs_nonneg x)

theorem abs_rnd_le_mul {p : Nat} (x : ℚ) : |rnd p x| ≤ (1 + eps p) * |x| := by
  have h1 := rnd_rel p x
  have h2 : |rnd p x| ≤ |rnd p x - x| + |x| := by
    have := abs_add_le (rnd p x - x) x
    rwa [sub_add_cancel] at this
  linarith

theorem prod_tail {e a b s t : ℚ} (he : 0 ≤ e) (hs : |s| ≤ e * |a|) (ht : |t| ≤ e * |b|) :
    |(a + s) * (b + t) - a * b| ≤ (2 * e + e ^ 2) * |a * b| := by
  have h1 : (a + s) * (b + t) - a * b = a * t + s * b + s * t := by ring
  rw [h1]
  have h2 := abs_add_le (a * t + s * b) (s * t)
  have h3 := abs_add_le (a * t) (s * b)
  have h4 : |a * t| ≤ e * |a * b| := by
    rw [abs_mul, abs_mul]; nlinarith [abs_nonneg a]
  have h5 : |s * b| ≤ e * |a * b| := by
    rw [abs_mul, abs_mul]; nlinarith [abs_nonneg b]
  have h6 : |s * t| ≤ e ^ 2 * |a * b| := by
    rw [abs_mul, abs_mul]
    calc |s| * |t| ≤ (e * |a|) * (e * |b|) := mul_le_mul hs ht (abs_nonneg _) (mul_nonneg he (abs_nonneg _))
      _ = _ := by ring
  linarith

/-- Coordinates relative to the third point, rounded, and what has been cut off. -/
structure Diffs (p : Nat) (ax ay bx by' : ℚ) (acx acy bcx bcy t1 t2 t3 t4 : ℚ) : Prop where
  r1 : Rep p acx
  r2 : Rep p acy
  r3 : Rep p bcx
  r4 : Rep p bcy
  s1 : Rep p t1
  s2 : Rep p t2
  s3 : Rep p t3
  s4 : Rep p t4
  e1 : ax = acx + t1
  e2 : ay = acy + t2
  e3 : bx = bcx + t3
  e4 : by' = bcy + t4
  b1 : |t1| ≤ eps p * |acx|
  b2 : |t2| ≤ eps p * |acy|
  b3 : |t3| ≤ eps p * |bcx|
  b4 : |t4| ≤ eps p * |bcy|

theorem tail_le {p : Nat} (hp : 0 < p) (x : ℚ) : |x - rnd p x| ≤ eps p * |rnd p x| := by
  rw [abs_sub_comm]; exact rnd_rel' hp x

theorem diff_rep {p : Nat} (hp : 0 < p) {a c : ℚ} (ha : Rep p a) (hc : Rep p c) : Rep p (a - c - rnd p (a - c)) := by
  have := sum_err_rep hp ha hc.neg
  rwa [← sub_eq_add_neg] at this

/-- The magnitudes in terms of the sum of the rounded products. -/
theorem mags {p : Nat} (hp : 0 < p) {x y sg : ℚ} (hsg : sg = rnd p (|rnd p x| + |rnd p y|)) :
    |rnd p x| + |rnd p y| ≤ (1 + eps p) * sg ∧ |x| + |y| ≤ (1 + eps p) ^ 2 * sg := by
  have h1 : |rnd p x| + |rnd p y| ≤ (1 + eps p) * sg := by
    rw [hsg]; exact le_rnd_mul hp (add_nonneg (abs_nonneg _) (abs_nonneg _))
  refine ⟨h1, ?_⟩
  have h2 := abs_le_rnd_mul hp x
  have h3 := abs_le_rnd_mul hp y
  have he := eps_pos p
  calc |x| + |y| ≤ (1 + eps p) * (|rnd p x| + |rnd p y|) := by linarith
    _ ≤ (1 + eps p) * ((1 + eps p) * sg) := mul_le_mul_of_nonneg_left h1 (by linarith)
    _ = _ := by ring

/-- Error of the determinant of the rounded coordinates. -/
theorem Diffs.det {p : Nat} {ax ay bx b_ acx acy bcx bcy t1 t2 t3 t4 : ℚ}
    (h : Diffs p ax ay bx b_ acx acy bcx bcy t1 t2 t3 t4) :
    |ax * b_ - ay * bx - (acx * bcy - acy * bcx)| ≤ (2 * eps p + eps p ^ 2) * (|acx * bcy| + |acy * bcx|) := by
  have he := (eps_pos p).le
  have h1 := prod_tail he h.b1 h.b4
  have h2 := prod_tail he h.b2 h.b3
  rw [h.e1, h.e2, h.e3, h.e4]
  have h3 : (acx + t1) * (bcy + t4) - (acy + t2) * (bcx + t3) - (acx * bcy - acy * bcx) =
    ((acx + t1) * (bcy + t4) - acx * bcy) - ((acy + t2) * (bcx + t3) - acy * bcx) := by ring
  rw [h3]
  refine (abs_sub _ _).trans ?_
  linarith

/-- First filter. -/
theorem stageA {p : Nat} (hp : 11 ≤ p) {D x y sg eb : ℚ} (hsg : sg = rnd p (|rnd p x| + |rnd p y|)) (hpos : 0 < sg)
    (hD : |D - (x - y)| ≤ (2 * eps p + eps p ^ 2) * (|x| + |y|)) (heb : eb = rnd p ((3 + 16 * eps p) * eps p * sg))
    (hle : eb ≤ |rnd p (rnd p x - rnd p y)|) :
    SignType.sign (rnd p (rnd p x - rnd p y)) = SignType.sign D := by
  have hp0 : 0 < p := by omega
  have he := eps_pos p
  have he' := eps_le hp
  obtain ⟨m1, m2⟩ := mags hp0 hsg
  set e := eps p with hedef
  set det := rnd p (rnd p x - rnd p y) with hdet
  have h1 : |det - (rnd p x - rnd p y)| ≤ e * |det| := rnd_rel' hp0 _
  have h2 := rnd_rel' hp0 x
  have h3 := rnd_rel' hp0 y
  have h4 : (3 + 16 * e) * e * sg ≤ (1 + e) * |det| := by
    have := le_rnd_mul hp0 (x := (3 + 16 * e) * e * sg) (by positivity)
    rw [← heb] at this
    exact this.trans (mul_le_mul_of_nonneg_left hle (by linarith))
  apply sign_close
  have h5 : D - det = (D - (x - y)) - (rnd p x - x) + (rnd p y - y) - (det - (rnd p x - rnd p y)) := by ring
  have h6 : |D - det| ≤ (2 * e + e ^ 2) * (|x| + |y|) + e * |rnd p x| + e * |rnd p y| + e * |det| := by
    rw [h5]
    have a1 := abs_sub (D - (x - y) - (rnd p x - x) + (rnd p y - y)) (det - (rnd p x - rnd p y))
    have a2 := abs_add_le (D - (x - y) - (rnd p x - x)) (rnd p y - y)
    have a3 := abs_sub (D - (x - y)) (rnd p x - x)
    linarith
  have h7 : (2 * e + e ^ 2) * (|x| + |y|) ≤ (2 * e + e ^ 2) * ((1 + e) ^ 2 * sg) := mul_le_mul_of_nonneg_left m2 (by positivity)
  have h8 : e * (|rnd p x| + |rnd p y|) ≤ e * ((1 + e) * sg) := mul_le_mul_of_nonneg_left m1 he.le
  have h9 : (2 * e + e ^ 2) * ((1 + e) ^ 2 * sg) + e * ((1 + e) * sg) < (1 - e) * |det| := by
    have k1 := mul_le_mul_of_nonneg_left h4 (show 0 ≤ 1 - e by linarith)
    have k2 : (1 + e) * ((2 * e + e ^ 2) * (1 + e) ^ 2 + e * (1 + e)) < (1 - e) * ((3 + 16 * e) * e) := by
      have : 0 < e * e * (4 - 26 * e - 21 * e ^ 2 - 8 * e ^ 3) := by
        apply mul_pos (mul_pos he he)
        nlinarith [mul_pos he he, mul_pos (mul_pos he he) he]
      nlinarith [mul_pos he he, mul_pos (mul_pos he he) he, mul_pos (mul_pos he he) (mul_pos he he)]
    have k3 := mul_lt_mul_of_pos_right k2 hpos
    have k4 : (1 + e) * ((2 * e + e ^ 2) * ((1 + e) ^ 2 * sg) + e * ((1 + e) * sg)) < (1 + e) * ((1 - e) * |det|) := by
      linarith
    exact lt_of_mul_lt_mul_left k4 (by linarith)
  linarith

/-- Second filter. -/
theorem stageB {p : Nat} (hp : 11 ≤ p) {D x y V est sg eb : ℚ} (hsg : sg = rnd p (|rnd p x| + |rnd p y|)) (hpos : 0 < sg)
    (hV : V = x - y) (hD : |D - (x - y)| ≤ (2 * eps p + eps p ^ 2) * (|x| + |y|)) (hest : |V - est| ≤ 2 * eps p * |est|)
    (heb : eb = rnd p ((2 + 12 * eps p) * eps p * sg)) (hle : eb ≤ |est|) :
    SignType.sign est = SignType.sign D := by
  have hp0 : 0 < p := by omega
  have he := eps_pos p
  have he' := eps_le hp
  obtain ⟨m1, m2⟩ := mags hp0 hsg
  set e := eps p with hedef
  have h4 : (2 + 12 * e) * e * sg ≤ (1 + e) * |est| := by
    have := le_rnd_mul hp0 (x := (2 + 12 * e) * e * sg) (by positivity)
    rw [← heb] at this
    exact this.trans (mul_le_mul_of_nonneg_left hle (by linarith))
  apply sign_close
  have h6 : |D - est| ≤ (2 * e + e ^ 2) * (|x| + |y|) + 2 * e * |est| := by
    have a1 := abs_add_le (D - (x - y)) (V - est)
    rw [hV, show D - (x - y) + (x - y - est) = D - est by ring] at a1
    rw [hV] at hest
    linarith
  have h7 : (2 * e + e ^ 2) * (|x| + |y|) ≤ (2 * e + e ^ 2) * ((1 + e) ^ 2 * sg) := mul_le_mul_of_nonneg_left m2 (by positivity)
  have h9 : (2 * e + e ^ 2) * ((1 + e) ^ 2 * sg) < (1 - 2 * e) * |est| := by
    have k1 := mul_le_mul_of_nonneg_left h4 (show 0 ≤ 1 - 2 * e by linarith)
    have k2 : (1 + e) * ((2 * e + e ^ 2) * (1 + e) ^ 2) < (1 - 2 * e) * ((2 + 12 * e) * e) := by
      have : 0 < e * e * (1 - 33 * e - 5 * e ^ 2 - e ^ 3) := by
        apply mul_pos (mul_pos he he)
        nlinarith [mul_pos he he, mul_pos (mul_pos he he) he]
      nlinarith [mul_pos he he, mul_pos (mul_pos he he) he, mul_pos (mul_pos he he) (mul_pos he he)]
    have k3 := mul_lt_mul_of_pos_right k2 hpos
    have k4 : (1 + e) * ((2 * e + e ^ 2) * ((1 + e) ^ 2 * sg)) < (1 + e) * ((1 - 2 * e) * |est|) := by
      linarith
    exact lt_of_mul_lt_mul_left k4 (by linarith)
  linarith

/-- A rounded sum of two rounded products. -/
theorem two_terms {p : Nat} {a b e m : ℚ} (he : e = eps p) (ha : |a| ≤ e * m) (hb : |b| ≤ e * m) :
    |rnd p (rnd p a + rnd p b) - (a + b)| ≤ (2 * e + e ^ 2) * (2 * e * m) ∧ |rnd p (rnd p a + rnd p b)| ≤ (1 + e) ^ 2 * (2 * e * m) := by
  have h0 := eps_pos p
  rw [← he] at h0
  have h1 := rnd_rel p a
  have h2 := rnd_rel p b
  have h3 := rnd_rel p (rnd p a + rnd p b)
  have h4 := abs_rnd_le_mul (p := p) a
  have h5 := abs_rnd_le_mul (p := p) b
  have h6 := abs_rnd_le_mul (p := p) (rnd p a + rnd p b)
  have h7 := abs_add_le (rnd p a) (rnd p b)
  rw [← he] at *
  have ha1 := mul_le_mul_of_nonneg_left ha h0.le
  have hb1 := mul_le_mul_of_nonneg_left hb h0.le
  have h8 : |rnd p a + rnd p b| ≤ (1 + e) * (2 * e * m) := by linarith
  constructor
  · have h9 : rnd p (rnd p a + rnd p b) - (a + b) = (rnd p (rnd p a + rnd p b) - (rnd p a + rnd p b)) + (rnd p a - a) + (rnd p b - b) := by ring
    rw [h9]
    have a1 := abs_add_le ((rnd p (rnd p a + rnd p b) - (rnd p a + rnd p b)) + (rnd p a - a)) (rnd p b - b)
    have a2 := abs_add_le (rnd p (rnd p a + rnd p b) - (rnd p a + rnd p b)) (rnd p a - a)
    have := mul_le_mul_of_nonneg_left h8 h0.le
    linarith
  · have := mul_le_mul_of_nonneg_left h8 (show 0 ≤ 1 + e by linarith)
    linarith

/-- The margin of the third filter. -/
theorem stageC_fin {e sg E D : ℚ} (he : 0 < e) (he' : e ≤ 1 / 2048) (hpos : 0 < sg) (hE : 0 ≤ E)
    (hebl : (9 + 64 * e) * e ^ 2 * sg + (3 + 8 * e) * e * E ≤ (1 + e) ^ 2 * D) :
    2 * e * E + e ^ 2 * ((1 + e) ^ 2 * sg) * (7 + 6 * e + 2 * e ^ 2) < (1 - e) * D := by
  have k1 := mul_le_mul_of_nonneg_left hebl (show 0 ≤ 1 - e by linarith)
  have g1 : (1 + e) ^ 2 ≤ 1 + 3 * e := by nlinarith
  have g2 : (1 + e) ^ 2 * (7 + 6 * e + 2 * e ^ 2) ≤ (1 + 3 * e) * (7 + 7 * e) :=
    mul_le_mul g1 (by nlinarith) (by positivity) (by linarith)
  have g3 : (1 + e) ^ 2 * ((1 + e) ^ 2 * (7 + 6 * e + 2 * e ^ 2)) ≤ (1 + 3 * e) * ((1 + 3 * e) * (7 + 7 * e)) :=
    mul_le_mul g1 g2 (by positivity) (by linarith)
  have k2 : (1 + e) ^ 2 * ((1 + e) ^ 2 * (7 + 6 * e + 2 * e ^ 2)) < (1 - e) * (9 + 64 * e) := by
    refine lt_of_le_of_lt g3 ?_
    have : (1 + 3 * e) * (7 + 7 * e) ≤ 7 + 29 * e := by nlinarith
    have : (1 + 3 * e) * ((1 + 3 * e) * (7 + 7 * e)) ≤ (1 + 3 * e) * (7 + 29 * e) := mul_le_mul_of_nonneg_left this (by linarith)
    nlinarith
  have k3 : (1 + e) ^ 2 * (2 * e) ≤ (1 - e) * ((3 + 8 * e) * e) := by
    have : (1 + e) ^ 2 * (2 * e) ≤ (1 + 3 * e) * (2 * e) := mul_le_mul_of_nonneg_right g1 (by linarith)
    have : (1 + 3 * e) * 2 ≤ (1 - e) * (3 + 8 * e) := by nlinarith
    have := mul_le_mul_of_nonneg_right this he.le
    linarith
  have k4 := mul_lt_mul_of_pos_right k2 (show 0 < e ^ 2 * sg by positivity)
  have k5 := mul_le_mul_of_nonneg_right k3 hE
  have k6 : (1 + e) ^ 2 * (2 * e * E + e ^ 2 * ((1 + e) ^ 2 * sg) * (7 + 6 * e + 2 * e ^ 2)) < (1 + e) ^ 2 * ((1 - e) * D) := by
    linarith
  exact lt_of_mul_lt_mul_left k6 (by positivity)

/-- Third filter. -/
theorem stageC {p : Nat} (hp : 11 ≤ p) {ax ay bx b_ acx acy bcx bcy t1 t2 t3 t4 est sg eb det : ℚ}
    (h : Diffs p ax ay bx b_ acx acy bcx bcy t1 t2 t3 t4)
    (hsg : sg = rnd p (|rnd p (acx * bcy)| + |rnd p (acy * bcx)|)) (hpos : 0 < sg)
    (hest : |acx * bcy - acy * bcx - est| ≤ 2 * eps p * |est|)
    (heb : eb = rnd p (rnd p ((9 + 64 * eps p) * eps p ^ 2 * sg) + rnd p ((3 + 8 * eps p) * eps p * |est|)))
    (hdet : det = rnd p (est + rnd p (rnd p (rnd p (acx * t4) + rnd p (bcy * t1)) - rnd p (rnd p (acy * t3) + rnd p (bcx * t2)))))
    (hle : eb ≤ |det|) : SignType.sign det = SignType.sign (ax * b_ - ay * bx) := by
  have hp0 : 0 < p := by omega
  have he := eps_pos p
  have he' := eps_le hp
  obtain ⟨m1, m2⟩ := mags hp0 hsg
  have hb1 := h.b1
  have hb2 := h.b2
  have hb3 := h.b3
  have hb4 := h.b4
  obtain ⟨e, hedef⟩ : ∃ e, e = eps p := ⟨_, rfl⟩
  rw [← hedef] at he he' m1 m2 hb1 hb2 hb3 hb4 hest heb
  have pm : ∀ {a b t : ℚ}, |t| ≤ e * |b| → |a * t| ≤ e * |a * b| := by
    intro a b t ht
    rw [abs_mul, abs_mul]; nlinarith [abs_nonneg a]
  have q1 : |acx * t4| ≤ e * |acx * bcy| := pm hb4
  have q2 : |bcy * t1| ≤ e * |acx * bcy| := by rw [mul_comm acx bcy]; exact pm hb1
  have q3 : |acy * t3| ≤ e * |acy * bcx| := pm hb3
  have q4 : |bcx * t2| ≤ e * |acy * bcx| := by rw [mul_comm acy bcx]; exact pm hb2
  have q5 : |t1 * t4| ≤ e ^ 2 * |acx * bcy| := by
    rw [abs_mul, abs_mul]
    calc |t1| * |t4| ≤ (e * |acx|) * (e * |bcy|) := mul_le_mul hb1 hb4 (abs_nonneg _) (mul_nonneg he.le (abs_nonneg _))
      _ = _ := by ring
  have q6 : |t2 * t3| ≤ e ^ 2 * |acy * bcx| := by
    rw [abs_mul, abs_mul]
    calc |t2| * |t3| ≤ (e * |acy|) * (e * |bcx|) := mul_le_mul hb2 hb3 (abs_nonneg _) (mul_nonneg he.le (abs_nonneg _))
      _ = _ := by ring
  obtain ⟨u1, u2⟩ := two_terms hedef q1 q2
  obtain ⟨v1, v2⟩ := two_terms hedef q3 q4
  set c1 := rnd p (rnd p (acx * t4) + rnd p (bcy * t1)) with hc1
  set c2 := rnd p (rnd p (acy * t3) + rnd p (bcx * t2)) with hc2
  set M := |acx * bcy| + |acy * bcx| with hM
  have z1 : |rnd p (c1 - c2) - (c1 - c2)| ≤ e * |c1 - c2| := by rw [hedef]; exact rnd_rel p _
  have z2 : |c1 - c2| ≤ (1 + e) ^ 2 * (2 * e * M) := by
    have := abs_sub c1 c2
    rw [hM]; linarith
  set z := rnd p (c1 - c2) with hz
  have z3 := mul_le_mul_of_nonneg_left z2 he.le
  have d1 : |det - (est + z)| ≤ e * |det| := by rw [hedef, hdet]; exact rnd_rel' hp0 _
  have hid : ax * b_ - ay * bx - det = (acx * bcy - acy * bcx - est) - (z - (c1 - c2)) - (c1 - (acx * t4 + bcy * t1))
      + (c2 - (acy * t3 + bcx * t2)) + t1 * t4 - t2 * t3 - (det - (est + z)) := by
    rw [h.e1, h.e2, h.e3, h.e4]; ring
  apply sign_close
  have hsum : |ax * b_ - ay * bx - det| ≤ 2 * e * |est| + e ^ 2 * M * (7 + 6 * e + 2 * e ^ 2) + e * |det| := by
    rw [hid]
    set k1 := acx * bcy - acy * bcx - est
    set k2 := z - (c1 - c2)
    set k3 := c1 - (acx * t4 + bcy * t1)
    set k4 := c2 - (acy * t3 + bcx * t2)
    set k5 := det - (est + z)
    have a1 := abs_sub (k1 - k2 - k3 + k4 + t1 * t4 - t2 * t3) k5
    have a2 := abs_sub (k1 - k2 - k3 + k4 + t1 * t4) (t2 * t3)
    have a3 := abs_add_le (k1 - k2 - k3 + k4) (t1 * t4)
    have a4 := abs_add_le (k1 - k2 - k3) k4
    have a5 := abs_sub (k1 - k2) k3
    have a6 := abs_sub k1 k2
    have e1 : e ^ 2 * M * (7 + 6 * e + 2 * e ^ 2) =
      e * ((1 + e) ^ 2 * (2 * e * M)) + ((2 * e + e ^ 2) * (2 * e * |acx * bcy|) + (2 * e + e ^ 2) * (2 * e * |acy * bcx|)) +
      (e ^ 2 * |acx * bcy| + e ^ 2 * |acy * bcx|) := by rw [hM]; ring
    rw [e1]
    linarith
  have hebl : (9 + 64 * e) * e ^ 2 * sg + (3 + 8 * e) * e * |est| ≤ (1 + e) ^ 2 * |det| := by
    have n1 : 0 ≤ (9 + 64 * e) * e ^ 2 * sg := by positivity
    have n2 : 0 ≤ (3 + 8 * e) * e * |est| := by positivity
    have w1 := le_rnd_mul hp0 n1
    have w2 := le_rnd_mul hp0 n2
    have w3 := le_rnd_mul hp0 (add_nonneg (rnd_nonneg hp0 n1) (rnd_nonneg hp0 n2))
    rw [← hedef] at w1 w2 w3
    rw [← heb] at w3
    have w4 : (1 + e) * eb ≤ (1 + e) * |det| := mul_le_mul_of_nonneg_left hle (by linarith)
    have w5 := mul_le_mul_of_nonneg_left (w3.trans w4) (show 0 ≤ 1 + e by linarith)
    linarith
  have hMs : e ^ 2 * M * (7 + 6 * e + 2 * e ^ 2) ≤ e ^ 2 * ((1 + e) ^ 2 * sg) * (7 + 6 * e + 2 * e ^ 2) := by
    apply mul_le_mul_of_nonneg_right _ (by positivity)
    exact mul_le_mul_of_nonneg_left m2 (by positivity)
  have fin := stageC_fin he he' hpos (abs_nonneg est) hebl
  linarith


theorem twoDiffTail_eq {p : Nat} (hp : 2 ≤ p) {a b : ℚ} (ha : Rep p a) (hb : Rep p b) :
    twoDiffTail p a b (rnd p (a - b)) = a - b - rnd p (a - b) := by
  have := twoDiff_eq hp ha hb
  simp only [twoDiff, Prod.mk.injEq] at this
  exact this.2

theorem diffs_of {p : Nat} (hp : 0 < p) {a1 a2 b1 b2 c1 c2 : ℚ} (ha1 : Rep p a1) (ha2 : Rep p a2) (hb1 : Rep p b1) (hb2 : Rep p b2)
    (hc1 : Rep p c1) (hc2 : Rep p c2) :
    Diffs p (a1 - c1) (a2 - c2) (b1 - c1) (b2 - c2) (rnd p (a1 - c1)) (rnd p (a2 - c2)) (rnd p (b1 - c1)) (rnd p (b2 - c2))
      (a1 - c1 - rnd p (a1 - c1)) (a2 - c2 - rnd p (a2 - c2)) (b1 - c1 - rnd p (b1 - c1)) (b2 - c2 - rnd p (b2 - c2)) :=
  ⟨rep_rnd hp _, rep_rnd hp _, rep_rnd hp _, rep_rnd hp _, diff_rep hp ha1 hc1, diff_rep hp ha2 hc2, diff_rep hp hb1 hc1,
    diff_rep hp hb2 hc2, by ring, by ring, by ring, by ring, tail_le hp _, tail_le hp _, tail_le hp _, tail_le hp _⟩

/-- The constants have their values. -/
structure ConstsOk (p : Nat) (c : Consts) : Prop where
  splitter : c.splitter = 2 ^ half p + 1
  r : c.resulterrbound = (3 + 8 * eps p) * eps p
  ccwA : c.ccwerrboundA = (3 + 16 * eps p) * eps p
  ccwB : c.ccwerrboundB = (2 + 12 * eps p) * eps p
  ccwC : c.ccwerrboundC = (9 + 64 * eps p) * eps p ^ 2
  o3dA : c.o3derrboundA = (7 + 56 * eps p) * eps p
  o3dB : c.o3derrboundB = (3 + 28 * eps p) * eps p
  o3dC : c.o3derrboundC = (26 + 288 * eps p) * eps p ^ 2
  iccA : c.iccerrboundA = (10 + 96 * eps p) * eps p
  iccB : c.iccerrboundB = (4 + 48 * eps p) * eps p
  iccC : c.iccerrboundC = (44 + 576 * eps p) * eps p ^ 2
  ispA : c.isperrboundA = (16 + 224 * eps p) * eps p
  ispB : c.isperrboundB = (5 + 72 * eps p) * eps p
  ispC : c.isperrboundC = (71 + 1408 * eps p) * eps p ^ 2

theorem or_le_abs {a b : ℚ} : (a ≤ b ∨ a ≤ -b) ↔ a ≤ |b| := le_abs.symm

/-- `orient_adapt` returns a number with the sign of the determinant. -/
theorem orientAdapt2_sign {p : Nat} (hp : 11 ≤ p) {c : Consts} (hc : ConstsOk p c) {pa pb pc : ℚ × ℚ} (a1 : Rep p pa.1) (a2 : Rep p pa.2)
    (b1 : Rep p pb.1) (b2 : Rep p pb.2) (c1 : Rep p pc.1) (c2 : Rep p pc.2) {sg : ℚ}
    (hsg : sg = rnd p (|rnd p (rnd p (pa.1 - pc.1) * rnd p (pb.2 - pc.2))| + |rnd p (rnd p (pa.2 - pc.2) * rnd p (pb.1 - pc.1))|))
    (hpos : 0 < sg) :
    SignType.sign (orientAdapt2 p c pa pb pc sg) =
      SignType.sign ((pa.1 - pc.1) * (pb.2 - pc.2) - (pa.2 - pc.2) * (pb.1 - pc.1)) := by
  have hp0 : 0 < p := by omega
  have hp2 : 2 ≤ p := by omega
  have hd := diffs_of hp0 a1 a2 b1 b2 c1 c2
  unfold orientAdapt2
  simp only [twoDiffTail_eq hp2 a1 c1, twoDiffTail_eq hp2 a2 c2, twoDiffTail_eq hp2 b1 c1, twoDiffTail_eq hp2 b2 c2, or_le_abs,
    hc.splitter, hc.ccwB, hc.ccwC, hc.r]
  set acx := rnd p (pa.1 - pc.1) with hacx
  set acy := rnd p (pa.2 - pc.2) with hacy
  set bcx := rnd p (pb.1 - pc.1) with hbcx
  set bcy := rnd p (pb.2 - pc.2) with hbcy
  set t1 := pa.1 - pc.1 - acx with ht1
  set t2 := pa.2 - pc.2 - acy with ht2
  set t3 := pb.1 - pc.1 - bcx with ht3
  set t4 := pb.2 - pc.2 - bcy with ht4
  set D := (pa.1 - pc.1) * (pb.2 - pc.2) - (pa.2 - pc.2) * (pb.1 - pc.1) with hD
  have hB := diff4_ok (show 4 ≤ p by omega) hd.r1 hd.r4 hd.r2 hd.r3
  set B := diff4 p (2 ^ half p + 1) acx bcy acy bcx with hBdef
  have hest := hB.estimate (by omega)
  set est := estimate p B with hestdef
  have hdet := hd.det
  split_ifs with h1 h2 h3
  · exact stageB hp hsg hpos rfl hdet hest rfl h1
  · have hDV : D = acx * bcy - acy * bcx := by
      have e1 := hd.e1; have e2 := hd.e2; have e3 := hd.e3; have e4 := hd.e4
      rw [h2.1, add_zero] at e1
      rw [h2.2.1, add_zero] at e2
      rw [h2.2.2.1, add_zero] at e3
      rw [h2.2.2.2, add_zero] at e4
      rw [hD, e1, e2, e3, e4]
    rw [hDV]
    have := eps_le hp
    exact sign_close' hest (by linarith)
  · exact stageC hp hd hsg hpos hest rfl rfl h3
  · have hE := hB.expn hp0
    have u1 := (diff4_ok (show 4 ≤ p by omega) hd.s1 hd.r4 hd.s2 hd.r3).expn hp0
    have u2 := (diff4_ok (show 4 ≤ p by omega) hd.r1 hd.s4 hd.r2 hd.s3).expn hp0
    have u3 := (diff4_ok (show 4 ≤ p by omega) hd.s1 hd.s4 hd.s2 hd.s3).expn hp0
    have C1 := fes_ok (show 5 ≤ p by omega) hE u1
    have C2 := fes_ok (show 5 ≤ p by omega) C1.toExpn u2
    have C3 := fes_ok (show 5 ≤ p by omega) C2.toExpn u3
    have := C3.sign
    rw [this]
    congr 1
    rw [hD, hd.e1, hd.e2, hd.e3, hd.e4]; ring

/-- `orient` returns a number with the sign of the determinant. -/
theorem orient2_sign {p : Nat} (hp : 11 ≤ p) {c : Consts} (hc : ConstsOk p c) {pa pb pc : ℚ × ℚ} (a1 : Rep p pa.1) (a2 : Rep p pa.2)
    (b1 : Rep p pb.1) (b2 : Rep p pb.2) (c1 : Rep p pc.1) (c2 : Rep p pc.2) :
    SignType.sign (orient2 p c pa pb pc) =
      SignType.sign ((pa.1 - pc.1) * (pb.2 - pc.2) - (pa.2 - pc.2) * (pb.1 - pc.1)) := by
  have hp0 : 0 < p := by omega
  have hd := diffs_of hp0 a1 a2 b1 b2 c1 c2
  have had := fun sg => orientAdapt2_sign (sg := sg) hp hc a1 a2 b1 b2 c1 c2
  -- signs of rounded numbers
  have sr : ∀ x : ℚ, SignType.sign (rnd p x) = SignType.sign x := by
    intro x
    rcases lt_trichotomy x 0 with h | h | h
    · rw [sign_neg h, sign_neg (rnd_lt_zero hp0 h)]
    · rw [h, rnd_zero]
    · rw [sign_pos h, sign_pos (rnd_pos hp0 h)]
  have sl : ∀ x y : ℚ, SignType.sign (rnd p (rnd p x * rnd p y)) = SignType.sign (x * y) := by
    intro x y
    rw [sr, sign_mul, sr, sr, sign_mul]
  have hl := sl (pa.1 - pc.1) (pb.2 - pc.2)
  have hr := sl (pa.2 - pc.2) (pb.1 - pc.1)
  have hdet := hd.det
  unfold orient2
  simp only [or_le_abs, hc.ccwA]
  set L := rnd p (rnd p (pa.1 - pc.1) * rnd p (pb.2 - pc.2)) with hL
  set R := rnd p (rnd p (pa.2 - pc.2) * rnd p (pb.1 - pc.1)) with hR
  set l := (pa.1 - pc.1) * (pb.2 - pc.2) with hl'
  set r := (pa.2 - pc.2) * (pb.1 - pc.1) with hr'
  have rest : ∀ sg, sg = rnd p (|L| + |R|) → 0 < sg →
      SignType.sign (if rnd p ((3 + 16 * eps p) * eps p * sg) ≤ |rnd p (L - R)| then rnd p (L - R) else orientAdapt2 p c pa pb pc sg) =
      SignType.sign (l - r) := by
    intro sg hsg hpos
    split_ifs with h
    · exact stageA hp hsg hpos hdet rfl h
    · exact had sg hsg hpos
  split_ifs with h1 h2 h3 h4 h5 h6 <;> try simp only [sr]
  · -- left positive, right not
    have g1 : 0 < l := by rw [sign_pos h1] at hl; exact sign_eq_one_iff.mp hl.symm
    have g2 : r ≤ 0 := by
      by_contra hc
      rw [sign_pos (not_le.mp hc)] at hr
      exact absurd (sign_eq_one_iff.mp hr) (not_lt.mpr h2)
    rw [sign_pos (by linarith), sign_pos (by linarith)]
  · have := rest (rnd p (L + R)) (by rw [abs_of_pos h1, abs_of_pos (not_le.mp h2)]) (rnd_pos hp0 (by linarith [not_le.mp h2]))
    rw [if_pos h3, sr] at this
    exact this
  · have := rest (rnd p (L + R)) (by rw [abs_of_pos h1, abs_of_pos (not_le.mp h2)]) (rnd_pos hp0 (by linarith [not_le.mp h2]))
    rw [if_neg h3] at this
    exact this
  · have g1 : l < 0 := by rw [sign_neg h4] at hl; exact sign_eq_neg_one_iff.mp hl.symm
    have g2 : 0 ≤ r := by
      by_contra hc
      rw [sign_neg (not_le.mp hc)] at hr
      exact absurd (sign_eq_neg_one_iff.mp hr) (not_lt.mpr h5)
    rw [sign_neg (by linarith), sign_neg (by linarith)]
  · have := rest (rnd p (-L - R)) (by rw [abs_of_neg h4, abs_of_neg (not_le.mp h5), ← sub_eq_add_neg])
      (rnd_pos hp0 (by linarith [not_le.mp h5]))
    rw [if_pos h6, sr] at this
    exact this
  · have := rest (rnd p (-L - R)) (by rw [abs_of_neg h4, abs_of_neg (not_le.mp h5), ← sub_eq_add_neg])
      (rnd_pos hp0 (by linarith [not_le.mp h5]))
    rw [if_neg h6] at this
    exact this
  · have h0 : L = 0 := le_antisymm (not_lt.mp h1) (not_lt.mp h4)
    have g0 : l = 0 := by rw [h0, sign_zero] at hl; exact sign_eq_zero_iff.mp hl.symm
    rw [h0, g0, zero_sub, zero_sub, Left.sign_neg, Left.sign_neg, hr]

end FP
end Verif
