import Verif.Model.Insphere3
import Verif.Lemmas.Orient3

/-!
# Expansions of the insphere test in space
-/
namespace Verif
namespace FP

/-- Squared length. -/
def sq3 (x y z : ℚ) : ℚ := x * x + y * y + z * z

/-- Cross product of two vectors in the plane. -/
def cr (ax ay bx by_ : ℚ) : ℚ := ax * by_ - bx * ay

/-- The determinant. -/
def spDet (Xa Ya Za Xb Yb Zb Xc Yc Zc Xd Yd Zd : ℚ) : ℚ :=
  (sq3 Xd Yd Zd * (Za * cr Xb Yb Xc Yc - Zb * cr Xa Ya Xc Yc + Zc * cr Xa Ya Xb Yb) -
    sq3 Xc Yc Zc * (Zd * cr Xa Ya Xb Yb + Za * cr Xb Yb Xd Yd + Zb * cr Xd Yd Xa Ya)) +
  (sq3 Xb Yb Zb * (Zc * cr Xd Yd Xa Ya + Zd * cr Xa Ya Xc Yc + Za * cr Xc Yc Xd Yd) -
    sq3 Xa Ya Za * (Zb * cr Xc Yc Xd Yd - Zc * cr Xb Yb Xd Yd + Zd * cr Xb Yb Xc Yc))

theorem GoodFrom.neg {S : ℚ} {l : List ℚ} (h : GoodFrom S l) : GoodFrom S (l.map fun x => -x) := by
  induction l generalizing S with
  | nil => trivial
  | cons y l ih =>
    refine ⟨fun k hk => h.1 k (by simpa using hk.neg), ?_⟩
    rw [abs_neg]
    exact ih h.2

theorem Expn.neg {p : Nat} {V : ℚ} {l : List ℚ} (h : Expn p V l) : Expn p (-V) (l.map fun x => -x) := by
  refine ⟨h.good.neg, ?_, ?_, by simpa using h.ne⟩
  · intro y hy
    obtain ⟨x, hx, rfl⟩ := List.mem_map.mp hy
    exact (h.rep x hx).neg
  · rw [← h.sum]
    clear h
    induction l with
    | nil => simp
    | cons x l ih => simp only [List.map_cons, List.sum_cons, ih]; ring

theorem sum24_ok {p : Nat} (hp : 11 ≤ p) {e f g : List ℚ} {E F G x y z : ℚ} (he : Expn p E e) (hf : Expn p F f) (hg : Expn p G g)
    (hx : Rep p x) (hy : Rep p y) (hz : Rep p z) : Expn p (E * x + F * y + G * z) (sum24 p (2 ^ half p + 1) e x f y g z) :=
  (fes_ok (show 5 ≤ p by omega) (scale_ok hp hg hz).toExpn (fes_ok (show 5 ≤ p by omega) (scale_ok hp he hx).toExpn (scale_ok hp hf hy).toExpn).toExpn).toExpn.cast
    (by ring)

theorem liftPos_ok {p : Nat} (hp : 11 ≤ p) {t : List ℚ} {T x y z : ℚ} (ht : Expn p T t) (hx : Rep p x) (hy : Rep p y) (hz : Rep p z) :
    Expn p (sq3 x y z * T) (liftPos p (2 ^ half p + 1) t x y z) :=
  (fes_ok (show 5 ≤ p by omega) (fes_ok (show 5 ≤ p by omega) (scale2_ok hp ht hx hx).toExpn (scale2_ok hp ht hy hy).toExpn).toExpn
    (scale2_ok hp ht hz hz).toExpn).toExpn.cast (by unfold sq3; ring)

theorem liftNeg_ok {p : Nat} (hp : 11 ≤ p) {t : List ℚ} {T x y z : ℚ} (ht : Expn p T t) (hx : Rep p x) (hy : Rep p y) (hz : Rep p z) :
    Expn p (-(sq3 x y z * T)) (liftNeg p (2 ^ half p + 1) t x y z) :=
  (fes_ok (show 5 ≤ p by omega) (fes_ok (show 5 ≤ p by omega) (scale2_ok hp ht hx hx.neg).toExpn (scale2_ok hp ht hy hy.neg).toExpn).toExpn
    (scale2_ok hp ht hz hz.neg).toExpn).toExpn.cast (by unfold sq3; ring)

theorem comb96_ok {p : Nat} (hp : 11 ≤ p) {e f g h : List ℚ} {E F G H : ℚ} (he : Expn p E e) (hf : Expn p F f) (hg : Expn p G g) (hh : Expn p H h) :
    Expn p (E + F - (G + H)) (comb96 p e f g h) :=
  (fes_ok (show 5 ≤ p by omega) (fes_ok (show 5 ≤ p by omega) he hf).toExpn (fes_ok (show 5 ≤ p by omega) hg hh).toExpn.neg).toExpn.cast (by ring)

theorem raw4_ok {p : Nat} (hp : 11 ≤ p) {a b : ℚ × ℚ × ℚ} (ha : Rep3 p a) (hb : Rep3 p b) :
    Expn p (cr a.1 a.2.1 b.1 b.2.1) (raw4 p (2 ^ half p + 1) a b) :=
  (diff4_ok (show 4 ≤ p by omega) ha.x hb.y hb.x ha.y).expn (by omega)

set_option maxHeartbeats 2000000 in
/-- `insphere_exact` yields an expansion of the determinant. -/
theorem exact3_ok {p : Nat} (hp : 11 ≤ p) {pa pb pc pd pe : ℚ × ℚ × ℚ} (ra : Rep3 p pa) (rb : Rep3 p pb) (rc : Rep3 p pc) (rd : Rep3 p pd)
    (re : Rep3 p pe) :
    ExpnZ p (spDet (pa.1 - pe.1) (pa.2.1 - pe.2.1) (pa.2.2 - pe.2.2) (pb.1 - pe.1) (pb.2.1 - pe.2.1) (pb.2.2 - pe.2.2)
      (pc.1 - pe.1) (pc.2.1 - pe.2.1) (pc.2.2 - pe.2.2) (pd.1 - pe.1) (pd.2.1 - pe.2.1) (pd.2.2 - pe.2.2))
      (exact3 p (2 ^ half p + 1) pa pb pc pd pe) := by
  have hp5 : 5 ≤ p := by omega
  have ab := raw4_ok hp ra rb
  have bc := raw4_ok hp rb rc
  have cd := raw4_ok hp rc rd
  have de := raw4_ok hp rd re
  have ea := raw4_ok hp re ra
  have ac := raw4_ok hp ra rc
  have bd := raw4_ok hp rb rd
  have ce := raw4_ok hp rc re
  have da := raw4_ok hp rd ra
  have eb := raw4_ok hp re rb
  have abc := sum24_ok hp bc ac ab ra.z rb.z.neg rc.z
  have bcd := sum24_ok hp cd bd bc rb.z rc.z.neg rd.z
  have cde := sum24_ok hp de ce cd rc.z rd.z.neg re.z
  have dea := sum24_ok hp ea da de rd.z re.z.neg ra.z
  have eab := sum24_ok hp ab eb ea re.z ra.z.neg rb.z
  have abd := sum24_ok hp bd da ab ra.z rb.z rd.z
  have bce := sum24_ok hp ce eb bc rb.z rc.z re.z
  have cda := sum24_ok hp da ac cd rc.z rd.z ra.z
  have deb := sum24_ok hp eb bd de rd.z re.z rb.z
  have eac := sum24_ok hp ac ce ea re.z ra.z rc.z
  have adet := liftPos_ok hp (comb96_ok hp cde bce deb bcd) ra.x ra.y ra.z
  have bdet := liftPos_ok hp (comb96_ok hp dea cda eac cde) rb.x rb.y rb.z
  have cdet := liftPos_ok hp (comb96_ok hp eab deb abd dea) rc.x rc.y rc.z
  have ddet := liftPos_ok hp (comb96_ok hp abc eac bce eab) rd.x rd.y rd.z
  have edet := liftPos_ok hp (comb96_ok hp bcd abd cda abc) re.x re.y re.z
  refine (fes_ok hp5 (fes_ok hp5 adet bdet).toExpn (fes_ok hp5 (fes_ok hp5 cdet ddet).toExpn edet).toExpn).cast ?_
  unfold spDet sq3 cr
  ring

/-- `fin1` is an expansion of the determinant of the rounded differences. -/
theorem fin3_ok {p : Nat} (hp : 11 ≤ p) {a b c d : Side3} {Xa Ya Za Xb Yb Zb Xc Yc Zc Xd Yd Zd : ℚ} (ha : Side3Ok p a Xa Ya Za)
    (hb : Side3Ok p b Xb Yb Zb) (hc : Side3Ok p c Xc Yc Zc) (hd : Side3Ok p d Xd Yd Zd) :
    ExpnZ p (spDet a.x a.y a.z b.x b.y b.z c.x c.y c.z d.x d.y d.z) (fin3 p (2 ^ half p + 1) a b c d) := by
  have hp5 : 5 ≤ p := by omega
  have ab := cross4_ok hp ha.toSideOk hb.toSideOk
  have bc := cross4_ok hp hb.toSideOk hc.toSideOk
  have cd := cross4_ok hp hc.toSideOk hd.toSideOk
  have da := cross4_ok hp hd.toSideOk ha.toSideOk
  have ac := cross4_ok hp ha.toSideOk hc.toSideOk
  have bd := cross4_ok hp hb.toSideOk hd.toSideOk
  have adet := liftNeg_ok hp (sum24_ok hp cd bd bc hb.rz hc.rz.neg hd.rz) ha.rx ha.ry ha.rz
  have bdet := liftPos_ok hp (sum24_ok hp da ac cd hc.rz hd.rz ha.rz) hb.rx hb.ry hb.rz
  have cdet := liftNeg_ok hp (sum24_ok hp ab bd da hd.rz ha.rz hb.rz) hc.rx hc.ry hc.rz
  have ddet := liftPos_ok hp (sum24_ok hp bc ac ab ha.rz hb.rz.neg hc.rz) hd.rx hd.ry hd.rz
  refine (fes_ok hp5 (fes_ok hp5 adet bdet).toExpn (fes_ok hp5 cdet ddet).toExpn).cast ?_
  unfold spDet cr
  ring

/-- The two lowest components of `Two_Two_Diff`. -/
theorem twoTwoDiff_low {p : Nat} (hp : 2 ≤ p) {a1 a0 b1 b0 : ℚ} (ra1 : Rep p a1) (ra0 : Rep p a0) (rb1 : Rep p b1) (rb0 : Rep p b0) :
    ∃ w0 w1 x2 x3, twoTwoDiff p a1 a0 b1 b0 = [w0, w1, x2, x3] ∧ |w0| + |w1| ≤ (1 + 2 * eps p) * (|a0| + |b0|) := by
  have hp0 : 0 < p := by omega
  have he := eps_pos p
  refine ⟨_, _, _, _, rfl, ?_⟩
  simp only [twoOneDiff]
  rw [twoDiff_eq_twoSum p a0 b0, twoSum_eq hp ra0 rb0.neg]
  dsimp only
  have rQ1 : Rep p (rnd p (a0 + -b0)) := rep_rnd hp0 _
  rw [twoSum_eq hp ra1 rQ1]
  dsimp only
  have rh1 := sum_err_rep hp0 ra1 rQ1
  rw [twoDiff_eq_twoSum, twoSum_eq hp rh1 rb1.neg]
  dsimp only
  have i1 : |a0 + -b0 - rnd p (a0 + -b0)| ≤ eps p * |a0 + -b0| := by
    rw [abs_sub_comm]; exact rnd_rel p _
  have i2 := abs_rnd_le_mul (p := p) (a0 + -b0)
  have i3 := sum_err_le hp0 (b := rnd p (a0 + -b0)) ra1
  set Q1 := rnd p (a0 + -b0)
  set h1 := a1 + Q1 - rnd p (a1 + Q1)
  have i4 : |h1 + -b1 - rnd p (h1 + -b1)| ≤ |h1| := by
    have := sum_err_le hp0 (b := h1) rb1.neg
    rwa [add_comm (-b1) h1] at this
  have i5 : |a0 + -b0| ≤ |a0| + |b0| := by
    have := abs_add_le a0 (-b0)
    rwa [abs_neg] at this
  have i6 := mul_le_mul_of_nonneg_left i5 (show 0 ≤ 1 + 2 * eps p by linarith)
  linarith

/-- The highest component of a difference of products is close to it. -/
theorem top_cross4 {p : Nat} (hp : 11 ≤ p) {b c : Side} {X Y X' Y' : ℚ} (hb : SideOk p b X Y) (hc : SideOk p c X' Y') :
    |top (cross4 p (2 ^ half p + 1) b c) - (b.x * c.y - c.x * b.y)| ≤ 3 / 2 * eps p * (1 + 2 * eps p) * (|b.x * c.y| + |c.x * b.y|) := by
  have hp0 : 0 < p := by omega
  have hp4 : 4 ≤ p := by omega
  have he := eps_pos p
  have he' := eps_le hp
  obtain ⟨w0, w1, s, h1, h2, -, -, r2, -, h6, h7⟩ := (diff4_ok hp4 hb.rx hc.ry hc.rx hb.ry).shape
  obtain ⟨v0, v1, x2, x3, g1, g2⟩ := twoTwoDiff_low (show 2 ≤ p by omega) (rep_rnd hp0 (b.x * c.y)) (prod_err_rep hp0 hb.rx hc.ry)
    (rep_rnd hp0 (c.x * b.y)) (prod_err_rep hp0 hc.rx hb.ry)
  have e : diff4 p (2 ^ half p + 1) b.x c.y c.x b.y = [v0, v1, x2, x3] := by
    rw [← g1]
    simp only [diff4, twoProduct_eq hp4 hb.rx hc.ry, twoProduct_eq hp4 hc.rx hb.ry]
  rw [e] at h1
  simp only [List.cons.injEq, and_true] at h1
  obtain ⟨rfl, rfl, rfl, rfl⟩ := h1
  have et : top (cross4 p (2 ^ half p + 1) b c) = rnd p s := by
    unfold cross4
    rw [e]
    rfl
  rw [et]
  have b1 : |b.x * c.y - rnd p (b.x * c.y)| ≤ eps p * |b.x * c.y| := by rw [abs_sub_comm]; exact rnd_rel p _
  have b2 : |c.x * b.y - rnd p (c.x * b.y)| ≤ eps p * |c.x * b.y| := by rw [abs_sub_comm]; exact rnd_rel p _
  have hm0 : 0 ≤ |b.x * c.y| + |c.x * b.y| := by positivity
  have hV : |b.x * c.y - c.x * b.y| ≤ |b.x * c.y| + |c.x * b.y| := abs_sub _ _
  set m := |b.x * c.y| + |c.x * b.y| with hm
  have hw : |v0| + |v1| ≤ (1 + 2 * eps p) * (eps p * m) := g2.trans (mul_le_mul_of_nonneg_left (by linarith) (by linarith))
  have e2 : rnd p s - (b.x * c.y - c.x * b.y) = -(v0 + v1 + (s - rnd p s)) := by rw [h2]; ring
  have hem : 0 ≤ eps p * m := by positivity
  by_cases z : s - rnd p s = 0
  · rw [e2, z, add_zero, abs_neg]
    have := abs_add_le v0 v1
    have : 0 ≤ (1 + 2 * eps p) * (eps p * m) := by positivity
    linarith
  · obtain ⟨k, hk⟩ := r2.lsb z
    have j1 := h6 k hk
    have j2 := hk.le_abs
    have j3 : |s - rnd p s| ≤ eps p * |s| := by rw [abs_sub_comm]; exact rnd_rel p _
    have j4 : |s| ≤ m + (|v0| + |v1|) := by
      have : s = (b.x * c.y - c.x * b.y) - (v0 + v1) := by rw [h2]; ring
      rw [this]
      have := abs_sub (b.x * c.y - c.x * b.y) (v0 + v1)
      have := abs_add_le v0 v1
      linarith
    have j5 : |rnd p s - (b.x * c.y - c.x * b.y)| ≤ 3 / 2 * |s - rnd p s| := by
      rw [e2, abs_neg]
      have := abs_add_le (v0 + v1) (s - rnd p s)
      have := abs_add_le v0 v1
      linarith
    have j6 : |s| ≤ (1 + 2 * eps p) * m := by
      have : (1 + 2 * eps p) * (eps p * m) ≤ 2 * (eps p * m) := mul_le_mul_of_nonneg_right (by linarith) hem
      linarith
    have j7 := mul_le_mul_of_nonneg_left j6 he.le
    linarith

end FP
end Verif
