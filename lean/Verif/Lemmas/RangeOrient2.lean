import Verif.Lemmas.RangeExp
import Verif.Lemmas.Orient2

/-!
# The orientation test in the plane with bounded exponents
-/
namespace Verif
namespace FPM
open FP (Consts Side Side3 emit pickE finish top rnd Mul Rep ConstsOk)

variable {p : Nat} {rd : ℚ → ℚ} {q m : Int} {D S : Nat} {d e s t : Nat}

theorem Ok.eq {α : Type} {x : Res α} {w : α} (h : Ok (fun v => v = w) x) : x = .done w := by
  obtain ⟨v, rfl, rfl⟩ := h
  rfl

theorem E.refl {x y : ℚ} (h : E q m d s x y) : E q m d s y y := E.of h.2

/-! ### Error bounds -/

/-- The numbers with which the tests are compared: they have more digits. -/
def G (p : Nat) (q m : Int) (D s : Nat) (x y : ℚ) : Prop := x = y ∧ Mul (D * q - 3 * p) y ∧ |y| ≤ 2 ^ (D * m + s : Int)

/-- A constant of the constructor. -/
def Cst (p : Nat) (c : ℚ) : Prop := Mul (-3 * p) c ∧ |c| ≤ 1

theorem G.of (H : Rng p rd q m D S) {c x y : ℚ} (hc : Cst p c) (h : E q m d s x y) (hd : d ≤ D) : G p q m D s (c * x) (c * y) := by
  obtain ⟨rfl, h⟩ := h
  have hdD : (d : Int) ≤ D := by exact_mod_cast hd
  refine ⟨rfl, (hc.1.mul h.1).mono ?_, ?_⟩
  · have h1 : (D : Int) * q ≤ d * q := by nlinarith [H.hq]
    linarith
  · rw [abs_mul]
    have h1 : |c| * |x| ≤ 1 * |x| := mul_le_mul_of_nonneg_right hc.2 (abs_nonneg _)
    refine h1.trans ?_
    rw [one_mul]
    refine h.2.trans (FP.two_zpow_le ?_)
    have h2 : (d : Int) * m ≤ D * m := by nlinarith [H.hm]
    linarith

theorem G.round (H : Rng p rd q m D S) {x y : ℚ} (h : G p q m D s x y) (hs : s ≤ S) : G p q m D s (rd x) (rnd p y) := by
  obtain ⟨rfl, h1, h2⟩ := h
  refine ⟨H.hr _ h1 (h2.trans (FP.two_zpow_le (by omega))), FP.rnd_mul h1, FP.abs_rnd_le H.pos (Rep.pow p H.pos _) h2⟩

theorem G.add {x y x' y' : ℚ} (h : G p q m D s x x') (h' : G p q m D t y y') : G p q m D (max s t + 1) (x + y) (x' + y') := by
  obtain ⟨rfl, h1, h2⟩ := h
  obtain ⟨rfl, h3, h4⟩ := h'
  refine ⟨rfl, h1.add h3, ?_⟩
  have h5 : (2 : ℚ) ^ (D * m + s : Int) ≤ 2 ^ (D * m + (max s t : Nat) : Int) := FP.two_zpow_le (by omega)
  have h6 : (2 : ℚ) ^ (D * m + t : Int) ≤ 2 ^ (D * m + (max s t : Nat) : Int) := FP.two_zpow_le (by omega)
  have e : (D * m + (max s t + 1 : Nat) : Int) = (D * m + (max s t : Nat)) + 1 := by push_cast; ring
  rw [e, FP.two_zpow_succ]
  have := abs_add_le x y
  linarith

theorem eps_le (hp : 13 ≤ p) : FP.eps p ≤ 1 / 8192 := by
  unfold FP.eps
  have : (2 : ℚ) ^ (-(p : Int)) ≤ 2 ^ (-13 : Int) := FP.two_zpow_le (by omega)
  refine this.trans ?_
  norm_num

theorem cst1 (hp : 13 ≤ p) {a b : Nat} (ha : a ≤ 100) (hb : b ≤ 2000) : Cst p ((a + b * FP.eps p) * FP.eps p) := by
  have h1 := eps_le hp
  have h0 := FP.eps_pos p
  have e : Mul (-(p : Int)) (FP.eps p) := Mul.self _
  have z : ∀ n : Nat, Mul 0 (n : ℚ) := fun n => ⟨n, by simp⟩
  constructor
  · have h2 : Mul (-(p : Int)) (a + b * FP.eps p) := ((z a).mono (by omega)).add (by simpa using (z b).mul e)
    exact (h2.mul e).mono (by omega)
  · rw [abs_of_nonneg (by positivity)]
    have ha' : (a : ℚ) ≤ 100 := by exact_mod_cast ha
    have hb' : (b : ℚ) ≤ 2000 := by exact_mod_cast hb
    have h3 : (b : ℚ) * FP.eps p ≤ 1 := by nlinarith
    nlinarith

theorem cst2 (hp : 13 ≤ p) {a b : Nat} (ha : a ≤ 100) (hb : b ≤ 2000) : Cst p ((a + b * FP.eps p) * FP.eps p ^ 2) := by
  have h1 := eps_le hp
  have h0 := FP.eps_pos p
  have e : Mul (-(p : Int)) (FP.eps p) := Mul.self _
  have z : ∀ n : Nat, Mul 0 (n : ℚ) := fun n => ⟨n, by simp⟩
  have h5 := cst1 hp ha hb
  rw [sq, ← mul_assoc]
  constructor
  · have h2 : Mul (-(p : Int)) (a + b * FP.eps p) := ((z a).mono (by omega)).add (by simpa using (z b).mul e)
    exact ((h2.mul e).mul e).mono (by omega)
  · rw [abs_mul, abs_of_pos h0]
    have := h5.2
    have h6 := abs_nonneg ((a + b * FP.eps p) * FP.eps p)
    nlinarith

/-- All constants. -/
structure Csts (p : Nat) (c : Consts) : Prop where
  splitter : c.splitter = sp p
  r : Cst p c.resulterrbound
  ccwA : Cst p c.ccwerrboundA
  ccwB : Cst p c.ccwerrboundB
  ccwC : Cst p c.ccwerrboundC
  o3dA : Cst p c.o3derrboundA
  o3dB : Cst p c.o3derrboundB
  o3dC : Cst p c.o3derrboundC
  iccA : Cst p c.iccerrboundA
  iccC : Cst p c.iccerrboundC
  ispA : Cst p c.isperrboundA
  ispB : Cst p c.isperrboundB
  ispC : Cst p c.isperrboundC

theorem csts (hp : 13 ≤ p) {c : Consts} (hc : ConstsOk p c) : Csts p c where
  splitter := hc.splitter
  r := by rw [hc.r]; exact_mod_cast cst1 hp (a := 3) (b := 8) (by norm_num) (by norm_num)
  ccwA := by rw [hc.ccwA]; exact_mod_cast cst1 hp (a := 3) (b := 16) (by norm_num) (by norm_num)
  ccwB := by rw [hc.ccwB]; exact_mod_cast cst1 hp (a := 2) (b := 12) (by norm_num) (by norm_num)
  ccwC := by rw [hc.ccwC]; exact_mod_cast cst2 hp (a := 9) (b := 64) (by norm_num) (by norm_num)
  o3dA := by rw [hc.o3dA]; exact_mod_cast cst1 hp (a := 7) (b := 56) (by norm_num) (by norm_num)
  o3dB := by rw [hc.o3dB]; exact_mod_cast cst1 hp (a := 3) (b := 28) (by norm_num) (by norm_num)
  o3dC := by rw [hc.o3dC]; exact_mod_cast cst2 hp (a := 26) (b := 288) (by norm_num) (by norm_num)
  iccA := by rw [hc.iccA]; exact_mod_cast cst1 hp (a := 10) (b := 96) (by norm_num) (by norm_num)
  iccC := by rw [hc.iccC]; exact_mod_cast cst2 hp (a := 44) (b := 576) (by norm_num) (by norm_num)
  ispA := by rw [hc.ispA]; exact_mod_cast cst1 hp (a := 16) (b := 224) (by norm_num) (by norm_num)
  ispB := by rw [hc.ispB]; exact_mod_cast cst1 hp (a := 5) (b := 72) (by norm_num) (by norm_num)
  ispC := by rw [hc.ispC]; exact_mod_cast cst2 hp (a := 71) (b := 1408) (by norm_num) (by norm_num)

/-- The product of a constant and a number. -/
theorem bound_E (H : Rng p rd q m D S) {c x y : ℚ} (hc : Cst p c) (h : E q m d s x y) (hd : d ≤ D) (hs : s ≤ S) : rd (c * x) = rnd p (c * y) :=
  ((G.of H hc h hd).round H hs).1

/-- The bound of the third stage. -/
theorem bound2_E (H : Rng p rd q m D S) {c c' x y x' y' : ℚ} (hc : Cst p c) (hc' : Cst p c') (h : E q m d s x x') (h' : E q m e t y y') (hd : d ≤ D)
    (he : e ≤ D) (hs : s + 1 ≤ S) (ht : t + 1 ≤ S) : rd (rd (c * x) + rd (c' * |y|)) = rnd p (rnd p (c * x') + rnd p (c' * |y'|)) :=
  ((((G.of H hc h hd).round H (by omega)).add ((G.of H hc' h'.abs he).round H (by omega))).round H (by omega)).1

/-! ### Differences of coordinates -/

theorem diff_E (H : Rng p rd q m D S) {a b : ℚ} (ha : B q m 1 0 a) (hb : B q m 1 0 b) (hd : 1 ≤ D) (hs : 5 ≤ S) :
    E q m 1 1 (rd (a - b)) (rnd p (a - b)) := by
  have ha := E.of ha
  have hb := E.of hb
  eb H

theorem tail_E (H : Rng p rd q m D S) {a b : ℚ} (ha : B q m 1 0 a) (hb : B q m 1 0 b) (hd : 1 ≤ D) (hs : 5 ≤ S) :
    E q m 1 5 (twoDiffTail rd a b (rnd p (a - b))) (FP.twoDiffTail p a b (rnd p (a - b))) :=
  twoDiffTail_E H (E.of ha) (E.of hb) (diff_E H ha hb hd hs).refl hd (by omega)

/-! ### The test -/

/-- The coordinates are multiples of `2 ^ q` and at most `2 ^ m`. -/
def P2 (q m : Int) (a : ℚ × ℚ) : Prop := B q m 1 0 a.1 ∧ B q m 1 0 a.2

theorem diff4_X (H : Rng p rd q m D S) {a b c g a' b' c' g' : ℚ} (ha : E q m d s a a') (hb : E q m e t b b') (hc : E q m d s c c') (hg : E q m e t g g')
    (hd : d + e ≤ D) (hs : s + t + 18 ≤ S) : X q m (d + e) (s + t + 18) 4 (diff4 rd (sp p) a b c g) (FP.diff4 p (sp p) a' b' c' g') :=
  ⟨diff4_E H ha hb hc hg hd hs, len4 _ _ _ _⟩

theorem orientAdapt2_E (H : Rng p rd q m D S) (hD : 2 ≤ D) (hS : 60 ≤ S) {c : Consts} (hc : Csts p c) {pa pb pc : ℚ × ℚ} (ha : P2 q m pa) (hb : P2 q m pb)
    (hcc : P2 q m pc) {x x' : ℚ} (hx : E q m 2 9 x x') : 
    Ok (fun v => E q m 2 60 v (FP.orientAdapt2 p c pa pb pc x')) (orientAdapt2 rd c pa pb pc x) := by
  have a1 := diff_E H ha.1 hcc.1 (by omega) (by omega)
  have b1 := diff_E H hb.1 hcc.1 (by omega) (by omega)
  have a2 := diff_E H ha.2 hcc.2 (by omega) (by omega)
  have b2 := diff_E H hb.2 hcc.2 (by omega) (by omega)
  unfold orientAdapt2 FP.orientAdapt2
  simp only [hc.splitter]
  rw [a1.1, b1.1, a2.1, b2.1]
  replace a1 := a1.refl
  replace b1 := b1.refl
  replace a2 := a2.refl
  replace b2 := b2.refl
  have hB := diff4_X H a1 b2 a2 b1 (by omega) (by omega)
  have hdet := estimate_X H 2 hB (by omega) (by omega) (by omega) (by omega)
  rw [hdet.1, bound_E H hc.ccwB hx (by omega) (by omega)]
  replace hdet := hdet.refl
  have ta1 := tail_E H ha.1 hcc.1 (by omega) (by omega)
  have tb1 := tail_E H hb.1 hcc.1 (by omega) (by omega)
  have ta2 := tail_E H ha.2 hcc.2 (by omega) (by omega)
  have tb2 := tail_E H hb.2 hcc.2 (by omega) (by omega)
  rw [ta1.1, tb1.1, ta2.1, tb2.1]
  replace ta1 := ta1.refl
  replace tb1 := tb1.refl
  replace ta2 := ta2.refl
  replace tb2 := tb2.refl
  rw [bound2_E H hc.ccwC hc.r hx hdet (by omega) (by omega) (by omega) (by omega)]
  generalize rnd p (pa.1 - pc.1) = acx at *
  generalize rnd p (pb.1 - pc.1) = bcx at *
  generalize rnd p (pa.2 - pc.2) = acy at *
  generalize rnd p (pb.2 - pc.2) = bcy at *
  generalize FP.twoDiffTail p pa.1 pc.1 acx = acxt at *
  generalize FP.twoDiffTail p pb.1 pc.1 bcx = bcxt at *
  generalize FP.twoDiffTail p pa.2 pc.2 acy = acyt at *
  generalize FP.twoDiffTail p pb.2 pc.2 bcy = bcyt at *
  generalize FP.estimate p (FP.diff4 p (sp p) acx bcy acy bcx) = det at *
  have hcorr : E q m 2 50 (rd (det + rd (rd (rd (acx * bcyt) + rd (bcy * acxt)) - rd (rd (acy * bcxt) + rd (bcx * acyt)))))
      (rnd p (det + rnd p (rnd p (rnd p (acx * bcyt) + rnd p (bcy * acxt)) - rnd p (rnd p (acy * bcxt) + rnd p (bcx * acyt))))) := by eb H
  rw [hcorr.1]
  replace hcorr := hcorr.refl
  split_ifs
  · exact Ok.done (hdet.le (by omega))
  · exact Ok.done (hdet.le (by omega))
  · exact Ok.done (hcorr.le (by omega))
  · refine (fesTo_X H 3 hB (diff4_X H ta1 b2 ta2 b1 (by omega) (by omega)) (by omega) (by omega) (by omega) (by omega) (by omega)).bind fun _ h1 => ?_
    refine (fesTo_X H 4 h1 (diff4_X H a1 tb2 a2 tb1 (by omega) (by omega)) (by omega) (by omega) (by omega) (by omega) (by omega)).bind fun _ h2 => ?_
    refine (fesTo_X H 4 h2 (diff4_X H ta1 tb2 ta2 tb1 (by omega) (by omega)) (by omega) (by omega) (by omega) (by omega) (by omega)).bind fun _ h3 => ?_
    exact Ok.pure ((top_E h3.1).le (by omega))

theorem orient2_E (H : Rng p rd q m D S) (hD : 2 ≤ D) (hS : 60 ≤ S) {c : Consts} (hc : Csts p c) {pa pb pc : ℚ × ℚ} (ha : P2 q m pa) (hb : P2 q m pb)
    (hcc : P2 q m pc) : Ok (fun v => E q m 2 60 v (FP.orient2 p c pa pb pc)) (orient2 rd c pa pb pc) := by
  have a1 := diff_E H ha.1 hcc.1 (by omega) (by omega)
  have b1 := diff_E H hb.1 hcc.1 (by omega) (by omega)
  have a2 := diff_E H ha.2 hcc.2 (by omega) (by omega)
  have b2 := diff_E H hb.2 hcc.2 (by omega) (by omega)
  have hl : E q m 2 2 (rd (rd (pa.1 - pc.1) * rd (pb.2 - pc.2))) (rnd p (rnd p (pa.1 - pc.1) * rnd p (pb.2 - pc.2))) := by eb H
  have hr : E q m 2 2 (rd (rd (pa.2 - pc.2) * rd (pb.1 - pc.1))) (rnd p (rnd p (pa.2 - pc.2) * rnd p (pb.1 - pc.1))) := by eb H
  unfold orient2 FP.orient2
  simp only []
  rw [hl.1, hr.1]
  replace hl := hl.refl
  replace hr := hr.refl
  generalize rnd p (rnd p (pa.1 - pc.1) * rnd p (pb.2 - pc.2)) = l at *
  generalize rnd p (rnd p (pa.2 - pc.2) * rnd p (pb.1 - pc.1)) = r at *
  have hdet : E q m 2 3 (rd (l - r)) (rnd p (l - r)) := by eb H
  have hs1 : E q m 2 9 (rd (l + r)) (rnd p (l + r)) := by eb H
  have hs2 : E q m 2 9 (rd (-l - r)) (rnd p (-l - r)) := by eb H
  rw [hdet.1, bound_E H hc.ccwA hs1 (by omega) (by omega), bound_E H hc.ccwA hs2 (by omega) (by omega)]
  replace hdet := hdet.refl
  split_ifs
  · exact Ok.done (hdet.le (by omega))
  · exact Ok.done (hdet.le (by omega))
  · exact orientAdapt2_E H hD hS hc ha hb hcc hs1
  · exact Ok.done (hdet.le (by omega))
  · exact Ok.done (hdet.le (by omega))
  · exact orientAdapt2_E H hD hS hc ha hb hcc hs2
  · exact Ok.done (hdet.le (by omega))

end FPM
end Verif
