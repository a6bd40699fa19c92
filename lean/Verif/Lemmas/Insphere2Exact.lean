import Verif.Model.Insphere2
import Verif.Lemmas.Estimate
import Verif.Lemmas.Orient2

/-!
# Exact stage of the incircle test
-/
namespace Verif
namespace FP

theorem twoTwoSum_eq (p : Nat) (a1 a0 b1 b0 : ℚ) : twoTwoSum p a1 a0 b1 b0 = twoTwoDiff p a1 a0 (-b1) (-b0) := by
  simp only [twoTwoSum, twoTwoDiff, twoOneSum, twoOneDiff, twoDiff_eq_twoSum, neg_neg]

theorem twoTwoSum_ok {p : Nat} (hp : 2 ≤ p) {a1 a0 b1 b0 : ℚ} (ra1 : Rep p a1) (ra0 : Rep p a0) (rb1 : Rep p b1) (rb0 : Rep p b0)
    (ha : ∀ k, IsLsb k a1 → |a0| ≤ 2 ^ k / 2) (hb : ∀ k, IsLsb k b1 → |b0| ≤ 2 ^ k / 2) :
    Four p (a1 + a0 + (b1 + b0)) (twoTwoSum p a1 a0 b1 b0) := by
  rw [twoTwoSum_eq]
  have := twoTwoDiff_ok hp ra1 ra0 rb1.neg rb0.neg ha (fun k hk => by rw [abs_neg]; exact hb k (by simpa using hk.neg))
  convert this using 1
  ring

theorem sum4_ok {p : Nat} (hp : 11 ≤ p) {a b c d : ℚ} (ha : Rep p a) (hb : Rep p b) (hc : Rep p c) (hd : Rep p d) :
    Expn p (a * b + c * d) (sum4 p (2 ^ half p + 1) a b c d) := by
  have hp0 : 0 < p := by omega
  have h := twoTwoSum_ok (show 2 ≤ p by omega) (rep_rnd hp0 (a * b)) (prod_err_rep hp0 ha hb) (rep_rnd hp0 (c * d))
    (prod_err_rep hp0 hc hd) (fun k hk => rnd_lsb hk) (fun k hk => rnd_lsb hk)
  have e : sum4 p (2 ^ half p + 1) a b c d = twoTwoSum p (rnd p (a * b)) (a * b - rnd p (a * b)) (rnd p (c * d)) (c * d - rnd p (c * d)) := by
    simp only [sum4, twoProduct_eq (show 4 ≤ p by omega) ha hb, twoProduct_eq (show 4 ≤ p by omega) hc hd]
  rw [e]
  convert h.expn hp0 using 1
  ring

theorem squares4_ok {p : Nat} (hp : 11 ≤ p) {a b : ℚ} (ha : Rep p a) (hb : Rep p b) :
    Expn p (a * a + b * b) (squares4 p (2 ^ half p + 1) a b) := by
  have hp0 : 0 < p := by omega
  have h := twoTwoSum_ok (show 2 ≤ p by omega) (rep_rnd hp0 (a * a)) (prod_err_rep hp0 ha ha) (rep_rnd hp0 (b * b))
    (prod_err_rep hp0 hb hb) (fun k hk => rnd_lsb hk) (fun k hk => rnd_lsb hk)
  have e : squares4 p (2 ^ half p + 1) a b = twoTwoSum p (rnd p (a * a)) (a * a - rnd p (a * a)) (rnd p (b * b)) (b * b - rnd p (b * b)) := by
    simp only [squares4, square_eq (show 4 ≤ p by omega) ha, square_eq (show 4 ≤ p by omega) hb]
  rw [e]
  convert h.expn hp0 using 1
  ring

/-- `X`, `Y` are the exact coordinates. -/
structure SideOk (p : Nat) (a : Side) (X Y : ℚ) : Prop where
  rx : Rep p a.x
  ry : Rep p a.y
  rxt : Rep p a.xt
  ryt : Rep p a.yt
  eX : X = a.x + a.xt
  eY : Y = a.y + a.yt
  bx : |a.xt| ≤ eps p * |a.x|
  by_ : |a.yt| ≤ eps p * |a.y|

theorem side_ok {p : Nat} (hp : 2 ≤ p) {pa pd : ℚ × ℚ} (a1 : Rep p pa.1) (a2 : Rep p pa.2) (d1 : Rep p pd.1) (d2 : Rep p pd.2) :
    SideOk p (side p pa pd) (pa.1 - pd.1) (pa.2 - pd.2) := by
  have hp0 : 0 < p := by omega
  have e : side p pa pd = ⟨rnd p (pa.1 - pd.1), rnd p (pa.2 - pd.2), pa.1 - pd.1 - rnd p (pa.1 - pd.1), pa.2 - pd.2 - rnd p (pa.2 - pd.2)⟩ := by
    simp only [side, twoDiffTail_eq hp a1 d1, twoDiffTail_eq hp a2 d2]
  rw [e]
  exact ⟨rep_rnd hp0 _, rep_rnd hp0 _, diff_rep hp0 a1 d1, diff_rep hp0 a2 d2, by simp, by simp, tail_le hp0 _, tail_le hp0 _⟩

theorem rep_two {p : Nat} {x : ℚ} (h : Rep p x) : Rep p (2 * x) := by
  have := h.scale 1
  rwa [zpow_one, mul_comm] at this

theorem rnd_two {p : Nat} {x : ℚ} (h : Rep p x) : rnd p (2 * x) = 2 * x := rnd_rep (rep_two h)

theorem scale2_ok {p : Nat} (hp : 11 ≤ p) {e : List ℚ} {V s t : ℚ} (he : Expn p V e) (hs : Rep p s) (ht : Rep p t) :
    ExpnZ p (V * s * t) (scale p (2 ^ half p + 1) (scale p (2 ^ half p + 1) e s) t) :=
  scale_ok hp (scale_ok hp he hs).toExpn ht

theorem ExpnZ.cast {p : Nat} {V W : ℚ} {l : List ℚ} (h : ExpnZ p V l) (e : V = W) : ExpnZ p W l := e ▸ h

theorem Expn.cast {p : Nat} {V W : ℚ} {l : List ℚ} (h : Expn p V l) (e : V = W) : Expn p W l := e ▸ h

theorem Expn.zero (p : Nat) : Expn p 0 [0] :=
  ⟨⟨fun k _ => by have := two_zpow_pos k; linarith, trivial⟩, by simpa using Rep.zero p, by simp, by simp⟩

theorem cross4_ok {p : Nat} (hp : 11 ≤ p) {b c : Side} {X Y X' Y' : ℚ} (hb : SideOk p b X Y) (hc : SideOk p c X' Y') :
    Expn p (b.x * c.y - c.x * b.y) (cross4 p (2 ^ half p + 1) b c) :=
  (diff4_ok (show 4 ≤ p by omega) hb.rx hc.ry hc.rx hb.ry).expn (by omega)

theorem liftDet_ok {p : Nat} (hp : 11 ≤ p) {a : Side} {X Y V : ℚ} {bc : List ℚ} (ha : SideOk p a X Y) (h : Expn p V bc) :
    ExpnZ p ((a.x * a.x + a.y * a.y) * V) (liftDet p (2 ^ half p + 1) a bc) :=
  (fes_ok (show 5 ≤ p by omega) (scale2_ok hp h ha.rx ha.rx).toExpn (scale2_ok hp h ha.ry ha.ry).toExpn).cast (by ring)

theorem inexact_false {a : Side} (h : a.inexact = false) : a.xt = 0 ∧ a.yt = 0 := by
  simpa [Side.inexact, not_or] using h

theorem lift4_ok {p : Nat} (hp : 11 ≤ p) {a : Side} {X Y : ℚ} (ha : SideOk p a X Y) {b c : Side} (h : b.inexact = true ∨ c.inexact = true) :
    Expn p (a.x * a.x + a.y * a.y) (lift4 p (2 ^ half p + 1) a b c) := by
  have : (b.inexact || c.inexact) = true := by rcases h with h | h <;> simp [h]
  rw [lift4, if_pos this]
  exact squares4_ok hp ha.rx ha.ry

section
variable {p : Nat} (hp : 11 ≤ p) {a b c : Side} {Xa Ya Xb Yb Xc Yc : ℚ} (ha : SideOk p a Xa Ya) (hb : SideOk p b Xb Yb) (hc : SideOk p c Xc Yc)

include hp ha hb hc

theorem firstX_ok {bc bb cc fin : List ℚ} {V BC BB CC : ℚ} (hbc : Expn p BC bc) (hbb : a.inexact = true → Expn p BB bb)
    (hcc : a.inexact = true → Expn p CC cc) (hf : ExpnZ p V fin) :
    ExpnZ p (V + a.xt * (BC * (2 * a.x) + CC * b.y - BB * c.y)) (firstX p (2 ^ half p + 1) a b c bc bb cc fin) := by
  have hp5 : 5 ≤ p := by omega
  unfold firstX
  split_ifs with h
  · have hi : a.inexact = true := by simp [Side.inexact, h]
    dsimp only
    rw [rnd_two ha.rx]
    exact (fes_ok hp5 hf.toExpn (fes_ok hp5 (scale2_ok hp (hbb hi) ha.rxt hc.ry.neg).toExpn (fes_ok hp5
      (scale2_ok hp hbc ha.rxt (rep_two ha.rx)).toExpn (scale2_ok hp (hcc hi) ha.rxt hb.ry).toExpn).toExpn).toExpn).cast (by ring)
  · rw [not_not] at h
    exact hf.cast (by rw [h]; ring)

theorem firstY_ok {bc bb cc fin : List ℚ} {V BC BB CC : ℚ} (hbc : Expn p BC bc) (hbb : a.inexact = true → Expn p BB bb)
    (hcc : a.inexact = true → Expn p CC cc) (hf : ExpnZ p V fin) :
    ExpnZ p (V + a.yt * (BC * (2 * a.y) + BB * c.x - CC * b.x)) (firstY p (2 ^ half p + 1) a b c bc bb cc fin) := by
  have hp5 : 5 ≤ p := by omega
  unfold firstY
  split_ifs with h
  · have hi : a.inexact = true := by simp [Side.inexact, h]
    dsimp only
    rw [rnd_two ha.ry]
    exact (fes_ok hp5 hf.toExpn (fes_ok hp5 (scale2_ok hp (hcc hi) ha.ryt hb.rx.neg).toExpn (fes_ok hp5
      (scale2_ok hp hbc ha.ryt (rep_two ha.ry)).toExpn (scale2_ok hp (hbb hi) ha.ryt hc.rx).toExpn).toExpn).toExpn).cast (by ring)
  · rw [not_not] at h
    exact hf.cast (by rw [h]; ring)

omit ha in
theorem crossT_ok : Expn p (b.xt * c.y + b.x * c.yt - c.xt * b.y - c.x * b.yt) (crossT p (2 ^ half p + 1) b c) := by
  have hp5 : 5 ≤ p := by omega
  unfold crossT
  split_ifs with h
  · exact (fes_ok hp5 (sum4_ok hp hb.rxt hc.ry hb.rx hc.ryt) (sum4_ok hp hc.rxt hb.ry.neg hc.rx hb.ryt.neg)).toExpn.cast (by ring)
  · simp only [Bool.or_eq_true, not_or, Bool.not_eq_true] at h
    obtain ⟨h1, h2⟩ := inexact_false h.1
    obtain ⟨h3, h4⟩ := inexact_false h.2
    exact (Expn.zero p).cast (by rw [h1, h2, h3, h4]; ring)

omit ha in
theorem crossTT_ok : Expn p (b.xt * c.yt - c.xt * b.yt) (crossTT p (2 ^ half p + 1) b c) := by
  unfold crossTT
  split_ifs with h
  · exact (diff4_ok (show 4 ≤ p by omega) hb.rxt hc.ryt hc.rxt hb.ryt).expn (by omega)
  · simp only [Bool.or_eq_true, not_or, Bool.not_eq_true] at h
    obtain ⟨h1, h2⟩ := inexact_false h.1
    obtain ⟨h3, h4⟩ := inexact_false h.2
    exact (Expn.zero p).cast (by rw [h1, h2, h3, h4]; ring)

omit ha hb hc in
theorem secondXY_ok {s t V W : ℚ} {cc fin : List ℚ} (hs : Rep p s) (ht : Rep p t) (hcc : Expn p W cc) (hf : ExpnZ p V fin) :
    ExpnZ p (V + W * s * t) (secondXY p (2 ^ half p + 1) s t cc fin) := by
  unfold secondXY
  split_ifs with h
  · exact fes_ok (by omega) hf.toExpn (scale2_ok hp hcc hs ht).toExpn
  · rw [not_not] at h
    exact hf.cast (by rw [h]; ring)

omit ha hb hc in
theorem secondPre_ok {x t V BC BCT : ℚ} {bc bct fin : List ℚ} (hx : Rep p x) (ht : Rep p t) (hbc : Expn p BC bc) (hbct : Expn p BCT bct)
    (hf : ExpnZ p V fin) :
    ExpnZ p (V + (BC * t * t + BCT * t * (2 * x))) (secondPre p (2 ^ half p + 1) x t bc bct fin) := by
  have hp5 : 5 ≤ p := by omega
  unfold secondPre
  rw [rnd_two hx]
  exact fes_ok hp5 hf.toExpn (fes_ok hp5 (scale2_ok hp hbc ht ht).toExpn (scale2_ok hp hbct ht (rep_two hx)).toExpn).toExpn

omit ha hb hc in
theorem secondPost_ok {x t V BCT BCTT : ℚ} {bct bctt fin : List ℚ} (hx : Rep p x) (ht : Rep p t) (hbct : Expn p BCT bct)
    (hbctt : Expn p BCTT bctt) (hf : ExpnZ p V fin) :
    ExpnZ p (V + (BCT * t * t + (BCTT * t * (2 * x) + BCTT * t * t))) (secondPost p (2 ^ half p + 1) x t bct bctt fin) := by
  have hp5 : 5 ≤ p := by omega
  unfold secondPost
  dsimp only
  rw [rnd_two hx]
  exact fes_ok hp5 hf.toExpn (fes_ok hp5 (scale2_ok hp hbct ht ht).toExpn (fes_ok hp5 (scale2_ok hp hbctt ht (rep_two hx)).toExpn
    (scale2_ok hp hbctt ht ht).toExpn).toExpn).toExpn

theorem second_ok {bc bb cc fin : List ℚ} {V BC BB CC BCT BCTT : ℚ} (hbc : Expn p BC bc) (hbb : a.inexact = true → Expn p BB bb)
    (hcc : a.inexact = true → Expn p CC cc) (eT : BCT = b.xt * c.y + b.x * c.yt - c.xt * b.y - c.x * b.yt)
    (eTT : BCTT = b.xt * c.yt - c.xt * b.yt) (hf : ExpnZ p V fin) :
    ExpnZ p (V + (a.xt * (BC * a.xt + BCT * (2 * a.x) + CC * b.yt - BB * c.yt + BCT * a.xt + BCTT * (2 * a.x + a.xt)) +
      a.yt * (BC * a.yt + BCT * (2 * a.y) + BCT * a.yt + BCTT * (2 * a.y + a.yt)))) (second p (2 ^ half p + 1) a b c bc bb cc fin) := by
  have hT : Expn p BCT (crossT p (2 ^ half p + 1) b c) := (crossT_ok hp hb hc).cast eT.symm
  have hTT : Expn p BCTT (crossTT p (2 ^ half p + 1) b c) := (crossTT_ok hp hb hc).cast eTT.symm
  unfold second
  by_cases hi : a.inexact = true
  · rw [if_pos hi]
    dsimp only
    have h1 : ExpnZ p (V + a.xt * (BC * a.xt + BCT * (2 * a.x) + CC * b.yt - BB * c.yt + BCT * a.xt + BCTT * (2 * a.x + a.xt)))
        (if a.xt ≠ 0 then secondPost p (2 ^ half p + 1) a.x a.xt (crossT p (2 ^ half p + 1) b c) (crossTT p (2 ^ half p + 1) b c)
          (secondXY p (2 ^ half p + 1) (-a.xt) c.yt bb (secondXY p (2 ^ half p + 1) a.xt b.yt cc
            (secondPre p (2 ^ half p + 1) a.x a.xt bc (crossT p (2 ^ half p + 1) b c) fin))) else fin) := by
      split_ifs with h
      · exact (secondPost_ok hp ha.rx ha.rxt hT hTT (secondXY_ok hp ha.rxt.neg hc.ryt (hbb hi) (secondXY_ok hp ha.rxt hb.ryt (hcc hi)
          (secondPre_ok hp ha.rx ha.rxt hbc hT hf)))).cast (by ring)
      · rw [not_not] at h
        exact hf.cast (by rw [h]; ring)
    set fin' := (if a.xt ≠ 0 then secondPost p (2 ^ half p + 1) a.x a.xt (crossT p (2 ^ half p + 1) b c) (crossTT p (2 ^ half p + 1) b c)
          (secondXY p (2 ^ half p + 1) (-a.xt) c.yt bb (secondXY p (2 ^ half p + 1) a.xt b.yt cc
            (secondPre p (2 ^ half p + 1) a.x a.xt bc (crossT p (2 ^ half p + 1) b c) fin))) else fin)
    split_ifs with h
    · exact (secondPost_ok hp ha.ry ha.ryt hT hTT (secondPre_ok hp ha.ry ha.ryt hbc hT h1)).cast (by ring)
    · rw [not_not] at h
      exact h1.cast (by rw [h]; ring)
  · rw [if_neg hi]
    obtain ⟨h1, h2⟩ := inexact_false (by simpa using hi)
    exact hf.cast (by rw [h1, h2]; ring)

/-- The last stage yields an expansion of the determinant. -/
theorem insphereLast2_ok {fin : List ℚ}
    (hf : ExpnZ p ((a.x * a.x + a.y * a.y) * (b.x * c.y - c.x * b.y) + (b.x * b.x + b.y * b.y) * (c.x * a.y - a.x * c.y) +
      (c.x * c.x + c.y * c.y) * (a.x * b.y - b.x * a.y)) fin) :
    ExpnZ p ((Xa * Xa + Ya * Ya) * (Xb * Yc - Xc * Yb) + (Xb * Xb + Yb * Yb) * (Xc * Ya - Xa * Yc) +
      (Xc * Xc + Yc * Yc) * (Xa * Yb - Xb * Ya))
      (insphereLast2 p (2 ^ half p + 1) a b c (cross4 p (2 ^ half p + 1) b c) (cross4 p (2 ^ half p + 1) c a)
        (cross4 p (2 ^ half p + 1) a b) fin) := by
  have bc := cross4_ok hp hb hc
  have ca := cross4_ok hp hc ha
  have ab := cross4_ok hp ha hb
  have laB : b.inexact = true → _ := fun h => lift4_ok hp ha (b := b) (c := c) (Or.inl h)
  have laC : c.inexact = true → _ := fun h => lift4_ok hp ha (b := b) (c := c) (Or.inr h)
  have lbC : c.inexact = true → _ := fun h => lift4_ok hp hb (b := c) (c := a) (Or.inl h)
  have lbA : a.inexact = true → _ := fun h => lift4_ok hp hb (b := c) (c := a) (Or.inr h)
  have lcA : a.inexact = true → _ := fun h => lift4_ok hp hc (b := a) (c := b) (Or.inl h)
  have lcB : b.inexact = true → _ := fun h => lift4_ok hp hc (b := a) (c := b) (Or.inr h)
  unfold insphereLast2
  dsimp only
  have f1 := firstX_ok hp ha hb hc bc lbA lcA hf
  have f2 := firstY_ok hp ha hb hc bc lbA lcA f1
  have f3 := firstX_ok hp hb hc ha ca lcB laB f2
  have f4 := firstY_ok hp hb hc ha ca lcB laB f3
  have f5 := firstX_ok hp hc ha hb ab laC lbC f4
  have f6 := firstY_ok hp hc ha hb ab laC lbC f5
  have s1 := second_ok hp ha hb hc bc lbA lcA rfl rfl f6
  have s2 := second_ok hp hb hc ha ca lcB laB rfl rfl s1
  have s3 := second_ok hp hc ha hb ab laC lbC rfl rfl s2
  refine s3.cast ?_
  rw [ha.eX, ha.eY, hb.eX, hb.eY, hc.eX, hc.eY]
  ring
end

end FP
end Verif
