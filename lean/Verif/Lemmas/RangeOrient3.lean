import Verif.Lemmas.RangeInsphere2

/-!
# The orientation test in space with bounded exponents
-/
namespace Verif
namespace FPM
open FP (Consts Side Side3 emit pickE finish top rnd Mul Rep ConstsOk)

variable {p : Nat} {rd : ℚ → ℚ} {q m : Int} {D S : Nat} {d e s t : Nat}

/-- The coordinates are multiples of `2 ^ q` and at most `2 ^ m`. -/
def P3 (q m : Int) (a : ℚ × ℚ × ℚ) : Prop := B q m 1 0 a.1 ∧ B q m 1 0 a.2.1 ∧ B q m 1 0 a.2.2

/-- The coordinates of a point relative to another one. -/
structure SB3 (q m : Int) (a : Side3) : Prop extends SB q m a.toSide where
  z : E q m 1 1 a.z a.z
  zt : E q m 1 5 a.zt a.zt

theorem side3_E (H : Rng p rd q m D S) {pa pd : ℚ × ℚ × ℚ} (ha : P3 q m pa) (hd : P3 q m pd) (hD : 1 ≤ D) (hS : 5 ≤ S) :
    side3 rd pa pd = FP.side3 p pa pd ∧ SB3 q m (FP.side3 p pa pd) := by
  obtain ⟨h1, h2⟩ := side_E (pa := (pa.1, pa.2.1)) (pd := (pd.1, pd.2.1)) H ⟨ha.1, ha.2.1⟩ ⟨hd.1, hd.2.1⟩ hD hS
  have h3 := diff_E H ha.2.2 hd.2.2 hD hS
  have h4 := tail_E H ha.2.2 hd.2.2 hD hS
  refine ⟨?_, h2, h3.refl, h4.refl⟩
  simp only [side3, FP.side3]
  rw [h1, h3.1, h4.1]

section
variable {a b c : Side3} {f fin bct f' fin' bct' : List ℚ} {n l k : Nat}

theorem pair2_X (H : Rng p rd q m D S) {x y x' y' : ℚ} (hx : E q m d s x x') (hy : E q m e t y y') (hd : d + e ≤ D) (hs : s + t + 6 ≤ S) :
    X q m (d + e) (s + t + 6) 4 (pair2 rd (sp p) x y) (FP.pair2 p (sp p) x' y') :=
  ⟨pair2_E H hx hy hd hs, by simp [FP.pair2], by simp [FP.pair2]⟩

theorem tailL_X (H : Rng p rd q m D S) (hD : 3 ≤ D) (hS : 350 ≤ S) (ha : SB3 q m a) (hb : SB3 q m b) :
    X q m 2 24 4 (tailL rd (sp p) a b) (FP.tailL p (sp p) a b) := by
  unfold tailL FP.tailL
  split_ifs
  · exact zero_X (by omega)
  · exact (pair2_X H ha.yt.neg hb.x (by omega) (by omega)).mono (by omega) (by omega)
  · exact (pair2_X H ha.xt hb.y (by omega) (by omega)).mono (by omega) (by omega)
  · exact diff4_X H ha.xt hb.y ha.yt hb.x (by omega) (by omega)

theorem tailR_X (H : Rng p rd q m D S) (hD : 3 ≤ D) (hS : 350 ≤ S) (ha : SB3 q m a) (hb : SB3 q m b) :
    X q m 2 24 4 (tailR rd (sp p) a b) (FP.tailR p (sp p) a b) := by
  unfold tailR FP.tailR
  split_ifs
  · exact zero_X (by omega)
  · exact (pair2_X H ha.yt hb.x (by omega) (by omega)).mono (by omega) (by omega)
  · exact (pair2_X H ha.xt.neg hb.y (by omega) (by omega)).mono (by omega) (by omega)
  · exact diff4_X H ha.yt hb.x ha.xt hb.y (by omega) (by omega)

theorem corr3_E (H : Rng p rd q m D S) (hD : 3 ≤ D) (hS : 350 ≤ S) (ha : SB3 q m a) (hb : SB3 q m b) (hc : SB3 q m c) :
    E q m 3 30 (corr3 rd a b c) (FP.corr3 p a b c) := by
  obtain ⟨⟨h1, h2, h3, h4⟩, h5, h6⟩ := ha
  obtain ⟨⟨g1, g2, g3, g4⟩, g5, g6⟩ := hb
  obtain ⟨⟨i1, i2, i3, i4⟩, i5, i6⟩ := hc
  unfold corr3 FP.corr3
  eb H

theorem addScaled_X (H : Rng p rd q m D S) (hD : 3 ≤ D) (hS : 350 ≤ S) {b : ℚ} (hb : E q m 1 5 b b) (he : X q m 2 34 n f f') (hn : n ≤ 8) (hk : 2 * n ≤ k)
    (hf : X q m 3 s l fin fin') (hl : l + 2 * n ≤ 192) (hs : 54 ≤ s) (hs' : s + 13 ≤ S) :
    Ok (fun v => X q m 3 (s + 13) (l + 2 * n) v (FP.addScaled p (sp p) f' b fin')) (addScaled rd (sp p) k f b fin) := by
  unfold addScaled FP.addScaled
  split_ifs
  · refine (scaleTo_X H 4 he hb (by omega) (by omega) (by omega) (by omega) (by omega)).bind fun _ h1 => ?_
    exact (fesTo_X H 8 hf h1 (by omega) (by omega) (by omega) (by omega) (by omega)).mono fun _ h => h.mono (by omega) (by omega)
  · exact Ok.done (hf.mono (by omega) (by omega))

theorem addTails_X (H : Rng p rd q m D S) (hD : 3 ≤ D) (hS : 350 ≤ S) {x y z zt : ℚ} (hx : E q m 1 5 x x) (hy : E q m 1 5 y y) (hz : E q m 1 1 z z)
    (hzt : E q m 1 5 zt zt) (hf : X q m 3 s l fin fin') (hl : l + 8 ≤ 192) (hs : 54 ≤ s) (hs' : s + 26 ≤ S) :
    Ok (fun v => X q m 3 (s + 26) (l + 8) v (FP.addTails p (sp p) x y z zt fin')) (addTails rd (sp p) x y z zt fin) := by
  unfold addTails FP.addTails
  obtain ⟨r1, r2⟩ := twoProduct_E H hx hy (by omega) (by omega)
  have p1 : X q m 3 28 4 _ _ := ⟨twoOneProduct_E H (r1.le (by omega)) r2 hz (by omega) (by omega), len4 _ _ _ _⟩
  have p2 : X q m 3 32 4 _ _ := ⟨twoOneProduct_E H (r1.le (by omega)) r2 hzt (by omega) (by omega), len4 _ _ _ _⟩
  by_cases h0 : y ≠ 0
  · rw [if_pos h0, if_pos h0]
    refine (fesTo_X H 8 hf p1 (by omega) (by omega) (by omega) (by omega) (by omega)).bind fun _ h1 => ?_
    simp only []
    split_ifs
    · exact (fesTo_X H 8 h1 p2 (by omega) (by omega) (by omega) (by omega) (by omega)).mono fun _ h => h.mono (by omega) (by omega)
    · exact Ok.done (h1.mono (by omega) (by omega))
  · rw [if_neg h0, if_neg h0]
    exact Ok.done (hf.mono (by omega) (by omega))

theorem tails3_X (H : Rng p rd q m D S) (hD : 3 ≤ D) (hS : 350 ≤ S) (ha : SB3 q m a) (hb : SB3 q m b) (hc : SB3 q m c)
    (hf : X q m 3 s l fin fin') (hl : l + 16 ≤ 192) (hs : 54 ≤ s) (hs' : s + 52 ≤ S) :
    Ok (fun v => X q m 3 (s + 52) (l + 16) v (FP.tails3 p (sp p) a b c fin')) (tails3 rd (sp p) a b c fin) := by
  unfold tails3 FP.tails3
  split_ifs
  · refine (addTails_X H hD hS ha.xt hb.yt hc.z hc.zt hf (by omega) (by omega) (by omega)).bind fun _ h1 => ?_
    exact (addTails_X H hD hS ha.xt.neg hc.yt hb.z hb.zt h1 (by omega) (by omega) (by omega)).mono fun _ h => h.mono (by omega) (by omega)
  · exact Ok.done (hf.mono (by omega) (by omega))

end

theorem orientLast3_X (H : Rng p rd q m D S) (hD : 3 ≤ D) (hS : 350 ≤ S) {a b c : Side3} (ha : SB3 q m a) (hb : SB3 q m b) (hc : SB3 q m c)
    {bc ca ab fin bc' ca' ab' fin' : List ℚ} (h1 : X q m 2 20 4 bc bc') (h2 : X q m 2 20 4 ca ca') (h3 : X q m 2 20 4 ab ab')
    (hf : X q m 3 54 24 fin fin') :
    Ok (fun v => X q m 3 330 192 v (FP.orientLast3 p (sp p) a b c bc' ca' ab' fin')) (orientLast3 rd (sp p) a b c bc ca ab fin) := by
  unfold orientLast3 FP.orientLast3
  have h1' := h1.mono (show 20 ≤ 34 by omega) le_rfl
  have h2' := h2.mono (show 20 ≤ 34 by omega) le_rfl
  have h3' := h3.mono (show 20 ≤ 34 by omega) le_rfl
  refine (fesTo_X H 3 (tailL_X H hD hS hb hc) (tailR_X H hD hS hc hb) (by omega) (by omega) (by omega) (by omega) (by omega)).bind fun _ t1 => ?_
  refine (scaleTo_X H 4 t1 ha.z (by omega) (by omega) (by omega) (by omega) (by omega)).bind fun _ w1 => ?_
  refine (fesTo_X H 8 hf w1 (by omega) (by omega) (by omega) (by omega) (by omega)).bind fun _ f1 => ?_
  refine (fesTo_X H 3 (tailL_X H hD hS hc ha) (tailR_X H hD hS ha hc) (by omega) (by omega) (by omega) (by omega) (by omega)).bind fun _ t2 => ?_
  refine (scaleTo_X H 4 t2 hb.z (by omega) (by omega) (by omega) (by omega) (by omega)).bind fun _ w2 => ?_
  refine (fesTo_X H 8 f1 w2 (by omega) (by omega) (by omega) (by omega) (by omega)).bind fun _ f2 => ?_
  refine (fesTo_X H 3 (tailL_X H hD hS ha hb) (tailR_X H hD hS hb ha) (by omega) (by omega) (by omega) (by omega) (by omega)).bind fun _ t3 => ?_
  refine (scaleTo_X H 4 t3 hc.z (by omega) (by omega) (by omega) (by omega) (by omega)).bind fun _ w3 => ?_
  refine (fesTo_X H 8 f2 w3 (by omega) (by omega) (by omega) (by omega) (by omega)).bind fun _ f3 => ?_
  replace f3 := f3.mono (show _ ≤ 93 by omega) le_rfl
  refine (addScaled_X H hD hS ha.zt h1' (by omega) (by omega) f3 (by omega) (by omega) (by omega)).bind fun _ f4 => ?_
  refine (addScaled_X H hD hS hb.zt h2' (by omega) (by omega) f4 (by omega) (by omega) (by omega)).bind fun _ f5 => ?_
  refine (addScaled_X H hD hS hc.zt h3' (by omega) (by omega) f5 (by omega) (by omega) (by omega)).bind fun _ f6 => ?_
  refine (tails3_X H hD hS ha hb hc f6 (by omega) (by omega) (by omega)).bind fun _ f7 => ?_
  refine (tails3_X H hD hS hb hc ha f7 (by omega) (by omega) (by omega)).bind fun _ f8 => ?_
  refine (tails3_X H hD hS hc ha hb f8 (by omega) (by omega) (by omega)).bind fun _ f9 => ?_
  refine (addScaled_X H hD hS ha.zt (t1.mono (by omega) (by omega)) le_rfl (by omega) f9 (by omega) (by omega) (by omega)).bind fun _ f10 => ?_
  refine (addScaled_X H hD hS hb.zt (t2.mono (by omega) (by omega)) le_rfl (by omega) f10 (by omega) (by omega) (by omega)).bind fun _ f11 => ?_
  exact (addScaled_X H hD hS hc.zt (t3.mono (by omega) (by omega)) le_rfl (by omega) f11 (by omega) (by omega) (by omega)).mono
    fun _ h => h.mono (by omega) (by omega)

theorem orientAdapt3_E (H : Rng p rd q m D S) (hD : 3 ≤ D) (hS : 350 ≤ S) {k : Consts} (hk : Csts p k) {pa pb pc pd : ℚ × ℚ × ℚ} (ha : P3 q m pa)
    (hb : P3 q m pb) (hc : P3 q m pc) (hd : P3 q m pd) {x x' : ℚ} (hx : E q m 3 20 x x') :
    Ok (fun v => E q m 3 330 v (FP.orientAdapt3 p k pa pb pc pd x')) (orientAdapt3 rd k pa pb pc pd x) := by
  obtain ⟨ea, sa⟩ := side3_E H ha hd (by omega) (by omega)
  obtain ⟨eb, sb⟩ := side3_E H hb hd (by omega) (by omega)
  obtain ⟨ec, sc⟩ := side3_E H hc hd (by omega) (by omega)
  unfold orientAdapt3 FP.orientAdapt3
  simp only [hk.splitter, ea, eb, ec]
  generalize FP.side3 p pa pd = a at *
  generalize FP.side3 p pb pd = b at *
  generalize FP.side3 p pc pd = c at *
  have hbc := cross4_X (rd := rd) H sb.toSB sc.toSB (by omega) (by omega)
  have hca := cross4_X (rd := rd) H sc.toSB sa.toSB (by omega) (by omega)
  have hab := cross4_X (rd := rd) H sa.toSB sb.toSB (by omega) (by omega)
  refine (scaleTo_X H 3 hbc sa.z (by omega) (by omega) (by omega) (by omega) (by omega)).bind fun _ h1 => ?_
  refine (scaleTo_X H 3 hca sb.z (by omega) (by omega) (by omega) (by omega) (by omega)).bind fun _ h2 => ?_
  refine (scaleTo_X H 3 hab sc.z (by omega) (by omega) (by omega) (by omega) (by omega)).bind fun _ h3 => ?_
  refine (fesTo_X H 4 h1 h2 (by omega) (by omega) (by omega) (by omega) (by omega)).bind fun _ h4 => ?_
  refine (fesTo_X H 5 h4 h3 (by omega) (by omega) (by omega) (by omega) (by omega)).bind fun fin1 h5 => ?_
  have hdet := estimate_X H 5 h5 (by omega) (by omega) (by omega) (by omega)
  have c1 := corr3_E (rd := rd) H hD hS sa sb sc
  have c2 := corr3_E (rd := rd) H hD hS sb sc sa
  have c3 := corr3_E (rd := rd) H hD hS sc sa sb
  rw [hdet.1, bound_E H hk.o3dB hx (by omega) (by omega), c1.1, c2.1, c3.1,
    bound2_E H hk.o3dC hk.r hx hdet.refl (by omega) (by omega) (by omega) (by omega)]
  replace hdet := hdet.refl.le (show _ ≤ 60 by omega)
  replace c1 := c1.refl
  replace c2 := c2.refl
  replace c3 := c3.refl
  have hcorr : E q m 3 100 (rd (_ + rd (rd (_ + _) + _))) (rnd p (_ + rnd p (rnd p (_ + _) + _))) :=
    ((hdet.add ((((c1.add c2).round H (by omega) (by omega)).add c3).round H (by omega) (by omega))).round H (by omega) (by omega)).le (by omega)
  rw [hcorr.1]
  replace hcorr := hcorr.refl
  split_ifs
  · exact Ok.pure (hdet.le (by omega))
  · exact Ok.pure (hdet.le (by omega))
  · exact Ok.pure (hcorr.le (by omega))
  · refine (orientLast3_X H hD hS sa sb sc hbc hca hab (h5.mono (by omega) (by omega))).bind fun _ h6 => ?_
    exact Ok.pure (top_E h6.1)

theorem orient3_E (H : Rng p rd q m D S) (hD : 3 ≤ D) (hS : 350 ≤ S) {k : Consts} (hk : Csts p k) {pa pb pc pd : ℚ × ℚ × ℚ} (ha : P3 q m pa)
    (hb : P3 q m pb) (hc : P3 q m pc) (hd : P3 q m pd) :
    Ok (fun v => E q m 3 330 v (FP.orient3 p k pa pb pc pd)) (orient3 rd k pa pb pc pd) := by
  have a1 := diff_E H ha.1 hd.1 (by omega) (by omega)
  have b1 := diff_E H hb.1 hd.1 (by omega) (by omega)
  have c1 := diff_E H hc.1 hd.1 (by omega) (by omega)
  have a2 := diff_E H ha.2.1 hd.2.1 (by omega) (by omega)
  have b2 := diff_E H hb.2.1 hd.2.1 (by omega) (by omega)
  have c2 := diff_E H hc.2.1 hd.2.1 (by omega) (by omega)
  have a3 := diff_E H ha.2.2 hd.2.2 (by omega) (by omega)
  have b3 := diff_E H hb.2.2 hd.2.2 (by omega) (by omega)
  have c3 := diff_E H hc.2.2 hd.2.2 (by omega) (by omega)
  unfold orient3 FP.orient3
  simp only []
  rw [a1.1, b1.1, c1.1, a2.1, b2.1, c2.1, a3.1, b3.1, c3.1]
  replace a1 := a1.refl
  replace b1 := b1.refl
  replace c1 := c1.refl
  replace a2 := a2.refl
  replace b2 := b2.refl
  replace c2 := c2.refl
  replace a3 := a3.refl
  replace b3 := b3.refl
  replace c3 := c3.refl
  generalize rnd p (pa.1 - pd.1) = adx at *
  generalize rnd p (pb.1 - pd.1) = bdx at *
  generalize rnd p (pc.1 - pd.1) = cdx at *
  generalize rnd p (pa.2.1 - pd.2.1) = ady at *
  generalize rnd p (pb.2.1 - pd.2.1) = bdy at *
  generalize rnd p (pc.2.1 - pd.2.1) = cdy at *
  generalize rnd p (pa.2.2 - pd.2.2) = adz at *
  generalize rnd p (pb.2.2 - pd.2.2) = bdz at *
  generalize rnd p (pc.2.2 - pd.2.2) = cdz at *
  refine test_E H hk.o3dA (s := 20) (d := 3) ?_ ?_ (by omega) (by omega) (by omega) (fun x x' hx => orientAdapt3_E H hD hS hk ha hb hc hd hx)
  · eb H
  · eb H

end FPM
end Verif
