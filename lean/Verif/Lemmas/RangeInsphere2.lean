import Verif.Lemmas.RangeOrient2

/-!
# The incircle test in the plane with bounded exponents
-/
namespace Verif
namespace FPM
open FP (Consts Side Side3 emit pickE finish top rnd Mul Rep ConstsOk)

variable {p : Nat} {rd : ℚ → ℚ} {q m : Int} {D S : Nat} {d e s t : Nat}

/-- The coordinates of a point relative to another one. -/
structure SB (q m : Int) (a : Side) : Prop where
  x : E q m 1 1 a.x a.x
  y : E q m 1 1 a.y a.y
  xt : E q m 1 5 a.xt a.xt
  yt : E q m 1 5 a.yt a.yt

theorem side_E (H : Rng p rd q m D S) {pa pd : ℚ × ℚ} (ha : P2 q m pa) (hd : P2 q m pd) (hD : 1 ≤ D) (hS : 5 ≤ S) :
    side rd pa pd = FP.side p pa pd ∧ SB q m (FP.side p pa pd) := by
  have h1 := diff_E H ha.1 hd.1 hD hS
  have h2 := diff_E H ha.2 hd.2 hD hS
  have h3 := tail_E H ha.1 hd.1 hD hS
  have h4 := tail_E H ha.2 hd.2 hD hS
  refine ⟨?_, h1.refl, h2.refl, h3.refl, h4.refl⟩
  simp only [side, FP.side]
  rw [h1.1, h2.1, h3.1, h4.1]

/-- The first stage of a test. -/
theorem test_E (H : Rng p rd q m D S) {c x x' y y' : ℚ} (hc : Cst p c) {u : Nat} {F : ℚ → Res ℚ} {F' : ℚ → ℚ} (hx : E q m d s x x')
    (hy : E q m d s y y') (hd : d ≤ D) (hs : s ≤ S) (hu : s ≤ u) (hF : ∀ x x', E q m d s x x' → Ok (fun v => E q m d u v (F' x')) (F x)) :
    Ok (fun v => E q m d u v (if rnd p (c * y') < x' ∨ rnd p (c * y') < -x' then x' else F' y'))
      (if rd (c * y) < x ∨ rd (c * y) < -x then .done x else F y) := by
  rw [bound_E H hc hy hd hs, hx.1]
  split_ifs
  · exact Ok.done (hx.refl.le hu)
  · exact hF _ _ hy

theorem sum4_X (H : Rng p rd q m D S) {a b c g a' b' c' g' : ℚ} (ha : E q m d s a a') (hb : E q m e t b b') (hc : E q m d s c c') (hg : E q m e t g g')
    (hd : d + e ≤ D) (hs : s + t + 18 ≤ S) : X q m (d + e) (s + t + 18) 4 (sum4 rd (sp p) a b c g) (FP.sum4 p (sp p) a' b' c' g') :=
  ⟨sum4_E H ha hb hc hg hd hs, len4 _ _ _ _⟩

theorem sum4_X' (H : Rng p rd q m D S) {a b c g a' b' c' g' : ℚ} (ha : E q m 1 5 a a') (hb : E q m 1 1 b b') (hc : E q m 1 1 c c') (hg : E q m 1 5 g g')
    (hd : 2 ≤ D) (hs : 28 ≤ S) : X q m 2 26 4 (sum4 rd (sp p) a b c g) (FP.sum4 p (sp p) a' b' c' g') := by
  obtain ⟨h1, h2⟩ := twoProduct_E H ha hb (by omega) (by omega)
  obtain ⟨h3, h4⟩ := twoProduct_E H hc hg (by omega) (by omega)
  exact ⟨(twoTwoSum_E H (h1.le (by omega)) h2 (h3.le (by omega)) (h4.le (by omega)) (by omega) (by omega)).le (by omega), len4 _ _ _ _⟩

theorem squares4_X (H : Rng p rd q m D S) {a b a' b' : ℚ} (ha : E q m d s a a') (hb : E q m d s b b') (hd : d + d ≤ D) (hs : s + s + 19 ≤ S) :
    X q m (d + d) (s + s + 19) 4 (squares4 rd (sp p) a b) (FP.squares4 p (sp p) a' b') :=
  ⟨squares4_E H ha hb hd hs, len4 _ _ _ _⟩

theorem cross4_X (H : Rng p rd q m D S) {b c : Side} (hb : SB q m b) (hc : SB q m c) (hD : 2 ≤ D) (hS : 20 ≤ S) :
    X q m 2 20 4 (cross4 rd (sp p) b c) (FP.cross4 p (sp p) b c) :=
  diff4_X H hb.x hc.y hc.x hb.y (by omega) (by omega)

theorem zero_X {n : Nat} (hn : 1 ≤ n) : X q m d s n [0] [0] := ⟨EL.cons (E.of B.zero) EL.nil, len1 _ hn⟩

section
variable {a b c : Side} {bc bb cc fin bct bctt bc' bb' cc' fin' bct' bctt' : List ℚ} {n : Nat}

theorem liftDet_X (H : Rng p rd q m D S) (hD : 4 ≤ D) (hS : 500 ≤ S) (ha : SB q m a) (h : X q m 2 20 4 bc bc') :
    Ok (fun v => X q m 4 61 32 v (FP.liftDet p (sp p) a bc')) (liftDet rd (sp p) a bc) := by
  unfold liftDet FP.liftDet
  refine (scaleTo_X H 3 h ha.x (by omega) (by omega) (by omega) (by omega) (by omega)).bind fun _ h1 => ?_
  refine (scaleTo_X H 4 h1 ha.x (by omega) (by omega) (by omega) (by omega) (by omega)).bind fun _ h2 => ?_
  refine (scaleTo_X H 3 h ha.y (by omega) (by omega) (by omega) (by omega) (by omega)).bind fun _ h3 => ?_
  refine (scaleTo_X H 4 h3 ha.y (by omega) (by omega) (by omega) (by omega) (by omega)).bind fun _ h4 => ?_
  exact (fesTo_X H 5 h2 h4 (by omega) (by omega) (by omega) (by omega) (by omega)).mono fun _ h => h.mono (by omega) (by omega)

theorem corr2_E (H : Rng p rd q m D S) (hD : 4 ≤ D) (hS : 500 ≤ S) (ha : SB q m a) (hb : SB q m b) (hc : SB q m c) :
    E q m 4 30 (corr2 rd a b c) (FP.corr2 p a b c) := by
  obtain ⟨h1, h2, h3, h4⟩ := ha
  obtain ⟨h5, h6, h7, h8⟩ := hb
  obtain ⟨h9, h10, h11, h12⟩ := hc
  unfold corr2 FP.corr2
  eb H

theorem lift4_X (H : Rng p rd q m D S) (hD : 4 ≤ D) (hS : 500 ≤ S) (ha : SB q m a) (h : b.inexact = true ∨ c.inexact = true) :
    X q m 2 21 4 (lift4 rd (sp p) a b c) (FP.lift4 p (sp p) a b c) := by
  unfold lift4 FP.lift4
  rw [if_pos (by simpa using h), if_pos (by simpa using h)]
  exact squares4_X H ha.x ha.y (by omega) (by omega)

theorem twice_E (H : Rng p rd q m D S) {x : ℚ} (hD : 4 ≤ D) (hS : 500 ≤ S) (h : E q m 1 1 x x) : E q m 1 2 (rd (2 * x)) (rnd p (2 * x)) := by
  eb H

theorem firstX_X (H : Rng p rd q m D S) (hD : 4 ≤ D) (hS : 500 ≤ S) (ha : SB q m a) (hb : SB q m b) (hc : SB q m c) (h : X q m 2 20 4 bc bc')
    (hbb : a.inexact = true → X q m 2 21 4 bb bb') (hcc : a.inexact = true → X q m 2 21 4 cc cc') (hf : X q m 4 s n fin fin') (hn : n + 48 ≤ 1152)
    (hs : 80 ≤ s) (hs' : s + 16 ≤ S) :
    Ok (fun v => X q m 4 (s + 16) (n + 48) v (FP.firstX p (sp p) a b c bc' bb' cc' fin')) (firstX rd (sp p) a b c bc bb cc fin) := by
  unfold firstX FP.firstX
  split_ifs with hx
  · have hbb := hbb (inexact_x hx)
    have hcc := hcc (inexact_x hx)
    refine (scaleTo_X H 3 h ha.xt (by omega) (by omega) (by omega) (by omega) (by omega)).bind fun _ h1 => ?_
    refine (scaleTo_X H 4 h1 (twice_E H hD hS ha.x) (by omega) (by omega) (by omega) (by omega) (by omega)).bind fun _ h2 => ?_
    refine (scaleTo_X H 3 hcc ha.xt (by omega) (by omega) (by omega) (by omega) (by omega)).bind fun _ h3 => ?_
    refine (scaleTo_X H 4 h3 hb.y (by omega) (by omega) (by omega) (by omega) (by omega)).bind fun _ h4 => ?_
    refine (scaleTo_X H 3 hbb ha.xt (by omega) (by omega) (by omega) (by omega) (by omega)).bind fun _ h5 => ?_
    refine (scaleTo_X H 4 h5 hc.y.neg (by omega) (by omega) (by omega) (by omega) (by omega)).bind fun _ h6 => ?_
    refine (fesTo_X H 5 h2 h4 (by omega) (by omega) (by omega) (by omega) (by omega)).bind fun _ h7 => ?_
    refine (fesTo_X H 6 h6 h7 (by omega) (by omega) (by omega) (by omega) (by omega)).bind fun _ h8 => ?_
    exact (fesTo_X H 11 hf h8 (by omega) (by omega) (by omega) (by omega) (by omega)).mono fun _ h => h.mono (by omega) (by omega)
  · exact Ok.done (hf.mono (by omega) (by omega))

theorem firstY_X (H : Rng p rd q m D S) (hD : 4 ≤ D) (hS : 500 ≤ S) (ha : SB q m a) (hb : SB q m b) (hc : SB q m c) (h : X q m 2 20 4 bc bc')
    (hbb : a.inexact = true → X q m 2 21 4 bb bb') (hcc : a.inexact = true → X q m 2 21 4 cc cc') (hf : X q m 4 s n fin fin') (hn : n + 48 ≤ 1152)
    (hs : 80 ≤ s) (hs' : s + 16 ≤ S) :
    Ok (fun v => X q m 4 (s + 16) (n + 48) v (FP.firstY p (sp p) a b c bc' bb' cc' fin')) (firstY rd (sp p) a b c bc bb cc fin) := by
  unfold firstY FP.firstY
  split_ifs with hx
  · have hbb := hbb (inexact_y hx)
    have hcc := hcc (inexact_y hx)
    refine (scaleTo_X H 3 h ha.yt (by omega) (by omega) (by omega) (by omega) (by omega)).bind fun _ h1 => ?_
    refine (scaleTo_X H 4 h1 (twice_E H hD hS ha.y) (by omega) (by omega) (by omega) (by omega) (by omega)).bind fun _ h2 => ?_
    refine (scaleTo_X H 3 hbb ha.yt (by omega) (by omega) (by omega) (by omega) (by omega)).bind fun _ h3 => ?_
    refine (scaleTo_X H 4 h3 hc.x (by omega) (by omega) (by omega) (by omega) (by omega)).bind fun _ h4 => ?_
    refine (scaleTo_X H 3 hcc ha.yt (by omega) (by omega) (by omega) (by omega) (by omega)).bind fun _ h5 => ?_
    refine (scaleTo_X H 4 h5 hb.x.neg (by omega) (by omega) (by omega) (by omega) (by omega)).bind fun _ h6 => ?_
    refine (fesTo_X H 5 h2 h4 (by omega) (by omega) (by omega) (by omega) (by omega)).bind fun _ h7 => ?_
    refine (fesTo_X H 6 h6 h7 (by omega) (by omega) (by omega) (by omega) (by omega)).bind fun _ h8 => ?_
    exact (fesTo_X H 11 hf h8 (by omega) (by omega) (by omega) (by omega) (by omega)).mono fun _ h => h.mono (by omega) (by omega)
  · exact Ok.done (hf.mono (by omega) (by omega))

theorem crossT_X (H : Rng p rd q m D S) (hD : 4 ≤ D) (hS : 500 ≤ S) (hb : SB q m b) (hc : SB q m c) :
    Ok (fun v => X q m 2 34 8 v (FP.crossT p (sp p) b c)) (crossT rd (sp p) b c) := by
  unfold crossT FP.crossT
  split_ifs
  · have w1 := hc.y.le (show 1 ≤ 5 by omega)
    have w2 := hb.x.le (show 1 ≤ 5 by omega)
    have w3 := hb.y.neg.le (show 1 ≤ 5 by omega)
    have w4 := hc.x.le (show 1 ≤ 5 by omega)
    refine (fesTo_X H 3 (sum4_X' H hb.xt hc.y hb.x hc.yt (by omega) (by omega)) (sum4_X' H hc.xt hb.y.neg hc.x hb.yt.neg (by omega) (by omega)) (by omega)
      (by omega) (by omega) (by omega) (by omega)).mono fun _ h => h.mono (by omega) (by omega)
  · exact Ok.done (zero_X (by omega))

theorem crossTT_X (H : Rng p rd q m D S) (hD : 4 ≤ D) (hS : 500 ≤ S) (hb : SB q m b) (hc : SB q m c) :
    X q m 2 28 4 (crossTT rd (sp p) b c) (FP.crossTT p (sp p) b c) := by
  unfold crossTT FP.crossTT
  split_ifs
  · exact diff4_X H hb.xt hc.yt hc.xt hb.yt (by omega) (by omega)
  · exact zero_X (by omega)

theorem secondXY_X (H : Rng p rd q m D S) (hD : 4 ≤ D) (hS : 500 ≤ S) {x y : ℚ} (hx : E q m 1 5 x x) (hy : E q m 1 5 y y) (h : X q m 2 21 4 cc cc')
    (hf : X q m 4 s n fin fin') (hn : n + 16 ≤ 1152) (hs : 100 ≤ s) (hs' : s + 16 ≤ S) :
    Ok (fun v => X q m 4 (s + 16) (n + 16) v (FP.secondXY p (sp p) x y cc' fin')) (secondXY rd (sp p) x y cc fin) := by
  unfold secondXY FP.secondXY
  split_ifs
  · refine (scaleTo_X H 3 h hx (by omega) (by omega) (by omega) (by omega) (by omega)).bind fun _ h1 => ?_
    refine (scaleTo_X H 4 h1 hy (by omega) (by omega) (by omega) (by omega) (by omega)).bind fun _ h2 => ?_
    exact (fesTo_X H 11 hf h2 (by omega) (by omega) (by omega) (by omega) (by omega)).mono fun _ h => h.mono (by omega) (by omega)
  · exact Ok.done (hf.mono (by omega) (by omega))

theorem secondPre_X (H : Rng p rd q m D S) (hD : 4 ≤ D) (hS : 500 ≤ S) {x y : ℚ} (hx : E q m 1 1 x x) (hy : E q m 1 5 y y) (h : X q m 2 20 4 bc bc')
    (ht : X q m 2 34 8 bct bct') (hf : X q m 4 s n fin fin') (hn : n + 48 ≤ 1152) (hs : 100 ≤ s) (hs' : s + 16 ≤ S) :
    Ok (fun v => X q m 4 (s + 16) (n + 48) v (FP.secondPre p (sp p) x y bc' bct' fin')) (secondPre rd (sp p) x y bc bct fin) := by
  unfold secondPre FP.secondPre
  refine (scaleTo_X H 3 h hy (by omega) (by omega) (by omega) (by omega) (by omega)).bind fun _ h1 => ?_
  refine (scaleTo_X H 4 h1 hy (by omega) (by omega) (by omega) (by omega) (by omega)).bind fun _ h2 => ?_
  refine (scaleTo_X H 4 ht hy (by omega) (by omega) (by omega) (by omega) (by omega)).bind fun _ h3 => ?_
  refine (scaleTo_X H 5 h3 (twice_E H hD hS hx) (by omega) (by omega) (by omega) (by omega) (by omega)).bind fun _ h4 => ?_
  refine (fesTo_X H 6 h2 h4 (by omega) (by omega) (by omega) (by omega) (by omega)).bind fun _ h5 => ?_
  exact (fesTo_X H 11 hf h5 (by omega) (by omega) (by omega) (by omega) (by omega)).mono fun _ h => h.mono (by omega) (by omega)

theorem secondPost_X (H : Rng p rd q m D S) (hD : 4 ≤ D) (hS : 500 ≤ S) {x y : ℚ} (hx : E q m 1 1 x x) (hy : E q m 1 5 y y)
    (ht : X q m 2 34 8 bct bct') (htt : X q m 2 28 4 bctt bctt') (hf : X q m 4 s n fin fin') (hn : n + 64 ≤ 1152) (hs : 100 ≤ s) (hs' : s + 16 ≤ S) :
    Ok (fun v => X q m 4 (s + 16) (n + 64) v (FP.secondPost p (sp p) x y bct' bctt' fin')) (secondPost rd (sp p) x y bct bctt fin) := by
  unfold secondPost FP.secondPost
  refine (scaleTo_X H 4 ht hy (by omega) (by omega) (by omega) (by omega) (by omega)).bind fun _ h1 => ?_
  refine (scaleTo_X H 5 h1 hy (by omega) (by omega) (by omega) (by omega) (by omega)).bind fun _ h2 => ?_
  refine (scaleTo_X H 3 htt hy (by omega) (by omega) (by omega) (by omega) (by omega)).bind fun _ h3 => ?_
  refine (scaleTo_X H 4 h3 (twice_E H hD hS hx) (by omega) (by omega) (by omega) (by omega) (by omega)).bind fun _ h4 => ?_
  refine (scaleTo_X H 4 h3 hy (by omega) (by omega) (by omega) (by omega) (by omega)).bind fun _ h5 => ?_
  refine (fesTo_X H 5 h4 h5 (by omega) (by omega) (by omega) (by omega) (by omega)).bind fun _ h6 => ?_
  refine (fesTo_X H 6 h2 h6 (by omega) (by omega) (by omega) (by omega) (by omega)).bind fun _ h7 => ?_
  exact (fesTo_X H 11 hf h7 (by omega) (by omega) (by omega) (by omega) (by omega)).mono fun _ h => h.mono (by omega) (by omega)

theorem secondX_X (H : Rng p rd q m D S) (hD : 4 ≤ D) (hS : 500 ≤ S) (ha : SB q m a) (hb : SB q m b) (hc : SB q m c) (h : X q m 2 20 4 bc bc')
    (hbb : X q m 2 21 4 bb bb') (hcc : X q m 2 21 4 cc cc') (ht : X q m 2 34 8 bct bct') (htt : X q m 2 28 4 bctt bctt')
    (hf : X q m 4 s n fin fin') (hn : n + 144 ≤ 1152) (hs : 100 ≤ s) (hs' : s + 64 ≤ S) :
    Ok (fun v => X q m 4 (s + 64) (n + 144) v
      (if a.xt ≠ 0 then
        let fin := FP.secondPre p (sp p) a.x a.xt bc' bct' fin'
        let fin := FP.secondXY p (sp p) a.xt b.yt cc' fin
        let fin := FP.secondXY p (sp p) (-a.xt) c.yt bb' fin
        FP.secondPost p (sp p) a.x a.xt bct' bctt' fin
      else fin')) (secondX rd (sp p) a b c bc bb cc bct bctt fin) := by
  unfold secondX
  split_ifs
  · refine (secondPre_X H hD hS ha.x ha.xt h ht hf (by omega) (by omega) (by omega)).bind fun _ h1 => ?_
    refine (secondXY_X H hD hS ha.xt hb.yt hcc h1 (by omega) (by omega) (by omega)).bind fun _ h2 => ?_
    refine (secondXY_X H hD hS ha.xt.neg hc.yt hbb h2 (by omega) (by omega) (by omega)).bind fun _ h3 => ?_
    exact (secondPost_X H hD hS ha.x ha.xt ht htt h3 (by omega) (by omega) (by omega)).mono fun _ h => h.mono (by omega) (by omega)
  · exact Ok.done (hf.mono (by omega) (by omega))

theorem secondY_X (H : Rng p rd q m D S) (hD : 4 ≤ D) (hS : 500 ≤ S) (ha : SB q m a) (h : X q m 2 20 4 bc bc')
    (ht : X q m 2 34 8 bct bct') (htt : X q m 2 28 4 bctt bctt')
    (hf : X q m 4 s n fin fin') (hn : n + 112 ≤ 1152) (hs : 100 ≤ s) (hs' : s + 32 ≤ S) :
    Ok (fun v => X q m 4 (s + 32) (n + 112) v
      (if a.yt ≠ 0 then
        let fin := FP.secondPre p (sp p) a.y a.yt bc' bct' fin'
        FP.secondPost p (sp p) a.y a.yt bct' bctt' fin
      else fin')) (secondY rd (sp p) a bc bct bctt fin) := by
  unfold secondY
  split_ifs
  · refine (secondPre_X H hD hS ha.y ha.yt h ht hf (by omega) (by omega) (by omega)).bind fun _ h1 => ?_
    exact (secondPost_X H hD hS ha.y ha.yt ht htt h1 (by omega) (by omega) (by omega)).mono fun _ h => h.mono (by omega) (by omega)
  · exact Ok.done (hf.mono (by omega) (by omega))

theorem second_X (H : Rng p rd q m D S) (hD : 4 ≤ D) (hS : 500 ≤ S) (ha : SB q m a) (hb : SB q m b) (hc : SB q m c) (h : X q m 2 20 4 bc bc')
    (hbb : a.inexact = true → X q m 2 21 4 bb bb') (hcc : a.inexact = true → X q m 2 21 4 cc cc') (hf : X q m 4 s n fin fin') (hn : n + 256 ≤ 1152)
    (hs : 100 ≤ s) (hs' : s + 96 ≤ S) :
    Ok (fun v => X q m 4 (s + 96) (n + 256) v (FP.second p (sp p) a b c bc' bb' cc' fin')) (second rd (sp p) a b c bc bb cc fin) := by
  unfold second FP.second
  by_cases hx : a.inexact = true
  · rw [if_pos hx, if_pos hx]
    refine (crossT_X H hD hS hb hc).bind fun _ ht => ?_
    refine (secondX_X H hD hS ha hb hc h (hbb hx) (hcc hx) ht (crossTT_X H hD hS hb hc) hf (by omega) (by omega) (by omega)).bind fun _ h1 => ?_
    exact (secondY_X H hD hS ha h ht (crossTT_X H hD hS hb hc) h1 (by omega) (by omega) (by omega)).mono fun _ h => h.mono (by omega) (by omega)
  · rw [if_neg hx, if_neg hx]
    exact Ok.done (hf.mono (by omega) (by omega))

end

theorem insphereLast2_X (H : Rng p rd q m D S) (hD : 4 ≤ D) (hS : 500 ≤ S) {a b c : Side} (ha : SB q m a) (hb : SB q m b) (hc : SB q m c)
    {bc ca ab fin bc' ca' ab' fin' : List ℚ} (h1 : X q m 2 20 4 bc bc') (h2 : X q m 2 20 4 ca ca') (h3 : X q m 2 20 4 ab ab')
    (hf : X q m 4 84 96 fin fin') :
    Ok (fun v => X q m 4 468 1152 v (FP.insphereLast2 p (sp p) a b c bc' ca' ab' fin')) (insphereLast2 rd (sp p) a b c bc ca ab fin) := by
  unfold insphereLast2 FP.insphereLast2
  have la : b.inexact = true ∨ c.inexact = true → _ := lift4_X (rd := rd) H hD hS ha
  have lb : c.inexact = true ∨ a.inexact = true → _ := lift4_X (rd := rd) H hD hS hb
  have lc : a.inexact = true ∨ b.inexact = true → _ := lift4_X (rd := rd) H hD hS hc
  refine (firstX_X H hD hS ha hb hc h1 (fun h => lb (Or.inr h)) (fun h => lc (Or.inl h)) hf (by omega) (by omega) (by omega)).bind fun _ f1 => ?_
  refine (firstY_X H hD hS ha hb hc h1 (fun h => lb (Or.inr h)) (fun h => lc (Or.inl h)) f1 (by omega) (by omega) (by omega)).bind fun _ f2 => ?_
  refine (firstX_X H hD hS hb hc ha h2 (fun h => lc (Or.inr h)) (fun h => la (Or.inl h)) f2 (by omega) (by omega) (by omega)).bind fun _ f3 => ?_
  refine (firstY_X H hD hS hb hc ha h2 (fun h => lc (Or.inr h)) (fun h => la (Or.inl h)) f3 (by omega) (by omega) (by omega)).bind fun _ f4 => ?_
  refine (firstX_X H hD hS hc ha hb h3 (fun h => la (Or.inr h)) (fun h => lb (Or.inl h)) f4 (by omega) (by omega) (by omega)).bind fun _ f5 => ?_
  refine (firstY_X H hD hS hc ha hb h3 (fun h => la (Or.inr h)) (fun h => lb (Or.inl h)) f5 (by omega) (by omega) (by omega)).bind fun _ f6 => ?_
  refine (second_X H hD hS ha hb hc h1 (fun h => lb (Or.inr h)) (fun h => lc (Or.inl h)) f6 (by omega) (by omega) (by omega)).bind fun _ f7 => ?_
  refine (second_X H hD hS hb hc ha h2 (fun h => lc (Or.inr h)) (fun h => la (Or.inl h)) f7 (by omega) (by omega) (by omega)).bind fun _ f8 => ?_
  exact second_X H hD hS hc ha hb h3 (fun h => la (Or.inr h)) (fun h => lb (Or.inl h)) f8 (by omega) (by omega) (by omega)

theorem insphereAdapt2_E (H : Rng p rd q m D S) (hD : 4 ≤ D) (hS : 500 ≤ S) {k : Consts} (hk : Csts p k) {pa pb pc pd : ℚ × ℚ} (ha : P2 q m pa)
    (hb : P2 q m pb) (hc : P2 q m pc) (hd : P2 q m pd) {x x' : ℚ} (hx : E q m 4 20 x x') :
    Ok (fun v => E q m 4 468 v (FP.insphereAdapt2 p k pa pb pc pd x')) (insphereAdapt2 rd k pa pb pc pd x) := by
  obtain ⟨ea, sa⟩ := side_E H ha hd (by omega) (by omega)
  obtain ⟨eb, sb⟩ := side_E H hb hd (by omega) (by omega)
  obtain ⟨ec, sc⟩ := side_E H hc hd (by omega) (by omega)
  unfold insphereAdapt2 FP.insphereAdapt2
  simp only [hk.splitter, ea, eb, ec]
  generalize FP.side p pa pd = a at *
  generalize FP.side p pb pd = b at *
  generalize FP.side p pc pd = c at *
  have hbc := cross4_X (rd := rd) H sb sc (by omega) (by omega)
  have hca := cross4_X (rd := rd) H sc sa (by omega) (by omega)
  have hab := cross4_X (rd := rd) H sa sb (by omega) (by omega)
  refine (liftDet_X H hD hS sa hbc).bind fun _ h1 => ?_
  refine (liftDet_X H hD hS sb hca).bind fun _ h2 => ?_
  refine (liftDet_X H hD hS sc hab).bind fun _ h3 => ?_
  refine (fesTo_X H 6 h1 h2 (by omega) (by omega) (by omega) (by omega) (by omega)).bind fun _ h4 => ?_
  refine (fesTo_X H 7 h4 h3 (by omega) (by omega) (by omega) (by omega) (by omega)).bind fun fin1 h5 => ?_
  have hdet := estimate_X H 7 h5 (by omega) (by omega) (by omega) (by omega)
  have c1 := corr2_E (rd := rd) H hD hS sa sb sc
  have c2 := corr2_E (rd := rd) H hD hS sb sc sa
  have c3 := corr2_E (rd := rd) H hD hS sc sa sb
  rw [hdet.1, bound_E H hk.iccA hx (by omega) (by omega), c1.1, c2.1, c3.1,
    bound2_E H hk.iccC hk.r hx hdet.refl (by omega) (by omega) (by omega) (by omega)]
  replace hdet := hdet.refl.le (show _ ≤ 91 by omega)
  replace c1 := c1.refl
  replace c2 := c2.refl
  replace c3 := c3.refl
  have hcorr : E q m 4 100 (rd (_ + rd (rd (_ + _) + _))) (rnd p (_ + rnd p (rnd p (_ + _) + _))) :=
    ((hdet.add ((((c1.add c2).round H (by omega) (by omega)).add c3).round H (by omega) (by omega))).round H (by omega) (by omega)).le (by omega)
  rw [hcorr.1]
  replace hcorr := hcorr.refl
  split_ifs
  · exact Ok.pure (hdet.le (by omega))
  · exact Ok.pure (hdet.le (by omega))
  · exact Ok.pure (hcorr.le (by omega))
  · refine (insphereLast2_X H hD hS sa sb sc hbc hca hab (h5.mono (by omega) (by omega))).bind fun _ h6 => ?_
    exact Ok.pure (top_E h6.1)

theorem insphere2_E (H : Rng p rd q m D S) (hD : 4 ≤ D) (hS : 500 ≤ S) {k : Consts} (hk : Csts p k) {pa pb pc pd : ℚ × ℚ} (ha : P2 q m pa)
    (hb : P2 q m pb) (hc : P2 q m pc) (hd : P2 q m pd) :
    Ok (fun v => E q m 4 468 v (FP.insphere2 p k pa pb pc pd)) (insphere2 rd k pa pb pc pd) := by
  have a1 := diff_E H ha.1 hd.1 (by omega) (by omega)
  have b1 := diff_E H hb.1 hd.1 (by omega) (by omega)
  have c1 := diff_E H hc.1 hd.1 (by omega) (by omega)
  have a2 := diff_E H ha.2 hd.2 (by omega) (by omega)
  have b2 := diff_E H hb.2 hd.2 (by omega) (by omega)
  have c2 := diff_E H hc.2 hd.2 (by omega) (by omega)
  unfold insphere2 FP.insphere2
  simp only []
  rw [a1.1, b1.1, c1.1, a2.1, b2.1, c2.1]
  replace a1 := a1.refl
  replace b1 := b1.refl
  replace c1 := c1.refl
  replace a2 := a2.refl
  replace b2 := b2.refl
  replace c2 := c2.refl
  generalize rnd p (pa.1 - pd.1) = adx at *
  generalize rnd p (pb.1 - pd.1) = bdx at *
  generalize rnd p (pc.1 - pd.1) = cdx at *
  generalize rnd p (pa.2 - pd.2) = ady at *
  generalize rnd p (pb.2 - pd.2) = bdy at *
  generalize rnd p (pc.2 - pd.2) = cdy at *
  refine test_E H hk.iccA (s := 20) (d := 4) ?_ ?_ (by omega) (by omega) (by omega) (fun x x' hx => insphereAdapt2_E H hD hS hk ha hb hc hd hx)
  · eb H
  · eb H

end FPM
end Verif
