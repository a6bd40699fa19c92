import Verif.Lemmas.RangeOrient3

/-!
# The insphere test in space with bounded exponents
-/
namespace Verif
namespace FPM
open FP (Consts Side Side3 emit pickE finish top rnd Mul Rep ConstsOk)

variable {p : Nat} {rd : ℚ → ℚ} {q m : Int} {D S : Nat} {d e s t u : Nat}

section
variable {f g h f' g' h' : List ℚ} {x y z : ℚ} {n n1 n2 n3 n4 : Nat}

theorem sum24_X (H : Rng p rd q m D S) (hD : 5 ≤ D) (hS : 250 ≤ S) (hf : X q m 2 20 4 f f') (hx : E q m 1 1 x x) (hg : X q m 2 20 4 g g')
    (hy : E q m 1 1 y y) (hh : X q m 2 20 4 h h') (hz : E q m 1 1 z z) :
    Ok (fun v => X q m 3 54 24 v (FP.sum24 p (sp p) f' x g' y h' z)) (sum24 rd (sp p) f x g y h z) := by
  unfold sum24 FP.sum24
  refine (scaleTo_X H 3 hf hx (by omega) (by omega) (by omega) (by omega) (by omega)).bind fun _ h1 => ?_
  refine (scaleTo_X H 3 hg hy (by omega) (by omega) (by omega) (by omega) (by omega)).bind fun _ h2 => ?_
  refine (scaleTo_X H 3 hh hz (by omega) (by omega) (by omega) (by omega) (by omega)).bind fun _ h3 => ?_
  refine (fesTo_X H 4 h1 h2 (by omega) (by omega) (by omega) (by omega) (by omega)).bind fun _ h4 => ?_
  exact (fesTo_X H 5 h3 h4 (by omega) (by omega) (by omega) (by omega) (by omega)).mono fun _ h => h.mono (by omega) (by omega)

theorem liftPos_X (H : Rng p rd q m D S) (hD : 5 ≤ D) (K : Nat) (hK : K + 3 ≤ 13) (hf : X q m 3 s n f f') (hx : E q m 1 1 x x) (hy : E q m 1 1 y y)
    (hz : E q m 1 1 z z) (hS : s + 4 * K + 44 ≤ S) (hn : 2 * n ≤ 2 ^ K) (h1 : 2 * n ≤ n1) (h2 : 4 * n ≤ n2) (h3 : 8 * n ≤ n3) (h4 : 12 * n ≤ n4) :
    Ok (fun v => X q m 5 (s + 4 * K + 44) (12 * n) v (FP.liftPos p (sp p) f' x y z)) (liftPos rd (sp p) n1 n2 n3 n4 f x y z) := by
  unfold liftPos FP.liftPos
  have e1 : 2 ^ (K + 1) = 2 * 2 ^ K := by ring
  have e2 : 2 ^ (K + 2) = 4 * 2 ^ K := by ring
  have e3 : 2 ^ (K + 3) = 8 * 2 ^ K := by ring
  refine (scaleTo_X H K hf hx (by omega) (by omega) (by omega) (by omega) (by omega)).bind fun _ g1 => ?_
  refine (scaleTo_X H (K + 1) g1 hx (by omega) (by omega) (by omega) (by omega) (by omega)).bind fun _ g2 => ?_
  refine (scaleTo_X H K hf hy (by omega) (by omega) (by omega) (by omega) (by omega)).bind fun _ g3 => ?_
  refine (scaleTo_X H (K + 1) g3 hy (by omega) (by omega) (by omega) (by omega) (by omega)).bind fun _ g4 => ?_
  refine (scaleTo_X H K hf hz (by omega) (by omega) (by omega) (by omega) (by omega)).bind fun _ g5 => ?_
  refine (scaleTo_X H (K + 1) g5 hz (by omega) (by omega) (by omega) (by omega) (by omega)).bind fun _ g6 => ?_
  refine (fesTo_X H (K + 2) g2 g4 (by omega) (by omega) (by omega) (by omega) (by omega)).bind fun _ g7 => ?_
  exact (fesTo_X H (K + 3) g7 g6 (by omega) (by omega) (by omega) (by omega) (by omega)).mono fun _ h => h.mono (by omega) (by omega)

theorem liftNeg_X (H : Rng p rd q m D S) (hD : 5 ≤ D) (K : Nat) (hK : K + 3 ≤ 13) (hf : X q m 3 s n f f') (hx : E q m 1 1 x x) (hy : E q m 1 1 y y)
    (hz : E q m 1 1 z z) (hS : s + 4 * K + 44 ≤ S) (hn : 2 * n ≤ 2 ^ K) (h1 : 2 * n ≤ n1) (h2 : 4 * n ≤ n2) (h3 : 8 * n ≤ n3) (h4 : 12 * n ≤ n4) :
    Ok (fun v => X q m 5 (s + 4 * K + 44) (12 * n) v (FP.liftNeg p (sp p) f' x y z)) (liftNeg rd (sp p) n1 n2 n3 n4 f x y z) := by
  unfold liftNeg FP.liftNeg
  have e1 : 2 ^ (K + 1) = 2 * 2 ^ K := by ring
  have e2 : 2 ^ (K + 2) = 4 * 2 ^ K := by ring
  have e3 : 2 ^ (K + 3) = 8 * 2 ^ K := by ring
  refine (scaleTo_X H K hf hx (by omega) (by omega) (by omega) (by omega) (by omega)).bind fun _ g1 => ?_
  refine (scaleTo_X H (K + 1) g1 hx.neg (by omega) (by omega) (by omega) (by omega) (by omega)).bind fun _ g2 => ?_
  refine (scaleTo_X H K hf hy (by omega) (by omega) (by omega) (by omega) (by omega)).bind fun _ g3 => ?_
  refine (scaleTo_X H (K + 1) g3 hy.neg (by omega) (by omega) (by omega) (by omega) (by omega)).bind fun _ g4 => ?_
  refine (scaleTo_X H K hf hz (by omega) (by omega) (by omega) (by omega) (by omega)).bind fun _ g5 => ?_
  refine (scaleTo_X H (K + 1) g5 hz.neg (by omega) (by omega) (by omega) (by omega) (by omega)).bind fun _ g6 => ?_
  refine (fesTo_X H (K + 2) g2 g4 (by omega) (by omega) (by omega) (by omega) (by omega)).bind fun _ g7 => ?_
  exact (fesTo_X H (K + 3) g7 g6 (by omega) (by omega) (by omega) (by omega) (by omega)).mono fun _ h => h.mono (by omega) (by omega)

theorem X.map_neg (h : X q m d s n f f') : X q m d s n (f.map (fun x => -x)) (f'.map (fun x => -x)) := by
  obtain ⟨⟨rfl, h⟩, l1, l2⟩ := h
  refine ⟨⟨rfl, ?_⟩, by simpa using l1, by simpa using l2⟩
  intro y hy
  obtain ⟨x, hx, rfl⟩ := List.mem_map.mp hy
  exact (h x hx).neg

theorem comb96_X (H : Rng p rd q m D S) (hD : 5 ≤ D) (hS : 250 ≤ S) {k k' : List ℚ} (hf : X q m 3 54 24 f f') (hg : X q m 3 54 24 g g')
    (hh : X q m 3 54 24 h h') (hk : X q m 3 54 24 k k') :
    Ok (fun v => X q m 3 77 96 v (FP.comb96 p f' g' h' k')) (comb96 rd f g h k) := by
  unfold comb96 FP.comb96
  refine (fesTo_X H 6 hf hg (by omega) (by omega) (by omega) (by omega) (by omega)).bind fun _ h1 => ?_
  refine (fesTo_X H 6 hh hk (by omega) (by omega) (by omega) (by omega) (by omega)).bind fun v h2 => ?_
  exact (fesTo_X H 7 h1 h2.map_neg (by omega) (by omega) (by omega) (by omega) (by omega)).mono fun _ h => h.mono (by omega) (by omega)

end

theorem raw4_X (H : Rng p rd q m D S) (hD : 5 ≤ D) (hS : 250 ≤ S) {a b : ℚ × ℚ × ℚ} (ha : P3 q m a) (hb : P3 q m b) :
    X q m 2 20 4 (raw4 rd (sp p) a b) (FP.raw4 p (sp p) a b) :=
  (diff4_X H (E.of ha.1) (E.of hb.2.1) (E.of hb.1) (E.of ha.2.1) (by omega) (by omega)).mono (by omega) (by omega)

theorem exact3_X (H : Rng p rd q m D S) (hD : 5 ≤ D) (hS : 250 ≤ S) {pa pb pc pd pe : ℚ × ℚ × ℚ} (ha : P3 q m pa) (hb : P3 q m pb) (hc : P3 q m pc)
    (hd : P3 q m pd) (he : P3 q m pe) :
    Ok (fun v => X q m 5 250 5760 v (FP.exact3 p (sp p) pa pb pc pd pe)) (exact3 rd (sp p) pa pb pc pd pe) := by
  unfold exact3 FP.exact3
  have a1 := (E.of ha.1).le (show 0 ≤ 1 by omega)
  have b1 := (E.of hb.1).le (show 0 ≤ 1 by omega)
  have c1 := (E.of hc.1).le (show 0 ≤ 1 by omega)
  have d1 := (E.of hd.1).le (show 0 ≤ 1 by omega)
  have e1 := (E.of he.1).le (show 0 ≤ 1 by omega)
  have a2 := (E.of ha.2.1).le (show 0 ≤ 1 by omega)
  have b2 := (E.of hb.2.1).le (show 0 ≤ 1 by omega)
  have c2 := (E.of hc.2.1).le (show 0 ≤ 1 by omega)
  have d2 := (E.of hd.2.1).le (show 0 ≤ 1 by omega)
  have e2 := (E.of he.2.1).le (show 0 ≤ 1 by omega)
  have a3 := (E.of ha.2.2).le (show 0 ≤ 1 by omega)
  have b3 := (E.of hb.2.2).le (show 0 ≤ 1 by omega)
  have c3 := (E.of hc.2.2).le (show 0 ≤ 1 by omega)
  have d3 := (E.of hd.2.2).le (show 0 ≤ 1 by omega)
  have e3 := (E.of he.2.2).le (show 0 ≤ 1 by omega)
  have ab := raw4_X (rd := rd) H hD hS ha hb
  have bc := raw4_X (rd := rd) H hD hS hb hc
  have cd := raw4_X (rd := rd) H hD hS hc hd
  have de := raw4_X (rd := rd) H hD hS hd he
  have ea := raw4_X (rd := rd) H hD hS he ha
  have ac := raw4_X (rd := rd) H hD hS ha hc
  have bd := raw4_X (rd := rd) H hD hS hb hd
  have ce := raw4_X (rd := rd) H hD hS hc he
  have da := raw4_X (rd := rd) H hD hS hd ha
  have eb := raw4_X (rd := rd) H hD hS he hb
  refine (sum24_X H hD hS bc a3 ac b3.neg ab c3).bind fun _ abc => ?_
  refine (sum24_X H hD hS cd b3 bd c3.neg bc d3).bind fun _ bcd => ?_
  refine (sum24_X H hD hS de c3 ce d3.neg cd e3).bind fun _ cde => ?_
  refine (sum24_X H hD hS ea d3 da e3.neg de a3).bind fun _ dea => ?_
  refine (sum24_X H hD hS ab e3 eb a3.neg ea b3).bind fun _ eab => ?_
  refine (sum24_X H hD hS bd a3 da b3 ab d3).bind fun _ abd => ?_
  refine (sum24_X H hD hS ce b3 eb c3 bc e3).bind fun _ bce => ?_
  refine (sum24_X H hD hS da c3 ac d3 cd a3).bind fun _ cda => ?_
  refine (sum24_X H hD hS eb d3 bd e3 de b3).bind fun _ deb => ?_
  refine (sum24_X H hD hS ac e3 ce a3 ea c3).bind fun _ eac => ?_
  refine (comb96_X H hD hS cde bce deb bcd).bind fun _ bcde => ?_
  refine (liftPos_X H hD 8 (by omega) bcde a1 a2 a3 (by omega) (by omega) (by omega) (by omega) (by omega) (by omega)).bind fun _ adet => ?_
  refine (comb96_X H hD hS dea cda eac cde).bind fun _ cdea => ?_
  refine (liftPos_X H hD 8 (by omega) cdea b1 b2 b3 (by omega) (by omega) (by omega) (by omega) (by omega) (by omega)).bind fun _ bdet => ?_
  refine (comb96_X H hD hS eab deb abd dea).bind fun _ deab => ?_
  refine (liftPos_X H hD 8 (by omega) deab c1 c2 c3 (by omega) (by omega) (by omega) (by omega) (by omega) (by omega)).bind fun _ cdet => ?_
  refine (comb96_X H hD hS abc eac bce eab).bind fun _ eabc => ?_
  refine (liftPos_X H hD 8 (by omega) eabc d1 d2 d3 (by omega) (by omega) (by omega) (by omega) (by omega) (by omega)).bind fun _ ddet => ?_
  refine (comb96_X H hD hS bcd abd cda abc).bind fun _ abcd => ?_
  refine (liftPos_X H hD 8 (by omega) abcd e1 e2 e3 (by omega) (by omega) (by omega) (by omega) (by omega) (by omega)).bind fun _ edet => ?_
  refine (fesTo_X H 12 adet bdet (by omega) (by omega) (by omega) (by omega) (by omega)).bind fun _ h1 => ?_
  refine (fesTo_X H 12 cdet ddet (by omega) (by omega) (by omega) (by omega) (by omega)).bind fun _ h2 => ?_
  refine (fesTo_X H 12 h2 edet (by omega) (by omega) (by omega) (by omega) (by omega)).bind fun _ h3 => ?_
  exact (fesTo_X H 13 h1 h3 (by omega) (by omega) (by omega) (by omega) (by omega)).mono fun _ h => h.mono (by omega) (by omega)

theorem fin3_X (H : Rng p rd q m D S) (hD : 5 ≤ D) (hS : 250 ≤ S) {a b c d : Side3} (ha : SB3 q m a) (hb : SB3 q m b) (hc : SB3 q m c) (hd : SB3 q m d) :
    Ok (fun v => X q m 5 160 1152 v (FP.fin3 p (sp p) a b c d)) (fin3 rd (sp p) a b c d) := by
  unfold fin3 FP.fin3
  have ab := cross4_X (rd := rd) H ha.toSB hb.toSB (by omega) (by omega)
  have bc := cross4_X (rd := rd) H hb.toSB hc.toSB (by omega) (by omega)
  have cd := cross4_X (rd := rd) H hc.toSB hd.toSB (by omega) (by omega)
  have da := cross4_X (rd := rd) H hd.toSB ha.toSB (by omega) (by omega)
  have ac := cross4_X (rd := rd) H ha.toSB hc.toSB (by omega) (by omega)
  have bd := cross4_X (rd := rd) H hb.toSB hd.toSB (by omega) (by omega)
  refine (sum24_X H hD hS cd hb.z bd hc.z.neg bc hd.z).bind fun _ ta => ?_
  refine (liftNeg_X H hD 6 (by omega) ta ha.x ha.y ha.z (by omega) (by omega) (by omega) (by omega) (by omega) (by omega)).bind fun _ adet => ?_
  refine (sum24_X H hD hS da hc.z ac hd.z cd ha.z).bind fun _ tb => ?_
  refine (liftPos_X H hD 6 (by omega) tb hb.x hb.y hb.z (by omega) (by omega) (by omega) (by omega) (by omega) (by omega)).bind fun _ bdet => ?_
  refine (sum24_X H hD hS ab hd.z bd ha.z da hb.z).bind fun _ tc => ?_
  refine (liftNeg_X H hD 6 (by omega) tc hc.x hc.y hc.z (by omega) (by omega) (by omega) (by omega) (by omega) (by omega)).bind fun _ cdet => ?_
  refine (sum24_X H hD hS bc ha.z ac hb.z.neg ab hc.z).bind fun _ td => ?_
  refine (liftPos_X H hD 6 (by omega) td hd.x hd.y hd.z (by omega) (by omega) (by omega) (by omega) (by omega) (by omega)).bind fun _ ddet => ?_
  refine (fesTo_X H 10 adet bdet (by omega) (by omega) (by omega) (by omega) (by omega)).bind fun _ h1 => ?_
  refine (fesTo_X H 10 cdet ddet (by omega) (by omega) (by omega) (by omega) (by omega)).bind fun _ h2 => ?_
  exact (fesTo_X H 11 h1 h2 (by omega) (by omega) (by omega) (by omega) (by omega)).mono fun _ h => h.mono (by omega) (by omega)

theorem liftFl_E (H : Rng p rd q m D S) (hD : 5 ≤ D) (hS : 250 ≤ S) {x y z : ℚ} (hx : E q m 1 1 x x) (hy : E q m 1 1 y y) (hz : E q m 1 1 z z) :
    E q m 2 4 (liftFl rd x y z) (FP.liftFl p x y z) := by
  unfold liftFl FP.liftFl
  eb H

theorem liftTail_E (H : Rng p rd q m D S) (hD : 5 ≤ D) (hS : 250 ≤ S) {a : Side3} (ha : SB3 q m a) :
    E q m 2 8 (liftTail rd a) (FP.liftTail p a) := by
  obtain ⟨⟨h1, h2, h3, h4⟩, h5, h6⟩ := ha
  unfold liftTail FP.liftTail
  eb H

theorem volP_E (H : Rng p rd q m D S) (hD : 5 ≤ D) {x1 x2 x3 y1 y2 y3 : ℚ} (h1 : E q m 1 s x1 x1) (h2 : E q m 1 s x2 x2) (h3 : E q m 1 s x3 x3)
    (g1 : E q m 2 t y1 y1) (g2 : E q m 2 t y2 y2) (g3 : E q m 2 t y3 y3) (hS : s + t + 2 ≤ S) :
    E q m 3 (s + t + 2) (volP rd x1 y1 x2 y2 x3 y3) (FP.volP p x1 y1 x2 y2 x3 y3) := by
  unfold volP FP.volP
  eb H

theorem volM_E (H : Rng p rd q m D S) (hD : 5 ≤ D) {x1 x2 x3 y1 y2 y3 : ℚ} (h1 : E q m 1 s x1 x1) (h2 : E q m 1 s x2 x2) (h3 : E q m 1 s x3 x3)
    (g1 : E q m 2 t y1 y1) (g2 : E q m 2 t y2 y2) (g3 : E q m 2 t y3 y3) (hS : s + t + 2 ≤ S) :
    E q m 3 (s + t + 2) (volM rd x1 y1 x2 y2 x3 y3) (FP.volM p x1 y1 x2 y2 x3 y3) := by
  unfold volM FP.volM
  eb H

theorem epsFl_E (H : Rng p rd q m D S) (hD : 5 ≤ D) (hS : 250 ≤ S) {a b : Side3} (ha : SB3 q m a) (hb : SB3 q m b) :
    E q m 2 8 (epsFl rd a b) (FP.epsFl p a b) := by
  obtain ⟨⟨h1, h2, h3, h4⟩, h5, h6⟩ := ha
  obtain ⟨⟨g1, g2, g3, g4⟩, g5, g6⟩ := hb
  unfold epsFl FP.epsFl
  eb H

theorem corrSphere_E (H : Rng p rd q m D S) (hD : 5 ≤ D) (hS : 250 ≤ S) {a b c d : Side3} (ha : SB3 q m a) (hb : SB3 q m b) (hc : SB3 q m c)
    (hd : SB3 q m d) {ab3 bc3 cd3 da3 ac3 bd3 : ℚ} (ab : E q m 2 20 ab3 ab3) (bc : E q m 2 20 bc3 bc3) (cd : E q m 2 20 cd3 cd3)
    (da : E q m 2 20 da3 da3) (ac : E q m 2 20 ac3 ac3) (bd : E q m 2 20 bd3 bd3) :
    E q m 5 50 (corrSphere rd a b c d ab3 bc3 cd3 da3 ac3 bd3) (FP.corrSphere p a b c d ab3 bc3 cd3 da3 ac3 bd3) := by
  unfold corrSphere FP.corrSphere
  simp only []
  have eab := epsFl_E (rd := rd) H hD hS ha hb
  rw [eab.1]
  replace eab := eab.refl
  have ebc := epsFl_E (rd := rd) H hD hS hb hc
  rw [ebc.1]
  replace ebc := ebc.refl
  have ecd := epsFl_E (rd := rd) H hD hS hc hd
  rw [ecd.1]
  replace ecd := ecd.refl
  have eda := epsFl_E (rd := rd) H hD hS hd ha
  rw [eda.1]
  replace eda := eda.refl
  have eac := epsFl_E (rd := rd) H hD hS ha hc
  rw [eac.1]
  replace eac := eac.refl
  have ebd := epsFl_E (rd := rd) H hD hS hb hd
  rw [ebd.1]
  replace ebd := ebd.refl
  have la := liftFl_E (rd := rd) H hD hS ha.x ha.y ha.z
  have ma := liftTail_E (rd := rd) H hD hS ha
  have lb := liftFl_E (rd := rd) H hD hS hb.x hb.y hb.z
  have mb := liftTail_E (rd := rd) H hD hS hb
  have lc := liftFl_E (rd := rd) H hD hS hc.x hc.y hc.z
  have mc := liftTail_E (rd := rd) H hD hS hc
  have ld := liftFl_E (rd := rd) H hD hS hd.x hd.y hd.z
  have md := liftTail_E (rd := rd) H hD hS hd
  have v0 := volP_E (rd := rd) H hD hc.z hd.z ha.z eda eac ecd (by omega)
  have w0 := volP_E (rd := rd) H hD hc.zt hd.zt ha.zt da ac cd (by omega)
  have x0 := volP_E (rd := rd) H hD hc.z hd.z ha.z da ac cd (by omega)
  have v1 := volM_E (rd := rd) H hD ha.z hb.z hc.z ebc eac eab (by omega)
  have w1 := volM_E (rd := rd) H hD ha.zt hb.zt hc.zt bc ac ab (by omega)
  have x1 := volM_E (rd := rd) H hD ha.z hb.z hc.z bc ac ab (by omega)
  have v2 := volM_E (rd := rd) H hD hb.z hc.z hd.z ecd ebd ebc (by omega)
  have w2 := volM_E (rd := rd) H hD hb.zt hc.zt hd.zt cd bd bc (by omega)
  have x2 := volM_E (rd := rd) H hD hb.z hc.z hd.z cd bd bc (by omega)
  have v3 := volP_E (rd := rd) H hD hd.z ha.z hb.z eab ebd eda (by omega)
  have w3 := volP_E (rd := rd) H hD hd.zt ha.zt hb.zt ab bd da (by omega)
  have x3 := volP_E (rd := rd) H hD hd.z ha.z hb.z ab bd da (by omega)
  clear ha hb hc hd
  eb H

theorem insphereAdapt3_E (H : Rng p rd q m D S) (hD : 5 ≤ D) (hS : 260 ≤ S) {k : Consts} (hk : Csts p k) {pa pb pc pd pe : ℚ × ℚ × ℚ} (ha : P3 q m pa)
    (hb : P3 q m pb) (hc : P3 q m pc) (hd : P3 q m pd) (he : P3 q m pe) {x x' : ℚ} (hx : E q m 5 30 x x') :
    Ok (fun v => E q m 5 250 v (FP.insphereAdapt3 p k pa pb pc pd pe x')) (insphereAdapt3 rd k pa pb pc pd pe x) := by
  have hS' : 250 ≤ S := by omega
  obtain ⟨ea, sa⟩ := side3_E H ha he (by omega) (by omega)
  obtain ⟨eb, sb⟩ := side3_E H hb he (by omega) (by omega)
  obtain ⟨ec, sc⟩ := side3_E H hc he (by omega) (by omega)
  obtain ⟨ed, sd⟩ := side3_E H hd he (by omega) (by omega)
  unfold insphereAdapt3 FP.insphereAdapt3
  simp only [hk.splitter, ea, eb, ec, ed]
  generalize FP.side3 p pa pe = a at *
  generalize FP.side3 p pb pe = b at *
  generalize FP.side3 p pc pe = c at *
  generalize FP.side3 p pd pe = d at *
  refine (fin3_X H hD hS' sa sb sc sd).bind fun fin1 h5 => ?_
  have hdet := estimate_X H 11 h5 (by omega) (by omega) (by omega) (by omega)
  have ab := top_E (cross4_X (rd := rd) H sa.toSB sb.toSB (by omega) (by omega)).1
  have bc := top_E (cross4_X (rd := rd) H sb.toSB sc.toSB (by omega) (by omega)).1
  have cd := top_E (cross4_X (rd := rd) H sc.toSB sd.toSB (by omega) (by omega)).1
  have da := top_E (cross4_X (rd := rd) H sd.toSB sa.toSB (by omega) (by omega)).1
  have ac := top_E (cross4_X (rd := rd) H sa.toSB sc.toSB (by omega) (by omega)).1
  have bd := top_E (cross4_X (rd := rd) H sb.toSB sd.toSB (by omega) (by omega)).1
  rw [hdet.1, bound_E H hk.ispB hx (by omega) (by omega), ab.1, bc.1, cd.1, da.1, ac.1, bd.1,
    bound2_E H hk.ispC hk.r hx hdet.refl (by omega) (by omega) (by omega) (by omega)]
  have hc := corrSphere_E (rd := rd) H hD hS' sa sb sc sd ab.refl bc.refl cd.refl da.refl ac.refl bd.refl
  rw [hc.1]
  replace hdet := hdet.refl
  replace hc := hc.refl
  have hcorr : E q m 5 200 (rd (_ + _)) (rnd p (_ + _)) := ((hdet.add hc).round H (by omega) (by omega)).le (by omega)
  rw [hcorr.1]
  replace hcorr := hcorr.refl
  split_ifs
  · exact Ok.pure (hdet.le (by omega))
  · exact Ok.pure (hdet.le (by omega))
  · exact Ok.pure (hcorr.le (by omega))
  · exact (exact3_X H hD hS' ha hb ‹_› hd he).bind fun _ h6 => Ok.pure (top_E h6.1)

theorem permTerm_E (H : Rng p rd q m D S) (hD : 5 ≤ D) (hS : 250 ≤ S) {u1 v1 z1 u2 v2 z2 u3 v3 z3 l : ℚ} (a1 : E q m 2 2 u1 u1) (a2 : E q m 2 2 v1 v1)
    (a3 : E q m 1 1 z1 z1) (b1 : E q m 2 2 u2 u2) (b2 : E q m 2 2 v2 v2) (b3 : E q m 1 1 z2 z2) (c1 : E q m 2 2 u3 u3) (c2 : E q m 2 2 v3 v3)
    (c3 : E q m 1 1 z3 z3) (hl : E q m 2 4 l l) :
    E q m 5 10 (permTerm rd u1 v1 z1 u2 v2 z2 u3 v3 z3 l) (FP.permTerm p u1 v1 z1 u2 v2 z2 u3 v3 z3 l) := by
  unfold permTerm FP.permTerm
  eb H

theorem insphere3_E (H : Rng p rd q m D S) (hD : 5 ≤ D) (hS : 260 ≤ S) {k : Consts} (hk : Csts p k) {pa pb pc pd pe : ℚ × ℚ × ℚ} (ha : P3 q m pa)
    (hb : P3 q m pb) (hc : P3 q m pc) (hd : P3 q m pd) (he : P3 q m pe) :
    Ok (fun v => E q m 5 250 v (FP.insphere3 p k pa pb pc pd pe)) (insphere3 rd k pa pb pc pd pe) := by
  have hS' : 250 ≤ S := by omega
  have a1 := diff_E H ha.1 he.1 (by omega) (by omega)
  have a2 := diff_E H ha.2.1 he.2.1 (by omega) (by omega)
  have a3 := diff_E H ha.2.2 he.2.2 (by omega) (by omega)
  have b1 := diff_E H hb.1 he.1 (by omega) (by omega)
  have b2 := diff_E H hb.2.1 he.2.1 (by omega) (by omega)
  have b3 := diff_E H hb.2.2 he.2.2 (by omega) (by omega)
  have c1 := diff_E H hc.1 he.1 (by omega) (by omega)
  have c2 := diff_E H hc.2.1 he.2.1 (by omega) (by omega)
  have c3 := diff_E H hc.2.2 he.2.2 (by omega) (by omega)
  have d1 := diff_E H hd.1 he.1 (by omega) (by omega)
  have d2 := diff_E H hd.2.1 he.2.1 (by omega) (by omega)
  have d3 := diff_E H hd.2.2 he.2.2 (by omega) (by omega)
  unfold insphere3 FP.insphere3
  simp only []
  rw [a1.1, a2.1, a3.1, b1.1, b2.1, b3.1, c1.1, c2.1, c3.1, d1.1, d2.1, d3.1]
  replace a1 := a1.refl
  generalize rnd p (pa.1 - pe.1) = aex at *
  replace a2 := a2.refl
  generalize rnd p (pa.2.1 - pe.2.1) = aey at *
  replace a3 := a3.refl
  generalize rnd p (pa.2.2 - pe.2.2) = aez at *
  replace b1 := b1.refl
  generalize rnd p (pb.1 - pe.1) = bex at *
  replace b2 := b2.refl
  generalize rnd p (pb.2.1 - pe.2.1) = bey at *
  replace b3 := b3.refl
  generalize rnd p (pb.2.2 - pe.2.2) = bez at *
  replace c1 := c1.refl
  generalize rnd p (pc.1 - pe.1) = cex at *
  replace c2 := c2.refl
  generalize rnd p (pc.2.1 - pe.2.1) = cey at *
  replace c3 := c3.refl
  generalize rnd p (pc.2.2 - pe.2.2) = cez at *
  replace d1 := d1.refl
  generalize rnd p (pd.1 - pe.1) = dex at *
  replace d2 := d2.refl
  generalize rnd p (pd.2.1 - pe.2.1) = dey at *
  replace d3 := d3.refl
  generalize rnd p (pd.2.2 - pe.2.2) = dez at *
  have axby : E q m 2 2 (rd (aex * bey)) (rnd p (aex * bey)) := by eb H
  have axcy : E q m 2 2 (rd (aex * cey)) (rnd p (aex * cey)) := by eb H
  have axdy : E q m 2 2 (rd (aex * dey)) (rnd p (aex * dey)) := by eb H
  have bxay : E q m 2 2 (rd (bex * aey)) (rnd p (bex * aey)) := by eb H
  have bxcy : E q m 2 2 (rd (bex * cey)) (rnd p (bex * cey)) := by eb H
  have bxdy : E q m 2 2 (rd (bex * dey)) (rnd p (bex * dey)) := by eb H
  have cxay : E q m 2 2 (rd (cex * aey)) (rnd p (cex * aey)) := by eb H
  have cxby : E q m 2 2 (rd (cex * bey)) (rnd p (cex * bey)) := by eb H
  have cxdy : E q m 2 2 (rd (cex * dey)) (rnd p (cex * dey)) := by eb H
  have dxay : E q m 2 2 (rd (dex * aey)) (rnd p (dex * aey)) := by eb H
  have dxby : E q m 2 2 (rd (dex * bey)) (rnd p (dex * bey)) := by eb H
  have dxcy : E q m 2 2 (rd (dex * cey)) (rnd p (dex * cey)) := by eb H
  rw [axby.1, axcy.1, axdy.1, bxay.1, bxcy.1, bxdy.1, cxay.1, cxby.1, cxdy.1, dxay.1, dxby.1, dxcy.1]
  replace axby := axby.refl
  generalize rnd p (aex * bey) = ab at *
  replace axcy := axcy.refl
  generalize rnd p (aex * cey) = ac at *
  replace axdy := axdy.refl
  generalize rnd p (aex * dey) = ad at *
  replace bxay := bxay.refl
  generalize rnd p (bex * aey) = ba at *
  replace bxcy := bxcy.refl
  generalize rnd p (bex * cey) = bc at *
  replace bxdy := bxdy.refl
  generalize rnd p (bex * dey) = bd at *
  replace cxay := cxay.refl
  generalize rnd p (cex * aey) = ca at *
  replace cxby := cxby.refl
  generalize rnd p (cex * bey) = cb at *
  replace cxdy := cxdy.refl
  generalize rnd p (cex * dey) = cd at *
  replace dxay := dxay.refl
  generalize rnd p (dex * aey) = da at *
  replace dxby := dxby.refl
  generalize rnd p (dex * bey) = db at *
  replace dxcy := dxcy.refl
  generalize rnd p (dex * cey) = dc at *
  have kab : E q m 2 3 (rd (ab - ba)) (rnd p (ab - ba)) := by eb H
  rw [kab.1]
  replace kab := kab.refl
  have kbc : E q m 2 3 (rd (bc - cb)) (rnd p (bc - cb)) := by eb H
  rw [kbc.1]
  replace kbc := kbc.refl
  have kcd : E q m 2 3 (rd (cd - dc)) (rnd p (cd - dc)) := by eb H
  rw [kcd.1]
  replace kcd := kcd.refl
  have kda : E q m 2 3 (rd (da - ad)) (rnd p (da - ad)) := by eb H
  rw [kda.1]
  replace kda := kda.refl
  have kac : E q m 2 3 (rd (ac - ca)) (rnd p (ac - ca)) := by eb H
  rw [kac.1]
  replace kac := kac.refl
  have kbd : E q m 2 3 (rd (bd - db)) (rnd p (bd - db)) := by eb H
  rw [kbd.1]
  replace kbd := kbd.refl
  have la := liftFl_E (rd := rd) H hD hS' a1 a2 a3
  rw [la.1]
  replace la := la.refl
  have lb := liftFl_E (rd := rd) H hD hS' b1 b2 b3
  rw [lb.1]
  replace lb := lb.refl
  have lc := liftFl_E (rd := rd) H hD hS' c1 c2 c3
  rw [lc.1]
  replace lc := lc.refl
  have ld := liftFl_E (rd := rd) H hD hS' d1 d2 d3
  rw [ld.1]
  replace ld := ld.refl
  have v1 := volM_E (rd := rd) H hD a3 b3 c3 kbc kac kab (by omega)
  have v2 := volM_E (rd := rd) H hD b3 c3 d3 kcd kbd kbc (by omega)
  have v3 := volP_E (rd := rd) H hD c3 d3 a3 kda kac kcd (by omega)
  have v4 := volP_E (rd := rd) H hD d3 a3 b3 kab kbd kda (by omega)
  have t1 := permTerm_E (rd := rd) H hD hS' cxdy dxcy b3 dxby bxdy c3 bxcy cxby d3 la
  have t2 := permTerm_E (rd := rd) H hD hS' dxay axdy c3 axcy cxay d3 cxdy dxcy a3 lb
  have t3 := permTerm_E (rd := rd) H hD hS' axby bxay d3 bxdy dxby a3 dxay axdy b3 lc
  have t4 := permTerm_E (rd := rd) H hD hS' bxcy cxby a3 cxay axcy b3 axby bxay c3 ld
  rw [v1.1, v2.1, v3.1, v4.1, t1.1, t2.1, t3.1, t4.1]
  replace v1 := v1.refl
  replace v2 := v2.refl
  replace v3 := v3.refl
  replace v4 := v4.refl
  replace t1 := t1.refl
  replace t2 := t2.refl
  replace t3 := t3.refl
  replace t4 := t4.refl
  refine test_E H hk.ispA (s := 30) (d := 5) ?_ ?_ (by omega) (by omega) (by omega) (fun x x' hx => insphereAdapt3_E H hD hS hk ha hb hc hd he hx)
  · eb H
  · eb H

end FPM
end Verif
