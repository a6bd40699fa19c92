import Verif.Model.Orient3
import Verif.Lemmas.Insphere2Exact

/-!
# Exact stage of the orientation test in space
-/
namespace Verif
namespace FP

theorem Expn.pair {p : Nat} (hp : 0 < p) {x y V : ℚ} (hx : Rep p x) (hy : Rep p y) (h : ∀ k, IsLsb k y → |x| ≤ 2 ^ k / 2) (hV : V = x + y) :
    Expn p V [x, y] := by
  refine ⟨⟨fun k _ => ?_, fun k hk => ?_, trivial⟩, ?_, ?_, by simp⟩
  · have := two_zpow_pos k; linarith
  · have := two_zpow_pos k; linarith [h k hk]
  · intro z hz
    simp only [List.mem_cons, List.not_mem_nil, or_false] at hz
    rcases hz with rfl | rfl
    · exact hx
    · exact hy
  · rw [hV]; simp

theorem pair2_ok {p : Nat} (hp : 11 ≤ p) {a b : ℚ} (ha : Rep p a) (hb : Rep p b) : Expn p (a * b) (pair2 p (2 ^ half p + 1) a b) := by
  have hp0 : 0 < p := by omega
  simp only [pair2, twoProduct_eq (show 4 ≤ p by omega) ha hb]
  exact Expn.pair hp0 (prod_err_rep hp0 ha hb) (rep_rnd hp0 _) (fun k hk => rnd_lsb hk) (by ring)

/-- `Two_One_Product` yields an expansion of the product. -/
theorem twoOneProduct_ok {p : Nat} (hp : 11 ≤ p) {a1 a0 b : ℚ} (h1 : Rep p a1) (h0 : Rep p a0) (h : ∀ k, IsLsb k a1 → |a0| ≤ 2 ^ k / 2)
    (hb : Rep p b) : Expn p ((a1 + a0) * b) (twoOneProduct p (2 ^ half p + 1) a1 a0 b) := by
  have hp0 : 0 < p := by omega
  have hp4 : 4 ≤ p := by omega
  have hb' := hb
  obtain ⟨κ, hb1, hb2⟩ := hb
  have r0 := prod_err_rep hp0 h0 hb'
  have r1 := prod_err_rep hp0 h1 hb'
  simp only [twoOneProduct, twoProduct_eq hp4 h0 hb', twoProduct_eq hp4 h1 hb', twoSum_eq (show 2 ≤ p by omega) (rep_rnd hp0 _) r1]
  -- the state after the first component
  have pre0 : Pre p b κ 0 0 0 := ⟨le_refl _, le_refl _, Rep.zero p, ⟨0, Mul.zero _, by norm_num⟩, by simp, by simp⟩
  have first : ∃ A, A = |a0 * b - rnd p (a0 * b)| ∧ Pre p b κ (|a0|) A (rnd p (a0 * b)) ∧
      ∀ l, |a0| ≤ 3 / 4 * 2 ^ l → Fut κ |a0| A l := by
    by_cases z0 : a0 = 0
    · refine ⟨0, by rw [z0, zero_mul, rnd_zero]; simp, ?_, ?_⟩
      · rw [z0, zero_mul, rnd_zero, abs_zero]; exact pre0
      · intro l _; left; have := two_zpow_pos (l + κ); linarith
    · obtain ⟨k, hk⟩ := h0.lsb z0
      obtain ⟨_, _, _, c4, c5⟩ := scale_step hp hb1 hb2 hk pre0 (by have := two_zpow_pos k; linarith)
        (.inl (by have := two_zpow_pos (k + κ); linarith)) (P := rnd p (a0 * b)) (pt := a0 * b - rnd p (a0 * b)) (s := a0 * b - rnd p (a0 * b))
        (S := a0 * b - rnd p (a0 * b)) (t := a0 * b) (R := rnd p (a0 * b)) rfl rfl (by ring) (rnd_rep r0).symm (by ring) rfl
      refine ⟨_, rfl, ?_, ?_⟩
      · simpa using c4
      · simpa using c5
  obtain ⟨A, hA, pre, fut⟩ := first
  by_cases z1 : a1 = 0
  · subst z1
    have e1 : rnd p (0 * b) = 0 := by rw [zero_mul, rnd_zero]
    rw [e1]
    have e2 : rnd p (rnd p (a0 * b) + (0 * b - 0)) = rnd p (a0 * b) := by rw [zero_mul, sub_zero, add_zero, rnd_rep (rep_rnd hp0 _)]
    rw [e2, fastTwoSum_eq hp0 (Rep.zero p) (rep_rnd hp0 _) (.inr rfl)]
    dsimp only
    have e3 : rnd p (0 + rnd p (a0 * b)) = rnd p (a0 * b) := by rw [zero_add, rnd_rep (rep_rnd hp0 _)]
    rw [e3]
    have e4 : rnd p (a0 * b) + (0 * b - 0) - rnd p (a0 * b) = 0 := by ring
    have e5 : 0 + rnd p (a0 * b) - rnd p (a0 * b) = 0 := by ring
    rw [e4, e5]
    have nz : ∀ k : Int, ¬ IsLsb k 0 := fun k hk => by
      have h3 := hk.le_abs
      have := two_zpow_pos k
      rw [abs_zero] at h3
      linarith
    refine ⟨⟨fun k _ => by have := two_zpow_pos k; linarith, fun k hk => absurd hk (nz k), fun k hk => absurd hk (nz k), fun k hk => ?_, trivial⟩,
      ?_, by simp, by simp⟩
    · have := rnd_lsb hk
      have := two_zpow_pos k
      simp only [zero_add, abs_zero, add_zero]
      linarith
    · intro y hy
      simp only [List.mem_cons, List.not_mem_nil, or_false] at hy
      rcases hy with rfl | rfl | rfl | rfl
      · exact r0
      · exact Rep.zero p
      · exact Rep.zero p
      · exact rep_rnd hp0 _
  obtain ⟨k, hk⟩ := h1.lsb z1
  have hk2 : |a0| ≤ 3 / 4 * 2 ^ k := by have := h k hk; have := two_zpow_pos k; linarith
  obtain ⟨c1, c2, c3, c4, _⟩ := scale_step hp hb1 hb2 hk pre hk2 (fut k hk2) (P := rnd p (a1 * b)) rfl rfl rfl rfl rfl rfl
  rw [fastTwoSum_eq hp0 (rep_rnd hp0 _) (rep_rnd hp0 _) (.inl c1)]
  dsimp only
  refine ⟨⟨fun k _ => by have := two_zpow_pos k; linarith, fun k hk => ?_, fun k hk => ?_, fun k hk => ?_, trivial⟩, ?_, ?_, by simp⟩
  · rw [zero_add, ← hA]; exact c2.lsb hk
  · rw [zero_add, ← hA]; exact c3.lsb hk
  · rw [zero_add, ← hA]; exact c4.ge.lsb hk
  · intro y hy
    simp only [List.mem_cons, List.not_mem_nil, or_false] at hy
    rcases hy with rfl | rfl | rfl | rfl
    · exact r0
    · exact sum_err_rep hp0 (rep_rnd hp0 _) r1
    · exact sum_err_rep hp0 (rep_rnd hp0 _) (rep_rnd hp0 _)
    · exact rep_rnd hp0 _
  · simp only [List.sum_cons, List.sum_nil]; ring

/-- `X`, `Y`, `Z` are the exact coordinates. -/
structure Side3Ok (p : Nat) (a : Side3) (X Y Z : ℚ) : Prop extends SideOk p a.toSide X Y where
  rz : Rep p a.z
  rzt : Rep p a.zt
  eZ : Z = a.z + a.zt
  bz : |a.zt| ≤ eps p * |a.z|

theorem side3_ok {p : Nat} (hp : 2 ≤ p) {pa pd : ℚ × ℚ × ℚ} (a1 : Rep p pa.1) (a2 : Rep p pa.2.1) (a3 : Rep p pa.2.2)
    (d1 : Rep p pd.1) (d2 : Rep p pd.2.1) (d3 : Rep p pd.2.2) :
    Side3Ok p (side3 p pa pd) (pa.1 - pd.1) (pa.2.1 - pd.2.1) (pa.2.2 - pd.2.2) := by
  have hp0 : 0 < p := by omega
  have h := side_ok hp (pa := (pa.1, pa.2.1)) (pd := (pd.1, pd.2.1)) a1 a2 d1 d2
  have e : (side3 p pa pd).zt = pa.2.2 - pd.2.2 - rnd p (pa.2.2 - pd.2.2) := by
    simp only [side3, twoDiffTail_eq hp a3 d3]
  refine ⟨h, rep_rnd hp0 _, ?_, ?_, ?_⟩
  · rw [e]; exact diff_rep hp0 a3 d3
  · rw [e]; simp [side3]
  · rw [e]; exact tail_le hp0 _

section
variable {p : Nat} (hp : 11 ≤ p) {a b c : Side3} {Xa Ya Za Xb Yb Zb Xc Yc Zc : ℚ} (ha : Side3Ok p a Xa Ya Za) (hb : Side3Ok p b Xb Yb Zb)
  (hc : Side3Ok p c Xc Yc Zc)

include hp ha hb

theorem tailL_ok : Expn p (a.xt * b.y - a.yt * b.x) (tailL p (2 ^ half p + 1) a b) := by
  unfold tailL
  split_ifs with h1 h2 h2
  · exact (Expn.zero p).cast (by rw [h1, h2]; ring)
  · exact (pair2_ok hp ha.ryt.neg hb.rx).cast (by rw [h1]; ring)
  · exact (pair2_ok hp ha.rxt hb.ry).cast (by rw [h2]; ring)
  · exact (diff4_ok (show 4 ≤ p by omega) ha.rxt hb.ry ha.ryt hb.rx).expn (by omega)

theorem tailR_ok : Expn p (a.yt * b.x - a.xt * b.y) (tailR p (2 ^ half p + 1) a b) := by
  unfold tailR
  split_ifs with h1 h2 h2
  · exact (Expn.zero p).cast (by rw [h1, h2]; ring)
  · exact (pair2_ok hp ha.ryt hb.rx).cast (by rw [h1]; ring)
  · exact (pair2_ok hp ha.rxt.neg hb.ry).cast (by rw [h2]; ring)
  · exact (diff4_ok (show 4 ≤ p by omega) ha.ryt hb.rx ha.rxt hb.ry).expn (by omega)

omit ha hb in
theorem addScaled_ok {V W b : ℚ} {e fin : List ℚ} (he : Expn p W e) (hb : Rep p b) (hf : ExpnZ p V fin) :
    ExpnZ p (V + W * b) (addScaled p (2 ^ half p + 1) e b fin) := by
  unfold addScaled
  split_ifs with h
  · exact fes_ok (by omega) hf.toExpn (scale_ok hp he hb).toExpn
  · rw [not_not] at h
    exact hf.cast (by rw [h]; ring)

omit ha hb in
theorem addTails_ok {V s t z zt : ℚ} {fin : List ℚ} (hs : Rep p s) (ht : Rep p t) (hz : Rep p z) (hzt : Rep p zt) (hf : ExpnZ p V fin) :
    ExpnZ p (V + s * t * (z + zt)) (addTails p (2 ^ half p + 1) s t z zt fin) := by
  have hp0 : 0 < p := by omega
  unfold addTails
  simp only [twoProduct_eq (show 4 ≤ p by omega) hs ht]
  have P : ∀ {z : ℚ}, Rep p z → Expn p (s * t * z) (twoOneProduct p (2 ^ half p + 1) (rnd p (s * t)) (s * t - rnd p (s * t)) z) := fun hz =>
    (twoOneProduct_ok hp (rep_rnd hp0 _) (prod_err_rep hp0 hs ht) (fun k hk => rnd_lsb hk) hz).cast (by ring)
  split_ifs with h1 h2
  · exact (fes_ok (by omega) (fes_ok (by omega) hf.toExpn (P hz)).toExpn (P hzt)).cast (by ring)
  · rw [not_not] at h2
    exact (fes_ok (by omega) hf.toExpn (P hz)).cast (by rw [h2]; ring)
  · rw [not_not] at h1
    exact hf.cast (by rw [h1]; ring)

include hc

theorem tails3_ok {V : ℚ} {fin : List ℚ} (hf : ExpnZ p V fin) :
    ExpnZ p (V + a.xt * b.yt * (c.z + c.zt) - a.xt * c.yt * (b.z + b.zt)) (tails3 p (2 ^ half p + 1) a b c fin) := by
  unfold tails3
  split_ifs with h
  · exact (addTails_ok hp ha.rxt.neg hc.ryt hb.rz hb.rzt (addTails_ok hp ha.rxt hb.ryt hc.rz hc.rzt hf)).cast (by ring)
  · rw [not_not] at h
    exact hf.cast (by rw [h]; ring)

/-- The last stage yields an expansion of the determinant. -/
theorem orientLast3_ok {fin : List ℚ}
    (hf : ExpnZ p ((b.x * c.y - c.x * b.y) * a.z + (c.x * a.y - a.x * c.y) * b.z + (a.x * b.y - b.x * a.y) * c.z) fin) :
    ExpnZ p ((Xb * Yc - Xc * Yb) * Za + (Xc * Ya - Xa * Yc) * Zb + (Xa * Yb - Xb * Ya) * Zc)
      (orientLast3 p (2 ^ half p + 1) a b c (cross4 p (2 ^ half p + 1) b.toSide c.toSide) (cross4 p (2 ^ half p + 1) c.toSide a.toSide)
        (cross4 p (2 ^ half p + 1) a.toSide b.toSide) fin) := by
  have hp5 : 5 ≤ p := by omega
  have bc := cross4_ok hp hb.toSideOk hc.toSideOk
  have ca := cross4_ok hp hc.toSideOk ha.toSideOk
  have ab := cross4_ok hp ha.toSideOk hb.toSideOk
  have bct := (fes_ok hp5 (tailL_ok hp hb hc) (tailR_ok hp hc hb)).toExpn
  have cat := (fes_ok hp5 (tailL_ok hp hc ha) (tailR_ok hp ha hc)).toExpn
  have abt := (fes_ok hp5 (tailL_ok hp ha hb) (tailR_ok hp hb ha)).toExpn
  unfold orientLast3
  dsimp only
  have f1 := fes_ok hp5 hf.toExpn (scale_ok hp bct ha.rz).toExpn
  have f2 := fes_ok hp5 f1.toExpn (scale_ok hp cat hb.rz).toExpn
  have f3 := fes_ok hp5 f2.toExpn (scale_ok hp abt hc.rz).toExpn
  have g1 := addScaled_ok hp bc ha.rzt f3
  have g2 := addScaled_ok hp ca hb.rzt g1
  have g3 := addScaled_ok hp ab hc.rzt g2
  have t1 := tails3_ok hp ha hb hc g3
  have t2 := tails3_ok hp hb hc ha t1
  have t3 := tails3_ok hp hc ha hb t2
  have k1 := addScaled_ok hp bct ha.rzt t3
  have k2 := addScaled_ok hp cat hb.rzt k1
  have k3 := addScaled_ok hp abt hc.rzt k2
  refine k3.cast ?_
  rw [ha.eX, ha.eY, hb.eX, hb.eY, hc.eX, hc.eY, ha.eZ, hb.eZ, hc.eZ]
  ring
end

end FP
end Verif
