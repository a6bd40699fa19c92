import Verif.Lemmas.Insphere3

/-!
# Sign of the insphere test in space
-/
namespace Verif
namespace FP

section
variable {p : Nat}

/-- The wedge of a third coordinate and two vectors. -/
def wd (p : Nat) (e u v : Side3) : Wedge := ⟨e.z, e.zt, top (cross4 p (2 ^ half p + 1) u.toSide v.toSide), u, v⟩

/-- The same with opposite sign. -/
def wn (p : Nat) (e u v : Side3) : Wedge := ⟨-e.z, -e.zt, top (cross4 p (2 ^ half p + 1) u.toSide v.toSide), u, v⟩

theorem wd_ok (hp : 11 ≤ p) {e u v : Side3} (he : Sd p e) (hu : Sd p u) (hv : Sd p v) : (wd p e u v).Ok p :=
  ⟨hu, hv, he.bz, he.qz, top_cross4 hp hu.toSideOk hv.toSideOk⟩

theorem wn_ok (hp : 11 ≤ p) {e u v : Side3} (he : Sd p e) (hu : Sd p u) (hv : Sd p v) : (wn p e u v).Ok p := by
  refine ⟨hu, hv, ?_, ?_, top_cross4 hp hu.toSideOk hv.toSideOk⟩
  · simp only [wn, abs_neg]; exact he.bz
  · simp only [wn]
    rw [← neg_add, rnd_neg, he.qz]

/-- The term of the first point. -/
def termA (p : Nat) (a b c d : Side3) : Term := ⟨a, wd p b c d, wn p c b d, wd p d b c⟩

def termB (p : Nat) (a b c d : Side3) : Term := ⟨b, wd p c d a, wd p d a c, wd p a c d⟩

def termC (p : Nat) (a b c d : Side3) : Term := ⟨c, wd p d a b, wd p a b d, wd p b d a⟩

def termD (p : Nat) (a b c d : Side3) : Term := ⟨d, wd p a b c, wn p b a c, wd p c a b⟩

theorem isDet_eq (p : Nat) (a b c d : Side3) : isDet (termA p a b c d) (termB p a b c d) (termC p a b c d) (termD p a b c d) =
    spDet (a.x + a.xt) (a.y + a.yt) (a.z + a.zt) (b.x + b.xt) (b.y + b.yt) (b.z + b.zt)
      (c.x + c.xt) (c.y + c.yt) (c.z + c.zt) (d.x + d.xt) (d.y + d.yt) (d.z + d.zt) := by
  simp only [isDet, Term.T, termA, termB, termC, termD, wd, wn, Wedge.W, spDet, cr]
  ring

theorem isDet0_eq (p : Nat) (a b c d : Side3) : isDet0 (termA p a b c d) (termB p a b c d) (termC p a b c d) (termD p a b c d) =
    spDet a.x a.y a.z b.x b.y b.z c.x c.y c.z d.x d.y d.z := by
  simp only [isDet0, Term.T0, termA, termB, termC, termD, wd, wn, Wedge.W0, Wedge.k0, spDet, cr]
  ring

theorem isCorr_eq (p : Nat) (a b c d : Side3) : isCorr p (termA p a b c d) (termB p a b c d) (termC p a b c d) (termD p a b c d) =
    corrSphere p a b c d
      (top (cross4 p (2 ^ half p + 1) a.toSide b.toSide)) (top (cross4 p (2 ^ half p + 1) b.toSide c.toSide)) (top (cross4 p (2 ^ half p + 1) c.toSide d.toSide))
      (top (cross4 p (2 ^ half p + 1) d.toSide a.toSide)) (top (cross4 p (2 ^ half p + 1) a.toSide c.toSide)) (top (cross4 p (2 ^ half p + 1) b.toSide d.toSide)) := by
  simp only [isCorr, Term.c1, Term.c2, termA, termB, termC, termD, wd, wn, corrSphere, volM_eq]

/-- `insphere_adapt` returns a number with the sign of the determinant. -/
theorem insphereAdapt3_sign (hp : 11 ≤ p) {k : Consts} (hk : ConstsOk p k) {pa pb pc pd pe : ℚ × ℚ × ℚ} (ra : Rep3 p pa) (rb : Rep3 p pb)
    (rc : Rep3 p pc) (rd : Rep3 p pd) (re : Rep3 p pe) {perm : ℚ}
    (hperm : perm = isPerm p (termA p (side3 p pa pe) (side3 p pb pe) (side3 p pc pe) (side3 p pd pe))
      (termB p (side3 p pa pe) (side3 p pb pe) (side3 p pc pe) (side3 p pd pe))
      (termC p (side3 p pa pe) (side3 p pb pe) (side3 p pc pe) (side3 p pd pe))
      (termD p (side3 p pa pe) (side3 p pb pe) (side3 p pc pe) (side3 p pd pe))) :
    SignType.sign (insphereAdapt3 p k pa pb pc pd pe perm) =
      SignType.sign (spDet (pa.1 - pe.1) (pa.2.1 - pe.2.1) (pa.2.2 - pe.2.2) (pb.1 - pe.1) (pb.2.1 - pe.2.1) (pb.2.2 - pe.2.2)
        (pc.1 - pe.1) (pc.2.1 - pe.2.1) (pc.2.2 - pe.2.2) (pd.1 - pe.1) (pd.2.1 - pe.2.1) (pd.2.2 - pe.2.2)) := by
  have he := eps_pos p
  have he' := eps_le hp
  have hp2 : 2 ≤ p := by omega
  have hx := (exact3_ok hp ra rb rc rd re).sign
  have sa := side3_sd hp2 ra re
  have sb := side3_sd hp2 rb re
  have sc := side3_sd hp2 rc re
  have sd := side3_sd hp2 rd re
  have oa := side3_ok hp2 ra.x ra.y ra.z re.x re.y re.z
  have ob := side3_ok hp2 rb.x rb.y rb.z re.x re.y re.z
  have oc := side3_ok hp2 rc.x rc.y rc.z re.x re.y re.z
  have od := side3_ok hp2 rd.x rd.y rd.z re.x re.y re.z
  rw [oa.eX, oa.eY, oa.eZ, ob.eX, ob.eY, ob.eZ, oc.eX, oc.eY, oc.eZ, od.eX, od.eY, od.eZ] at hx ⊢
  clear oa ob oc od
  unfold insphereAdapt3
  simp only [or_le_abs, hk.splitter, hk.ispB, hk.ispC, hk.r]
  have hf := fin3_ok hp sa.toSide3Ok sb.toSide3Ok sc.toSide3Ok sd.toSide3Ok
  have hest := hf.toExpn.estimate hp
  set a := side3 p pa pe
  set b := side3 p pb pe
  set c := side3 p pc pe
  set d := side3 p pd pe
  set est := estimate p (fin3 p (2 ^ half p + 1) a b c d)
  have ta : (termA p a b c d).Ok p := ⟨sa, wd_ok hp sb sc sd, wn_ok hp sc sb sd, wd_ok hp sd sb sc⟩
  have tb : (termB p a b c d).Ok p := ⟨sb, wd_ok hp sc sd sa, wd_ok hp sd sa sc, wd_ok hp sa sc sd⟩
  have tc : (termC p a b c d).Ok p := ⟨sc, wd_ok hp sd sa sb, wd_ok hp sa sb sd, wd_ok hp sb sd sa⟩
  have td : (termD p a b c d).Ok p := ⟨sd, wd_ok hp sa sb sc, wn_ok hp sb sa sc, wd_ok hp sc sa sb⟩
  have hest' := hest
  rw [← isDet0_eq p a b c d] at hest'
  have hB := is_stageB hp ta tb tc td hest'
  have hC := fun eb det => is_stageC hp ta tb tc td (eb := eb) (det := det) hperm hest'
  rw [isDet_eq] at hB
  simp only [isDet_eq, isCorr_eq] at hC
  split_ifs with h1 h2 h3
  · rw [hperm] at h1
    exact hB h1
  · obtain ⟨⟨z1, z2, z3⟩, ⟨z4, z5, z6⟩, ⟨z7, z8, z9⟩, ⟨y1, y2, y3⟩⟩ := h2
    rw [z1, z2, z3, z4, z5, z6, z7, z8, z9, y1, y2, y3]
    simp only [add_zero]
    exact sign_close' hest (by nlinarith)
  · exact hC _ _ h1 rfl rfl h3
  · exact hx

theorem isPerm_eq (p : Nat) (a b c d : Side3) :
    isPerm p (termA p a b c d) (termB p a b c d) (termC p a b c d) (termD p a b c d) =
    rnd p (rnd p (rnd p (
      permTerm p (rnd p (c.x * d.y)) (rnd p (d.x * c.y)) b.z (rnd p (d.x * b.y)) (rnd p (b.x * d.y)) c.z (rnd p (b.x * c.y)) (rnd p (c.x * b.y)) d.z
        (liftFl p a.x a.y a.z) +
      permTerm p (rnd p (d.x * a.y)) (rnd p (a.x * d.y)) c.z (rnd p (a.x * c.y)) (rnd p (c.x * a.y)) d.z (rnd p (c.x * d.y)) (rnd p (d.x * c.y)) a.z
        (liftFl p b.x b.y b.z)) +
      permTerm p (rnd p (a.x * b.y)) (rnd p (b.x * a.y)) d.z (rnd p (b.x * d.y)) (rnd p (d.x * b.y)) a.z (rnd p (d.x * a.y)) (rnd p (a.x * d.y)) b.z
        (liftFl p c.x c.y c.z)) +
      permTerm p (rnd p (b.x * c.y)) (rnd p (c.x * b.y)) a.z (rnd p (c.x * a.y)) (rnd p (a.x * c.y)) b.z (rnd p (a.x * b.y)) (rnd p (b.x * a.y)) c.z
        (liftFl p d.x d.y d.z)) := by
  have s : ∀ u1 v1 z1 u2 v2 z2 u3 v3 z3 l, permTerm p u1 v1 z1 u2 v2 z2 u3 v3 z3 l = permTerm p u1 v1 z1 v2 u2 (-z2) u3 v3 z3 l := by
    intro u1 v1 z1 u2 v2 z2 u3 v3 z3 l
    unfold permTerm
    rw [abs_neg, add_comm |u2| |v2|]
  rw [s (rnd p (c.x * d.y)), s (rnd p (b.x * c.y)) _ a.z]
  rfl

/-- `insphere` returns a number with the sign of the determinant. -/
theorem insphere3_sign (hp : 11 ≤ p) {k : Consts} (hk : ConstsOk p k) {pa pb pc pd pe : ℚ × ℚ × ℚ} (ra : Rep3 p pa) (rb : Rep3 p pb)
    (rc : Rep3 p pc) (rd : Rep3 p pd) (re : Rep3 p pe) :
    SignType.sign (insphere3 p k pa pb pc pd pe) =
      SignType.sign (spDet (pa.1 - pe.1) (pa.2.1 - pe.2.1) (pa.2.2 - pe.2.2) (pb.1 - pe.1) (pb.2.1 - pe.2.1) (pb.2.2 - pe.2.2)
        (pc.1 - pe.1) (pc.2.1 - pe.2.1) (pc.2.2 - pe.2.2) (pd.1 - pe.1) (pd.2.1 - pe.2.1) (pd.2.2 - pe.2.2)) := by
  have hp2 : 2 ≤ p := by omega
  have sa := side3_sd hp2 ra re
  have sb := side3_sd hp2 rb re
  have sc := side3_sd hp2 rc re
  have sd := side3_sd hp2 rd re
  have oa := side3_ok hp2 ra.x ra.y ra.z re.x re.y re.z
  have ob := side3_ok hp2 rb.x rb.y rb.z re.x re.y re.z
  have oc := side3_ok hp2 rc.x rc.y rc.z re.x re.y re.z
  have od := side3_ok hp2 rd.x rd.y rd.z re.x re.y re.z
  have hB := insphereAdapt3_sign hp hk ra rb rc rd re rfl
  have hA := is_stageA hp (ta := termA p (side3 p pa pe) (side3 p pb pe) (side3 p pc pe) (side3 p pd pe))
    (tb := termB p (side3 p pa pe) (side3 p pb pe) (side3 p pc pe) (side3 p pd pe))
    (tc := termC p (side3 p pa pe) (side3 p pb pe) (side3 p pc pe) (side3 p pd pe))
    (td := termD p (side3 p pa pe) (side3 p pb pe) (side3 p pc pe) (side3 p pd pe))
    ⟨sa, wd_ok hp sb sc sd, wn_ok hp sc sb sd, wd_ok hp sd sb sc⟩ ⟨sb, wd_ok hp sc sd sa, wd_ok hp sd sa sc, wd_ok hp sa sc sd⟩
    ⟨sc, wd_ok hp sd sa sb, wd_ok hp sa sb sd, wd_ok hp sb sd sa⟩ ⟨sd, wd_ok hp sa sb sc, wn_ok hp sb sa sc, wd_ok hp sc sa sb⟩
  rw [isDet_eq, ← oa.eX, ← oa.eY, ← oa.eZ, ← ob.eX, ← ob.eY, ← ob.eZ, ← oc.eX, ← oc.eY, ← oc.eZ, ← od.eX, ← od.eY, ← od.eZ] at hA
  rw [isPerm_eq] at hA hB
  clear sa sb sc sd oa ob oc od
  simp only [termA, termB, termC, termD, Term.fl, Wedge.fl, wd, wn, ← volM_eq, side3_x, side3_y, side3_z] at hA hB
  unfold insphere3
  dsimp only
  rw [hk.ispA]
  split_ifs with h
  · refine hA ?_
    rcases h with h | h
    · exact h.le.trans (le_abs_self _)
    · exact h.le.trans (neg_le_abs _)
  · exact hB
end

end FP
end Verif
