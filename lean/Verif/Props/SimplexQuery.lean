import Verif.Model.SimplexQuery
import Verif.Props.GeomCore

/-!
# C137: the face of a simplex is the one opposite to the given vertex

The hyperplane of face `d` is the set of affine combinations of the vertices in which vertex `d` has weight zero.
-/
namespace Verif
namespace Geom
variable {K : Type*} [Field K] [LinearOrder K] [IsStrictOrderedRing K]

/-- Affine combinations of the vertices without vertex `d`. -/
def faceSpan {D n : Nat} (q : Fin n → Vec D K) (d : Fin n) : Set (Vec D K) :=
  {x | ∃ w : Fin n → K, w d = 0 ∧ ∑ j, w j = 1 ∧ ∀ i, x i = ∑ j, w j * q j i}

theorem faceSpan2 (q : Fin 3 → Vec 2 K) :
    faceSpan q 0 = line2 (q 1) (q 2) ∧ faceSpan q 1 = line2 (q 0) (q 2) ∧
      faceSpan q 2 = line2 (q 0) (q 1) := by
  refine ⟨?_, ?_, ?_⟩ <;> ext x <;> constructor
  · rintro ⟨w, h0, h1, h⟩
    refine ⟨w 2, fun i => ?_⟩
    rw [Fin.sum_univ_three] at h1
    rw [h i, Fin.sum_univ_three]
    linear_combination (q 0 i - q 1 i) * h0 + q 1 i * h1
  · rintro ⟨t, h⟩
    refine ⟨![0, 1 - t, t], by simp, by simp [Fin.sum_univ_three], fun i => ?_⟩
    rw [h i, Fin.sum_univ_three]; simp; ring
  · rintro ⟨w, h0, h1, h⟩
    refine ⟨w 2, fun i => ?_⟩
    rw [Fin.sum_univ_three] at h1
    rw [h i, Fin.sum_univ_three]
    linear_combination (q 1 i - q 0 i) * h0 + q 0 i * h1
  · rintro ⟨t, h⟩
    refine ⟨![1 - t, 0, t], by simp, by simp [Fin.sum_univ_three], fun i => ?_⟩
    rw [h i, Fin.sum_univ_three]; simp; ring
  · rintro ⟨w, h0, h1, h⟩
    refine ⟨w 1, fun i => ?_⟩
    rw [Fin.sum_univ_three] at h1
    rw [h i, Fin.sum_univ_three]
    linear_combination (q 2 i - q 0 i) * h0 + q 0 i * h1
  · rintro ⟨t, h⟩
    refine ⟨![1 - t, t, 0], by simp, by simp [Fin.sum_univ_three], fun i => ?_⟩
    rw [h i, Fin.sum_univ_three]; simp; ring

theorem faceSpan3 (q : Fin 4 → Vec 3 K) :
    faceSpan q 0 = plane3 (q 1) (q 2) (q 3) ∧ faceSpan q 1 = plane3 (q 0) (q 2) (q 3) ∧
      faceSpan q 2 = plane3 (q 0) (q 1) (q 3) ∧ faceSpan q 3 = plane3 (q 0) (q 1) (q 2) := by
  refine ⟨?_, ?_, ?_, ?_⟩ <;> ext x <;> constructor
  · rintro ⟨w, h0, h1, h⟩
    refine ⟨w 2, w 3, fun i => ?_⟩
    rw [Fin.sum_univ_four] at h1
    rw [h i, Fin.sum_univ_four]
    linear_combination (q 0 i - q 1 i) * h0 + q 1 i * h1
  · rintro ⟨t, u, h⟩
    refine ⟨![0, 1 - t - u, t, u], by simp, by simp [Fin.sum_univ_four] <;> ring, fun i => ?_⟩
    rw [h i, Fin.sum_univ_four]; simp; ring
  · rintro ⟨w, h0, h1, h⟩
    refine ⟨w 2, w 3, fun i => ?_⟩
    rw [Fin.sum_univ_four] at h1
    rw [h i, Fin.sum_univ_four]
    linear_combination (q 1 i - q 0 i) * h0 + q 0 i * h1
  · rintro ⟨t, u, h⟩
    refine ⟨![1 - t - u, 0, t, u], by simp, by simp [Fin.sum_univ_four] <;> ring, fun i => ?_⟩
    rw [h i, Fin.sum_univ_four]; simp; ring
  · rintro ⟨w, h0, h1, h⟩
    refine ⟨w 1, w 3, fun i => ?_⟩
    rw [Fin.sum_univ_four] at h1
    rw [h i, Fin.sum_univ_four]
    linear_combination (q 2 i - q 0 i) * h0 + q 0 i * h1
  · rintro ⟨t, u, h⟩
    refine ⟨![1 - t - u, t, 0, u], by simp, by simp [Fin.sum_univ_four] <;> ring, fun i => ?_⟩
    rw [h i, Fin.sum_univ_four]; simp; ring
  · rintro ⟨w, h0, h1, h⟩
    refine ⟨w 1, w 2, fun i => ?_⟩
    rw [Fin.sum_univ_four] at h1
    rw [h i, Fin.sum_univ_four]
    linear_combination (q 3 i - q 0 i) * h0 + q 0 i * h1
  · rintro ⟨t, u, h⟩
    refine ⟨![1 - t - u, t, u, 0], by simp, by simp [Fin.sum_univ_four] <;> ring, fun i => ?_⟩
    rw [h i, Fin.sum_univ_four]; simp; ring

theorem sqDist_symm {D : Nat} (a b : Vec D K) : sqDist a b = sqDist b a := by
  simp only [sqDist]
  exact Finset.sum_congr rfl fun i _ => by ring

theorem isSqDist_zero {D : Nat} {p : Vec D K} {S : Set (Vec D K)} {d : K} (h : IsSqDist p S d) :
    d = 0 ↔ p ∈ S := by
  obtain ⟨⟨x, hx, hd⟩, hmin⟩ := h
  constructor
  · intro h0
    rw [h0, sqDist, Finset.sum_eq_zero_iff_of_nonneg (fun i _ => sq_nonneg _)] at hd
    have : p = x := by
      funext i
      have := hd i (Finset.mem_univ i)
      have := pow_eq_zero_iff (two_ne_zero) |>.mp this
      linarith
    exact this ▸ hx
  · intro hp
    have h1 := hmin p hp
    have h2 : sqDist p p = 0 := by simp [sqDist]
    have h3 : 0 ≤ d := by rw [← hd]; exact Finset.sum_nonneg fun i _ => sq_nonneg _
    linarith

/-- **C137 (2D).** For every vertex `d` of a triangle without repeated vertices the query returns, up to the
length of the edge, the distance to the line through the two other vertices. The value itself is not the
squared distance (C40). -/
theorem C137_face2 (pts : Nat → Vec 2 K) (v : Fin 3 → Nat) (d : Fin 3) (p : Vec 2 K)
    (hinj : Function.Injective (pts ∘ v)) :
    ∃ r, faceDist2 pts v d p = .done r ∧ 0 ≤ r ∧ (r = 0 ↔ p ∈ faceSpan (pts ∘ v) d) ∧
      ∀ a b : Fin 3, a ≠ d → b ≠ d → a ≠ b →
        IsSqDist p (faceSpan (pts ∘ v) d) (r ^ 2 * sqDist (pts (v a)) (pts (v b))) := by
  have hne : ∀ {i j : Fin 3}, i ≠ j → pts (v i) ≠ pts (v j) := fun h e => h (hinj e)
  obtain ⟨f0, f1, f2⟩ := faceSpan2 (pts ∘ v)
  have key : ∀ (i j : Fin 3), i ≠ j → i ≠ d → j ≠ d → faceSpan (pts ∘ v) d = line2 (pts (v i)) (pts (v j)) →
      faceDist2 pts v d p = .done (sqDistanceToFace2 p (pts (v i)) (pts (v j))) →
      ∃ r, faceDist2 pts v d p = .done r ∧ 0 ≤ r ∧ (r = 0 ↔ p ∈ faceSpan (pts ∘ v) d) ∧
      ∀ a b : Fin 3, a ≠ d → b ≠ d → a ≠ b →
        IsSqDist p (faceSpan (pts ∘ v) d) (r ^ 2 * sqDist (pts (v a)) (pts (v b))) := by
    intro i j hij hid hjd hspan hval
    obtain ⟨h0, h1⟩ := C40_face2_partial p (pts (v i)) (pts (v j)) (hne hij)
    rw [← hspan] at h1
    have hpos : sqDist (pts (v i)) (pts (v j)) ≠ 0 := by
      intro h
      rw [sqDist, Finset.sum_eq_zero_iff_of_nonneg (fun i _ => sq_nonneg _)] at h
      refine hne hij (funext fun k => ?_)
      have := pow_eq_zero_iff (two_ne_zero) |>.mp (h k (Finset.mem_univ k))
      linarith
    refine ⟨_, hval, h0, ?_, ?_⟩
    · rw [← isSqDist_zero h1]
      simp [hpos]
    · intro a b ha hb hab
      have hc : (a = i ∧ b = j) ∨ (a = j ∧ b = i) := by
        clear * - ha hb hab hij hid hjd
        omega
      rcases hc with ⟨rfl, rfl⟩ | ⟨rfl, rfl⟩
      · exact h1
      · rw [sqDist_symm]; exact h1
  fin_cases d
  · exact key 1 2 (by decide) (by decide) (by decide) f0 rfl
  · exact key 0 2 (by decide) (by decide) (by decide) f1 rfl
  · exact key 0 1 (by decide) (by decide) (by decide) f2 rfl

theorem normal3_swap (a b c : Vec 3 K) :
    (∑ i, normal3 b a c i ^ 2 = ∑ i, normal3 a b c i ^ 2) ∧
      (∑ i, normal3 a c b i ^ 2 = ∑ i, normal3 a b c i ^ 2) := by
  constructor <;> simp [Fin.sum_univ_three, normal3] <;> ring

theorem normal3_sq_ne {a b c : Vec 3 K} : normal3 a b c ≠ 0 ↔ ∑ i, normal3 a b c i ^ 2 ≠ 0 := by
  rw [not_iff_not, Finset.sum_eq_zero_iff_of_nonneg (fun i _ => sq_nonneg _)]
  constructor
  · intro h i _; rw [h]; simp
  · intro h; funext i
    exact pow_eq_zero_iff (two_ne_zero) |>.mp (h i (Finset.mem_univ i))

theorem other4 {i j k d a : Fin 4} (hij : i ≠ j) (hjk : j ≠ k) (hik : i ≠ k) (hid : i ≠ d) (hjd : j ≠ d)
    (hkd : k ≠ d) (ha : a ≠ d) : a = i ∨ a = j ∨ a = k := by
  omega

set_option maxHeartbeats 2000000 in
/-- **C137 (3D).** For every vertex `d` of a tetrahedron none of whose faces is degenerate the query returns, up
to twice the area of the face, the distance to the plane through the three other vertices. The value itself is
not the squared distance (C40). -/
theorem C137_face3 (pts : Nat → Vec 3 K) (v : Fin 4 → Nat) (d : Fin 4) (p : Vec 3 K)
    (hnd : ∀ a b c : Fin 4, a ≠ b → b ≠ c → a ≠ c → normal3 (pts (v a)) (pts (v b)) (pts (v c)) ≠ 0) :
    ∃ r, faceDist3 pts v d p = .done r ∧ 0 ≤ r ∧ (r = 0 ↔ p ∈ faceSpan (pts ∘ v) d) ∧
      ∀ a b c : Fin 4, a ≠ d → b ≠ d → c ≠ d → a ≠ b → b ≠ c → a ≠ c →
        IsSqDist p (faceSpan (pts ∘ v) d)
          (r ^ 2 * ∑ i, normal3 (pts (v a)) (pts (v b)) (pts (v c)) i ^ 2) := by
  obtain ⟨f0, f1, f2, f3⟩ := faceSpan3 (pts ∘ v)
  have key : ∀ (i j k : Fin 4), i ≠ j → j ≠ k → i ≠ k → i ≠ d → j ≠ d → k ≠ d →
      faceSpan (pts ∘ v) d = plane3 (pts (v i)) (pts (v j)) (pts (v k)) →
      faceDist3 pts v d p = .done (sqDistanceToFace3 p (pts (v i)) (pts (v j)) (pts (v k))) →
      ∃ r, faceDist3 pts v d p = .done r ∧ 0 ≤ r ∧ (r = 0 ↔ p ∈ faceSpan (pts ∘ v) d) ∧
      ∀ a b c : Fin 4, a ≠ d → b ≠ d → c ≠ d → a ≠ b → b ≠ c → a ≠ c →
        IsSqDist p (faceSpan (pts ∘ v) d)
          (r ^ 2 * ∑ i, normal3 (pts (v a)) (pts (v b)) (pts (v c)) i ^ 2) := by
    intro i j k hij hjk hik hid hjd hkd hspan hval
    have hn := hnd i j k hij hjk hik
    obtain ⟨h0, h1⟩ := C40_face3_partial p (pts (v i)) (pts (v j)) (pts (v k)) hn
    rw [← hspan] at h1
    refine ⟨_, hval, h0, ?_, ?_⟩
    · rw [← isSqDist_zero h1]
      simp only [mul_eq_zero, normal3_sq_ne.mp hn, or_false]
      rw [pow_eq_zero_iff two_ne_zero]
    · intro a b c ha hb hc hab hbc hac
      have hcase : (a = i ∧ b = j ∧ c = k) ∨ (a = i ∧ b = k ∧ c = j) ∨ (a = j ∧ b = i ∧ c = k) ∨
          (a = j ∧ b = k ∧ c = i) ∨ (a = k ∧ b = i ∧ c = j) ∨ (a = k ∧ b = j ∧ c = i) := by
        rcases other4 hij hjk hik hid hjd hkd ha with rfl | rfl | rfl <;>
          rcases other4 hij hjk hik hid hjd hkd hb with rfl | rfl | rfl <;>
          rcases other4 hij hjk hik hid hjd hkd hc with rfl | rfl | rfl <;> simp_all
      have s := fun x y z : Vec 3 K => normal3_swap x y z
      rcases hcase with ⟨rfl, rfl, rfl⟩ | ⟨rfl, rfl, rfl⟩ | ⟨rfl, rfl, rfl⟩ | ⟨rfl, rfl, rfl⟩ | ⟨rfl, rfl, rfl⟩ |
        ⟨rfl, rfl, rfl⟩
      · exact h1
      · rw [(s _ _ _).2]; exact h1
      · rw [(s _ _ _).1]; exact h1
      · rw [(s _ _ _).2, (s _ _ _).1]; exact h1
      · rw [(s _ _ _).1, (s _ _ _).2]; exact h1
      · rw [(s _ _ _).1, (s _ _ _).2, (s _ _ _).1]; exact h1
  fin_cases d
  · exact key 1 2 3 (by decide) (by decide) (by decide) (by decide) (by decide) (by decide) f0 rfl
  · exact key 0 2 3 (by decide) (by decide) (by decide) (by decide) (by decide) (by decide) f1 rfl
  · exact key 0 1 3 (by decide) (by decide) (by decide) (by decide) (by decide) (by decide) f2 rfl
  · exact key 0 1 2 (by decide) (by decide) (by decide) (by decide) (by decide) (by decide) f3 rfl

/-- **C137.** Any other number of a face is refused. -/
theorem C137_range (pts2 : Nat → Vec 2 K) (v2 : Fin 3 → Nat) (p2 : Vec 2 K) (pts3 : Nat → Vec 3 K)
    (v3 : Fin 4 → Nat) (p3 : Vec 3 K) (d : Nat) :
    (faceDist2 pts2 v2 d p2 = .ub ↔ ¬ d < 3) ∧ (faceDist3 pts3 v3 d p3 = .ub ↔ ¬ d < 4) := by
  constructor
  · rcases d with _ | _ | _ | d <;> simp [faceDist2]
  · rcases d with _ | _ | _ | _ | d <;> simp [faceDist3]

/-- The hypotheses hold for a triangle whose vertices have ids 5, 3 and 9; opposite to its vertex 1 is the edge of the
ids 5 and 9, on whose line the point (0,7) lies. -/
example :
    let pts : Nat → Vec 2 ℚ := fun i => if i = 5 then ![0, 0] else if i = 3 then ![4, 0] else ![0, 2]
    let v : Fin 3 → Nat := ![5, 3, 9]
    Function.Injective (pts ∘ v) ∧ faceDist2 pts v 1 ![0, 7] = .done 0 ∧
      faceDist2 pts v 0 ![0, 7] = .done 1 ∧ faceDist2 pts v 3 ![0, 7] = .ub := by
  refine ⟨?_, by decide +kernel, by decide +kernel, by decide +kernel⟩
  intro i j h
  have h0 := congrFun h 0
  have h1 := congrFun h 1
  fin_cases i <;> fin_cases j <;> simp at h0 h1 ⊢

/-- The hypotheses hold for the corner of the unit cube with ids 4, 1, 2 and 7. -/
example :
    let pts : Nat → Vec 3 ℚ := fun i =>
      if i = 4 then ![0, 0, 0] else if i = 1 then ![1, 0, 0] else if i = 2 then ![0, 1, 0] else ![0, 0, 1]
    let v : Fin 4 → Nat := ![4, 1, 2, 7]
    (∀ a b c : Fin 4, a ≠ b → b ≠ c → a ≠ c → normal3 (pts (v a)) (pts (v b)) (pts (v c)) ≠ 0) ∧
      faceDist3 pts v 3 ![3, 5, 2] = .done 2 := by
  refine ⟨?_, by decide +kernel⟩
  decide +kernel

end Geom
end Verif
