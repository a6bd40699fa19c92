import Verif.Spec.Delaunay
import Mathlib.Algebra.Module.Submodule.Union
import Mathlib.Algebra.CharZero.Infinite

/-!
# Small perturbations of the heights

Cospherical points have no unique Delaunay triangulation. As usual the theorems on Delaunay triangulations
resolve this by heights `h` that agree with `|p|²` wherever `|p|²` decides (`Refines`); this file shows that
such heights exist for all point sets.
-/
namespace Verif
namespace Del
variable {ι K W : Type*} [DecidableEq ι] [Field K] [LinearOrder K] [IsStrictOrderedRing K]
variable [AddCommGroup W] [Module K W]

/-- Whenever a point is strictly inside or outside of the circumsphere of a simplex for the heights `g`, it is
so for `h`. -/
def Refines (x : ι → W) (g h : ι → K) (S : Finset ι) : Prop :=
  ∀ s ⊆ S, IsSimp (K := K) x s → ∀ a b : W →ₗ[K] K, Interp x g s a → Interp x h s b → ∀ i ∈ S,
    (g i < a (x i) → h i < b (x i)) ∧ (a (x i) < g i → b (x i) < h i)

theorem exists_small {α : Type*} (I : Finset α) (A B : α → K) (hB : ∀ i ∈ I, 0 < B i) :
    ∃ ε : K, 0 < ε ∧ ∀ i ∈ I, ε * |A i| < B i := by
  classical
  induction I using Finset.induction_on with
  | empty => exact ⟨1, one_pos, by simp⟩
  | insert j I _ ih =>
    obtain ⟨ε, h0, h1⟩ := ih (fun i hi => hB i (Finset.mem_insert_of_mem hi))
    have hj := hB j (Finset.mem_insert_self _ _)
    have hA : 0 < |A j| + 1 := by positivity
    have hd : 0 < B j / (|A j| + 1) := div_pos hj hA
    refine ⟨min ε (B j / (|A j| + 1)), lt_min h0 hd, fun i hi => ?_⟩
    rcases Finset.mem_insert.mp hi with rfl | hi
    · calc min ε (B i / (|A i| + 1)) * |A i| ≤ B i / (|A i| + 1) * |A i| :=
            mul_le_mul_of_nonneg_right (min_le_right _ _) (abs_nonneg _)
        _ < B i / (|A i| + 1) * (|A i| + 1) := by
            apply mul_lt_mul_of_pos_left _ hd; linarith
        _ = B i := div_mul_cancel₀ _ hA.ne'
    · exact (mul_le_mul_of_nonneg_right (min_le_left _ _) (abs_nonneg _)).trans_lt (h1 i hi)

/-- Every configuration without hidden points can be perturbed into general position. -/
theorem exists_perturbation [Module.Finite K W] (x : ι → W) (g : ι → K) (S : Finset ι) (hnh : NoHidden x g S)
    (hnz : ∀ i ∈ S, x i ≠ 0) :
    ∃ h : ι → K, GenPos x h S ∧ NoHidden x h S ∧ Refines x g h S := by
  classical
  have : CharZero K := inferInstance
  have : Infinite K := inferInstance
  choose! c hc hw using fun (s : Finset ι) (hs : IsSimp (K := K) x s) => hs.coords
  let ℓ : Finset ι × ι → (ι → K) →ₗ[K] K := fun p =>
    LinearMap.proj p.2 - ∑ v ∈ p.1, c p.1 v (x p.2) • LinearMap.proj v
  have hℓ : ∀ (p : Finset ι × ι) (h : ι → K), ℓ p h = h p.2 - ∑ v ∈ p.1, c p.1 v (x p.2) * h v := by
    intro p h
    simp [ℓ, LinearMap.sum_apply]
  have hℓi : ∀ (s : Finset ι) (i : ι) (h : ι → K) (a : W →ₗ[K] K), IsSimp (K := K) x s → Interp x h s a →
      ℓ (s, i) h = h i - a (x i) := by
    intro s i h a hs ha
    rw [hℓ, apply_eq_sum (hw s hs) a (x i)]
    congr 1
    exact Finset.sum_congr rfl fun v hv => by rw [ha v hv]
  let I := (S.powerset ×ˢ S).filter fun p => p.2 ∉ p.1
  have hI : ∀ s i, s ⊆ S → i ∈ S → i ∉ s → (s, i) ∈ I := by
    intro s i h1 h2 h3
    simp [I, h1, h2, h3]
  obtain ⟨η, hη⟩ := Module.Dual.exists_forall_ne_zero_of_forall_exists (K := K) (M := ι → K)
    (fun p : I => ℓ p.1) (by
      rintro ⟨⟨s, i⟩, hp⟩
      refine ⟨Pi.single i 1, ?_⟩
      have hi : i ∉ s := (Finset.mem_filter.mp hp).2
      rw [hℓ, Finset.sum_eq_zero]
      · simp
      · intro v hv
        rw [Pi.single_eq_of_ne (by rintro rfl; exact hi hv), mul_zero])
  obtain ⟨ε1, hε1, h1⟩ := exists_small I (fun p => ℓ p η) (fun p => if ℓ p g = 0 then 1 else |ℓ p g|) (by
    intro p _
    split
    · exact one_pos
    · rename_i h0; exact abs_pos.mpr h0)
  choose! b hb1 hb2 using hnh
  have hφ : ∀ p ∈ S, ∃ φ : W →ₗ[K] K, φ (x p) = 1 := by
    intro p hp
    obtain ⟨f, hf⟩ := Module.exists_dual_forall_apply_ne_zero (K := K) (M := W) (fun _ : Unit => x p) (fun _ => hnz p hp)
    exact ⟨(f (x p))⁻¹ • f, by rw [LinearMap.smul_apply, smul_eq_mul, inv_mul_cancel₀ (hf ())]⟩
  choose! φ hφ using hφ
  obtain ⟨ε2, hε2, h2⟩ := exists_small ((S ×ˢ S).filter fun p => p.2 ≠ p.1)
    (fun p => η p.1 * φ p.1 (x p.2) - η p.2) (fun p => g p.2 - b p.1 (x p.2)) (by
      rintro ⟨p, i⟩ hp
      obtain ⟨hp, hne⟩ := Finset.mem_filter.mp hp
      obtain ⟨hp, hi⟩ := Finset.mem_product.mp hp
      exact sub_pos.mpr (hb2 p hp i hi hne))
  set ε := min ε1 ε2 with hε
  have hε0 : 0 < ε := lt_min hε1 hε2
  have hg1 : ∀ p ∈ I, ε * |ℓ p η| < if ℓ p g = 0 then 1 else |ℓ p g| := fun p hp =>
    (mul_le_mul_of_nonneg_right (min_le_left _ _) (abs_nonneg _)).trans_lt (h1 p hp)
  have hadd : ∀ p, ℓ p (g + ε • η) = ℓ p g + ε * ℓ p η := by
    intro p; rw [map_add, map_smul, smul_eq_mul]
  have habs : ∀ p, |ε * ℓ p η| = ε * |ℓ p η| := by
    intro p; rw [abs_mul, abs_of_pos hε0]
  refine ⟨g + ε • η, ?_, ?_, ?_⟩
  · intro s hs hsimp a ha i hi his heq
    have e0 := hℓi s i _ a hsimp ha
    rw [heq, sub_self, hadd] at e0
    have hne := hη ⟨(s, i), hI s i hs hi his⟩
    have hlt := hg1 (s, i) (hI s i hs hi his)
    by_cases h0 : ℓ (s, i) g = 0
    · rw [h0, zero_add] at e0
      exact (mul_ne_zero hε0.ne' hne) e0
    · rw [if_neg h0, ← habs, eq_neg_of_add_eq_zero_left e0, abs_neg] at hlt
      exact lt_irrefl _ hlt
  · intro p hp
    refine ⟨b p + (ε * η p) • φ p, ?_, ?_⟩
    · simp [hb1 p hp, hφ p hp]
    · intro i hi hne
      have := h2 (p, i) (Finset.mem_filter.mpr ⟨Finset.mem_product.mpr ⟨hp, hi⟩, hne⟩)
      have h3 : ε * (η p * φ p (x i) - η i) < g i - b p (x i) :=
        ((mul_le_mul_of_nonneg_left (le_abs_self _) hε0.le).trans
          (mul_le_mul_of_nonneg_right (min_le_right _ _) (abs_nonneg _))).trans_lt this
      simp only [LinearMap.add_apply, LinearMap.smul_apply, Pi.add_apply, Pi.smul_apply, smul_eq_mul]
      linarith
  · intro s hs hsimp a a' ha ha' i hi
    by_cases his : i ∈ s
    · rw [ha i his]
      exact ⟨fun h => absurd h (lt_irrefl _), fun h => absurd h (lt_irrefl _)⟩
    have e0 := hℓi s i _ a hsimp ha
    have e1 := hℓi s i _ a' hsimp ha'
    rw [hadd] at e1
    have hlt := hg1 (s, i) (hI s i hs hi his)
    have l1 := le_abs_self (ε * ℓ (s, i) η)
    have l2 := neg_abs_le (ε * ℓ (s, i) η)
    rw [habs] at l1 l2
    constructor
    · intro hlt'
      have hneg : ℓ (s, i) g < 0 := by rw [e0]; linarith
      rw [if_neg hneg.ne, abs_of_neg hneg] at hlt
      linarith
    · intro hlt'
      have hpos : 0 < ℓ (s, i) g := by rw [e0]; linarith
      rw [if_neg hpos.ne', abs_of_pos hpos] at hlt
      linarith

end Del
end Verif
