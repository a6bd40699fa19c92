import Verif.Lemmas.Perturb
import Verif.Model.Box
import Mathlib.Analysis.Convex.Combination
import Mathlib.LinearAlgebra.AffineSpace.AffineSubspace.Basic
import Mathlib.LinearAlgebra.Dimension.Constructions

/-!
# Points of `K^D` as lifted configuration

Translation between spheres, affine spans and convex hulls in `K^D` and the linear notions of
`Verif.Spec.Delaunay`. Nothing of it is code of the program.
-/
namespace Verif
namespace Euc
open Del
variable {K : Type} [Field K] [LinearOrder K] [IsStrictOrderedRing K] {D : Nat}

/-- Squared euclidean distance. -/
def dist2 (p q : Vec D K) : K := ∑ i, (p i - q i) * (p i - q i)

/-- `|p|²` -/
def nsq (p : Vec D K) : K := ∑ i, p i * p i

/-- Homogeneous coordinates. -/
def hom (p : Vec D K) : K × Vec D K := (1, p)

omit [LinearOrder K] [IsStrictOrderedRing K] in
theorem finrank_hom : Module.finrank K (K × Vec D K) = D + 1 := by
  rw [Module.finrank_prod, Module.finrank_self, Module.finrank_fin_fun, add_comm]

theorem dist2_nonneg (p q : Vec D K) : 0 ≤ dist2 p q :=
  Finset.sum_nonneg fun _ _ => mul_self_nonneg _

theorem dist2_eq_zero {p q : Vec D K} : dist2 p q = 0 ↔ p = q := by
  unfold dist2
  rw [Finset.sum_eq_zero_iff_of_nonneg fun _ _ => mul_self_nonneg _]
  simp [sub_eq_zero, funext_iff]

/-- The affine function whose graph cuts the sphere with centre `c` and squared radius `ρ` out of the
paraboloid. -/
def ball (c : Vec D K) (ρ : K) : K × Vec D K →ₗ[K] K :=
  (∑ i, (2 * c i) • (LinearMap.proj i ∘ₗ LinearMap.snd K K (Vec D K))) + (ρ - nsq c) • LinearMap.fst K K (Vec D K)

omit [LinearOrder K] [IsStrictOrderedRing K] in
theorem ball_hom (c : Vec D K) (ρ : K) (q : Vec D K) : ball c ρ (hom q) = nsq q - dist2 q c + ρ := by
  simp only [ball, hom, nsq, dist2, LinearMap.add_apply, LinearMap.sum_apply, LinearMap.smul_apply,
    LinearMap.comp_apply, LinearMap.snd_apply, LinearMap.fst_apply, LinearMap.proj_apply, smul_eq_mul, mul_one]
  have : ∑ i, 2 * c i * q i = ∑ i, q i * q i + ∑ i, c i * c i - ∑ i, (q i - c i) * (q i - c i) := by
    rw [← Finset.sum_add_distrib, ← Finset.sum_sub_distrib]
    exact Finset.sum_congr rfl fun i _ => by ring
  rw [this]
  ring

/-- Every affine function belongs to a sphere. -/
theorem exists_ball (a : K × Vec D K →ₗ[K] K) : ∃ c ρ, a = ball c ρ := by
  let c : Vec D K := fun i => a (0, Pi.single i 1) / 2
  refine ⟨c, a (1, 0) + nsq c, ?_⟩
  have h2 : (2 : K) ≠ 0 := two_ne_zero
  apply LinearMap.prod_ext
  · ext
    simp [ball]
  · apply LinearMap.pi_ext'
    intro i
    ext
    simp [ball, c, Pi.single_apply, mul_div_cancel₀, Finset.sum_ite_eq, h2]

variable {pts : Nat → Vec D K} {S t : Finset Nat}

omit [LinearOrder K] [IsStrictOrderedRing K] in
theorem interp_ball {c : Vec D K} {ρ : K} :
    Interp (fun i => hom (pts i)) (fun i => nsq (pts i)) t (ball c ρ) ↔ ∀ v ∈ t, dist2 (pts v) c = ρ := by
  unfold Interp
  refine forall₂_congr fun v _ => ?_
  rw [ball_hom]
  constructor
  · intro h; linear_combination -h
  · intro h; linear_combination -h

theorem noHidden (hinj : Set.InjOn pts S) :
    NoHidden (K := K) (fun i => hom (pts i)) (fun i => nsq (pts i)) S := by
  intro p hp
  refine ⟨ball (pts p) 0, ?_, fun i hi hne => ?_⟩
  · rw [ball_hom, dist2_eq_zero.mpr rfl]; ring
  · rw [ball_hom]
    have : 0 < dist2 (pts i) (pts p) := lt_of_le_of_ne (dist2_nonneg _ _) (fun h =>
      hne (hinj hi hp (dist2_eq_zero.mp h.symm)))
    linarith

omit [LinearOrder K] [IsStrictOrderedRing K] in
theorem hom_ne (p : Vec D K) : hom p ≠ 0 := by
  intro h
  have := congrArg Prod.fst h
  simp [hom] at this

omit [LinearOrder K] [IsStrictOrderedRing K] in
/-- Linear span of the homogeneous coordinates and affine span. -/
theorem span_hom {A : Set (Vec D K)} :
    (⊤ : Submodule K (K × Vec D K)) ≤ Submodule.span K (hom '' A) ↔ affineSpan K A = ⊤ := by
  constructor
  · intro h
    have hne : A.Nonempty := by
      rw [Set.nonempty_iff_ne_empty]
      rintro rfl
      rw [Set.image_empty, Submodule.span_empty, top_le_iff] at h
      exact hom_ne (0 : Vec D K) ((Submodule.mem_bot K).mp (h ▸ Submodule.mem_top))
    obtain ⟨a0, ha0⟩ := hne
    let M : Submodule K (K × Vec D K) := (vectorSpan K A).comap
      (LinearMap.snd K K (Vec D K) - (LinearMap.fst K K (Vec D K)).smulRight a0)
    have hM : Submodule.span K (hom '' A) ≤ M := by
      rw [Submodule.span_le]
      rintro _ ⟨a, ha, rfl⟩
      simp only [M, SetLike.mem_coe, Submodule.mem_comap, LinearMap.sub_apply, LinearMap.snd_apply, hom,
        LinearMap.smulRight_apply, LinearMap.fst_apply, one_smul]
      exact vsub_mem_vectorSpan K ha ha0
    rw [eq_top_iff]
    intro p _
    have hp : hom p ∈ M := hM (h Submodule.mem_top)
    simp only [M, Submodule.mem_comap, LinearMap.sub_apply, LinearMap.snd_apply, hom,
        LinearMap.smulRight_apply, LinearMap.fst_apply, one_smul] at hp
    have := AffineSubspace.vadd_mem_of_mem_direction (s := affineSpan K A)
      (by rw [direction_affineSpan]; exact hp) (mem_affineSpan K ha0)
    simpa using this
  · intro h
    have hne : A.Nonempty := by
      rw [Set.nonempty_iff_ne_empty]
      rintro rfl
      rw [AffineSubspace.span_empty] at h
      exact bot_ne_top h
    obtain ⟨a0, ha0⟩ := hne
    have hv : vectorSpan K A = ⊤ := AffineSubspace.vectorSpan_eq_top_of_affineSpan_eq_top K _ _ h
    rw [vectorSpan_eq_span_vsub_set_right K ha0] at hv
    have hdiff : ∀ w : Vec D K, ((0, w) : K × Vec D K) ∈ Submodule.span K (hom '' A) := by
      intro w
      have hw : w ∈ Submodule.span K ((fun a => a -ᵥ a0) '' A) := by
        have : w ∈ (⊤ : Submodule K (Vec D K)) := Submodule.mem_top
        rw [← hv] at this
        exact this
      have hle : Submodule.span K ((fun a => a -ᵥ a0) '' A) ≤
          (Submodule.span K (hom '' A)).comap (LinearMap.inr K K (Vec D K)) := by
        rw [Submodule.span_le]
        rintro _ ⟨a, ha, rfl⟩
        simp only [SetLike.mem_coe, Submodule.mem_comap, LinearMap.inr_apply]
        have : ((0, a -ᵥ a0) : K × Vec D K) = hom a - hom a0 := by simp [hom]
        rw [this]
        exact Submodule.sub_mem _ (Submodule.subset_span ⟨a, ha, rfl⟩) (Submodule.subset_span ⟨a0, ha0, rfl⟩)
      exact hle hw
    rintro ⟨r, w⟩ -
    have : ((r, w) : K × Vec D K) = r • hom a0 + (0, w - r • a0) := by simp [hom]
    rw [this]
    exact Submodule.add_mem _ (Submodule.smul_mem _ _ (Submodule.subset_span ⟨a0, ha0, rfl⟩)) (hdiff _)

/-- Vertex sets of non-degenerate simplices: `D + 1` points that affinely span the space. -/
def Simp (pts : Nat → Vec D K) (t : Finset Nat) : Prop :=
  t.card = D + 1 ∧ affineSpan K (pts '' (t : Set Nat)) = ⊤

omit [LinearOrder K] [IsStrictOrderedRing K] in
theorem isSimp_iff : IsSimp (K := K) (fun i => hom (pts i)) t ↔ Simp pts t := by
  unfold IsSimp Simp
  rw [finrank_hom, ← span_hom, Set.image_image]

/-- Convex hulls. -/
theorem inCone_iff {A : Finset Nat} {q : Vec D K} :
    InCone (K := K) (fun i => hom (pts i)) A (hom q) ↔ q ∈ convexHull K (pts '' (A : Set Nat)) := by
  constructor
  · rintro ⟨ν, hν, he⟩
    have h1 : ∑ i ∈ A, ν i = 1 := by
      have := congrArg Prod.fst he
      simpa [hom, Prod.fst_sum] using this.symm
    have h2 : q = ∑ i ∈ A, ν i • pts i := by
      have := congrArg Prod.snd he
      simpa [hom, Prod.snd_sum] using this
    rw [h2]
    exact (convex_convexHull K _).sum_mem hν h1
      (fun i hi => subset_convexHull K _ ⟨i, hi, rfl⟩)
  · intro hq
    have hsub : convexHull K (pts '' (A : Set Nat)) ⊆ {q | InCone (K := K) (fun i => hom (pts i)) A (hom q)} := by
      apply convexHull_min
      · rintro _ ⟨i, hi, rfl⟩
        refine ⟨fun j => if j = i then 1 else 0, fun j _ => by dsimp only; split <;> simp, ?_⟩
        simp only [ite_smul, one_smul, zero_smul]
        rw [Finset.sum_ite_eq' A i, if_pos (Finset.mem_coe.mp hi)]
      · rintro p ⟨ν, hν, hp⟩ q ⟨μ, hμ, hq⟩ a b ha hb hab
        refine ⟨fun i => a * ν i + b * μ i, fun i hi => add_nonneg (mul_nonneg ha (hν i hi)) (mul_nonneg hb (hμ i hi)), ?_⟩
        have : hom (a • p + b • q) = a • hom p + b • hom q := by
          simp [hom, hab]
        rw [this, hp, hq, Finset.smul_sum, Finset.smul_sum, ← Finset.sum_add_distrib]
        exact Finset.sum_congr rfl fun i _ => by rw [add_smul, mul_smul, mul_smul]
    exact hsub hq

/-- Delaunay simplices for the heights `|p|²`: an empty circumsphere. -/
theorem isDel_iff : IsDel (K := K) (fun i => hom (pts i)) (fun i => nsq (pts i)) S t ↔
    t ⊆ S ∧ Simp pts t ∧ ∃ c ρ, (∀ v ∈ t, dist2 (pts v) c = ρ) ∧ ∀ i ∈ S, i ∉ t → ρ < dist2 (pts i) c := by
  unfold IsDel
  rw [isSimp_iff]
  constructor
  · rintro ⟨h1, h2, a, h3, h4⟩
    obtain ⟨c, ρ, rfl⟩ := exists_ball a
    refine ⟨h1, h2, c, ρ, interp_ball.mp h3, fun i hi hit => ?_⟩
    have := h4 i hi hit
    rw [ball_hom] at this
    linarith
  · rintro ⟨h1, h2, c, ρ, h3, h4⟩
    refine ⟨h1, h2, ball c ρ, interp_ball.mpr h3, fun i hi hit => ?_⟩
    rw [ball_hom]
    have := h4 i hi hit
    linarith

end Euc
end Verif
