import Mathlib.LinearAlgebra.Dimension.Constructions
import Mathlib.LinearAlgebra.FiniteDimensional.Basic
import Mathlib.LinearAlgebra.Basis.VectorSpace
import Mathlib.LinearAlgebra.Dual.Lemmas
import Mathlib.LinearAlgebra.FiniteDimensional.Lemmas
import Mathlib.LinearAlgebra.Dimension.OrzechProperty
import Mathlib.Algebra.Order.Field.Basic
import Mathlib.Data.Finset.Basic
import Mathlib.Data.Finset.Powerset
import Mathlib.Data.Finset.Max
import Mathlib.Algebra.BigOperators.Field
import Mathlib.Algebra.Order.BigOperators.Group.Finset
import Mathlib.Algebra.Order.BigOperators.Ring.Finset
import Mathlib.Tactic.Linarith
import Mathlib.Tactic.FieldSimp
import Mathlib.Tactic.Ring

/-!
# Delaunay simplices of a lifted point configuration

Points are given by vectors `x i` of a vector space `W` (homogeneous coordinates: for a point `p` of
`K^D` the vector `(1, p)` of `K^(D+1)`), and by a lifting height `h i` (`|p|²` for the ordinary Delaunay
triangulation). A linear functional on `W` is an affine function on `K^D`.

This file contains specifications and geometric facts only, nothing of it is code of the program.
-/
namespace Verif
namespace Del
variable {ι K W : Type*} [DecidableEq ι] [Field K] [LinearOrder K] [IsStrictOrderedRing K]
variable [AddCommGroup W] [Module K W]

/-- `s` is the vertex set of a non-degenerate full-dimensional simplex. -/
def IsSimp (x : ι → W) (s : Finset ι) : Prop :=
  s.card = Module.finrank K W ∧ (⊤ : Submodule K W) ≤ Submodule.span K (x '' (s : Set ι))

/-- `a` interpolates the heights on `s`: the lower halfspace of the graph of `a` cuts out the
circumsphere of `s`. -/
def Interp (x : ι → W) (h : ι → K) (s : Finset ι) (a : W →ₗ[K] K) : Prop := ∀ i ∈ s, a (x i) = h i

/-- `t` is a (strictly) Delaunay simplex of the point set `S`. -/
def IsDel (x : ι → W) (h : ι → K) (S t : Finset ι) : Prop :=
  t ⊆ S ∧ IsSimp (K := K) x t ∧ ∃ a : W →ₗ[K] K, Interp x h t a ∧ ∀ i ∈ S, i ∉ t → a (x i) < h i

/-- General position: no point lies on the circumsphere of a simplex it does not belong to. -/
def GenPos (x : ι → W) (h : ι → K) (S : Finset ι) : Prop :=
  ∀ s ⊆ S, IsSimp (K := K) x s → ∀ a : W →ₗ[K] K, Interp x h s a → ∀ i ∈ S, i ∉ s → a (x i) ≠ h i

/-- Every lifted point is a vertex of the lower convex hull (for `h = |p|²`: the points are distinct). -/
def NoHidden (x : ι → W) (h : ι → K) (S : Finset ι) : Prop :=
  ∀ p ∈ S, ∃ b : W →ₗ[K] K, b (x p) = h p ∧ ∀ i ∈ S, i ≠ p → b (x i) < h i

/-- `w` is a non-negative combination of points of `A` (for points: in the convex hull). -/
def InCone (x : ι → W) (A : Finset ι) (w : W) : Prop :=
  ∃ ν : ι → K, (∀ i ∈ A, 0 ≤ ν i) ∧ w = ∑ i ∈ A, ν i • x i

section Coords
variable {x : ι → W} {s : Finset ι}

omit [LinearOrder K] [IsStrictOrderedRing K] in
theorem IsSimp.finite [Module.Finite K W] (hs : IsSimp (K := K) x s) :
    LinearIndependent K (fun i : s => x i) := by
  apply linearIndependent_of_top_le_span_of_card_eq_finrank
  · have : Set.range (fun i : s => x i) = x '' (s : Set ι) := by
      ext w; simp
    rw [this]; exact hs.2
  · rw [Fintype.card_coe]; exact hs.1

omit [LinearOrder K] [IsStrictOrderedRing K] in
/-- Barycentric coordinates. -/
theorem IsSimp.coords [Module.Finite K W] (hs : IsSimp (K := K) x s) :
    ∃ c : ι → W →ₗ[K] K, (∀ u ∈ s, ∀ v ∈ s, c v (x u) = if u = v then 1 else 0) ∧
      ∀ w, w = ∑ v ∈ s, c v w • x v := by
  have hli := hs.finite
  have hsp : (⊤ : Submodule K W) ≤ Submodule.span K (Set.range fun i : s => x i) := by
    have : Set.range (fun i : s => x i) = x '' (s : Set ι) := by
      ext w; simp
    rw [this]; exact hs.2
  let b := Module.Basis.mk hli hsp
  refine ⟨fun v => if hv : v ∈ s then b.coord ⟨v, hv⟩ else 0, ?_, ?_⟩
  · intro u hu v hv
    simp only [dif_pos hv]
    have : x u = b ⟨u, hu⟩ := by rw [Module.Basis.mk_apply]
    rw [this, Module.Basis.coord_apply, Module.Basis.repr_self, Finsupp.single_apply]
    simp
  · intro w
    have h1 := b.sum_repr w
    rw [← Finset.sum_coe_sort]
    rw [← h1]
    apply Finset.sum_congr rfl
    intro i _
    simp only [h1, dif_pos i.2, Module.Basis.coord_apply]
    rw [Module.Basis.mk_apply]

omit [LinearOrder K] [IsStrictOrderedRing K] in
theorem exchange [Module.Finite K W] (hs : IsSimp (K := K) x s) {c : ι → W →ₗ[K] K}
    (hw : ∀ w, w = ∑ v ∈ s, c v w • x v) {u v : ι} (hv : v ∈ s) (hu : u ∉ s)
    (hne : c v (x u) ≠ 0) : IsSimp (K := K) x (insert u (s.erase v)) := by
  constructor
  · rw [Finset.card_insert_of_notMem (fun h => hu (Finset.mem_of_mem_erase h)), Finset.card_erase_of_mem hv]
    have := Finset.card_pos.mpr ⟨v, hv⟩
    rw [← hs.1]; omega
  · refine hs.2.trans (Submodule.span_le.mpr ?_)
    rintro _ ⟨i, hi, rfl⟩
    by_cases hiv : i = v
    · subst hiv
      have h1 := hw (x u)
      rw [← Finset.add_sum_erase s _ hv] at h1
      have h2 : x i = (c i (x u))⁻¹ • (x u - ∑ v ∈ s.erase i, c v (x u) • x v) := by
        rw [eq_inv_smul_iff₀ hne]
        exact eq_sub_of_add_eq h1.symm
      rw [SetLike.mem_coe, h2]
      apply Submodule.smul_mem
      apply Submodule.sub_mem
      · exact Submodule.subset_span ⟨u, by simp, rfl⟩
      · apply Submodule.sum_mem
        intro j hj
        exact Submodule.smul_mem _ _ (Submodule.subset_span ⟨j, by
          rw [Finset.mem_coe]; exact Finset.mem_insert_of_mem hj, rfl⟩)
    · exact Submodule.subset_span ⟨i, by
        rw [Finset.mem_coe]; exact Finset.mem_insert_of_mem (Finset.mem_erase.mpr ⟨hiv, hi⟩), rfl⟩

omit [LinearOrder K] [IsStrictOrderedRing K] [DecidableEq ι] in
theorem apply_eq_sum {c : ι → W →ₗ[K] K} (hw : ∀ w, w = ∑ v ∈ s, c v w • x v) (a : W →ₗ[K] K) (w : W) :
    a w = ∑ v ∈ s, c v w * a (x v) := by
  conv_lhs => rw [hw w]
  rw [map_sum]
  exact Finset.sum_congr rfl fun v _ => by rw [map_smul, smul_eq_mul]

end Coords

variable {x : ι → W} {h : ι → K}

omit [LinearOrder K] [IsStrictOrderedRing K] in
theorem Interp.unique [Module.Finite K W] {s : Finset ι} (hs : IsSimp (K := K) x s) {a b : W →ₗ[K] K}
    (ha : Interp x h s a) (hb : Interp x h s b) : a = b := by
  obtain ⟨c, _, hw⟩ := hs.coords
  ext w
  rw [apply_eq_sum hw a, apply_eq_sum hw b]
  exact Finset.sum_congr rfl fun v hv => by rw [ha v hv, hb v hv]

/-- Raise `a` in the direction `l` until it touches the lifted points. -/
theorem rotate {S : Finset ι} {a l : W →ₗ[K] K} (ha : ∀ i ∈ S, a (x i) ≤ h i)
    (hl : ∃ i ∈ S, 0 < l (x i)) :
    ∃ τ : K, 0 ≤ τ ∧ (∃ i ∈ S, 0 < l (x i) ∧ (a + τ • l) (x i) = h i) ∧
      ∀ i ∈ S, (a + τ • l) (x i) ≤ h i := by
  obtain ⟨i0, hi0, hl0⟩ := hl
  let T := S.filter fun i => 0 < l (x i)
  have hT : T.Nonempty := ⟨i0, Finset.mem_filter.mpr ⟨hi0, hl0⟩⟩
  obtain ⟨m, hm, hmin⟩ := Finset.exists_min_image T (fun i => (h i - a (x i)) / l (x i)) hT
  obtain ⟨hmS, hml⟩ := Finset.mem_filter.mp hm
  refine ⟨(h m - a (x m)) / l (x m), div_nonneg (sub_nonneg.mpr (ha m hmS)) hml.le, ⟨m, hmS, hml, ?_⟩, ?_⟩
  · rw [LinearMap.add_apply, LinearMap.smul_apply, smul_eq_mul, div_mul_cancel₀ _ hml.ne']
    ring
  · intro i hi
    rw [LinearMap.add_apply, LinearMap.smul_apply, smul_eq_mul]
    have h0 : 0 ≤ (h m - a (x m)) / l (x m) := div_nonneg (sub_nonneg.mpr (ha m hmS)) hml.le
    by_cases hp : 0 < l (x i)
    · have h1 := hmin i (Finset.mem_filter.mpr ⟨hi, hp⟩)
      have h2 : (h m - a (x m)) / l (x m) * l (x i) ≤ h i - a (x i) := by
        calc _ ≤ (h i - a (x i)) / l (x i) * l (x i) := mul_le_mul_of_nonneg_right h1 hp.le
          _ = _ := div_mul_cancel₀ _ hp.ne'
      linarith
    · have h2 : (h m - a (x m)) / l (x m) * l (x i) ≤ 0 :=
        mul_nonpos_of_nonneg_of_nonpos h0 (not_lt.mp hp)
      have := ha i hi
      linarith

theorem IsDel.le {S t : Finset ι} {a : W →ₗ[K] K} (hi : Interp x h t a)
    (hlt : ∀ i ∈ S, i ∉ t → a (x i) < h i) : ∀ i ∈ S, a (x i) ≤ h i := by
  intro i hS
  by_cases ht : i ∈ t
  · exact (hi i ht).le
  · exact (hlt i hS ht).le

/-- A subset of the points keeps the Delaunay simplices it contains. -/
theorem IsDel.mono {S S' t : Finset ι} (ht : IsDel x h S t) (hS : S' ⊆ S) (hsub : t ⊆ S') :
    IsDel x h S' t := by
  obtain ⟨_, h2, a, h3, h4⟩ := ht
  exact ⟨hsub, h2, a, h3, fun i hi => h4 i (hS hi)⟩

/-- In general position weak emptiness suffices. -/
theorem isDel_of_le {S t : Finset ι} (hgp : GenPos x h S) (hsub : t ⊆ S) (hs : IsSimp (K := K) x t)
    {a : W →ₗ[K] K} (hi : Interp x h t a) (hle : ∀ i ∈ S, i ∉ t → a (x i) ≤ h i) : IsDel x h S t :=
  ⟨hsub, hs, a, hi, fun i hS ht => lt_of_le_of_ne (hle i hS ht) (hgp t hsub hs a hi i hS ht)⟩

/-- Across every facet with points beyond there is another Delaunay simplex. -/
theorem exists_neighbor [Module.Finite K W] {S t : Finset ι} (hgp : GenPos x h S) (ht : IsDel x h S t)
    {c : ι → W →ₗ[K] K} (hc : ∀ u ∈ t, ∀ v ∈ t, c v (x u) = if u = v then 1 else 0)
    (hw : ∀ w, w = ∑ v ∈ t, c v w • x v) {v : ι} (hv : v ∈ t) (hb : ∃ i ∈ S, c v (x i) < 0) :
    ∃ u ∈ S, u ∉ t ∧ c v (x u) < 0 ∧ IsDel x h S (insert u (t.erase v)) := by
  obtain ⟨hsub, hs, a, hi, hlt⟩ := ht
  obtain ⟨τ, hτ, ⟨u, huS, hul, hut⟩, hle⟩ := rotate (x := x) (h := h) (l := -c v) (IsDel.le hi hlt)
    (by obtain ⟨i, hi, hn⟩ := hb; exact ⟨i, hi, by rw [LinearMap.neg_apply]; linarith⟩)
  have hun : c v (x u) < 0 := by rw [LinearMap.neg_apply] at hul; linarith
  have hut' : u ∉ t := by
    intro hm
    rw [hc u hm v hv] at hun
    split at hun
    · exact absurd hun (by norm_num)
    · exact absurd hun (lt_irrefl _)
  refine ⟨u, huS, hut', hun, ?_⟩
  refine isDel_of_le hgp ?_ (exchange hs hw hv hut' hun.ne) (a := a + τ • -c v) ?_ (fun i hi _ => hle i hi)
  · intro i hi
    rcases Finset.mem_insert.mp hi with rfl | hi
    · exact huS
    · exact hsub (Finset.mem_of_mem_erase hi)
  · intro i hmem
    rcases Finset.mem_insert.mp hmem with rfl | hmem
    · exact hut
    · have hit := Finset.mem_of_mem_erase hmem
      rw [LinearMap.add_apply, LinearMap.smul_apply, LinearMap.neg_apply, hc i hit v hv,
        if_neg (Finset.ne_of_mem_erase hmem), hi i hit]
      simp

omit [LinearOrder K] [IsStrictOrderedRing K] in
/-- A functional vanishing on a facet is a multiple of the coordinate. -/
theorem eq_mul_coord {s : Finset ι} {c : ι → W →ₗ[K] K} (hw : ∀ w, w = ∑ v ∈ s, c v w • x v) {v : ι}
    (hv : v ∈ s) {f : W →ₗ[K] K} (hf : ∀ i ∈ s, i ≠ v → f (x i) = 0) (w : W) :
    f w = c v w * f (x v) := by
  rw [apply_eq_sum hw f w, Finset.sum_eq_single v]
  · intro i hi hne; rw [hf i hi hne, mul_zero]
  · intro hn; exact absurd hv hn

/-- Two Delaunay simplices on the same side of a common facet are equal. -/
theorem same_side_unique [Module.Finite K W] {S t₁ t₂ : Finset ι} (h1 : IsDel x h S t₁) (h2 : IsDel x h S t₂)
    {f : Finset ι} {u₁ u₂ : ι} (e1 : t₁ = insert u₁ f) (e2 : t₂ = insert u₂ f)
    (hf1 : u₁ ∉ f) (hf2 : u₂ ∉ f) {l : W →ₗ[K] K} (hl : ∀ i ∈ f, l (x i) = 0)
    (hp : 0 < l (x u₁) * l (x u₂)) : t₁ = t₂ := by
  obtain ⟨s1, p1, a1, i1, lt1⟩ := h1
  obtain ⟨s2, p2, a2, i2, lt2⟩ := h2
  have m1 : u₁ ∈ t₁ := by rw [e1]; simp
  have m2 : u₂ ∈ t₂ := by rw [e2]; simp
  by_contra hne
  have n1 : u₁ ∉ t₂ := by
    intro hm
    rw [e2] at hm
    rcases Finset.mem_insert.mp hm with he | hm
    · exact hne (by rw [e1, e2, he])
    · exact hf1 hm
  have n2 : u₂ ∉ t₁ := by
    intro hm
    rw [e1] at hm
    rcases Finset.mem_insert.mp hm with he | hm
    · exact hne (by rw [e1, e2, he])
    · exact hf2 hm
  have g1 : a2 (x u₁) < h u₁ := lt2 u₁ (s1 m1) n1
  have g2 : a1 (x u₂) < h u₂ := lt1 u₂ (s2 m2) n2
  obtain ⟨c, hc, hw⟩ := p1.coords
  -- both a1 - a2 and l vanish on f
  have hd : ∀ i ∈ t₁, i ≠ u₁ → (a1 - a2) (x i) = 0 := by
    intro i hi hn
    have hif : i ∈ f := by
      rw [e1] at hi
      exact (Finset.mem_insert.mp hi).resolve_left hn
    rw [LinearMap.sub_apply, i1 i hi, i2 i (by rw [e2]; exact Finset.mem_insert_of_mem hif), sub_self]
  have hl' : ∀ i ∈ t₁, i ≠ u₁ → l (x i) = 0 := by
    intro i hi hn
    rw [e1] at hi
    exact hl i ((Finset.mem_insert.mp hi).resolve_left hn)
  have k1 := eq_mul_coord hw m1 hd (x u₂)
  have k2 := eq_mul_coord hw m1 hl' (x u₂)
  have hpos : 0 < c u₁ (x u₂) := by
    rw [k2] at hp
    by_contra hn
    have : l (x u₁) * (c u₁ (x u₂) * l (x u₁)) ≤ 0 := by
      have : l (x u₁) * (c u₁ (x u₂) * l (x u₁)) = c u₁ (x u₂) * (l (x u₁) * l (x u₁)) := by ring
      rw [this]
      exact mul_nonpos_of_nonpos_of_nonneg (not_lt.mp hn) (mul_self_nonneg _)
    linarith
  have q1 : 0 < (a1 - a2) (x u₁) := by
    rw [LinearMap.sub_apply, i1 u₁ m1]; linarith
  have q2 : (a1 - a2) (x u₂) < 0 := by
    rw [LinearMap.sub_apply, i2 u₂ m2]; linarith
  rw [k1] at q2
  have := mul_pos hpos q1
  linarith

/-- The value at a point beyond a facet grows when that facet is crossed. -/
theorem cross_increases {S t : Finset ι} {c : ι → W →ₗ[K] K}
    (hw : ∀ w, w = ∑ v ∈ t, c v w • x v) {v u : ι} (hv : v ∈ t)
    {a a' : W →ₗ[K] K} (hi : Interp x h t a) (hi' : Interp x h (insert u (t.erase v)) a')
    (hu : a (x u) < h u) (hun : c v (x u) < 0) {w : W} (hq : c v w < 0) : a w < a' w := by
  have hd : ∀ i ∈ t, i ≠ v → (a' - a) (x i) = 0 := by
    intro i hit hne
    rw [LinearMap.sub_apply, hi' i (Finset.mem_insert_of_mem (Finset.mem_erase.mpr ⟨hne, hit⟩)), hi i hit,
      sub_self]
  have k1 := eq_mul_coord hw hv hd (x u)
  have k2 := eq_mul_coord hw hv hd w
  have q1 : 0 < (a' - a) (x u) := by
    rw [LinearMap.sub_apply, hi' u (Finset.mem_insert_self _ _)]; linarith
  rw [k1] at q1
  have hneg : (a' - a) (x v) < 0 := by
    by_contra hn
    have := mul_nonpos_of_nonpos_of_nonneg hun.le (not_lt.mp hn)
    linarith
  have : 0 < (a' - a) w := by rw [k2]; exact mul_pos_of_neg_of_neg hq hneg
  rw [LinearMap.sub_apply] at this
  linarith

omit [DecidableEq ι] in
theorem InCone.exists_neg {A : Finset ι} {w : W} (hc : InCone (K := K) x A w) {l : W →ₗ[K] K}
    (hl : l w < 0) : ∃ i ∈ A, l (x i) < 0 := by
  obtain ⟨ν, hν, rfl⟩ := hc
  by_contra hn
  push_neg at hn
  rw [map_sum] at hl
  have : 0 ≤ ∑ i ∈ A, l (ν i • x i) :=
    Finset.sum_nonneg fun i hi => by
      rw [map_smul, smul_eq_mul]; exact mul_nonneg (hν i hi) (hn i hi)
  linarith

/-- The finite set of Delaunay simplices. -/
theorem isDel_finite (S : Finset ι) : {t | IsDel x h S t}.Finite :=
  (Finset.finite_toSet S.powerset).subset fun _ ht => Finset.mem_coe.mpr (Finset.mem_powerset.mpr ht.1)

/-- The interpolating functional of a Delaunay simplex, if there is one. -/
noncomputable def interp (x : ι → W) (h : ι → K) (t : Finset ι) : W →ₗ[K] K :=
  open Classical in if hex : ∃ a, Interp x h t a then hex.choose else 0

omit [DecidableEq ι] [LinearOrder K] [IsStrictOrderedRing K] in
theorem interp_spec {t : Finset ι} {a : W →ₗ[K] K} (ha : Interp x h t a) : Interp x h t (interp x h t) := by
  have hex : ∃ a, Interp x h t a := ⟨a, ha⟩
  rw [interp, dif_pos hex]
  exact hex.choose_spec

theorem IsDel.interp {S t : Finset ι} [Module.Finite K W] (ht : IsDel x h S t) :
    Interp x h t (Del.interp x h t) ∧ ∀ i ∈ S, i ∉ t → Del.interp x h t (x i) < h i := by
  obtain ⟨_, hs, a, hi, hlt⟩ := ht
  have : Del.interp x h t = a := Interp.unique hs (interp_spec hi) hi
  rw [this]
  exact ⟨hi, hlt⟩

/-- Induction along the walk towards `w`. -/
theorem walk [Module.Finite K W] {S : Finset ι} (hgp : GenPos x h S) {w : W} (hcone : InCone (K := K) x S w)
    {κ : K} (E : Finset ι → Prop)
    (hbase : ∀ t, IsDel x h S t → κ < interp x h t w → InCone (K := K) x t w → E t)
    (hstep : ∀ t v u, IsDel x h S t → κ < interp x h t w → v ∈ t → u ∉ t →
      IsDel x h S (insert u (t.erase v)) → E (insert u (t.erase v)) → E t) :
    ∀ t, IsDel x h S t → κ < interp x h t w → E t := by
  by_contra hcon
  push_neg at hcon
  obtain ⟨t0, ht0, hk0, hE0⟩ := hcon
  -- counterexample with the largest value
  have hfin : {t | IsDel x h S t ∧ κ < interp x h t w ∧ ¬ E t}.Finite :=
    (isDel_finite (x := x) (h := h) S).subset fun t ht => ht.1
  obtain ⟨t, htm, hmax⟩ := Set.exists_max_image _ (fun t => interp x h t w) hfin ⟨t0, ht0, hk0, hE0⟩
  obtain ⟨ht, hk, hE⟩ := htm
  obtain ⟨hi, hlt⟩ := ht.interp
  obtain ⟨c, hc, hw⟩ := ht.2.1.coords
  by_cases hall : ∀ v ∈ t, 0 ≤ c v w
  · exact hE (hbase t ht hk ⟨fun v => c v w, hall, hw w⟩)
  · push_neg at hall
    obtain ⟨v, hv, hneg⟩ := hall
    obtain ⟨u, huS, hut, hun, hdel⟩ := exists_neighbor hgp ht hc hw hv (hcone.exists_neg hneg)
    have hinc := cross_increases (S := S) hw hv hi hdel.interp.1 (hlt u huS hut) hun hneg
    have hEn : E (insert u (t.erase v)) := by
      by_contra hn
      have := hmax _ ⟨hdel, hk.trans hinc, hn⟩
      exact absurd this (not_le.mpr hinc)
    exact hE (hstep t v u ht hk hv hut hdel hEn)

/-- Every point is a vertex of some Delaunay simplex. -/
theorem exists_isDel [Module.Finite K W] {S : Finset ι} (hgp : GenPos x h S)
    (hspan : (⊤ : Submodule K W) ≤ Submodule.span K (x '' (S : Set ι))) {p : ι} (hp : p ∈ S)
    {a : W →ₗ[K] K} (ha : ∀ i ∈ S, a (x i) ≤ h i) (hap : a (x p) = h p) :
    ∃ t, IsDel x h S t ∧ p ∈ t := by
  classical
  -- induction on the codimension of the span of the tight points
  suffices hmain : ∀ (k : Nat) (a : W →ₗ[K] K), (∀ i ∈ S, a (x i) ≤ h i) → a (x p) = h p →
      Module.finrank K W - Module.finrank K (Submodule.span K (x '' {i | i ∈ S ∧ a (x i) = h i})) = k →
      ∃ t, IsDel x h S t ∧ p ∈ t from hmain _ a ha hap rfl
  intro k
  induction k using Nat.strong_induction_on with
  | _ k ih =>
    intro a ha hap hk
    by_cases htop : Submodule.span K (x '' {i | i ∈ S ∧ a (x i) = h i}) = ⊤
    · -- a basis among the tight points
      obtain ⟨B, hBsub, hBspan, hBli⟩ := exists_linearIndependent K (x '' {i | i ∈ S ∧ a (x i) = h i})
      -- choose indices
      have hBfin : B.Finite := by
        refine Set.Finite.subset ?_ hBsub
        refine Set.Finite.image _ (Set.Finite.subset (Finset.finite_toSet S) ?_)
        intro i hi; exact hi.1
      have hch : ∀ b : W, ∃ i, b ∈ B → (i ∈ S ∧ a (x i) = h i) ∧ x i = b := by
        intro b
        by_cases hb : b ∈ B
        · obtain ⟨i, hi, hxi⟩ := hBsub hb
          exact ⟨i, fun _ => ⟨hi, hxi⟩⟩
        · exact ⟨p, fun h => absurd h hb⟩
      choose g hg using hch
      let s : Finset ι := hBfin.toFinset.image g
      have himg : x '' (s : Set ι) = B := by
        ext w
        constructor
        · rintro ⟨i, hi, rfl⟩
          simp only [s, Finset.coe_image, Set.Finite.coe_toFinset] at hi
          obtain ⟨b, hb, rfl⟩ := hi
          rw [(hg b hb).2]; exact hb
        · intro hw
          exact ⟨g w, by simp only [s, Finset.coe_image, Set.Finite.coe_toFinset]; exact ⟨w, hw, rfl⟩,
            (hg w hw).2⟩
      have hs1 : ∀ i ∈ s, i ∈ S ∧ a (x i) = h i := by
        intro i hi
        simp only [s, Finset.mem_image, Set.Finite.mem_toFinset] at hi
        obtain ⟨b, hb, rfl⟩ := hi
        exact (hg b hb).1
      have hsimp : IsSimp (K := K) x s := by
        constructor
        · have hinj : Set.InjOn g (hBfin.toFinset : Set W) := by
            intro b hb b' hb' he
            rw [Set.Finite.coe_toFinset] at hb hb'
            rw [← (hg b hb).2, ← (hg b' hb').2, he]
          rw [Finset.card_image_of_injOn hinj]
          have hbasis := Module.Basis.mk hBli (by
            rw [Subtype.range_coe, hBspan, htop])
          haveI : Fintype B := hBfin.fintype
          rw [Module.finrank_eq_card_basis hbasis]
          rw [← Set.toFinset_card]
          congr 1
          ext b; simp
        · rw [himg, hBspan, htop]
      have hint : Interp x h s a := fun i hi => (hs1 i hi).2
      have hdel : IsDel x h S s := isDel_of_le hgp (fun i hi => (hs1 i hi).1) hsimp hint (fun i hi _ => ha i hi)
      refine ⟨s, hdel, ?_⟩
      by_contra hps
      exact hgp s hdel.1 hsimp a hint p hp hps hap
    · obtain ⟨l, hl0, hker⟩ := Submodule.exists_le_ker_of_lt_top _ (lt_top_iff_ne_top.mpr htop)
      have hvan : ∀ i ∈ S, a (x i) = h i → l (x i) = 0 := by
        intro i hi ht
        exact LinearMap.mem_ker.mp (hker (Submodule.subset_span ⟨i, ⟨hi, ht⟩, rfl⟩))
      obtain ⟨i1, hi1, hne⟩ : ∃ i ∈ S, l (x i) ≠ 0 := by
        by_contra hn
        push_neg at hn
        apply hl0
        have : (⊤ : Submodule K W) ≤ LinearMap.ker l := by
          refine hspan.trans (Submodule.span_le.mpr ?_)
          rintro _ ⟨i, hi, rfl⟩
          exact LinearMap.mem_ker.mpr (hn i hi)
        ext w
        exact LinearMap.mem_ker.mp (this (Submodule.mem_top (x := w)))
      -- orient l
      obtain ⟨m, hm1, hm2, hm3⟩ : ∃ m : W →ₗ[K] K, (∃ i ∈ S, 0 < m (x i)) ∧
          (∀ i ∈ S, a (x i) = h i → m (x i) = 0) ∧
          Submodule.span K (x '' {i | i ∈ S ∧ a (x i) = h i}) ≤ LinearMap.ker m := by
        rcases lt_or_gt_of_ne hne with hlt | hgt
        · refine ⟨-l, ⟨i1, hi1, by rw [LinearMap.neg_apply]; linarith⟩, fun i hi ht => by
            rw [LinearMap.neg_apply, hvan i hi ht, neg_zero], fun w hw => ?_⟩
          have := LinearMap.mem_ker.mp (hker hw)
          rw [LinearMap.mem_ker, LinearMap.neg_apply, this, neg_zero]
        · exact ⟨l, ⟨i1, hi1, hgt⟩, hvan, hker⟩
      obtain ⟨τ, hτ, ⟨j, hjS, hjl, hjt⟩, hle⟩ := rotate ha hm1
      have hsub : {i | i ∈ S ∧ a (x i) = h i} ⊆ {i | i ∈ S ∧ (a + τ • m) (x i) = h i} := by
        rintro i ⟨hi, ht⟩
        refine ⟨hi, ?_⟩
        rw [LinearMap.add_apply, LinearMap.smul_apply, hm2 i hi ht, ht, smul_zero, add_zero]
      have hlt : Submodule.span K (x '' {i | i ∈ S ∧ a (x i) = h i}) <
          Submodule.span K (x '' {i | i ∈ S ∧ (a + τ • m) (x i) = h i}) := by
        refine lt_of_le_of_ne (Submodule.span_mono (Set.image_mono hsub)) ?_
        intro he
        have : x j ∈ Submodule.span K (x '' {i | i ∈ S ∧ a (x i) = h i}) := by
          rw [he]; exact Submodule.subset_span ⟨j, ⟨hjS, hjt⟩, rfl⟩
        have := LinearMap.mem_ker.mp (hm3 this)
        exact absurd hjl (by rw [this]; exact lt_irrefl _)
      have hrank := Submodule.finrank_lt_finrank_of_lt hlt
      have hrank2 := Submodule.finrank_le (Submodule.span K (x '' {i | i ∈ S ∧ (a + τ • m) (x i) = h i}))
      refine ih _ ?_ (a + τ • m) hle (hsub ⟨hp, hap⟩).2 rfl
      omega

/-- Among the Delaunay simplices at `p` there is one whose cone at `p` contains `w`. -/
theorem exists_cone_at [Module.Finite K W] {S : Finset ι} (hgp : GenPos x h S)
    (hspan : (⊤ : Submodule K W) ≤ Submodule.span K (x '' (S : Set ι))) {p : ι} (hp : p ∈ S)
    {a : W →ₗ[K] K} (ha : ∀ i ∈ S, a (x i) ≤ h i) (hap : a (x p) = h p) {w : W}
    (hcone : InCone (K := K) x S w) :
    ∃ t, IsDel x h S t ∧ p ∈ t ∧ a w ≤ interp x h t w := by
  obtain ⟨t0, ht0, hpt0⟩ := exists_isDel hgp hspan hp ha hap
  have hfin : {t | IsDel x h S t ∧ p ∈ t}.Finite :=
    (isDel_finite (x := x) (h := h) S).subset fun t ht => ht.1
  obtain ⟨t, ⟨ht, hpt⟩, hmax⟩ := Set.exists_max_image _ (fun t => interp x h t w) hfin ⟨t0, ht0, hpt0⟩
  obtain ⟨hi, hlt⟩ := ht.interp
  obtain ⟨c, hc, hw⟩ := ht.2.1.coords
  have hall : ∀ v ∈ t, v ≠ p → 0 ≤ c v w := by
    intro v hv hvp
    by_contra hneg
    push_neg at hneg
    obtain ⟨u, huS, hut, hun, hdel⟩ := exists_neighbor hgp ht hc hw hv (hcone.exists_neg hneg)
    have hinc := cross_increases (S := S) hw hv hi hdel.interp.1 (hlt u huS hut) hun hneg
    have := hmax _ ⟨hdel, Finset.mem_insert_of_mem (Finset.mem_erase.mpr ⟨fun h => hvp h.symm, hpt⟩)⟩
    exact absurd this (not_le.mpr hinc)
  refine ⟨t, ht, hpt, ?_⟩
  have : 0 ≤ (interp x h t - a) w := by
    rw [apply_eq_sum hw]
    apply Finset.sum_nonneg
    intro v hv
    rw [LinearMap.sub_apply, hi v hv]
    by_cases hvp : v = p
    · rw [hvp, hap, sub_self, mul_zero]
    · exact mul_nonneg (hall v hv hvp) (sub_nonneg.mpr (ha v (ht.1 hv)))
  rw [LinearMap.sub_apply] at this
  linarith

end Del
end Verif
