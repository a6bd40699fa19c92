import Verif.Spec.Delaunay

/-!
# The geometric core of the divide-and-conquer merge

Point sets `P j` (the parts) and `Inf` (the infinite points, shared by all parts); `E j` is the set of edge
simplices of part `j`, `V` the edge points.
-/
namespace Verif
namespace Del
variable {ι K W J : Type*} [DecidableEq ι] [Field K] [LinearOrder K] [IsStrictOrderedRing K]
variable [AddCommGroup W] [Module K W]

/-- What the merge needs to know about the points and the partition. -/
structure MergeHyp (x : ι → W) (h : ι → K) (Inf : Finset ι) (P : J → Finset ι) (S : Finset ι) : Prop where
  /-- all points: the infinite ones and those of the parts -/
  mem_S : ∀ i, i ∈ S ↔ i ∈ Inf ∨ ∃ j, i ∈ P j
  notInf : ∀ j, ∀ i ∈ P j, i ∉ Inf
  disj : ∀ j k i, i ∈ P j → i ∈ P k → j = k
  /-- no part contains a point of another part in its convex hull -/
  sep : ∀ j k, j ≠ k → ∀ q ∈ P k, ¬ InCone (K := K) x (P j) (x q)
  gp : GenPos x h S
  nh : NoHidden x h S
  /-- the infinite points span a full-dimensional polytope that contains all points -/
  span : (⊤ : Submodule K W) ≤ Submodule.span K (x '' (Inf : Set ι))
  cone : ∀ i ∈ S, InCone (K := K) x Inf (x i)
  /-- every simplex of infinite points has all finite points in its circumsphere -/
  infEmpty : ∀ s ⊆ Inf, IsSimp (K := K) x s → ∀ a : W →ₗ[K] K, Interp x h s a → ∀ p ∈ S, p ∉ Inf →
    h p < a (x p)
  two : ∃ j k, j ≠ k ∧ (P j).Nonempty ∧ (P k).Nonempty
  nz : ∀ i ∈ S, x i ≠ 0

/-- The edge of part `j`: simplices `E j` whose circumsphere contains points of another part are found if
they have an infinite vertex or are adjacent to an edge simplex. -/
structure EdgeHyp (x : ι → W) (h : ι → K) (Inf : Finset ι) (P : J → Finset ι)
    (E : J → Finset ι → Prop) (V : Finset ι) : Prop where
  sub : ∀ j t, E j t → IsDel x h (Inf ∪ P j) t
  hull : ∀ j t, IsDel x h (Inf ∪ P j) t → (∃ i ∈ t, i ∈ Inf) →
    (∃ k, k ≠ j ∧ ∃ q ∈ P k, h q < interp x h t (x q)) → E j t
  step : ∀ j t v u, IsDel x h (Inf ∪ P j) t → v ∈ t → u ∉ t → E j (insert u (t.erase v)) →
    (∃ k, k ≠ j ∧ ∃ q ∈ P k, h q < interp x h t (x q)) → E j t
  mem_V : ∀ i, i ∈ V ↔ i ∈ Inf ∨ ∃ j t, E j t ∧ i ∈ t

theorem InCone.mono {x : ι → W} {A B : Finset ι} {w : W} (hc : InCone (K := K) x A w) (hs : A ⊆ B) :
    InCone (K := K) x B w := by
  obtain ⟨ν, hν, rfl⟩ := hc
  refine ⟨fun i => if i ∈ A then ν i else 0, ?_, ?_⟩
  · intro i _
    simp only
    split
    · exact hν i ‹_›
    · exact le_refl _
  · rw [← Finset.sum_subset hs]
    · exact Finset.sum_congr rfl fun i hi => by simp only [if_pos hi]
    · intro i _ hi; simp only [if_neg hi, zero_smul]

theorem GenPos.mono {x : ι → W} {h : ι → K} {A B : Finset ι} (hg : GenPos x h B) (hs : A ⊆ B) :
    GenPos x h A :=
  fun s hsA hsimp a ha i hi hn => hg s (hsA.trans hs) hsimp a ha i (hs hi) hn

omit [LinearOrder K] [IsStrictOrderedRing K] in
theorem IsSimp.exists_interp [Module.Finite K W] {x : ι → W} {s : Finset ι} (hs : IsSimp (K := K) x s)
    (h : ι → K) : ∃ a : W →ₗ[K] K, Interp x h s a := by
  obtain ⟨c, hc, _⟩ := hs.coords
  refine ⟨∑ v ∈ s, h v • c v, fun i hi => ?_⟩
  rw [LinearMap.sum_apply, Finset.sum_eq_single i]
  · rw [LinearMap.smul_apply, hc i hi i hi, if_pos rfl, smul_eq_mul, mul_one]
  · intro v hv hne
    rw [LinearMap.smul_apply, hc i hi v hv, if_neg (fun h => hne h.symm), smul_zero]
  · intro hn; exact absurd hi hn

variable {x : ι → W} {h : ι → K} {Inf S V : Finset ι} {P : J → Finset ι} {E : J → Finset ι → Prop}

namespace MergeHyp
variable (H : MergeHyp x h Inf P S)
include H

omit [IsStrictOrderedRing K] in
theorem infSub : Inf ⊆ S := fun i hi => (H.mem_S i).mpr (Or.inl hi)

omit [IsStrictOrderedRing K] in
theorem partSub (j : J) : Inf ∪ P j ⊆ S := by
  intro i hi
  rcases Finset.mem_union.mp hi with hi | hi
  · exact H.infSub hi
  · exact (H.mem_S i).mpr (Or.inr ⟨j, hi⟩)

omit [IsStrictOrderedRing K] in
theorem notMem_part {j k : J} (hjk : j ≠ k) {q : ι} (hq : q ∈ P k) : q ∉ Inf ∪ P j := by
  intro hm
  rcases Finset.mem_union.mp hm with hm | hm
  · exact H.notInf k q hq hm
  · exact hjk (H.disj j k q hm hq)

theorem coneSub {A : Finset ι} (hA : Inf ⊆ A) {i : ι} (hi : i ∈ S) : InCone (K := K) x A (x i) :=
  (H.cone i hi).mono hA

omit [IsStrictOrderedRing K] in
theorem spanSub {A : Finset ι} (hA : Inf ⊆ A) :
    (⊤ : Submodule K W) ≤ Submodule.span K (x '' (A : Set ι)) :=
  H.span.trans (Submodule.span_mono (Set.image_mono (Finset.coe_subset.mpr hA)))

theorem nhLe {p : ι} (hp : p ∈ S) : ∃ b : W →ₗ[K] K, b (x p) = h p ∧ (∀ i ∈ S, i ≠ p → b (x i) < h i) ∧
    ∀ i ∈ S, b (x i) ≤ h i := by
  obtain ⟨b, h1, h2⟩ := H.nh p hp
  refine ⟨b, h1, h2, fun i hi => ?_⟩
  by_cases he : i = p
  · rw [he, h1]
  · exact (h2 i hi he).le

variable [Module.Finite K W]

/-- All edge simplices are found. -/
theorem edge_complete (HE : EdgeHyp x h Inf P E V) {j k : J} (hjk : k ≠ j) {q : ι} (hq : q ∈ P k)
    {t : Finset ι} (ht : IsDel x h (Inf ∪ P j) t) (hlt : h q < interp x h t (x q)) : E j t := by
  have hqS : q ∈ S := (H.mem_S q).mpr (Or.inr ⟨k, hq⟩)
  refine walk (H.gp.mono (H.partSub j)) (w := x q) (κ := h q)
    (H.coneSub Finset.subset_union_left hqS) (E j) ?_ ?_ t ht hlt
  · intro t ht hlt hc
    refine HE.hull j t ht ?_ ⟨k, hjk, q, hq, hlt⟩
    by_contra hno
    push_neg at hno
    refine H.sep j k (fun h => hjk h.symm) q hq (hc.mono ?_)
    intro i hi
    exact (Finset.mem_union.mp (ht.1 hi)).resolve_left (hno i hi)
  · intro t v u ht hlt hv hu _ hE
    exact HE.step j t v u ht hv hu hE ⟨k, hjk, q, hq, hlt⟩

/-- A point on an empty sphere that also touches a point of another part is an edge point. -/
theorem touch (HE : EdgeHyp x h Inf P E V) {j k : J} (hjk : k ≠ j) {p q : ι} (hp : p ∈ P j) (hq : q ∈ P k)
    {a : W →ₗ[K] K} (ha : ∀ i ∈ Inf ∪ P j, a (x i) ≤ h i) (hap : a (x p) = h p) (haq : h q ≤ a (x q)) :
    p ∈ V := by
  have hqS : q ∈ S := (H.mem_S q).mpr (Or.inr ⟨k, hq⟩)
  obtain ⟨t, ht, hpt, hle⟩ := exists_cone_at (H.gp.mono (H.partSub j)) (H.spanSub Finset.subset_union_left)
    (Finset.mem_union_right _ hp) ha hap (H.coneSub (A := Inf ∪ P j) Finset.subset_union_left hqS)
  have hqt : q ∉ t := fun hm => H.notMem_part (fun h => hjk h.symm) hq (ht.1 hm)
  have hne := H.gp t (ht.1.trans (H.partSub j)) ht.2.1 _ ht.interp.1 q hqS hqt
  have hlt : h q < interp x h t (x q) := lt_of_le_of_ne (haq.trans hle) (Ne.symm hne)
  exact (HE.mem_V p).mpr (Or.inr ⟨j, t, H.edge_complete HE hjk hq ht hlt, hpt⟩)

omit [IsStrictOrderedRing K] [Module.Finite K W] in
theorem vSub (HE : EdgeHyp x h Inf P E V) : V ⊆ S := by
  intro i hi
  rcases (HE.mem_V i).mp hi with hi | ⟨j, t, ht, hit⟩
  · exact H.infSub hi
  · exact H.partSub j ((HE.sub j t ht).1 hit)

omit H [IsStrictOrderedRing K] [Module.Finite K W] in
theorem infV (HE : EdgeHyp x h Inf P E V) : Inf ⊆ V := fun i hi => (HE.mem_V i).mpr (Or.inl hi)

/-- The circumsphere of a simplex of the edge triangulation with a vertex in part `k` contains no point of
another part `j`. -/
theorem edge_empty (HE : EdgeHyp x h Inf P E V) {j k : J} (hjk : k ≠ j) {s : Finset ι}
    (hs : IsDel x h V s) {p q : ι} (hp : p ∈ P j) (hqs : q ∈ s) (hq : q ∈ P k) :
    ¬ h p < interp x h s (x p) := by
  intro hlt
  have hqS : q ∈ S := (H.mem_S q).mpr (Or.inr ⟨k, hq⟩)
  obtain ⟨b, hbq, _, hble⟩ := H.nhLe hqS
  obtain ⟨hi, hlts⟩ := hs.interp
  have hpS : p ∈ S := (H.mem_S p).mpr (Or.inr ⟨j, hp⟩)
  have hbp := hble p hpS
  have hlp : 0 < (interp x h s - b) (x p) := by rw [LinearMap.sub_apply]; linarith
  obtain ⟨τ, hτ, ⟨m, hm, hml, hmt⟩, hle⟩ := rotate (x := x) (h := h) (S := Inf ∪ P j) (a := b)
    (l := interp x h s - b) (fun i hi => hble i (H.partSub j hi)) ⟨p, Finset.mem_union_right _ hp, hlp⟩
  have hτ1 : τ < 1 := by
    have h1 := hle p (Finset.mem_union_right _ hp)
    rw [LinearMap.add_apply, LinearMap.smul_apply, smul_eq_mul] at h1
    have h2 : τ * (interp x h s - b) (x p) < 1 * (interp x h s - b) (x p) := by
      rw [one_mul]
      have : (interp x h s - b) (x p) = interp x h s (x p) - b (x p) := LinearMap.sub_apply _ _ _
      linarith
    exact lt_of_mul_lt_mul_right h2 hlp.le
  have hmlt : h m < interp x h s (x m) := by
    rw [LinearMap.add_apply, LinearMap.smul_apply, smul_eq_mul] at hmt
    have h2 : τ * (interp x h s - b) (x m) < 1 * (interp x h s - b) (x m) :=
      mul_lt_mul_of_pos_right hτ1 hml
    have : (interp x h s - b) (x m) = interp x h s (x m) - b (x m) := LinearMap.sub_apply _ _ _
    linarith
  have hmV : m ∉ V := by
    intro hmV
    by_cases hms : m ∈ s
    · rw [hi m hms] at hmlt; exact lt_irrefl _ hmlt
    · exact absurd (hlts m hmV hms) (not_lt.mpr hmlt.le)
  have hmP : m ∈ P j := by
    rcases Finset.mem_union.mp hm with hm | hm
    · exact absurd (infV HE hm) hmV
    · exact hm
  refine hmV (H.touch HE hjk hmP hq hle hmt ?_)
  rw [LinearMap.add_apply, LinearMap.smul_apply, LinearMap.sub_apply, hbq, hi q hqs, sub_self, smul_zero,
    add_zero]

omit H in
theorem exists_cone {A : Finset ι} (hgp : GenPos x h A) (hex : ∃ t, IsDel x h A t) {w : W}
    (hc : InCone (K := K) x A w) : ∃ t, IsDel x h A t ∧ InCone (K := K) x t w := by
  by_contra hno
  push_neg at hno
  obtain ⟨t1, ht1⟩ := hex
  exact walk hgp hc (κ := interp x h t1 w - 1) (fun _ => False)
    (fun t ht _ hcone => hno t ht hcone) (fun _ _ _ _ _ _ _ _ hf => hf) t1 ht1 (by linarith)

/-- No Delaunay simplex consists of infinite points only. -/
theorem not_allInf {A t : Finset ι} (hA : A ⊆ S) (hfin : ∃ p ∈ A, p ∉ Inf) (ht : IsDel x h A t) :
    ¬ t ⊆ Inf := by
  intro hsub
  obtain ⟨p, hp, hpI⟩ := hfin
  have h1 := H.infEmpty t hsub ht.2.1 _ ht.interp.1 p (hA hp) hpI
  have h2 := ht.interp.2 p hp (fun hm => hpI (hsub hm))
  exact lt_asymm h1 h2

/-- The edge contains a finite point. -/
theorem edge_finite (HE : EdgeHyp x h Inf P E V) : ∃ p ∈ V, p ∉ Inf := by
  obtain ⟨j, k, hjk, ⟨p, hp⟩, q, hq⟩ := H.two
  have hqS : q ∈ S := (H.mem_S q).mpr (Or.inr ⟨k, hq⟩)
  have hpS : p ∈ S := (H.mem_S p).mpr (Or.inr ⟨j, hp⟩)
  have hgp := H.gp.mono (H.partSub j)
  obtain ⟨b, hbp, _, hble⟩ := H.nhLe hpS
  obtain ⟨t0, ht0, _⟩ := exists_isDel hgp (H.spanSub Finset.subset_union_left)
    (Finset.mem_union_right Inf hp) (a := b) (fun i hi => hble i (H.partSub j hi)) hbp
  obtain ⟨t, ht, hc⟩ := exists_cone hgp ⟨t0, ht0⟩ (H.coneSub (A := Inf ∪ P j) Finset.subset_union_left hqS)
  obtain ⟨d, hdq, hdlt, hdle⟩ := H.nhLe hqS
  have hlt : h q < interp x h t (x q) := by
    obtain ⟨ν, hν, he⟩ := hc
    have hpos : ∃ i ∈ t, 0 < ν i := by
      by_contra hno
      push_neg at hno
      apply H.nz q hqS
      rw [he]
      apply Finset.sum_eq_zero
      intro i hi
      rw [le_antisymm (hno i hi) (hν i hi), zero_smul]
    obtain ⟨i0, hi0, hpos⟩ := hpos
    rw [← hdq, he, map_sum, map_sum]
    have hval : ∀ i ∈ t, d (x i) < h i := fun i hi => hdlt i (H.partSub j (ht.1 hi)) (by
      rintro rfl
      exact H.notMem_part hjk hq (ht.1 hi))
    apply Finset.sum_lt_sum
    · intro i hi
      rw [map_smul, map_smul, smul_eq_mul, smul_eq_mul, ht.interp.1 i hi]
      exact mul_le_mul_of_nonneg_left (hval i hi).le (hν i hi)
    · refine ⟨i0, hi0, ?_⟩
      rw [map_smul, map_smul, smul_eq_mul, smul_eq_mul, ht.interp.1 i0 hi0]
      exact mul_lt_mul_of_pos_left (hval i0 hi0) hpos
  have hE := H.edge_complete HE (fun h => hjk h.symm) hq ht hlt
  have hni := H.not_allInf (H.partSub j) ⟨p, Finset.mem_union_right _ hp, H.notInf j p hp⟩ ht
  obtain ⟨i, hi, hiI⟩ := Finset.not_subset.mp hni
  exact ⟨i, (HE.mem_V i).mpr (Or.inr ⟨j, t, hE, hi⟩), hiI⟩

omit [IsStrictOrderedRing K] [Module.Finite K W] in
theorem finite_mem : ∃ p ∈ S, p ∉ Inf := by
  obtain ⟨j, _, _, ⟨p, hp⟩, _⟩ := H.two
  exact ⟨p, (H.mem_S p).mpr (Or.inr ⟨j, hp⟩), H.notInf j p hp⟩

/-- Simplices of a part that are not in the edge are Delaunay for all points. -/
theorem kept_isDel (HE : EdgeHyp x h Inf P E V) {j : J} {t : Finset ι} (ht : IsDel x h (Inf ∪ P j) t)
    (hE : ¬ E j t) : IsDel x h S t := by
  refine isDel_of_le H.gp (ht.1.trans (H.partSub j)) ht.2.1 ht.interp.1 ?_
  intro i hi hit
  by_cases hm : i ∈ Inf ∪ P j
  · exact (ht.interp.2 i hm hit).le
  · rcases (H.mem_S i).mp hi with hI | ⟨k, hk⟩
    · exact absurd (Finset.mem_union_left _ hI) hm
    · have hkj : k ≠ j := by
        rintro rfl
        exact hm (Finset.mem_union_right _ hk)
      by_contra hlt
      exact hE (H.edge_complete HE hkj hk ht (not_le.mp hlt))

/-- Simplices of the edge triangulation that span several parts, or that were removed, are Delaunay for all
points. -/
theorem inserted_isDel (HE : EdgeHyp x h Inf P E V) {t : Finset ι} (ht : IsDel x h V t)
    (hins : (¬ ∃ j, t ⊆ Inf ∪ P j) ∨ ∃ j, E j t) : IsDel x h S t := by
  refine isDel_of_le H.gp (ht.1.trans (H.vSub HE)) ht.2.1 ht.interp.1 ?_
  intro p hp hpt
  by_contra hlt
  push_neg at hlt
  have hpV : p ∉ V := fun hm => lt_asymm hlt (ht.interp.2 p hm hpt)
  obtain ⟨j, hj⟩ : ∃ j, p ∈ P j := by
    rcases (H.mem_S p).mp hp with hI | hj
    · exact absurd (infV HE hI) hpV
    · exact hj
  -- a vertex in another part
  obtain ⟨q, hqt, k, hkj, hqk⟩ : ∃ q ∈ t, ∃ k, k ≠ j ∧ q ∈ P k := by
    rcases hins with hno | ⟨j', hE⟩
    · push_neg at hno
      obtain ⟨q, hqt, hqn⟩ := Finset.not_subset.mp (hno j)
      rcases (H.mem_S q).mp (H.vSub HE (ht.1 hqt)) with hI | ⟨k, hk⟩
      · exact absurd (Finset.mem_union_left _ hI) hqn
      · refine ⟨q, hqt, k, ?_, hk⟩
        rintro rfl
        exact hqn (Finset.mem_union_right _ hk)
    · have hd := HE.sub j' t hE
      have hjj : j' ≠ j := by
        rintro rfl
        exact lt_asymm hlt (hd.interp.2 p (Finset.mem_union_right _ hj) hpt)
      obtain ⟨q, hqt, hqI⟩ := Finset.not_subset.mp (H.not_allInf (H.vSub HE) (H.edge_finite HE) ht)
      exact ⟨q, hqt, j', hjj, (Finset.mem_union.mp (hd.1 hqt)).resolve_left hqI⟩
  exact H.edge_empty HE hkj ht hj hqt hqk hlt

/-- Every Delaunay simplex of all points is kept or inserted. -/
theorem isDel_kept_or_inserted (HE : EdgeHyp x h Inf P E V) {t : Finset ι} (ht : IsDel x h S t) :
    (∃ j, IsDel x h (Inf ∪ P j) t ∧ ¬ E j t) ∨
      (IsDel x h V t ∧ ((¬ ∃ j, t ⊆ Inf ∪ P j) ∨ ∃ j, E j t)) := by
  by_cases hone : ∃ j, t ⊆ Inf ∪ P j
  · obtain ⟨j, hj⟩ := hone
    have hd := ht.mono (H.partSub j) hj
    by_cases hE : E j t
    · right
      refine ⟨ht.mono (H.vSub HE) ?_, Or.inr ⟨j, hE⟩⟩
      intro i hi
      exact (HE.mem_V i).mpr (Or.inr ⟨j, t, hE, hi⟩)
    · exact Or.inl ⟨j, hd, hE⟩
  · right
    refine ⟨ht.mono (H.vSub HE) ?_, Or.inl hone⟩
    intro p hpt
    rcases (H.mem_S p).mp (ht.1 hpt) with hI | ⟨j, hj⟩
    · exact infV HE hI
    · push_neg at hone
      obtain ⟨q, hqt, hqn⟩ := Finset.not_subset.mp (hone j)
      rcases (H.mem_S q).mp (ht.1 hqt) with hI | ⟨k, hk⟩
      · exact absurd (Finset.mem_union_left _ hI) hqn
      · have hkj : k ≠ j := by
          rintro rfl
          exact hqn (Finset.mem_union_right _ hk)
        refine H.touch HE hkj hj hk (a := interp x h t) ?_ (ht.interp.1 p hpt) (ht.interp.1 q hqt).ge
        exact fun i hi => IsDel.le ht.interp.1 ht.interp.2 i (H.partSub j hi)

end MergeHyp

/-! ### Adjacency -/

variable [Module.Finite K W]

/-- `t'` is the simplex on the other side of the facet of `t` opposite `v`. -/
def Across (t : Finset ι) (v : ι) (t' : Finset ι) : Prop := v ∈ t ∧ ∃ u, u ∉ t ∧ t' = insert u (t.erase v)

omit [Field K] [LinearOrder K] [IsStrictOrderedRing K] [AddCommGroup W] [Module K W] [Module.Finite K W] in
theorem Across.facet {t t' : Finset ι} {v : ι} (ha : Across t v t') : t.erase v ⊆ t' := by
  obtain ⟨_, u, _, rfl⟩ := ha
  exact Finset.subset_insert _ _

theorem across_of_facet {A t t' : Finset ι} (ht : IsDel x h A t) (ht' : IsDel x h A t') {v : ι} (hv : v ∈ t)
    (hne : t' ≠ t) (hf : t.erase v ⊆ t') : Across t v t' := by
  have hc : (t' \ t.erase v).card = 1 := by
    rw [Finset.card_sdiff_of_subset hf, Finset.card_erase_of_mem hv, ht.2.1.1, ht'.2.1.1]
    have := Finset.card_pos.mpr ⟨v, hv⟩
    rw [ht.2.1.1] at this
    omega
  obtain ⟨u, hu⟩ := Finset.card_eq_one.mp hc
  have hmem : u ∈ t' \ t.erase v := by rw [hu]; simp
  obtain ⟨h1, h2⟩ := Finset.mem_sdiff.mp hmem
  have he : t' = insert u (t.erase v) := by
    rw [Finset.insert_eq, ← hu, Finset.sdiff_union_of_subset hf]
  refine ⟨hv, u, ?_, he⟩
  intro hut
  have huv : u = v := by
    by_contra hn
    exact h2 (Finset.mem_erase.mpr ⟨hn, hut⟩)
  rw [huv, Finset.insert_erase hv] at he
  exact hne he

theorem across_neg {A t t' : Finset ι} (ht : IsDel x h A t) (ht' : IsDel x h A t') {v u : ι} (hv : v ∈ t)
    (hu : u ∉ t) (he : t' = insert u (t.erase v)) {c : ι → W →ₗ[K] K}
    (hc : ∀ u ∈ t, ∀ v ∈ t, c v (x u) = if u = v then 1 else 0) : c v (x u) < 0 := by
  by_contra hn
  push_neg at hn
  rcases hn.lt_or_eq with hpos | hz
  · have : t = t' := by
      refine same_side_unique ht ht' (f := t.erase v) (u₁ := v) (u₂ := u) (Finset.insert_erase hv).symm he
        (Finset.notMem_erase _ _) (fun hm => hu (Finset.mem_of_mem_erase hm)) (l := c v) ?_ ?_
      · intro i hi
        rw [hc i (Finset.mem_of_mem_erase hi) v hv, if_neg (Finset.ne_of_mem_erase hi)]
      · rw [hc v hv v hv, if_pos rfl, one_mul]; exact hpos
    exact hu (by rw [this, he]; exact Finset.mem_insert_self _ _)
  · -- c v vanishes on all of t'
    have hzero : c v = 0 := by
      have : (⊤ : Submodule K W) ≤ LinearMap.ker (c v) := by
        refine ht'.2.1.2.trans (Submodule.span_le.mpr ?_)
        rintro _ ⟨i, hi, rfl⟩
        rw [he, Finset.mem_coe] at hi
        rw [SetLike.mem_coe, LinearMap.mem_ker]
        rcases Finset.mem_insert.mp hi with rfl | hi
        · exact hz.symm
        · rw [hc i (Finset.mem_of_mem_erase hi) v hv, if_neg (Finset.ne_of_mem_erase hi)]
      ext w
      exact LinearMap.mem_ker.mp (this (Submodule.mem_top (x := w)))
    have := hc v hv v hv
    rw [hzero, if_pos rfl] at this
    exact zero_ne_one this

/-- There is at most one simplex across a facet. -/
theorem across_unique {A t t₁ t₂ : Finset ι} (ht : IsDel x h A t) (h1 : IsDel x h A t₁) (h2 : IsDel x h A t₂)
    {v : ι} (a1 : Across t v t₁) (a2 : Across t v t₂) : t₁ = t₂ := by
  obtain ⟨hv, u₁, hu₁, e1⟩ := a1
  obtain ⟨_, u₂, hu₂, e2⟩ := a2
  obtain ⟨c, hc, hw⟩ := ht.2.1.coords
  have n1 := across_neg ht h1 hv hu₁ e1 hc
  have n2 := across_neg ht h2 hv hu₂ e2 hc
  refine same_side_unique h1 h2 e1 e2 (fun hm => hu₁ (Finset.mem_of_mem_erase hm))
    (fun hm => hu₂ (Finset.mem_of_mem_erase hm)) (l := c v) ?_ (mul_pos_of_neg_of_neg n1 n2)
  intro i hi
  rw [hc i (Finset.mem_of_mem_erase hi) v hv, if_neg (Finset.ne_of_mem_erase hi)]

/-- The facet of `t` opposite `v` is not on the boundary of the hull of `Inf`. -/
def Inner (x : ι → W) (Inf t : Finset ι) (v : ι) : Prop :=
  v ∈ t ∧ ∃ l : W →ₗ[K] K, (∀ u ∈ t, l (x u) = if u = v then 1 else 0) ∧ ∃ i ∈ Inf, l (x i) < 0

/-- Whether there is a simplex across a facet depends only on the hull of the infinite points. -/
theorem across_iff_inner {A t : Finset ι} (hgp : GenPos x h A) (hI : Inf ⊆ A)
    (hcone : ∀ i ∈ A, InCone (K := K) x Inf (x i)) (ht : IsDel x h A t) {v : ι} :
    (∃ t', IsDel x h A t' ∧ Across t v t') ↔ Inner (K := K) x Inf t v := by
  obtain ⟨c, hc, hw⟩ := ht.2.1.coords
  constructor
  · rintro ⟨t', ht', hv, u, hu, he⟩
    have hn := across_neg ht ht' hv hu he hc
    have huA : u ∈ A := ht'.1 (by rw [he]; exact Finset.mem_insert_self _ _)
    exact ⟨hv, c v, fun i hi => hc i hi v hv, (hcone u huA).exists_neg hn⟩
  · rintro ⟨hv, l, hl, i, hi, hneg⟩
    have hlc : ∀ w, l w = c v w := by
      intro w
      have := eq_mul_coord hw hv (f := l) (fun u hu hne => by rw [hl u hu, if_neg hne]) w
      rw [this, hl v hv, if_pos rfl, mul_one]
    rw [hlc] at hneg
    obtain ⟨u, _, hut, _, hdel⟩ := exists_neighbor hgp ht hc hw hv ⟨i, hI hi, hneg⟩
    exact ⟨_, hdel, hv, u, hut, rfl⟩

omit [Field K] [LinearOrder K] [IsStrictOrderedRing K] [AddCommGroup W] [Module K W] [Module.Finite K W] in
theorem Across.symm {t t' : Finset ι} {v : ι} (ha : Across t v t') : ∃ u, Across t' u t := by
  obtain ⟨hv, u, hu, rfl⟩ := ha
  have huv : v ≠ u := by rintro rfl; exact hu hv
  refine ⟨u, Finset.mem_insert_self _ _, v, ?_, ?_⟩
  · intro hm
    rcases Finset.mem_insert.mp hm with h | h
    · exact huv h
    · exact Finset.notMem_erase _ _ h
  · rw [Finset.erase_insert (fun hm => hu (Finset.mem_of_mem_erase hm)), Finset.insert_erase hv]

namespace MergeHyp
variable (H : MergeHyp x h Inf P S)
include H

/-- A facet of infinite points only is on the boundary of the hull. -/
theorem inf_facet_boundary {t : Finset ι} (ht : IsDel x h S t) {v : ι} (hv : v ∈ t) (hf : t.erase v ⊆ Inf) :
    ¬ Inner (K := K) x Inf t v := by
  have hvI : v ∉ Inf := by
    intro hvI
    apply H.not_allInf (Finset.Subset.refl S) H.finite_mem ht
    intro i hi
    by_cases he : i = v
    · rw [he]; exact hvI
    · exact hf (Finset.mem_erase.mpr ⟨he, hi⟩)
  rintro ⟨_, l, hl, i, hi, hneg⟩
  obtain ⟨c, hc, hw⟩ := ht.2.1.coords
  have hlc : ∀ w, l w = c v w := by
    intro w
    have := eq_mul_coord hw hv (f := l) (fun u hu hne => by rw [hl u hu, if_neg hne]) w
    rw [this, hl v hv, if_pos rfl, mul_one]
  rw [hlc] at hneg
  have hit : i ∉ t := by
    intro hm
    rw [hc i hm v hv] at hneg
    split at hneg
    · exact absurd hneg (by norm_num)
    · exact absurd hneg (lt_irrefl _)
  have hsimp := exchange ht.2.1 hw hv hit hneg.ne
  obtain ⟨a', ha'⟩ := hsimp.exists_interp h
  have hsub : insert i (t.erase v) ⊆ Inf := by
    intro u hu
    rcases Finset.mem_insert.mp hu with rfl | hu
    · exact hi
    · exact hf hu
  have h1 := H.infEmpty _ hsub hsimp a' ha' v (ht.1 hv) hvI
  have hd : ∀ u ∈ t, u ≠ v → (interp x h t - a') (x u) = 0 := by
    intro u hu hne
    rw [LinearMap.sub_apply, ht.interp.1 u hu,
      ha' u (Finset.mem_insert_of_mem (Finset.mem_erase.mpr ⟨hne, hu⟩)), sub_self]
  have k := eq_mul_coord hw hv hd (x i)
  have hneg2 : (interp x h t - a') (x v) < 0 := by
    rw [LinearMap.sub_apply, ht.interp.1 v hv]; linarith
  have hpos : 0 < (interp x h t - a') (x i) := by rw [k]; exact mul_pos_of_neg_of_neg hneg hneg2
  rw [LinearMap.sub_apply, ha' i (Finset.mem_insert_self _ _)] at hpos
  have := ht.interp.2 i (H.infSub hi) hit
  linarith

/-- Delaunay simplices of all points have a finite vertex. -/
theorem exists_finite {t : Finset ι} (ht : IsDel x h S t) : ∃ j, ∃ i ∈ t, i ∈ P j := by
  obtain ⟨i, hi, hiI⟩ := Finset.not_subset.mp (H.not_allInf (Finset.Subset.refl S) H.finite_mem ht)
  obtain ⟨j, hj⟩ := ((H.mem_S i).mp (ht.1 hi)).resolve_left hiI
  exact ⟨j, i, hi, hj⟩

theorem part_unique {t : Finset ι} (ht : IsDel x h S t) {j k : J} (hj : t ⊆ Inf ∪ P j)
    (hk : t ⊆ Inf ∪ P k) : j = k := by
  obtain ⟨l, i, hi, hl⟩ := H.exists_finite ht
  have e1 : j = l := H.disj j l i ((Finset.mem_union.mp (hj hi)).resolve_left (H.notInf l i hl)) hl
  have e2 : k = l := H.disj k l i ((Finset.mem_union.mp (hk hi)).resolve_left (H.notInf l i hl)) hl
  rw [e1, e2]

/-- A simplex is not both kept and inserted. -/
theorem kept_not_inserted (HE : EdgeHyp x h Inf P E V) {j : J} {t : Finset ι} (ht : IsDel x h (Inf ∪ P j) t)
    (hE : ¬ E j t) : ¬ ((¬ ∃ j, t ⊆ Inf ∪ P j) ∨ ∃ j, E j t) := by
  rintro (hno | ⟨k, hk⟩)
  · exact hno ⟨j, ht.1⟩
  · have := H.part_unique (H.kept_isDel HE ht hE) ht.1 (HE.sub k t hk).1
    exact hE (this ▸ hk)

/-- If a kept simplex is adjacent in its part to an edge simplex, its neighbour in the final triangulation is
an inserted simplex. -/
theorem neighbor_inserted (HE : EdgeHyp x h Inf P E V) {j : J} {t : Finset ι} (ht : IsDel x h (Inf ∪ P j) t)
    (hE : ¬ E j t) {v : ι} {e : Finset ι} (he : E j e) (hae : Across t v e)
    {s : Finset ι} (hs : IsDel x h S s) (has : Across t v s) :
    IsDel x h V s ∧ ((¬ ∃ j, s ⊆ Inf ∪ P j) ∨ ∃ j, E j s) := by
  rcases H.isDel_kept_or_inserted HE hs with ⟨k, hk, hEk⟩ | hr
  · exfalso
    by_cases hkj : k = j
    · subst hkj
      have := across_unique ht hk (HE.sub k e he) has hae
      exact hEk (this ▸ he)
    · have htS := H.kept_isDel HE ht hE
      have hf : t.erase v ⊆ Inf := by
        intro i hi
        by_contra hiI
        have h1 := (Finset.mem_union.mp (ht.1 (Finset.mem_of_mem_erase hi))).resolve_left hiI
        have h2 := (Finset.mem_union.mp (hk.1 (has.facet hi))).resolve_left hiI
        exact hkj (H.disj k j i h2 h1)
      refine H.inf_facet_boundary htS has.1 hf ?_
      exact (across_iff_inner H.gp H.infSub H.cone htS).mp ⟨s, hs, has⟩
  · exact hr

/-- A kept simplex adjacent to an inserted simplex was adjacent to an edge simplex. -/
theorem neighbor_firstLayer (HE : EdgeHyp x h Inf P E V) {j : J} {t : Finset ι}
    (ht : IsDel x h (Inf ∪ P j) t) (hE : ¬ E j t) {v : ι} {s : Finset ι} (hs : IsDel x h V s)
    (hins : (¬ ∃ j, s ⊆ Inf ∪ P j) ∨ ∃ j, E j s) (has : Across t v s) :
    ∃ e, E j e ∧ Across t v e := by
  have htS := H.kept_isDel HE ht hE
  have hsS := H.inserted_isDel HE hs hins
  have hinner := (across_iff_inner H.gp H.infSub H.cone htS).mp ⟨s, hsS, has⟩
  obtain ⟨e, he, hae⟩ := (across_iff_inner (H.gp.mono (H.partSub j)) Finset.subset_union_left
    (fun i hi => H.cone i (H.partSub j hi)) ht).mpr hinner
  refine ⟨e, ?_, hae⟩
  by_contra hEe
  have heS := H.kept_isDel HE he hEe
  have : e = s := across_unique htS heS hsS hae has
  subst this
  exact H.kept_not_inserted HE he hEe hins

end MergeHyp
end Del
end Verif
