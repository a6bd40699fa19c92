import Verif.Lemmas.DelaunayMerge

/-!
# Locally Delaunay triangulations are Delaunay

Specification and geometric facts only, nothing of it is code of the program.
-/
namespace Verif
namespace Del
variable {ι K W : Type*} [DecidableEq ι] [Field K] [LinearOrder K] [IsStrictOrderedRing K]
variable [AddCommGroup W] [Module K W] [Module.Finite K W]

/-- The simplices `F` triangulate the points `S`: they cover the hull, meet in common faces, and every point is a
vertex. -/
structure IsTriang (x : ι → W) (S : Finset ι) (F : Set (Finset ι)) : Prop where
  simp : ∀ t ∈ F, t ⊆ S ∧ IsSimp (K := K) x t
  cover : ∀ w, InCone (K := K) x S w → ∃ t ∈ F, InCone (K := K) x t w
  proper : ∀ t ∈ F, ∀ u ∈ F, ∀ w, InCone (K := K) x t w → InCone (K := K) x u w → InCone (K := K) x (t ∩ u) w
  used : ∀ p ∈ S, ∃ t ∈ F, p ∈ t

omit [Module.Finite K W] [DecidableEq ι] [AddCommGroup W] in
/-- A small perturbation keeps finitely many strict inequalities. -/
theorem exists_small_step {α : Type*} (s : Finset α) (a b : α → K) :
    ∃ ε : K, 0 < ε ∧ ∀ k ∈ s, a k < 0 → a k + ε * b k < 0 := by
  classical
  induction s using Finset.induction_on with
  | empty => exact ⟨1, one_pos, by simp⟩
  | insert k s _ ih =>
    obtain ⟨ε, he, h⟩ := ih
    have mono : ∀ ε' : K, 0 < ε' → ε' ≤ ε → ∀ j ∈ s, a j < 0 → a j + ε' * b j < 0 := by
      intro ε' h0 hle j hj ha
      have h1 := h j hj ha
      by_cases hb : b j ≤ 0
      · have := mul_nonpos_of_nonneg_of_nonpos h0.le hb
        linarith
      · have := mul_le_mul_of_nonneg_right hle (not_le.mp hb).le
        linarith
    by_cases hc : a k < 0 ∧ 0 < b k
    · obtain ⟨ha, hb⟩ := hc
      refine ⟨min ε (-a k / (2 * b k)), lt_min he (div_pos (by linarith) (by linarith)), ?_⟩
      have hp : 0 < min ε (-a k / (2 * b k)) := lt_min he (div_pos (by linarith) (by linarith))
      intro j hj haj
      rcases Finset.mem_insert.mp hj with rfl | hj
      · have h1 : min ε (-a j / (2 * b j)) * b j ≤ -a j / (2 * b j) * b j :=
          mul_le_mul_of_nonneg_right (min_le_right _ _) hb.le
        have h2 : -a j / (2 * b j) * b j = -a j / 2 := by
          field_simp
        rw [h2] at h1
        linarith
      · exact mono _ hp (min_le_left _ _) j hj haj
    · refine ⟨ε, he, fun j hj haj => ?_⟩
      rcases Finset.mem_insert.mp hj with rfl | hj
      · have hb : b j ≤ 0 := by
          by_contra hb
          exact hc ⟨haj, not_le.mp hb⟩
        have := mul_nonpos_of_nonneg_of_nonpos he.le hb
        linarith
      · exact h j hj haj

section
variable {x : ι → W} {h : ι → K} {S : Finset ι} {F : Set (Finset ι)}

omit [Module.Finite K W] in
/-- Coordinates of a combination of vertices. -/
theorem coord_sum {t A : Finset ι} {c : ι → W →ₗ[K] K}
    (hc : ∀ u ∈ t, ∀ v ∈ t, c v (x u) = if u = v then 1 else 0) (hA : A ⊆ t) (ν : ι → K) {v : ι} (hv : v ∈ t) :
    c v (∑ i ∈ A, ν i • x i) = if v ∈ A then ν v else 0 := by
  rw [map_sum]
  have : ∀ i ∈ A, c v (ν i • x i) = if i = v then ν i else 0 := by
    intro i hi
    rw [map_smul, hc i (hA hi) v hv, smul_eq_mul, mul_ite, mul_one, mul_zero]
  rw [Finset.sum_congr rfl this, Finset.sum_ite_eq']

/-- Beyond every facet with a point beyond there is another simplex with that facet. -/
theorem IsTriang.beyond (H : IsTriang (K := K) x S F) {t : Finset ι} (ht : t ∈ F) {c : ι → W →ₗ[K] K}
    (hc : ∀ u ∈ t, ∀ v ∈ t, c v (x u) = if u = v then 1 else 0) (hw : ∀ w, w = ∑ v ∈ t, c v w • x v)
    {v : ι} (hv : v ∈ t) {i : ι} (hi : i ∈ S) (hneg : c v (x i) < 0) :
    ∃ u ∉ t, insert u (t.erase v) ∈ F ∧ c v (x u) < 0 := by
  classical
  have hfin : F.Finite := (Finset.finite_toSet S.powerset).subset fun t ht =>
    Finset.mem_coe.mpr (Finset.mem_powerset.mpr (H.simp t ht).1)
  choose! C hC hCw using fun t (ht : t ∈ F) => (H.simp t ht).2.coords
  let f : W := ∑ j ∈ t.erase v, (1 : K) • x j
  obtain ⟨ε, hε, hsmall⟩ := exists_small_step (hfin.toFinset ×ˢ S) (fun p => C p.1 p.2 f) (fun p => C p.1 p.2 (x i))
  have hcone : InCone (K := K) x S (f + ε • x i) := by
    refine ⟨fun j => (if j ∈ t.erase v then 1 else 0) + if j = i then ε else 0, fun j _ => ?_, ?_⟩
    · apply add_nonneg <;> split <;> simp [hε.le]
    · simp only [add_smul, ite_smul, one_smul, zero_smul, Finset.sum_add_distrib]
      rw [Finset.sum_ite_eq' S i, if_pos hi]
      congr 1
      rw [← Finset.sum_filter]
      have : S.filter (· ∈ t.erase v) = t.erase v := by
        ext j
        rw [Finset.mem_filter]
        exact ⟨fun h => h.2, fun h => ⟨(H.simp t ht).1 (Finset.mem_of_mem_erase h), h⟩⟩
      rw [this]
      exact Finset.sum_congr rfl fun j _ => one_smul _ _
  obtain ⟨t', ht', hct⟩ := H.cover _ hcone
  -- the facet belongs to t'
  have hf' : InCone (K := K) x t' f := by
    refine ⟨fun k => C t' k f, fun k hk => ?_, hCw t' ht' f⟩
    by_contra hn
    have h1 := hsmall (t', k) (Finset.mem_product.mpr ⟨hfin.mem_toFinset.mpr ht', (H.simp t' ht').1 hk⟩)
      (not_le.mp hn)
    obtain ⟨ν, hν, he⟩ := hct
    have h2 : C t' k (f + ε • x i) = ν k := by
      rw [he, coord_sum (hC t' ht') (Finset.Subset.refl _) ν hk, if_pos hk]
    rw [map_add, map_smul, smul_eq_mul] at h2
    have := hν k hk
    simp only at h1
    linarith
  have hf : InCone (K := K) x t f := by
    refine ⟨fun j => if j ∈ t.erase v then 1 else 0, fun j _ => by dsimp only; split <;> simp, ?_⟩
    simp only [ite_smul, one_smul, zero_smul]
    rw [← Finset.sum_filter]
    have : t.filter (· ∈ t.erase v) = t.erase v := by
      ext j
      rw [Finset.mem_filter]
      exact ⟨fun h => h.2, fun h => ⟨Finset.mem_of_mem_erase h, h⟩⟩
    rw [this]
    exact Finset.sum_congr rfl fun j _ => one_smul _ _
  have hsub : t.erase v ⊆ t' := by
    obtain ⟨ν, _, he⟩ := H.proper t ht t' ht' f hf hf'
    intro j hj
    have hjt := Finset.mem_of_mem_erase hj
    have e1 : c j f = 1 := by
      rw [coord_sum hc (Finset.erase_subset _ _) (fun _ => 1) hjt, if_pos hj]
    rw [he, coord_sum hc Finset.inter_subset_left ν hjt] at e1
    by_contra hn
    rw [if_neg (fun hm => hn (Finset.mem_inter.mp hm).2)] at e1
    exact zero_ne_one e1
  have hneg' : c v (f + ε • x i) < 0 := by
    rw [map_add, map_smul, smul_eq_mul, coord_sum hc (Finset.erase_subset _ _) (fun _ => 1) hv,
      if_neg (Finset.notMem_erase v t), zero_add]
    exact mul_neg_of_pos_of_neg hε hneg
  obtain ⟨u, hu, hun⟩ := hct.exists_neg hneg'
  have hut : u ∉ t := by
    intro hm
    rw [hc u hm v hv] at hun
    split at hun
    · exact absurd hun (by norm_num)
    · exact absurd hun (lt_irrefl _)
  refine ⟨u, hut, ?_, hun⟩
  have : insert u (t.erase v) = t' := by
    apply Finset.eq_of_subset_of_card_le
    · intro j hj
      rcases Finset.mem_insert.mp hj with rfl | hj
      · exact hu
      · exact hsub hj
    · rw [Finset.card_insert_of_notMem (fun h => hut (Finset.mem_of_mem_erase h)), Finset.card_erase_of_mem hv,
        (H.simp t' ht').2.1, ← (H.simp t ht).2.1]
      have := Finset.card_pos.mpr ⟨v, hv⟩
      omega
  rw [this]
  exact ht'

/-- A simplex contains no points except its vertices. -/
theorem IsTriang.mem_of_cone (H : IsTriang (K := K) x S F) {t : Finset ι} (ht : t ∈ F) {p : ι} (hp : p ∈ S)
    (hc : InCone (K := K) x t (x p)) : p ∈ t := by
  obtain ⟨t0, ht0, hm⟩ := H.used p hp
  obtain ⟨c, hcc, _⟩ := (H.simp t0 ht0).2.coords
  have h0 : InCone (K := K) x t0 (x p) := by
    refine ⟨fun j => if j = p then 1 else 0, fun j _ => by dsimp only; split <;> simp, ?_⟩
    simp only [ite_smul, one_smul, zero_smul]
    rw [Finset.sum_ite_eq' t0 p, if_pos hm]
  obtain ⟨ν, _, he⟩ := H.proper t ht t0 ht0 _ hc h0
  have e1 : c p (x p) = 1 := by rw [hcc p hm p hm, if_pos rfl]
  rw [he, coord_sum hcc Finset.inter_subset_right ν hm] at e1
  by_contra hn
  rw [if_neg (fun h => hn (Finset.mem_inter.mp h).1)] at e1
  exact zero_ne_one e1

omit [Module.Finite K W] in
/-- For two simplices on both sides of a facet the local condition is symmetric. -/
theorem local_symm {t : Finset ι} {c : ι → W →ₗ[K] K} (hw : ∀ w, w = ∑ v ∈ t, c v w • x v) {v u : ι} (hv : v ∈ t)
    {a a' : W →ₗ[K] K} (hi : Interp x h t a) (hi' : Interp x h (insert u (t.erase v)) a') (hun : c v (x u) < 0) :
    a' (x v) < h v ↔ a (x u) < h u := by
  have hd : ∀ i ∈ t, i ≠ v → (a' - a) (x i) = 0 := by
    intro i hit hne
    rw [LinearMap.sub_apply, hi' i (Finset.mem_insert_of_mem (Finset.mem_erase.mpr ⟨hne, hit⟩)), hi i hit,
      sub_self]
  have k1 := eq_mul_coord hw hv hd (x u)
  rw [LinearMap.sub_apply, LinearMap.sub_apply, hi' u (Finset.mem_insert_self _ _), hi v hv] at k1
  constructor
  · intro h1
    have := mul_pos_of_neg_of_neg hun (sub_neg.mpr h1)
    linarith
  · intro h1
    by_contra hn
    have := mul_nonpos_of_nonpos_of_nonneg hun.le (sub_nonneg.mpr (not_lt.mp hn))
    linarith

/-- A triangulation in which for every two adjacent simplices the vertex of one of them is strictly outside of the
circumsphere of the other one consists of Delaunay simplices. -/
theorem IsTriang.local_global (H : IsTriang (K := K) x S F)
    (hloc : ∀ t ∈ F, ∀ v ∈ t, ∀ u, u ∉ t → insert u (t.erase v) ∈ F →
      (∀ a : W →ₗ[K] K, Interp x h t a → a (x u) < h u) ∨
      ∀ a : W →ₗ[K] K, Interp x h (insert u (t.erase v)) a → a (x v) < h v) :
    ∀ t ∈ F, IsDel x h S t := by
  have hex : ∀ t ∈ F, Interp x h t (interp x h t) := fun t ht => by
    obtain ⟨a, ha⟩ := (H.simp t ht).2.exists_interp h
    exact interp_spec ha
  intro t ht
  refine ⟨(H.simp t ht).1, (H.simp t ht).2, interp x h t, hex t ht, fun i hi => ?_⟩
  by_contra hcon
  push_neg at hcon
  obtain ⟨hit, hle⟩ := hcon
  have hfin : {t | t ∈ F ∧ i ∉ t ∧ h i ≤ interp x h t (x i)}.Finite :=
    (Finset.finite_toSet S.powerset).subset fun t ht =>
      Finset.mem_coe.mpr (Finset.mem_powerset.mpr (H.simp t ht.1).1)
  obtain ⟨s, ⟨hs, his, hsle⟩, hmax⟩ := Set.exists_max_image _ (fun t => interp x h t (x i)) hfin ⟨t, ht, hit, hle⟩
  obtain ⟨c, hc, hw⟩ := (H.simp s hs).2.coords
  by_cases hall : ∀ v ∈ s, 0 ≤ c v (x i)
  · exact his (H.mem_of_cone hs hi ⟨fun v => c v (x i), hall, hw _⟩)
  · push_neg at hall
    obtain ⟨v, hv, hneg⟩ := hall
    obtain ⟨u, hu, hF, hun⟩ := H.beyond hs hc hw hv hi hneg
    have hau : interp x h s (x u) < h u := by
      rcases hloc s hs v hv u hu hF with h1 | h1
      · exact h1 _ (hex s hs)
      · exact (local_symm hw hv (hex s hs) (hex _ hF) hun).mp (h1 _ (hex _ hF))
    have hinc := cross_increases (S := S) hw hv (hex s hs) (hex _ hF) hau hun hneg
    by_cases hm : i ∈ insert u (s.erase v)
    · rw [hex _ hF i hm] at hinc
      linarith
    · have := hmax _ ⟨hF, hm, hsle.trans hinc.le⟩
      exact absurd this (not_le.mpr hinc)

end
end Del
end Verif
