import Verif.Props.Triangulate
import Verif.Props.DCSplit
import Verif.Props.GeomCore

/-!
# C52: the divide-and-conquer triangulator computes the Delaunay triangulation
-/
namespace Verif
namespace DC
open Del Euc

variable {K : Type} [Field K] [LinearOrder K] [IsStrictOrderedRing K]
variable {D : Nat} {pts : Nat → Vec D K} {h : Nat → K} {S S₀ : Finset Nat} {T : Tri}

/-- The points: distinct, with the infinite points enclosing all others. A box around the points has all of
them in its hull and in its circumsphere. -/
structure Scene (D : Nat) (pts : Nat → Vec D K) (S : Finset Nat) : Prop where
  ids : ∀ i ∈ S, i < 2 ^ 64
  inf : infPts D ⊆ S
  distinct : Set.InjOn pts S
  inside : ∀ i ∈ S, pts i ∈ convexHull K (pts '' (infPts D : Set Nat))
  full : affineSpan K (pts '' (infPts D : Set Nat)) = ⊤
  enclose : ∀ s ⊆ infPts D, Simp pts s → ∀ c ρ, (∀ v ∈ s, dist2 (pts v) c = ρ) → ∀ p ∈ S, p ∉ infPts D →
    dist2 (pts p) c < ρ

/-- A rule that decides consistently for cospherical points: heights in general position that agree with
`|p|²` wherever a point is strictly inside or outside of a circumsphere. -/
structure Tie (pts : Nat → Vec D K) (h : Nat → K) (S : Finset Nat) : Prop where
  gp : GenPos (K := K) (fun i => hom (pts i)) h S
  nh : NoHidden (K := K) (fun i => hom (pts i)) h S
  refines : Refines (K := K) (fun i => hom (pts i)) (fun i => nsq (pts i)) h S

/-- Such a rule exists for all sets of distinct points. -/
theorem Tie.exists (hinj : Set.InjOn pts S) : ∃ h, Tie pts h S := by
  obtain ⟨h, h1, h2, h3⟩ := exists_perturbation (K := K) (fun i => hom (pts i)) (fun i => nsq (pts i)) S
    (noHidden hinj) (fun i _ => hom_ne _)
  exact ⟨h, h1, h2, h3⟩

/-- If no point lies on the circumsphere of other points no rule is needed. -/
theorem Tie.ofGeneral (hinj : Set.InjOn pts S)
    (hgp : ∀ s ⊆ S, Simp pts s → ∀ c ρ, (∀ v ∈ s, dist2 (pts v) c = ρ) → ∀ i ∈ S, i ∉ s → dist2 (pts i) c ≠ ρ) :
    Tie pts (fun i => nsq (pts i)) S where
  gp := by
    intro s hs hsimp a ha i hi his he
    obtain ⟨c, ρ, rfl⟩ := exists_ball a
    rw [ball_hom] at he
    exact hgp s hs (isSimp_iff.mp hsimp) c ρ (interp_ball.mp ha) i hi his (by linarith)
  nh := noHidden hinj
  refines := by
    intro s _ hsimp a b ha hb i _
    rw [Interp.unique hsimp ha hb]
    exact ⟨id, id⟩

theorem Scene.world (hs : Scene D pts S) (ht : Tie pts h S) : World D (fun i => hom (pts i)) h S where
  dim := finrank_hom
  ids := hs.ids
  inf := hs.inf
  gp := ht.gp
  nh := ht.nh
  span := by
    have := span_hom.mpr hs.full
    rwa [Set.image_image] at this
  cone := fun i hi => inCone_iff.mpr (hs.inside i hi)
  infEmpty := by
    intro s hsub hsimp a ha p hp hpI
    obtain ⟨b, hb⟩ := hsimp.exists_interp (fun i => nsq (pts i))
    obtain ⟨c, ρ, rfl⟩ := exists_ball b
    refine (ht.refines s (hsub.trans hs.inf) hsimp _ a hb ha p hp).1 ?_
    rw [ball_hom]
    have := hs.enclose s hsub (isSimp_iff.mp hsimp) c ρ (interp_ball.mp hb) p hp hpI
    linarith
  nz := fun _ _ => hom_ne _

/-! ### What the result is -/

/-- `T` is a Delaunay triangulation of the points of `S`. -/
structure Delaunay (D : Nat) (pts : Nat → Vec D K) (S : Finset Nat) (T : Tri) : Prop where
  /-- the simplices have `D + 1` affinely independent vertices, stored in increasing order -/
  simplex : ∀ i, T.contains i = true →
    (T.vs i).Pairwise (· < ·) ∧ (T.vs i).toFinset ⊆ S ∧ Simp pts (T.vs i).toFinset
  /-- no point is strictly inside of a circumsphere -/
  empty : ∀ i, T.contains i = true → ∀ c ρ, (∀ v ∈ T.vs i, dist2 (pts v) c = ρ) → ∀ q ∈ S, ρ ≤ dist2 (pts q) c
  /-- all simplices that belong to every Delaunay triangulation are there -/
  complete : ∀ t ⊆ S, Simp pts t → ∀ c ρ, (∀ v ∈ t, dist2 (pts v) c = ρ) →
    (∀ q ∈ S, q ∉ t → ρ < dist2 (pts q) c) → ∃ i, T.contains i = true ∧ (T.vs i).toFinset = t
  /-- no simplex is stored twice -/
  once : ∀ i j, T.contains i = true → T.contains j = true → (T.vs i).toFinset = (T.vs j).toFinset → i = j
  /-- the simplices cover the convex hull of the points -/
  covers : ∀ q ∈ convexHull K (pts '' (S : Set Nat)), ∃ i, T.contains i = true ∧
    q ∈ convexHull K (pts '' {v | v ∈ T.vs i})
  /-- two simplices meet in the simplex of their common vertices -/
  proper : ∀ i j, T.contains i = true → T.contains j = true →
    convexHull K (pts '' {v | v ∈ T.vs i}) ∩ convexHull K (pts '' {v | v ∈ T.vs j}) =
      convexHull K (pts '' {v | v ∈ T.vs i ∧ v ∈ T.vs j})
  /-- entry `d` of the neighbours is the other simplex with the facet opposite of vertex `d`, or infinite if
  there is none -/
  neighbors : ∀ i, T.contains i = true → (T.ns i).length = D + 1 ∧ ∀ d < D + 1,
    (∃ j, (T.ns i).getD d 0 = j ∧ T.contains j = true ∧ j ≠ i ∧ ∀ v ∈ T.vs i, v ≠ (T.vs i).getD d 0 → v ∈ T.vs j) ∨
    ((T.ns i).getD d 0 = sINF ∧ ∀ j, T.contains j = true → j ≠ i →
      ∃ v ∈ T.vs i, v ≠ (T.vs i).getD d 0 ∧ v ∉ T.vs j)
  /-- the hull list contains exactly the simplices with an infinite vertex -/
  hull : T.hull.Nodup ∧ ∀ i, i ∈ T.hull ↔ T.contains i = true ∧ ∃ v ∈ T.vs i, 2 ^ 64 - 2 ^ D ≤ v

theorem coe_toFinset_vs (l : List Nat) : ((l.toFinset : Finset Nat) : Set Nat) = {v | v ∈ l} := by
  ext v; simp

/-- Simplices with empty circumspheres meet in common faces. -/
theorem inCone_inter {ι K W : Type*} [DecidableEq ι] [Field K] [LinearOrder K] [IsStrictOrderedRing K]
    [AddCommGroup W] [Module K W] {x : ι → W} {h : ι → K} {S t u : Finset ι} (ht : IsDel x h S t)
    (hu : IsDel x h S u) {w : W} (h1 : InCone (K := K) x t w) (h2 : InCone (K := K) x u w) :
    InCone (K := K) x (t ∩ u) w := by
  obtain ⟨st, _, a, ia, la⟩ := ht
  obtain ⟨su, _, b, ib, lb⟩ := hu
  obtain ⟨ν, hν, rfl⟩ := h1
  obtain ⟨μ, hμ, he⟩ := h2
  have ale := IsDel.le ia la
  have ble := IsDel.le ib lb
  have e1 : b (∑ i ∈ t, ν i • x i) ≤ a (∑ i ∈ t, ν i • x i) := by
    rw [map_sum, map_sum]
    refine Finset.sum_le_sum fun i hi => ?_
    rw [map_smul, map_smul, ia i hi]
    exact mul_le_mul_of_nonneg_left (ble i (st hi)) (hν i hi)
  have e2 : a (∑ i ∈ t, ν i • x i) ≤ b (∑ i ∈ t, ν i • x i) := by
    rw [he, map_sum, map_sum]
    refine Finset.sum_le_sum fun i hi => ?_
    rw [map_smul, map_smul, ib i hi]
    exact mul_le_mul_of_nonneg_left (ale i (su hi)) (hμ i hi)
  have e3 : ∑ i ∈ t, ν i * (h i - b (x i)) = 0 := by
    have : ∑ i ∈ t, ν i * (h i - b (x i)) = a (∑ i ∈ t, ν i • x i) - b (∑ i ∈ t, ν i • x i) := by
      rw [map_sum, map_sum, ← Finset.sum_sub_distrib]
      exact Finset.sum_congr rfl fun i hi => by rw [map_smul, map_smul, ia i hi, smul_eq_mul, smul_eq_mul]; ring
    rw [this]; linarith
  have e4 := (Finset.sum_eq_zero_iff_of_nonneg fun i hi =>
    mul_nonneg (hν i hi) (sub_nonneg.mpr (ble i (st hi)))).mp e3
  refine ⟨ν, fun i hi => hν i (Finset.mem_inter.mp hi).1, ?_⟩
  refine (Finset.sum_subset Finset.inter_subset_left fun i hi hni => ?_).symm
  have hiu : i ∉ u := fun hm => hni (Finset.mem_inter.mpr ⟨hi, hm⟩)
  have := (mul_eq_zero.mp (e4 i hi)).resolve_right (sub_pos.mpr (lb i (st hi) hiu)).ne'
  rw [this, zero_smul]

theorem IsDT.delaunay (hs : Scene D pts S) (ht : Tie pts h S) (hT : IsDT D (fun i => hom (pts i)) h S T) :
    Delaunay D pts S T where
  simplex := fun i hi => ⟨hT.sorted i hi, (hT.sound i hi).1, isSimp_iff.mp (hT.sound i hi).2.1⟩
  empty := by
    intro i hi c ρ hc q hq
    obtain ⟨h1, h2, a, h3, h4⟩ := hT.sound i hi
    by_contra hlt
    push_neg at hlt
    have hb := interp_ball (t := (T.vs i).toFinset).mpr (fun v hv => hc v (List.mem_toFinset.mp hv))
    have := (ht.refines _ h1 h2 _ a hb h3 q hq).1 (by rw [ball_hom]; linarith)
    exact absurd this (not_lt.mpr (IsDel.le h3 h4 q hq))
  complete := by
    intro t hsub hsimp c ρ hc hq
    have hsimp' := isSimp_iff.mpr hsimp
    obtain ⟨a, ha⟩ := hsimp'.exists_interp h
    refine hT.complete t ⟨hsub, hsimp', a, ha, fun i hi hit => ?_⟩
    refine (ht.refines t hsub hsimp' _ a (interp_ball.mpr hc) ha i hi).2 ?_
    rw [ball_hom]
    have := hq i hi hit
    linarith
  once := hT.unique
  covers := by
    intro q hq
    have hw := hs.world ht
    have hcone := inCone_iff.mpr hq
    obtain ⟨p, hp⟩ : S.Nonempty := by
      rw [Finset.nonempty_iff_ne_empty]
      rintro rfl
      simp at hq
    obtain ⟨b, hb, hlt⟩ := hw.nh p hp
    have hsp : (⊤ : Submodule K (K × Vec D K)) ≤ Submodule.span K ((fun i => hom (pts i)) '' (S : Set Nat)) :=
      hw.span.trans (Submodule.span_mono (Set.image_mono (Finset.coe_subset.mpr hw.inf)))
    obtain ⟨t0, ht0, _⟩ := exists_isDel hw.gp hsp hp (a := b) (fun i hi => by
      by_cases he : i = p
      · rw [he, hb]
      · exact (hlt i hi he).le) hb
    obtain ⟨t, ht, hc⟩ := MergeHyp.exists_cone hw.gp ⟨t0, ht0⟩ hcone
    obtain ⟨i, hi, rfl⟩ := hT.complete t ht
    refine ⟨i, hi, ?_⟩
    rw [inCone_iff, coe_toFinset_vs] at hc
    exact hc
  proper := by
    intro i j hi hj
    apply Set.Subset.antisymm
    · rintro q ⟨h1, h2⟩
      rw [← coe_toFinset_vs, ← inCone_iff] at h1 h2
      have := inCone_inter (hT.sound i hi) (hT.sound j hj) h1 h2
      rw [inCone_iff] at this
      have he : (((T.vs i).toFinset ∩ (T.vs j).toFinset : Finset Nat) : Set Nat) = {v | v ∈ T.vs i ∧ v ∈ T.vs j} := by
        ext v; simp
      rwa [he] at this
    · apply Set.subset_inter
      · exact convexHull_mono (Set.image_mono fun v hv => hv.1)
      · exact convexHull_mono (Set.image_mono fun v hv => hv.2)
  neighbors := by
    intro i hi
    refine ⟨hT.nlen i hi, fun d hd => ?_⟩
    have hl := hT.len finrank_hom hi
    have hvm : (T.vs i).getD d 0 ∈ (T.vs i).toFinset := by
      rw [List.mem_toFinset]
      exact getD_mem (by omega)
    rcases hT.nbr i hi d hd with ⟨h1, h2⟩ | ⟨h1, h2⟩
    · refine Or.inl ⟨_, rfl, h1, ?_, ?_⟩
      · intro he
        rw [he] at h2
        obtain ⟨_, u, hu, e⟩ := h2
        have : u ∈ (T.vs i).toFinset := by rw [e]; exact Finset.mem_insert_self _ _
        exact hu this
      · intro v hv hne
        exact List.mem_toFinset.mp (h2.facet (Finset.mem_erase.mpr ⟨hne, List.mem_toFinset.mpr hv⟩))
    · refine Or.inr ⟨h1, fun j hj hne => ?_⟩
      by_contra hcon
      push_neg at hcon
      refine h2 _ (hT.sound j hj) (across_of_facet (hT.sound i hi) (hT.sound j hj) hvm
        (fun he => hne (hT.unique j i hj hi he)) ?_)
      intro v hv
      obtain ⟨hv1, hv2⟩ := Finset.mem_erase.mp hv
      exact List.mem_toFinset.mpr (hcon v (List.mem_toFinset.mp hv2) hv1)
  hull := by
    obtain ⟨h1, h2⟩ := hT.hull
    refine ⟨h1, fun i => ?_⟩
    rw [h2 i]
    refine and_congr_right fun _ => ?_
    rw [vsFinite, ← Bool.not_eq_true, List.all_eq_true]
    simp only [Part.isFinite_iff', not_forall, not_lt, exists_prop]

/-! ### The components -/

/-- The splitter finds a dimension in which the points are spread, however the points are distributed. -/
def Applicable (sp : Part.Splitter) (pts : Nat → Vec D K) (S : Finset Nat) : Prop :=
  match sp with
  | .dWay => True
  | .oneDim k => ∃ h : k < D, Set.InjOn (fun i => pts i ⟨k, h⟩) {i | i ∈ S ∧ i < 2 ^ 64 - 2 ^ D}
  | .cycle => 0 < D ∧ ∀ d, Set.InjOn (fun i => pts i d) {i | i ∈ S ∧ i < 2 ^ 64 - 2 ^ D}
  | .extend => True

theorem Applicable.spread (hD : D ≤ 64) {sp : Part.Splitter} (ha : Applicable sp pts S₀)
    (hinj : Set.InjOn pts S₀) (len : Nat) (hS : S ⊆ S₀) (hids : ∀ i ∈ S₀, i < 2 ^ 64)
    (hc : 2 ^ D + 1 < S.card) : sp.Spread pts len S := by
  have hfin : 1 < (S.filter fun i => i < 2 ^ 64 - 2 ^ D).card := by
    have h1 : S = (S.filter fun i => i < 2 ^ 64 - 2 ^ D) ∪ (S.filter fun i => ¬ i < 2 ^ 64 - 2 ^ D) :=
      (Finset.filter_union_filter_not_eq _ _).symm
    have h2 : (S.filter fun i => ¬ i < 2 ^ 64 - 2 ^ D) ⊆ infPts D := by
      intro i hi
      obtain ⟨hi1, hi2⟩ := Finset.mem_filter.mp hi
      rw [mem_infPts hD]
      exact ⟨by rw [← Bool.not_eq_true, Part.isFinite_iff']; exact hi2, hids i (hS hi1)⟩
    have h3 := Finset.card_le_card h2
    have h4 : (infPts D).card ≤ 2 ^ D := (List.toFinset_card_le _).trans (by simp [Part.infIds])
    have h5 := Finset.card_union_le (S.filter fun i => i < 2 ^ 64 - 2 ^ D) (S.filter fun i => ¬ i < 2 ^ 64 - 2 ^ D)
    rw [← h1] at h5
    omega
  obtain ⟨i, hi, j, hj, hne⟩ := Finset.one_lt_card.mp hfin
  obtain ⟨hi1, hi2⟩ := Finset.mem_filter.mp hi
  obtain ⟨hj1, hj2⟩ := Finset.mem_filter.mp hj
  refine ⟨i, hi1, j, hj1, hi2, hj2, ?_⟩
  have hpt : pts i ≠ pts j := fun h => hne (hinj (hS hi1) (hS hj1) h)
  cases sp with
  | dWay => exact hpt
  | oneDim k => exact ⟨ha.1, fun h => hne (ha.2 ⟨hS hi1, hi2⟩ ⟨hS hj1, hj2⟩ h)⟩
  | cycle =>
    have hk : Part.cycleDim D len < D := Nat.mod_lt _ ha.1
    exact ⟨hk, fun h => hne (ha.2 ⟨_, hk⟩ ⟨hS hi1, hi2⟩ ⟨hS hj1, hj2⟩ h)⟩
  | extend => exact hpt

/-- `cs` computes circumspheres. -/
def CircumOk (pts : Nat → Vec D K) (cs : List Nat → Sphere D K) (S : Finset Nat) : Prop :=
  ∀ vs : List Nat, vs.Nodup → vs.toFinset ⊆ S → Simp pts vs.toFinset →
    0 ≤ (cs vs).radius ∧ ∀ v ∈ vs, dist2 (pts v) (cs vs).center = (cs vs).radius * (cs vs).radius

theorem Simp.indep {vs : List Nat} (hnd : vs.Nodup) (hs : Simp pts vs.toFinset) :
    vs.length = D + 1 ∧ ∀ a : Nat → K, ∑ v ∈ vs.toFinset, a v • hom (pts v) = 0 → ∀ v ∈ vs, a v = 0 := by
  refine ⟨by rw [← List.toFinset_card_of_nodup hnd]; exact hs.1, fun a ha v hv => ?_⟩
  obtain ⟨c, hc, _⟩ := (isSimp_iff.mpr hs).coords
  have hv' := List.mem_toFinset.mpr hv
  have := congrArg (c v) ha
  rw [map_zero, map_sum, Finset.sum_eq_single v] at this
  · rw [map_smul, hc v hv' v hv', if_pos rfl, smul_eq_mul, mul_one] at this
    exact this
  · intro u hu hne
    rw [map_smul, hc u hu v hv', if_neg hne, smul_zero]
  · intro hn; exact absurd hv' hn

omit [LinearOrder K] [IsStrictOrderedRing K] in
theorem dist2_eq_sqDist (p q : Vec D K) : dist2 p q = Geom.sqDist p q := by
  unfold dist2 Geom.sqDist
  exact Finset.sum_congr rfl fun i _ => by ring

theorem Simp.nonDeg2 {pts : Nat → Vec 2 K} {x y z : Nat} (hnd : [x, y, z].Nodup)
    (hs : Simp pts ([x, y, z] : List Nat).toFinset) : Geom.NonDeg2 (pts x) (pts y) (pts z) := by
  obtain ⟨_, hi⟩ := Simp.indep hnd hs
  simp only [List.nodup_cons, List.mem_cons, List.not_mem_nil, or_false, not_or] at hnd
  obtain ⟨⟨hxy, hxz⟩, hyz, -⟩ := hnd
  intro a b hab
  have := hi (fun v => if v = x then -(a + b) else if v = y then a else b) (by
    have e : ([x, y, z] : List Nat).toFinset = {x, y, z} := by ext; simp
    rw [e, Finset.sum_insert (by simp [hxy, hxz]), Finset.sum_insert (by simp [hyz]), Finset.sum_singleton]
    rw [if_pos rfl, if_neg (Ne.symm hxy), if_pos rfl, if_neg (Ne.symm hxz), if_neg (Ne.symm hyz)]
    apply Prod.ext
    · simp [hom]
    · funext i
      have := hab i
      simp only [hom, Prod.smul_mk, Prod.mk_add_mk, Pi.add_apply, Pi.smul_apply, smul_eq_mul, Prod.snd_zero, Pi.zero_apply]
      linear_combination this)
  have h1 := this y (by simp)
  have h2 := this z (by simp)
  simp only [Ne.symm hxy, Ne.symm hxz, Ne.symm hyz, if_true, if_false] at h1 h2
  exact ⟨h1, h2⟩

/-- The circumsphere of the code, two dimensions (C37). -/
theorem circumOk2 {sqrt : K → K} (hq : Geom.IsSqrt sqrt) (pts : Nat → Vec 2 K) (S : Finset Nat) :
    CircumOk pts (cs2 sqrt pts) S := by
  intro vs hnd _ hs
  obtain ⟨hl, _⟩ := Simp.indep hnd hs
  match vs, hl with
  | [x, y, z], _ =>
    have hdeg := Simp.nonDeg2 hnd hs
    obtain ⟨r1, r2⟩ := Geom.C37_circumsphere2 sqrt hq _ _ _ hdeg
    refine ⟨r1, fun v hv => ?_⟩
    rw [dist2_eq_sqDist, ← pow_two]
    exact r2 (pts v) (by simpa using List.mem_map_of_mem (f := pts) hv)

theorem Simp.nonDeg3 {pts : Nat → Vec 3 K} {x y z w : Nat} (hnd : [x, y, z, w].Nodup)
    (hs : Simp pts ([x, y, z, w] : List Nat).toFinset) : Geom.NonDeg3 (pts x) (pts y) (pts z) (pts w) := by
  obtain ⟨_, hi⟩ := Simp.indep hnd hs
  simp only [List.nodup_cons, List.mem_cons, List.not_mem_nil, or_false, not_or] at hnd
  obtain ⟨⟨hxy, hxz, hxw⟩, ⟨hyz, hyw⟩, hzw, -⟩ := hnd
  intro a b c hab
  have := hi (fun v => if v = x then -(a + b + c) else if v = y then a else if v = z then b else c) (by
    have e : ([x, y, z, w] : List Nat).toFinset = {x, y, z, w} := by ext; simp
    rw [e, Finset.sum_insert (by simp [hxy, hxz, hxw]), Finset.sum_insert (by simp [hyz, hyw]),
      Finset.sum_insert (by simp [hzw]), Finset.sum_singleton]
    rw [if_pos rfl, if_neg (Ne.symm hxy), if_pos rfl, if_neg (Ne.symm hxz), if_neg (Ne.symm hyz), if_pos rfl,
      if_neg (Ne.symm hxw), if_neg (Ne.symm hyw), if_neg (Ne.symm hzw)]
    apply Prod.ext
    · simp [hom]
      ring
    · funext i
      have := hab i
      simp only [hom, Prod.smul_mk, Prod.mk_add_mk, Pi.add_apply, Pi.smul_apply, smul_eq_mul, Prod.snd_zero, Pi.zero_apply]
      linear_combination this)
  have h1 := this y (by simp)
  have h2 := this z (by simp)
  have h3 := this w (by simp)
  simp only [Ne.symm hxy, Ne.symm hxz, Ne.symm hyz, Ne.symm hxw, Ne.symm hyw, Ne.symm hzw, if_true, if_false] at h1 h2 h3
  exact ⟨h1, h2, h3⟩

/-- The circumsphere of the code, three dimensions (C37). -/
theorem circumOk3 {sqrt : K → K} (hq : Geom.IsSqrt sqrt) (pts : Nat → Vec 3 K) (S : Finset Nat) :
    CircumOk pts (cs3 sqrt pts) S := by
  intro vs hnd _ hs
  obtain ⟨hl, _⟩ := Simp.indep hnd hs
  match vs, hl with
  | [x, y, z, w], _ =>
    have hdeg := Simp.nonDeg3 hnd hs
    obtain ⟨r1, r2⟩ := Geom.C37_circumsphere3 sqrt hq _ _ _ _ hdeg
    refine ⟨r1, fun v hv => ?_⟩
    rw [dist2_eq_sqDist, ← pow_two]
    exact r2 (pts v) (by simpa using List.mem_map_of_mem (f := pts) hv)

/-- Requirements on the setting: the splitter is applicable, the coordinates are in the range in which the
statistics work (C41), the base case threshold leaves at least two finite points, the marks do not wrap, and
the circumspheres are right. -/
structure SettingOk (depth cutoff : Nat) (sp : Part.Splitter) (big tiny : K) (pts : Nat → Vec D K)
    (cs : List Nat → Sphere D K) (S : Finset Nat) : Prop where
  dim : D ≤ 64
  depth : depth ≤ 42
  cutoff : 2 ^ D + 1 ≤ cutoff
  app : Applicable sp pts S
  big : ∀ i ∈ S, ∀ d, pts i d ≤ big
  tiny : ∀ i ∈ S, i < 2 ^ 64 - 2 ^ D → ∀ d, tiny ≤ pts i d
  cs : CircumOk pts cs S

/-- The base triangulator returns Delaunay triangulations, consistently for cospherical points, and with
fresh marks. -/
def BaseOk (pts : Nat → Vec D K) (h : Nat → K) (base : Finset Nat → Tri → Prop) (S₀ : Finset Nat) : Prop :=
  ∀ S T, infPts D ⊆ S → S ⊆ S₀ → base S T → IsDT D (fun i => hom (pts i)) h S T ∧ T.MarksOk ∧ T.mark = 0

section
variable {hash : Nat → BitVec 32} {depth cutoff : Nat} {parEdge : Bool} {base : Finset Nat → Tri → Prop}
  {sp : Part.Splitter} {big tiny : K} {cs : List Nat → Sphere D K}

theorem SettingOk.parts (hq : SettingOk depth cutoff sp big tiny pts cs S₀) (hs : Scene D pts S₀)
    (hS : S ⊆ S₀) (hc : cutoff < S.card) (len : Nat) :
    sp.Spread pts len S ∧ (∀ i ∈ S, ∀ d, pts i d ≤ big) ∧
      ∀ d, ∃ i ∈ S, i < 2 ^ 64 - 2 ^ D ∧ tiny ≤ pts i d := by
  have hsp := hq.app.spread hq.dim hs.distinct len hS hs.ids (by have := hq.cutoff; omega)
  refine ⟨hsp, fun i hi => hq.big i (hS hi), fun d => ?_⟩
  obtain ⟨i, hi, _, _, hf, _⟩ := hsp
  exact ⟨i, hi, hf, hq.tiny i (hS hi) hf d⟩

theorem SettingOk.params (hq : SettingOk depth cutoff sp big tiny pts cs S₀) (hs : Scene D pts S₀)
    (ht : Tie pts h S₀) (hb : BaseOk pts h base S₀) :
    ParamsOk (params hash depth cutoff parEdge base sp big tiny pts cs) (fun i => hom (pts i)) h S₀ where
  base := hb
  split := by
    intro len S ps _ hS hc hsp
    obtain ⟨h1, h2, h3⟩ := hq.parts hs hS hc len
    exact (Part.Splitter.Parts.ok hq.dim hsp h1 h2 h3).1
  inter := by
    intro len S ps _ hS hc hsp p hp vs hnd hvs hsimp v hv hvS hlt
    obtain ⟨h1, h2, h3⟩ := hq.parts hs hS hc len
    have hbd := (Part.Splitter.Parts.ok hq.dim hsp h1 h2 h3).2.1 p hp
    obtain ⟨hv1, hv2⟩ := Finset.mem_filter.mp hv
    have hvb := hbd v hv1 (Part.isFinite_iff'.mp hv2)
    obtain ⟨r1, r2⟩ := hq.cs vs hnd hvs (isSimp_iff.mp hsimp)
    refine (Box.C35_intersects p.bounds (cs vs) r1 fun d => (hvb d).1.trans (hvb d).2).mpr ⟨pts v, hvb, ?_⟩
    by_contra hgt
    push_neg at hgt
    obtain ⟨a, ha⟩ := hsimp.exists_interp h
    have hb' := interp_ball (t := vs.toFinset).mpr (fun v hv => r2 v (List.mem_toFinset.mp hv))
    have := (ht.refines _ hvs hsimp _ _ hb' (interp_spec ha) v (hS hvS)).2 (by
      rw [ball_hom]
      have e : dist2 (pts v) (cs vs).center = ∑ i, (pts v i - (cs vs).center i) * (pts v i - (cs vs).center i) := rfl
      linarith)
    exact lt_asymm this hlt
  depth := by
    have : depth ≤ 42 := hq.depth
    show 6 * depth < 256
    omega

/-- **C52.** If the base triangulator returns Delaunay triangulations (breaking ties for cospherical points
by some fixed rule), the divide-and-conquer triangulator returns a Delaunay triangulation of all points,
whatever the interleavings of its parallel loops, with right neighbours and hull. -/
theorem C52_delaunay (hs : Scene D pts S₀) (hq : SettingOk depth cutoff sp big tiny pts cs S₀)
    (ht : Tie pts h S₀) (hb : BaseOk pts h base S₀)
    (hT : Triangulate (params hash depth cutoff parEdge base sp big tiny pts cs) 1 S₀ T) : Delaunay D pts S₀ T :=
  (triangulate_correct _ hq.dim (hs.world ht) (hq.params hs ht hb) 1 S₀ T hT le_rfl hs.inf
    (Finset.Subset.refl _)).1.delaunay hs ht

/-- **C52.** If no point lies on the circumsphere of a simplex of other points, the result consists exactly of
the simplices with empty circumsphere. -/
theorem C52_exact (hs : Scene D pts S₀) (hq : SettingOk depth cutoff sp big tiny pts cs S₀)
    (hgp : ∀ s ⊆ S₀, Simp pts s → ∀ c ρ, (∀ v ∈ s, dist2 (pts v) c = ρ) → ∀ i ∈ S₀, i ∉ s → dist2 (pts i) c ≠ ρ)
    (hb : BaseOk pts (fun i => nsq (pts i)) base S₀)
    (hT : Triangulate (params hash depth cutoff parEdge base sp big tiny pts cs) 1 S₀ T) (t : Finset Nat) :
    (∃ i, T.contains i = true ∧ (T.vs i).toFinset = t) ↔
      t ⊆ S₀ ∧ Simp pts t ∧ ∃ c ρ, (∀ v ∈ t, dist2 (pts v) c = ρ) ∧ ∀ q ∈ S₀, q ∉ t → ρ < dist2 (pts q) c := by
  have ht := Tie.ofGeneral hs.distinct hgp
  have hr := (triangulate_correct _ hq.dim (hs.world ht) (hq.params hs ht hb) 1 S₀ T hT le_rfl hs.inf
    (Finset.Subset.refl _)).1
  rw [← isDel_iff]
  constructor
  · rintro ⟨i, hi, rfl⟩; exact hr.sound i hi
  · exact hr.complete t

end
end DC
end Verif
