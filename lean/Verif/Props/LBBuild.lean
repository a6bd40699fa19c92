import Verif.Props.LBTree
import Mathlib.Analysis.Convex.Basic
import Mathlib.Algebra.Module.LinearMap.Basic
import Mathlib.Algebra.Order.Round

/-!
# C80, C83: separated trees, and the load-balanced triangulator with every partitioner that builds them
-/
namespace Verif
namespace PTree
variable {D : Nat} {K : Type} [Field K] [LinearOrder K] [IsStrictOrderedRing K]

/-- No finite point of one set is in the convex hull of the finite points of the other. -/
def Sep2 (pts : Nat → Vec D K) (A B : Finset Nat) : Prop :=
  (∀ v ∈ B, v < 2 ^ 64 - 2 ^ D → pts v ∉ convexHull K (pts '' {u | u ∈ A ∧ u < 2 ^ 64 - 2 ^ D})) ∧
  ∀ v ∈ A, v < 2 ^ 64 - 2 ^ D → pts v ∉ convexHull K (pts '' {u | u ∈ B ∧ u < 2 ^ 64 - 2 ^ D})

theorem Sep2.symm {pts : Nat → Vec D K} {A B : Finset Nat} (h : Sep2 pts A B) : Sep2 pts B A := ⟨h.2, h.1⟩

theorem Sep2.mono {pts : Nat → Vec D K} {A B A' B' : Finset Nat} (h : Sep2 pts A B)
    (hA : ∀ v ∈ A', v < 2 ^ 64 - 2 ^ D → v ∈ A) (hB : ∀ v ∈ B', v < 2 ^ 64 - 2 ^ D → v ∈ B) : Sep2 pts A' B' := by
  refine ⟨fun v hv hf hc => h.1 v (hB v hv hf) hf (convexHull_mono (Set.image_mono ?_) hc),
    fun v hv hf hc => h.2 v (hA v hv hf) hf (convexHull_mono (Set.image_mono ?_) hc)⟩
  · rintro u ⟨h1, h2⟩; exact ⟨hA u h1 h2, h2⟩
  · rintro u ⟨h1, h2⟩; exact ⟨hB u h1 h2, h2⟩

/-- Sets on different sides of a hyperplane. -/
theorem sep2_linear {pts : Nat → Vec D K} {A B : Finset Nat} {g : Vec D K → K} (hg : IsLinearMap K g) {c : K}
    (hA : ∀ v ∈ A, v < 2 ^ 64 - 2 ^ D → g (pts v) ≤ c) (hB : ∀ v ∈ B, v < 2 ^ 64 - 2 ^ D → c < g (pts v)) : Sep2 pts A B := by
  constructor
  · intro v hv hf hc
    have : pts v ∈ {x | g x ≤ c} := convexHull_min (by rintro _ ⟨u, ⟨h1, h2⟩, rfl⟩; exact hA u h1 h2) (convex_halfSpace_le hg c) hc
    exact absurd (hB v hv hf) (not_lt.mpr this)
  · intro v hv hf hc
    have : pts v ∈ {x | c < g x} := convexHull_min (by rintro _ ⟨u, ⟨h1, h2⟩, rfl⟩; exact hB u h1 h2) (convex_halfSpace_gt hg c) hc
    exact absurd (hA v hv hf) (not_le.mpr this)

theorem separated_leaf {pts : Nat → Vec D K} {c : Option (Chk D K)} {ids : Finset Nat} : Separated pts (leaf c ids) := by
  intro p c' l hs
  cases p with
  | nil => simp at hs
  | cons i q => simp at hs

theorem separated_node {pts : Nat → Vec D K} {c : Option (Chk D K)} {l : List (PTree (Chk D K))}
    (h1 : l.Pairwise fun a b => Sep2 pts a.collectIds b.collectIds) (h2 : ∀ t ∈ l, Separated pts t) :
    Separated pts (node c l) := by
  intro p c' l' hs
  cases p with
  | nil =>
    rw [sub_nil] at hs
    cases hs
    intro _ i j a b ha hb hij
    obtain ⟨hi, rfl⟩ := List.getElem?_eq_some_iff.mp ha
    obtain ⟨hj, rfl⟩ := List.getElem?_eq_some_iff.mp hb
    rcases lt_or_gt_of_ne hij with hlt | hlt
    · exact (List.pairwise_iff_getElem.mp h1 i j hi hj hlt).1
    · exact (List.pairwise_iff_getElem.mp h1 j i hj hi hlt).2
  | cons i q =>
    rw [sub_node] at hs
    cases ht : l[i]? with
    | none => rw [ht] at hs; simp at hs
    | some t => rw [ht] at hs; exact h2 t (List.mem_of_getElem? ht) q c' l' hs

omit [Field K] [LinearOrder K] [IsStrictOrderedRing K] in
theorem within_node {S : Finset Nat} {c : Option (Chk D K)} {l : List (PTree (Chk D K))} (h : ∀ t ∈ l, t.collectIds ⊆ S) :
    (node c l).collectIds ⊆ S := by
  intro v hv
  rw [collectIds, mem_collectAll] at hv
  obtain ⟨t, ht, p, ids, h1⟩ := hv
  exact h t ht ((mem_collectIds t v).mpr ⟨p, ids, h1⟩)

theorem paths_leaf {C : Type} {c : Option C} {ids : Finset Nat} {H : Nat} :
    ∀ p s, sub (leaf c ids) p = some s → p.length ≤ H := by
  intro p s hs
  cases p with
  | nil => simp
  | cons i q => simp at hs

theorem paths_node {C : Type} {c : Option C} {l : List (PTree C)} {H : Nat}
    (h : ∀ t ∈ l, ∀ p s, sub t p = some s → p.length ≤ H) : ∀ p s, sub (node c l) p = some s → p.length ≤ H + 1 := by
  intro p s hs
  cases p with
  | nil => simp
  | cons i q =>
    rw [sub_node] at hs
    cases ht : l[i]? with
    | none => rw [ht] at hs; simp at hs
    | some t =>
      rw [ht] at hs
      have := h t (List.mem_of_getElem? ht) q s hs
      simpa using this

theorem shape_leaf {C : Type} {c : Option C} {ids : Finset Nat} : DC.Shape (leaf c ids) := by
  intro p c' l hs
  cases p with
  | nil => simp at hs
  | cons i q => simp at hs

theorem shape_node {C : Type} {c : Option C} {l : List (PTree C)} (h1 : l ≠ [])
    (h2 : ∀ t', l = [t'] → ∃ c' ids, t' = .leaf c' ids) (h : ∀ t ∈ l, DC.Shape t) : DC.Shape (node c l) := by
  intro p c' l' hs
  cases p with
  | nil => rw [sub_nil] at hs; cases hs; exact ⟨h1, h2⟩
  | cons i q =>
    rw [sub_node] at hs
    cases ht : l[i]? with
    | none => rw [ht] at hs; simp at hs
    | some t => rw [ht] at hs; exact h t (List.mem_of_getElem? ht) q c' l' hs

end PTree

namespace Build
open PTree
variable {D : Nat} {K : Type} [Field K] [LinearOrder K]

theorem hasInf_of (hD : D ≤ 64) {S : Finset Nat} (h : DC.infPts D ⊆ S) : HasInf D S := by
  intro id h1 h2
  refine h ((DC.mem_infPts hD).mpr ⟨?_, h2⟩)
  rw [← Bool.not_eq_true, Part.isFinite_iff']
  omega

theorem addInf_sub (hD : D ≤ 64) {s S : Finset Nat} (hs : s ⊆ S) (hI : HasInf D S) : addInf D s ⊆ S := by
  intro i hi
  rw [mem_addInf hD] at hi
  rcases hi with hi | hi
  · exact hI i hi.1 hi.2
  · exact hs hi

theorem select_sub {c : Nat → Bool} {s : Finset Nat} : select D c s ⊆ s := Finset.filter_subset _ _

variable [IsStrictOrderedRing K]

theorem dot_linear (n : Vec D K) : IsLinearMap K fun x => Geom.dot n x := by
  constructor
  · intro x y
    simp only [Chk.dot_eq, Pi.add_apply, mul_add, Finset.sum_add_distrib]
  · intro a x
    simp only [Chk.dot_eq, Pi.smul_apply, smul_eq_mul, Finset.mul_sum]
    exact Finset.sum_congr rfl fun i _ => by ring

theorem coord_linear (k : Fin D) : IsLinearMap K fun x : Vec D K => x k :=
  ⟨fun _ _ => rfl, fun _ _ => rfl⟩

/-- The two sides of a split box. -/
theorem sep2_split {pts : Nat → Vec D K} {b : Box D K} {ids : Finset Nat} (hD : D ≤ 64) (h : InBox pts b ids) (k : Fin D)
    (x : K) : Sep2 pts (addInf D (select D (fun i => (splitBox b k x).1.containsPoint (pts i)) ids))
      (addInf D (select D (fun i => !(splitBox b k x).1.containsPoint (pts i)) ids)) := by
  refine sep2_linear (coord_linear k) (c := x) ?_ ?_
  · intro v hv hf
    rw [mem_addInf_fin hD hf, mem_select hf] at hv
    have := (Box.C35_contains_point _ _ |>.mp hv.2 k).2
    simpa [splitBox] using this
  · intro v hv hf
    rw [mem_addInf_fin hD hf, mem_select hf] at hv
    have hb := h v hv.1 hf
    have hn : ¬ ∀ d, (splitBox b k x).1.low d ≤ pts v d ∧ pts v d ≤ (splitBox b k x).1.high d := by
      rw [← Box.C35_contains_point]
      simpa using hv.2
    push_neg at hn
    obtain ⟨e, he⟩ := hn
    have he2 : (splitBox b k x).1.high e < pts v e := he (hb e).1
    simp only [splitBox, Function.update_apply] at he2
    split_ifs at he2 with hek
    · subst hek; exact he2
    · exact absurd (hb e).2 (not_le.mpr he2)

theorem separated_binary (hD : D ≤ 64) (cutoff : Nat) (pts : Nat → Vec D K) (cut : List Bool → Box D K → Fin D × K) :
    ∀ (r : Nat) (path : List Bool) (bounds : Box D K) (ids : Finset Nat), HasInf D ids → InBox pts bounds ids →
    Separated pts (binary cutoff pts cut r path bounds ids)
  | 0, _, _, _, _, _ => separated_leaf
  | r + 1, path, bounds, ids, hinf, hb => by
    rw [binary]
    split_ifs
    · obtain ⟨h1, h2⟩ := inBox_split hD hb (cut path bounds).1 (cut path bounds).2
      refine separated_node ?_ ?_
      · refine List.pairwise_pair.mpr ((sep2_split hD hb (cut path bounds).1 (cut path bounds).2).mono ?_ ?_)
        · exact fun v hv hf => (counts_binary hD cutoff pts cut r _ _ _ (addInf_inf hD _)).sub_ids hv hf
        · exact fun v hv hf => (counts_binary hD cutoff pts cut r _ _ _ (addInf_inf hD _)).sub_ids hv hf
      · intro t ht
        simp only [List.mem_cons, List.not_mem_nil, or_false] at ht
        rcases ht with rfl | rfl
        · exact separated_binary hD cutoff pts cut r _ _ _ (addInf_inf hD _) h1
        · exact separated_binary hD cutoff pts cut r _ _ _ (addInf_inf hD _) h2
    · exact separated_leaf

omit [IsStrictOrderedRing K] in
theorem within_binary (hD : D ≤ 64) (cutoff : Nat) (pts : Nat → Vec D K) (cut : List Bool → Box D K → Fin D × K)
    {S : Finset Nat} (hS : HasInf D S) :
    ∀ (r : Nat) (path : List Bool) (bounds : Box D K) (ids : Finset Nat), ids ⊆ S →
    (binary cutoff pts cut r path bounds ids).collectIds ⊆ S
  | 0, _, _, _, h => by rw [binary, collectIds]; exact h
  | r + 1, path, bounds, ids, h => by
    rw [binary]
    split_ifs
    · refine within_node fun t ht => ?_
      simp only [List.mem_cons, List.not_mem_nil, or_false] at ht
      rcases ht with rfl | rfl
      · exact within_binary hD cutoff pts cut hS r _ _ _ (addInf_sub hD (select_sub.trans h) hS)
      · exact within_binary hD cutoff pts cut hS r _ _ _ (addInf_sub hD (select_sub.trans h) hS)
    · rw [collectIds]; exact h

omit [IsStrictOrderedRing K] in
theorem shape_binary (cutoff : Nat) (pts : Nat → Vec D K) (cut : List Bool → Box D K → Fin D × K) :
    ∀ (r : Nat) (path : List Bool) (bounds : Box D K) (ids : Finset Nat),
    DC.Shape (binary cutoff pts cut r path bounds ids) ∧
      ∀ p s, sub (binary cutoff pts cut r path bounds ids) p = some s → p.length ≤ r
  | 0, _, _, _ => ⟨shape_leaf, paths_leaf⟩
  | r + 1, path, bounds, ids => by
    rw [binary]
    split_ifs
    · refine ⟨shape_node (by simp) (by simp) fun t ht => ?_, paths_node fun t ht => ?_⟩
      · simp only [List.mem_cons, List.not_mem_nil, or_false] at ht
        rcases ht with rfl | rfl
        · exact (shape_binary cutoff pts cut r _ _ _).1
        · exact (shape_binary cutoff pts cut r _ _ _).1
      · simp only [List.mem_cons, List.not_mem_nil, or_false] at ht
        rcases ht with rfl | rfl
        · exact (shape_binary cutoff pts cut r _ _ _).2
        · exact (shape_binary cutoff pts cut r _ _ _).2
    · exact ⟨shape_leaf, paths_leaf⟩

/-- **C83 (simple).** If the given bounds contain all finite points, no part has points in the convex hull of another one. -/
theorem C83_simple (hD : D ≤ 64) (k0 : Fin D) (pts : Nat → Vec D K) (bounds : Box D K) (ids : Finset Nat)
    (hb : InBox pts bounds ids) : Separated pts (simple k0 pts bounds ids) := by
  refine separated_node ?_ ?_
  · exact List.pairwise_pair.mpr (sep2_split hD hb _ _)
  · intro t ht
    simp only [List.mem_cons, List.not_mem_nil, or_false] at ht
    rcases ht with rfl | rfl <;> exact separated_leaf

/-- **C83 (box estimating).** The same, whatever the estimated boxes. -/
theorem C83_binary (hD : D ≤ 64) (cutoff : Nat) (pts : Nat → Vec D K) (cut : List Bool → Box D K → Fin D × K) (r : Nat)
    (bounds : Box D K) (ids : Finset Nat) (hinf : HasInf D ids) (hb : InBox pts bounds ids) :
    Separated pts (binary cutoff pts cut r [] bounds ids) :=
  separated_binary hD cutoff pts cut r [] bounds ids hinf hb

theorem separated_hyper (hD : D ≤ 64) (slack : K) (pts : Nat → Vec D K) (bounds : Box D K)
    (plane : List Bool → Vec D K × K) (n : Nat) :
    ∀ (path : List Bool) (chk : Option (Chk D K)) (ids : Finset Nat), HasInf D ids →
    Separated pts (hyper slack pts bounds plane n path chk ids) := by
  induction n using Nat.strong_induction_on with
  | _ n ih =>
    intro path chk ids hinf
    rw [hyper]
    split_ifs with h
    · refine separated_node ?_ ?_
      · refine List.pairwise_pair.mpr (Sep2.symm (Sep2.mono (sep2_linear (dot_linear (plane path).1) (c := (plane path).2)
          (A := addInf D (ids.filter fun i => ¬ 0 < Chk.distanceToPlane (pts i) (plane path).1 (plane path).2))
          (B := addInf D (ids.filter fun i => 0 < Chk.distanceToPlane (pts i) (plane path).1 (plane path).2)) ?_ ?_) ?_ ?_))
        · intro v hv hf
          rw [mem_addInf_fin hD hf, Finset.mem_filter, Chk.distanceToPlane] at hv
          linarith [hv.2]
        · intro v hv hf
          rw [mem_addInf_fin hD hf, Finset.mem_filter, Chk.distanceToPlane] at hv
          linarith [hv.2]
        · exact fun v hv hf => (counts_hyper hD slack pts bounds plane (n / 2) _ _ _ (addInf_inf hD _)).sub_ids hv hf
        · exact fun v hv hf => (counts_hyper hD slack pts bounds plane (n / 2) _ _ _ (addInf_inf hD _)).sub_ids hv hf
      · intro t ht
        simp only [List.mem_cons, List.not_mem_nil, or_false] at ht
        rcases ht with rfl | rfl <;> exact ih (n / 2) (by omega) _ _ _ (addInf_inf hD _)
    · exact separated_leaf

/-- **C83 (hyperplanes).** The same for any planes. -/
theorem C83_hyperplane (hD : D ≤ 64) (slack : K) (pts : Nat → Vec D K) (plane : List Bool → Vec D K × K) (n : Nat)
    (bounds : Box D K) (ids : Finset Nat) (hinf : HasInf D ids) :
    Separated pts (hyperplane slack pts plane n bounds ids) :=
  separated_hyper hD slack pts bounds plane n [] _ ids hinf

omit [IsStrictOrderedRing K] in
theorem within_hyper (hD : D ≤ 64) (slack : K) (pts : Nat → Vec D K) (bounds : Box D K)
    (plane : List Bool → Vec D K × K) {S : Finset Nat} (hS : HasInf D S) (n : Nat) :
    ∀ (path : List Bool) (chk : Option (Chk D K)) (ids : Finset Nat), ids ⊆ S →
    (hyper slack pts bounds plane n path chk ids).collectIds ⊆ S := by
  induction n using Nat.strong_induction_on with
  | _ n ih =>
    intro path chk ids hi
    rw [hyper]
    split_ifs with h
    · refine within_node fun t ht => ?_
      simp only [List.mem_cons, List.not_mem_nil, or_false] at ht
      rcases ht with rfl | rfl
      · exact ih (n / 2) (by omega) _ _ _ (addInf_sub hD ((Finset.filter_subset _ _).trans hi) hS)
      · exact ih (n / 2) (by omega) _ _ _ (addInf_sub hD ((Finset.filter_subset _ _).trans hi) hS)
    · rw [collectIds]; exact hi

omit [IsStrictOrderedRing K] in
theorem shape_hyper (slack : K) (pts : Nat → Vec D K) (bounds : Box D K) (plane : List Bool → Vec D K × K) (n : Nat) :
    ∀ (path : List Bool) (chk : Option (Chk D K)) (ids : Finset Nat),
    DC.Shape (hyper slack pts bounds plane n path chk ids) ∧
      ∀ H, n < 2 ^ (H + 1) → ∀ p s, sub (hyper slack pts bounds plane n path chk ids) p = some s → p.length ≤ H := by
  induction n using Nat.strong_induction_on with
  | _ n ih =>
    intro path chk ids
    rw [hyper]
    split_ifs with h
    · refine ⟨shape_node (by simp) (by simp) fun t ht => ?_, ?_⟩
      · simp only [List.mem_cons, List.not_mem_nil, or_false] at ht
        rcases ht with rfl | rfl <;> exact (ih (n / 2) (by omega) _ _ _).1
      · intro H hH
        obtain ⟨H, rfl⟩ : ∃ H', H = H' + 1 := by
          cases H with
          | zero => simp at hH; omega
          | succ H => exact ⟨H, rfl⟩
        refine paths_node fun t ht => ?_
        simp only [List.mem_cons, List.not_mem_nil, or_false] at ht
        rw [pow_succ] at hH
        rcases ht with rfl | rfl <;> exact (ih (n / 2) (by omega) _ _ _).2 H (by omega)
    · exact ⟨shape_leaf, fun _ _ => paths_leaf⟩

/-! ### Old partitioner -/

end Build

namespace Part
variable {D : Nat} {K : Type} [Field K] [LinearOrder K] [IsStrictOrderedRing K]

theorem twoWay_separable' (hD : D ≤ 64) {stats : Stats D K} {k : Nat} {pts : Nat → Vec D K} {ids : List Nat}
    {ps : List (Partition D K)} (h : twoWay stats k pts ids false = some ps) : Separable D pts ps := by
  by_cases hk : k < D
  · exact twoWay_separable hD stats ⟨k, hk⟩ pts ids false ps h
  · have hno := twoWay_nofin hk h
    obtain ⟨_, _, _, hin, _⟩ := twoWay_some hD stats k pts ids false h
    intro i j p q hp hq _ v hv hf
    exact absurd (isFinite_iff'.mpr hf) (hno v (by by_contra hc; exact hin v hf hc p (List.mem_of_getElem? hp) hv))

/-- Whenever a splitter returns, its parts are separated. -/
theorem Splitter.Parts.separable (hD : D ≤ 64) {sp : Splitter} {big tiny : K} {pts : Nat → Vec D K} {len : Nat}
    {S : Finset Nat} {ps : List (Partition D K)} (h : sp.Parts big tiny pts len S ps) : Separable D pts ps := by
  obtain ⟨ids, work, _, hS, hw, hrun⟩ := h
  cases sp with
  | dWay => exact C44_dWay hD _ pts ids false ps hrun
  | oneDim k => exact twoWay_separable' hD hrun
  | cycle => exact twoWay_separable' hD hrun
  | extend => exact twoWay_separable' hD hrun

/-- Every splitter returns at least two parts. -/
theorem Splitter.Parts.two_le (hD : D ≤ 64) (h0 : 0 < D) {sp : Splitter} {big tiny : K} {pts : Nat → Vec D K} {len : Nat}
    {S : Finset Nat} {ps : List (Partition D K)} (h : sp.Parts big tiny pts len S ps) : 2 ≤ ps.length := by
  obtain ⟨ids, work, _, hS, hw, hrun⟩ := h
  cases sp with
  | dWay =>
    obtain ⟨qs, h1, h2⟩ := C42_dWay hD (getPointStats big tiny pts work true) pts ids false
    have : some qs = some ps := h1.symm.trans hrun
    cases this
    rw [h2.1]
    calc 2 = 2 ^ 1 := rfl
      _ ≤ 2 ^ D := Nat.pow_le_pow_right (by omega) h0
  | oneDim k => exact (twoWay_some hD _ _ pts ids false hrun).1.ge
  | cycle => exact (twoWay_some hD _ _ pts ids false hrun).1.ge
  | extend => exact (twoWay_some hD _ _ pts ids false hrun).1.ge

end Part

namespace Build
open PTree
variable {D : Nat} {K : Type} [Field K] [LinearOrder K] [IsStrictOrderedRing K]

theorem separated_old (hD : D ≤ 64) (cutoff : Nat) (pts : Nat → Vec D K)
    (split : Nat → Finset Nat → Option (List (Part.Partition D K)))
    (hs : ∀ n S ps, split n S = some ps → (∃ m l, (∀ i, i ∈ l ↔ i ∈ S) ∧ Part.SplitsInto D m l false ps) ∧
      Part.Separable D pts ps) :
    ∀ (r : Nat) (bounds : Box D K) (ids : Finset Nat) (prov : Nat) (t : PTree (Chk D K)), HasInf D ids →
    old cutoff split r bounds ids prov = some t → Separated pts t
  | 0, bounds, ids, prov, t, hinf, h => by
    rw [old] at h
    cases h
    refine separated_node (List.pairwise_singleton _ _) fun t ht => ?_
    rw [List.mem_singleton] at ht
    subst ht
    exact separated_leaf
  | r + 1, bounds, ids, prov, t, hinf, h => by
    rw [old, Option.bind_eq_some_iff] at h
    obtain ⟨ps, hp, h⟩ := h
    rw [Option.map_eq_some_iff] at h
    obtain ⟨l, hl, rfl⟩ := h
    obtain ⟨⟨m, idl, hid, _, _, hex, hno, hall⟩, hsep⟩ := hs prov ids ps hp
    have h2 := mapM_forall₂ hl
    have hlen : l.length = ps.length := by rw [← h2.length_eq, List.length_zipIdx]
    have key : ∀ i (hi : i < l.length), Separated pts l[i] ∧
        ∀ v ∈ l[i].collectIds, v < 2 ^ 64 - 2 ^ D → v ∈ (ps[i]'(by rw [← hlen]; exact hi)).points := by
      intro i hi
      have h3 := (List.forall₂_iff_get.mp h2).2 i (by rw [h2.length_eq]; exact hi) hi
      simp only [List.get_eq_getElem, List.getElem_zipIdx] at h3
      have hpm : ps[i]'(by rw [← hlen]; exact hi) ∈ ps := List.getElem_mem _
      generalize l[i] = t at *
      generalize ps[i]'(by rw [← hlen]; exact hi) = z at *
      have hpi : HasInf D z.points := fun id h1 h2 => (hall id h1 z hpm).mpr ⟨rfl, h2⟩
      split_ifs at h3
      · exact ⟨separated_old hD cutoff pts split hs r _ _ _ t hpi h3, fun v hv hf =>
          (counts_old hD cutoff split (fun n S ps h => (hs n S ps h).1) r _ _ _ t hpi h3).sub_ids hv hf⟩
      · cases h3
        exact ⟨separated_leaf, fun v hv _ => by rwa [collectIds] at hv⟩
    refine separated_node (List.pairwise_iff_getElem.mpr fun i j hi hj hij => ?_) fun t ht => ?_
    · refine Sep2.mono ⟨?_, ?_⟩ (key i hi).2 (key j hj).2
      · exact hsep j i _ _ (List.getElem?_eq_getElem (by omega)) (List.getElem?_eq_getElem (by omega)) (by omega)
      · exact hsep i j _ _ (List.getElem?_eq_getElem (by omega)) (List.getElem?_eq_getElem (by omega)) (by omega)
    · obtain ⟨i, hi, rfl⟩ := List.getElem_of_mem ht
      exact (key i hi).1

/-- **C83 (old partitioner with its splitters).** The same for any of the four splitters. -/
theorem C83_old (hD : D ≤ 64) (cutoff : Nat) (sp : Part.Splitter) (big tiny : K) (pts : Nat → Vec D K)
    (split : Nat → Finset Nat → Option (List (Part.Partition D K)))
    (hs : ∀ n S ps, split n S = some ps → sp.Parts big tiny pts n S ps)
    (r : Nat) (bounds : Box D K) (ids : Finset Nat) (t : PTree (Chk D K)) (hinf : HasInf D ids)
    (h : old cutoff split r bounds ids 1 = some t) : Separated pts t :=
  separated_old hD cutoff pts split (fun n S ps hp => ⟨(hs n S ps hp).splits hD, (hs n S ps hp).separable hD⟩) r bounds ids 1 t
    hinf h

omit [IsStrictOrderedRing K] in
theorem shape_old (cutoff : Nat) (split : Nat → Finset Nat → Option (List (Part.Partition D K)))
    (hs : ∀ n S ps, split n S = some ps → (∃ m l, (∀ i, i ∈ l ↔ i ∈ S) ∧ Part.SplitsInto D m l false ps) ∧ 2 ≤ ps.length)
    {S : Finset Nat} (hS : HasInf D S) (hid : ∀ i ∈ S, i < 2 ^ 64) :
    ∀ (r : Nat) (bounds : Box D K) (ids : Finset Nat) (prov : Nat) (t : PTree (Chk D K)), ids ⊆ S →
    old cutoff split r bounds ids prov = some t →
    DC.Shape t ∧ (∀ p s, sub t p = some s → p.length ≤ r + 1) ∧ t.collectIds ⊆ S
  | 0, bounds, ids, prov, t, hi, h => by
    rw [old] at h
    cases h
    refine ⟨shape_node (by simp) ?_ ?_, paths_node ?_, within_node ?_⟩
    · intro t' ht'; cases ht'; exact ⟨_, _, rfl⟩
    · intro t' ht'; rw [List.mem_singleton] at ht'; subst ht'; exact shape_leaf
    · intro t' ht'; rw [List.mem_singleton] at ht'; subst ht'; exact paths_leaf
    · intro t' ht'; rw [List.mem_singleton] at ht'; subst ht'; rw [collectIds]; exact hi
  | r + 1, bounds, ids, prov, t, hi, h => by
    rw [old, Option.bind_eq_some_iff] at h
    obtain ⟨ps, hp, h⟩ := h
    rw [Option.map_eq_some_iff] at h
    obtain ⟨l, hl, rfl⟩ := h
    obtain ⟨⟨m, idl, hidl, _, _, hex, hno, hall⟩, htwo⟩ := hs prov ids ps hp
    have h2 := mapM_forall₂ hl
    have hlen : l.length = ps.length := by rw [← h2.length_eq, List.length_zipIdx]
    have key : ∀ t ∈ l, DC.Shape t ∧ (∀ p s, sub t p = some s → p.length ≤ r + 1) ∧ t.collectIds ⊆ S := by
      intro t ht
      obtain ⟨i, hil, rfl⟩ := List.getElem_of_mem ht
      have h3 := (List.forall₂_iff_get.mp h2).2 i (by rw [h2.length_eq]; exact hil) hil
      simp only [List.get_eq_getElem, List.getElem_zipIdx] at h3
      have hpm : ps[i]'(by rw [← hlen]; exact hil) ∈ ps := List.getElem_mem _
      generalize l[i] = t at *
      generalize ps[i]'(by rw [← hlen]; exact hil) = z at *
      have hz : z.points ⊆ S := by
        intro v hv
        by_cases hf : v < 2 ^ 64 - 2 ^ D
        · by_contra hc
          exact hno v hf (fun h' => hc (hi ((hidl v).mp h'))) z hpm hv
        · exact hS v (by omega) ((hall v (by omega) z hpm).mp hv).2
      split_ifs at h3
      · exact shape_old cutoff split hs hS hid r _ _ _ t hz h3
      · cases h3
        exact ⟨shape_leaf, paths_leaf, by rw [collectIds]; exact hz⟩
    refine ⟨shape_node ?_ ?_ fun t ht => (key t ht).1, paths_node fun t ht => (key t ht).2.1, within_node fun t ht => (key t ht).2.2⟩
    · rintro rfl; simp at hlen; omega
    · rintro t' rfl; simp at hlen; omega

/-! ### k-way splitter -/

/-- Sets separated by a coordinate. -/
theorem sep2_coord {pts : Nat → Vec D K} {A B : Finset Nat} (k : Fin D)
    (h : ∀ a ∈ A, a < 2 ^ 64 - 2 ^ D → ∀ b ∈ B, b < 2 ^ 64 - 2 ^ D → pts a k < pts b k) : Sep2 pts A B := by
  by_cases hA : (A.filter (· < 2 ^ 64 - 2 ^ D)).Nonempty
  · obtain ⟨m, hm, hmax⟩ := Finset.exists_max_image _ (fun a => pts a k) hA
    rw [Finset.mem_filter] at hm
    exact sep2_linear (coord_linear k) (c := pts m k) (fun v hv hf => hmax v (Finset.mem_filter.mpr ⟨hv, hf⟩))
      fun v hv hf => h m hm.1 hm.2 v hv hf
  · rw [Finset.not_nonempty_iff_eq_empty, Finset.filter_eq_empty_iff] at hA
    refine ⟨fun v hv hf hc => ?_, fun v hv hf => absurd hf (hA hv)⟩
    have : pts '' {u | u ∈ A ∧ u < 2 ^ 64 - 2 ^ D} = ∅ := by
      rw [Set.image_eq_empty]
      ext u
      simp only [Set.mem_setOf_eq, Set.mem_empty_iff_false, iff_false, not_and]
      exact fun hu => hA hu
    rw [this, convexHull_empty] at hc
    exact hc

/-- The rounded bucket of a coordinate between the extreme ones never exceeds the range of `int`. -/
def NoWrap [FloorRing K] (fl : K → K) (n : Nat) : Prop :=
  ∀ mn mx c, mn ≤ c → c ≤ mx → fl (fl mx - fl mn) ≠ 0 →
    fl (fl ((c - fl mn) / fl (fl mx - fl mn)) * n) < 2 ^ 31

/-- Exact arithmetic does not wrap. -/
theorem noWrap_id [FloorRing K] {n : Nat} (hn : n < 2 ^ 31) : NoWrap (K := K) id n := by
  intro mn mx c h1 h2 h3
  simp only [id] at *
  have h4 : 0 < mx - mn := lt_of_le_of_ne (by linarith) (Ne.symm h3)
  have h5 : (c - mn) / (mx - mn) ≤ 1 := (div_le_one h4).mpr (by linarith)
  calc (c - mn) / (mx - mn) * n ≤ 1 * n := mul_le_mul_of_nonneg_right h5 (Nat.cast_nonneg n)
    _ < 2 ^ 31 := by rw [one_mul]; exact_mod_cast hn

/-- Buckets are monotone in the coordinate. -/
theorem bucket_mono [FloorRing K] {fl : K → K} (hfl : Monotone fl) (h0 : fl 0 = 0) {n : Nat} (hw : NoWrap fl n) {mn mx c c' : K}
    (h1 : mn ≤ c) (h2 : c ≤ c') (h3 : c' ≤ mx) {b b' : Nat} (hb : bucket fl mn mx n c = .done b)
    (hb' : bucket fl mn mx n c' = .done b') : b ≤ b' := by
  unfold bucket at hb hb'
  simp only at hb hb'
  split_ifs at hb with hd hf
  rw [if_neg hd] at hb'
  split_ifs at hb' with hf'
  have hd0 : 0 < fl (fl mx - fl mn) := by
    refine lt_of_le_of_ne ?_ (Ne.symm hd)
    rw [← h0]
    exact hfl (by rw [sub_nonneg]; exact hfl (h1.trans (h2.trans h3)))
  have hle : fl (fl ((c - fl mn) / fl (fl mx - fl mn)) * n) ≤ fl (fl ((c' - fl mn) / fl (fl mx - fl mn)) * n) := by
    apply hfl
    apply mul_le_mul_of_nonneg_right _ (Nat.cast_nonneg n)
    apply hfl
    exact div_le_div_of_nonneg_right (by linarith) hd0.le
  have hfloor := Int.floor_le_floor hle
  have hb1 : ⌊fl (fl ((c' - fl mn) / fl (fl mx - fl mn)) * n)⌋ < 2 ^ 31 := by
    rw [Int.floor_lt]
    exact_mod_cast hw mn mx c' (h1.trans h2) h3 hd
  generalize ⌊fl (fl ((c - fl mn) / fl (fl mx - fl mn)) * n)⌋ = f at *
  generalize ⌊fl (fl ((c' - fl mn) / fl (fl mx - fl mn)) * n)⌋ = f' at *
  cases hb
  cases hb'
  have e : ∀ g : Int, 0 ≤ g → g < 2 ^ 31 → (BitVec.ofInt 32 g).toInt = g := by
    intro g g1 g2
    rw [BitVec.toInt_ofInt, Int.bmod_def]
    norm_num
    omega
  rw [e f hf.1 (by omega), e f' hf'.1 hb1]
  omega

theorem separated_kwayRec [FloorRing K] (hD : D ≤ 64) (fl : K → K) (hfl : Monotone fl) (h0 : fl 0 = 0) (big tiny : K)
    (pts : Nat → Vec D K) (it : Finset Nat → List Nat) (hit : ∀ s i, i ∈ it s ↔ i ∈ s) {S : Finset Nat} (hS : HasInf D S) :
    ∀ (sp : List Nat) (depth : Nat) (ids : Finset Nat) (l : List (PTree (Chk D K))), (∀ n ∈ sp, 0 < n) →
    (∀ n ∈ sp, NoWrap fl n) → ids ⊆ S →
    kwayRec fl big tiny pts it sp depth ids = .done l →
    (l.Pairwise fun a b => Sep2 pts a.collectIds b.collectIds) ∧ ∀ t ∈ l, t.collectIds ⊆ S
  | [], depth, ids, l, _, _, hi, h => by
    rw [kwayRec] at h
    cases h
    refine ⟨List.pairwise_singleton _ _, fun t ht => ?_⟩
    rw [List.mem_singleton] at ht
    subst ht
    rw [collectIds]
    exact addInf_sub hD hi hS
  | n :: sp, depth, ids, l, hpos, hw, hi, h => by
    rw [kwayRec] at h
    split_ifs at h with hd
    simp only at h
    cases hb : buckets (D := D) fl ((Part.getPointStatsSeq big tiny pts (it ids) true).min ⟨depth % D, hd⟩)
        ((Part.getPointStatsSeq big tiny pts (it ids) true).max ⟨depth % D, hd⟩) n (fun i => pts i ⟨depth % D, hd⟩) (it ids) with
    | ub => rw [hb] at h; simp at h
    | timeout => rw [hb] at h; simp at h
    | done bs =>
      rw [hb, Res.bind_done] at h
      obtain ⟨rs, h1, rfl⟩ := concat_done h
      obtain ⟨h2, h3⟩ := mem_buckets hb
      have hsub : ∀ b, bucketIds bs b ⊆ S := fun b v hv => hi ((hit _ _).mp ((h3 v b).mp (mem_bucketIds.mp hv)).1)
      have hrec : ∀ b x, kwayRec fl big tiny pts it sp (depth + 1) (bucketIds bs b) = .done x →
          (x.Pairwise fun a b => Sep2 pts a.collectIds b.collectIds) ∧ (∀ t ∈ x, t.collectIds ⊆ S) ∧
            ∀ t ∈ x, ∀ v ∈ t.collectIds, v < 2 ^ 64 - 2 ^ D → (v, b) ∈ bs := by
        intro b x hx
        obtain ⟨g1, g2⟩ := separated_kwayRec hD fl hfl h0 big tiny pts it hit hS sp (depth + 1) (bucketIds bs b) x
          (fun m hm => hpos m (List.mem_cons_of_mem _ hm)) (fun m hm => hw m (List.mem_cons_of_mem _ hm)) (hsub b) hx
        refine ⟨g1, g2, fun t ht v hv hf => ?_⟩
        refine mem_bucketIds.mp (((counts_kwayRec hD fl big tiny pts it hit sp (depth + 1) (bucketIds bs b) x
          (fun m hm => hpos m (List.mem_cons_of_mem _ hm)) hx).1 none).sub_ids ?_ hf)
        rw [collectIds, mem_collectAll]
        exact ⟨t, ht, (mem_collectIds t v).mp hv⟩
      have hlen : rs.length = n := by rw [← h1.length_eq, List.length_range]
      have hget : ∀ i (hi : i < rs.length), kwayRec fl big tiny pts it sp (depth + 1) (bucketIds bs i) = .done rs[i] := by
        intro i hi
        have h3 := (List.forall₂_iff_get.mp h1).2 i (by rw [h1.length_eq]; exact hi) hi
        simp only [List.get_eq_getElem, List.getElem_range] at h3
        exact h3
      refine ⟨List.pairwise_flatten.mpr ⟨?_, ?_⟩, ?_⟩
      · intro x hx
        obtain ⟨i, hi, rfl⟩ := List.getElem_of_mem hx
        exact (hrec i _ (hget i hi)).1
      · refine List.pairwise_iff_getElem.mpr fun i j hi hj hij t ht t' ht' => ?_
        refine sep2_coord ⟨depth % D, hd⟩ fun a ha haf b hb' hbf => ?_
        have ha' := (h3 _ _).mp ((hrec i _ (hget i hi)).2.2 t ht a ha haf)
        have hb2 := (h3 _ _).mp ((hrec j _ (hget j hj)).2.2 t' ht' b hb' hbf)
        by_contra hc
        have ca := Part.getPointStatsSeq_covers big tiny pts (it ids) a ha'.1 haf ⟨depth % D, hd⟩
        have cb := Part.getPointStatsSeq_covers big tiny pts (it ids) b hb2.1 hbf ⟨depth % D, hd⟩
        have := bucket_mono hfl h0 (hw n (List.mem_cons_self ..)) cb.1 (not_lt.mp hc) ca.2 hb2.2.2 ha'.2.2
        omega
      · intro t ht
        obtain ⟨x, hx, htx⟩ := List.mem_flatten.mp ht
        obtain ⟨i, hi, rfl⟩ := List.getElem_of_mem hx
        exact (hrec i _ (hget i hi)).2.1 t htx

end Build
end Verif
