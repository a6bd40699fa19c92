import Verif.Props.KWay
import Mathlib.Algebra.Order.BigOperators.Ring.Finset

/-!
# C65, C81, C82: the checkers of the nodes of partition trees
-/
namespace Verif

namespace Chk
variable {D : Nat} {K : Type} [Field K] [LinearOrder K]

/-- The checker reports every sphere that contains one of the finite points. -/
def Covers (pts : Nat → Vec D K) (c : Chk D K) (F : Finset Nat) : Prop :=
  ∀ (s : Sphere D K) (vs : List Nat) (v : Nat), 0 ≤ s.radius → v ∈ F → v < 2 ^ 64 - 2 ^ D →
    ∑ i, (pts v i - s.center i) * (pts v i - s.center i) ≤ s.radius * s.radius → c.meets s vs = true

theorem Covers.mono {pts : Nat → Vec D K} {c : Chk D K} {F G : Finset Nat} (h : c.Covers pts F)
    (hG : ∀ v ∈ G, v < 2 ^ 64 - 2 ^ D → v ∈ F) : c.Covers pts G :=
  fun s vs v hr hv hf hd => h s vs v hr (hG v hv hf) hf hd

theorem dot_eq (a b : Vec D K) : Geom.dot a b = ∑ i, a i * b i := by
  have : ∀ (l : List (Fin D)) (x : K), l.foldl (fun r d => r + a d * b d) x = x + (l.map fun d => a d * b d).sum := by
    intro l
    induction l with
    | nil => simp
    | cons d l ih => intro x; rw [List.foldl_cons, ih, List.map_cons, List.sum_cons, add_assoc]
  rw [Geom.dot, this, zero_add, List.sum_ofFn.symm, List.ofFn_eq_map]

variable [IsStrictOrderedRing K]

theorem covers_ofBox {pts : Nat → Vec D K} {b : Box D K} {F : Finset Nat}
    (h : ∀ v ∈ F, v < 2 ^ 64 - 2 ^ D → ∀ d, b.low d ≤ pts v d ∧ pts v d ≤ b.high d) : (Chk.ofBox b).Covers pts F := by
  intro s vs v hr hv hf hd
  have hb := h v hv hf
  exact (Box.C35_intersects b s hr fun d => (hb d).1.trans (hb d).2).mpr ⟨pts v, hb, hd⟩

/-- Cauchy-Schwarz: along a direction of length at most one, a point of a ball is at most the radius away from its centre. -/
theorem dot_sub_le {n p c : Vec D K} {r : K} (hn : ∑ i, n i * n i ≤ 1) (hr : 0 ≤ r)
    (hd : ∑ i, (p i - c i) * (p i - c i) ≤ r * r) : |Geom.dot n p - Geom.dot n c| ≤ r := by
  rw [dot_eq, dot_eq, ← Finset.sum_sub_distrib]
  have h := Finset.sum_mul_sq_le_sq_mul_sq Finset.univ n (fun i => p i - c i)
  have h1 : (∑ i, n i ^ 2) ≤ 1 := by simpa [sq] using hn
  have h2 : (∑ i, (p i - c i) ^ 2) ≤ r ^ 2 := by simpa [sq] using hd
  have h3 : 0 ≤ ∑ i, (p i - c i) ^ 2 := Finset.sum_nonneg fun i _ => sq_nonneg _
  have h4 : (∑ i, n i * (p i - c i)) ^ 2 ≤ r ^ 2 := h.trans ((mul_le_of_le_one_left h3 h1).trans h2)
  have h5 := abs_le_of_sq_le_sq h4 hr
  have : ∑ i, (n i * p i - n i * c i) = ∑ i, n i * (p i - c i) := Finset.sum_congr rfl fun i _ => by ring
  rw [this]
  exact h5

/-- **C65 (one side).** The checker with normal `n` and offset `o - slack` reports every sphere that contains a point on the
positive side of the plane, even on the plane if the slack is positive. -/
theorem C65_plane (pts : Nat → Vec D K) (b : Box D K) (n : Vec D K) (o : K) (F : Finset Nat) (hn : ∑ i, n i * n i ≤ 1)
    (hF : ∀ v ∈ F, v < 2 ^ 64 - 2 ^ D → o < Geom.dot n (pts v)) : (Chk.plane b n o).Covers pts F := by
  intro s vs v hr hv hf hd
  have h1 := abs_le.mp (dot_sub_le hn hr hd)
  have h2 := hF v hv hf
  show decide (0 < Geom.dot n s.center - o + s.radius) = true
  rw [decide_eq_true_eq]
  linarith [h1.2]

end Chk

namespace PTree
variable {D : Nat} {K : Type} [Field K] [LinearOrder K]

/-- Every node below the root has a checker, which reports every sphere that contains a finite point of this subtree. -/
def Covered (pts : Nat → Vec D K) (t : PTree (Chk D K)) : Prop :=
  ∀ (p : List Nat) (s : PTree (Chk D K)), p ≠ [] → sub t p = some s → ∃ c, s.chk = some c ∧
    c.Covers pts s.collectIds

theorem covered_leaf {pts : Nat → Vec D K} {c : Option (Chk D K)} {ids : Finset Nat} : Covered pts (leaf c ids) := by
  intro p s hp hs
  cases p with
  | nil => exact absurd rfl hp
  | cons i q => simp at hs

theorem covered_node {pts : Nat → Vec D K} {c : Option (Chk D K)} {l : List (PTree (Chk D K))}
    (h : ∀ t ∈ l, (∃ c, t.chk = some c ∧ c.Covers pts t.collectIds) ∧ Covered pts t) : Covered pts (node c l) := by
  intro p s hp hs
  cases p with
  | nil => exact absurd rfl hp
  | cons i q =>
    rw [sub_node] at hs
    cases ht : l[i]? with
    | none => rw [ht] at hs; simp at hs
    | some t =>
      rw [ht] at hs
      obtain ⟨h1, h2⟩ := h t (List.mem_of_getElem? ht)
      cases q with
      | nil =>
        simp only [Option.bind_some, sub_nil, Option.some.injEq] at hs
        subst hs
        exact h1
      | cons j q => exact h2 (j :: q) s (by simp) hs

/-- A tree with a checker at its root and checked below is checked. -/
theorem Covered.checked {pts : Nat → Vec D K} {t : PTree (Chk D K)} (h : Covered pts t) (ht : t.chk ≠ none) : Checked t := by
  intro p s hs
  by_cases hp : p = []
  · subst hp
    rw [sub_nil] at hs
    cases hs
    exact ht
  · obtain ⟨c, hc, _⟩ := h p s hp hs
    rw [hc]
    simp

omit [Field K] [LinearOrder K] in
theorem Counts.sub_ids {S : Finset Nat} {t : PTree (Chk D K)} (h : Counts D S t) {v : Nat} (hv : v ∈ t.collectIds)
    (hf : v < 2 ^ 64 - 2 ^ D) : v ∈ S := by
  obtain ⟨p, ids, hl, hi⟩ := (mem_collectIds t v).mp hv
  obtain ⟨c, hc⟩ := hl
  exact (h.splits.2 p c ids hc).1 v hi hf

end PTree

namespace Build
open PTree
variable {D : Nat} {K : Type} [Field K] [LinearOrder K]

/-- The finite points of `ids` lie in the box. -/
def InBox (pts : Nat → Vec D K) (b : Box D K) (ids : Finset Nat) : Prop :=
  ∀ v ∈ ids, v < 2 ^ 64 - 2 ^ D → ∀ d, b.low d ≤ pts v d ∧ pts v d ≤ b.high d

variable [IsStrictOrderedRing K]

theorem inBox_split {pts : Nat → Vec D K} {b : Box D K} {ids : Finset Nat} (hD : D ≤ 64) (h : InBox pts b ids) (k : Fin D)
    (x : K) : InBox pts (splitBox b k x).1 (addInf D (select D (fun i => (splitBox b k x).1.containsPoint (pts i)) ids)) ∧
    InBox pts (splitBox b k x).2 (addInf D (select D (fun i => !(splitBox b k x).1.containsPoint (pts i)) ids)) := by
  constructor
  · intro v hv hf
    rw [mem_addInf_fin hD hf, mem_select hf] at hv
    exact Box.C35_contains_point _ _ |>.mp hv.2
  · intro v hv hf d
    rw [mem_addInf_fin hD hf, mem_select hf] at hv
    have hb := h v hv.1 hf
    have hn : ¬ ∀ d, (splitBox b k x).1.low d ≤ pts v d ∧ pts v d ≤ (splitBox b k x).1.high d := by
      rw [← Box.C35_contains_point]
      simpa using hv.2
    push_neg at hn
    obtain ⟨e, he⟩ := hn
    have he2 : (splitBox b k x).1.high e < pts v e := he (hb e).1
    clear he
    simp only [splitBox, Function.update_apply] at he2 ⊢
    split_ifs at he2 with hek
    · subst hek
      by_cases hd : d = e
      · subst hd
        simp only [if_true]
        exact ⟨he2.le, (hb d).2⟩
      · simp only [if_neg hd]
        exact hb d
    · exact absurd (hb e).2 (not_le.mpr he2)

/-- **C82 (simple).** If the given bounds contain all finite points: every node has a checker, and no checker misses a sphere that
contains a finite point of its subtree. -/
theorem C82_simple (hD : D ≤ 64) (k0 : Fin D) (pts : Nat → Vec D K) (bounds : Box D K) (ids : Finset Nat)
    (hb : InBox pts bounds ids) : Covered pts (simple k0 pts bounds ids) ∧ Checked (simple k0 pts bounds ids) := by
  have : Covered pts (simple k0 pts bounds ids) := by
    obtain ⟨h1, h2⟩ := inBox_split hD hb k0 ((bounds.low k0 + bounds.high k0) / 2)
    refine covered_node fun t ht => ?_
    simp only [List.mem_cons, List.not_mem_nil, or_false] at ht
    rcases ht with rfl | rfl
    · exact ⟨⟨_, rfl, Chk.covers_ofBox h1⟩, covered_leaf⟩
    · exact ⟨⟨_, rfl, Chk.covers_ofBox h2⟩, covered_leaf⟩
  exact ⟨this, this.checked (by simp [simple, PTree.chk])⟩

theorem chk_binary (cutoff : Nat) (pts : Nat → Vec D K) (cut : List Bool → Box D K → Fin D × K) (r : Nat)
    (path : List Bool) (bounds : Box D K) (ids : Finset Nat) :
    (binary cutoff pts cut r path bounds ids).chk = some (.ofBox bounds) := by
  cases r with
  | zero => rfl
  | succ r =>
    rw [binary]
    split_ifs <;> rfl

theorem covered_binary (hD : D ≤ 64) (cutoff : Nat) (pts : Nat → Vec D K) (cut : List Bool → Box D K → Fin D × K) :
    ∀ (r : Nat) (path : List Bool) (bounds : Box D K) (ids : Finset Nat), HasInf D ids → InBox pts bounds ids →
    Covered pts (binary cutoff pts cut r path bounds ids)
  | 0, _, _, _, _, _ => covered_leaf
  | r + 1, path, bounds, ids, hinf, hb => by
    rw [binary]
    split_ifs
    · obtain ⟨h1, h2⟩ := inBox_split hD hb (cut path bounds).1 (cut path bounds).2
      refine covered_node fun t ht => ?_
      simp only [List.mem_cons, List.not_mem_nil, or_false] at ht
      rcases ht with rfl | rfl
      · refine ⟨⟨_, chk_binary .., (Chk.covers_ofBox h1).mono fun v hv hf => ?_⟩,
          covered_binary hD cutoff pts cut r _ _ _ (addInf_inf hD _) h1⟩
        exact (counts_binary hD cutoff pts cut r _ _ _ (addInf_inf hD _)).sub_ids hv hf
      · refine ⟨⟨_, chk_binary .., (Chk.covers_ofBox h2).mono fun v hv hf => ?_⟩,
          covered_binary hD cutoff pts cut r _ _ _ (addInf_inf hD _) h2⟩
        exact (counts_binary hD cutoff pts cut r _ _ _ (addInf_inf hD _)).sub_ids hv hf
    · exact covered_leaf

/-- **C82 (box estimating).** The same, whatever the estimated boxes. -/
theorem C82_binary (hD : D ≤ 64) (cutoff : Nat) (pts : Nat → Vec D K) (cut : List Bool → Box D K → Fin D × K) (r : Nat)
    (bounds : Box D K) (ids : Finset Nat) (hinf : HasInf D ids) (hb : InBox pts bounds ids) :
    Covered pts (binary cutoff pts cut r [] bounds ids) ∧ Checked (binary cutoff pts cut r [] bounds ids) := by
  have := covered_binary hD cutoff pts cut r [] bounds ids hinf hb
  exact ⟨this, this.checked (by rw [chk_binary]; simp)⟩

theorem chk_hyper (slack : K) (pts : Nat → Vec D K) (bounds : Box D K) (plane : List Bool → Vec D K × K) (n : Nat)
    (path : List Bool) (chk : Option (Chk D K)) (ids : Finset Nat) :
    (hyper slack pts bounds plane n path chk ids).chk = chk := by
  rw [hyper]
  split_ifs <;> rfl

/-- **C65 (both sides).** The checkers of the two sides of a plane: each of them reports every sphere that contains a point
of its side, if the normal has length one (or less) and the slack is positive. -/
theorem C65_sides (hD : D ≤ 64) (slack : K) (hs : 0 < slack) (pts : Nat → Vec D K) (bounds : Box D K) (normal : Vec D K)
    (offset : K) (hn : ∑ i, normal i * normal i ≤ 1) (ids : Finset Nat) :
    (Chk.plane bounds normal (offset - slack)).Covers pts
      (addInf D (ids.filter fun i => 0 < Chk.distanceToPlane (pts i) normal offset)) ∧
    (Chk.plane bounds (fun d => -1 * normal d) (-offset - slack)).Covers pts
      (addInf D (ids.filter fun i => ¬ 0 < Chk.distanceToPlane (pts i) normal offset)) := by
  constructor
  · refine Chk.C65_plane pts bounds _ _ _ hn fun v hv hf => ?_
    rw [mem_addInf_fin hD hf, Finset.mem_filter, Chk.distanceToPlane] at hv
    linarith [hv.2]
  · refine Chk.C65_plane pts bounds _ _ _ (by simpa using hn) fun v hv hf => ?_
    rw [mem_addInf_fin hD hf, Finset.mem_filter, Chk.distanceToPlane, not_lt] at hv
    have : Geom.dot (fun d => -1 * normal d) (pts v) = - Geom.dot normal (pts v) := by
      rw [Chk.dot_eq, Chk.dot_eq, ← Finset.sum_neg_distrib]
      exact Finset.sum_congr rfl fun i _ => by ring
    rw [this]
    linarith [hv.2]

/-- With a zero slack the right side's checker would miss a sphere that touches the plane. -/
example : ∃ (s : Sphere 2 ℚ), (0 : ℚ) ≤ s.radius ∧ ¬ 0 < Chk.distanceToPlane (![0, 0] : Vec 2 ℚ) ![1, 0] 0 ∧
    ∑ i, ((![0, 0] : Vec 2 ℚ) i - s.center i) * ((![0, 0] : Vec 2 ℚ) i - s.center i) ≤ s.radius * s.radius ∧
    (Chk.plane ⟨![0, 0], ![0, 0]⟩ (fun d => -1 * (![1, 0] : Vec 2 ℚ) d) (-0 - 0)).meets s [] = false :=
  ⟨⟨![1, 0], 1⟩, by decide +kernel, by decide +kernel, by decide +kernel, by decide +kernel⟩

theorem covered_hyper (hD : D ≤ 64) (slack : K) (hs : 0 < slack) (pts : Nat → Vec D K) (bounds : Box D K)
    (plane : List Bool → Vec D K × K) (hn : ∀ p, ∑ i, (plane p).1 i * (plane p).1 i ≤ 1) (n : Nat) :
    ∀ (path : List Bool) (chk : Option (Chk D K)) (ids : Finset Nat), HasInf D ids →
    Covered pts (hyper slack pts bounds plane n path chk ids) := by
  induction n using Nat.strong_induction_on with
  | _ n ih =>
    intro path chk ids hinf
    rw [hyper]
    split_ifs with h
    · obtain ⟨h1, h2⟩ := C65_sides hD slack hs pts bounds (plane path).1 (plane path).2 (hn path) ids
      refine covered_node fun t ht => ?_
      simp only [List.mem_cons, List.not_mem_nil, or_false] at ht
      rcases ht with rfl | rfl
      · refine ⟨⟨_, chk_hyper .., h1.mono fun v hv hf => ?_⟩, ih (n / 2) (by omega) _ _ _ (addInf_inf hD _)⟩
        exact (counts_hyper hD slack pts bounds plane (n / 2) _ _ _ (addInf_inf hD _)).sub_ids hv hf
      · refine ⟨⟨_, chk_hyper .., h2.mono fun v hv hf => ?_⟩, ih (n / 2) (by omega) _ _ _ (addInf_inf hD _)⟩
        exact (counts_hyper hD slack pts bounds plane (n / 2) _ _ _ (addInf_inf hD _)).sub_ids hv hf
    · exact covered_leaf

/-- **C82 (hyperplanes).** The same for any planes with unit normals and a positive slack; the bounds do not matter. -/
theorem C82_hyperplane (hD : D ≤ 64) (slack : K) (hs : 0 < slack) (pts : Nat → Vec D K)
    (plane : List Bool → Vec D K × K) (hn : ∀ p, ∑ i, (plane p).1 i * (plane p).1 i ≤ 1) (n : Nat)
    (bounds : Box D K) (ids : Finset Nat) (hinf : HasInf D ids) :
    Covered pts (hyperplane slack pts plane n bounds ids) ∧ Checked (hyperplane slack pts plane n bounds ids) := by
  have : Covered pts (hyperplane slack pts plane n bounds ids) := covered_hyper hD slack hs pts bounds plane hn n [] _ ids hinf
  exact ⟨this, this.checked (by rw [hyperplane, chk_hyper]; simp)⟩

omit [IsStrictOrderedRing K] in
/-- **C82 (assignment).** For any maker whose checkers cover the points of their parts (C60, C61). -/
theorem C82_assign (n : Nat) (part : Nat → Nat) (mkChk : Finset Nat → Chk D K) (pts : Nat → Vec D K)
    (hm : ∀ F, (mkChk F).Covers pts F) (bounds : Box D K) (ids : Finset Nat) (t : PTree (Chk D K))
    (h : assign n part mkChk bounds ids = some t) : Covered pts t ∧ Checked t := by
  unfold assign at h
  split_ifs at h
  cases h
  have : Covered pts (.node (some (.ofBox bounds)) ((List.range n).map fun j =>
      .leaf (some (mkChk (Checker.partIds D ids part j))) (Checker.partIds D ids part j))) := by
    refine covered_node fun t ht => ?_
    obtain ⟨j, _, rfl⟩ := List.mem_map.mp ht
    exact ⟨⟨_, rfl, hm _⟩, covered_leaf⟩
  exact ⟨this, this.checked (by simp [PTree.chk])⟩

/-- The checkers made from bounding boxes cover their parts. -/
theorem C82_mkBounds [FloorRing K] (u : Box D K) (it : Finset Nat → List Nat) (hit : ∀ s i, i ∈ it s ↔ i ∈ s)
    (pts : Nat → Vec D K) (F : Finset Nat) : (mkBounds u it pts F).Covers pts F := by
  intro s vs v hr hv hf hd
  refine Checker.C61_bounds u (p := pts v) ?_ s hr hd
  exact List.mem_map_of_mem (List.mem_filter.mpr ⟨(hit _ _).mpr hv, Part.isFinite_iff'.mpr hf⟩)

omit [Field K] [LinearOrder K] [IsStrictOrderedRing K] in
theorem sub_setChk {c : Option (Chk D K)} {t : PTree (Chk D K)} {p : List Nat} (hp : p ≠ []) : sub (t.setChk c) p = sub t p := by
  cases p with
  | nil => exact absurd rfl hp
  | cons i q => cases t <;> simp [PTree.setChk, sub]

omit [IsStrictOrderedRing K] in
theorem covered_setChk {pts : Nat → Vec D K} {c : Option (Chk D K)} {t : PTree (Chk D K)} (h : Covered pts t) :
    Covered pts (t.setChk c) := by
  intro p s hp hs
  rw [sub_setChk hp] at hs
  exact h p s hp hs

omit [IsStrictOrderedRing K] in
theorem covered_bipart (hD : D ≤ 64) (cutoff : Nat) (part : List Bool → Nat → Bool) (mkChk : Finset Nat → Chk D K)
    (pts : Nat → Vec D K) (hm : ∀ F, (mkChk F).Covers pts F) (n : Nat) : ∀ (path : List Bool) (bounds : Box D K) (ids : Finset Nat),
    HasInf D ids → Covered pts (bipart cutoff part mkChk n path bounds ids) := by
  induction n using Nat.strong_induction_on with
  | _ n ih =>
    intro path bounds ids hinf
    rw [bipart]
    split_ifs with h
    · refine covered_node fun t ht => ?_
      simp only [List.mem_cons, List.not_mem_nil, or_false] at ht
      have key : ∀ (F : Finset Nat) (p : List Bool), HasInf D F → (∃ c,
          ((bipart cutoff part mkChk (n / 2) p (mkChk F).bounds F).setChk (some (mkChk F))).chk = some c ∧
          c.Covers pts ((bipart cutoff part mkChk (n / 2) p (mkChk F).bounds F).setChk (some (mkChk F))).collectIds) ∧
          Covered pts ((bipart cutoff part mkChk (n / 2) p (mkChk F).bounds F).setChk (some (mkChk F))) := by
        intro F p hF
        refine ⟨⟨mkChk F, ?_, (hm F).mono fun v hv hf => ?_⟩, covered_setChk (ih (n / 2) (by omega) _ _ _ hF)⟩
        · cases bipart cutoff part mkChk (n / 2) p (mkChk F).bounds F <;> rfl
        · exact ((counts_bipart hD cutoff part mkChk (n / 2) p _ F hF).setChk _).sub_ids hv hf
      rcases ht with rfl | rfl
      · exact key _ _ (partIds_inf hD _ _ _)
      · exact key _ _ (partIds_inf hD _ _ _)
    · exact covered_leaf

omit [IsStrictOrderedRing K] in
/-- **C82 (bipartitioner).** Below the root, every node has a checker that misses no sphere with a point of its subtree. -/
theorem C82_bipart (hD : D ≤ 64) (cutoff : Nat) (part : List Bool → Nat → Bool) (mkChk : Finset Nat → Chk D K)
    (pts : Nat → Vec D K) (hm : ∀ F, (mkChk F).Covers pts F) (n : Nat) (bounds : Box D K) (ids : Finset Nat)
    (hinf : HasInf D ids) : Covered pts (bipart cutoff part mkChk n [] bounds ids) :=
  covered_bipart hD cutoff part mkChk pts hm n [] bounds ids hinf

omit [IsStrictOrderedRing K] in
/-- **C81 (bipartitioner, violated).** Whenever the nearest sample point bipartitioner splits at all, the root of its tree
has no checker, and copying the tree dereferences a null pointer. -/
theorem C81_bipart_violated (cutoff : Nat) (part : List Bool → Nat → Bool) (mkChk : Finset Nat → Chk D K) (n : Nat)
    (bounds : Box D K) (ids : Finset Nat) (hn : 1 < n) (hc : cutoff < ids.card) :
    (bipart cutoff part mkChk n [] bounds ids).chk = none ∧ copy (bipart cutoff part mkChk n [] bounds ids) = none := by
  rw [bipart, if_pos ⟨hn, hc⟩]
  exact ⟨rfl, rfl⟩

/-! ### Old partitioner and k-way splitter -/

end Build

namespace Part
variable {D : Nat} {K : Type} [Field K] [LinearOrder K]

/-- The box of the statistics contains the finite points, also for coordinates that are not between the initial values. -/
theorem getPointStats_covers (big tiny : K) (pts : Nat → Vec D K) (work : List (List Nat)) (ids : List Nat)
    (h : work.flatten.Perm ids) : Covers D pts ids (getPointStats big tiny pts work true) := by
  intro id hid hf d
  have hs := combine_sees big tiny pts true work d
  have hm : id ∈ counted D true work.flatten := by
    simp only [counted, List.mem_filter]
    exact ⟨h.mem_iff.mpr hid, by simp [isFinite_iff'.mpr hf]⟩
  exact ⟨hs.1.2 (Or.inr ⟨id, hm, rfl⟩), hs.2.2 (Or.inr ⟨id, hm, rfl⟩)⟩

theorem getPointStatsSeq_covers (big tiny : K) (pts : Nat → Vec D K) (ids : List Nat) :
    Covers D pts ids (getPointStatsSeq big tiny pts ids true) := by
  intro id hid hf d
  have hm : id ∈ counted D true ids := by
    simp only [counted, List.mem_filter]
    exact ⟨hid, by simp [isFinite_iff'.mpr hf]⟩
  simp only [getPointStatsSeq, seqDim_eq]
  exact ⟨(foldl_min_isLeast (fun i => pts i d) _ _).2 (Or.inr ⟨id, hm, rfl⟩),
    (foldl_max_isGreatest (fun i => pts i d) _ _).2 (Or.inr ⟨id, hm, rfl⟩)⟩

variable [IsStrictOrderedRing K]

theorem twoWay_inBox (hD : D ≤ 64) {stats : Stats D K} {k : Nat} {pts : Nat → Vec D K} {ids : List Nat}
    (hc : Covers D pts ids stats) {ps : List (Partition D K)} (h : twoWay stats k pts ids false = some ps) :
    ∀ p ∈ ps, Build.InBox pts p.bounds p.points := by
  by_cases hk : k < D
  · exact (twoWay_bounds hD stats ⟨k, hk⟩ pts ids false hc ps h).1
  · have hno := twoWay_nofin hk h
    obtain ⟨_, _, _, hin, _⟩ := twoWay_some hD stats k pts ids false h
    intro p hp v hv hf
    exact absurd (isFinite_iff'.mpr hf) (hno v (by by_contra hc; exact hin v hf hc p hp hv))

/-- Whenever a splitter returns, the bounds of its parts contain their points. -/
theorem Splitter.Parts.inBox (hD : D ≤ 64) {sp : Splitter} {big tiny : K} {pts : Nat → Vec D K} {len : Nat}
    {S : Finset Nat} {ps : List (Partition D K)} (h : sp.Parts big tiny pts len S ps) :
    ∀ p ∈ ps, Build.InBox pts p.bounds p.points := by
  obtain ⟨ids, work, _, hS, hw, hrun⟩ := h
  have hc := getPointStats_covers big tiny pts work ids hw
  cases sp with
  | dWay => exact (C43_dWay hD _ pts ids false hc ps hrun).1
  | oneDim k => exact twoWay_inBox hD hc hrun
  | cycle => exact twoWay_inBox hD hc hrun
  | extend => exact twoWay_inBox hD hc hrun

end Part

namespace Build
open PTree
variable {D : Nat} {K : Type} [Field K] [LinearOrder K]

theorem chk_old (cutoff : Nat) (split : Nat → Finset Nat → Option (List (Part.Partition D K))) (r : Nat) (bounds : Box D K)
    (ids : Finset Nat) (prov : Nat) (t : PTree (Chk D K)) (h : old cutoff split r bounds ids prov = some t) :
    t.chk = some (.ofBox bounds) := by
  cases r with
  | zero => rw [old] at h; cases h; rfl
  | succ r =>
    rw [old, Option.bind_eq_some_iff] at h
    obtain ⟨ps, _, h⟩ := h
    rw [Option.map_eq_some_iff] at h
    obtain ⟨l, _, rfl⟩ := h
    rfl

variable [IsStrictOrderedRing K]

theorem covered_old (hD : D ≤ 64) (cutoff : Nat) (pts : Nat → Vec D K)
    (split : Nat → Finset Nat → Option (List (Part.Partition D K)))
    (hs : ∀ n S ps, split n S = some ps → (∃ m l, (∀ i, i ∈ l ↔ i ∈ S) ∧ Part.SplitsInto D m l false ps) ∧
      ∀ p ∈ ps, InBox pts p.bounds p.points) :
    ∀ (r : Nat) (bounds : Box D K) (ids : Finset Nat) (prov : Nat) (t : PTree (Chk D K)), HasInf D ids → InBox pts bounds ids →
    old cutoff split r bounds ids prov = some t → Covered pts t
  | 0, bounds, ids, prov, t, hinf, hb, h => by
    rw [old] at h
    cases h
    refine covered_node fun t ht => ?_
    rw [List.mem_singleton] at ht
    subst ht
    exact ⟨⟨_, rfl, Chk.covers_ofBox hb⟩, covered_leaf⟩
  | r + 1, bounds, ids, prov, t, hinf, hb, h => by
    rw [old, Option.bind_eq_some_iff] at h
    obtain ⟨ps, hp, h⟩ := h
    rw [Option.map_eq_some_iff] at h
    obtain ⟨l, hl, rfl⟩ := h
    obtain ⟨⟨m, idl, hid, _, _, hex, hno, hall⟩, hbox⟩ := hs prov ids ps hp
    have h2 := mapM_forall₂ hl
    refine covered_node fun t ht => ?_
    obtain ⟨i, hi, rfl⟩ := List.getElem_of_mem ht
    have h3 := (List.forall₂_iff_get.mp h2).2 i (by rw [h2.length_eq]; exact hi) hi
    simp only [List.get_eq_getElem] at h3
    generalize l[i] = t at *
    have hpm : (ps.zipIdx[i]'(by rw [h2.length_eq]; exact hi)).1 ∈ ps := by
      rw [List.getElem_zipIdx]
      exact List.getElem_mem _
    generalize ps.zipIdx[i]'(by rw [h2.length_eq]; exact hi) = z at *
    have hpi : HasInf D z.1.points := fun id h1 h2 => (hall id h1 z.1 hpm).mpr ⟨rfl, h2⟩
    split_ifs at h3
    · refine ⟨⟨_, chk_old _ _ _ _ _ _ _ h3, (Chk.covers_ofBox (hbox _ hpm)).mono fun v hv hf => ?_⟩,
        covered_old hD cutoff pts split hs r _ _ _ t hpi (hbox _ hpm) h3⟩
      exact (counts_old hD cutoff split (fun n S ps h => (hs n S ps h).1) r _ _ _ t hpi h3).sub_ids hv hf
    · cases h3
      exact ⟨⟨_, rfl, Chk.covers_ofBox (hbox _ hpm)⟩, covered_leaf⟩

/-- **C82 (old partitioner with its splitters).** The same for any of the four splitters. -/
theorem C82_old (hD : D ≤ 64) (cutoff : Nat) (sp : Part.Splitter) (big tiny : K) (pts : Nat → Vec D K)
    (split : Nat → Finset Nat → Option (List (Part.Partition D K)))
    (hs : ∀ n S ps, split n S = some ps → sp.Parts big tiny pts n S ps)
    (r : Nat) (bounds : Box D K) (ids : Finset Nat) (t : PTree (Chk D K)) (hinf : HasInf D ids) (hb : InBox pts bounds ids)
    (h : old cutoff split r bounds ids 1 = some t) : Covered pts t ∧ Checked t := by
  have := covered_old hD cutoff pts split (fun n S ps hp => ⟨(hs n S ps hp).splits hD, (hs n S ps hp).inBox hD⟩) r bounds ids 1 t
    hinf hb h
  exact ⟨this, this.checked (by rw [chk_old _ _ _ _ _ _ _ h]; simp)⟩

theorem covered_kwayRec [FloorRing K] (hD : D ≤ 64) (fl : K → K) (big tiny : K) (pts : Nat → Vec D K)
    (it : Finset Nat → List Nat) (hit : ∀ s i, i ∈ it s ↔ i ∈ s) :
    ∀ (sp : List Nat) (depth : Nat) (ids : Finset Nat) (l : List (PTree (Chk D K))),
    kwayRec fl big tiny pts it sp depth ids = .done l →
    ∀ t ∈ l, (∃ c, t.chk = some c ∧ c.Covers pts t.collectIds) ∧ Covered pts t
  | [], depth, ids, l, h => by
    rw [kwayRec] at h
    cases h
    intro t ht
    rw [List.mem_singleton] at ht
    subst ht
    refine ⟨⟨_, rfl, Chk.covers_ofBox fun v hv hf => ?_⟩, covered_leaf⟩
    rw [collectIds, mem_addInf_fin hD hf] at hv
    exact Part.getPointStatsSeq_covers big tiny pts (it ids) v ((hit _ _).mpr hv) hf
  | n :: sp, depth, ids, l, h => by
    rw [kwayRec] at h
    split_ifs at h with hd
    simp only at h
    cases hb : buckets (D := D) fl ((Part.getPointStatsSeq big tiny pts (it ids) true).min ⟨depth % D, hd⟩)
        ((Part.getPointStatsSeq big tiny pts (it ids) true).max ⟨depth % D, hd⟩) n (fun i => pts i ⟨depth % D, hd⟩) (it ids) with
    | ub => rw [hb] at h; simp at h
    | timeout => rw [hb] at h; simp at h
    | done bs =>
      rw [hb, Res.bind_done] at h
      obtain ⟨rs, h1, rfl⟩ := concat_done h
      intro t ht
      obtain ⟨x, hx, htx⟩ := List.mem_flatten.mp ht
      obtain ⟨i, hi, rfl⟩ := List.getElem_of_mem hx
      have h3 := (List.forall₂_iff_get.mp h1).2 i (by rw [h1.length_eq]; exact hi) hi
      simp only [List.get_eq_getElem] at h3
      exact covered_kwayRec hD fl big tiny pts it hit sp (depth + 1) _ _ h3 t htx

/-- **C82 (k-way splitter).** The same, whatever the rounding and the bounds, if the splitter returns. -/
theorem C82_kway [FloorRing K] (hD : D ≤ 64) (fl : K → K) (big tiny : K) (pts : Nat → Vec D K)
    (it : Finset Nat → List Nat) (hit : ∀ s i, i ∈ it s ↔ i ∈ s) (n : Nat) (bounds : Box D K) (ids : Finset Nat)
    (t : PTree (Chk D K)) (h : kway fl big tiny pts it n bounds ids = .done t) : Covered pts t ∧ Checked t := by
  rw [kway] at h
  cases hk : kwayRec fl big tiny pts it (generateSplits D n) 0 ids with
  | ub => rw [hk] at h; simp at h
  | timeout => rw [hk] at h; simp at h
  | done l =>
    rw [hk, Res.bind_done] at h
    cases h
    have := covered_node (c := some (.ofBox bounds)) (covered_kwayRec hD fl big tiny pts it hit _ _ _ _ hk)
    exact ⟨this, this.checked (by simp [PTree.chk])⟩

namespace Ex
/-- Four points. -/
def pts : Nat → Vec 2 ℚ := fun i => ([![0, 0], ![0, 0], ![1, 5], ![4, 1], ![6, 7]] : List (Vec 2 ℚ)).getD i ![0, 0]
/-- All infinite ids in two dimensions. -/
def infs : Finset Nat := {2 ^ 64 - 4, 2 ^ 64 - 3, 2 ^ 64 - 2, 2 ^ 64 - 1}
/-- All ids. -/
def ids : Finset Nat := {1, 2, 3, 4} ∪ infs
/-- A box around the points. -/
def bounds : Box 2 ℚ := ⟨![0, 0], ![10, 10]⟩
/-- An order of iteration. -/
noncomputable def it (s : Finset Nat) : List Nat :=
  if s ⊆ ids then [1, 2, 3, 4, 2 ^ 64 - 4, 2 ^ 64 - 3, 2 ^ 64 - 2, 2 ^ 64 - 1].filter (· ∈ s) else s.toList
/-- The ids of the leaves. -/
def leaves {C : Type} (t : PTree C) : List (Finset Nat) := (flattenOne t).map collectIds
end Ex
open Ex

/-! Examples for C63, C64, C81 and C82: the hypotheses hold for four points, and each of the partitioners splits them. -/


example : HasInf 2 ids := by
  intro i h1 h2
  have : i = 2 ^ 64 - 4 ∨ i = 2 ^ 64 - 3 ∨ i = 2 ^ 64 - 2 ∨ i = 2 ^ 64 - 1 := by omega
  rcases this with rfl | rfl | rfl | rfl <;> decide +kernel

example : InBox pts bounds ids := by
  have : ∀ v ∈ ids, v < 2 ^ 64 - 2 ^ 2 → ∀ d, bounds.low d ≤ pts v d ∧ pts v d ≤ bounds.high d := by decide +kernel
  exact this


example : (kway (fun x : ℚ => x) 100 (1/100) pts it 4 bounds ids).map' (fun t =>
    decide (leaves t = [{1} ∪ infs, {2} ∪ infs, {3} ∪ infs, {4} ∪ infs])) = .done true := by decide +kernel

example : leaves (simple 0 pts bounds ids) = [{1, 2, 3} ∪ infs, {4} ∪ infs] := by decide +kernel

example : leaves (hyperplane (1/1000000) pts (fun p => if p.isEmpty then (![1, 0], 2) else (![0, 1], 3)) 4 bounds ids) =
    [{4} ∪ infs, {3} ∪ infs, {2} ∪ infs, {1} ∪ infs] := by decide +kernel

example : leaves (binary 1 pts (fun p _ => if p.isEmpty then (0, 2) else (1, 3)) 2 [] bounds ids) =
    [{1} ∪ infs, {2} ∪ infs, {3} ∪ infs, {4} ∪ infs] := by decide +kernel

example : (assign 3 (fun i => i % 3) (mkBounds ⟨![0, 0], ![0, 0]⟩ it pts) bounds ids).map leaves =
   some [{3} ∪ infs, {1, 4} ∪ infs, {2} ∪ infs] := by decide +kernel

example : leaves (bipart 1 (fun p i => if p.isEmpty then i % 2 == 0 else i % 3 == 0) (mkBounds ⟨![0, 0], ![0, 0]⟩ it pts) 4 [] bounds ids) =
   [{1} ∪ infs, {3} ∪ infs, {2, 4} ∪ infs, infs] := by decide +kernel

example : ∀ s i, i ∈ it s ↔ i ∈ s := by
  intro s i
  unfold it
  split_ifs with h
  · rw [List.mem_filter, decide_eq_true_eq, and_iff_right_iff_imp]
    intro hi
    have := h hi
    simp only [ids, infs, Finset.mem_union, Finset.mem_insert, Finset.mem_singleton] at this
    simp only [List.mem_cons, List.not_mem_nil, or_false]
    tauto
  · exact Finset.mem_toList

/-- The number 0.1 as a `float` is greater than 0.1. -/
example : (1 / 10 : ℚ) < 13421773 / 2 ^ 27 := by norm_num

end Build
end Verif
