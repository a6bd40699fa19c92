import Verif.Lemmas.AABB
import Verif.Props.Partitioner
import Mathlib.Tactic.FinCases

/-!
# C59, C60, C61: grids, AABB trees and grid intersection checkers
-/
namespace Verif
open Grid

section
variable {D : Nat} {K : Type} [Field K] [LinearOrder K] [IsStrictOrderedRing K] [FloorRing K]

/-! ### Grids -/

/-- **C59.** `indexAt v` is the only cell whose half-open box contains `v`. -/
theorem C59_index {w : K} (hw : 0 < w) (v : Vec D K) (i : Index D) :
    (∀ d, (boundsOf w i).low d ≤ v d ∧ v d < (boundsOf w i).high d) ↔ i = indexAt w v := by
  simp only [boundsOf, funext_iff, indexAt]
  refine forall_congr' fun d => ?_
  rw [eq_comm, Int.floor_eq_iff, le_div_iff₀ hw, div_lt_iff₀ hw]

/-- **C59.** The box of the cell of `v` contains `v`. -/
theorem C59_bounds {w : K} (hw : 0 < w) (v : Vec D K) : (boundsOf w (indexAt w v)).containsPoint v = true := by
  rw [Box.C35_contains_point]
  exact fun d => ⟨((C59_index hw v _).mpr rfl d).1, ((C59_index hw v _).mpr rfl d).2.le⟩

/-- **C59.** The centre of a cell lies in its interior, so its index is that of the cell. -/
theorem C59_center {w : K} (hw : 0 < w) (i : Index D) :
    (∀ d, (boundsOf w i).low d < centerOf w i d ∧ centerOf w i d < (boundsOf w i).high d) ∧
      indexAt w (centerOf w i) = i := by
  have h : ∀ d, (boundsOf w i).low d < centerOf w i d ∧ centerOf w i d < (boundsOf w i).high d := by
    intro d
    simp only [boundsOf, centerOf]
    constructor
    · linarith
    · rw [add_mul, one_mul]; linarith
  exact ⟨h, ((C59_index hw _ _).mp fun d => ⟨(h d).1.le, (h d).2⟩).symm⟩

/-- Negative coordinates and points on cell boundaries. -/
example : indexAt (1 / 2 : ℚ) (![-3/4, 1] : Vec 2 ℚ) = ![-2, 2] := by
  funext d
  fin_cases d <;> decide +kernel

/-- A box and a (closed) ball have a common point. -/
def Meets (b : Box D K) (s : Sphere D K) : Prop :=
  ∃ p : Vec D K, (∀ d, b.low d ≤ p d ∧ p d ≤ b.high d) ∧
    ∑ i, (p i - s.center i) * (p i - s.center i) ≤ s.radius * s.radius

theorem boundsOf_le {w : K} (hw : 0 < w) (i : Index D) (d : Fin D) :
    (boundsOf w i).low d ≤ (boundsOf w i).high d := by
  simp only [boundsOf]
  rw [add_mul]
  linarith

theorem intersects_iff {w : K} (hw : 0 < w) {s : Sphere D K} (hr : 0 ≤ s.radius) (i : Index D) :
    (boundsOf w i).intersects s = true ↔ Meets (boundsOf w i) s :=
  Box.C35_intersects _ s hr (boundsOf_le hw i)

/-- The test for a single cell. -/
theorem C60_cell {w : K} (hw : 0 < w) {s : Sphere D K} (hr : 0 ≤ s.radius) (i : Index D) :
    intersectsWith w s i = true ↔ Meets (boundsOf w i) s := by
  rw [← intersects_iff hw hr]
  rfl

/-! ### Queries of the tree -/
namespace AABB
variable {w : K}

omit [IsStrictOrderedRing K] [FloorRing K] in
theorem any_iff {s : Sphere D K} : ∀ l : List (Node D K),
    Node.intersectsAny s l = true ↔ ∃ n ∈ l, n.intersects s = true
  | [] => by simp [Node.intersectsAny]
  | n :: l => by
    rw [Node.intersectsAny, Bool.or_eq_true, any_iff l]
    simp

omit [IsStrictOrderedRing K] in
theorem cellsAll_eq {s : Sphere D K} : ∀ l : List (Node D K),
    Node.cellsAll w s l = l.flatMap fun n => n.cells w s
  | [] => by simp [Node.cellsAll]
  | n :: l => by
    rw [Node.cellsAll, cellsAll_eq l]
    simp

theorem lbox_meets (hw : 0 < w) {lo hi k : Index D} (hk : Inside lo hi k) {s : Sphere D K} (hr : 0 ≤ s.radius)
    (h : (boundsOf w k).intersects s = true) : (lbox w lo hi).intersects s = true := by
  obtain ⟨p, hp, hd⟩ := (intersects_iff hw hr k).mp h
  refine (Box.C35_intersects _ s hr ?_).mpr ⟨p, fun d => ?_, hd⟩
  · intro d
    have := hk d
    exact (mul_le_iff hw).mpr (by omega)
  · have h1 := hk d
    have h2 := hp d
    rw [boundsOf_eq] at h2
    exact ⟨((mul_le_iff hw).mpr h1.1).trans h2.1, h2.2.trans ((mul_le_iff hw).mpr h1.2)⟩

theorem leaf_intersects {s : Sphere D K} {k : Index D} :
    (leafNode w k).intersects s = (boundsOf w k).intersects s := by
  rw [leafNode, Node.intersects, boundsOf_eq]
  simp

theorem leaf_cells (hw : 0 < w) {s : Sphere D K} {k : Index D} :
    (leafNode w k).cells w s = if (boundsOf w k).intersects s then [k] else [] := by
  rw [leafNode, Node.cells, boundsOf_eq]
  have : (indexAt w fun d => (1 / 2 : K) * ((lbox w k fun d => k d + 1).low d + (lbox w k fun d => k d + 1).high d)) = k := by
    funext d
    simp only [indexAt, lbox]
    rw [Int.floor_eq_iff]
    have e : (1 / 2 : K) * ((k d : K) * w + ((k d + 1 : Int) : K) * w) / w = k d + 1 / 2 := by
      push_cast
      field_simp
      ring
    rw [e]
    constructor <;> linarith
  rw [this]
  rfl

theorem Good.intersects (hw : 0 < w) {s : Sphere D K} (hr : 0 ≤ s.radius) {n : Node D K} {lo hi : Index D}
    {S : Finset (Index D)} (h : Good w n lo hi S) :
    n.intersects s = true ↔ ∃ k ∈ S, (boundsOf w k).intersects s = true := by
  have hin := h.inside
  induction h with
  | leaf k => simp [leaf_intersects]
  | flat lo hi ks hle hnd hlen hin' hne =>
    rw [Node.intersects, Bool.false_or, Bool.and_eq_true, any_iff]
    simp only [List.mem_map, exists_exists_and_eq_and, leaf_intersects, List.mem_toFinset]
    constructor
    · exact fun h => h.2
    · exact fun h => ⟨lbox_meets hw (hin' _ h.choose_spec.1) hr h.choose_spec.2, h⟩
  | split lo hi ch S hle hbig hch ih =>
    rw [Node.intersects, Bool.false_or, Bool.and_eq_true, any_iff]
    have e : (∃ n ∈ List.ofFn ch, n.intersects s = true) ↔
        ∃ k ∈ Finset.univ.biUnion S, (boundsOf w k).intersects s = true := by
      constructor
      · rintro ⟨n, hn, h⟩
        obtain ⟨j, rfl⟩ := (List.mem_ofFn' ch n).mp hn
        obtain ⟨k, hk, hi'⟩ := (ih j (hch j).inside).mp h
        exact ⟨k, Finset.mem_biUnion.mpr ⟨j, Finset.mem_univ _, hk⟩, hi'⟩
      · rintro ⟨k, hk, h⟩
        obtain ⟨j, _, hj⟩ := Finset.mem_biUnion.mp hk
        exact ⟨ch j, (List.mem_ofFn' ch _).mpr ⟨j, rfl⟩, (ih j (hch j).inside).mpr ⟨k, hj, h⟩⟩
    rw [e]
    constructor
    · exact fun h => h.2
    · exact fun h => ⟨lbox_meets hw (hin _ h.choose_spec.1) hr h.choose_spec.2, h⟩

theorem Good.cells (hw : 0 < w) {s : Sphere D K} (hr : 0 ≤ s.radius) {n : Node D K} {lo hi : Index D}
    {S : Finset (Index D)} (h : Good w n lo hi S) :
    (n.cells w s).Nodup ∧ ∀ k, k ∈ n.cells w s ↔ k ∈ S ∧ (boundsOf w k).intersects s = true := by
  have hin := h.inside
  induction h with
  | leaf k =>
    rw [leaf_cells hw]
    split_ifs with h
    · refine ⟨by simp, fun x => ?_⟩
      simp only [List.mem_singleton, Finset.mem_singleton]
      exact ⟨fun e => ⟨e, e ▸ h⟩, fun e => e.1⟩
    · refine ⟨by simp, fun x => ?_⟩
      simp only [List.not_mem_nil, Finset.mem_singleton, false_iff]
      rintro ⟨rfl, h'⟩
      exact h h'
  | flat lo hi ks hle hnd hlen hin' hne =>
    have e : Node.cells w s (.mk (lbox w lo hi) false (ks.map (leafNode w))) =
        ks.filter fun k => (boundsOf w k).intersects s := by
      simp only [Node.cells, Bool.false_eq_true, if_false]
      rw [cellsAll_eq]
      have e2 : (ks.map (leafNode w)).flatMap (fun n => n.cells w s) = ks.filter fun k => (boundsOf w k).intersects s := by
        rw [List.flatMap_map]
        clear hnd hlen hin' hne hin
        induction ks with
        | nil => rfl
        | cons k ks ih =>
          rw [List.flatMap_cons, ih, leaf_cells hw, List.filter_cons]
          split_ifs <;> rfl
      rw [e2]
      split_ifs with h
      · rfl
      · symm
        rw [List.filter_eq_nil_iff]
        intro k hk hc
        exact h (lbox_meets hw (hin' k hk) hr hc)
    rw [e]
    exact ⟨hnd.filter _, fun k => by rw [List.mem_filter, List.mem_toFinset]⟩
  | split lo hi ch S hle hbig hch ih =>
    have e : Node.cells w s (.mk (lbox w lo hi) false (List.ofFn ch)) = (List.ofFn ch).flatMap fun n => n.cells w s := by
      simp only [Node.cells, Bool.false_eq_true, if_false]
      rw [cellsAll_eq]
      split_ifs with h
      · rfl
      · symm
        rw [List.flatMap_eq_nil_iff]
        intro n hn
        obtain ⟨j, rfl⟩ := (List.mem_ofFn' ch n).mp hn
        rw [List.eq_nil_iff_forall_not_mem]
        intro k hk
        have := ((ih j (hch j).inside).2 k).mp hk
        exact h (lbox_meets hw (hin k (Finset.mem_biUnion.mpr ⟨j, Finset.mem_univ _, this.1⟩)) hr this.2)
    rw [e]
    constructor
    · rw [List.nodup_flatMap]
      refine ⟨fun n hn => ?_, ?_⟩
      · obtain ⟨j, rfl⟩ := (List.mem_ofFn' ch n).mp hn
        exact (ih j (hch j).inside).1
      · rw [List.ofFn_eq_map, List.pairwise_map]
        refine (List.nodup_finRange _).imp ?_
        intro i j hij k hi' hj'
        have a := (((ih i (hch i).inside).2 k).mp hi').1
        have b := (((ih j (hch j).inside).2 k).mp hj').1
        exact hij (child_unique ((hch i).inside k a) ((hch j).inside k b))
    · intro k
      simp only [List.mem_flatMap, Finset.mem_biUnion, Finset.mem_univ, true_and]
      constructor
      · rintro ⟨n, hn, hk⟩
        obtain ⟨j, rfl⟩ := (List.mem_ofFn' ch n).mp hn
        have := ((ih j (hch j).inside).2 k).mp hk
        exact ⟨⟨j, this.1⟩, this.2⟩
      · rintro ⟨⟨j, hj⟩, h⟩
        exact ⟨ch j, (List.mem_ofFn' ch _).mpr ⟨j, rfl⟩, ((ih j (hch j).inside).2 k).mpr ⟨hj, h⟩⟩

/-! ### Construction of the tree -/

/-- The box of cell `k` is inside of the box of the root. -/
def Fits (w : K) (b : Box D K) (k : Index D) : Prop :=
  ∀ d, (round w b).low d ≤ (boundsOf w k).low d ∧ (boundsOf w k).high d ≤ (round w b).high d

/-- Number of cells of the root in all dimensions, a bound for the depth of the recursion. -/
def extent (w : K) (b : Box D K) : Nat := ∑ d, (⌈b.high d / w⌉ - ⌊b.low d / w⌋).toNat

theorem fits_iff (hw : 0 < w) {b : Box D K} {k : Index D} :
    Fits w b k ↔ Inside (fun d => ⌊b.low d / w⌋) (fun d => ⌈b.high d / w⌉) k := by
  unfold Fits Inside
  rw [boundsOf_eq]
  simp only [round, lbox, mul_le_iff hw]

theorem root_good {b : Box D K} (hw : 0 < w) (hb : ∀ d, b.low d ≤ b.high d) :
    Good w (root w b) (fun d => ⌊b.low d / w⌋) (fun d => ⌈b.high d / w⌉) ∅ := by
  have := Good.flat (w := w) (fun d => ⌊b.low d / w⌋) (fun d => ⌈b.high d / w⌉) []
    (fun d => by
      have : b.low d / w ≤ b.high d / w := (div_le_div_iff_of_pos_right hw).mpr (hb d)
      exact (Int.floor_le_floor this).trans (Int.floor_le_ceil _)) (by simp) (by simp) (by simp) (by simp)
  rw [List.map_nil, List.toFinset_nil] at this
  exact this

theorem insertAll_good (hw : 0 < w) {lo hi : Index D} {fuel : Nat} (hf : 2 * size lo hi + 2 ≤ fuel) :
    ∀ (l : List (Index D)) (n : Node D K) (S : Finset (Index D)), Good w n lo hi S →
      ∃ n' res, insertAll w fuel l n = .done (n', res) ∧ List.Forall₂ (fun k r => r = true ↔ Inside lo hi k) l res ∧
        ∃ S', Good w n' lo hi S' ∧ ∀ k, k ∈ S' ↔ k ∈ S ∨ k ∈ l ∧ Inside lo hi k := by
  intro l
  induction l with
  | nil =>
    intro n S hg
    exact ⟨n, [], rfl, .nil, S, hg, by simp⟩
  | cons k l ih =>
    intro n S hg
    by_cases hk : Inside lo hi k
    · obtain ⟨n1, h1, h2⟩ := insert_good hw fuel n lo hi S hg hf k hk
      obtain ⟨n2, res, h3, h4, S', h5, h6⟩ := ih n1 _ h2
      refine ⟨n2, true :: res, ?_, .cons (by simp [hk]) h4, S', h5, ?_⟩
      · have h1' : insertBox w fuel n (boundsOf w k) = .done (n1, true) := by
          rw [insertBox, boundsOf_eq]; exact h1
        rw [insertAll, h1', Res.bind_done, h3, Res.bind_done]
      · intro x
        rw [h6, Finset.mem_insert, List.mem_cons]
        constructor
        · rintro ((rfl | h) | h)
          · exact Or.inr ⟨Or.inl rfl, hk⟩
          · exact Or.inl h
          · exact Or.inr ⟨Or.inr h.1, h.2⟩
        · rintro (h | ⟨rfl | h, h'⟩)
          · exact Or.inl (Or.inr h)
          · exact Or.inl (Or.inl rfl)
          · exact Or.inr ⟨h, h'⟩
    · obtain ⟨n2, res, h3, h4, S', h5, h6⟩ := ih n S hg
      refine ⟨n2, false :: res, ?_, .cons (by simp [hk]) h4, S', h5, ?_⟩
      · have h1' : insertBox w fuel n (boundsOf w k) = .done (n, false) := by
          obtain ⟨f, rfl⟩ : ∃ g, fuel = g + 1 := ⟨fuel - 1, by omega⟩
          have hc : n.box.containsBox (boundsOf w k) = false := by
            rw [← Bool.not_eq_true, hg.box.1, boundsOf_eq, lbox_contains hw]
            exact hk
          rw [insertBox, Node.insert, Node.insertStep]
          have : (Node.mk (boundsOf w k) true [] : Node D K).box = boundsOf w k := rfl
          rw [this, hc]
          rfl
        rw [insertAll, h1', Res.bind_done, h3, Res.bind_done]
      · intro x
        rw [h6, List.mem_cons]
        constructor
        · rintro (h | h)
          · exact Or.inl h
          · exact Or.inr ⟨Or.inr h.1, h.2⟩
        · rintro (h | ⟨rfl | h, h'⟩)
          · exact Or.inl h
          · exact absurd h' hk
          · exact Or.inr ⟨h, h'⟩

/-- **C60.** Every insertion of a grid cell terminates (with recursion depth linear in the extent of the root) and
succeeds iff the cell fits into the rounded box of the tree. Afterwards a sphere intersects the tree iff it meets one
of the cells that were inserted successfully, and `intersectingCells` lists exactly these, each once. -/
theorem C60_tree (hw : 0 < w) (b : Box D K) (hb : ∀ d, b.low d ≤ b.high d) (l : List (Index D)) (fuel : Nat)
    (hf : 2 * extent w b + 2 ≤ fuel) :
    ∃ t res, insertAll w fuel l (root w b) = .done (t, res) ∧
      List.Forall₂ (fun k r => r = true ↔ Fits w b k) l res ∧
      ∀ s : Sphere D K, 0 ≤ s.radius →
        (t.intersects s = true ↔ ∃ k ∈ l, Fits w b k ∧ Meets (boundsOf w k) s) ∧
        (t.cells w s).Nodup ∧ ∀ k, k ∈ t.cells w s ↔ k ∈ l ∧ Fits w b k ∧ Meets (boundsOf w k) s := by
  obtain ⟨t, res, h1, h2, S, h3, h4⟩ := insertAll_good hw hf l _ _ (root_good hw hb)
  refine ⟨t, res, h1, ?_, fun s hr => ⟨?_, (h3.cells hw hr).1, fun k => ?_⟩⟩
  · simpa only [fits_iff hw] using h2
  · rw [h3.intersects hw hr]
    simp only [h4, intersects_iff hw hr, fits_iff hw, Finset.notMem_empty, false_or, and_assoc]
  · rw [(h3.cells hw hr).2]
    simp only [h4, intersects_iff hw hr, fits_iff hw, Finset.notMem_empty, false_or, and_assoc]

/-- Six of nine cells in two dimensions: the root is split, one cell does not fit. -/
example : ((insertAll (1 : ℚ) 20 [![0, 0], ![1, 1], ![2, 2], ![0, 2], ![2, 0], ![3, 0]]
    (root 1 (⟨![1/2, 1/2], ![5/2, 5/2]⟩ : Box 2 ℚ))).map' fun r => r.2) = .done [true, true, true, true, true, false] := by
  decide +kernel

end AABB

/-! ### Checkers -/
namespace Box

omit [IsStrictOrderedRing K] [FloorRing K] in
theorem enlarge_eq (b : Box D K) (v : Vec D K) (d : Fin D) :
    (b.enlarge v).low d = min (b.low d) (v d) ∧ (b.enlarge v).high d = max (b.high d) (v d) := by
  unfold enlarge
  have hD : D ≠ 0 := fun h => by subst h; exact d.elim0
  have key : ∀ (l : List Nat) (b : Box D K), l ≠ [] →
      (l.foldl (fun (b : Box D K) _ => (⟨fun d => min (b.low d) (v d), fun d => max (b.high d) (v d)⟩ : Box D K)) b).low d =
        min (b.low d) (v d) ∧
      (l.foldl (fun (b : Box D K) _ => (⟨fun d => min (b.low d) (v d), fun d => max (b.high d) (v d)⟩ : Box D K)) b).high d =
        max (b.high d) (v d) := by
    intro l
    induction l with
    | nil => intro b h; exact absurd rfl h
    | cons a l ih =>
      intro b _
      rw [List.foldl_cons]
      by_cases hl : l = []
      · subst hl; exact ⟨rfl, rfl⟩
      · obtain ⟨h1, h2⟩ := ih ⟨fun d => min (b.low d) (v d), fun d => max (b.high d) (v d)⟩ hl
        rw [h1, h2]
        simp
  exact key _ b (by rw [ne_eq, List.range_eq_nil]; exact hD)

omit [FloorRing K] in
/-- **C66 (bounding box).** `makeBoundingBox` of a non-empty list is the least box that contains all vectors. -/
theorem C66_bounding_box {l : List (Vec D K)} (hl : l ≠ []) : ∃ b, around l = some b ∧
    (∀ v ∈ l, b.containsPoint v = true) ∧ (∀ d, (∃ v ∈ l, v d = b.low d) ∧ ∃ v ∈ l, v d = b.high d) ∧
    ∀ c : Box D K, (∀ v ∈ l, c.containsPoint v = true) → c.containsBox b = true := by
  have key : ∀ (l : List (Vec D K)) (b : Box D K), ∀ d,
      ((l.foldl enlarge b).low d ≤ b.low d ∧ (∀ v ∈ l, (l.foldl enlarge b).low d ≤ v d) ∧
        ((l.foldl enlarge b).low d = b.low d ∨ ∃ v ∈ l, v d = (l.foldl enlarge b).low d)) ∧
      (b.high d ≤ (l.foldl enlarge b).high d ∧ (∀ v ∈ l, v d ≤ (l.foldl enlarge b).high d) ∧
        ((l.foldl enlarge b).high d = b.high d ∨ ∃ v ∈ l, v d = (l.foldl enlarge b).high d)) := by
    intro l
    induction l with
    | nil => intro b d; simp
    | cons v l ih =>
      intro b d
      rw [List.foldl_cons]
      obtain ⟨⟨a1, a2, a3⟩, b1, b2, b3⟩ := ih (b.enlarge v) d
      obtain ⟨e1, e2⟩ := enlarge_eq b v d
      rw [e1] at a1 a3
      rw [e2] at b1 b3
      refine ⟨⟨a1.trans (min_le_left _ _), ?_, ?_⟩, (le_max_left _ _).trans b1, ?_, ?_⟩
      · intro u hu
        rcases List.mem_cons.mp hu with rfl | hu
        · exact a1.trans (min_le_right _ _)
        · exact a2 u hu
      · rcases a3 with h | ⟨u, hu, h⟩
        · rcases min_choice (b.low d) (v d) with h' | h'
          · exact Or.inl (h.trans h')
          · exact Or.inr ⟨v, by simp, (h.trans h').symm⟩
        · exact Or.inr ⟨u, by simp [hu], h⟩
      · intro u hu
        rcases List.mem_cons.mp hu with rfl | hu
        · exact (le_max_right _ _).trans b1
        · exact b2 u hu
      · rcases b3 with h | ⟨u, hu, h⟩
        · rcases max_choice (b.high d) (v d) with h' | h'
          · exact Or.inl (h.trans h')
          · exact Or.inr ⟨v, by simp, (h.trans h').symm⟩
        · exact Or.inr ⟨u, by simp [hu], h⟩
  cases l with
  | nil => exact absurd rfl hl
  | cons v l =>
    refine ⟨_, rfl, ?_, ?_, ?_⟩
    · intro u hu
      rw [C35_contains_point]
      intro d
      obtain ⟨⟨a1, a2, _⟩, b1, b2, _⟩ := key l ⟨v, v⟩ d
      rcases List.mem_cons.mp hu with rfl | hu
      · exact ⟨a1, b1⟩
      · exact ⟨a2 u hu, b2 u hu⟩
    · intro d
      obtain ⟨⟨_, _, a3⟩, _, _, b3⟩ := key l ⟨v, v⟩ d
      constructor
      · rcases a3 with h | ⟨u, hu, h⟩
        · exact ⟨v, by simp, h.symm⟩
        · exact ⟨u, by simp [hu], h⟩
      · rcases b3 with h | ⟨u, hu, h⟩
        · exact ⟨v, by simp, h.symm⟩
        · exact ⟨u, by simp [hu], h⟩
    · intro c hc
      simp only [containsBox, allDims_iff, decide_eq_true_eq]
      intro d
      obtain ⟨⟨_, _, a3⟩, _, _, b3⟩ := key l ⟨v, v⟩ d
      have hcp : ∀ u ∈ v :: l, c.low d ≤ u d ∧ u d ≤ c.high d := fun u hu => (C35_contains_point c u).mp (hc u hu) d
      constructor
      · rcases a3 with h | ⟨u, hu, h⟩
        · rw [h]; exact (hcp v (by simp)).1
        · rw [← h]; exact (hcp u (by simp [hu])).1
      · rcases b3 with h | ⟨u, hu, h⟩
        · rw [h]; exact (hcp v (by simp)).2
        · rw [← h]; exact (hcp u (by simp [hu])).2

end Box

namespace Checker
variable {w : K}

/-- The cell of a point fits into the root unless the point is on a grid plane and has the largest coordinate of all
points. -/
theorem fits_of {l : List (Vec D K)} {b : Box D K} (hw : 0 < w) (hb : Box.around l = some b) {p : Vec D K} (hp : p ∈ l)
    (hmax : ∀ d, (∃ q ∈ l, p d < q d) ∨ ∀ z : Int, p d ≠ z * w) : AABB.Fits w b (indexAt w p) := by
  obtain ⟨b', h1, h2, _⟩ := Box.C66_bounding_box (List.ne_nil_of_mem hp)
  rw [hb] at h1
  obtain rfl := Option.some.inj h1
  have hin := fun q hq => (Box.C35_contains_point b q).mp (h2 q hq)
  rw [AABB.fits_iff hw]
  intro d
  refine ⟨Int.floor_le_floor ((div_le_div_iff_of_pos_right hw).mpr (hin p hp d).1), ?_⟩
  rw [Int.add_one_le_iff, Int.lt_ceil]
  simp only [indexAt]
  rcases hmax d with ⟨q, hq, hlt⟩ | hz
  · exact (Int.floor_le _).trans_lt (((div_lt_div_iff_of_pos_right hw).mpr hlt).trans_le
      ((div_le_div_iff_of_pos_right hw).mpr (hin q hq d).2))
  · refine lt_of_lt_of_le (lt_of_le_of_ne (Int.floor_le (p d / w)) ?_)
      ((div_le_div_iff_of_pos_right hw).mpr (hin p hp d).2)
    intro he
    exact hz ⌊p d / w⌋ ((eq_div_iff hw.ne').mp he).symm

/-- **C61 (partial).** The checker of a part reports an intersection for every sphere that contains a point of the
part, unless the point is on a grid plane and has the largest coordinate of the part in some dimension. In that case
its cell is not stored, see `C61_violated`. -/
theorem C61_grid_partial (hw : 0 < w) (u : Box D K) {l : List (Vec D K)} (hl : l ≠ []) :
    ∃ F, ∀ fuel ≥ F, ∃ t, partGrid w fuel u l = .done t ∧
      ∀ p ∈ l, (∀ d, (∃ q ∈ l, p d < q d) ∨ ∀ z : Int, p d ≠ z * w) → ∀ s : Sphere D K, 0 ≤ s.radius →
        ∑ i, (p i - s.center i) * (p i - s.center i) ≤ s.radius * s.radius → t.intersects s = true := by
  obtain ⟨b, hb, h2, h3, _⟩ := Box.C66_bounding_box hl
  have hbb : ∀ d, b.low d ≤ b.high d := by
    intro d
    obtain ⟨⟨v, hv, e⟩, _⟩ := h3 d
    rw [← e]
    exact ((Box.C35_contains_point b v).mp (h2 v hv) d).2
  refine ⟨2 * AABB.extent w b + 2, fun fuel hf => ?_⟩
  obtain ⟨t, res, h4, _, h5⟩ := AABB.C60_tree hw b hbb (partCells w l) fuel hf
  refine ⟨t, ?_, fun p hp hmax s hr hd => ?_⟩
  · rw [partGrid, hb, Option.getD_some, grid, h4]
    rfl
  · refine (h5 s hr).1.mpr ⟨indexAt w p, ?_, fits_of hw hb hp hmax, p, ?_, hd⟩
    · rw [partCells, List.mem_dedup]
      exact List.mem_map_of_mem hp
    · exact (Box.C35_contains_point _ p).mp (C59_bounds hw p)

/-- The checker of an empty part reports no intersections. -/
theorem C61_empty (fuel : Nat) (u : Box D K) :
    ∃ t, partGrid w fuel u ([] : List (Vec D K)) = .done t ∧ ∀ s, t.intersects s = false :=
  ⟨_, rfl, fun s => by simp [AABB.root, Node.intersects, Node.intersectsAny]⟩

/-- **C61 (negation).** The points `(1/2, 1/2)` and `(2, 1/2)` with cells of size one: the root is `[0,2] × [0,1]`, the
cell `[2,3] × [0,1]` of the second point is not stored, and a circle that contains that point in its interior is not
reported. -/
theorem C61_violated : ∃ (w : ℚ) (l : List (Vec 2 ℚ)) (p : Vec 2 ℚ) (s : Sphere 2 ℚ), 0 < w ∧ p ∈ l ∧ 0 ≤ s.radius ∧
    ∑ i, (p i - s.center i) * (p i - s.center i) < s.radius * s.radius ∧
    ∀ u, ∃ F, ∀ fuel ≥ F, ∃ t, partGrid w fuel u l = .done t ∧ t.intersects s = false := by
  let l : List (Vec 2 ℚ) := [![1/2, 1/2], ![2, 1/2]]
  let s : Sphere 2 ℚ := ⟨![9/4, 1/2], 1/2⟩
  refine ⟨1, l, ![2, 1/2], s, by decide +kernel, by simp [l], by decide +kernel, by decide +kernel, fun u => ?_⟩
  obtain ⟨b, hb, h2, h3, _⟩ := Box.C66_bounding_box (l := l) (by simp [l])
  have hbb : ∀ d, b.low d ≤ b.high d := by
    intro d
    obtain ⟨⟨v, hv, e⟩, _⟩ := h3 d
    rw [← e]
    exact ((Box.C35_contains_point b v).mp (h2 v hv) d).2
  refine ⟨2 * AABB.extent 1 b + 2, fun fuel hf => ?_⟩
  obtain ⟨t, res, h4, _, h5⟩ := AABB.C60_tree one_pos b hbb (partCells 1 l) fuel hf
  refine ⟨t, ?_, ?_⟩
  · rw [partGrid, hb, Option.getD_some, grid, h4]
    rfl
  · rw [← Bool.not_eq_true, (h5 s (by decide +kernel)).1]
    rintro ⟨k, hk, hfit, hmeet⟩
    have hh : b.high 0 = 2 := by
      obtain ⟨b', e⟩ : ∃ b' : Box 2 ℚ, Box.around l = some b' ∧ b'.high 0 = 2 := ⟨_, rfl, by decide +kernel⟩
      rw [hb] at e
      rw [Option.some.inj e.1]
      exact e.2
    have hk' : k = ![0, 0] ∨ k = ![2, 0] := by
      have : k ∈ [(![0, 0] : Index 2), ![2, 0]] := by
        have e : partCells 1 l = [![0, 0], ![2, 0]] := by decide +kernel
        rwa [e] at hk
      simpa using this
    rcases hk' with rfl | rfl
    · obtain ⟨p, hp, hd⟩ := hmeet
      have h1 := (hp 0).2
      rw [Fin.sum_univ_two] at hd
      simp [boundsOf, s] at h1 hd
      nlinarith [mul_self_nonneg (p 1 - 1/2)]
    · have := (hfit 0).2
      simp [boundsOf, AABB.round, hh] at this
      norm_num at this

/-- **C61 (bounds).** The checker that uses the bounding box of a part never misses a point. -/
theorem C61_bounds (u : Box D K) {l : List (Vec D K)} {p : Vec D K} (hp : p ∈ l) (s : Sphere D K) (hr : 0 ≤ s.radius)
    (hd : ∑ i, (p i - s.center i) * (p i - s.center i) ≤ s.radius * s.radius) :
    (partBounds u l).intersects s = true := by
  obtain ⟨b, hb, h2, _⟩ := Box.C66_bounding_box (List.ne_nil_of_mem hp)
  have := (Box.C35_contains_point b p).mp (h2 p hp)
  rw [partBounds, hb, Option.getD_some]
  exact (Box.C35_intersects b s hr fun d => (this d).1.trans (this d).2).mpr ⟨p, this, hd⟩

/-- **C61 (accurate, partial).** `m` are the points of the part among all points `ids`. The accurate checker never
looks up a missing cell; it reports an intersection only if one of the points is inside of the sphere, and it does
report one if a point of the part is (with the exception of `C61_grid_partial`). -/
theorem C61_accurate_partial (hw : 0 < w) (u : Box D K) (pts : Nat → Vec D K) (ids m : List Nat) (hm : m ≠ [])
    (hsub : ∀ p ∈ m, p ∈ ids) :
    ∃ F, ∀ fuel ≥ F, ∃ t, partGrid w fuel u (m.map pts) = .done t ∧
      ∀ (s : Sphere D K) (inSph : Nat → Bool), 0 ≤ s.radius →
        ∃ r, accurate w t (cellMap w pts ids) ids.toFinset inSph s = some r ∧
          (r = true → ∃ q ∈ ids, inSph q = true ∧ ∃ p ∈ m, indexAt w (pts q) = indexAt w (pts p)) ∧
          ∀ p ∈ m, (∀ d, (∃ q ∈ m, pts p d < pts q d) ∨ ∀ z : Int, pts p d ≠ z * w) →
            ∑ i, (pts p i - s.center i) * (pts p i - s.center i) ≤ s.radius * s.radius → inSph p = true → r = true := by
  have hl : m.map pts ≠ [] := by simpa using hm
  obtain ⟨b, hb, h2, h3, _⟩ := Box.C66_bounding_box hl
  have hbb : ∀ d, b.low d ≤ b.high d := by
    intro d
    obtain ⟨⟨v, hv, e⟩, _⟩ := h3 d
    rw [← e]
    exact ((Box.C35_contains_point b v).mp (h2 v hv) d).2
  refine ⟨2 * AABB.extent w b + 2, fun fuel hf => ?_⟩
  obtain ⟨t, res, h4, _, h5⟩ := AABB.C60_tree hw b hbb (partCells w (m.map pts)) fuel hf
  refine ⟨t, ?_, fun s inSph hr => ?_⟩
  · rw [partGrid, hb, Option.getD_some, grid, h4]
    rfl
  have hc : ∀ k ∈ t.cells w s, ∃ p ∈ m, indexAt w (pts p) = k := by
    intro k hk
    have := (((h5 s hr).2.2 k).mp hk).1
    rw [partCells, List.mem_dedup] at this
    simpa using this
  have hmap : ∀ k ∈ t.cells w s, cellMap w pts ids k = some (ids.filter fun p => decide (indexAt w (pts p) = k)) := by
    intro k hk
    obtain ⟨p, hp, e⟩ := hc k hk
    rw [cellMap, if_neg]
    rw [List.isEmpty_iff, List.filter_eq_nil_iff]
    push_neg
    exact ⟨p, hsub p hp, by simpa using e⟩
  unfold accurate
  simp only
  rw [if_pos (by rw [List.all_eq_true]; intro k hk; rw [hmap k hk]; rfl)]
  refine ⟨_, rfl, ?_, ?_⟩
  · rw [List.any_eq_true]
    rintro ⟨k, hk, h⟩
    rw [hmap k hk, Option.getD_some, List.any_eq_true] at h
    obtain ⟨q, hq, h⟩ := h
    rw [List.mem_filter, decide_eq_true_eq] at hq
    obtain ⟨p, hp, e⟩ := hc k hk
    simp only [Bool.and_eq_true] at h
    exact ⟨q, hq.1, h.2, p, hp, hq.2.trans e.symm⟩
  · intro p hp hmax hd hi
    have hpl : pts p ∈ m.map pts := List.mem_map_of_mem hp
    have hfit := fits_of hw hb hpl (fun d => (hmax d).imp_left fun ⟨q, hq, h⟩ => ⟨pts q, List.mem_map_of_mem hq, h⟩)
    have hk : indexAt w (pts p) ∈ t.cells w s :=
      ((h5 s hr).2.2 _).mpr ⟨by rw [partCells, List.mem_dedup]; exact List.mem_map_of_mem hpl, hfit, pts p,
        (Box.C35_contains_point _ _).mp (C59_bounds hw _), hd⟩
    rw [List.any_eq_true]
    refine ⟨_, hk, ?_⟩
    rw [hmap _ hk, Option.getD_some, List.any_eq_true]
    exact ⟨p, List.mem_filter.mpr ⟨hsub p hp, by simp⟩, by simp [hsub p hp, hi]⟩

omit [Field K] [LinearOrder K] [IsStrictOrderedRing K] [FloorRing K] in
/-- **C61 (parts).** A finite id belongs to the part it is assigned to and to no other one, all infinite ids belong to
every part. -/
theorem C61_parts (hD : D ≤ 64) (ids : Finset Nat) (part : Nat → Nat) (i p : Nat) (hp : p < 2 ^ 64) :
    p ∈ partIds D ids part i ↔ if p < 2 ^ 64 - 2 ^ D then p ∈ ids ∧ part p = i else True := by
  have e : Part.cINF D = 2 ^ 64 - 2 ^ D := rfl
  rw [partIds, Part.mem_foldl_insert, Part.mem_infIds hD, Finset.mem_filter, Part.isFinite, decide_eq_true_eq, e]
  split_ifs with h
  · constructor
    · rintro (h' | h')
      · omega
      · exact ⟨h'.1, h'.2.2⟩
    · exact fun h' => Or.inr ⟨h'.1, h, h'.2⟩
  · exact ⟨fun _ => trivial, fun _ => Or.inl ⟨by omega, hp⟩⟩

/-- The hypotheses for points of two cells; the largest coordinates are not on grid planes. -/
example : ((partGrid (1 : ℚ) 20 ⟨0, 0⟩ [![1/2, 1], ![5/2, 3/2]]).map' fun t =>
    (t.intersects (⟨![3, 3/2], 1/2⟩ : Sphere 2 ℚ), t.intersects (⟨![3/2, 3/2], 1/4⟩ : Sphere 2 ℚ))) =
      .done (true, false) := by
  decide +kernel

example : (∀ d : Fin 2, (∃ q ∈ [(![1/2, 1] : Vec 2 ℚ), ![5/2, 3/2]], (![1/2, 1] : Vec 2 ℚ) d < q d) ∨
    ∀ z : Int, (![1/2, 1] : Vec 2 ℚ) d ≠ z * 1) :=
  fun d => Or.inl ⟨![5/2, 3/2], by simp, by fin_cases d <;> decide +kernel⟩

end Checker
end
end Verif
