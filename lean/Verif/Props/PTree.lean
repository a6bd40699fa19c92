import Verif.Model.PTree
import Verif.Props.Partitioner
import Verif.Props.Misc
import Mathlib.Data.List.Nodup
import Mathlib.Data.List.Pairwise
import Mathlib.Data.List.Count
import Mathlib.Algebra.BigOperators.Group.List.Basic

/-!
# C62, C81: partition trees
-/
namespace Verif
namespace PTree
variable {C : Type}

/-- The subtree at a path of child numbers. -/
def sub : PTree C → List Nat → Option (PTree C)
  | t, [] => some t
  | leaf _ _, _ :: _ => none
  | node _ l, i :: p => (l[i]?).bind fun t => sub t p

@[simp] theorem sub_nil (t : PTree C) : sub t [] = some t := by
  cases t <;> rfl

@[simp] theorem sub_leaf (c : Option C) (ids : Finset Nat) (i : Nat) (p : List Nat) :
    sub (leaf c ids) (i :: p) = none := rfl

@[simp] theorem sub_node (c : Option C) (l : List (PTree C)) (i : Nat) (p : List Nat) :
    sub (node c l) (i :: p) = (l[i]?).bind fun t => sub t p := rfl

/-- There is a leaf with these ids at the path. -/
def LeafAt (t : PTree C) (p : List Nat) (ids : Finset Nat) : Prop := ∃ c, sub t p = some (leaf c ids)

/-- Subtree at a path in a list of trees numbered from `k`. -/
def subAll (k : Nat) (l : List (PTree C)) : List Nat → Option (PTree C)
  | [] => none
  | i :: p => if i < k then none else (l[i - k]?).bind fun t => sub t p

mutual
/-- Paths of the leaves, from left to right. -/
def lp : PTree C → List (List Nat)
  | leaf _ _ => [[]]
  | node _ l => lpAll 0 l
/-- Paths of the leaves of trees that are numbered from `k`. -/
def lpAll : Nat → List (PTree C) → List (List Nat)
  | _, [] => []
  | k, t :: l => (lp t).map (k :: ·) ++ lpAll (k + 1) l
end

theorem head_lpAll : ∀ (l : List (PTree C)) (k : Nat) (p : List Nat), p ∈ lpAll k l → ∃ i q, p = i :: q ∧ k ≤ i
  | [], _, _, h => by simp [lpAll] at h
  | t :: l, k, p, h => by
    rw [lpAll, List.mem_append, List.mem_map] at h
    rcases h with ⟨q, _, rfl⟩ | h
    · exact ⟨k, q, rfl, le_rfl⟩
    · obtain ⟨i, q, rfl, hi⟩ := head_lpAll l (k + 1) p h
      exact ⟨i, q, rfl, by omega⟩

theorem subAll_cons (k : Nat) (t : PTree C) (l : List (PTree C)) {p : List Nat} (h : ∃ i q, p = i :: q ∧ k + 1 ≤ i) :
    subAll k (t :: l) p = subAll (k + 1) l p := by
  obtain ⟨i, q, rfl, hi⟩ := h
  obtain ⟨j, rfl⟩ := Nat.exists_eq_add_of_le hi
  simp only [subAll]
  rw [if_neg (by omega), if_neg (by omega), show k + 1 + j - k = j + 1 by omega, show k + 1 + j - (k + 1) = j by omega,
    List.getElem?_cons_succ]

theorem subAll_zero (c : Option C) (l : List (PTree C)) {p : List Nat} (h : p ≠ []) : sub (node c l) p = subAll 0 l p := by
  cases p with
  | nil => exact absurd rfl h
  | cons i q => simp [subAll]

mutual
theorem flattenOne_eq : ∀ t : PTree C, (flattenOne t).map some = (lp t).map (sub t)
  | leaf c ids => by simp [flattenOne, lp]
  | node c l => by
    rw [flattenOne, lp, flattenContainer_eq 0 l]
    apply List.map_congr_left
    intro p hp
    obtain ⟨i, q, rfl, _⟩ := head_lpAll _ _ _ hp
    exact (subAll_zero c l (by simp)).symm
theorem flattenContainer_eq : ∀ (k : Nat) (l : List (PTree C)), (flattenContainer l).map some = (lpAll k l).map (subAll k l)
  | _, [] => by simp [flattenContainer, lpAll]
  | k, t :: l => by
    rw [flattenContainer, lpAll, List.map_append, List.map_append, flattenOne_eq t, flattenContainer_eq (k + 1) l, List.map_map]
    congr 1
    · apply List.map_congr_left
      intro p _
      simp [subAll]
    · apply List.map_congr_left
      intro p hp
      exact (subAll_cons k t l (head_lpAll _ _ _ hp)).symm
end

mutual
theorem mem_lp : ∀ (t : PTree C) (p : List Nat), p ∈ lp t ↔ ∃ ids, LeafAt t p ids
  | leaf c ids, p => by
    cases p with
    | nil => simp [lp, LeafAt]
    | cons i q => simp [lp, LeafAt]
  | node c l, p => by
    rw [lp, mem_lpAll 0 l p]
    cases p with
    | nil => simp [LeafAt, subAll]
    | cons i q => simp only [LeafAt, subAll_zero c l (List.cons_ne_nil i q)]
theorem mem_lpAll : ∀ (k : Nat) (l : List (PTree C)) (p : List Nat), p ∈ lpAll k l ↔ ∃ ids c, subAll k l p = some (leaf c ids)
  | k, [], p => by
    cases p with
    | nil => simp [lpAll, subAll]
    | cons i q => simp [lpAll, subAll]
  | k, t :: l, p => by
    rw [lpAll, List.mem_append, List.mem_map, mem_lpAll (k + 1) l p]
    cases p with
    | nil => simp [subAll]
    | cons i q =>
      by_cases h1 : i < k
      · constructor
        · rintro (⟨q', _, h⟩ | ⟨ids, c, h⟩)
          · simp only [List.cons.injEq] at h; omega
          · simp only [subAll] at h
            rw [if_pos (by omega)] at h
            simp at h
        · rintro ⟨ids, c, h⟩
          simp only [subAll] at h
          rw [if_pos h1] at h
          simp at h
      · by_cases h2 : i = k
        · subst h2
          simp only [subAll, lt_self_iff_false, if_false, Nat.sub_self, List.getElem?_cons_zero, Option.bind_some]
          rw [if_pos (by omega)]
          constructor
          · rintro (⟨q', h, he⟩ | ⟨ids, c, h⟩)
            · obtain rfl : q' = q := by simpa using he
              exact (mem_lp t q').mp h
            · simp at h
          · intro h
            exact Or.inl ⟨q, (mem_lp t q).mpr h, rfl⟩
        · rw [subAll_cons k t l ⟨i, q, rfl, by omega⟩]
          constructor
          · rintro (⟨q', _, h⟩ | h)
            · simp only [List.cons.injEq] at h; omega
            · exact h
          · exact Or.inr
end

mutual
theorem lp_sorted : ∀ t : PTree C, (lp t).Pairwise (List.Lex (· < ·))
  | leaf c ids => by simp [lp]
  | node c l => by rw [lp]; exact lpAll_sorted 0 l
theorem lpAll_sorted : ∀ (k : Nat) (l : List (PTree C)), (lpAll k l).Pairwise (List.Lex (· < ·))
  | _, [] => by simp [lpAll]
  | k, t :: l => by
    rw [lpAll, List.pairwise_append]
    refine ⟨?_, lpAll_sorted (k + 1) l, ?_⟩
    · rw [List.pairwise_map]
      exact (lp_sorted t).imp fun h => List.Lex.cons h
    · intro p hp q hq
      obtain ⟨p', _, rfl⟩ := List.mem_map.mp hp
      obtain ⟨i, q', rfl, hi⟩ := head_lpAll _ _ _ hq
      exact List.Lex.rel (by omega)
end

theorem lp_nodup (t : PTree C) : (lp t).Nodup := by
  refine (lp_sorted t).imp fun {p q} h he => ?_
  subst he
  exact lex_irrefl p h
where
  lex_irrefl : ∀ p : List Nat, ¬ List.Lex (· < ·) p p
    | [], h => by cases h
    | a :: p, h => by
      cases h with
      | cons h => exact lex_irrefl p h
      | rel h => exact absurd h (lt_irrefl a)

/-- **C62 (flatten).** Flattening a tree with children yields a tree with the same checker whose children are the leaves of
the old one: the subtrees at all those paths that lead to leaves, each once, in the order of the paths from left to
right. -/
theorem C62_flatten (c : Option C) (l : List (PTree C)) : ∃ (l' : List (PTree C)) (paths : List (List Nat)),
    flatten (node c l) = node c l' ∧ paths.Pairwise (List.Lex (· < ·)) ∧
    (∀ p, p ∈ paths ↔ ∃ c' ids, sub (node c l) p = some (leaf c' ids)) ∧
    l'.map some = paths.map (sub (node c l)) := by
  refine ⟨flattenContainer l, lp (node c l), rfl, lp_sorted _, fun p => ?_, flattenOne_eq (node c l)⟩
  rw [mem_lp]
  exact ⟨fun ⟨ids, c', h⟩ => ⟨c', ids, h⟩, fun ⟨c', ids, h⟩ => ⟨ids, c', h⟩⟩

theorem C62_flatten_leaf (c : Option C) (ids : Finset Nat) : flatten (leaf c ids) = leaf c ids := rfl

theorem exists_leafAt_node {c : Option C} {l : List (PTree C)} {P : Finset Nat → Prop} :
    (∃ p ids, LeafAt (node c l) p ids ∧ P ids) ↔ ∃ t ∈ l, ∃ p ids, LeafAt t p ids ∧ P ids := by
  constructor
  · rintro ⟨p, ids, ⟨c', h⟩, hp⟩
    cases p with
    | nil => simp at h
    | cons i q =>
      rw [sub_node] at h
      cases ht : l[i]? with
      | none => rw [ht] at h; simp at h
      | some t =>
        rw [ht] at h
        exact ⟨t, List.mem_of_getElem? ht, q, ids, ⟨c', h⟩, hp⟩
  · rintro ⟨t, ht, p, ids, ⟨c', h⟩, hp⟩
    obtain ⟨i, hi⟩ := List.mem_iff_getElem?.mp ht
    exact ⟨i :: p, ids, ⟨c', by rw [sub_node, hi]; exact h⟩, hp⟩

theorem exists_leafAt_leaf {c : Option C} {ids : Finset Nat} {P : Finset Nat → Prop} :
    (∃ p ids', LeafAt (leaf c ids) p ids' ∧ P ids') ↔ P ids := by
  constructor
  · rintro ⟨p, ids', ⟨c', h⟩, hp⟩
    cases p with
    | nil => rw [sub_nil] at h; cases h; exact hp
    | cons i q => simp at h
  · exact fun h => ⟨[], ids, ⟨c, by simp⟩, h⟩

mutual
theorem mem_collectIds : ∀ (t : PTree C) (i : Nat), i ∈ collectIds t ↔ ∃ p ids, LeafAt t p ids ∧ i ∈ ids
  | leaf c ids, i => by rw [collectIds, exists_leafAt_leaf (P := (i ∈ ·))]
  | node c l, i => by rw [collectIds, mem_collectAll, exists_leafAt_node (P := (i ∈ ·))]
theorem mem_collectAll : ∀ (l : List (PTree C)) (i : Nat), i ∈ collectAll l ↔ ∃ t ∈ l, ∃ p ids, LeafAt t p ids ∧ i ∈ ids
  | [], i => by simp [collectAll]
  | t :: l, i => by
    rw [collectAll, Finset.mem_union, mem_collectIds t i, mem_collectAll l i]
    simp
end

/-- **C62 (collect).** Collecting a tree yields a leaf with the same checker whose ids are those of all leaves. -/
theorem C62_collect (t : PTree C) : ∃ s, collect t = leaf t.chk s ∧
    ∀ i, i ∈ s ↔ ∃ p c ids, sub t p = some (leaf c ids) ∧ i ∈ ids := by
  refine ⟨t.collectIds, rfl, fun i => ?_⟩
  rw [mem_collectIds]
  exact ⟨fun ⟨p, ids, ⟨c, h⟩, hi⟩ => ⟨p, c, ids, h, hi⟩, fun ⟨p, c, ids, h, hi⟩ => ⟨p, ids, ⟨c, h⟩, hi⟩⟩

section
variable {D : Nat} {K : Type}

theorem toOldFrom_some : ∀ (l : List (PTree (Chk D K))) (k : Nat), (∀ t ∈ l, t.chk ≠ none) →
    ∃ r, toOldFrom k l = some r ∧ r.length = l.length ∧ ∀ (i : Nat) (t : PTree (Chk D K)), l[i]? = some t →
      ∃ c, t.chk = some c ∧ r[i]? = some (⟨k + i, t.collectIds, c.bounds⟩, c)
  | [], _, _ => ⟨[], rfl, rfl, by simp⟩
  | t :: l, k, h => by
    obtain ⟨r, h1, h2, h3⟩ := toOldFrom_some l (k + 1) fun t' ht' => h t' (List.mem_cons_of_mem _ ht')
    obtain ⟨c, hc⟩ := Option.ne_none_iff_exists'.mp (h t (List.mem_cons_self ..))
    refine ⟨(⟨k, t.collectIds, c.bounds⟩, c) :: r, by simp only [toOldFrom, hc, h1]; rfl, by simp [h2], ?_⟩
    intro i t' ht'
    cases i with
    | zero =>
      obtain rfl : t = t' := by simpa using ht'
      exact ⟨c, hc, by simp⟩
    | succ i =>
      obtain ⟨c', h4, h5⟩ := h3 i t' (by simpa using ht')
      exact ⟨c', h4, by rw [List.getElem?_cons_succ, h5, show k + (i + 1) = k + 1 + i by omega]⟩

/-- **C62 (conversion).** If no child has a null checker, `toOldPartitioning` yields one part per child, numbered from zero,
with the ids of all leaves of the child, and with the child's bounds and checker. -/
theorem C62_toOld (l : List (PTree (Chk D K))) (h : ∀ t ∈ l, t.chk ≠ none) : ∃ r, toOld l = some r ∧ r.length = l.length ∧
    ∀ (i : Nat) (t : PTree (Chk D K)), l[i]? = some t → ∃ (c : Chk D K) (part : Part.Partition D K), t.chk = some c ∧ r[i]? = some (part, c) ∧ part.id = i ∧ part.bounds = c.bounds ∧
      ∀ v, v ∈ part.points ↔ ∃ p c' ids, sub t p = some (leaf c' ids) ∧ v ∈ ids := by
  obtain ⟨r, h1, h2, h3⟩ := toOldFrom_some l 0 h
  refine ⟨r, h1, h2, fun i t ht => ?_⟩
  obtain ⟨c, h4, h5⟩ := h3 i t ht
  refine ⟨c, _, h4, h5, by simp, rfl, fun v => ?_⟩
  obtain ⟨s, hs1, hs2⟩ := C62_collect t
  simp only [collect, leaf.injEq, true_and] at hs1
  rw [hs1]
  exact hs2 v

/-- A null checker is dereferenced. -/
theorem C62_toOld_null (l : List (PTree (Chk D K))) (h : ∃ t ∈ l, t.chk = none) : toOld l = none := by
  unfold toOld
  generalize 0 = k
  induction l generalizing k with
  | nil => simp at h
  | cons t l ih =>
    rw [toOldFrom]
    cases hc : t.chk with
    | none => rfl
    | some c =>
      obtain ⟨t', ht', h'⟩ := h
      rcases List.mem_cons.mp ht' with rfl | ht'
      · rw [hc] at h'; cases h'
      · simp only [ih ⟨t', ht', h'⟩]
        rfl

end

/-- A tree with three leaves in two levels. -/
example : (flatten (node (some 0) [leaf (some 1) {1, 2}, node (some 2) [leaf (some 3) {3}, node none [], leaf (some 4) {5}]])) =
    node (some 0) [leaf (some 1) {1, 2}, leaf (some 3) {3}, leaf (some 4) {5}] := rfl

example : (node (some 0) [leaf (some 1) {1, 2}, node (some 2) [leaf (some 3) {3}, leaf (some 4) {2, 5}]]).collect =
    leaf (some 0) {1, 2, 3, 5} := by
  simp only [collect, chk, collectIds, collectAll]
  congr 1
  decide

/-! ### C81 -/

/-- Every node has a checker. -/
def Checked (t : PTree C) : Prop := ∀ p s, sub t p = some s → s.chk ≠ none

theorem checked_leaf {c : Option C} {ids : Finset Nat} : Checked (leaf c ids) ↔ c ≠ none := by
  constructor
  · intro h; exact h [] _ (sub_nil _)
  · intro h p s hs
    cases p with
    | nil => rw [sub_nil] at hs; cases hs; exact h
    | cons i q => simp at hs

theorem checked_node {c : Option C} {l : List (PTree C)} : Checked (node c l) ↔ c ≠ none ∧ ∀ t ∈ l, Checked t := by
  constructor
  · intro h
    refine ⟨h [] _ (sub_nil _), fun t ht p s hs => ?_⟩
    obtain ⟨i, hi⟩ := List.mem_iff_getElem?.mp ht
    exact h (i :: p) s (by rw [sub_node, hi]; exact hs)
  · rintro ⟨h1, h2⟩ p s hs
    cases p with
    | nil => rw [sub_nil] at hs; cases hs; exact h1
    | cons i q =>
      rw [sub_node] at hs
      cases ht : l[i]? with
      | none => rw [ht] at hs; simp at hs
      | some t => rw [ht] at hs; exact h2 t (List.mem_of_getElem? ht) q s hs

mutual
theorem copy_spec : ∀ t : PTree C, (Checked t → copy t = some t) ∧ (¬ Checked t → copy t = none)
  | leaf none ids => by simp [copy, checked_leaf]
  | leaf (some c) ids => by simp [copy, checked_leaf]
  | node none l => by simp [copy, checked_node]
  | node (some c) l => by
    obtain ⟨h1, h2⟩ := copyAll_spec l
    simp only [copy, checked_node, ne_eq, reduceCtorEq, not_false_eq_true, true_and]
    refine ⟨fun h => by rw [h1 h]; rfl, fun h => by rw [h2 h]; rfl⟩
theorem copyAll_spec : ∀ l : List (PTree C), ((∀ t ∈ l, Checked t) → copyAll l = some l) ∧
    ((¬ ∀ t ∈ l, Checked t) → copyAll l = none)
  | [] => by simp [copyAll]
  | t :: l => by
    obtain ⟨h1, h2⟩ := copy_spec t
    obtain ⟨h3, h4⟩ := copyAll_spec l
    constructor
    · intro h
      rw [copyAll, h1 (h t (List.mem_cons_self ..)), h3 fun t' ht' => h t' (List.mem_cons_of_mem _ ht')]
    · intro h
      by_cases ht : Checked t
      · have hl : ¬ ∀ t ∈ l, Checked t := fun hl => h (by
          intro t' ht'
          rcases List.mem_cons.mp ht' with rfl | ht'
          · exact ht
          · exact hl t' ht')
        rw [copyAll, h1 ht, h4 hl]
      · rw [copyAll, h2 ht]
end

/-- **C81 (copies).** The copy of a tree is equal to it if all of its nodes have checkers; otherwise a null pointer is
dereferenced. -/
theorem C81_copy (t : PTree C) : (Checked t → copy t = some t) ∧ (¬ Checked t → copy t = none) := copy_spec t

end PTree
end Verif
