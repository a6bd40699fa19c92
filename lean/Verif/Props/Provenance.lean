import Mathlib.Data.List.Nodup
import Verif.Model.Provenance
import Verif.Props.BenchRun

/-!
# C136: the base triangulations of a report have different provenances
-/
namespace Verif
namespace Prov

open Report (nat)

mutual
/-- No node has more than ten children. -/
def Narrow : Shape → Prop
  | .leaf => True
  | .node cs => cs.length ≤ 10 ∧ NarrowL cs

/-- All trees of a list are narrow. -/
def NarrowL : List Shape → Prop
  | [] => True
  | c :: cs => Narrow c ∧ NarrowL cs
end

mutual
/-- Number of base triangulations: one for each leaf and one for the edge of each node with several children. -/
def count : Shape → Nat
  | .leaf => 1
  | .node [] => 0
  | .node [_] => 1
  | .node (c :: d :: cs) => countL (c :: d :: cs) + 1

/-- The sum over a list of trees. -/
def countL : List Shape → Nat
  | [] => 0
  | c :: cs => count c + countL cs
end

theorem nat_inj {i j : Nat} (h : nat i = nat j) : i = j := by
  rw [← Bench.nat_value i, h, Bench.nat_value]

theorem nat_one {i : Nat} (h : i < 10) : (nat i).length = 1 := by
  rw [nat, if_pos h]; rfl

theorem e_nat (i : Nat) : 'e' ∉ nat i := by
  intro h
  have := (Bench.nat_digits i _ h).2
  exact absurd this (by decide)

/-- Names of different children differ. -/
theorem child_ne {p x : Str} {i j : Nat} (hi : i < 10) (hj : j < 10) (h1 : p ++ nat i <+: x) (h2 : p ++ nat j <+: x) : i = j := by
  have := List.prefix_of_prefix_length_le h1 h2 (by simp [nat_one hi, nat_one hj])
  exact nat_inj ((List.prefix_append_right_inj p).1 this |>.eq_of_length (by rw [nat_one hi, nat_one hj]))

theorem edge_ne {p : Str} {j : Nat} : ¬ p ++ nat j <+: p ++ ['e'] := by
  intro h
  have h := (List.prefix_append_right_inj p).1 h
  obtain ⟨t, ht⟩ := h
  cases hn : nat j with
  | nil => exact Bench.nat_ne_nil j hn
  | cons c s =>
    rw [hn] at ht
    simp only [List.cons_append, List.cons.injEq] at ht
    exact e_nat j (by rw [hn, ht.1]; simp)

theorem bind_eq {α β : Type} {r : Res α} {f : α → Res β} {b : β} (h : r.bind f = .done b) : ∃ a, r = .done a ∧ f a = .done b := by
  cases r with
  | done a => exact ⟨a, rfl, h⟩
  | ub => cases h
  | timeout => cases h

mutual
theorem names_ok : ∀ (t : Shape) (p : Str) (l : List Str), Narrow t → names t p = .done l →
    l.Nodup ∧ (∀ x ∈ l, p <+: x) ∧ l.length = count t
  | .leaf, p, l, _, h => by
    simp only [names, Res.done.injEq] at h
    subst h
    simp [count]
  | .node [], _, _, _, h => by simp [names] at h
  | .node [.leaf], p, l, _, h => by
    simp only [names, Res.done.injEq] at h
    subst h
    simp [count]
  | .node [.node _], _, _, _, h => by simp [names] at h
  | .node (c :: d :: cs), p, l, hn, h => by
    rw [names] at h
    obtain ⟨a, ha, h⟩ := bind_eq h
    simp only [Res.done.injEq] at h
    subst h
    simp only [Narrow] at hn
    obtain ⟨h1, h2, h3⟩ := namesL_ok (c :: d :: cs) 0 p a hn.2 (by omega) ha
    refine ⟨?_, ?_, by simp [h3, count]⟩
    · refine List.Nodup.append h1 (by simp) ?_
      intro x hx he
      rw [List.mem_singleton] at he
      subst he
      obtain ⟨j, _, _, hj⟩ := h2 _ hx
      exact edge_ne hj
    · intro x hx
      rcases List.mem_append.1 hx with hx | hx
      · obtain ⟨j, _, _, hj⟩ := h2 x hx
        exact (List.prefix_append p _).trans hj
      · rw [List.mem_singleton] at hx
        subst hx
        exact List.prefix_append _ _

theorem namesL_ok : ∀ (cs : List Shape) (i : Nat) (p : Str) (l : List Str), NarrowL cs → i + cs.length ≤ 10 →
    namesL cs i p = .done l →
    l.Nodup ∧ (∀ x ∈ l, ∃ j, i ≤ j ∧ j < i + cs.length ∧ p ++ nat j <+: x) ∧ l.length = countL cs
  | [], _, _, l, _, _, h => by
    simp only [namesL, Res.done.injEq] at h
    subst h
    simp [countL]
  | c :: cs, i, p, l, hn, hi, h => by
    rw [namesL] at h
    obtain ⟨a, ha, h⟩ := bind_eq h
    obtain ⟨b, hb, h⟩ := bind_eq h
    simp only [Res.done.injEq] at h
    subst h
    simp only [NarrowL] at hn
    simp only [List.length_cons] at hi ⊢
    obtain ⟨h1, h2, h3⟩ := names_ok c _ a hn.1 ha
    obtain ⟨g1, g2, g3⟩ := namesL_ok cs (i + 1) p b hn.2 (by omega) hb
    refine ⟨?_, ?_, by simp [h3, g3, countL]⟩
    · refine List.Nodup.append h1 g1 ?_
      intro x hx hy
      obtain ⟨j, k1, k2, k3⟩ := g2 x hy
      have := child_ne (by omega) (by omega) (h2 x hx) k3
      omega
    · intro x hx
      rcases List.mem_append.1 hx with hx | hx
      · exact ⟨i, Nat.le_refl _, by omega, h2 x hx⟩
      · obtain ⟨j, k1, k2, k3⟩ := g2 x hx
        exact ⟨j, by omega, by omega, k3⟩
end

/-- **C136 (part).** If no node of the partition tree has more than ten children, every base triangulation is registered under
its own provenance, whatever the order of the threads. -/
theorem C136_narrow_partial (t : Shape) (h : Narrow t) (l reg : List Str) (hl : names t top = .done l) (hr : reg.Perm l) :
    reg.Nodup ∧ reg.length = count t := by
  obtain ⟨h1, _, h3⟩ := names_ok t top l h hl
  exact ⟨hr.nodup_iff.2 h1, by rw [hr.length_eq, h3]⟩

/-- A tree with two levels. -/
example : Narrow (.node [.node [.leaf, .leaf], .leaf]) ∧
    names (.node [.node [.leaf, .leaf], .leaf]) top =
      .done ["000".toList, "001".toList, "00e".toList, "01".toList, "0e".toList] := by
  refine ⟨by simp [Narrow, NarrowL], ?_⟩
  simp [names, namesL, top, nat, Report.digit, Res.bind]

/-! ### Flat trees -/

theorem namesL_leaves : ∀ (k i : Nat) (p : Str),
    namesL (List.replicate k .leaf) i p = .done ((List.range' i k).map fun j => p ++ nat j)
  | 0, _, _ => rfl
  | k + 1, i, p => by
    rw [List.replicate_succ, namesL, names, Res.bind_done, namesL_leaves k (i + 1) p]
    rfl

theorem flat_names (k : Nat) (p : Str) : names (.node (List.replicate (k + 2) .leaf)) p =
    .done (((List.range (k + 2)).map fun j => p ++ nat j) ++ [p ++ ['e']]) := by
  have := namesL_leaves (k + 2) 0 p
  rw [List.range_eq_range']
  simp only [List.replicate_succ] at this ⊢
  rw [names, this]
  rfl

theorem flat_nodup (k : Nat) (p : Str) : (((List.range k).map fun j => p ++ nat j) ++ [p ++ ['e']]).Nodup := by
  refine List.Nodup.append ?_ (by simp) ?_
  · refine List.Nodup.map ?_ List.nodup_range
    intro i j h
    exact nat_inj (List.append_cancel_left h)
  · intro x hx he
    rw [List.mem_singleton] at he
    subst he
    obtain ⟨j, _, hj⟩ := List.mem_map.1 hx
    exact edge_ne (j := j) (p := p) (by rw [hj]; exact List.prefix_rfl)

/-- **C136 (part).** The same for a tree with one level and any number of parts. -/
theorem C136_flat_partial (k : Nat) (l reg : List Str) (hl : names (.node (List.replicate (k + 2) .leaf)) top = .done l)
    (hr : reg.Perm l) : reg.Nodup ∧ reg.length = k + 3 := by
  rw [flat_names, Res.done.injEq] at hl
  subst hl
  exact ⟨hr.nodup_iff.2 (flat_nodup _ _), by rw [hr.length_eq]; simp⟩

/-- Twelve parts. -/
example : ∃ l, names (.node (List.replicate (10 + 2) .leaf)) top = .done l ∧ "010".toList ∈ l ∧ "01".toList ∈ l := by
  refine ⟨_, flat_names 10 top, ?_, ?_⟩
  · refine List.mem_append.2 (.inl (List.mem_map.2 ⟨10, by simp, ?_⟩))
    simp [top, nat, Report.digit]
  · refine List.mem_append.2 (.inl (List.mem_map.2 ⟨1, by simp, ?_⟩))
    simp [top, nat, Report.digit]

/-! ### With the samples -/

theorem near_ok : ∀ (b : Bin) (p : Str), (near b p).Nodup ∧ ∀ x ∈ near b p, p <+: x
  | .leaf, _ => by simp [near]
  | .node l r, p => by
    obtain ⟨h1, h2⟩ := near_ok l (p ++ ['0'])
    obtain ⟨g1, g2⟩ := near_ok r (p ++ ['1'])
    have len : ∀ {c : Char}, ¬ p ++ [c] <+: p := fun h => by simpa using h.length_le
    refine ⟨?_, ?_⟩
    · rw [near, List.nodup_cons, List.mem_append]
      refine ⟨?_, List.Nodup.append h1 g1 ?_⟩
      · rintro (h | h)
        · exact len (h2 _ h)
        · exact len (g2 _ h)
      · intro x hx hy
        have := List.prefix_of_prefix_length_le (h2 x hx) (g2 x hy) (by simp)
        have := (List.prefix_append_right_inj p).1 this
        exact absurd this (by decide)
    · intro x hx
      rw [near, List.mem_cons, List.mem_append] at hx
      rcases hx with rfl | hx | hx
      · exact List.prefix_rfl
      · exact (List.prefix_append p _).trans (h2 x hx)
      · exact (List.prefix_append p _).trans (g2 x hx)

theorem top_eq : top = ['0'] := by simp [top, nat, Report.digit]

/-- No text begins with both. -/
theorem s_ne {x : Str} (h1 : sample <+: x) (h2 : top <+: x) : False := by
  rw [top_eq] at h2
  obtain ⟨a, rfl⟩ := h1
  obtain ⟨b, hb⟩ := h2
  simp only [sample, List.cons_append, List.nil_append, List.cons.injEq] at hb
  exact absurd hb.1 (by decide)

theorem shape_narrow : ∀ b : Bin, Narrow b.shape
  | .leaf => by simp [Bin.shape, Narrow]
  | .node l r => by
    simp only [Bin.shape, Narrow, NarrowL, and_true]
    exact ⟨by simp, shape_narrow l, shape_narrow r⟩

theorem shape_done : ∀ (b : Bin) (p : Str), ∃ l, names b.shape p = .done l
  | .leaf, p => ⟨_, rfl⟩
  | .node l r, p => by
    obtain ⟨a, ha⟩ := shape_done l (p ++ nat 0)
    obtain ⟨c, hc⟩ := shape_done r (p ++ nat 1)
    refine ⟨a ++ (c ++ []) ++ [p ++ ['e']], ?_⟩
    simp only [Bin.shape, names, namesL, ha, hc, Res.bind_done, Nat.zero_add]

theorem leaves_pos : ∀ b : Bin, 0 < b.leaves
  | .leaf => by simp [Bin.leaves]
  | .node l r => by have := leaves_pos l; simp only [Bin.leaves]; omega

theorem flat_ok (b : Bin) : ∃ l, names b.flat top = .done l ∧ l.Nodup ∧ ∀ x ∈ l, top <+: x := by
  cases b with
  | leaf => exact ⟨[top], rfl, by simp, by simp⟩
  | node l r =>
    have h1 := leaves_pos l
    have h2 := leaves_pos r
    obtain ⟨k, hk⟩ : ∃ k, l.leaves + r.leaves = k + 2 := ⟨l.leaves + r.leaves - 2, by omega⟩
    refine ⟨_, by rw [Bin.flat, hk]; exact flat_names k top, flat_nodup _ _, ?_⟩
    intro x hx
    rcases List.mem_append.1 hx with hx | hx
    · obtain ⟨j, _, rfl⟩ := List.mem_map.1 hx
      exact List.prefix_append _ _
    · rw [List.mem_singleton] at hx
      subst hx
      exact List.prefix_append _ _

/-- **C136 (part).** With the nearest sample point bipartitioner the samples and the base triangulations all have
different provenances, with and without flattening of the tree. -/
theorem C136_near_partial (b : Bin) (flat : Bool) : ∃ l, names (if flat then b.flat else b.shape) top = .done l ∧
    ∀ reg : List Str, reg.Perm (near b sample ++ l) → reg.Nodup := by
  obtain ⟨l, hl, h1, h2⟩ : ∃ l, names (if flat then b.flat else b.shape) top = .done l ∧ l.Nodup ∧ ∀ x ∈ l, top <+: x := by
    cases flat with
    | true => exact flat_ok b
    | false =>
      obtain ⟨l, hl⟩ := shape_done b top
      obtain ⟨h1, h2, _⟩ := names_ok _ _ _ (shape_narrow b) hl
      exact ⟨l, hl, h1, h2⟩
  refine ⟨l, hl, fun reg hr => hr.nodup_iff.2 (List.Nodup.append (near_ok b sample).1 h1 ?_)⟩
  exact fun x hx hy => s_ne ((near_ok b sample).2 x hx) (h2 x hy)

/-- Three samples. -/
example : near (.node (.node .leaf .leaf) (.node .leaf .leaf)) sample = ["s0".toList, "s00".toList, "s01".toList] := by decide

/-! ### Negations -/

/-- Number of inner nodes, that is of samples. -/
def inner : Bin → Nat
  | .leaf => 0
  | .node l r => inner l + inner r + 1

theorem fixed_eq : ∀ b : Bin, fixed b = List.replicate (inner b) sample
  | .leaf => rfl
  | .node l r => by rw [fixed, fixed_eq l, fixed_eq r, ← List.replicate_add, inner, List.replicate_succ]

/-- **C136, negation.** With the hyperplane bipartitioner and the box estimating partitioner, all samples of a run are registered
as `s0`: as soon as there are two, that is more than two parts, they cannot be told apart. -/
theorem C136_fixed_violated (b : Bin) (h : 2 ≤ inner b) : ¬ (fixed b).Nodup := by
  rw [fixed_eq]
  intro hn
  have := List.nodup_replicate.1 hn
  omega

example : fixed (.node (.node .leaf .leaf) .leaf) = [sample, sample] := by decide

/-- **C136, negation.** A tree whose root has eleven children, the second of which is divided again: the child 10 and the
first child of the child 1 are both registered as `010`. -/
theorem C136_wide_violated : ∃ t l, names t top = .done l ∧ ¬ l.Nodup :=
  ⟨.node ([.leaf, .node [.leaf, .leaf]] ++ List.replicate 9 .leaf), _, by
    simp only [List.replicate, List.cons_append, List.nil_append, names, namesL, Res.bind_done]
    rfl, by
    simp [nat, Report.digit]⟩

end Prov
end Verif
