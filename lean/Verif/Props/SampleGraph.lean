import Verif.Model.Sampler
import Verif.Props.Sample
import Mathlib.Algebra.BigOperators.Intervals
import Mathlib.Algebra.BigOperators.Fin
import Mathlib.Data.List.Sort
import Mathlib.Tactic.Linarith
import Mathlib.Tactic.FinCases

/-!
# C68: the graph of a sample
-/
namespace Verif
namespace Samp

/-- The graph `g` in compressed form is the graph of the triangulation with the simplices `S`: node `i` is the `i`-th id, and
its entries are the nodes that share a simplex with it, once each, with the weight `w` of the two ids. -/
structure GraphOk (ids : List Nat) (w : Nat → Nat → Int) (S : List (List Nat)) (g : Graph) : Prop where
  len : g.recs.length = ids.length + 1
  zero : g.recs[0]? = some 0
  mono : ∀ i a b, g.recs[i]? = some a → g.recs[i + 1]? = some b → a ≤ b
  last : g.recs[ids.length]? = some g.adj.length
  wlen : g.wts.length = g.adj.length
  mem : ∀ i lo hi, g.recs[i]? = some lo → g.recs[i + 1]? = some hi → ∀ j, (∃ k, lo ≤ k ∧ k < hi ∧ g.adj[k]? = some j) ↔
    i ≠ j ∧ ∃ vs ∈ S, ∃ p ∈ vs, ∃ q ∈ vs, ids[i]? = some p ∧ ids[j]? = some q
  once : ∀ i lo hi, g.recs[i]? = some lo → g.recs[i + 1]? = some hi → ∀ j k l, lo ≤ k → k < hi → lo ≤ l → l < hi →
    g.adj[k]? = some j → g.adj[l]? = some j → k = l
  weight : ∀ i lo hi, g.recs[i]? = some lo → g.recs[i + 1]? = some hi → ∀ j k p q, lo ≤ k → k < hi → g.adj[k]? = some j →
    ids[i]? = some p → ids[j]? = some q → g.wts[k]? = some (w p q)

/-- The setting: the ids of the sample are different and finite, the vertices of the simplices are sample points or infinite
points. -/
structure SampleOk (D : Nat) (ids : List Nat) (S : List (List Nat)) : Prop where
  nodup : ids.Nodup
  finite : ∀ p ∈ ids, Part.isFinite D p = true
  verts : ∀ vs ∈ S, ∀ p ∈ vs, p ∈ ids ∨ Part.isFinite D p = false

/-! ### Keys -/

theorem key_eq {i j : Nat} (hi : i < 2 ^ 32) (hj : j < 2 ^ 32) : key i j = i * 2 ^ 32 + j := by
  rw [key, Nat.shiftLeft_eq, Nat.mod_eq_of_lt (by omega), Nat.mod_eq_of_lt (by omega)]

theorem unkey_key {i j : Nat} (hi : i < 2 ^ 32) (hj : j < 2 ^ 32) : unkey (key i j) = (i, j) := by
  rw [key_eq hi hj, unkey]
  have h : (i * 2 ^ 32 + j) >>> 32 = i := by
    rw [Nat.shiftRight_eq_div_pow]
    omega
  rw [h, Nat.shiftLeft_eq, Nat.add_sub_cancel_left]

/-! ### Edges -/

theorem ix_translation {ids : List Nat} {p : Nat} (hp : p ∈ ids) : ids[ix (translation ids) p]? = some p := by
  rw [ix, translation, if_pos hp, Option.getD_some]
  exact List.getElem?_idxOf hp

theorem ix_get {ids : List Nat} (hn : ids.Nodup) {i p : Nat} (h : ids[i]? = some p) : ix (translation ids) p = i := by
  obtain ⟨hi, he⟩ := List.getElem?_eq_some_iff.mp h
  rw [ix, translation, if_pos (List.mem_of_getElem? h), Option.getD_some, ← he, hn.idxOf_getElem]

theorem mem_pairs {D : Nat} {tr : Nat → Option Nat} {w : Nat → Nat → Int} {vs : List Nat} {e : Edge} :
    e ∈ pairs D tr w vs ↔ ∃ p ∈ vs, ∃ q ∈ vs, Part.isFinite D p = true ∧ Part.isFinite D q = true ∧ ix tr p ≠ ix tr q ∧
      e = (ix tr p, ix tr q, w p q) := by
  simp only [pairs, List.mem_flatMap]
  refine exists_congr fun p => and_congr_right fun _ => ?_
  split
  · next hp =>
    simp only [List.mem_filterMap, Option.ite_none_right_eq_some, Option.some.injEq, Bool.and_eq_true, bne_iff_ne]
    constructor
    · rintro ⟨q, h1, ⟨h2, h3⟩, h4⟩; exact ⟨q, h1, hp, h2, h3, h4.symm⟩
    · rintro ⟨q, h1, _, h2, h3, h4⟩; exact ⟨q, h1, ⟨h2, h3⟩, h4.symm⟩
  · next hp =>
    simp only [List.not_mem_nil, false_iff]
    rintro ⟨q, _, h, _⟩
    exact hp h

/-- The edges of all simplices: each is one of the sample graph, with its weight. -/
theorem edges_spec {D : Nat} {ids : List Nat} {S : List (List Nat)} (h : SampleOk D ids S) (w : Nat → Nat → Int) (e : Edge) :
    e ∈ S.flatMap (pairs D (translation ids) w) ↔ e.1 ≠ e.2.1 ∧ ∃ vs ∈ S, ∃ p ∈ vs, ∃ q ∈ vs, ids[e.1]? = some p ∧
      ids[e.2.1]? = some q ∧ e.2.2 = w p q := by
  rw [List.mem_flatMap]
  constructor
  · rintro ⟨vs, hvs, he⟩
    obtain ⟨p, hp, q, hq, fp, fq, hne, rfl⟩ := mem_pairs.mp he
    have mp := (h.verts vs hvs p hp).resolve_right (by simp [fp])
    have mq := (h.verts vs hvs q hq).resolve_right (by simp [fq])
    exact ⟨hne, vs, hvs, p, hp, q, hq, ix_translation mp, ix_translation mq, rfl⟩
  · rintro ⟨hne, vs, hvs, p, hp, q, hq, h1, h2, h3⟩
    refine ⟨vs, hvs, mem_pairs.mpr ⟨p, hp, q, hq, h.finite p (List.mem_of_getElem? h1), h.finite q (List.mem_of_getElem? h2), ?_, ?_⟩⟩
    · rw [ix_get h.nodup h1, ix_get h.nodup h2]; exact hne
    · rw [ix_get h.nodup h1, ix_get h.nodup h2, ← h3]

/-! ### Rows -/

/-- The entries of the nodes are the rows `R`. -/
structure Rows (n : Nat) (R : Nat → List (Nat × Int)) (g : Graph) : Prop where
  len : g.recs.length = n + 1
  recs : ∀ i, i ≤ n → g.recs[i]? = some (∑ k ∈ Finset.range i, (R k).length)
  alen : g.adj.length = ∑ k ∈ Finset.range n, (R k).length
  wlen : g.wts.length = g.adj.length
  row : ∀ i, i < n → ∀ m x, (R i)[m]? = some x → g.adj[(∑ k ∈ Finset.range i, (R k).length) + m]? = some x.1 ∧
    g.wts[(∑ k ∈ Finset.range i, (R k).length) + m]? = some x.2

theorem Rows.graphOk {D : Nat} {ids : List Nat} {S : List (List Nat)} (h : SampleOk D ids S) {w : Nat → Nat → Int}
    {R : Nat → List (Nat × Int)} {g : Graph} (hr : Rows ids.length R g) (hnd : ∀ i, i < ids.length → ((R i).map Prod.fst).Nodup)
    (hmem : ∀ i, i < ids.length → ∀ x, x ∈ R i ↔ (i, x.1, x.2) ∈ S.flatMap (pairs D (translation ids) w)) : GraphOk ids w S g := by
  have hlt : ∀ i b, g.recs[i + 1]? = some b → i < ids.length := by
    intro i b hb
    have := (List.getElem?_eq_some_iff.mp hb).1
    rw [hr.len] at this
    omega
  have hrec : ∀ i a b, g.recs[i]? = some a → g.recs[i + 1]? = some b →
      a = ∑ k ∈ Finset.range i, (R k).length ∧ b = a + (R i).length := by
    intro i a b ha hb
    have hi := hlt i b hb
    rw [hr.recs i hi.le] at ha
    rw [hr.recs (i + 1) hi, Finset.sum_range_succ] at hb
    cases ha
    exact ⟨rfl, (Option.some.inj hb).symm⟩
  have hrow : ∀ i a b, g.recs[i]? = some a → g.recs[i + 1]? = some b → ∀ k, a ≤ k → k < b → ∃ x, (R i)[k - a]? = some x ∧
      g.adj[k]? = some x.1 ∧ g.wts[k]? = some x.2 := by
    intro i a b ha hb k h1 h2
    obtain ⟨e1, e2⟩ := hrec i a b ha hb
    have hk : k - a < (R i).length := by omega
    obtain ⟨g1, g2⟩ := hr.row i (hlt i b hb) (k - a) _ (List.getElem?_eq_getElem hk)
    rw [← e1, Nat.add_sub_cancel' h1] at g1 g2
    exact ⟨_, List.getElem?_eq_getElem hk, g1, g2⟩
  refine ⟨hr.len, by rw [hr.recs 0 (Nat.zero_le _)]; simp, fun i a b ha hb => ?_, by rw [hr.recs _ le_rfl, hr.alen], hr.wlen, ?_, ?_, ?_⟩
  · have := (hrec i a b ha hb).2
    omega
  · intro i lo hi ha hb j
    have hi' := hlt i hi hb
    obtain ⟨e1, e2⟩ := hrec i lo hi ha hb
    have key : (∃ x ∈ R i, x.1 = j) ↔ i ≠ j ∧ ∃ vs ∈ S, ∃ p ∈ vs, ∃ q ∈ vs, ids[i]? = some p ∧ ids[j]? = some q := by
      constructor
      · rintro ⟨x, hx, rfl⟩
        rw [hmem i hi', edges_spec h] at hx
        obtain ⟨hne, vs, hvs, p, hp, q, hq, k1, k2, _⟩ := hx
        exact ⟨hne, vs, hvs, p, hp, q, hq, k1, k2⟩
      · rintro ⟨hne, vs, hvs, p, hp, q, hq, k1, k2⟩
        exact ⟨(j, w p q), (hmem i hi' _).mpr ((edges_spec h w _).mpr ⟨hne, vs, hvs, p, hp, q, hq, k1, k2, rfl⟩), rfl⟩
    rw [← key]
    constructor
    · rintro ⟨k, h1, h2, h3⟩
      obtain ⟨x, g1, g2, _⟩ := hrow i lo hi ha hb k h1 h2
      rw [h3] at g2
      exact ⟨x, List.mem_of_getElem? g1, (Option.some.inj g2).symm⟩
    · rintro ⟨x, hx, rfl⟩
      obtain ⟨m, hm, hmx⟩ := List.mem_iff_getElem.mp hx
      refine ⟨lo + m, by omega, by omega, ?_⟩
      rw [e1]
      exact (hr.row i hi' m x (by rw [List.getElem?_eq_getElem hm, hmx])).1
  · intro i lo hi ha hb j k l hk1 hk2 hl1 hl2 hkj hlj
    have hi' := hlt i hi hb
    obtain ⟨x, g1, g2, _⟩ := hrow i lo hi ha hb k hk1 hk2
    obtain ⟨y, f1, f2, _⟩ := hrow i lo hi ha hb l hl1 hl2
    rw [hkj] at g2
    rw [hlj] at f2
    have g1' : ((R i).map Prod.fst)[k - lo]? = some j := by rw [List.getElem?_map, g1, Option.map_some, ← g2]
    have f1' : ((R i).map Prod.fst)[l - lo]? = some j := by rw [List.getElem?_map, f1, Option.map_some, ← f2]
    obtain ⟨b1, b2⟩ := List.getElem?_eq_some_iff.mp g1'
    obtain ⟨c1, c2⟩ := List.getElem?_eq_some_iff.mp f1'
    have := (hnd i hi').getElem_inj_iff.mp (b2.trans c2.symm)
    omega
  · intro i lo hi ha hb j k p q hk1 hk2 hkj hp hq
    have hi' := hlt i hi hb
    obtain ⟨x, g1, g2, g3⟩ := hrow i lo hi ha hb k hk1 hk2
    rw [hkj] at g2
    have hx := (edges_spec h w _).mp ((hmem i hi' x).mp (List.mem_of_getElem? g1))
    obtain ⟨_, vs, _, p', _, q', _, k1, k2, k3⟩ := hx
    rw [hp] at k1
    have e2 : x.1 = j := (Option.some.inj g2).symm
    dsimp only at k2 k3
    rw [e2, hq] at k2
    cases k1
    cases k2
    rw [g3, k3]

/-! ### makeGraph_sequential -/

theorem toGraphLoop_spec : ∀ (ls : List (List (Nat × Int))) (cur : Nat) (g : Graph), cur = g.adj.length →
    toGraphLoop ls cur g = ⟨g.recs ++ (List.range (ls.length + 1)).map fun i => cur + ((ls.take i).map List.length).sum,
      g.adj ++ ls.flatten.map Prod.fst, g.wts ++ ls.flatten.map Prod.snd⟩
  | [], cur, g, h => by simp [toGraphLoop, h]
  | l :: ls, cur, g, h => by
    rw [toGraphLoop, toGraphLoop_spec ls _ _ (by simp [h])]
    rw [List.length_cons, List.range_succ_eq_map (n := ls.length + 1)]
    simp [Function.comp_def, Nat.add_assoc]

theorem sum_take_lengths (ls : List (List (Nat × Int))) : ∀ i, i ≤ ls.length →
    ((ls.take i).map List.length).sum = ∑ k ∈ Finset.range i, (ls[k]?.getD []).length := by
  intro i
  induction i with
  | zero => simp
  | succ i ih =>
    intro hi
    rw [Finset.sum_range_succ, ← ih (by omega), List.take_succ, List.map_append, List.sum_append]
    rw [List.getElem?_eq_getElem (by omega)]
    simp

theorem flatten_get : ∀ (ls : List (List (Nat × Int))) (i m : Nat) (x : Nat × Int), (ls[i]?.getD [])[m]? = some x →
    ls.flatten[((ls.take i).map List.length).sum + m]? = some x
  | [], i, m, x, h => by simp at h
  | l :: ls, 0, m, x, h => by
    simp only [List.getElem?_cons_zero, Option.getD_some] at h
    simp only [List.take_zero, List.map_nil, List.sum_nil, Nat.zero_add, List.flatten_cons]
    rw [List.getElem?_append_left (List.getElem?_eq_some_iff.mp h).1, h]
  | l :: ls, i + 1, m, x, h => by
    simp only [List.getElem?_cons_succ] at h
    simp only [List.take_succ_cons, List.map_cons, List.sum_cons, List.flatten_cons]
    rw [List.getElem?_append_right (by omega), Nat.add_assoc, Nat.add_sub_cancel_left]
    exact flatten_get ls i m x h

theorem toGraph_rows (ls : List (List (Nat × Int))) : Rows ls.length (fun i => ls[i]?.getD []) (toGraph ls) := by
  rw [toGraph, toGraphLoop_spec ls 0 ⟨[], [], []⟩ rfl]
  have hlen : ls.flatten.length = ∑ k ∈ Finset.range ls.length, (ls[k]?.getD []).length := by
    rw [← sum_take_lengths ls _ le_rfl, List.take_length, List.length_flatten]
  refine ⟨by simp, fun i hi => ?_, by simp only [List.nil_append, List.length_map]; exact hlen, by simp only [List.nil_append, List.length_map], fun i hi m x hx => ?_⟩
  · simp only [List.nil_append, List.getElem?_map, List.getElem?_range (show i < ls.length + 1 by omega), Option.map_some, Nat.zero_add]
    rw [sum_take_lengths ls i hi]
  · have := flatten_get ls i m x hx
    rw [sum_take_lengths ls i hi.le] at this
    simp only [List.nil_append, List.getElem?_map, this, Option.map_some, and_self]

theorem pushAll_spec : ∀ (es : List Edge) (ls : List (List (Nat × Int))), (∀ e ∈ es, e.1 < ls.length) →
    ∃ ls', pushAll es ls = some ls' ∧ ls'.length = ls.length ∧ ∀ i, i < ls.length →
      ls'[i]?.getD [] = ls[i]?.getD [] ++ (es.filter fun e => e.1 == i).map fun e => e.2
  | [], ls, _ => ⟨ls, rfl, rfl, fun i _ => by simp⟩
  | (i, j, w) :: es, ls, h => by
    have hi : i < ls.length := h (i, j, w) (by simp)
    obtain ⟨ls', h1, h2, h3⟩ := pushAll_spec es (ls.modify i fun l => l ++ [(j, w)])
      (fun e he => by rw [List.length_modify]; exact h e (by simp [he]))
    rw [List.length_modify] at h2 h3
    refine ⟨ls', by rw [pushAll, if_pos hi, h1], h2, fun k hk => ?_⟩
    rw [h3 k hk, List.getElem?_modify]
    by_cases e : i = k
    · subst e
      simp [List.getElem?_eq_getElem hi]
    · simp [e]

theorem unique_spec : ∀ (l : List (Nat × Int)), l.Pairwise (fun a b => a.1 ≤ b.1) → (∀ a ∈ l, ∀ b ∈ l, a.1 = b.1 → a = b) →
    (∀ x, x ∈ unique l ↔ x ∈ l) ∧ (unique l).Pairwise (fun a b => a.1 < b.1)
  | [], _, _ => by simp [unique]
  | [a], _, _ => by simp [unique]
  | a :: b :: l, hs, hf => by
    obtain ⟨h1, h2⟩ := unique_spec (b :: l) hs.tail (fun x hx y hy => hf x (List.mem_cons_of_mem _ hx) y (List.mem_cons_of_mem _ hy))
    rw [unique]
    split
    · next e =>
      subst e
      refine ⟨fun x => ?_, h2⟩
      rw [h1]
      simp
    · next e =>
      refine ⟨fun x => by rw [List.mem_cons, h1, List.mem_cons (l := b :: l)], List.pairwise_cons.mpr ⟨fun x hx => ?_, h2⟩⟩
      rw [h1] at hx
      have hle := (List.pairwise_cons.mp hs).1 x hx
      refine lt_of_le_of_ne hle fun heq => e ?_
      have hax := hf a (by simp) x (List.mem_cons_of_mem _ hx) heq
      have hab : a.1 ≤ b.1 := (List.pairwise_cons.mp hs).1 b (by simp)
      rcases List.mem_cons.mp hx with rfl | hx'
      · exact hax
      · have hba : b.1 ≤ x.1 := (List.pairwise_cons.mp hs.tail).1 x hx'
        exact hf a (by simp) b (by simp) (by rw [← heq] at hba; omega)

theorem sanitize_spec {l : List (Nat × Int)} (hf : ∀ a ∈ l, ∀ b ∈ l, a.1 = b.1 → a = b) :
    (∀ x, x ∈ sanitize l ↔ x ∈ l) ∧ (sanitize l).Pairwise (fun a b => a.1 < b.1) := by
  have hp := l.perm_insertionSort (fun a b : Nat × Int => a.1 ≤ b.1)
  have : Std.Total (fun a b : Nat × Int => a.1 ≤ b.1) := ⟨fun a b => le_total _ _⟩
  have : IsTrans (Nat × Int) (fun a b : Nat × Int => a.1 ≤ b.1) := ⟨fun a b c => le_trans⟩
  obtain ⟨h1, h2⟩ := unique_spec (l.insertionSort fun a b => a.1 ≤ b.1) (l.pairwise_insertionSort _)
    (fun a ha b hb => hf a (hp.mem_iff.mp ha) b (hp.mem_iff.mp hb))
  exact ⟨fun x => by rw [sanitize, h1, hp.mem_iff], h2⟩

/-- Rows of the graph of the sequential version: sorted. -/
theorem makeGraphSeq_rows {D : Nat} {ids : List Nat} {S : List (List Nat)} (h : SampleOk D ids S) (w : Nat → Nat → Int) :
    ∃ (R : Nat → List (Nat × Int)) (g : Graph), makeGraphSeq D ids.length (translation ids) w S = some g ∧ Rows ids.length R g ∧
      (∀ i, i < ids.length → (R i).Pairwise fun x y => x.1 < y.1) ∧
      ∀ i, i < ids.length → ∀ x, x ∈ R i ↔ (i, x.1, x.2) ∈ S.flatMap (pairs D (translation ids) w) := by
  obtain ⟨ls, h1, h2, h3⟩ := pushAll_spec (S.flatMap (pairs D (translation ids) w)) (List.replicate ids.length []) (by
    intro e he
    obtain ⟨_, _, _, p, _, q, _, k1, _⟩ := (edges_spec h w e).mp he
    rw [List.length_replicate]
    exact (List.getElem?_eq_some_iff.mp k1).1)
  rw [List.length_replicate] at h2 h3
  have hrow : ∀ i, i < ids.length → ls[i]?.getD [] = ((S.flatMap (pairs D (translation ids) w)).filter fun e => e.1 == i).map fun e => e.2 := by
    intro i hi
    rw [h3 i hi, List.getElem?_replicate, if_pos hi]
    simp
  have hmem : ∀ i, i < ids.length → ∀ x, x ∈ ls[i]?.getD [] ↔ (i, x.1, x.2) ∈ S.flatMap (pairs D (translation ids) w) := by
    intro i hi x
    rw [hrow i hi, List.mem_map]
    constructor
    · rintro ⟨⟨a, b⟩, he, rfl⟩
      obtain ⟨he1, he2⟩ := List.mem_filter.mp he
      simp only [beq_iff_eq] at he2
      subst he2
      exact he1
    · intro hx
      exact ⟨(i, x.1, x.2), List.mem_filter.mpr ⟨hx, by simp⟩, rfl⟩
  have hfun : ∀ i, i < ids.length → ∀ a ∈ ls[i]?.getD [], ∀ b ∈ ls[i]?.getD [], a.1 = b.1 → a = b := by
    intro i hi a ha b hb hab
    obtain ⟨_, _, _, p, _, q, _, k1, k2, k3⟩ := (edges_spec h w _).mp ((hmem i hi a).mp ha)
    obtain ⟨_, _, _, p', _, q', _, k1', k2', k3'⟩ := (edges_spec h w _).mp ((hmem i hi b).mp hb)
    dsimp only at k1 k2 k3 k1' k2' k3'
    rw [k1] at k1'
    rw [← hab, k2] at k2'
    cases k1'
    cases k2'
    exact Prod.ext hab (k3.trans k3'.symm)
  have hR : ∀ i, i < ids.length → (ls.map sanitize)[i]?.getD [] = sanitize (ls[i]?.getD []) := by
    intro i hi
    rw [List.getElem?_map, List.getElem?_eq_getElem (by omega)]
    rfl
  have hr := toGraph_rows (ls.map sanitize)
  rw [List.length_map, h2] at hr
  refine ⟨_, toGraph (ls.map sanitize), by rw [makeGraphSeq, h1, Option.map_some], hr, ?_, ?_⟩
  · intro i hi
    rw [hR i hi]
    exact (sanitize_spec (hfun i hi)).2
  · intro i hi x
    rw [hR i hi, (sanitize_spec (hfun i hi)).1, hmem i hi]

/-- The entries of the nodes of a graph are in increasing order. -/
def Graph.Sorted (g : Graph) : Prop :=
  ∀ i lo hi, g.recs[i]? = some lo → g.recs[i + 1]? = some hi → ∀ k a b, lo ≤ k → k + 1 < hi → g.adj[k]? = some a →
    g.adj[k + 1]? = some b → a < b

theorem Rows.sorted {n : Nat} {R : Nat → List (Nat × Int)} {g : Graph} (hr : Rows n R g)
    (hs : ∀ i, i < n → (R i).Pairwise fun x y => x.1 < y.1) : g.Sorted := by
  intro i lo hi ha hb k a b hk1 hk2 hka hkb
  have hi' : i < n := by
    have := (List.getElem?_eq_some_iff.mp hb).1
    rw [hr.len] at this
    omega
  rw [hr.recs i hi'.le] at ha
  rw [hr.recs (i + 1) hi', Finset.sum_range_succ] at hb
  cases ha
  have hb := Option.some.inj hb
  obtain ⟨x, hx⟩ : ∃ x, (R i)[k - ∑ k ∈ Finset.range i, (R k).length]? = some x := ⟨_, List.getElem?_eq_getElem (by omega)⟩
  obtain ⟨y, hy⟩ : ∃ y, (R i)[k + 1 - ∑ k ∈ Finset.range i, (R k).length]? = some y := ⟨_, List.getElem?_eq_getElem (by omega)⟩
  have g1 := (hr.row i hi' _ _ hx).1
  have g2 := (hr.row i hi' _ _ hy).1
  rw [Nat.add_sub_cancel' hk1] at g1
  rw [Nat.add_sub_cancel' (by omega)] at g2
  rw [hka] at g1
  rw [hkb] at g2
  rw [Option.some.inj g1, Option.some.inj g2]
  obtain ⟨c1, c2⟩ := List.getElem?_eq_some_iff.mp hx
  obtain ⟨d1, d2⟩ := List.getElem?_eq_some_iff.mp hy
  rw [← c2, ← d2]
  exact List.pairwise_iff_getElem.mp (hs i hi') _ _ c1 d1 (by omega)

/-- **C68 (sequential).** `makeGraph_sequential` returns the graph of the triangulation; the entries of every node are
sorted. -/
theorem C68_sequential {D : Nat} {ids : List Nat} {S : List (List Nat)} (h : SampleOk D ids S) (w : Nat → Nat → Int) :
    ∃ g, makeGraphSeq D ids.length (translation ids) w S = some g ∧ GraphOk ids w S g ∧ g.Sorted := by
  obtain ⟨R, g, h1, h2, h3, h4⟩ := makeGraphSeq_rows h w
  exact ⟨g, h1, h2.graphOk h (fun i hi => List.pairwise_map.mpr ((h3 i hi).imp fun h => ne_of_lt h)) h4, h2.sorted h3⟩

end Samp
end Verif
